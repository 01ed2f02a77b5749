import Verif.Node.PropsConfirm
import Verif.Node.FilterExamples

/-!
# A submitted transaction is confirmed: a concrete history
-/

set_option autoImplicit false

namespace Verif.Node.Filters
open Verif.Tx (Block Transaction OutPoint TxOut)
open Verif.Cbf.Gcs.Scenario (sb)
open Verif.Node.Scenario (not_asks not_awaited drained sent mem_sent)

theorem submittedE : ∃ o, (Input.submit mine, o) ∈ earlierE := by
  have : earlierE.any (fun x => match x.1 with | .submit t => decide (t = mine) | _ => false) = true := by decide +kernel
  obtain ⟨⟨i, o⟩, hm, he⟩ := List.any_eq_true.1 this
  cases i <;> simp at he
  subst he
  exact ⟨o, hm⟩

theorem ended_filters : (state false ended).cbf.filters.all = [(5, 6), (1, 62), (3, 624), (2, 6243), (2, 62433)] := by decide +kernel

theorem only42E : Only conf sb coin (state false ended) 2 block42 := ⟨by decide, fun f hf => by
  have := filter_hash (hdr := 624) (prev := 62) hf (by rw [ended_filters]; rfl) (by rw [ended_filters]; rfl)
  rw [filters_eq.2.2.2]
  exact of_hash.2.2 (by omega)⟩

/-- The hypotheses of `C138_confirmed_partial` are met: after a re-org, the transaction is reported as confirmed. -/
example : ∃ block k, Out.inv (.confirmed mine.txid block k) ∈ outputs (hist false ended) := by
  obtain ⟨o, ho⟩ := submittedE
  have hp : 2 < progress 1 (outputs (laterE ++ [(.rescan (.included 1) .unbounded [1], outsE)])) := by decide +kernel
  rw [splitE]
  refine C138_confirmed_partial real ctx collisionFree (splitE ▸ ended_run) (not_asks (by decide +kernel)) (splitE ▸ not_awaited ended_awaited)
    (drained (by decide +kernel)) ho ?_ ?_ (by decide) hp (b := block42) (by decide +kernel) only42E (by decide) ?_
  · rw [← splitE]
    have h1 : ∀ t ∈ followed (hist false ended), t = mine := by decide +kernel
    intro t' ht'
    rw [h1 t' (mem_followed ht')]
    exact ⟨fun _ => rfl, fun _ => rfl⟩
  · intro o ho
    have : ∀ o ∈ mine.outputs, o.script = 9 ∨ o.script = 2 := by decide
    rcases this o ho with e | e <;> rw [e] <;> exact ⟨by decide, by intro l h; cases h⟩
  · rw [← splitE]
    have key : ∀ b ∈ sent (hist false ended), b.hash = block42.hash → b = block42 := by decide +kernel
    exact fun b' hb => key b' (mem_sent hb)

end Verif.Node.Filters
