import Verif.Handle.Model
import Verif.Inv.Props

/-!
# The client handle: submitting transactions
-/

set_option autoImplicit false

namespace Verif.Handle
open Verif.Tx (Transaction)

/-! ## C100: submitting transactions -/

section Submit
variable {c : Bool} {h : Inv.Hist} {m m' : Inv.Mgr} {t : Transaction}

/-- **C100.** The peers returned by `submit_transaction` are the connected peers that relay transactions, and for each of them the transaction is queued: it is in the
next announcement to it, unless it asks for the transaction before.  There is an error exactly if there are no such peers. -/
theorem C100_submitted (r : Inv.Run c h m) (e : { m with out := [] }.step c (.announce t) = .ok m') :
    (∀ l, submitted m' = some l → l ≠ [] ∧ ∀ a, a ∈ l ↔ ∃ f, Inv.connected a h = some f ∧ f.relay = true) ∧
    (submitted m' = none ↔ ∀ a f, Inv.connected a h = some f → f.relay = false) ∧
    (∀ a f, Inv.connected a h = some f → f.relay = true → Inv.Queued a t.wtxid ((.announce t, m'.out) :: h)) ∧
    Inv.pending ((.announce t, m'.out) :: h) t.wtxid = some t := by
  have r' : Inv.Run c ((.announce t, m'.out) :: h) m' := .step r trivial e
  have hm : ∀ a, a ∈ m'.announced ↔ ∃ f, Inv.connected a h = some f ∧ f.relay = true :=
    fun a => by have := Inv.C47_submitted_to r' a; simpa [Inv.connected] using this
  have ho : m'.out = [.timer 1000] := by cases e; rfl
  refine ⟨fun l hl => ?_, ?_, fun a f h1 h2 => .inr ⟨rfl, f, h1, h2⟩, ?_⟩
  · unfold submitted at hl
    by_cases he : m'.announced.isEmpty = true
    · rw [if_pos he] at hl; simp at hl
    · rw [if_neg he] at hl
      cases hl
      exact ⟨by simpa using he, hm⟩
  · unfold submitted
    by_cases he : m'.announced.isEmpty = true
    · rw [if_pos he]
      simp only [true_iff]
      intro a f hf
      cases hr : f.relay with
      | false => rfl
      | true =>
        have := (hm a).2 ⟨f, hf, hr⟩
        rw [List.isEmpty_iff.1 he] at this
        simp at this
    · rw [if_neg he]
      simp only [reduceCtorEq, false_iff]
      intro hc
      obtain ⟨a, ha⟩ := List.exists_mem_of_ne_nil _ (by simpa using he : m'.announced ≠ [])
      obtain ⟨f, h1, h2⟩ := (hm a).1 ha
      rw [hc a f h1] at h2; simp at h2
  · simp [Inv.pending, ho, Inv.settle]

/-- **C100 (after an error).** Even if there was an error because no peer is connected, the transaction is kept: it is announced to the next peer that connects, when
the timer fires. -/
theorem C100_kept (r : Inv.Run c h m) (e : { m with out := [] }.step c (.announce t) = .ok m') {m2 m3 : Inv.Mgr} {a : Nat} {network relay wtxid : Bool}
    (e2 : { m' with out := [] }.step c (.negotiated a network relay wtxid) = .ok m2) {env : Inv.Env} (le : env.Legal) {now height : Nat} (hnow : 60000 ≤ now)
    (e3 : { m2 with out := [] }.step c (.timer env now height) = .ok m3) :
    ∃ ids, Inv.Out.inv a wtxid ids ∈ m3.out ∧ (if wtxid then t.wtxid else t.txid) ∈ ids := by
  have h1 := (C100_submitted r e).2.2.2
  have ho : m2.out = [.timer 1000] := by cases e2; rfl
  have r2 : Inv.Run c ((.negotiated a network relay wtxid, m2.out) :: (.announce t, m'.out) :: h) m2 := .step (.step r trivial e) trivial e2
  have q : Inv.Queued a t.wtxid ((.negotiated a network relay wtxid, m2.out) :: (.announce t, m'.out) :: h) := by
    simp only [Inv.Queued, if_true, h1, ne_eq, reduceCtorEq, not_false_eq_true]
  have hs : Inv.sent a ((.negotiated a network relay wtxid, m2.out) :: (.announce t, m'.out) :: h) = [] := by simp [Inv.sent]
  obtain ⟨bw, ids, hi⟩ := (Inv.C49_announced r2 le e3 a).2 ⟨⟨_, q⟩, by rw [hs]; simpa using hnow, by rw [hs]; simp⟩
  obtain ⟨f, k1, k2, ws, -, k4, k5⟩ := Inv.C47_announced (op := .timer env now height) r2 le e3 hi
  have hf : f = ⟨network, relay, wtxid⟩ := by simpa [Inv.connected] using k1.symm
  have hb : bw = wtxid := by rw [k2, hf]
  clear k2
  subst hb
  refine ⟨ids, hi, ?_⟩
  obtain ⟨j, hj, hjt⟩ := List.getElem_of_mem ((k4 t.wtxid).2 q)
  obtain ⟨hlen, hget⟩ := List.forall₂_iff_get.1 k5
  obtain ⟨t', g1, -, g3⟩ := hget j hj (by omega)
  simp only [List.get_eq_getElem, hjt] at g1 g3
  have hp : Inv.pending ((.negotiated a network relay bw, m2.out) :: (.announce t, m'.out) :: h) t.wtxid = some t := by
    rw [← h1, Inv.pending, ho]; rfl
  rw [hp] at g1
  cases g1
  have := List.getElem_mem (l := ids) (n := j) (by omega)
  rw [g3] at this
  exact this

end Submit

end Verif.Handle
