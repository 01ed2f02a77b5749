import Verif.Sync.Reports

/-!
# The order of the reports of a changed chain
-/

set_option autoImplicit false

namespace Verif.Sync
open Verif.Chain (Header State Err ImportResult)

variable {cfg : Cfg} {U : Header → Prop} {fail : Bool} {env : Env} {now : Nat} {h : Hist} {m m' : Mgr} {t t' : State}

/-- Outputs about blocks that joined or left the active chain. -/
def Out.isReport (o : Out) : Bool := o.isBlock || o.isImported

theorem report_none {o : List Out} (hq : ∀ x ∈ o, x.isReport = false) : o.filter Out.isReport = [] := by
  rw [List.filter_eq_nil_iff]
  intro x hx; rw [hq x hx]; simp

theorem report_tipEvents (hash height : Nat) (rv cn : List (Nat × Header)) : (tipEvents hash height rv cn).filter Out.isReport = tipEvents hash height rv cn := by
  rw [List.filter_eq_self]
  intro x hx
  simp only [tipEvents, List.mem_append, List.mem_map, List.mem_singleton] at hx
  rcases hx with (⟨p, -, rfl⟩ | ⟨p, -, rfl⟩) | rfl <;> rfl

theorem announcements_noReport (hash : Nat) : ∀ x ∈ announcements env m t hash, x.isReport = false := by
  intro x hx
  unfold announcements at hx
  split at hx
  · simp at hx
  · rw [List.mem_filterMap] at hx
    obtain ⟨a, -, h⟩ := hx
    split at h
    · split at h
      · cases h; rfl
      · simp at h
    · simp at h

theorem syncOut_noReport {x : Out} (hx : SyncOut cfg m t now x) : x.isReport = false := by
  cases x <;> first | rfl | exact hx.elim

/-- Nothing is reported, or one change of the chain is: blocks that left, blocks that joined, and the whole, in this order. -/
theorem step_reports {op : Op} (i0 : Inv cfg h m) (l : op.Legal U fail) (e : { m with out := [] }.step cfg t op = .ok (m', t')) :
    m'.out.filter Out.isReport = [] ∨
    ∃ hash height rv cn, Changed cfg t op t' hash height rv cn ∧ m'.out.filter Out.isReport = tipEvents hash height rv cn := by
  have hf := step_from i0 l e
  have quiet : (∀ hash n rv cn, ¬ Changed cfg t op t' hash n rv cn) → m'.out.filter Out.isReport = [] := by
    intro no
    refine report_none fun x hx => ?_
    have h1 := hf x hx
    cases x with
    | connected n y => obtain ⟨_, _, _, _, hc, -⟩ := h1; exact (no _ _ _ _ hc).elim
    | disconnected n y => obtain ⟨_, _, _, _, hc, -⟩ := h1; exact (no _ _ _ _ hc).elim
    | imported => exact (no _ _ _ _ h1.1).elim
    | _ => rfl
  by_cases hch : ∀ hash n rv cn, ¬ Changed cfg t op t' hash n rv cn
  · exact .inl (quiet hch)
  · simp only [not_forall, not_not] at hch
    obtain ⟨hash0, n0, rv0, cn0, hx, hc⟩ := hch
    cases op with
    | headers env now a hs =>
      simp only [Op.batch] at hc
      cases headers_ok e with
      | misbehaved => exact .inl rfl
      | ignored => exact .inl rfl
      | known => exact .inl rfl
      | aborted hlen hi hp hr => rw [Prod.ext_iff, hr] at hc; cases hc.2
      | unchanged hlen hi hp hr hf' hl e1 => rw [Prod.ext_iff, hr] at hc; cases hc.2
      | @changed p r header hash height rv cn hlen hi hp hr e1 =>
        refine .inr ⟨hash, height, rv, cn, ⟨header, Prod.ext rfl hr⟩, ?_⟩
        obtain ⟨o, h1, h2⟩ := sync_ok e1
        rw [h1.out, broadcastTip_eq]
        simp only [(updated_fields (env := env)).2.1]
        simp only [Mgr.heard, List.nil_append, List.filter_append, tipReport, report_tipEvents, report_none (announcements_noReport _),
          List.append_nil, report_none (fun x hx => syncOut_noReport (h2 x hx))]
      | @full p m' header hash height rv cn hlen hi hp hr e1 =>
        refine .inr ⟨hash, height, rv, cn, ⟨header, Prod.ext rfl hr⟩, ?_⟩
        obtain ⟨o, h1, h2⟩ := request_ok (K := (· = .disconnect)) e1 rfl
        rw [h1.out]
        simp only [(updated_fields (env := env)).2.1]
        have ho : o.filter Out.isReport = [] := by
          rcases h2 with ⟨rfl, -⟩ | ⟨rfl, -⟩ <;> simp [Out.isReport, Out.isBlock, Out.isImported]
        simp only [Mgr.heard, List.nil_append, List.filter_append, tipReport, report_tipEvents, report_none (announcements_noReport _), List.append_nil, ho]
    | userImport env hs =>
      simp only [Op.batch] at hc
      have hr : (Chain.importBlocks cfg.chain t hs).2 = .ok (.tipChanged hx hash0 n0 rv0 cn0) := by rw [hc]
      simp only [Mgr.step, Mgr.userImport] at e
      split at e
      · simp at e
      · simp only [Res.ok.injEq, Prod.mk.injEq] at e
        obtain ⟨rfl, rfl⟩ := e
        refine .inr ⟨hash0, n0, rv0, cn0, ⟨hx, hc⟩, ?_⟩
        rw [hr, report_changed]
        simp only [List.nil_append, List.filter_append, tipReport, report_tipEvents, report_none (announcements_noReport _), List.append_nil]
    | _ => cases hc

/-- After the whole was reported, nothing else is. -/
theorem step_lined {op : Op} (i0 : Inv cfg h m) (l : op.Legal U fail) (e : { m with out := [] }.step cfg t op = .ok (m', t')) :
    m'.out.Pairwise (fun a b => a.isImported = true → b.isReport = false) := by
  have key : (m'.out.filter Out.isReport).Pairwise (fun a b => a.isImported = true → b.isReport = false) := by
    rcases step_reports i0 l e with h1 | ⟨hash, height, rv, cn, -, h1⟩
    · rw [h1]; exact .nil
    · rw [h1]
      unfold tipEvents
      rw [List.pairwise_append]
      refine ⟨?_, List.pairwise_singleton .., ?_⟩
      · refine List.Pairwise.imp_of_mem (R := fun _ _ => True) ?_ (List.pairwise_of_forall (fun _ _ => trivial))
        intro a b ha _ _ hi
        simp only [List.mem_append, List.mem_map] at ha
        rcases ha with ⟨p, -, rfl⟩ | ⟨p, -, rfl⟩ <;> cases hi
      · intro a ha b _ hi
        simp only [List.mem_append, List.mem_map] at ha
        rcases ha with ⟨p, -, rfl⟩ | ⟨p, -, rfl⟩ <;> cases hi
  rw [List.pairwise_filter] at key
  refine key.imp fun {a b} hab hi => ?_
  cases hb : b.isReport with
  | false => rfl
  | true => rw [hab (by simp [Out.isReport, hi]) hb hi] at hb; cases hb

end Verif.Sync
