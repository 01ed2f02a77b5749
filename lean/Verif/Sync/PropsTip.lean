import Verif.Sync.Props

/-!
# Header synchronization: every new tip is reported
-/

set_option autoImplicit false

namespace Verif.Sync
open Verif.Chain (Header State Err ImportResult)

variable {cfg : Cfg} {U : Header → Prop} {fail : Bool} {P : State → Op → Prop} {t0 : State} {g : Header}
variable {m m' : Mgr} {t t' : State} {h : Hist} {op : Op}

theorem mem_tipReport {env : Env} {hash height : Nat} {rv cn : List (Nat × Header)} :
    Out.imported (!rv.isEmpty) hash height cn rv ∈ tipReport env m t hash height rv cn := by simp [tipReport, tipEvents]

theorem step_imported (l : op.Legal U fail) (e : { m with out := [] }.step cfg t op = .ok (m', t')) :
    t' = t ∨ ∃ r, Chain.importBlocks cfg.chain t op.batch = (t', r) ∧
      ∀ header hash height rv cn, r = .ok (.tipChanged header hash height rv cn) → Out.imported (!rv.isEmpty) hash height cn rv ∈ m'.out := by
  cases op with
  | gone a =>
    simp only [Mgr.step, Res.ok.injEq, Prod.mk.injEq] at e
    exact .inl e.2.symm
  | headers env now a hs =>
    cases headers_ok e with
    | misbehaved => exact .inl rfl
    | ignored => exact .inl rfl
    | known => exact .inl rfl
    | aborted hlen hi hp hr =>
      refine .inr ⟨_, rfl, fun header hash height rv cn hc => ?_⟩
      rw [show (Chain.importBlocks cfg.chain t hs).2 = _ from hc] at hr; simp at hr
    | unchanged hlen hi hp hr hf' hl e1 =>
      refine .inr ⟨_, rfl, fun header hash height rv cn hc => ?_⟩
      rw [show (Chain.importBlocks cfg.chain t hs).2 = _ from hc] at hr; simp at hr
    | @changed p r header hash height rv cn hlen hi hp hr e1 =>
      refine .inr ⟨_, rfl, fun header' hash' height' rv' cn' hc => ?_⟩
      rw [show (Chain.importBlocks cfg.chain t hs).2 = _ from hc] at hr
      cases hr
      obtain ⟨o, h1, h2⟩ := sync_ok e1
      rw [h1.out, broadcastTip_eq]
      simp only [(updated_fields (env := env)).2.1]
      simp only [Mgr.heard, List.nil_append, List.mem_append]
      exact .inl (.inl mem_tipReport)
    | @full p m' header hash height rv cn hlen hi hp hr e1 =>
      refine .inr ⟨_, rfl, fun header' hash' height' rv' cn' hc => ?_⟩
      rw [show (Chain.importBlocks cfg.chain t hs).2 = _ from hc] at hr
      cases hr
      obtain ⟨o, h1, h2⟩ := request_ok (K := (· = .disconnect)) e1 rfl
      rw [h1.out]
      simp only [(updated_fields (env := env)).2.1]
      simp only [Mgr.heard, List.nil_append, List.mem_append]
      exact .inl mem_tipReport
  | userImport env hs =>
    simp only [Mgr.step, Mgr.userImport] at e
    split at e
    · simp at e
    · simp only [Res.ok.injEq, Prod.mk.injEq] at e
      obtain ⟨rfl, rfl⟩ := e
      refine .inr ⟨_, rfl, fun header hash height rv cn hc => ?_⟩
      rw [show (Chain.importBlocks cfg.chain t hs).2 = _ from hc, report_changed]
      simp only [List.nil_append]
      exact mem_tipReport
  | _ =>
    simp only [Mgr.step, Res.bind_eq_ok, Res.ok.injEq, Prod.mk.injEq] at e
    obtain ⟨m1, -, -, e2⟩ := e
    exact .inl e2.symm

/-- **C52 (every new tip is reported).** If the import succeeds and the active chain is another one afterwards, the new tip is reported with its height. -/
theorem C52_tip_reported (ha : Chain.Acyclic cfg.chain U) (cf : Chain.CollisionFree cfg.chain U) (hg : cfg.chain.genesisHash = cfg.chain.hash g)
    (h0 : Chain.Reach cfg.chain U g fail t0) (r : Run cfg U fail P t0 h m t) (l : op.Legal U fail)
    (e : { m with out := [] }.step cfg t op = .ok (m', t')) (hok : ∃ q, (Chain.importBlocks cfg.chain t op.batch).2 = .ok q) (hne : t'.iter ≠ t.iter) :
    ∃ reorg cn rv, Out.imported reorg (t'.tip cfg.chain).1 t'.height cn rv ∈ m'.out := by
  obtain ⟨q, hq⟩ := hok
  rcases step_imported l e with rfl | ⟨r', h1, h2⟩
  · exact absurd rfl hne
  · rw [h1] at hq
    simp only at hq
    subst hq
    have h4 := Chain.C06_batch_report_partial ha cf hg (run_reach h0 r) l.2 h1
    cases q with
    | tipUnchanged => exact absurd h4 hne
    | tipChanged header hash height rv cn =>
      have h3 := h2 _ _ _ _ _ rfl
      obtain ⟨k1, k2, -⟩ := C52_imported ha cf hg h0 r l e h3
      rw [k1, k2] at h3
      exact ⟨_, _, _, h3⟩

end Verif.Sync
