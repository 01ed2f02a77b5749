import Verif.Sync.Events

/-!
# Every change of the active chain is reported
-/

set_option autoImplicit false

namespace Verif.Sync
open Verif.Chain (Header State Err ImportResult)

variable {cfg : Cfg} {U : Header → Prop} {fail : Bool} {h : Hist} {m m' : Mgr} {t t' : State}

/-- A changed tip is reported with all that was reverted. -/
def Reported (o : List Out) : Res Err ImportResult → Prop
  | .ok (.tipChanged _ hash height rv cn) => Out.imported (!rv.isEmpty) hash height cn rv ∈ o
  | _ => True

theorem imported_mem_tipReport (env : Env) (m : Mgr) (t : State) (hash height : Nat) (rv cn : List (Nat × Header)) :
    Out.imported (!rv.isEmpty) hash height cn rv ∈ tipReport env m t hash height rv cn := by
  simp [tipReport, tipEvents]

theorem step_reported {op : Op} (i0 : Inv cfg h m) (l : op.Legal U fail) (e : { m with out := [] }.step cfg t op = .ok (m', t')) :
    t' = t ∨ ∃ r, Chain.importBlocks cfg.chain t op.batch = (t', r) ∧ r ≠ .panic ∧ Reported m'.out r := by
  cases op with
  | gone a =>
    simp only [Mgr.step, Res.ok.injEq, Prod.mk.injEq] at e
    exact .inl e.2.symm
  | headers env now a hs =>
    have i := i0.clear
    cases headers_ok e with
    | misbehaved => exact .inl rfl
    | ignored => exact .inl rfl
    | known => exact .inl rfl
    | aborted hlen hi hp hr => exact .inr ⟨_, rfl, by show (Chain.importBlocks cfg.chain t hs).2 ≠ _; rw [hr]; simp, by show Reported _ (Chain.importBlocks cfg.chain t hs).2; rw [hr]; trivial⟩
    | unchanged hlen hi hp hr hf' hl e1 =>
      exact .inr ⟨_, rfl, by show (Chain.importBlocks cfg.chain t hs).2 ≠ _; rw [hr]; simp, by show Reported _ (Chain.importBlocks cfg.chain t hs).2; rw [hr]; trivial⟩
    | @changed p r header hash height rv cn hlen hi hp hr e1 =>
      refine .inr ⟨_, rfl, by show (Chain.importBlocks cfg.chain t hs).2 ≠ _; rw [hr]; simp, ?_⟩
      show Reported _ (Chain.importBlocks cfg.chain t hs).2
      rw [hr]
      obtain ⟨o, h1, h2⟩ := sync_ok e1
      simp only [Reported]
      rw [h1.out, broadcastTip_eq]
      simp only [(updated_fields (env := env)).2.1]
      simp [imported_mem_tipReport]
    | @full p m' header hash height rv cn hlen hi hp hr e1 =>
      refine .inr ⟨_, rfl, by show (Chain.importBlocks cfg.chain t hs).2 ≠ _; rw [hr]; simp, ?_⟩
      show Reported _ (Chain.importBlocks cfg.chain t hs).2
      rw [hr]
      obtain ⟨o, h1, h2⟩ := request_ok (K := (· = .disconnect)) e1 rfl
      simp only [Reported]
      rw [h1.out]
      simp only [(updated_fields (env := env)).2.1]
      simp [imported_mem_tipReport]
  | userImport env hs =>
    simp only [Mgr.step, Mgr.userImport] at e
    split at e
    · simp at e
    · rename_i hne
      simp only [Res.ok.injEq, Prod.mk.injEq] at e
      obtain ⟨rfl, rfl⟩ := e
      refine .inr ⟨_, rfl, hne, ?_⟩
      show Reported _ (Chain.importBlocks cfg.chain t hs).2
      cases hr : (Chain.importBlocks cfg.chain t hs).2 with
      | panic => trivial
      | err er => trivial
      | ok ir =>
        cases ir with
        | tipUnchanged => trivial
        | tipChanged header hash height rv cn =>
          rw [report_changed]
          simp [Reported, imported_mem_tipReport]
  | _ =>
    simp only [Mgr.step, Res.bind_eq_ok, Res.ok.injEq, Prod.mk.injEq] at e
    obtain ⟨m1, -, -, e2⟩ := e
    exact .inl e2.symm

end Verif.Sync
