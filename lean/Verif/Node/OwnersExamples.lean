import Verif.Node.PropsOwners
import Verif.Node.Crashes

/-!
# Which blocks the filter headers belong to: concrete histories
-/

set_option autoImplicit false

namespace Verif.Node.Owned
open Verif.Tx (Block Transaction OutPoint TxOut)
open Verif.Chain (Header)
open Verif.Chain.Scenario (a1 a2 a3 b1 b2 b3 b4 g e mk)
open Verif.Node.Scenario (Cmd env take before)
open Verif.Node.Crash (conf fresh heavy)

/-- A header that is too old, on top of the second branch. -/
def old : Header := mk 31 24 50 10

/-- Headers on top of the first branch. -/
def a4 : Header := mk 15 13 500 10
/-- See `a4`. -/
def a5 : Header := mk 16 15 600 10

/-- The headers presented. -/
def known : List Header := old :: a4 :: a5 :: Crash.known

def U (x : Header) : Prop := x ∈ known

instance (x : Header) : Decidable (U x) := inferInstanceAs (Decidable (x ∈ known))

def filters : Cbf.FilterHeaders := ⟨(5, 6), [], [(5, 6)]⟩

def new : Fsm := Fsm.new fresh filters 100

theorem ctx : Ctx conf U false fresh g := ⟨⟨id, fun x h => by
  have : ∀ x ∈ known, x.prev < x.nonce := by decide
  exact this x h⟩, rfl, .init⟩

theorem collisionFree : Chain.CollisionFree conf.sync.chain U := fun x y hx hy he => by
  have : ∀ x ∈ known, ∀ y ∈ known, x.nonce = y.nonce → x = y := by decide
  exact this x hx y hy he

def ok : Cmd → Bool
  | .headers _ l => l.all (fun x => decide (U x))
  | _ => true

theorem legal {c : Cmd} (h : ok c = true) (now : Nat) : Legal U false (env now) c.input := by
  refine ⟨Sync.Scenario.env_legal, Inv.Scenario.env_legal, ?_⟩
  cases c with
  | headers a l =>
    intro p hp
    obtain ⟨x, hx, rfl⟩ := List.mem_map.1 hp
    exact ⟨by simpa using List.all_eq_true.1 h x hx, Chain.Scenario.eOk false⟩
  | _ => simp [Cmd.input, Input.batch]

/-- The import is clean, as far as can be computed. -/
def clean (n : Fsm) (i : Input) : Bool :=
  match (Chain.importBlocks conf.sync.chain n.tree i.batch).2 with
  | .ok _ => decide (Chain.NeverReconnects conf.sync.chain n.tree n.tree i.batch)
  | .err _ => decide ((Chain.importBlocks conf.sync.chain n.tree i.batch).1.iter = n.tree.iter)
  | .panic => false

theorem clean_sound {n : Fsm} {i : Input} (h : clean n i = true) : Clean conf n i := by
  unfold clean at h
  unfold Clean
  cases hr : (Chain.importBlocks conf.sync.chain n.tree i.batch).2 with
  | ok r => simp only [hr] at h; exact .inl ⟨⟨r, rfl⟩, of_decide_eq_true h⟩
  | err r => simp only [hr] at h; exact .inr ⟨⟨r, rfl⟩, of_decide_eq_true h⟩
  | panic => simp only [hr] at h; cases h

/-- Run a list of commands. -/
def go : List Cmd → Nat → Hist → Fsm → List Nat → Option (Hist × Fsm × List Nat)
  | [], _, h, n, ow => some (h, n, ow)
  | c :: cs, now, h, n, ow =>
    match n.step conf (env now) c.input with
    | .ok n' =>
      let outs := n'.log.drop n.log.length
      if n'.log = n.log ++ outs ∧ clean n c.input = true ∧ ok c = true then go cs (now + 1) ((c.input, outs) :: h) n' (owners conf ow n n') else none
    | _ => none

theorem go_track : ∀ {cs : List Cmd} {now : Nat} {h h' : Hist} {n n' : Fsm} {ow ow' : List Nat}, Track conf U false fresh h n ow → go cs now h n ow = some (h', n', ow') →
    Track conf U false fresh h' n' ow'
  | [], _, _, _, _, _, _, _, r, e => by cases e; exact r
  | c :: cs, now, h, h', n, n', ow, ow', r, e => by
    unfold go at e
    cases hs : n.step conf (env now) c.input with
    | ok n1 =>
      simp only [hs] at e
      split at e
      · rename_i hc
        exact go_track (.step (env now) r (legal hc.2.2 now) rfl (clean_sound hc.2.1) hs hc.1) e
      · cases e
    | err e' => simp [hs] at e
    | panic => simp [hs] at e

def result (cs : List Cmd) : Option (Hist × Fsm × List Nat) := go cs 7300000 [] new ((hashes conf fresh).take 1)
def hist (cs : List Cmd) : Hist := ((result cs).getD ([], new, [])).1
def state (cs : List Cmd) : Fsm := ((result cs).getD ([], new, [])).2.1
def owned (cs : List Cmd) : List Nat := ((result cs).getD ([], new, [])).2.2

theorem track {cs : List Cmd} (hs : (result cs).isSome = true) : Track conf U false fresh (hist cs) (state cs) (owned cs) := by
  obtain ⟨⟨h, m, ow⟩, e⟩ := Option.isSome_iff_exists.1 hs
  unfold hist state owned
  rw [e]
  exact go_track (.start filters 100 rfl (by decide)) e

/-- Three blocks with their filter headers, then a longer branch and its filter headers. -/
def reorg : List Cmd := before ++ [.headers 1 [b1, b2, b3, b4]] ++ take 12 ++ [.cfheaders 1 24 6 [1, 2, 3, 4]] ++ take 12

/-- The hypotheses of `C106_filter_headers_active_partial` are met by a history with a re-org. -/
example : [1, 21, 22, 23, 24] <+: hashes conf (state reorg).tree ∧ (state reorg).cbf.filters.all.length = 5 := by
  have h := C106_filter_headers_active_partial ctx collisionFree (track (cs := reorg) (by decide +kernel)) (by decide +kernel)
  have ho : owned reorg = [1, 21, 22, 23, 24] := by decide +kernel
  rw [ho] at h
  exact ⟨h.1, h.2.symm⟩

/-- The longer branch, its outputs not taken. -/
def pending : List Cmd := before ++ [.headers 1 [b1, b2, b3, b4]]

/-- **C106** while the report waits: the filter headers are those of the blocks that left the chain. -/
theorem C106_before_outputs : ∃ h n, Track conf U false fresh h n [1, 11, 12, 13] ∧ hashes conf n.tree = [1, 21, 22, 23, 24] ∧ n.cbf.filters.all.length = 4 := by
  have ho : owned pending = [1, 11, 12, 13] := by decide +kernel
  exact ⟨hist pending, state pending, ho ▸ track (cs := pending) (by decide +kernel), by decide +kernel, by decide +kernel⟩

/-- **C106** is false if an import fails: the peer sends a branch that replaces all blocks, followed by a header that is too old.  The chain is replaced, no
re-org is reported, and the filter headers of the old blocks stay. -/
theorem C106_failed_import : ∃ h n n', Track conf U false fresh h n [1, 11, 12, 13] ∧ n.qSync = [] ∧ n.cbf.filters.all.length = 4 ∧
    Legal U false (env 7300100) (.headers 1 ([b1, b2, b3, b4, old].map fun x => (x, e))) ∧
    n.step conf (env 7300100) (.headers 1 ([b1, b2, b3, b4, old].map fun x => (x, e))) = .ok n' ∧
    n'.qSync = [] ∧ hashes conf n'.tree = [1, 21, 22, 23, 24] ∧ n'.cbf.filters = n.cbf.filters := by
  have ho : owned before = [1, 11, 12, 13] := by decide +kernel
  have h : (match (state before).step conf (env 7300100) (.headers 1 ([b1, b2, b3, b4, old].map fun x => (x, e))) with
    | .ok n' => decide (n'.qSync = [] ∧ hashes conf n'.tree = [1, 21, 22, 23, 24] ∧ n'.cbf.filters = (state before).cbf.filters) | _ => false) = true := by decide +kernel
  cases hs : (state before).step conf (env 7300100) (.headers 1 ([b1, b2, b3, b4, old].map fun x => (x, e))) with
  | ok n' =>
    simp only [hs] at h
    obtain ⟨h1, h2, h3⟩ := of_decide_eq_true h
    exact ⟨hist before, state before, n', ho ▸ track (cs := before) (by decide +kernel), by decide +kernel, by decide +kernel,
      legal (c := .headers 1 [b1, b2, b3, b4, old]) (by decide) 7300100, hs, h1, h2, h3⟩
  | err => simp only [hs] at h; cases h
  | panic => simp only [hs] at h; cases h

end Verif.Node.Owned
