import Verif.Node.NoCrashReorg
import Verif.Node.RestartExamples

/-!
# The state machine: concrete histories for the absence of crashes, with re-orgs to shorter chains
-/

set_option autoImplicit false

namespace Verif.Node.Shorter
open Verif.Tx (Block Transaction OutPoint TxOut)
open Verif.Chain (Header)
open Verif.Chain.Scenario (a1 a2 a3 b1 b2 b3 b4 g e mk)
open Verif.Node.Scenario (Cmd env take before)
open Verif.Node.Crash (conf fresh heavy)

/-- A header that is too old, on top of the header with a lot of work. -/
def old : Header := mk 32 30 50 10

/-- The headers presented. -/
def known : List Header := old :: Crash.known

def U (x : Header) : Prop := x ∈ known

instance (x : Header) : Decidable (U x) := inferInstanceAs (Decidable (x ∈ known))

theorem ctx : Ctx conf U false fresh g := ⟨⟨id, fun x h => by
  have : ∀ x ∈ known, x.prev < x.nonce := by decide
  exact this x h⟩, rfl, .init⟩

theorem collisionFree : Chain.CollisionFree conf.sync.chain U := fun x y hx hy he => by
  have : ∀ x ∈ known, ∀ y ∈ known, x.nonce = y.nonce → x = y := by decide
  exact this x hx y hy he

def ok : Cmd → Bool
  | .headers _ l => l.all (fun x => decide (U x))
  | _ => true

theorem legal {c : Cmd} (h : ok c = true) (now : Nat) : Legal U false (env now) c.input := by
  refine ⟨Sync.Scenario.env_legal, Inv.Scenario.env_legal, ?_⟩
  cases c with
  | headers a l =>
    intro p hp
    obtain ⟨x, hx, rfl⟩ := List.mem_map.1 hp
    exact ⟨by simpa using List.all_eq_true.1 h x hx, Chain.Scenario.eOk false⟩
  | _ => simp [Cmd.input, Input.batch]

/-- The outputs are taken, or no report of imported headers waits. -/
def orderly (n : Fsm) (c : Cmd) : Bool := c matches .next || n.qSync.all (fun o => !(o matches .imported ..))

theorem orderly_sound {n : Fsm} {c : Cmd} (h : orderly n c = true) : c.input = .next ∨ Delivered n := by
  simp only [orderly, Bool.or_eq_true, List.all_eq_true] at h
  rcases h with h | h
  · left
    cases c <;> first | rfl | cases h
  · right
    intro b k k' cn rv hm
    have := h _ hm
    cases this

/-- Run a list of commands. -/
def go : List Cmd → Nat → Hist → Fsm → Option (Hist × Fsm)
  | [], _, h, n => some (h, n)
  | c :: cs, now, h, n =>
    match n.step conf (env now) c.input with
    | .ok n' =>
      let outs := n'.log.drop n.log.length
      if n'.log = n.log ++ outs ∧ Owned.clean n c.input = true ∧ ok c = true ∧ orderly n c = true then go cs (now + 1) ((c.input, outs) :: h) n' else none
    | _ => none

theorem go_orderly : ∀ {cs : List Cmd} {now : Nat} {h h' : Hist} {n n' : Fsm}, Orderly conf U false fresh h n → go cs now h n = some (h', n') → Orderly conf U false fresh h' n'
  | [], _, _, _, _, _, r, e => by cases e; exact r
  | c :: cs, now, h, h', n, n', r, e => by
    unfold go at e
    cases hs : n.step conf (env now) c.input with
    | ok n1 =>
      simp only [hs] at e
      split at e
      · rename_i hc
        exact go_orderly (.step (env now) r (legal hc.2.2.1 now) rfl (Owned.clean_sound hc.2.1) (orderly_sound hc.2.2.2) hs hc.1) e
      · cases e
    | err e' => simp [hs] at e
    | panic => simp [hs] at e

def result (cs : List Cmd) : Option (Hist × Fsm) := go cs 7300000 [] Owned.new
def hist (cs : List Cmd) : Hist := ((result cs).getD ([], Owned.new)).1
def state (cs : List Cmd) : Fsm := ((result cs).getD ([], Owned.new)).2

theorem run {cs : List Cmd} (hs : (result cs).isSome = true) : Orderly conf U false fresh (hist cs) (state cs) := by
  obtain ⟨⟨h, m⟩, e⟩ := Option.isSome_iff_exists.1 hs
  unfold hist state
  rw [e]
  exact go_orderly (.start Owned.filters 100 rfl (by decide)) e

/-- Three blocks with their filter headers, then a shorter branch with more work. -/
def shorter : List Cmd := before ++ [.headers 1 [b1, heavy]]

theorem no_blocks {cs : List Cmd} (h : Scenario.sent (hist cs) = []) {i : Input} (hi : ∀ b, i ≠ .block b) : Sane (fun b => Sent b (hist cs) ∨ i = .block b) := by
  refine ⟨[], by simp, ?_⟩
  rintro b (hb | hb)
  · have := Scenario.mem_sent hb
    rw [h] at this
    cases this
  · exact absurd hb (hi b)

/-- The hypotheses of `C102_no_crash_reorg_partial` are met when the chain is shorter than the filter headers and the report of the re-org waits. -/
example : (state shorter).tree.height < (state shorter).cbf.filters.height ∧ ∃ n', (state shorter).step conf (env 7300100) .next = .ok n' :=
  ⟨by decide +kernel, C102_no_crash_reorg_partial rfl rfl ctx collisionFree (run (cs := shorter) (by decide +kernel)) (.inl rfl) (legal (c := .next) rfl 7300100) rfl
    (by decide +kernel) (by decide +kernel) (no_blocks (by decide +kernel) (by simp)) trivial⟩

/-- After the reports are delivered. -/
def after : List Cmd := shorter ++ take 12

/-- Then the next peer does not crash the client. -/
example : (state after).tree.height = 2 ∧ ∃ n', (state after).step conf (env 7300100) (.negotiated 2 3 true true true true true false) = .ok n' :=
  ⟨by decide +kernel, C102_no_crash_reorg_partial rfl rfl ctx collisionFree (run (cs := after) (by decide +kernel)) (.inr (by
      have : (state after).qSync = [] := by decide +kernel
      simp [Delivered, this])) (legal (c := .peer 2 3) rfl 7300100) rfl
    (by decide +kernel) (by decide +kernel) (no_blocks (by decide +kernel) (by simp)) trivial⟩

/-- **C102** is false, although the outputs are taken: a peer sends a branch that is shorter but has more work, and a header that is too old on top.  The chain is replaced, but no
re-org is reported.  The next peer that connects crashes the client. -/
theorem C102_failed_import : ∃ h n n', Orderly conf U false fresh h n ∧ Legal U false (env 7300100) (.headers 1 ([b1, heavy, old].map fun x => (x, e))) ∧
    n.step conf (env 7300100) (.headers 1 ([b1, heavy, old].map fun x => (x, e))) = .ok n' ∧ n'.qSync = [] ∧
    n'.step conf (env 7300101) (.negotiated 2 3 true true true true true false) = .panic := by
  have h : (match (state before).step conf (env 7300100) (.headers 1 ([b1, heavy, old].map fun x => (x, e))) with
    | .ok n' => decide (n'.qSync = []) && decide (n'.step conf (env 7300101) (.negotiated 2 3 true true true true true false) matches .panic) | _ => false) = true := by decide +kernel
  cases hs : (state before).step conf (env 7300100) (.headers 1 ([b1, heavy, old].map fun x => (x, e))) with
  | ok n' =>
    simp only [hs, Bool.and_eq_true, decide_eq_true_eq] at h
    refine ⟨_, _, n', run (cs := before) (by decide +kernel), legal (c := .headers 1 [b1, heavy, old]) (by decide) 7300100, hs, h.1, ?_⟩
    have h2 := h.2
    split at h2
    · assumption
    · cases h2
  | err => simp only [hs] at h; cases h
  | panic => simp only [hs] at h; cases h

/-- The hypotheses of `C107_starts` are met by what a stop leaves behind. -/
example : ∃ n0 n1, restart conf g true 100 (Owned.state before).disk = some n0 ∧ n0.step conf (env 7300200) .init = .ok n1 := by
  obtain ⟨n0, h1, h2, -, -, h5, h6⟩ := C107_stop_partial Owned.ctx Owned.collisionFree Owned.before_track (Owned.settled_of Owned.before_idle) true (fun _ => Owned.before_chain) 100
  have hlen : n0.tree.height + 1 = 4 := by
    have h3 : n0.tree.headers.length = 4 := by rw [h2]; decide +kernel
    have := chain_length h5 (n := Fsm.new n0.tree Owned.filters 0) .start
    simp only [Fsm.new] at this
    simp only [Chain.State.headers, List.length_map] at h3
    omega
  obtain ⟨n1, h7⟩ := C107_starts rfl rfl h5 Owned.collisionFree h6 (by rw [hlen]; decide) (Owned.legal (c := .start) rfl 7300200) rfl
  exact ⟨n0, n1, h1, h7⟩

end Verif.Node.Shorter
