import Verif.Node.NoCrash
import Verif.Node.Scenarios

/-!
# The state machine: concrete histories for the absence of crashes

A release build.  An example that the hypotheses of `C102_no_crash_partial` are met, and for each of its conditions a history in which the client crashes because the
condition is not met.
-/

set_option autoImplicit false

namespace Verif.Node.Crash
open Verif.Tx (Block Transaction OutPoint TxOut)
open Verif.Chain (Header)
open Verif.Chain.Scenario (a1 a2 a3 b1 b2 b3 b4 g e mk)
open Verif.Node.Scenario (Cmd env take block1 block2 block3 before after)
open Verif.Wallet.Scenario (receive spend more)

def conf : Cfg := ⟨Sync.Scenario.conf false, { Scenario.params with checked := false }⟩

/-- A header with a lot of work. -/
def heavy : Header := mk 30 21 202 1000

/-- The headers presented: those of the other examples, and one with more work than three others. -/
def known : List Header := heavy :: Sync.Scenario.known

def U (x : Header) : Prop := x ∈ known

instance (x : Header) : Decidable (U x) := inferInstanceAs (Decidable (x ∈ known))

def fresh : Chain.State := Sync.Scenario.fresh false

def new : Fsm := Fsm.new fresh ⟨(5, 6), [], [(5, 6)]⟩ 100

theorem ctx : Ctx conf U false fresh g := ⟨⟨id, fun x h => by
  have : ∀ x ∈ known, x.prev < x.nonce := by decide
  exact this x h⟩, rfl, .init⟩

theorem collisionFree : Chain.CollisionFree conf.sync.chain U := fun x y hx hy he => by
  have : ∀ x ∈ known, ∀ y ∈ known, x.nonce = y.nonce → x = y := by decide
  exact this x hx y hy he

def ok : Cmd → Bool
  | .headers _ l => l.all (fun x => decide (U x))
  | _ => true

theorem legal {c : Cmd} (h : ok c = true) (now : Nat) : Legal U false (env now) c.input := by
  refine ⟨Sync.Scenario.env_legal, Inv.Scenario.env_legal, ?_⟩
  cases c with
  | headers a l =>
    intro p hp
    obtain ⟨x, hx, rfl⟩ := List.mem_map.1 hp
    exact ⟨by simpa using List.all_eq_true.1 h x hx, Chain.Scenario.eOk false⟩
  | _ => simp [Cmd.input, Input.batch]

/-- Run a list of commands. -/
def go : List Cmd → Nat → Hist → Fsm → Option (Hist × Fsm)
  | [], _, h, n => some (h, n)
  | c :: cs, now, h, n =>
    match n.step conf (env now) c.input with
    | .ok n' =>
      let outs := n'.log.drop n.log.length
      if n'.log = n.log ++ outs ∧ n.tree.height ≤ n'.tree.height ∧ ok c = true then go cs (now + 1) ((c.input, outs) :: h) n' else none
    | _ => none

theorem go_steady : ∀ {cs : List Cmd} {now : Nat} {h h' : Hist} {n n' : Fsm}, Steady conf U false fresh h n → go cs now h n = some (h', n') →
    Steady conf U false fresh h' n'
  | [], _, _, _, _, _, r, e => by cases e; exact r
  | c :: cs, now, h, h', n, n', r, e => by
    unfold go at e
    cases hs : n.step conf (env now) c.input with
    | ok n1 =>
      simp only [hs] at e
      split at e
      · rename_i hc
        exact go_steady (.step (env now) r (legal hc.2.2 now) rfl hs hc.1 hc.2.1) e
      · cases e
    | err e' => simp [hs] at e
    | panic => simp [hs] at e

def hist (cs : List Cmd) : Hist := ((go cs 7300000 [] new).getD ([], new)).1
def state (cs : List Cmd) : Fsm := ((go cs 7300000 [] new).getD ([], new)).2

theorem steady {cs : List Cmd} (hs : (go cs 7300000 [] new).isSome = true) : Steady conf U false fresh (hist cs) (state cs) := by
  obtain ⟨⟨h, m⟩, e⟩ := Option.isSome_iff_exists.1 hs
  unfold hist state
  rw [e]
  exact go_steady (.start _ _ rfl (by decide)) e

/-! ## The conditions can be met -/

/-- A scan of three blocks, up to the last block. -/
def cmds : List Cmd := before ++ [.rescan (.included 1) .unbounded [1], .cfilter 1 12 [4, 5], .cfilter 1 11 [1], .cfilter 1 13 [1]] ++ take 10 ++ [.block block3] ++ take 5

theorem creates {i : OutPoint} {v : Nat} (h : ∃ p ∈ [receive, spend, more], ∃ t, Fees.Creates p i t ∧ t.value = v) :
    (i = ⟨1, 0⟩ ∧ v = 50) ∨ (i.txid ≠ 100 ∧ i.txid ≠ 101 ∧ i ≠ ⟨1, 0⟩) := by
  obtain ⟨p, hp, t, ⟨h1, h2⟩, rfl⟩ := h
  by_cases hi : i = ⟨1, 0⟩
  · subst hi
    simp only [List.mem_cons, List.not_mem_nil, or_false] at hp
    rcases hp with rfl | rfl | rfl
    · cases h2; exact .inl ⟨rfl, rfl⟩
    · cases h1
    · cases h1
  · refine .inr ⟨?_, ?_, hi⟩ <;>
    · rw [h1]
      simp only [List.mem_cons, List.not_mem_nil, or_false] at hp
      rcases hp with rfl | rfl | rfl <;> decide

theorem honest : ∀ tx ∈ [receive, spend, more], tx.outputs.length ≤ 2 ^ 32 ∧ Fees.Honest [receive, spend, more] tx := by
  have one : ∀ {i : OutPoint} {is vs}, is <+: [i] → List.Forall₂ (fun i v => ∃ p ∈ [receive, spend, more], ∃ t, Fees.Creates p i t ∧ t.value = v) is vs →
      vs = [] ∨ ∃ v, vs = [v] ∧ is = [i] ∧ ∃ p ∈ [receive, spend, more], ∃ t, Fees.Creates p i t ∧ t.value = v := by
    intro i is vs hp hf
    cases hf with
    | nil => exact .inl rfl
    | @cons a v as vs h1 h2 =>
      obtain ⟨rfl, hp'⟩ := List.cons_prefix_cons.1 hp
      cases List.prefix_nil.1 hp'
      cases h2
      exact .inr ⟨v, rfl, rfl, h1⟩
  intro tx htx
  simp only [List.mem_cons, List.not_mem_nil, or_false] at htx
  rcases htx with rfl | rfl | rfl
  · refine ⟨by decide, by decide, fun is vs hp hf => ?_, fun vs hf => ?_⟩
    · rcases one (i := ⟨100, 0⟩) hp hf with rfl | ⟨v, rfl, -, h⟩
      · decide
      · rcases creates h with ⟨h, -⟩ | ⟨h, -⟩ <;> simp at h
    · rcases one (i := ⟨100, 0⟩) (List.prefix_refl _) hf with rfl | ⟨v, rfl, -, h⟩
      · cases hf
      · rcases creates h with ⟨h, -⟩ | ⟨h, -⟩ <;> simp at h
  · refine ⟨by decide, by decide, fun is vs hp hf => ?_, fun vs hf => ?_⟩
    · rcases one (i := ⟨1, 0⟩) hp hf with rfl | ⟨v, rfl, -, h⟩
      · decide
      · rcases creates h with ⟨-, rfl⟩ | ⟨-, -, h⟩
        · decide
        · exact absurd rfl h
    · rcases one (i := ⟨1, 0⟩) (List.prefix_refl _) hf with rfl | ⟨v, rfl, -, h⟩
      · cases hf
      · rcases creates h with ⟨-, rfl⟩ | ⟨-, -, h⟩
        · decide
        · exact absurd rfl h
  · refine ⟨by decide, by decide, fun is vs hp hf => ?_, fun vs hf => ?_⟩
    · rcases one (i := ⟨101, 0⟩) hp hf with rfl | ⟨v, rfl, -, h⟩
      · decide
      · rcases creates h with ⟨h, -⟩ | ⟨-, h, -⟩ <;> simp at h
    · rcases one (i := ⟨101, 0⟩) (List.prefix_refl _) hf with rfl | ⟨v, rfl, -, h⟩
      · cases hf
      · rcases creates h with ⟨h, -⟩ | ⟨-, h, -⟩ <;> simp at h

theorem hist_blocks : (Scenario.sent (hist cmds)) = [block3] := by decide +kernel

/-- The last block of the scan does not crash the client, and both are processed. -/
example : ∃ n', (state cmds).step conf (env 7300100) (.block block1) = .ok n' ∧
    ((n'.log.drop (state cmds).log.length).filterMap fun o => match o with | .inv (.processed b k _) => some (b.hash, k) | _ => none) = [(11, 1), (13, 3)] := by
  obtain ⟨n', hn⟩ := C102_no_crash_partial rfl rfl ctx collisionFree (steady (cs := cmds) (by decide +kernel)) (legal (c := .block block1) rfl 7300100) rfl
    (by decide +kernel) (by decide +kernel) ⟨[receive, spend, more], honest, fun b hb => by
      have : b = block3 ∨ b = block1 := by
        rcases hb with hb | hb
        · exact .inl (by simpa [hist_blocks] using Scenario.mem_sent hb)
        · cases hb; exact .inr rfl
      rcases this with rfl | rfl
      · intro tx; simp only [block3, List.mem_cons, List.not_mem_nil, or_false]; tauto
      · intro tx; simp only [block1, List.mem_cons, List.not_mem_nil, or_false]; tauto⟩ trivial
  refine ⟨n', hn, ?_⟩
  have : (match (state cmds).step conf (env 7300100) (.block block1) with
    | .ok n' => ((n'.log.drop (state cmds).log.length).filterMap fun o => match o with | .inv (.processed b k _) => some (b.hash, k) | _ => none) | _ => []) = [(11, 1), (13, 3)] := by
    decide +kernel
  simp only [show (state cmds).step conf (env 7300100) (.block block1) = .ok n' from hn] at this
  exact this

/-! ## Crashes -/

/-- **C102** is false: filter headers that arrive during a rescan when the last peer with filters is gone crash the client, whoever sends them. -/
theorem C102_cfheaders : ∃ h n, Steady conf U false fresh h n ∧ n.step conf (env 7300100) (.cfheaders 9 ⟨0, 13, 6, [1, 9, 1]⟩) = .panic :=
  ⟨_, _, steady (cs := [.start, .peer 1 3] ++ take 10 ++ [.headers 1 [a1, a2, a3]] ++ take 10 ++ [.rescan (.included 1) .unbounded [1], .gone 1] ++ take 10) (by decide +kernel),
    by decide +kernel⟩

/-- **C102** is false: asking for filters above the filter headers crashes the client. -/
theorem C102_filters : ∃ h n, Steady conf U false fresh h n ∧ n.step conf (env 7300100) (.requestFilters 1 4) = .panic :=
  ⟨_, _, steady (cs := before) (by decide +kernel), by decide +kernel⟩

/-- Pays out more than it takes in. -/
def forged : Transaction := ⟨4, 4, [⟨1, 0⟩], [⟨51, 9⟩], 400⟩

/-- **C102** is false: a block with a transaction that pays out more than it takes in crashes the client. -/
theorem C102_forged_block : ∃ h n, Steady conf U false fresh h n ∧ n.step conf (env 7300100) (.block ⟨12, [forged]⟩) = .panic :=
  ⟨_, _, steady (cs := before ++ [.request 11, .request 12] ++ take 10 ++ [.block block1] ++ take 10) (by decide +kernel), by decide +kernel⟩

/-- **C102** is false: if the active chain became shorter, the next peer crashes the client, if it connects before the outputs are taken. -/
theorem C102_shorter_chain : ∃ h n n', Steady conf U false fresh h n ∧ n.step conf (env 7300100) (.headers 1 [(b1, e), (heavy, e)]) = .ok n' ∧
    n'.step conf (env 7300101) (.negotiated 2 3 true true true true true false) = .panic := by
  have h : (match (state before).step conf (env 7300100) (.headers 1 [(b1, e), (heavy, e)]) with
    | .ok n' => decide (n'.step conf (env 7300101) (.negotiated 2 3 true true true true true false) matches .panic) | _ => false) = true := by decide +kernel
  cases hs : (state before).step conf (env 7300100) (.headers 1 [(b1, e), (heavy, e)]) with
  | ok n' =>
    simp only [hs] at h
    refine ⟨_, _, n', steady (cs := before) (by decide +kernel), hs, ?_⟩
    split at h
    · assumption
    · cases h
  | err => simp only [hs] at h; cases h
  | panic => simp only [hs] at h; cases h

end Verif.Node.Crash
