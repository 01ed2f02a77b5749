import Verif.Inv.PropsArrive
import Verif.Inv.Scenarios

/-!
# An endless execution in which blocks are lost and come in out of order
-/

set_option autoImplicit false

namespace Verif.Inv.Scenario
open Verif.Tx

/-- A peer is connected and two blocks are asked for. -/
def asked2 : List Op := [peer1, .getBlock 500, .getBlock 501]

/-- The first answer to the request for block 500 is lost. -/
def opsA : Nat → Op
  | 0 => tick 100000 1000
  | 1 => .block blockB (some 1)
  | 2 => tick 120000 1000
  | 3 => .block blockA (some 0)
  | n => tick (n * 100000) 1000

/-- Nothing to do. -/
def idleState (tick : Option Nat) (out : List Out) : Mgr where
  peers := [(1, ⟨true, true, true, [], 0, none⟩)]
  confirmed := []
  est := (state false (asked2 ++ [opsA 0, opsA 1, opsA 2, opsA 3])).est
  pool := []
  remaining := []
  received := []
  lastTick := tick
  out := out

def okOr (d : Mgr) : Res Unit Mgr → Mgr
  | .ok m => m
  | _ => d

/-- The next state, timers only. -/
@[irreducible] def nextA (n : Nat) (m : Mgr) : Mgr := okOr m ({ m with out := [] }.step false (tick ((n + 4) * 100000) 1000))

def lateStates : Nat → Mgr
  | 0 => idleState (some 100000) [.processed blockA 0 none, .processed blockB 1 none]
  | n + 1 => nextA n (lateStates n)

def statesA : Nat → Mgr
  | 0 => state false asked2
  | 1 => state false (asked2 ++ [opsA 0])
  | 2 => state false (asked2 ++ [opsA 0, opsA 1])
  | 3 => state false (asked2 ++ [opsA 0, opsA 1, opsA 2])
  | n + 4 => lateStates n

def histA : Nat → Hist
  | 0 => hist false asked2
  | n + 1 => (opsA n, (statesA (n + 1)).out) :: histA n

theorem idle_tick (tk : Option Nat) (out : List Out) (now : Nat) : ∃ tk' d, { idleState tk out with out := [] }.step false (tick now 1000) = .ok (idleState tk' d) ∧ (∀ a x, Out.getBlock a x ∉ d) ∧ ∀ a, Out.timedOut a ∉ d := by
  by_cases h : idleTimeout ≤ now - tk.getD 0
  · refine ⟨some now, [.timer idleTimeout], ?_, by simp, by simp⟩
    simp only [Mgr.step, tick, Mgr.timerExpired]
    rw [if_pos (by exact h)]
    simp [idleState, prune, env, AMap.keys, AMap.get, Mgr.attemptAll, Mgr.dropAll, Mgr.requestAll, bind, Res.bind]
  · refine ⟨tk, [], ?_, by simp, by simp⟩
    simp only [Mgr.step, tick, Mgr.timerExpired]
    rw [if_neg (by exact h)]
    simp [idleState, prune, env, AMap.keys, AMap.get, Mgr.attemptAll, Mgr.dropAll, Mgr.requestAll, bind, Res.bind]

theorem opsA_late (n : Nat) : opsA (n + 4) = tick ((n + 4) * 100000) 1000 := rfl

theorem idleA : ∀ n, ∃ tk d, lateStates n = idleState tk d
  | 0 => ⟨_, _, rfl⟩
  | n + 1 => by
    obtain ⟨tk, d, h⟩ := idleA n
    obtain ⟨tk', d', h1, -⟩ := idle_tick tk d ((n + 4) * 100000)
    refine ⟨tk', d', ?_⟩
    rw [lateStates, h, nextA, h1, okOr]

theorem lateA (n : Nat) : { lateStates n with out := [] }.step false (opsA (n + 4)) = .ok (lateStates (n + 1)) ∧
    (∀ a x, Out.getBlock a x ∉ (lateStates (n + 1)).out) ∧ ∀ a, Out.timedOut a ∉ (lateStates (n + 1)).out := by
  obtain ⟨tk, d, h⟩ := idleA n
  obtain ⟨tk', d', h1, h2⟩ := idle_tick tk d ((n + 4) * 100000)
  have : lateStates (n + 1) = idleState tk' d' := by rw [lateStates, h, nextA, h1, okOr]
  rw [this, h, opsA_late]
  exact ⟨h1, h2⟩

theorem stepA : ∀ n, { statesA n with out := [] }.step false (opsA n) = .ok (statesA (n + 1))
  | 0 => rfl
  | 1 => rfl
  | 2 => rfl
  | 3 => rfl
  | n + 4 => (lateA n).1

theorem downloads : Downloads false [500, 501] histA statesA opsA where
  start := run (by simp [asked2, Op.Legal]) rfl
  step := stepA
  hist _ := rfl
  legal n := by
    rcases n with _ | _ | _ | _ | n
    · exact env_legal
    · trivial
    · exact env_legal
    · trivial
    · exact env_legal
  chain n b k h := by
    rcases n with _ | _ | _ | _ | n
    · cases h
    · cases h
      intro i
      rcases i with _ | _ | i <;> simp [blockB]
    · cases h
    · cases h
      intro i
      rcases i with _ | _ | i <;> simp [blockA]
    · cases h
  asked x hx := by
    have := mem_wanted hx
    revert this
    have : wanted (histA 0) = [501, 500] := rfl
    rw [this]
    simp
    tauto
  quiet n x := by
    rcases n with _ | _ | _ | _ | n <;> simp [opsA]
  peers n := by
    refine ⟨1, ⟨true, true, true⟩, ?_, rfl⟩
    induction n with
    | zero => rfl
    | succ n ih =>
      rw [histA]
      rcases n with _ | _ | _ | _ | n
      · rfl
      · rfl
      · rfl
      · rfl
      · exact (if_neg ((lateA n).2.2 1)).trans ih
  timer T n := ⟨n + T + 4, by omega, env, (n + T + 4) * 100000, 1000, rfl, by omega⟩
  sent x h := by
    obtain ⟨j, hj, a, ha⟩ := h 4
    obtain ⟨i, rfl⟩ := Nat.exists_eq_add_of_le hj
    rw [Nat.add_comm 4 i] at ha
    exact absurd ha ((lateA i).2.1 a x)

/-- Both blocks are delivered. -/
example : (∃ n b k fe, b.hash = 500 ∧ [500, 501][k]? = some 500 ∧ Out.processed b k fe ∈ (statesA (n + 1)).out) ∧
    ∃ n b k fe, b.hash = 501 ∧ [500, 501][k]? = some 501 ∧ Out.processed b k fe ∈ (statesA (n + 1)).out :=
  ⟨C122_blocks_arrive_partial downloads (x := 500) (.inr (.inl rfl)), C122_blocks_arrive_partial downloads (x := 501) (.inl rfl)⟩

/-- Block 999 does not exist: asking for it keeps block 500 from being delivered, whatever comes in after it. -/
def lost : List Op := [peer1, .getBlock 999, .getBlock 500, tick 100000 1000, .block blockA (some 0)]

example : outs false lost = [[], [.timer 30000, .getBlock 1 500, .timer 15000, .getBlock 1 999, .timer 15000], [.timer 1000], [.timer 1000], [.timer 1000]] := by decide +kernel

example {h2 : Hist} {m : Mgr} (r : Run false (h2 ++ hist false lost) m) (hno : ∀ y ∈ h2, ∀ b k, y.1 = .block b k → b.hash ≠ 999) : ∀ y ∈ h2, processed y.2 = [] :=
  (C122_blocked r (x := 999) ⟨by decide, .inr (.inl rfl)⟩ hno).1

example : Run false (hist false lost) (state false lost) := run (by simp [lost, Op.Legal, env_legal]) rfl

end Verif.Inv.Scenario
