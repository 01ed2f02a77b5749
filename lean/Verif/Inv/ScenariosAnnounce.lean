import Verif.Inv.PropsAnnounce
import Verif.Inv.ScenariosArrive

/-!
# Endless executions: a peer that is given up, and one that never asks for a transaction and is kept
-/

set_option autoImplicit false

namespace Verif.Inv.Scenario
open Verif.Tx

/-! ## A peer that asks for nothing -/

/-- A peer is connected and a transaction is submitted. -/
def queued1 : List Op := [peer1, .announce t1]

/-- Only timers. -/
def opsB (n : Nat) : Op := tick ((n + 1) * 100000) 1000

/-- The peer is gone. -/
def alone (n : Nat) (out : List Out) : Mgr where
  peers := []
  confirmed := []
  est := (state false queued1).est
  pool := [(11, t1)]
  remaining := []
  received := []
  lastTick := some (n * 100000)
  out := out

def statesB : Nat → Mgr
  | 0 => state false queued1
  | 1 => state false (queued1 ++ [opsB 0])
  | 2 => state false (queued1 ++ [opsB 0, opsB 1])
  | 3 => state false (queued1 ++ [opsB 0, opsB 1, opsB 2])
  | 4 => alone 4 [.timer 30000, .timedOut 1]
  | n + 5 => alone (n + 5) [.timer 30000]

def histB : Nat → Hist
  | 0 => hist false queued1
  | n + 1 => (opsB n, (statesB (n + 1)).out) :: histB n

theorem alone_tick (n : Nat) (out : List Out) : { alone n out with out := [] }.step false (opsB n) = .ok (alone (n + 1) [.timer 30000]) := by
  simp only [Mgr.step, opsB, tick, Mgr.timerExpired]
  rw [if_pos (by simp [alone, idleTimeout]; omega)]
  simp [alone, prune, env, AMap.keys, Mgr.attemptAll, Mgr.dropAll, Mgr.requestAll, bind, Res.bind, idleTimeout]

theorem endlessB : Endless false histB statesB opsB where
  start := run (by simp [queued1, Op.Legal]) rfl
  step n := by
    rcases n with _ | _ | _ | _ | _ | n
    · rfl
    · rfl
    · rfl
    · rfl
    · exact alone_tick _ _
    · exact alone_tick _ _
  hist _ := rfl
  legal n := env_legal
  timer T n := ⟨n + T, by omega, env, (n + T + 1) * 100000, 1000, rfl, by omega⟩

theorem noMoreB : NoMore 1 statesB opsB := by
  intro n
  refine ⟨by simp [opsB], fun t => ?_, by simp [opsB]⟩
  rcases n with _ | _ | _ | _ | n
  · simp [show (statesB 1).out = [.timer 30000, .inv 1 true [11], .timer 60000] by decide +kernel]
  · simp [show (statesB 2).out = [.timer 30000, .inv 1 true [11], .timer 60000] by decide +kernel]
  · simp [show (statesB 3).out = [.timer 30000, .inv 1 true [11], .timer 60000] by decide +kernel]
  · simp [statesB, alone]
  · simp [statesB, alone]

/-- The transaction is queued, announced, and then settled: the peer is given up. -/
example : Queued 1 11 (histB 0) ∧ (∃ j, 0 ≤ j ∧ (∀ i, 0 ≤ i → i ≤ j → Queued 1 11 (histB i)) ∧
      (Announced 1 11 (histB j) (statesB (j + 1)).out ∨ Settled 1 11 (histB j) (opsB j) (statesB (j + 1)).out)) ∧
    ∃ j, Settled 1 11 (histB j) (opsB j) (statesB (j + 1)).out := by
  have q : Queued 1 11 (histB 0) := .inr ⟨rfl, ⟨true, true, true⟩, rfl, rfl⟩
  exact ⟨q, C125_announced endlessB q, C125_settled_partial endlessB noMoreB q⟩

/-! ## A peer that asks for another transaction again and again -/

/-- Transaction 21 is submitted again and again, announced, and asked for. -/
def opsK (n : Nat) : Op :=
  if n % 3 = 0 then .announce t2 else if n % 3 = 1 then tick ((n + 1) * 100000) 1000 else .getdata 1 [.wtx 21]

/-- Both are pending. -/
def kept (outbox : AMap Nat Nat) (attempts : Nat) (last tick : Option Nat) (out : List Out) : Mgr where
  peers := [(1, ⟨true, true, true, outbox, attempts, last⟩)]
  confirmed := []
  est := (state false queued1).est
  pool := [(11, t1), (21, t2)]
  remaining := []
  received := []
  lastTick := tick
  out := out

def statesK (n : Nat) : Mgr :=
  if n = 0 then state false (queued1 ++ [.announce t2, tick 100000 1000, .getdata 1 [.wtx 21]])
  else if n % 3 = 1 then kept [(21, 20), (11, 10)] 0 none none [.timer 1000]
  else if n % 3 = 2 then kept [(21, 20), (11, 10)] 1 (some (n * 100000)) (some (n * 100000)) [.timer 30000, .inv 1 true [21, 11], .timer 60000]
  else kept [(11, 10)] 0 none (some ((n - 1) * 100000)) [.tx 1 t2, .acknowledged 20 1]

def histK : Nat → Hist
  | 0 => hist false (queued1 ++ [.announce t2, tick 100000 1000, .getdata 1 [.wtx 21]])
  | n + 1 => (opsK n, (statesK (n + 1)).out) :: histK n

theorem kept_tick (out : List Out) (now : Nat) (h : 100000 ≤ now) :
    { kept [(21, 20), (11, 10)] 0 none none out with out := [] }.step false (tick now 1000) =
      .ok (kept [(21, 20), (11, 10)] 1 (some now) (some now) [.timer 30000, .inv 1 true [21, 11], .timer 60000]) := by
  simp only [Mgr.step, tick, Mgr.timerExpired]
  rw [if_pos (by simp [kept, idleTimeout]; omega)]
  have h' : ¬ now < 60000 := by omega
  simp [kept, prune, env, AMap.keys, AMap.get, AMap.insert, AMap.erase, Mgr.attemptAll, Mgr.dropAll, Mgr.requestAll, bind, Res.bind, idleTimeout, rebroadcastTimeout, maxAttempts, h',
    lookupAll, Res.unwrap, Peer.attempted, Mgr.emit, t1, t2]

theorem stepK (n : Nat) : { statesK n with out := [] }.step false (opsK n) = .ok (statesK (n + 1)) := by
  obtain ⟨k, rfl | rfl | rfl⟩ : ∃ k, n = 3 * k ∨ n = 3 * k + 1 ∨ n = 3 * k + 2 := ⟨n / 3, by omega⟩
  · have h1 : opsK (3 * k) = .announce t2 := if_pos (by omega)
    have h2 : statesK (3 * k + 1) = kept [(21, 20), (11, 10)] 0 none none [.timer 1000] := by
      unfold statesK
      rw [if_neg (by omega), if_pos (by omega)]
    rw [h1, h2]
    rcases k with _ | k
    · rfl
    · have h3 : statesK (3 * (k + 1)) = kept [(11, 10)] 0 none (some ((3 * (k + 1) - 1) * 100000)) [.tx 1 t2, .acknowledged 20 1] := by
        unfold statesK
        rw [if_neg (by omega), if_neg (by omega), if_neg (by omega)]
      rw [h3]
      rfl
  · have h1 : opsK (3 * k + 1) = tick ((3 * k + 2) * 100000) 1000 := by
      unfold opsK
      rw [if_neg (by omega), if_pos (by omega)]
    have h2 : statesK (3 * k + 1) = kept [(21, 20), (11, 10)] 0 none none [.timer 1000] := by
      unfold statesK
      rw [if_neg (by omega), if_pos (by omega)]
    have h3 : statesK (3 * k + 2) =
        kept [(21, 20), (11, 10)] 1 (some ((3 * k + 2) * 100000)) (some ((3 * k + 2) * 100000)) [.timer 30000, .inv 1 true [21, 11], .timer 60000] := by
      unfold statesK
      rw [if_neg (by omega), if_neg (by omega), if_pos (by omega)]
    rw [h1, h2, show 3 * k + 1 + 1 = 3 * k + 2 from rfl, h3]
    exact kept_tick _ _ (by omega)
  · have h1 : opsK (3 * k + 2) = .getdata 1 [.wtx 21] := by
      unfold opsK
      rw [if_neg (by omega), if_neg (by omega)]
    have h2 : statesK (3 * k + 2) =
        kept [(21, 20), (11, 10)] 1 (some ((3 * k + 2) * 100000)) (some ((3 * k + 2) * 100000)) [.timer 30000, .inv 1 true [21, 11], .timer 60000] := by
      unfold statesK
      rw [if_neg (by omega), if_neg (by omega), if_pos (by omega)]
    have h3 : statesK (3 * k + 2 + 1) = kept [(11, 10)] 0 none (some ((3 * k + 2) * 100000)) [.tx 1 t2, .acknowledged 20 1] := by
      unfold statesK
      rw [if_neg (by omega), if_neg (by omega), if_neg (by omega)]
      rfl
    rw [h1, h2, h3]
    rfl

theorem endlessK : Endless false histK statesK opsK where
  start := run (by simp [queued1, Op.Legal, env_legal]) rfl
  step := stepK
  hist _ := rfl
  legal n := by
    unfold opsK
    split
    · trivial
    · split
      · exact env_legal
      · trivial
  timer T n := by
    refine ⟨3 * (n + T) + 1, by omega, env, (3 * (n + T) + 2) * 100000, 1000, ?_, by omega⟩
    unfold opsK
    rw [if_neg (by omega), if_pos (by omega)]
    rfl

theorem unsettledK (n : Nat) : ¬ Settled 1 11 (histK n) (opsK n) (statesK (n + 1)).out := by
  have h1 : ∀ items, opsK n = .getdata 1 items → items = [.wtx 21] := by
    intro items
    unfold opsK
    split
    · simp
    · split
      · simp
      · intro h; cases h; rfl
  have h2 : (statesK (n + 1)).out = [.timer 1000] ∨ (statesK (n + 1)).out = [.timer 30000, .inv 1 true [21, 11], .timer 60000] ∨
      (statesK (n + 1)).out = [.tx 1 t2, .acknowledged 20 1] := by
    unfold statesK
    rw [if_neg (by omega)]
    split
    · exact .inl rfl
    · split
      · exact .inr (.inl rfl)
      · exact .inr (.inr rfl)
  rintro (⟨items, h, i, hi, hn⟩ | ⟨k, b, h⟩ | h | h)
  · rw [h1 items h, List.mem_singleton] at hi
    subst hi
    cases hn
  · rcases h2 with e | e | e <;> rw [e] at h <;> cases h
  · unfold opsK at h
    split at h
    · cases h
    · split at h <;> cases h
  · rcases h2 with e | e | e <;> rw [e] at h <;> simp at h

/-- **C125** (why not all of it): a peer that never asks for a transaction, but for others that are submitted again and again, is never given up, and the transaction is
announced to it for ever. -/
theorem C125_kept : ∃ H f op, Endless false H f op ∧ (∀ n, Queued 1 11 (H n)) ∧ (∀ n, ¬ Settled 1 11 (H n) (op n) (f (n + 1)).out) ∧
    Often fun n => Announced 1 11 (H n) (f (n + 1)).out := by
  have hq : ∀ n, Queued 1 11 (histK n) := by
    intro n
    induction n with
    | zero =>
      refine ⟨⟨by decide +kernel, .inl (.inr ⟨rfl, ⟨true, true, true⟩, rfl, rfl⟩)⟩, ?_⟩
      rintro ⟨-, i, hi, hn⟩
      rw [List.mem_singleton] at hi
      subst hi
      cases hn
    | succ n ih => exact endlessK.stays ih (unsettledK n)
  refine ⟨histK, statesK, opsK, endlessK, hq, unsettledK, fun n => ?_⟩
  obtain ⟨j, hj, -, h | h⟩ := C125_announced endlessK (hq n)
  · exact ⟨j, hj, h⟩
  · exact absurd h (unsettledK j)

end Verif.Inv.Scenario
