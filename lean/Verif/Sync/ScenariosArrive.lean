import Verif.Sync.PropsArrive

/-!
# An endless execution in which a request for headers is lost
-/

set_option autoImplicit false

namespace Verif.Sync.Scenario
open Verif.Chain (Header State Err ImportResult)
open Verif.Chain.Scenario (a1 a2 a3 g e)

/-- A peer connects; it is asked for headers but does not answer in time, it is asked again and answers. -/
def early : Nat → Cmd
  | 0 => .peer 7300000 1 3 false true
  | 1 => .tick 8000000
  | 2 => .recv 8000010 1 [a1, a2, a3]
  | 3 => .tick 20000000
  | n => .tick (n * 10000000)

def opsS (n : Nat) : Op := (early n).op

/-- At the tip, after the timer at time `x`. -/
def atTip (x : Nat) : Mgr where
  peers := [(1, ⟨3, true, 0, true, some 8000010, some ([13, 12, 11, 1], 0)⟩)]
  lastTipUpdate := some 8000010
  lastPeerSample := some x
  lastIdle := some x
  inflight := []
  out := [.setTimer 600000]

def prefixOf (n : Nat) : List Cmd := (List.range n).map early

def statesS : Nat → Mgr
  | 0 => Mgr.new
  | 1 => state false (prefixOf 1)
  | 2 => state false (prefixOf 2)
  | 3 => state false (prefixOf 3)
  | 4 => state false (prefixOf 4)
  | n + 5 => atTip ((n + 4) * 10000000)

def treesS : Nat → State
  | 0 | 1 | 2 => fresh false
  | _ + 3 => theirs

def histS : Nat → Hist
  | 0 => []
  | n + 1 => (opsS n, (statesS (n + 1)).out) :: histS n

theorem theirs_locators : Chain.locatorHashes (conf false).chain theirs theirs.height = .ok [13, 12, 11, 1] := by decide

theorem theirs_height : theirs.height = 3 := by decide

theorem atTip_tick {x now : Nat} (h1 : x + 3600000 ≤ now) (h2 : 40000000 ≤ now) :
    { atTip x with out := [] }.step (conf false) theirs (.timer env now) = .ok (atTip now, theirs) := by
  have hs : ∀ y o, Mgr.staleTip (conf false) { atTip x with lastPeerSample := y, out := o } theirs now = .ok true := by
    intro y o
    have : Mgr.updatedLongAgo (conf false) { atTip x with lastPeerSample := y, out := o } now = .ok true := by
      have hsp : (conf false).chain.spacing * 3 * 1000 ≤ 7200000 := by decide
      unfold Mgr.updatedLongAgo
      generalize (conf false).chain.spacing * 3 * 1000 = d at hsp
      simp only [atTip, subTime]
      rw [if_pos (by omega)]
      exact congrArg Res.ok (decide_eq_true (by omega))
    simp only [Mgr.staleTip, this, Res.ok_bind, if_true]
  have hstale := hs (some x) []
  have e1 : Mgr.startSync (conf false) env { atTip x with out := [] } theirs now = .ok ({ atTip x with out := [] }, false) := by
    simp only [Mgr.startSync, theirs_locators, Res.ok_bind]
    rfl
  have e2 : Mgr.sync (conf false) env { atTip x with out := [] } theirs now = .ok ({ atTip x with out := [] }, false) := by
    have : Mgr.isSynced (conf false) { atTip x with out := [] } theirs now = .ok false := by
      have hstale : Mgr.staleTip (conf false) { atTip x with out := [] } theirs now = .ok true := hstale
      simp only [Mgr.isSynced, hstale, Res.ok_bind, if_true]
    simp only [Mgr.sync, this, Res.ok_bind]
    rw [if_neg (by simp [atTip])]
    exact e1
  have e3 : Mgr.samplePeers (conf false) env { atTip x with out := [] } theirs now = .ok { atTip x with lastPeerSample := some now, out := [] } := by
    have hstale : Mgr.staleTip (conf false) { atTip x with out := [] } theirs now = .ok true := hstale
    simp only [Mgr.samplePeers, hstale, Res.ok_bind, theirs_locators]
    rw [if_neg]
    · rfl
    · simp only [atTip, Option.getD_some, peerSampleInterval]
      omega
  simp only [Mgr.step, Mgr.timer]
  have e4 : Mgr.timedOut (conf false) env { atTip x with out := [] } now = [] := rfl
  rw [e4]
  simp only [Mgr.expireAll, Res.ok_bind, Mgr.idle, Mgr.syncOrSample, e2, e3]
  rw [if_neg (by simp), if_pos]
  · rfl
  · simp only [atTip, Option.getD_some, idleTimeout]
    omega

theorem step0 : { statesS 0 with out := [] }.step (conf false) (treesS 0) (opsS 0) = .ok (statesS 1, treesS 1) := by decide +kernel
theorem step1 : { statesS 1 with out := [] }.step (conf false) (treesS 1) (opsS 1) = .ok (statesS 2, treesS 2) := by decide +kernel
theorem step2 : { statesS 2 with out := [] }.step (conf false) (treesS 2) (opsS 2) = .ok (statesS 3, treesS 3) := by decide +kernel
theorem step3 : { statesS 3 with out := [] }.step (conf false) (treesS 3) (opsS 3) = .ok (statesS 4, treesS 4) := by decide +kernel
theorem step4 : { statesS 4 with out := [] }.step (conf false) (treesS 4) (opsS 4) = .ok (statesS 5, treesS 5) := by decide +kernel

theorem stepS : ∀ n, { statesS n with out := [] }.step (conf false) (treesS n) (opsS n) = .ok (statesS (n + 1), treesS (n + 1))
  | 0 => step0
  | 1 => step1
  | 2 => step2
  | 3 => step3
  | 4 => step4
  | n + 5 => atTip_tick (x := (n + 4) * 10000000) (now := (n + 5) * 10000000) (by omega) (by omega)

theorem connectedS : ∀ n, connected 1 (histS (n + 1)) = some ⟨true, false, 3⟩
  | 0 => by decide +kernel
  | 1 => by decide +kernel
  | 2 => by decide +kernel
  | 3 => by decide +kernel
  | n + 4 => connectedS (n + 3)

theorem syncs : Syncs (conf false) U theirs (fresh false) histS statesS treesS opsS where
  start := ⟨rfl, rfl, rfl⟩
  step := stepS
  hist _ := rfl
  legal n := Cmd.legal (by
    rcases n with _ | _ | _ | _ | n
    · rfl
    · rfl
    · decide
    · rfl
    · rfl)
  honest n := by
    rcases n with _ | _ | _ | _ | n
    · exact ⟨⟨0, Nat.zero_le _, List.nil_prefix⟩, by simp [opsS, early, Cmd.op, Op.batch], fun _ _ _ h => by cases h⟩
    · exact ⟨⟨0, Nat.zero_le _, List.nil_prefix⟩, by simp [opsS, early, Cmd.op, Op.batch], fun _ _ _ h => by cases h⟩
    · refine ⟨⟨1, by decide, by decide⟩, fun p hp => ?_, fun _ _ _ h => by cases h⟩
      have : p.2 = e := by
        simp only [opsS, early, Cmd.op, Op.batch, List.map_cons, List.map_nil, List.mem_cons, List.not_mem_nil, or_false] at hp
        rcases hp with rfl | rfl | rfl <;> rfl
      rw [this]
      exact theirs_valid
    · exact ⟨⟨0, Nat.zero_le _, List.nil_prefix⟩, by simp [opsS, early, Cmd.op, Op.batch], fun _ _ _ h => by cases h⟩
    · exact ⟨⟨0, Nat.zero_le _, List.nil_prefix⟩, by simp [opsS, early, Cmd.op, Op.batch], fun _ _ _ h => by cases h⟩
  peers := by
    refine ⟨1, fun n hn => ?_⟩
    obtain ⟨k, rfl⟩ := Nat.exists_eq_add_of_le hn
    rw [Nat.add_comm 1 k]
    refine ⟨⟨1, _, connectedS k, rfl⟩, fun hne => ⟨1, _, connectedS k, ?_⟩, ?_⟩
    · rcases k with _ | _ | k
      · decide
      · decide
      · exact absurd rfl hne
    · rcases k with _ | _ | _ | k <;> exact fun _ _ h => by cases h
  timer d n := ⟨n + d + 4, by omega, env, (n + d + 4) * 10000000, rfl, by omega⟩
  answered lc hoft := by
    obtain ⟨j, hj, a, ha⟩ := hoft 4
    obtain ⟨i, rfl⟩ := Nat.exists_eq_add_of_le hj
    rw [Nat.add_comm 4 i] at ha
    simp [statesS, atTip] at ha

/-- C123: although the first request is lost, we get to the tip. -/
example : ∃ N, ∀ n, N ≤ n → (treesS n).headers = [g, a1, a2, a3] := by
  have := C123_synced_partial (g := g) rfl ⟨by decide, rfl, fun _ => rfl⟩ (acyclic false) (collisionFree false) (by decide) (reach false false) theirs_reach
    (by decide) (by rw [theirs_height]; decide) (by decide) (by decide) (fun k h => by simpa [State.isKnown, State.contains, fresh, Chain.new, AMap.contains] using h) syncs
  rwa [theirs_headers] at this

end Verif.Sync.Scenario
