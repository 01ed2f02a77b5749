import Verif.Cbf.PropsScan

/-!
# Concrete runs of the filter manager

A small network: the hash of a filter is the sum of its content, a filter header is `hash + 10 * previous + 1`; a filter
contains a script iff it is in the list.  The runs below are histories in the sense of `Reach`; they show that the hypotheses
of the theorems are met by non-trivial cases, and are the counterexamples of the properties that do not hold.
-/

set_option autoImplicit false

namespace Verif.Cbf

/-- A sequence of calls, each with what the environment decides and the tree shown. -/
def Mgr.run (p : Params) : Mgr → List (Env × Tree × Op) → Res Unit Mgr
  | m, [] => .ok m
  | m, (e, t, op) :: ops => m.step p e t op >>= fun m => m.run p ops

theorem run_reach (p : Params) (fail : Bool) : ∀ (ops : List (Env × Tree × Op)) (m m' : Mgr), Reach p fail m →
    (∀ x ∈ ops, x.1.fail = false) → m.run p ops = .ok m' → Reach p fail m'
  | [], m, m', h, _, hr => by cases hr; exact h
  | (e, t, op) :: ops, m, m', h, hf, hr => by
    unfold Mgr.run at hr
    rw [Res.bind_eq_ok] at hr
    obtain ⟨m1, h1, h2⟩ := hr
    exact run_reach p fail ops m1 m' (.step e t op h (fun _ => hf (e, t, op) (by simp)) h1)
      (fun x hx => hf x (by simp [hx])) h2

theorem run_log (p : Params) : ∀ (ops : List (Env × Tree × Op)) (l : List (FilterHeaders × Tree × Op)) (m m' : Mgr),
    Log p l m → m.run p ops = .ok m' → ∃ l', Log p l' m'
  | [], l, m, m', h, hr => by cases hr; exact ⟨l, h⟩
  | (e, t, op) :: ops, l, m, m', h, hr => by
    unfold Mgr.run at hr
    rw [Res.bind_eq_ok] at hr
    obtain ⟨m1, h1, h2⟩ := hr
    exact run_log p ops _ m1 m' (.step e t op h h1) h2

namespace Scenario

/-- The network. -/
def p : Params := ⟨fun f => f.sum, fun h prev => h + 10 * prev + 1, fun f _ w => some (w.any f.contains),
  fun f _ w => some (w.all f.contains), 5, 6, false⟩

/-- The same in a debug build. -/
def pd : Params := { p with checked := true }

/-- At a given time: the first peer of the book is sampled. -/
def at_ (now : Nat) : Env := ⟨now, fun _ m => m.head?, id, id, false⟩

/-- A chain of four blocks. -/
def t : Tree := ⟨[100, 101, 102, 103], none⟩

/-- Its last block replaced by two others. -/
def t' : Tree := ⟨[100, 101, 102, 203, 204], none⟩

/-- Its extension by one block. -/
def t1 : Tree := ⟨[100, 101, 102, 103, 104], none⟩

/-- A fresh filter manager, with room for 100 bytes of filters. -/
def m0 : Mgr := Mgr.new ⟨(5, 6), [], [(5, 6)]⟩ 100

theorem reach0 (fail : Bool) : Reach p fail m0 := .init _ _ ⟨⟨(5, 6), rfl, rfl, rfl⟩, by
  intro h a b ha hb
  simp [FilterHeaders.all] at hb⟩ rfl

/-- Connecting to peer 1, importing the filter headers of blocks 1 to 3. -/
def setup : List (Env × Tree × Op) :=
  [(at_ 100000, t, .peerNegotiated 1 true true false),
   (at_ 100001, t, .cfheaders 1 ⟨0, 103, 6, [1, 2, 3]⟩)]

/-- A rescan of heights 1 to 3 for script 2. -/
def scan : List (Env × Tree × Op) := setup ++ [(at_ 100002, t, .rescan (.included 1) (.included 3) [2])]

/-- Some part of a result. -/
def look {α : Type} (f : Mgr → α) (r : Res Unit Mgr) : Option α :=
  match r with | .ok m => some (f m) | _ => none

/-- The events of a run. -/
def events (r : Res Unit Mgr) : Option (List Ev) := look (fun m => eventsOf m.out) r

/-- Filters for blocks 101, 102 and 103. -/
def f1 (now : Nat) : Env × Tree × Op := (at_ now, t, .cfilter 1 0 101 [1])
def f2 (now : Nat) : Env × Tree × Op := (at_ now, t, .cfilter 1 0 102 [2])
def f3 (now : Nat) : Env × Tree × Op := (at_ now, t, .cfilter 1 0 103 [3])

/-! ### Non-vacuity -/

/-- C22, C26, C28, C29: filters arriving out of order are processed in order, and the matching block is requested. -/
example : look (fun m => (m.filters.all, processedHeights m.out, m.out.filter (fun o => o matches .getBlock _)))
    (m0.run p (setup ++ [(at_ 100002, t, .rescan (.included 1) .unbounded [2]), f3 100003, f2 100003, f1 100003])) =
    some ([(5, 6), (1, 62), (2, 623), (3, 6234)], [1, 2, 3], [.getBlock 102]) := by decide

/-- C22: the state reached is reachable in the sense of the theorem. -/
example : ∃ m, Reach p false m ∧ m.filters.all = [(5, 6), (1, 62), (2, 623), (3, 6234)] := by
  refine ⟨_, run_reach p false setup m0 _ (reach0 false) ?_ rfl, by decide⟩
  decide

/-- C26: a filter that does not fit the filter header is refused and its sender flagged; a fitting one is announced. -/
example : events (m0.run p (scan ++ [(at_ 100003, t, .cfilter 4 0 102 [7])])) =
    some [.filterHeadersSynced 3, .rescanStarted 1 (some 3), .peerMisbehaved 4] ∧
    events (m0.run p (scan ++ [(at_ 100003, t, .cfilter 4 0 102 [1, 1])])) =
    some [.filterHeadersSynced 3, .rescanStarted 1 (some 3), .filterReceived 4 102 2 [1, 1], .scanned 1] := by decide

/-- C28: heights 4 and 5 requested, 7 received, 8 cached: asking for 2 to 10 requests the rest. -/
example : ((⟨true, 0, 0, none, ⟨[(8, [1])], 1, 100⟩, [], [], [4, 5], [(7, [1], 107, false)]⟩ : Rescan).requests
    ⟨List.range 20, none⟩ 2 10).1 = [(2, 3), (6, 6), (9, 10)] := by decide

/-! ### C30: counterexamples -/

/-- C30 fails: the rescan of 1..=3 is reported as completed although height 3 was not scanned. -/
theorem C30_stops_before_end :
    look (fun m => (eventsOf m.out).contains (.rescanStopped 3) && !(processedHeights m.out).contains 3 && !m.rescan.active)
      (m0.run p (scan ++ [f2 100003, f1 100004])) = some true := by decide

/-- C30 fails: if the last filter arrives first, every height is scanned and the rescan is never reported as completed nor
ended. -/
theorem C30_never_stops :
    look (fun m => (processedHeights m.out, (eventsOf m.out).contains (.rescanStopped 3), m.rescan.active))
      (m0.run p (scan ++ [f3 100003, f2 100003, f1 100004])) = some ([1, 2, 3], false, true) := by decide

/-- C30 fails: such a rescan of 1..=3 goes on to scan height 4. -/
theorem C30_scans_beyond_end :
    look (fun m => processedHeights m.out)
      (m0.run p (scan ++ [f3 100003, f2 100003, f1 100004,
        (at_ 200000, t1, .headersImported []), (at_ 200001, t1, .cfheaders 1 ⟨0, 104, 6234, [4]⟩),
        (at_ 210000, t1, .timer), (at_ 210001, t1, .cfilter 1 0 104 [4])])) = some [1, 2, 3, 4] := by decide

/-- C30 fails: the stop event is repeated when a filter the user asked for arrives later. -/
theorem C30_stop_repeated :
    events (m0.run p (setup ++ [(at_ 100002, t, .rescan (.included 1) (.included 2) [2]), f1 100003,
        (at_ 100004, t, .getCFilters 3 3), f3 100005])) =
    some [.filterHeadersSynced 3, .rescanStarted 1 (some 2), .filterReceived 1 101 1 [1],
      .filterProcessed 101 1 true false false, .rescanStopped 2, .scanned 2, .filterReceived 1 103 3 [3],
      .rescanStopped 2, .scanned 2] := by decide

/-! ### C31: counterexample -/

/-- Height 3 is received and waits for heights 1 and 2; block 103 is replaced by 203, 204; heights 1 and 2 arrive. -/
def reorg : List (Env × Tree × Op) :=
  setup ++ [(at_ 100002, t, .rescan (.included 1) .unbounded [3]), f3 100003,
    (at_ 100004, t', .headersImported [3]), (at_ 100005, t', .cfheaders 1 ⟨0, 204, 623, [6, 7]⟩),
    (at_ 100006, t', .cfilter 1 0 101 [1]), (at_ 100007, t', .cfilter 1 0 102 [2])]

/-- C31 fails: the filter of the reverted block 103 is scanned after the re-org, its block requested; the filter of block 203
that replaced it is not requested (only that of 204 is), and current height moves past it. -/
theorem C31_scans_reverted_block :
    look (fun m => (m.filters.height, (eventsOf m.out).getLast?, m.rescan.current, m.rescan.requested)) (m0.run p reorg) =
      some (4, some (.filterProcessed 103 3 true true false), 4, [4]) ∧
    look (fun m => m.out.filter (fun o => o matches .getBlock _)) (m0.run p reorg) = some [.getBlock 103] ∧
    look (fun m => m.out.filter (fun o => o matches .getCFilters _ _ _)) (m0.run p reorg) =
      some [.getCFilters 1 1 103, .getCFilters 1 4 204] := by decide

/-! ### Crashes, missing reports, stalls -/

/-- A peer message crashes the client: the only filter peer is gone, a rescan is active, and some peer sends the filter headers
that had been asked for. -/
theorem C59_cfheaders_crash :
    m0.run p [(at_ 100000, t, .peerNegotiated 1 true true false), (at_ 100001, t, .rescan (.included 1) .unbounded [2]),
      (at_ 100002, t, .peerDisconnected 1)] ≠ .panic ∧
    m0.run p [(at_ 100000, t, .peerNegotiated 1 true true false), (at_ 100001, t, .rescan (.included 1) .unbounded [2]),
      (at_ 100002, t, .peerDisconnected 1), (at_ 100003, t, .cfheaders 9 ⟨0, 103, 6, [1, 2, 3]⟩)] = .panic := by decide

/-- A peer message crashes a debug build: `getcfheaders` whose start height is above the height of its stop hash. -/
theorem C59_getcfheaders_crash :
    m0.run pd (setup ++ [(at_ 100002, t, .getcfheaders 9 0 3 101)]) = .panic := by decide

/-- A user command crashes the client: asking for filters above the filter-header chain. -/
theorem C60_getcfilters_crash :
    m0.run p (setup ++ [(at_ 100002, t, .getCFilters 1 4)]) = .panic := by decide

/-- A user command crashes a debug build: a rescan whose end is `Bound::Excluded(0)`; a release build scans for ever. -/
theorem C60_rescan_crash :
    m0.run pd (setup ++ [(at_ 100002, t, .rescan (.included 0) (.excluded 0) [2])]) = .panic := by decide

/-- An event crashes the client: the active chain became shorter and the re-org was not reported yet. -/
theorem C60_shorter_chain_crash :
    m0.run p (setup ++ [(at_ 100002, ⟨[100, 101, 202], none⟩, .peerNegotiated 2 true true false)]) = .panic := by decide

/-- A filter found in memory by a new rescan matches, its block is requested and arrives, and no `BlockMatched` event is ever
emitted for it. -/
theorem C61_cached_match_not_reported :
    look (fun m => (m.out.filter (fun o => o matches .getBlock _), (eventsOf m.out).filter (fun o => o matches .blockMatched _ _)))
      (m0.run p (setup ++ [(at_ 100002, t, .rescan (.included 1) .unbounded [9]), f1 100003, f2 100003, f3 100003,
        (at_ 100004, t, .rescan (.included 1) .unbounded [2]), (at_ 100005, t, .blockProcessed 102 2)])) =
      some ([.getBlock 102], []) ∧
    look (fun m => (eventsOf m.out).contains (.filterProcessed 102 2 true true true))
      (m0.run p (setup ++ [(at_ 100002, t, .rescan (.included 1) .unbounded [9]), f1 100003, f2 100003, f3 100003,
        (at_ 100004, t, .rescan (.included 1) .unbounded [2]), (at_ 100005, t, .blockProcessed 102 2)])) = some true := by
  decide

/-- `Scanned { height }` names a height that was not scanned: the next one. -/
theorem C62_scanned_not_yet :
    look (fun m => ((eventsOf m.out).getLast?, processedHeights m.out))
      (m0.run p (scan ++ [f1 100003])) = some (some (.scanned 2), [1]) := by decide

/-- A persistent peer that does not answer is disconnected when the peer sampled next is not persistent; a non-persistent one
is kept when the peer sampled next is persistent. -/
theorem C63_persistent_disconnected :
    look (fun m => m.out.filter (fun o => o matches .disconnect _))
      (m0.run p [(at_ 100000, t, .peerNegotiated 1 true true true), (at_ 100001, t, .peerNegotiated 2 true true false),
        (at_ 110000, t, .timer)]) = some [.disconnect 1] ∧
    look (fun m => m.out.filter (fun o => o matches .disconnect _))
      (m0.run p [(at_ 100000, t, .peerNegotiated 1 true true false), (at_ 100001, t, .peerNegotiated 2 true true true),
        (at_ 110000, t, .timer)]) = some [] := by decide

/-- All filters of a rescan are in memory, but no peer is connected when it starts: nothing is scanned then, nor when a peer
connects, nor when timers fire — the filters sit in the queue. -/
theorem C64_cached_rescan_stalls :
    look (fun m => (m.rescan.current, m.rescan.received.length, m.rescan.requested))
      (m0.run p (setup ++ [(at_ 100002, t, .rescan (.included 1) .unbounded [9]), f1 100003, f2 100003, f3 100003,
        (at_ 100004, t, .peerDisconnected 1), (at_ 100005, t, .rescan (.included 1) .unbounded [2]),
        (at_ 100006, t, .peerNegotiated 2 true true false), (at_ 200000, t, .timer), (at_ 300000, t, .timer)])) =
      some (1, 3, []) := by decide

end Scenario
end Verif.Cbf
