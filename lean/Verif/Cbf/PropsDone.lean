import Verif.Cbf.PropsStop
import Verif.Cbf.PropsSafe
import Verif.Cbf.Scenario

/-!
# Progress reports and rescans out of memory: C62, C64
-/

set_option autoImplicit false

namespace Verif.Cbf

variable (p : Params)

/-- A progress report after a filter message names the current height. -/
theorem afterFilter_scanned (ms : List (Nat × Nat)) (m : Mgr) :
    ∃ o, (m.afterFilter ms).out = m.out ++ o ∧ (m.afterFilter ms).rescan = m.rescan ∧
      ∀ h, Ev.scanned h ∈ eventsOf o → h = m.rescan.current := by
  obtain ⟨h1, ks, h2⟩ := requestBlocks_frame ms m
  have hr : (m.requestBlocks ms).rescan = m.rescan := by rw [h1]
  unfold Mgr.afterFilter
  simp only
  split
  · refine ⟨ks.map .getBlock ++ [.event (.scanned (m.requestBlocks ms).rescan.current)],
      by simp only [Mgr.emit, h2, List.append_assoc], hr, ?_⟩
    intro h hh
    rw [eventsOf_append, eventsOf_getBlocks] at hh
    simp [eventsOf, hr] at hh
    exact hh
  · refine ⟨ks.map .getBlock, h2, hr, ?_⟩
    intro h hh
    rw [eventsOf_getBlocks] at hh
    cases hh

theorem process_no_scanned (r : Rescan) {r' : Rescan} {ms : List (Nat × Nat)} {es : List Ev} {n : Nat}
    (h : r.process p = (r', ms, es, n)) (k : Nat) : Ev.scanned k ∉ es := by
  obtain ⟨_, es', h1, h2⟩ := process_stop p r h
  intro hk
  rcases h2 with ⟨rfl, _⟩ | ⟨rfl, _⟩
  · obtain ⟨_, _, _, _, _, h3⟩ := h1 _ hk
    cases h3
  · rw [List.mem_append] at hk
    rcases hk with hk | hk
    · obtain ⟨_, _, _, _, _, h3⟩ := h1 _ hk
      cases h3
    · simp at hk

/-- C62, the part that holds.  When a filter message makes the client report progress up to height `h` (`Scanned`), then since
the rescan command all heights from its start up to, but *excluding*, `h` were processed, in order and each once.  The full
claim, which includes `h`, is false: `Scenario.C62_scanned_not_yet`.  Not covered: reports made when a block arrives. -/
theorem C62_below_scanned_partial (e e' : Env) (t t' : Tree) (m m1 m2 m3 : Mgr) (start stop : Bound) (w : List Nat)
    (peer ft block : Nat) (f : Filter)
    (h : m.step p e t (.rescan start stop w) = .ok m1) (hr : PlainRun p m1 m2)
    (hs : m2.step p e' t' (.cfilter peer ft block f) = .ok m3) :
    ∃ o, m3.out = m2.out ++ o ∧ ∀ k, Ev.scanned k ∈ eventsOf o →
      start.first t ≤ k ∧
      processedHeights m3.out = processedHeights m.out ++ List.range' (start.first t) (k - start.first t) := by
  have h29 := C29_in_order p e t m m1 m3 start stop w h (.cons e' t' _ hr rfl hs)
  have hc := receivedCFilter_cases p e' t' m2 peer ft block f
  simp only [Mgr.step] at hs
  generalize m2.receivedCFilter p e' t' peer ft block f = g at hs hc
  cases hc with
  | ignored hi => cases hs; exact ⟨[], by simp, by simp [eventsOf]⟩
  | invalid hh h0 h1 h2 h3 => cases hs; exact ⟨[_], rfl, by simp [eventsOf]⟩
  | unsolicited hh h0 h1 h2 h3 =>
    obtain ⟨o, h4, h5, h6⟩ := afterFilter_scanned [] (m2.emit [.event (.filterReceived peer block hh f)])
    injection hs with hs
    rw [hs] at h4 h5
    refine ⟨.event (.filterReceived peer block hh f) :: o, by rw [h4]; simp [Mgr.emit], ?_⟩
    intro k hk
    have hk' : Ev.scanned k ∈ eventsOf o := by
      simpa [eventsOf] using hk
    have := h6 k hk'
    rw [h5, ← this] at h29
    exact h29
  | scanned hh c r ms es n h0 h1 h2 h3 h4 h5 =>
    injection hs with hs
    obtain ⟨o, q4, q5, q6⟩ := afterFilter_scanned ms
      { m2 with rescan := r, lastProcessed := if 0 < n then some e'.now else m2.lastProcessed,
                out := m2.out ++ .event (.filterReceived peer block hh f) :: es.map .event }
    rw [hs] at q4 q5
    refine ⟨.event (.filterReceived peer block hh f) :: es.map .event ++ o, by rw [q4]; simp, ?_⟩
    intro k hk
    rw [List.cons_append, ← List.singleton_append, eventsOf_append, eventsOf_append, eventsOf_map] at hk
    simp only [List.mem_append] at hk
    have hk' : Ev.scanned k ∈ eventsOf o := by
      rcases hk with hk | hk | hk
      · simp [eventsOf] at hk
      · exact absurd hk (process_no_scanned p _ h5 k)
      · exact hk
    have := q6 k hk'
    rw [q5] at h29
    simp only at this h29
    rw [← this] at h29
    exact h29
  | panicked m' hh => cases hs

theorem askFilters_rescan (t : Tree) (peers : List Nat) : ∀ (rs : List (Nat × Nat)) (i : Nat) (m : Mgr),
    (Mgr.askFilters t peers i m rs).1.rescan = m.rescan
  | [], i, m => rfl
  | (a, b) :: rs, i, m => by
    unfold Mgr.askFilters
    split
    · rfl
    · split
      · rfl
      · rw [askFilters_rescan t peers rs (i + 1) _]; rfl

theorem getCFilters_rescan (e : Env) (t : Tree) (m : Mgr) (a b : Nat) (h0 : m.peers ≠ []) (h1 : a ≤ b)
    (h2 : b ≤ m.filters.height) : (m.getCFilters e t a b).1.rescan = (m.rescan.requests t a b).2 := by
  unfold Mgr.getCFilters
  rw [if_neg h0, if_neg (by omega), if_pos h2]
  simp only
  rw [askFilters_rescan]

/-- C64, the part that holds.  A filter peer is connected, filter headers do not go beyond the block headers, some script is
watched, and all filters from the start of the requested range up to its end (or up to the last known filter header) are in
memory: then the rescan command itself processes all of them, in order, without needing any further message.  Without a
connected peer this is false: `Scenario.C64_cached_rescan_stalls`. -/
theorem C64_cached_rescan_partial (e : Env) (t : Tree) (m : Mgr) (start stop : Bound) (w : List Nat) (last : Option Nat)
    (hpeer : m.peers ≠ []) (hh : m.filters.height < t.hashes.length) (hw : w ≠ [])
    (hl : (stop.last p.checked : Res Unit (Option Nat)) = .ok last)
    (hne : start.first t ≤ m.lastWanted last)
    (hmem : ∀ h, start.first t ≤ h → h ≤ m.lastWanted last → (m.rescan.cache.get h).isSome) :
    ∃ m' n, m.step p e t (.rescan start stop w) = .ok m' ∧
      processedHeights m'.out = processedHeights m.out ++ List.range' (start.first t) n ∧
      m.lastWanted last < start.first t + n := by
  have hlw : m.lastWanted last ≤ m.filters.height := by
    cases last <;> simp [Mgr.lastWanted]
  let m0 := Mgr.emit { m with rescan := m.rescan.restart (start.first t) last w } [.event (.rescanStarted (start.first t) last)]
  have hres := getCFilters_result e t m0 (start.first t) (m.lastWanted last) hh
  rw [if_neg (show m0.peers ≠ [] from hpeer), if_neg (by omega), if_pos (show _ ≤ m0.filters.height from hlw)] at hres
  have hrs := getCFilters_rescan e t m0 (start.first t) (m.lastWanted last) hpeer hne hlw
  have hstart : m.startRescan p e t start stop w = (m0.getCFilters e t (start.first t) (m.lastWanted last)).1.processQueue p := by
    unfold Mgr.startRescan
    rw [hl]
    show m0.fetchRescan p e t (start.first t) (m.lastWanted last) = _
    unfold Mgr.fetchRescan
    have hwe : m0.rescan.watch.isEmpty = false := by
      show w.isEmpty = false
      cases w <;> simp at hw ⊢
    rw [hwe, if_neg (by simp), if_neg (by omega)]
    generalize m0.getCFilters e t (start.first t) (m.lastWanted last) = g at hres
    obtain ⟨g1, g2⟩ := g
    simp only at hres
    subst hres
    rfl
  have hstep : ∃ m', m.step p e t (.rescan start stop w) = .ok m' ∧
      m'.rescan = ((m0.getCFilters e t (start.first t) (m.lastWanted last)).1.rescan.process p).1 := by
    simp only [Mgr.step, hstart, Mgr.processQueue]
    exact ⟨_, rfl, rfl⟩
  obtain ⟨m', hs1, hs2⟩ := hstep
  have hord := rescan_order p e t m m' start stop w hs1
  refine ⟨m', m'.rescan.current - start.first t, hs1, hord.2, ?_⟩
  have hgoal : m.lastWanted last < m'.rescan.current := by
    rw [hs2, hrs]
    obtain ⟨n, r', ms, es, stp, g1, g2, g3, g4, _⟩ := C29_process p (m0.rescan.requests t (start.first t) (m.lastWanted last)).2
    rw [g1]
    obtain ⟨_, _, _, c4, c5⟩ := C28_requests t m0.rescan (start.first t) (m.lastWanted last)
    have hcur : (m0.rescan.requests t (start.first t) (m.lastWanted last)).2.current = start.first t := by rw [c5]; rfl
    simp only
    rw [g2]
    by_contra hcon
    have hle : start.first t + n ≤ m.lastWanted last := by rw [hcur] at hcon; omega
    rw [c4, hcur] at g4
    have hget := hmem (start.first t + n) (by omega) hle
    obtain ⟨k, hk⟩ := byHeight_some (t := t) (h := start.first t + n) (by omega)
    obtain ⟨fl, hfl⟩ := Option.isSome_iff_exists.1 hget
    have hfl' : m0.rescan.cache.get (start.first t + n) = some fl := hfl
    rw [if_pos ⟨⟨by omega, hle⟩, by simp [Cached, hfl', hk]⟩, hfl', hk] at g4
    simp at g4
  have := hord.1
  omega

end Verif.Cbf

namespace Verif.Cbf.Scenario
open Verif.Cbf

/-- C62: a run in which progress is reported after a filter message. -/
example : look (fun m => (eventsOf m.out).getLast?)
    (m0.run p (setup ++ [(at_ 100002, t, .rescan (.included 1) .unbounded [9]), f1 100003])) =
    some (some (.scanned 2)) := by decide

/-- C64: a run at whose end all filters are in memory and a peer is connected; the rescan scans all at once. -/
example : look (fun m => (m.peers.keys, m.filters.height, m.lastWanted none, [1, 2, 3].map (fun h => (m.rescan.cache.get h).isSome)))
    (m0.run p (setup ++ [(at_ 100002, t, .rescan (.included 1) .unbounded [9]), f1 100003, f2 100003, f3 100003])) =
    some ([1], 3, 3, [true, true, true]) := by decide

example : look (fun m => processedHeights m.out)
    (m0.run p (setup ++ [(at_ 100002, t, .rescan (.included 1) .unbounded [9]), f1 100003, f2 100003, f3 100003,
      (at_ 100005, t, .rescan (.included 1) .unbounded [2])])) =
    some [1, 2, 3, 1, 2, 3] := by decide

end Verif.Cbf.Scenario
