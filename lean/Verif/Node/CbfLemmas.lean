import Verif.Node.Spec
import Verif.Cbf.PropsReorg
import Verif.Cbf.PropsMatch

/-!
# What the calls of the filter manager put out
-/

set_option autoImplicit false

namespace Verif.Node
open Verif.Tx (Block)
open Verif.Cbf (Quiet Params Tree Mgr Op Ev Rescan Matches)

/-- Matches found, by the outputs of the filter manager. -/
def foundC (o : List Cbf.Out) : List (Nat × Nat) :=
  o.filterMap (fun x => match x with | .event (.filterProcessed k h _ true _) => some (h, k) | _ => none)

/-- Heights of the blocks reported. -/
def matchedC (o : List Cbf.Out) : List Nat := o.filterMap (fun x => match x with | .event (.blockMatched _ h) => some h | _ => none)

theorem foundC_append (a b : List Cbf.Out) : foundC (a ++ b) = foundC a ++ foundC b := by simp [foundC]

theorem matchedC_append (a b : List Cbf.Out) : matchedC (a ++ b) = matchedC a ++ matchedC b := by simp [matchedC]

theorem requested_append (a b : List Cbf.Out) : requested (a ++ b) = requested a ++ requested b := by simp [requested]

theorem found_append (a b : List Out) : found (a ++ b) = found a ++ found b := by simp [found]

theorem reported_append (a b : List Out) : reported (a ++ b) = reported a ++ reported b := by simp [reported]

theorem found_label (b : Option Block) (o : List Cbf.Out) : found (o.filterMap (label b)) = foundC o := by
  induction o with
  | nil => rfl
  | cons x o ih =>
    have key : ∀ y, label b x = some y → found [y] = foundC [x] := by
      intro y hy
      cases b <;> cases x with
      | event ev => cases ev <;> (simp only [label, Option.some.injEq] at hy; subst hy) <;> first | rfl | (rename_i mt _; cases mt <;> rfl)
      | getBlock k => simp [label] at hy
      | _ => simp only [label, Option.some.injEq] at hy; subst hy; rfl
    rw [show x :: o = [x] ++ o from rfl, foundC_append, List.filterMap_append, found_append, ih]
    congr 1
    cases hx : label b x with
    | some y => simp only [List.filterMap_cons, hx, List.filterMap_nil]; exact key y hx
    | none =>
      simp only [List.filterMap_cons, hx, List.filterMap_nil]
      cases b <;> cases x with
      | event ev => cases ev <;> simp [label] at hx
      | getBlock k => rfl
      | _ => simp [label] at hx

theorem reported_label (b : Block) (o : List Cbf.Out) : reported (o.filterMap (label (some b))) = (matchedC o).map (·, b) := by
  induction o with
  | nil => rfl
  | cons x o ih =>
    cases x with
    | event ev => cases ev <;> simp only [List.filterMap_cons, label, reported, matchedC, List.map_cons] at ih ⊢ <;> simp [ih]
    | _ => simp only [List.filterMap_cons, label, reported, matchedC] at ih ⊢; simp [ih]

theorem reported_label_none (o : List Cbf.Out) : reported (o.filterMap (label none)) = [] := by
  induction o with
  | nil => rfl
  | cons x o ih => cases x <;> simp only [List.filterMap_cons, label, reported] at ih ⊢ <;> simp [ih]

theorem none_of_eventsOf {o : List Cbf.Out} (h : ∀ x ∈ Cbf.eventsOf o, ∀ k n v c, x ≠ .filterProcessed k n v true c)
    (h' : ∀ x ∈ Cbf.eventsOf o, ∀ k n, x ≠ .blockMatched k n) (hb : ∀ x ∈ o, ∀ k, x ≠ .getBlock k) :
    foundC o = [] ∧ matchedC o = [] ∧ requested o = [] := by
  have mem : ∀ ev, Cbf.Out.event ev ∈ o → ev ∈ Cbf.eventsOf o := fun ev hev => List.mem_filterMap.2 ⟨_, hev, rfl⟩
  refine ⟨?_, ?_, ?_⟩
  · refine List.filterMap_eq_nil_iff.2 fun x hx => ?_
    split
    · exact absurd rfl (h _ (mem _ hx) _ _ _ _)
    · rfl
  · refine List.filterMap_eq_nil_iff.2 fun x hx => ?_
    split
    · exact absurd rfl (h' _ (mem _ hx) _ _)
    · rfl
  · refine List.filterMap_eq_nil_iff.2 fun x hx => ?_
    split
    · exact absurd rfl (hb _ hx _)
    · rfl

/-- A call that finds nothing, reports nothing and requests nothing. -/
structure Idle (m m' : Mgr) : Prop where
  out : ∃ o, m'.out = m.out ++ o ∧ foundC o = [] ∧ matchedC o = [] ∧ requested o = []
  pending : m'.pending = m.pending
  current : m'.rescan.current = m.rescan.current

theorem Idle.trans {a b c : Mgr} (h1 : Idle a b) (h2 : Idle b c) : Idle a c := by
  obtain ⟨o1, e1, e2, e3, e4⟩ := h1.out
  obtain ⟨o2, f1, f2, f3, f4⟩ := h2.out
  exact ⟨⟨o1 ++ o2, by rw [f1, e1, List.append_assoc], by rw [foundC_append, e2, f2]; rfl, by rw [matchedC_append, e3, f3]; rfl,
    by rw [requested_append, e4, f4]; rfl⟩, h2.pending.trans h1.pending, h2.current.trans h1.current⟩

theorem Idle.same {m m' : Mgr} (ho : m'.out = m.out) (hp : m'.pending = m.pending) (hc : m'.rescan.current = m.rescan.current) : Idle m m' :=
  ⟨⟨[], by simp [ho], rfl, rfl, rfl⟩, hp, hc⟩

theorem Idle.quiet {t : Tree} {m m' : Mgr} (q : Quiet t m m') : Idle m m' := by
  obtain ⟨o, h1, h2, h3⟩ := q.out
  exact ⟨⟨o, h1, none_of_eventsOf (by simp [h2]) (by simp [h2]) h3⟩, q.pending, by rw [q.rescan]⟩

/-- Calls that can find, report or request something, or go back. -/
def busy : Op → Bool
  | .cfilter _ _ _ _ | .rescan _ _ _ | .blockProcessed _ _ | .blockDisconnected _ => true
  | .headersImported r => !r.isEmpty
  | _ => false

theorem step_idle (p : Params) (e : Cbf.Env) (t : Tree) {m m' : Mgr} {op : Op} (h : m.step p e t op = .ok m') (hb : busy op = false) : Idle m m' := by
  cases op with
  | init => exact .quiet (Cbf.quiet_idle p e t m m' h)
  | peerNegotiated addr ob hf pers =>
    simp only [Mgr.step] at h
    split at h
    · cases h; exact .same rfl rfl rfl
    · split at h
      · cases h; exact .same rfl rfl rfl
      · exact Idle.trans (b := { m with peers := m.peers.insert addr pers }) (.same rfl rfl rfl) (.quiet (Cbf.quiet_sync p e t _ m' h))
  | peerDisconnected addr => cases h; exact .same rfl rfl rfl
  | blockProcessed block height => cases hb
  | blockDisconnected height => cases hb
  | headersImported reverted =>
    have : reverted = [] := by simpa [busy] using hb
    subst this
    exact .quiet (Cbf.quiet_sync p e t m m' h)
  | txConfirmed txid => cases h; exact .same rfl rfl rfl
  | txReverted txid scripts => cases h; exact .same rfl rfl rfl
  | cfheaders peer msg =>
    obtain ⟨m0, o, h1, h2, h3, h4, h5, q⟩ := Cbf.receivedCFHeaders_frame p e t m msg
    have q' : Idle m m0 := by
      have := Idle.quiet q
      exact ⟨this.out, this.pending, this.current⟩
    have key : ∀ (m'' : Mgr) (o' : List Cbf.Out), m''.rescan = m0.rescan → m''.pending = m0.pending → m''.out = m0.out ++ (o ++ o') →
        (∀ x ∈ Cbf.eventsOf o', (∃ k, x = .peerMisbehaved k) ∨ x = .error) → (∀ x ∈ o', ∀ k, x ≠ .getBlock k) → Idle m m'' := by
      intro m'' o' k1 k2 k3 k4 k5
      refine q'.trans ⟨⟨_, k3, none_of_eventsOf ?_ ?_ ?_⟩, k2, by rw [k1]⟩
      · intro x hx
        rw [Cbf.eventsOf_append, List.mem_append] at hx
        rcases hx with hx | hx
        · obtain ⟨_, rfl⟩ := h3 x hx; intros; simp
        · rcases k4 x hx with ⟨_, rfl⟩ | rfl <;> (intros; simp)
      · intro x hx
        rw [Cbf.eventsOf_append, List.mem_append] at hx
        rcases hx with hx | hx
        · obtain ⟨_, rfl⟩ := h3 x hx; intros; simp
        · rcases k4 x hx with ⟨_, rfl⟩ | rfl <;> (intros; simp)
      · intro x hx
        rcases List.mem_append.1 hx with hx | hx
        · exact h4 x hx
        · exact k5 x hx
    simp only [Mgr.step] at h
    generalize m.receivedCFHeaders p e t msg = g at h h1 h2 h5
    obtain ⟨g1, g2⟩ := g
    cases g2 with
    | ok n => cases h; exact key _ [] h1 h5 (by simpa using h2) (by simp [Cbf.eventsOf]) (by simp)
    | err er =>
      cases er
      · cases h; exact key _ [] h1 h5 (by simpa using h2) (by simp [Cbf.eventsOf]) (by simp)
      · cases h; exact key _ [_] h1 h5 (by simp only [Mgr.emit]; rw [h2, List.append_assoc]) (by simp [Cbf.eventsOf]) (by simp)
      · cases h; exact key _ [_] h1 h5 (by simp only [Mgr.emit]; rw [h2, List.append_assoc]) (by simp [Cbf.eventsOf]) (by simp)
    | panic => cases h
  | getcfheaders peer ft start stop =>
    have hcc := Cbf.receivedGetCFHeaders_frame p t m peer ft start stop
    simp only [Mgr.step] at h
    generalize m.receivedGetCFHeaders p t peer ft start stop = g at h hcc
    obtain ⟨g1, g2⟩ := g
    have hf : Idle m g1 := by
      rcases hcc with rfl | ⟨_, _, rfl⟩
      · exact .same rfl rfl rfl
      · exact ⟨⟨[_], rfl, rfl, rfl, rfl⟩, rfl, rfl⟩
    have hm : Idle g1 (g1.emit [.event (.peerMisbehaved peer)]) := ⟨⟨[_], rfl, rfl, rfl, rfl⟩, rfl, rfl⟩
    cases g2 with
    | ok n => cases h; exact hf
    | err er =>
      cases er
      · cases h; exact hf
      · cases h; exact hf.trans hm
      · cases h; exact hf
    | panic => cases h
  | cfilter peer ft block f => cases hb
  | timer => exact .quiet (Cbf.quiet_timerExpired p e t m m' h)
  | watch scripts => cases h; exact .same rfl rfl rfl
  | watchTransaction txid scripts => cases h; exact .same rfl rfl rfl
  | rescan start stop w => cases hb
  | getCFilters start stop =>
    have hqq := Cbf.quiet_getCFilters e t m start stop
    simp only [Mgr.step] at h
    generalize m.getCFilters e t start stop = g at h hqq
    obtain ⟨g1, g2⟩ := g
    cases g2 <;> simp at h <;> (subst h; exact .quiet hqq)

/-! ## Processing filters -/

theorem processLoop_found (p : Params) : ∀ (fuel : Nat) (r : Rescan), foundC ((r.processLoop p fuel).2.2.map .event) = (r.processLoop p fuel).2.1 ∧
    matchedC ((r.processLoop p fuel).2.2.map .event) = []
  | 0, r => ⟨rfl, rfl⟩
  | fuel + 1, r => by
    unfold Rescan.processLoop
    cases hg : r.received.get r.current with
    | none => exact ⟨rfl, rfl⟩
    | some x =>
      obtain ⟨h1, h2⟩ := processLoop_found p fuel { r with received := r.received.erase r.current, current := r.current + 1 }
      simp only [List.map_cons]
      constructor
      · rw [show ∀ (a : Cbf.Out) l, foundC (a :: l) = foundC [a] ++ foundC l from fun a l => by rw [← foundC_append]; rfl, h1]
        congr 1
        simp only [Rescan.processOne]
        cases hm : (r.matchFilter p x.1 x.2.1).getD false <;> simp [foundC]
      · rw [show ∀ (a : Cbf.Out) l, matchedC (a :: l) = matchedC [a] ++ matchedC l from fun a l => by rw [← matchedC_append]; rfl, h2]
        rfl

theorem process_found (p : Params) {r r' : Rescan} {ms : List (Nat × Nat)} {es : List Ev} {n : Nat} (h : r.process p = (r', ms, es, n)) :
    foundC (es.map .event) = ms ∧ matchedC (es.map .event) = [] ∧ requested (es.map .event) = [] := by
  obtain ⟨h1, h2⟩ := processLoop_found p r.received.length r
  have h3 : ∀ l : List Ev, requested (l.map .event) = [] := by
    intro l
    refine List.filterMap_eq_nil_iff.2 fun x hx => ?_
    obtain ⟨y, _, rfl⟩ := List.mem_map.1 hx
    rfl
  unfold Rescan.process at h
  generalize r.processLoop p r.received.length = q at h h1 h2
  obtain ⟨q1, q2, q3⟩ := q
  simp only at h h1 h2
  refine ⟨?_, ?_, h3 es⟩ <;> revert h <;> cases q1.end <;> simp only <;> try split
  all_goals
    rintro h
    simp only [Prod.mk.injEq] at h
    obtain ⟨_, rfl, rfl, _⟩ := h
    first | assumption | (rw [List.map_append, foundC_append, h1]; simp [foundC]) | (rw [List.map_append, matchedC_append, h2]; simp [matchedC])

theorem process_facts' (p : Params) {r r' : Rescan} {ms : List (Nat × Nat)} {es : List Ev} {n : Nat} (h : r.process p = (r', ms, es, n)) :
    r'.current = r.current + n ∧ (∀ x ∈ ms, r.current ≤ x.1 ∧ x.1 < r.current + n) ∧ ms.Pairwise (fun x y => x.1 < y.1) := by
  obtain ⟨n', r'', ms', es', stp, h1, h2, h3, h4, h5, h6, h7, h8, h9, h10, h11⟩ := Cbf.C29_process p r
  rw [h] at h1
  simp only [Prod.mk.injEq] at h1
  obtain ⟨e1, e2, e3, e4⟩ := h1
  subst e1 e2 e3 e4
  exact ⟨h2, fun x hx => ⟨((h7 x.1 x.2).1 hx).1, ((h7 x.1 x.2).1 hx).2.1⟩, h8⟩

theorem requestBlocks_new : ∀ (ms : List (Nat × Nat)) (m : Mgr), ms.Pairwise (fun x y => x.1 < y.1) → (∀ x ∈ ms, x.1 ∉ m.pending) →
    (m.requestBlocks ms).out = m.out ++ ms.map (fun x => .getBlock x.2) ∧
    (∀ h, h ∈ (m.requestBlocks ms).pending ↔ h ∈ m.pending ∨ h ∈ ms.map (·.1)) ∧ (m.requestBlocks ms).rescan = m.rescan
  | [], m, _, _ => by simp [Mgr.requestBlocks]
  | (a, b) :: ms, m, hp, hn => by
    rw [List.pairwise_cons] at hp
    have ha : a ∉ m.pending := hn (a, b) (by simp)
    unfold Mgr.requestBlocks
    rw [if_neg (by simpa using ha)]
    obtain ⟨h1, h2, h3⟩ := requestBlocks_new ms (Mgr.emit { m with pending := a :: m.pending } [.getBlock b]) hp.2 (by
      intro x hx
      have := hp.1 x hx
      simp only [Mgr.emit, List.mem_cons, not_or]
      exact ⟨by omega, hn x (by simp [hx])⟩)
    refine ⟨by rw [h1]; simp [Mgr.emit], ?_, h3⟩
    intro h
    rw [h2]
    simp only [Mgr.emit, List.mem_cons, List.map_cons]
    tauto

/-- What a call can find: `ms` is found, in the range scanned. -/
structure Finds (m m' : Mgr) (ms : List (Nat × Nat)) : Prop where
  out : ∃ o, m'.out = m.out ++ o ∧ foundC o = ms ∧ matchedC o = [] ∧ requested o = ms.map (·.2)
  pending : ∀ h, h ∈ m'.pending ↔ h ∈ m.pending ∨ h ∈ ms.map (·.1)
  current : m.rescan.current ≤ m'.rescan.current
  range : ∀ x ∈ ms, m.rescan.current ≤ x.1 ∧ x.1 < m'.rescan.current
  sorted : ms.Pairwise (fun x y => x.1 < y.1)

theorem Finds.of_idle {m m' : Mgr} (h : Idle m m') : Finds m m' [] := by
  obtain ⟨o, h1, h2, h3, h4⟩ := h.out
  exact ⟨⟨o, h1, h2, h3, h4⟩, by simp [h.pending], by rw [h.current], by simp, .nil⟩

theorem step_cfilter (p : Params) (e : Cbf.Env) (t : Tree) {m m' : Mgr} {peer ft block : Nat} {f : Cbf.Filter}
    (h : m.step p e t (.cfilter peer ft block f) = .ok m') (hp : ∀ k ∈ m.pending, k < m.rescan.current) : ∃ ms, Finds m m' ms := by
  have hcc := Cbf.receivedCFilter_cases p e t m peer ft block f
  simp only [Mgr.step] at h
  generalize m.receivedCFilter p e t peer ft block f = g at h hcc
  have scan0 : ∀ (a : Mgr), foundC (List.map Cbf.Out.event [Ev.scanned a.rescan.current]) = [] ∧
      matchedC (List.map Cbf.Out.event [Ev.scanned a.rescan.current]) = [] ∧ requested (List.map Cbf.Out.event [Ev.scanned a.rescan.current]) = [] :=
    fun _ => ⟨rfl, rfl, rfl⟩
  have after : ∀ (m1 : Mgr) (o : List Cbf.Out) (ms : List (Nat × Nat)), m1.out = m.out ++ o → foundC o = ms → matchedC o = [] → requested o = [] →
      m1.pending = m.pending → m.rescan.current ≤ m1.rescan.current → (∀ x ∈ ms, m.rescan.current ≤ x.1 ∧ x.1 < m1.rescan.current) →
      ms.Pairwise (fun x y => x.1 < y.1) → Finds m (m1.afterFilter ms) ms := by
    intro m1 o ms k1 k2 k3 k4 k5 k6 k7 k8
    obtain ⟨h1, h2, h3⟩ := requestBlocks_new ms m1 k8 (by
      intro x hx hm
      rw [k5] at hm
      have := hp _ hm
      have := k7 x hx
      omega)
    have gb : foundC (ms.map (fun x => Cbf.Out.getBlock x.2)) = [] ∧ matchedC (ms.map (fun x => Cbf.Out.getBlock x.2)) = [] ∧
        requested (ms.map (fun x => Cbf.Out.getBlock x.2)) = ms.map (·.2) := by
      refine ⟨?_, ?_, ?_⟩
      · simp [foundC, List.filterMap_map]
      · simp [matchedC, List.filterMap_map]
      · simp [requested, List.filterMap_map]
    unfold Mgr.afterFilter
    simp only
    split
    · refine ⟨⟨o ++ (ms.map (fun x => .getBlock x.2) ++ [.event (.scanned (m1.requestBlocks ms).rescan.current)]), ?_, ?_, ?_, ?_⟩, ?_, ?_, ?_, k8⟩
      · simp [Mgr.emit, h1, k1]
      · rw [foundC_append, foundC_append, gb.1, k2]; simp [foundC]
      · rw [matchedC_append, matchedC_append, gb.2.1, k3]; simp [matchedC]
      · rw [requested_append, requested_append, gb.2.2, k4]; simp [requested]
      · intro k; simp only [Mgr.emit]; rw [h2, k5]
      · simp only [Mgr.emit]; rw [h3]; exact k6
      · simp only [Mgr.emit]; rw [h3]; exact k7
    · refine ⟨⟨o ++ ms.map (fun x => .getBlock x.2), ?_, ?_, ?_, ?_⟩, ?_, ?_, ?_, k8⟩
      · simp [h1, k1]
      · rw [foundC_append, gb.1, k2]; simp
      · rw [matchedC_append, gb.2.1, k3]; rfl
      · rw [requested_append, gb.2.2, k4]; rfl
      · intro k; rw [h2, k5]
      · rw [h3]; exact k6
      · rw [h3]; exact k7
  cases hcc with
  | ignored hi => cases h; exact ⟨[], .of_idle (.same rfl rfl rfl)⟩
  | invalid hh h0 h1 h2 h3 => cases h; exact ⟨[], .of_idle ⟨⟨[_], rfl, rfl, rfl, rfl⟩, rfl, rfl⟩⟩
  | unsolicited hh h0 h1 h2 h3 =>
    cases h
    exact ⟨[], after _ [_] [] rfl rfl rfl rfl rfl (Nat.le_refl _) (by simp) .nil⟩
  | scanned hh c r ms es n h0 h1 h2 h3 h4 h5 =>
    obtain ⟨p1, p2, p3⟩ := process_found p h5
    obtain ⟨q1, q2, q3⟩ := process_facts' p h5
    cases h
    refine ⟨ms, after _ (.event (.filterReceived peer block hh f) :: es.map .event) ms rfl ?_ ?_ ?_ rfl ?_ ?_ q3⟩
    · rw [show ∀ (a : Cbf.Out) l, foundC (a :: l) = foundC [a] ++ foundC l from fun a l => by rw [← foundC_append]; rfl, p1]; rfl
    · rw [show ∀ (a : Cbf.Out) l, matchedC (a :: l) = matchedC [a] ++ matchedC l from fun a l => by rw [← matchedC_append]; rfl, p2]; rfl
    · rw [show ∀ (a : Cbf.Out) l, requested (a :: l) = requested [a] ++ requested l from fun a l => by rw [← requested_append]; rfl, p3]; rfl
    · show m.rescan.current ≤ r.current
      rw [q1]; exact Nat.le_add_right _ _
    · intro x hx
      show m.rescan.current ≤ x.1 ∧ x.1 < r.current
      rw [q1]; exact q2 x hx
  | panicked m' hh hp => simp at h

/-- A rescan that finds nothing in memory requests nothing. -/
theorem step_rescan (p : Params) (e : Cbf.Env) (t : Tree) {m m' : Mgr} {a b : Cbf.Bound} {w : List Nat}
    (h : m.step p e t (.rescan a b w) = .ok m') : ∃ o ms, m'.out = m.out ++ o ∧ foundC o = ms ∧ matchedC o = [] ∧ requested o = ms.map (·.2) ∧
      m'.pending = m.pending := by
  have hcc := Cbf.startRescan_cases p e t m a b w
  simp only [Mgr.step] at h
  generalize m.startRescan p e t a b w = g at h hcc
  cases hcc with
  | panicked m' => simp at h
  | nothing st _ => cases h; exact ⟨[.event (.rescanStarted (a.first t) st)], [], by simp [Mgr.emit], rfl, rfl, rfl, rfl⟩
  | processed st m1 r ms es n _ q hp =>
    cases h
    obtain ⟨p1, p2, p3⟩ := process_found p hp
    have qi := Idle.quiet q
    obtain ⟨o, e1, e2, e3, e4⟩ := qi.out
    refine ⟨.event (.rescanStarted (a.first t) st) :: o ++ es.map .event ++ ms.map (fun x => .getBlock x.2), ms, ?_, ?_, ?_, ?_, qi.pending⟩
    · simp [Mgr.emit, e1]
    · rw [foundC_append, foundC_append, p1, show ∀ (a : Cbf.Out) l, foundC (a :: l) = foundC [a] ++ foundC l from fun a l => by rw [← foundC_append]; rfl, e2]
      simp [foundC, List.filterMap_map]
    · rw [matchedC_append, matchedC_append, p2, show ∀ (a : Cbf.Out) l, matchedC (a :: l) = matchedC [a] ++ matchedC l from fun a l => by rw [← matchedC_append]; rfl, e3]
      simp [matchedC, List.filterMap_map]
    · rw [requested_append, requested_append, p3, show ∀ (a : Cbf.Out) l, requested (a :: l) = requested [a] ++ requested l from fun a l => by rw [← requested_append]; rfl, e4]
      simp [requested, List.filterMap_map]

theorem step_processed (p : Params) (e : Cbf.Env) (t : Tree) {m m' : Mgr} {k height : Nat} (h : m.step p e t (.blockProcessed k height) = .ok m') :
    (height ∈ m.pending ∧ (∃ o, m'.out = m.out ++ o ∧ foundC o = [] ∧ matchedC o = [height] ∧ requested o = []) ∧
      (∀ x, x ∈ m'.pending ↔ x ∈ m.pending ∧ x ≠ height) ∧ m'.rescan.current = m.rescan.current) ∨ (height ∉ m.pending ∧ m' = m) := by
  simp only [Mgr.step] at h
  split at h
  · rename_i hc
    cases h
    refine .inl ⟨by simpa using hc, ⟨[_, _], by simp only [Mgr.emit, List.append_assoc]; rfl, rfl, rfl, rfl⟩, ?_, rfl⟩
    intro x
    simp [Mgr.emit]
  · rename_i hc
    cases h
    exact .inr ⟨by simpa using hc, rfl⟩

end Verif.Node
