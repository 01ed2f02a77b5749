import Verif.Cbf.Scenario

/-!
# Properties C30 and C31: end of a rescan, re-orgs during a rescan
-/

set_option autoImplicit false

namespace Verif.Cbf

variable (p : Params)

/-! ## C30 -/

/-- Events about the progress of a scan. -/
def Ev.isScan : Ev → Bool
  | .filterProcessed _ _ _ _ _ => true
  | .rescanStopped _ => true
  | _ => false

/-- What a call does to the scan: nothing, or one processing of the queue. -/
inductive ScanCase (p : Params) (m m' : Mgr) : Prop
  | none (o : List Out) : m'.out = m.out ++ o → (∀ x ∈ eventsOf o, x.isScan = false) →
      m'.rescan.current = m.rescan.current → m'.rescan.end = m.rescan.end → m'.rescan.active = m.rescan.active →
      ScanCase p m m'
  | processed (o : List Out) (r : Rescan) (ms : List (Nat × Nat)) (es : List Ev) (n : Nat) (a b : List Ev) :
      m'.out = m.out ++ o → eventsOf o = a ++ es ++ b → (∀ x ∈ a ++ b, x.isScan = false) →
      r.current = m.rescan.current → r.end = m.rescan.end → r.active = m.rescan.active →
      r.process p = (m'.rescan, ms, es, n) → ScanCase p m m'

theorem ScanCase.of_quiet {t : Tree} {m m' : Mgr} (q : Quiet t m m') : ScanCase p m m' := by
  obtain ⟨o, h1, h2, _⟩ := q.out
  exact .none o h1 (by simp [h2]) (by rw [q.rescan]) (by rw [q.rescan]) (by rw [q.rescan])

theorem ScanCase.same {m m' : Mgr} (o : List Out) (h1 : m'.out = m.out ++ o) (h2 : ∀ x ∈ eventsOf o, x.isScan = false)
    (h3 : m'.rescan = m.rescan) : ScanCase p m m' :=
  .none o h1 h2 (by rw [h3]) (by rw [h3]) (by rw [h3])

theorem step_scan (e : Env) (t : Tree) (m m' : Mgr) (op : Op) (h : m.step p e t op = .ok m') (hp : op.plain = true) :
    ScanCase p m m' := by
  cases op with
  | init => exact .of_quiet p (quiet_idle p e t m m' h)
  | peerNegotiated addr ob hf pers =>
    simp only [Mgr.step] at h
    split at h
    · cases h; exact .same p [] (by simp) (by simp [eventsOf]) rfl
    · split at h
      · cases h; exact .same p [] (by simp) (by simp [eventsOf]) rfl
      · exact .of_quiet (t := t) p (Quiet.trans (b := { m with peers := m.peers.insert addr pers })
          (Quiet.mk' t _ _ [] rfl rfl rfl rfl (by simp) rfl (by simp)) (quiet_sync p e t _ m' h))
  | peerDisconnected addr => cases h; exact .same p [] (by simp) (by simp [eventsOf]) rfl
  | blockProcessed block height =>
    simp only [Mgr.step] at h
    split at h
    · cases h; exact .same p [_, _] (by simp only [Mgr.emit, List.append_assoc]; rfl) (by simp [eventsOf, Ev.isScan]) rfl
    · cases h; exact .same p [] (by simp) (by simp [eventsOf]) rfl
  | blockDisconnected height => cases h; exact .same p [] (by simp) (by simp [eventsOf]) rfl
  | headersImported reverted =>
    have : reverted = [] := by simpa [Op.plain] using hp
    subst this
    exact .of_quiet p (quiet_sync p e t m m' h)
  | txConfirmed txid => cases h; exact .none [] (by simp) (by simp [eventsOf]) rfl rfl rfl
  | txReverted txid scripts => cases h; exact .none [] (by simp) (by simp [eventsOf]) rfl rfl rfl
  | cfheaders peer msg =>
    obtain ⟨m0, o, h1, h2, h3, _, h5, q⟩ := receivedCFHeaders_frame p e t m msg
    have key : ∀ (m'' : Mgr) (o' : List Out), m''.rescan = m0.rescan → m''.out = m0.out ++ o ++ o' →
        (∀ x ∈ eventsOf o', x.isScan = false) → ScanCase p m m'' := by
      intro m'' o' k1 k2 k3
      obtain ⟨oo, q1, q2, _⟩ := q.out
      refine .none (oo ++ (o ++ o')) (by rw [k2, q1]; simp) ?_ (by rw [k1, q.rescan]) (by rw [k1, q.rescan])
        (by rw [k1, q.rescan])
      rw [eventsOf_append, eventsOf_append, q2]
      simp only [List.nil_append, List.mem_append]
      rintro x (hx | hx)
      · obtain ⟨_, rfl⟩ := h3 x hx; rfl
      · exact k3 x hx
    simp only [Mgr.step] at h
    generalize m.receivedCFHeaders p e t msg = g at h h1 h2
    obtain ⟨g1, g2⟩ := g
    cases g2 with
    | ok n => cases h; exact key _ [] h1 (by simpa using h2) (by simp [eventsOf])
    | err er =>
      cases er
      · cases h; exact key _ [] h1 (by simpa using h2) (by simp [eventsOf])
      · cases h; exact key _ [_] h1 (by simp only [Mgr.emit]; rw [h2]) (by simp [eventsOf, Ev.isScan])
      · cases h; exact key _ [_] h1 (by simp only [Mgr.emit]; rw [h2]) (by simp [eventsOf, Ev.isScan])
    | panic => cases h
  | getcfheaders peer ft start stop =>
    have hcc := receivedGetCFHeaders_frame p t m peer ft start stop
    simp only [Mgr.step] at h
    generalize m.receivedGetCFHeaders p t peer ft start stop = g at h hcc
    obtain ⟨g1, g2⟩ := g
    have hf : g1.rescan = m.rescan ∧ ∃ o, g1.out = m.out ++ o ∧ eventsOf o = [] := by
      rcases hcc with rfl | ⟨_, _, rfl⟩
      · exact ⟨rfl, [], by simp, rfl⟩
      · exact ⟨rfl, [_], rfl, rfl⟩
    obtain ⟨hf1, o, hf2, hf3⟩ := hf
    cases g2 with
    | ok n => cases h; exact .same p o hf2 (by simp [hf3]) hf1
    | err er =>
      cases er
      · cases h; exact .same p o hf2 (by simp [hf3]) hf1
      · cases h
        exact .same p (o ++ [.event (.peerMisbehaved peer)]) (by simp [Mgr.emit, hf2])
          (by rw [eventsOf_append, hf3]; simp [eventsOf, Ev.isScan]) hf1
      · cases h; exact .same p o hf2 (by simp [hf3]) hf1
    | panic => cases h
  | cfilter peer ft block f =>
    have hcc := receivedCFilter_cases p e t m peer ft block f
    simp only [Mgr.step] at h
    generalize m.receivedCFilter p e t peer ft block f = g at h hcc
    cases hcc with
    | ignored hi => cases h; exact .same p [] (by simp) (by simp [eventsOf]) rfl
    | invalid hh h0 h1 h2 h3 => cases h; exact .same p [_] rfl (by simp [eventsOf, Ev.isScan]) rfl
    | unsolicited hh h0 h1 h2 h3 =>
      cases h
      obtain ⟨b1, ks, o, b2, b3⟩ := afterFilter_frame [] (m.emit [.event (.filterReceived peer block hh f)])
      refine .same p (.event (.filterReceived peer block hh f) :: (ks.map .getBlock ++ o)) (by rw [b2]; simp [Mgr.emit]) ?_
        (by rw [b1]; rfl)
      have : eventsOf (.event (.filterReceived peer block hh f) :: (ks.map .getBlock ++ o)) =
        .filterReceived peer block hh f :: eventsOf (ks.map .getBlock ++ o) := rfl
      rw [this, eventsOf_append, eventsOf_getBlocks]
      rcases b3 with rfl | ⟨_, rfl⟩ <;> simp [eventsOf, Ev.isScan]
    | scanned hh c r ms es n h0 h1 h2 h3 h4 h5 =>
      cases h
      obtain ⟨b1, ks, o, b2, b3⟩ := afterFilter_frame ms { m with
        rescan := r, lastProcessed := if 0 < n then some e.now else m.lastProcessed,
        out := m.out ++ .event (.filterReceived peer block hh f) :: es.map .event }
      refine .processed (.event (.filterReceived peer block hh f) :: es.map .event ++ (ks.map .getBlock ++ o)) _ ms es n
        [.filterReceived peer block hh f] (eventsOf o) (by rw [b2]; simp) ?_ ?_ ?_ ?_ ?_ (by rw [b1]; exact h5)
      · have : eventsOf (.event (.filterReceived peer block hh f) :: es.map .event) =
          .filterReceived peer block hh f :: eventsOf (es.map .event) := rfl
        rw [eventsOf_append, this, eventsOf_map, eventsOf_append, eventsOf_getBlocks]
        simp
      · rcases b3 with rfl | ⟨_, rfl⟩ <;> simp [eventsOf, Ev.isScan]
      · rfl
      · rfl
      · rfl
    | panicked m' hh hp => simp at h
  | timer => exact .of_quiet p (quiet_timerExpired p e t m m' h)
  | watch scripts => cases h; exact .none [] (by simp) (by simp [eventsOf]) rfl rfl rfl
  | watchTransaction txid scripts => cases h; exact .none [] (by simp) (by simp [eventsOf]) rfl rfl rfl
  | rescan start stop w => simp [Op.plain] at hp
  | getCFilters start stop =>
    have hqq := quiet_getCFilters e t m start stop
    simp only [Mgr.step] at h
    generalize m.getCFilters e t start stop = g at h hqq
    obtain ⟨g1, g2⟩ := g
    cases g2 <;> simp at h <;> (subst h; exact .of_quiet p hqq)

theorem process_stop (r : Rescan) {r' : Rescan} {ms : List (Nat × Nat)} {es : List Ev} {n : Nat}
    (h : r.process p = (r', ms, es, n)) :
    r'.end = r.end ∧
    ∃ es' : List Ev, (∀ x ∈ es', ∃ a b c d k, x = .filterProcessed a b c d k) ∧
      (es = es' ∧ r'.active = r.active ∧ r.end ≠ some r'.current ∨
       es = es' ++ [.rescanStopped r'.current] ∧ r'.active = false ∧ r.end = some r'.current) := by
  obtain ⟨n', r'', ms', es', stp, h1, h2, h3, h4, h5, h6, h7, h8, h9, h10, h11⟩ := C29_process p r
  rw [h] at h1
  simp only [Prod.mk.injEq] at h1
  obtain ⟨e1, e2, e3, e4⟩ := h1
  subst e1 e2 e3 e4
  refine ⟨by rw [h11], es', ?_, ?_⟩
  · intro x hx
    obtain ⟨i, hi⟩ := List.getElem?_of_mem hx
    have hi' : i < n := by rw [← h5]; exact (List.getElem?_eq_some_iff.1 hi).1
    obtain ⟨y, hy⟩ := Option.isSome_iff_exists.1 (h3 i hi')
    obtain ⟨e', he', v, mt, rfl, _⟩ := h6 i y hi' hy
    rw [hi] at he'; cases he'
    exact ⟨_, _, _, _, _, rfl⟩
  · rw [h2]
    rcases h10 with ⟨rfl, h10, h12⟩ | ⟨rfl, h10, h12⟩
    · exact Or.inl ⟨by simp, h10, h12⟩
    · exact Or.inr ⟨by simp, h10, h12⟩

/-- A stop event in a list splits it in a unique way if nothing else in the list is about the scan's end. -/
theorem stop_split {a es b pre post : List Ev} {h k : Nat} (ha : ∀ x ∈ a, x.isScan = false)
    (he : ∀ x ∈ es, ∃ a b c d k, x = Ev.filterProcessed a b c d k) (hb : ∀ x ∈ b, x.isScan = false)
    (heq : a ++ (es ++ [.rescanStopped k]) ++ b = pre ++ .rescanStopped h :: post) :
    pre = a ++ es ∧ h = k ∧ post = b := by
  have hne : ∀ (l : List Ev), (∀ x ∈ l, ∀ y, x ≠ .rescanStopped y) → ∀ (l' pre post : List Ev),
      l ++ .rescanStopped k :: l' = pre ++ .rescanStopped h :: post → (∀ x ∈ l', ∀ y, x ≠ .rescanStopped y) →
      pre = l ∧ h = k ∧ post = l' := by
    intro l
    induction l with
    | nil =>
      intro _ l' pre post h1 h2
      cases pre with
      | nil => simp at h1; exact ⟨rfl, h1.1.symm, h1.2.symm⟩
      | cons x pre =>
        simp at h1
        obtain ⟨_, rfl⟩ := h1
        exact absurd rfl (h2 (.rescanStopped h) (by simp) h)
    | cons x l ih =>
      intro h0 l' pre post h1 h2
      cases pre with
      | nil => simp at h1; exact absurd h1.1 (h0 x (by simp) h)
      | cons y pre =>
        simp at h1
        obtain ⟨rfl, h1⟩ := h1
        obtain ⟨rfl, h3, h4⟩ := ih (fun z hz => h0 z (by simp [hz])) l' pre post h1 h2
        exact ⟨rfl, h3, h4⟩
  refine hne (a ++ es) ?_ b pre post (by rw [← heq]; simp) ?_
  · intro x hx y hy
    subst hy
    rcases List.mem_append.1 hx with hx | hx
    · have := ha _ hx; simp [Ev.isScan] at this
    · obtain ⟨_, _, _, _, _, h⟩ := he _ hx; cases h
  · intro x hx y hy
    subst hy
    have := hb _ hx; simp [Ev.isScan] at this

/-- The scan since the outputs `base`: the heights scanned are `first, …` up to the current one, and whenever a stop was
reported for height `h`, that is the end of the rescan and the heights scanned until then are `first..h`, without `h`. -/
def ScanInv (base : List Out) (first : Nat) (m : Mgr) : Prop :=
  ∃ o, m.out = base ++ o ∧ first ≤ m.rescan.current ∧
    (eventsOf o).filterMap processedHeight = List.range' first (m.rescan.current - first) ∧
    ∀ pre h post, eventsOf o = pre ++ .rescanStopped h :: post →
      m.rescan.end = some h ∧ first ≤ h ∧ pre.filterMap processedHeight = List.range' first (h - first)

theorem noScan_processed {l : List Ev} (h : ∀ x ∈ l, x.isScan = false) : l.filterMap processedHeight = [] := by
  rw [List.filterMap_eq_nil_iff]
  intro e he
  have := h e he
  cases e <;> simp_all [Ev.isScan, processedHeight]

theorem range'_join (f c d : Nat) (h1 : f ≤ c) (h2 : c ≤ d) :
    List.range' f (c - f) ++ List.range' c (d - c) = List.range' f (d - f) := by
  have e1 : d - f = (c - f) + (d - c) := by omega
  rw [e1, ← List.range'_append_1]
  have e2 : f + (c - f) = c := by omega
  rw [e2]

/-- A split of an appended list at an element. -/
theorem append_split {α : Type} {l o pre post : List α} {x : α} (h : l ++ o = pre ++ x :: post) :
    (∃ post', l = pre ++ x :: post' ∧ post = post' ++ o) ∨ (∃ pre', pre = l ++ pre' ∧ o = pre' ++ x :: post) := by
  rw [List.append_eq_append_iff] at h
  rcases h with ⟨a, h1, h2⟩ | ⟨c, h1, h2⟩
  · exact Or.inr ⟨a, h1, h2⟩
  · cases c with
    | nil => simp at h1 h2; exact Or.inr ⟨[], by simp [h1], by simpa using h2.symm⟩
    | cons y c =>
      simp at h2
      obtain ⟨rfl, rfl⟩ := h2
      exact Or.inl ⟨c, h1, rfl⟩

theorem ScanInv.step {base : List Out} {first : Nat} {m m' : Mgr} (hi : ScanInv base first m) (hc : ScanCase p m m') :
    ScanInv base first m' := by
  obtain ⟨o, i1, i2, i3, i4⟩ := hi
  cases hc with
  | none o' h1 h2 h3 h4 h5 =>
    refine ⟨o ++ o', by rw [h1, i1]; simp, by omega, ?_, ?_⟩
    · rw [eventsOf_append, List.filterMap_append, i3, noScan_processed h2, h3]; simp
    · intro pre h post he
      rw [eventsOf_append] at he
      rcases append_split he with ⟨post', q1, q2⟩ | ⟨pre', q1, q2⟩
      · rw [h4]; exact i4 pre h post' q1
      · have := h2 (.rescanStopped h) (by rw [q2]; simp)
        simp [Ev.isScan] at this
  | processed o' r ms es n a b h1 h2 h3 h4 h5 h6 h7 =>
    obtain ⟨_, _, _, p4, _, _, _, _, p9, _⟩ := process_facts p r h7
    obtain ⟨s1, es', s2, s3⟩ := process_stop p r h7
    have ha : ∀ x ∈ a, x.isScan = false := fun x hx => h3 x (by simp [hx])
    have hb : ∀ x ∈ b, x.isScan = false := fun x hx => h3 x (by simp [hx])
    have hcur : m'.rescan.current = m.rescan.current + n := by rw [p4, h4]
    have hn : n = m'.rescan.current - m.rescan.current := by omega
    refine ⟨o ++ o', by rw [h1, i1]; simp, by omega, ?_, ?_⟩
    · rw [eventsOf_append, List.filterMap_append, i3, h2]
      simp only [List.filterMap_append]
      rw [noScan_processed ha, noScan_processed hb, p9, h4, hn]
      simp only [List.nil_append, List.append_nil]
      exact range'_join _ _ _ i2 (by omega)
    · intro pre h post he
      rw [eventsOf_append] at he
      rcases append_split he with ⟨post', q1, q2⟩ | ⟨pre', q1, q2⟩
      · rw [s1, h5]; exact i4 pre h post' q1
      · rw [h2] at q2
        rcases s3 with ⟨rfl, _, _⟩ | ⟨rfl, _, s4⟩
        · exfalso
          have hm : Ev.rescanStopped h ∈ a ++ es ++ b := by rw [q2]; simp
          simp only [List.mem_append] at hm
          rcases hm with (hm | hm) | hm
          · have := ha _ hm; simp [Ev.isScan] at this
          · obtain ⟨_, _, _, _, _, hx⟩ := s2 _ hm; cases hx
          · have := hb _ hm; simp [Ev.isScan] at this
        · obtain ⟨rfl, rfl, rfl⟩ := stop_split ha s2 hb q2
          refine ⟨by rw [s1]; exact s4, by omega, ?_⟩
          rw [q1, List.filterMap_append, List.filterMap_append, i3, noScan_processed ha]
          rw [List.filterMap_append] at p9
          simp only [List.filterMap_cons, List.filterMap_nil, processedHeight, List.append_nil] at p9
          rw [p9, h4, hn]
          simp only [List.nil_append]
          exact range'_join _ _ _ i2 (by omega)

theorem rescan_scanInv (e : Env) (t : Tree) (m m' : Mgr) (start stop : Bound) (w : List Nat)
    (h : m.step p e t (.rescan start stop w) = .ok m') :
    ScanInv m.out (start.first t) m' ∧ (stop.last p.checked : Res Unit (Option Nat)) = .ok m'.rescan.end := by
  have hcc := startRescan_cases p e t m start stop w
  simp only [Mgr.step] at h
  generalize m.startRescan p e t start stop w = g at h hcc
  have hev : ∀ st, ∀ x ∈ eventsOf [.event (.rescanStarted (start.first t) st)], x.isScan = false := by
    intro st; simp [eventsOf, Ev.isScan]
  have h0 : ∀ st, ScanInv m.out (start.first t) { m with
      rescan := m.rescan.restart (start.first t) st w,
      out := m.out ++ [.event (.rescanStarted (start.first t) st)] } := by
    intro st
    refine ⟨[.event (.rescanStarted (start.first t) st)], rfl, by simp [Rescan.restart], ?_, ?_⟩
    · rw [noScan_processed (hev st)]; simp [Rescan.restart]
    · intro pre h post he
      have := hev st (.rescanStopped h) (by rw [he]; simp)
      simp [Ev.isScan] at this
  cases hcc with
  | panicked m' => simp at h
  | nothing st hst =>
    cases h
    simp only [Mgr.emit, List.map_nil, List.append_nil]
    exact ⟨h0 st, by simpa [Rescan.restart] using hst⟩
  | processed st m1 r ms es n hst q hp =>
    have h1 := (h0 st).step p (.of_quiet p q)
    have hend : r.end = st := by rw [(process_stop p _ hp).1, q.rescan]; rfl
    cases h
    refine ⟨h1.step p ?_, by simpa [Mgr.emit, hend] using hst⟩
    refine .processed (es.map .event ++ (ms.map (·.2)).map .getBlock) m1.rescan ms es n [] [] ?_ ?_ (by simp) rfl rfl rfl hp
    · simp [Mgr.emit, Function.comp_def]
    · rw [eventsOf_append, eventsOf_map, eventsOf_getBlocks]; simp

/-- C30, what holds.  From a rescan command on, until the next rescan command or re-org and whatever arrives in whatever order:
a stop event is only ever emitted for the end height of the rescan, after every height from its start up to (but excluding) its
end was scanned, each once and in order.  Missing: the end height itself may not be scanned before the stop event
(`C30_stops_before_end`), the stop event may never come (`C30_never_stops`) or come twice (`C30_stop_repeated`), heights beyond
the end may be scanned (`C30_scans_beyond_end`). -/
theorem C30_stop_partial (e : Env) (t : Tree) (m m1 m2 : Mgr) (start stop : Bound) (w : List Nat)
    (h : m.step p e t (.rescan start stop w) = .ok m1) (hr : PlainRun p m1 m2) :
    ∃ o, m2.out = m.out ++ o ∧ ∀ pre k post, eventsOf o = pre ++ .rescanStopped k :: post →
      (stop.last p.checked : Res Unit (Option Nat)) = .ok (some k) ∧ start.first t ≤ k ∧
      pre.filterMap processedHeight = List.range' (start.first t) (k - start.first t) := by
  obtain ⟨h1, h2⟩ := rescan_scanInv p e t m m1 start stop w h
  have key : ScanInv m.out (start.first t) m2 ∧ m2.rescan.end = m1.rescan.end := by
    induction hr with
    | nil => exact ⟨h1, rfl⟩
    | @cons b c e' t' op hab hp hs ih =>
      have hsc := step_scan p e' t' b c op hs hp
      refine ⟨ih.1.step p hsc, ?_⟩
      rw [← ih.2]
      cases hsc with
      | none o' k1 k2 k3 k4 k5 => exact k4
      | processed o' r ms es n a b k1 k2 k3 k4 k5 k6 k7 => rw [(process_stop p _ k7).1]; exact k5
  obtain ⟨⟨o, i1, _, _, i4⟩, he⟩ := key
  refine ⟨o, i1, fun pre k post hp => ?_⟩
  obtain ⟨j1, j2, j3⟩ := i4 pre k post hp
  rw [h2, ← he, j1]
  exact ⟨rfl, j2, j3⟩

end Verif.Cbf
