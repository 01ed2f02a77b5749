import Verif.Cbf.PropsMgr

/-!
# Properties C26 (histories), C29 (manager level), C30, C31, C59: scanning
-/

set_option autoImplicit false

namespace Verif.Cbf

variable (p : Params)

/-! ## C26 over histories -/

theorem new_cacheOK (f : FilterHeaders) (c : Nat) : CacheOK List.length (Mgr.new f c).rescan.cache :=
  ⟨by simp [Mgr.new, Rescan.new, SSorted], by simp [Mgr.new, Rescan.new, Cache.bytes], by simp [Mgr.new, Rescan.new]⟩

/-- C26.  In any history, with any messages from any peers and any re-orgs: every filter in memory, every filter waiting to be
scanned and every filter reported as scanned was carried, for that height, by a message that passed the check against the
filter-header chain when it was handled. -/
theorem C26_history {l : List (FilterHeaders × Tree × Op)} {m : Mgr} (h : Log p l m) :
    CacheOK List.length m.rescan.cache ∧
    (∀ k f, m.rescan.cache.get k = some f → WasAccepted p l k f) ∧
    (∀ k x, m.rescan.received.get k = some x → WasAccepted p l k x.1) ∧
    (∀ b k v mt c, .filterProcessed b k v mt c ∈ eventsOf m.out → ∃ f, WasAccepted p l k f) := by
  induction h with
  | init f c => exact ⟨new_cacheOK f c, by simp [Mgr.new, Rescan.new, Cache.get], by simp [Mgr.new, Rescan.new],
      by simp [Mgr.new, eventsOf]⟩
  | @step l m m' e t op hl hs ih =>
    obtain ⟨i1, i2, i3, i4⟩ := ih
    have hmono : ∀ {k f}, WasAccepted p l k f → WasAccepted p ((m.filters, t, op) :: l) k f := by
      rintro k f ⟨fs, t, peer, block, h1, h2⟩
      exact ⟨fs, t, peer, block, List.mem_cons_of_mem _ h1, h2⟩
    have hnew : ∀ {k f peer b}, op = .cfilter peer 0 b f → t.heightOf b = some k → Committed p m.filters.all k f →
        WasAccepted p ((m.filters, t, op) :: l) k f := by
      intro k f peer b h1 h2 h3
      exact ⟨m.filters, t, peer, b, by rw [h1]; simp, h2, h3⟩
    have hsrc : ∀ {k f b}, Source p t m op k f b → WasAccepted p ((m.filters, t, op) :: l) k f := by
      rintro k f b (⟨c, h1⟩ | ⟨h1, _⟩ | ⟨peer, h1, h2, h3⟩)
      · exact hmono (i3 k _ h1)
      · exact hmono (i2 k f h1)
      · exact hnew h1 h2 h3
    have sf := step_facts p e t m m' op hs i1
    refine ⟨sf.cacheOK, ?_, ?_, ?_⟩
    · intro k f hk
      rcases sf.cache k f hk with h1 | ⟨peer, b, h1, h2, h3⟩
      · exact hmono (i2 k f h1)
      · exact hnew h1 h2 h3
    · intro k x hk
      exact hsrc (sf.queue k x.1 x.2.1 x.2.2 hk)
    · intro b k v mt c hm
      obtain ⟨o, ho, hf⟩ := sf.out
      rw [ho, eventsOf_append, List.mem_append] at hm
      rcases hm with hm | hm
      · obtain ⟨f, h1⟩ := i4 b k v mt c hm
        exact ⟨f, hmono h1⟩
      · obtain ⟨f, h1, _⟩ := hf b k v mt c hm
        exact ⟨f, hsrc h1⟩

/-! ## C29: order of scanning -/

/-- Between `m` and `m'`, the heights reported as scanned are exactly those from the current height of `m` up to (excluding)
the current height of `m'`, one after the other. -/
def Order (m m' : Mgr) : Prop :=
  m.rescan.current ≤ m'.rescan.current ∧
  processedHeights m'.out = processedHeights m.out ++
    List.range' m.rescan.current (m'.rescan.current - m.rescan.current)

theorem Order.trans {a b c : Mgr} (h1 : Order a b) (h2 : Order b c) : Order a c := by
  obtain ⟨x1, x2⟩ := h1
  obtain ⟨y1, y2⟩ := h2
  refine ⟨by omega, ?_⟩
  rw [y2, x2, List.append_assoc]
  have e1 : c.rescan.current - a.rescan.current =
    (b.rescan.current - a.rescan.current) + (c.rescan.current - b.rescan.current) := by omega
  rw [e1, ← List.range'_append_1]
  have e2 : a.rescan.current + (b.rescan.current - a.rescan.current) = b.rescan.current := by omega
  rw [e2]

theorem Order.same {m m' : Mgr} (o : List Out) (h1 : m'.rescan.current = m.rescan.current) (h2 : m'.out = m.out ++ o)
    (h3 : processedHeights o = []) : Order m m' :=
  ⟨by omega, by rw [h2, processedHeights_append, h3, h1]; simp⟩

theorem Order.of_quiet {t : Tree} {m m' : Mgr} (q : Quiet t m m') : Order m m' := by
  obtain ⟨o, h1, h2, _⟩ := q.out
  exact Order.same o (by rw [q.rescan]) h1 (by simp [processedHeights, h2])

theorem processedHeights_nil_of {o : List Out} (h : ∀ b k v mt c, .filterProcessed b k v mt c ∉ eventsOf o) :
    processedHeights o = [] := by
  unfold processedHeights
  rw [List.filterMap_eq_nil_iff]
  intro e he
  cases e with
  | filterProcessed b k v mt c => exact absurd he (h b k v mt c)
  | _ => rfl

/-- Calls that neither start a rescan nor report a re-org. -/
def Op.plain : Op → Bool
  | .rescan _ _ _ => false
  | .headersImported r => r.isEmpty
  | _ => true

theorem step_order (e : Env) (t : Tree) (m m' : Mgr) (op : Op) (h : m.step p e t op = .ok m') (hp : op.plain = true) :
    Order m m' := by
  cases op with
  | init => exact .of_quiet (quiet_idle p e t m m' h)
  | peerNegotiated addr ob hf pers =>
    simp only [Mgr.step] at h
    split at h
    · cases h; exact .same [] rfl (by simp) rfl
    · split at h
      · cases h; exact .same [] rfl (by simp) rfl
      · refine Order.trans (b := { m with peers := m.peers.insert addr pers }) ?_ (.of_quiet (quiet_sync p e t _ m' h))
        exact .same [] rfl (by simp) rfl
  | peerDisconnected addr => cases h; exact .same [] rfl (by simp) rfl
  | blockProcessed block height =>
    simp only [Mgr.step] at h
    split at h
    · cases h; exact .same [_, _] rfl (by simp only [Mgr.emit, List.append_assoc]; rfl) rfl
    · cases h; exact .same [] rfl (by simp) rfl
  | blockDisconnected height => cases h; exact .same [] rfl (by simp) rfl
  | headersImported reverted =>
    have : reverted = [] := by simpa [Op.plain] using hp
    subst this
    exact .of_quiet (quiet_sync p e t m m' h)
  | txConfirmed txid => cases h; exact .same [] rfl (by simp) rfl
  | txReverted txid scripts => cases h; exact .same [] rfl (by simp) rfl
  | cfheaders peer msg =>
    obtain ⟨m0, o, h1, h2, h3, _, h5, q⟩ := receivedCFHeaders_frame p e t m msg
    have key : ∀ (m'' : Mgr) (o' : List Out), m''.rescan = m0.rescan → m''.out = m0.out ++ o ++ o' →
        processedHeights o' = [] → Order m m'' := by
      intro m'' o' k1 k2 k3
      have := Order.of_quiet q
      refine Order.trans (b := m0) this (Order.same (o ++ o') (by rw [k1]) (by rw [k2]; simp) ?_)
      rw [processedHeights_append, k3, processedHeights_nil_of (fun b k v mt c hm => by obtain ⟨_, hx⟩ := h3 _ hm; cases hx)]; rfl
    simp only [Mgr.step] at h
    generalize m.receivedCFHeaders p e t msg = g at h h1 h2
    obtain ⟨g1, g2⟩ := g
    cases g2 with
    | ok n => cases h; exact key _ [] h1 (by simpa using h2) rfl
    | err er =>
      cases er
      · cases h; exact key _ [] h1 (by simpa using h2) rfl
      · cases h; exact key _ [_] h1 (by simp only [Mgr.emit]; rw [h2]) rfl
      · cases h; exact key _ [_] h1 (by simp only [Mgr.emit]; rw [h2]) rfl
    | panic => cases h
  | getcfheaders peer ft start stop =>
    have hcc := receivedGetCFHeaders_frame p t m peer ft start stop
    simp only [Mgr.step] at h
    generalize m.receivedGetCFHeaders p t peer ft start stop = g at h hcc
    obtain ⟨g1, g2⟩ := g
    have hf : g1.rescan = m.rescan ∧ ∃ o, g1.out = m.out ++ o ∧ processedHeights o = [] := by
      rcases hcc with rfl | ⟨_, _, rfl⟩
      · exact ⟨rfl, [], by simp, rfl⟩
      · exact ⟨rfl, [_], rfl, rfl⟩
    obtain ⟨hf1, o, hf2, hf3⟩ := hf
    cases g2 with
    | ok n => cases h; exact .same o (by rw [hf1]) hf2 hf3
    | err er =>
      cases er
      · cases h; exact .same o (by rw [hf1]) hf2 hf3
      · cases h
        exact .same (o ++ [.event (.peerMisbehaved peer)]) (by simp [Mgr.emit, hf1])
          (by simp [Mgr.emit, hf2]) (by rw [processedHeights_append, hf3]; rfl)
      · cases h; exact .same o (by rw [hf1]) hf2 hf3
    | panic => cases h
  | cfilter peer ft block f =>
    have hcc := receivedCFilter_cases p e t m peer ft block f
    simp only [Mgr.step] at h
    generalize m.receivedCFilter p e t peer ft block f = g at h hcc
    have hks : ∀ ks : List Nat, processedHeights (ks.map .getBlock) = [] := by
      intro ks; simp [processedHeights, eventsOf_getBlocks]
    cases hcc with
    | ignored hi => cases h; exact .same [] rfl (by simp) rfl
    | invalid hh h0 h1 h2 h3 => cases h; exact .same [_] rfl rfl rfl
    | unsolicited hh h0 h1 h2 h3 =>
      cases h
      obtain ⟨b1, ks, o, b2, b3⟩ := afterFilter_frame [] (m.emit [.event (.filterReceived peer block hh f)])
      refine .same (.event (.filterReceived peer block hh f) :: (ks.map .getBlock ++ o)) (by rw [b1]; rfl)
        (by rw [b2]; simp [Mgr.emit]) ?_
      have : processedHeights (.event (.filterReceived peer block hh f) :: (ks.map .getBlock ++ o)) =
        processedHeights (ks.map .getBlock ++ o) := rfl
      rw [this, processedHeights_append, hks]
      rcases b3 with rfl | ⟨_, rfl⟩ <;> rfl
    | scanned hh c r ms es n h0 h1 h2 h3 h4 h5 =>
      obtain ⟨p1, p2, p3, p4, _, _, _, p8, p9, p10⟩ := process_facts p _ h5
      cases h
      obtain ⟨b1, ks, o, b2, b3⟩ := afterFilter_frame ms { m with
        rescan := r, lastProcessed := if 0 < n then some e.now else m.lastProcessed,
        out := m.out ++ .event (.filterReceived peer block hh f) :: es.map .event }
      have hcur : r.current = m.rescan.current + n := p4
      have ho : processedHeights o = [] := by rcases b3 with rfl | ⟨_, rfl⟩ <;> rfl
      refine ⟨by rw [b1]; simp only; omega, ?_⟩
      rw [b1]
      simp only
      rw [b2, processedHeights_append, processedHeights_append, processedHeights_append, hks, ho]
      have : processedHeights (.event (.filterReceived peer block hh f) :: es.map .event) =
        processedHeights (es.map .event) := rfl
      rw [this]
      have hes : processedHeights (es.map .event) = List.range' m.rescan.current n := by
        unfold processedHeights; rw [eventsOf_map]; exact p9
      rw [hes, hcur]
      simp
    | panicked m' hh hp => simp at h
  | timer => exact .of_quiet (quiet_timerExpired p e t m m' h)
  | watch scripts => cases h; exact .same [] rfl (by simp) rfl
  | watchTransaction txid scripts => cases h; exact .same [] rfl (by simp) rfl
  | rescan start stop w => simp [Op.plain] at hp
  | getCFilters start stop =>
    have hqq := quiet_getCFilters e t m start stop
    simp only [Mgr.step] at h
    generalize m.getCFilters e t start stop = g at h hqq
    obtain ⟨g1, g2⟩ := g
    cases g2 <;> simp at h <;> (subst h; exact .of_quiet hqq)

/-- Sequences of calls that neither start a rescan nor report a re-org; trees, clocks, random choices and store failures are
arbitrary. -/
inductive PlainRun (p : Params) : Mgr → Mgr → Prop
  | nil (m : Mgr) : PlainRun p m m
  | cons {a b c : Mgr} (e : Env) (t : Tree) (op : Op) : PlainRun p a b → op.plain = true → b.step p e t op = .ok c →
      PlainRun p a c

/-- The rescan command itself: it reports, in order, the cached heights from its start on. -/
theorem rescan_order (e : Env) (t : Tree) (m m' : Mgr) (start stop : Bound) (w : List Nat)
    (h : m.step p e t (.rescan start stop w) = .ok m') :
    start.first t ≤ m'.rescan.current ∧
    processedHeights m'.out = processedHeights m.out ++
      List.range' (start.first t) (m'.rescan.current - start.first t) := by
  have hcc := startRescan_cases p e t m start stop w
  simp only [Mgr.step] at h
  generalize m.startRescan p e t start stop w = g at h hcc
  have hev : ∀ st, processedHeights [.event (.rescanStarted (start.first t) st)] = [] := fun _ => rfl
  cases hcc with
  | panicked m' => simp at h
  | nothing st _ =>
    cases h
    refine ⟨by simp [Mgr.emit, Rescan.restart], ?_⟩
    simp only [Mgr.emit, List.map_nil, List.append_nil]
    rw [processedHeights_append, hev]
    simp [Rescan.restart]
  | processed st m1 r ms es n _ q hp =>
    obtain ⟨p1, p2, p3, p4, _, _, _, p8, p9, p10⟩ := process_facts p _ hp
    cases h
    obtain ⟨x1, x2⟩ := Order.of_quiet q
    have hcur : m1.rescan.current = start.first t := by rw [q.rescan]; rfl
    have hks : processedHeights (ms.map (fun x => Out.getBlock x.2)) = [] := by
      have := eventsOf_getBlocks (ms.map (·.2))
      rw [List.map_map] at this
      unfold processedHeights
      have h' : eventsOf (ms.map (fun x => Out.getBlock x.2)) = [] := this
      rw [h']; rfl
    refine ⟨by simp only [Mgr.emit]; omega, ?_⟩
    simp only [Mgr.emit]
    rw [processedHeights_append, processedHeights_append, hks, x2, hcur]
    simp only
    rw [processedHeights_append, hev]
    have hes : processedHeights (es.map .event) = List.range' m1.rescan.current n := by
      unfold processedHeights; rw [eventsOf_map]; exact p9
    rw [hes, p4, hcur]
    simp [Rescan.restart]

/-- C29.  From a rescan command on, whatever messages arrive in whatever order (until the next rescan command or re-org), the
heights reported as scanned are `start, start + 1, start + 2, …` — each exactly once, in order, without gap — up to (excluding)
the current height. -/
theorem C29_in_order (e : Env) (t : Tree) (m m1 m2 : Mgr) (start stop : Bound) (w : List Nat)
    (h : m.step p e t (.rescan start stop w) = .ok m1) (hr : PlainRun p m1 m2) :
    start.first t ≤ m2.rescan.current ∧
    processedHeights m2.out = processedHeights m.out ++
      List.range' (start.first t) (m2.rescan.current - start.first t) := by
  have h1 := rescan_order p e t m m1 start stop w h
  induction hr with
  | nil => exact h1
  | @cons b c e' t' op hab hp hs ih =>
    obtain ⟨i1, i2⟩ := ih
    obtain ⟨o1, o2⟩ := step_order p e' t' b c op hs hp
    refine ⟨by omega, ?_⟩
    rw [o2, i2, List.append_assoc]
    have e1 : c.rescan.current - start.first t =
      (b.rescan.current - start.first t) + (c.rescan.current - b.rescan.current) := by omega
    rw [e1, ← List.range'_append_1]
    have e2 : start.first t + (b.rescan.current - start.first t) = b.rescan.current := by omega
    rw [e2]

end Verif.Cbf
