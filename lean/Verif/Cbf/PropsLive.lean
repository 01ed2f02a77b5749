import Verif.Cbf.PropsDone

/-!
# A rescan gets on: C103
-/

set_option autoImplicit false

namespace Verif.Cbf

variable (p : Params)

/-- The filter of height `h` was asked for by one of the messages. -/
def Asked (t : Tree) (o : List Out) (h : Nat) : Prop :=
  ∃ peer a stop, Out.getCFilters peer a stop ∈ o ∧ ∃ b, t.hashes[b]? = some stop ∧ a ≤ h ∧ h ≤ b

/-! ## Asking -/

theorem askFilters_asks {t : Tree} {peers : List Nat} (hp : peers ≠ []) : ∀ (rs : List (Nat × Nat)) (i : Nat) (m : Mgr),
    (∀ x ∈ rs, x.2 < t.hashes.length) → ∃ o, (Mgr.askFilters t peers i m rs).1.out = m.out ++ o ∧ ∀ x ∈ rs, ∀ h, x.1 ≤ h → h ≤ x.2 → Asked t o h
  | [], _, m, _ => ⟨[], by simp [Mgr.askFilters], by simp⟩
  | (a, b) :: rs, i, m, hr => by
    have hlen : 0 < peers.length := List.length_pos_of_ne_nil hp
    have hi : i % peers.length < peers.length := Nat.mod_lt _ hlen
    obtain ⟨k, hk⟩ := byHeight_some (hr (a, b) (by simp))
    obtain ⟨o, h1, h2⟩ := askFilters_asks hp rs (i + 1) (m.emit [.getCFilters peers[i % peers.length] (a % 2 ^ 32) k, .timer requestTimeout]) (fun x hx => hr x (by simp [hx]))
    refine ⟨[.getCFilters peers[i % peers.length] (a % 2 ^ 32) k, .timer requestTimeout] ++ o, ?_, ?_⟩
    · unfold Mgr.askFilters
      rw [List.getElem?_eq_getElem hi]
      simp only [hk]
      rw [h1]
      simp [Mgr.emit]
    · intro x hx h hh1 hh2
      rcases List.mem_cons.1 hx with rfl | hx
      · exact ⟨peers[i % peers.length], a % 2 ^ 32, k, List.mem_append_left _ (by simp), b, hk, Nat.le_trans (Nat.mod_le _ _) hh1, hh2⟩
      · obtain ⟨q1, q2, q3, q4, q5⟩ := h2 x hx h hh1 hh2
        exact ⟨q1, q2, q3, List.mem_append_right _ q4, q5⟩

theorem getCFHeaders_peers (e : Env) (m : Mgr) (a b : Nat) : (m.getCFHeaders e a b).peers = m.peers := by
  unfold Mgr.getCFHeaders
  split
  · rfl
  · split <;> rfl

theorem askFilters_peers (t : Tree) (peers : List Nat) : ∀ (rs : List (Nat × Nat)) (i : Nat) (m : Mgr), (Mgr.askFilters t peers i m rs).1.peers = m.peers
  | [], i, m => rfl
  | (a, b) :: rs, i, m => by
    unfold Mgr.askFilters
    split
    · rfl
    · split
      · rfl
      · rw [askFilters_peers t peers rs (i + 1) _]; rfl

theorem getCFilters_peers (e : Env) (t : Tree) (m : Mgr) (a b : Nat) : (m.getCFilters e t a b).1.peers = m.peers := by
  unfold Mgr.getCFilters
  split
  · rfl
  · split
    · rfl
    · split
      · simp only; rw [askFilters_peers]
      · rfl

theorem sync_peers {E : Type} (e : Env) (t : Tree) (m m' : Mgr) (h : (m.sync p e t : Res E Mgr) = .ok m') : m'.peers = m.peers := by
  unfold Mgr.sync at h
  split at h
  · split at h
    · cases h; rfl
    · rw [Res.bind_eq_ok] at h
      obtain ⟨m1, h1, h2⟩ := h
      have e1 : m1.peers = m.peers := by
        split at h1
        · unfold Mgr.sendGetCFHeaders at h1
          split at h1
          · split at h1
            · cases h1
            · cases h1; rfl
          · simp only at h1
            split at h1
            · cases h1
            · cases h1; exact getCFHeaders_peers _ _ _ _
        · cases h1; rfl
      split at h2
      · split at h2
        · cases h2
        · rename_i q _ hq
          cases h2
          have := getCFilters_peers e t m1 m1.rescan.current m1.filters.height
          rw [hq] at this
          exact this.trans e1
      · cases h2; exact e1
  · cases h

theorem idle_peers {E : Type} (e : Env) (t : Tree) (m m' : Mgr) (h : (m.idle p e t : Res E Mgr) = .ok m') : m'.peers = m.peers := by
  unfold Mgr.idle at h
  split at h
  · rw [Res.bind_eq_ok] at h
    obtain ⟨m1, h1, h2⟩ := h
    cases h2
    exact sync_peers p e t m m1 h1
  · cases h; rfl

theorem expire_peers (e : Env) (hfair : e.Fair) : ∀ (ks : List Nat) (m : Mgr), m.peers ≠ [] → (Mgr.expire e ks m).peers ≠ []
  | [], m, h => h
  | stop :: ks, m, h => by
    unfold Mgr.expire
    split
    · exact expire_peers e hfair ks m h
    · split
      · split
        · exact expire_peers e hfair ks m h
        · rename_i a pers hpk
          simp only
          refine expire_peers e hfair ks _ ?_
          simp only [Mgr.emit]
          split
          · rename_i hc
            have hm : a ∈ (m.peers.erase _).keys := (AMap.mem_keys_erase _ _ _).2 ⟨List.mem_map_of_mem (f := (·.1)) (hfair.pick_mem _ _ _ hpk), hc.1⟩
            intro he
            simp only at he
            rw [he] at hm
            cases hm
          · exact h
      · exact expire_peers e hfair ks m h

/-- After the timer, every height up to the filter headers is queued or asked for. -/
theorem timer_asks {e : Env} (hfair : e.Fair) {t : Tree} {m m' : Mgr} (hs : Sound t m) (ha : m.rescan.active = true) (hp : m.peers ≠ [])
    (hc : m.rescan.current ≤ m.filters.height) (hl : requestTimeout ≤ e.now - m.lastProcessed.getD 0) (h : m.step p e t .timer = .ok m') :
    m'.filters = m.filters ∧ m'.rescan.current = m.rescan.current ∧ m'.rescan.cache = m.rescan.cache ∧
    (∀ k, m.rescan.current ≤ k → k ≤ m.filters.height → (m'.rescan.received.get k).isSome ∨ k ∈ m'.rescan.requested) ∧
    (∀ k, m.rescan.current ≤ k → k ≤ m.filters.height → m.rescan.received.get k = none → m.rescan.cache.get k = none →
      k ∈ m'.rescan.requested) ∧
    ∃ o, m'.out = m.out ++ o ∧ ∀ k ∈ m'.rescan.requested, Asked t o k := by
  simp only [Mgr.step, Mgr.timerExpired] at h
  rw [Res.bind_eq_ok] at h
  obtain ⟨m1, h1, h2⟩ := h
  have q := (quiet_idle p e t m m1 h1).trans (quiet_expire e t (e.order m1.inflight.keys) m1)
  have hp2 := expire_peers e hfair (e.order m1.inflight.keys) m1 (by rw [idle_peers p e t m m1 h1]; exact hp)
  generalize Mgr.expire e (e.order m1.inflight.keys) m1 = m2 at h2 q hp2
  rw [if_pos (by rw [q.lastProcessed]; exact hl)] at h2
  have hact : m2.rescan.active = true := by rw [q.rescan]; exact ha
  have hcur : m2.rescan.current = m.rescan.current := by rw [q.rescan]
  have hcache : m2.rescan.cache = m.rescan.cache := by rw [q.rescan]
  rw [if_pos hact] at h2
  have hle : m2.rescan.current ≤ m2.filters.height := by rw [hcur, q.filters]; exact hc
  have hres : ({ m2 with rescan := m2.rescan.reset } : Mgr).getCFilters e t m2.rescan.reset.current m2.filters.height =
      Mgr.askFilters t (e.shuffle m2.peers.keys) 0 { m2 with rescan := (m2.rescan.reset.requests t m2.rescan.current m2.filters.height).2 }
        (m2.rescan.reset.requests t m2.rescan.current m2.filters.height).1 := by
    unfold Mgr.getCFilters
    rw [if_neg hp2, if_neg (by simp only [Rescan.reset]; omega), if_pos (Nat.le_refl _)]
    rfl
  simp only [hres] at h2
  obtain ⟨k1, k2, k3, k4, k5⟩ := C28_requests t m2.rescan.reset m2.rescan.current m2.filters.height
  generalize m2.rescan.reset.requests t m2.rescan.current m2.filters.height = rq at h2 k1 k2 k3 k4 k5
  have hsh : e.shuffle m2.peers.keys ≠ [] := by
    intro h0
    have := (hfair.shuffle_perm m2.peers.keys).length_eq
    rw [h0] at this
    refine hp2 (List.eq_nil_of_length_eq_zero ?_)
    simpa [AMap.keys] using this.symm
  obtain ⟨o2, a1, a2⟩ := askFilters_asks (t := t) hsh rq.1 0 { m2 with rescan := rq.2 } (fun x hx => by
    have := (k2 x hx).2.2.1
    have := hs.height
    rw [q.filters] at *
    omega)
  have qa := quiet_askFilters t (e.shuffle m2.peers.keys) rq.1 0 { m2 with rescan := rq.2 }
  have hr := askFilters_rescan t (e.shuffle m2.peers.keys) rq.1 0 { m2 with rescan := rq.2 }
  have hm' : m' = (Mgr.askFilters t (e.shuffle m2.peers.keys) 0 { m2 with rescan := rq.2 } rq.1).1 := by
    split at h2
    · cases h2
    · rename_i x y hxy
      cases h2
      rw [hxy]
  rw [← hm'] at a1 qa hr
  simp only at hr
  obtain ⟨o1, b1, -, -⟩ := q.out
  have hask : ∀ k, m.rescan.current ≤ k → k ≤ m.filters.height → ¬ Cached t m2.rescan.reset k = true →
      m2.rescan.reset.received.get k = none → k ∈ rq.2.requested := by
    intro k hk1 hk2 hcd hrec
    rw [k3]
    right
    have hmem : k ∈ rq.1.flatMap (fun x => List.range' x.1 (x.2 + 1 - x.1)) := by
      rw [k1, List.mem_filter]
      refine ⟨List.mem_range'_1.2 ⟨by omega, by rw [q.filters]; omega⟩, ?_⟩
      have hc' : Cached t m2.rescan.reset k = false := by simpa using hcd
      have hcon : m2.rescan.reset.received.contains k = false := (AMap.contains_eq_false_iff _ _).2 hrec
      rw [hcon, hc']; rfl
    obtain ⟨x, hx, hk⟩ := List.mem_flatMap.1 hmem
    have := List.mem_range'_1.1 hk
    exact ⟨x, hx, by omega, by omega⟩
  refine ⟨qa.filters.trans q.filters, ?_, ?_, ?_, ?_, o1 ++ o2, by rw [a1]; simp only; rw [b1, List.append_assoc], ?_⟩
  · rw [hr, k5]; exact hcur
  · rw [hr, k5]; exact hcache
  · intro k hk1 hk2
    rw [hr]
    by_cases hcd : Cached t m2.rescan.reset k = true
    · left
      rw [k4, if_pos ⟨⟨by omega, by rw [q.filters]; exact hk2⟩, hcd⟩]
      simp only [Cached, Bool.and_eq_true] at hcd
      obtain ⟨f, hf⟩ := Option.isSome_iff_exists.1 hcd.1
      obtain ⟨b, hb⟩ := Option.isSome_iff_exists.1 hcd.2
      simp [hf, hb]
    · cases hrec : m2.rescan.reset.received.get k with
      | some x => left; rw [k4, if_neg (fun hx => hcd hx.2), hrec]; rfl
      | none => exact .inr (hask k hk1 hk2 hcd hrec)
  · intro k hk1 hk2 hk3 hk4
    rw [hr]
    refine hask k hk1 hk2 ?_ ?_
    · simp [Cached, Rescan.reset, hcache, hk4]
    · show m2.rescan.received.get k = none
      cases hrec : m2.rescan.received.get k with
      | none => rfl
      | some x =>
        rcases q.queued k x hrec with h | ⟨h, -⟩
        · rw [hk3] at h; cases h
        · rw [hk4] at h; cases h
  · intro k hk
    rw [hr, k3] at hk
    rcases hk with hk | ⟨x, hx, hk1, hk2⟩
    · cases hk
    · obtain ⟨q1, q2, q3, q4, q5⟩ := a2 x hx k hk1 hk2
      exact ⟨q1, q2, q3, List.mem_append_right _ q4, q5⟩

/-! ## Receiving -/

/-- Every height of `c..=H` was scanned, is queued or asked for; if a filter was received, the next height to scan is not queued. -/
structure Waits (c H : Nat) (got : Bool) (m : Mgr) : Prop where
  all : ∀ k, c ≤ k → k ≤ H → k < m.rescan.current ∨ (m.rescan.received.get k).isSome ∨ k ∈ m.rescan.requested
  next : got = true → m.rescan.received.get m.rescan.current = none

theorem cfilter_waits {c H : Nat} {got : Bool} (e : Env) {t : Tree} {m m' : Mgr} (hn : t.hashes.Nodup) (w : Waits c H got m)
    {peer ft block : Nat} {f : Filter} (h : m.step p e t (.cfilter peer ft block f) = .ok m') :
    m'.filters = m.filters ∧ Waits c H got m' ∧ (∀ k ∈ m'.rescan.requested, k ∈ m.rescan.requested) ∧
    (∀ k, Acceptable p t m.filters ft block f k → k ∉ m'.rescan.requested) ∧
    ∀ k ∈ m.rescan.requested, k ∉ m'.rescan.requested → Waits c H true m' := by
  have hun : ∀ {h h' : Nat}, t.hashes[h]? = some block → t.heightOf block = some h' → h = h' := by
    intro h h' h1 h2
    rw [← heightOf_eq_some hn, h2] at h1; cases h1; rfl
  have hcs := receivedCFilter_cases p e t m peer ft block f
  simp only [Mgr.step] at h
  generalize m.receivedCFilter p e t peer ft block f = g at h hcs
  cases hcs with
  | ignored hi =>
    cases h
    refine ⟨rfl, w, fun _ h => h, fun k hk => ?_, fun k h1 h2 => absurd h1 h2⟩
    exfalso
    rcases hi with hi | hi | ⟨h', h1, h2⟩
    · exact hi hk.1
    · rw [(heightOf_eq_some hn _ _).2 hk.2.1] at hi; cases hi
    · obtain ⟨_, _, h3, -⟩ := hk.2.2
      rw [hun hk.2.1 h1, h2] at h3; cases h3
  | invalid hh h0 h1 h2 h3 =>
    cases h
    refine ⟨rfl, ⟨w.all, w.next⟩, fun _ h => h, fun k hk => ?_, fun k h1 h2 => absurd h1 h2⟩
    exact absurd (hun hk.2.1 h1 ▸ hk.2.2) h3
  | unsolicited hh h0 h1 h2 h3 =>
    cases h
    obtain ⟨_, _, hr, -⟩ := afterFilter_scanned [] (m.emit [.event (.filterReceived peer block hh f)])
    have hfl := (afterFilter_frame [] (m.emit [.event (.filterReceived peer block hh f)])).1
    refine ⟨by rw [hfl]; rfl, ⟨by rw [hr]; exact w.all, by rw [hr]; exact w.next⟩, by rw [hr]; exact fun _ h => h, fun k hk => ?_,
      by rw [hr]; exact fun k h1 h2 => absurd h1 h2⟩
    rw [hr, hun hk.2.1 h1]
    exact h3
  | scanned hh cc r ms es n h0 h1 h2 h3 h4 h5 =>
    cases h
    obtain ⟨_, _, hr, -⟩ := afterFilter_scanned ms { m with rescan := r, lastProcessed := if 0 < n then some e.now else m.lastProcessed, out := m.out ++ Out.event (Ev.filterReceived peer block hh f) :: es.map Out.event }
    have hfl := (afterFilter_frame ms { m with rescan := r, lastProcessed := if 0 < n then some e.now else m.lastProcessed, out := m.out ++ Out.event (Ev.filterReceived peer block hh f) :: es.map Out.event }).1
    obtain ⟨n', r', ms', es', stop', k0, k1, k2, k3, -, -, -, -, k4, -, k5⟩ := C29_process p { m.rescan with
      requested := m.rescan.requested.filter (· ≠ hh), cache := cc.2, received := m.rescan.received.insert hh (f, block, false) }
    rw [k0] at h5
    simp only [Prod.mk.injEq] at h5
    obtain ⟨rfl, rfl, rfl, rfl⟩ := h5
    simp only at hr k1 k2 k3 k4 k5
    have hreq : r'.requested = m.rescan.requested.filter (· ≠ hh) := by rw [k5]
    have hnext : r'.received.get r'.current = none := by
      rw [k4, if_neg (by omega), k1]
      exact k3
    have W : ∀ b, Waits c H b (Mgr.afterFilter { m with rescan := r', lastProcessed := if 0 < n' then some e.now else m.lastProcessed, out := m.out ++ Out.event (Ev.filterReceived peer block hh f) :: (es' ++ stop').map Out.event } ms') := by
      intro b
      refine ⟨?_, fun _ => by rw [hr]; exact hnext⟩
      rw [hr]
      intro k hk1 hk2
      by_cases hkc : k < r'.current
      · exact .inl hkc
      · right
        rw [k4, if_neg (by omega), AMap.get_insert]
        by_cases hkh : hh = k
        · left; rw [if_pos hkh]; rfl
        · rw [if_neg hkh]
          rcases w.all k hk1 hk2 with h | h | h
          · omega
          · exact .inl h
          · right; rw [hreq, List.mem_filter]; exact ⟨h, by simpa using Ne.symm hkh⟩
    refine ⟨by rw [hfl], W got, ?_, fun k hk => ?_, fun _ _ _ => W true⟩
    · rw [hr]; rw [hreq]; exact fun k hk => (List.mem_filter.1 hk).1
    · rw [hr, hun hk.2.1 h1]; rw [hreq, List.mem_filter]; simp
  | panicked m' hh => cases h

/-- Filter messages arrive one after the other. -/
def receiveAll (t : Tree) : List (Env × Nat × Nat × Nat × Filter) → Mgr → Res Unit Mgr
  | [], m => .ok m
  | (e, peer, ft, block, f) :: l, m => m.step p e t (.cfilter peer ft block f) >>= receiveAll t l

theorem receiveAll_spec {c H : Nat} {t : Tree} (hn : t.hashes.Nodup) {fs : FilterHeaders} : ∀ (l : List (Env × Nat × Nat × Nat × Filter)) {m : Mgr} {got : Bool},
    Waits c H got m → CacheOK List.length m.rescan.cache → m.filters = fs →
    ∃ m', receiveAll p t l m = .ok m' ∧ Order m m' ∧ Waits c H got m' ∧ (∀ k ∈ m'.rescan.requested, k ∈ m.rescan.requested) ∧
      (∀ x ∈ l, ∀ k, Acceptable p t fs x.2.2.1 x.2.2.2.1 x.2.2.2.2 k → k ∉ m'.rescan.requested) ∧
      ∀ k ∈ m.rescan.requested, k ∉ m'.rescan.requested → Waits c H true m'
  | [], m, got, w, _, _ => ⟨m, rfl, ⟨Nat.le_refl _, by simp⟩, w, fun _ h => h, by simp, fun k h1 h2 => absurd h1 h2⟩
  | (e, peer, ft, block, f) :: l, m, got, w, hc, hf => by
    cases hs : m.step p e t (.cfilter peer ft block f) with
    | panic => exact absurd hs (C59_cfilter_safe p e t m peer ft block f hc)
    | err u =>
      exfalso
      simp only [Mgr.step] at hs
      split at hs <;> cases hs
    | ok m1 =>
      obtain ⟨h1, h2, h3, h4, h5⟩ := cfilter_waits p e hn w hs
      have hc1 := (step_facts p e t m m1 _ hs hc).cacheOK
      obtain ⟨m', k1, k2, k3, k4, k5, k6⟩ := receiveAll_spec hn l h2 hc1 (h1.trans hf)
      refine ⟨m', by simp only [receiveAll, hs, Res.ok_bind, k1], (step_order p e t m m1 _ hs rfl).trans k2, k3, fun k hk => h3 k (k4 k hk), ?_, ?_⟩
      · intro x hx k hk
        rcases List.mem_cons.1 hx with rfl | hx
        · exact fun h => h4 k (hf ▸ hk) (k4 k h)
        · exact k5 x hx k hk
      · intro k ha hb
        by_cases h' : k ∈ m1.rescan.requested
        · exact k6 k h' hb
        · obtain ⟨m'', j1, -, j3, -⟩ := receiveAll_spec hn l (h5 k ha h') hc1 (h1.trans hf)
          rw [k1] at j1; cases j1; exact j3

/-- C103, the part that holds.  A rescan is running, a filter peer is connected, and filters are missing between the next
height to scan and the last filter header.  Nothing was scanned for six seconds, and the timer fires.  If
for each filter the client now asks for a genuine one arrives afterwards, from any peer and in any order, with any other
filter messages between them (repeated, unasked for, forged), then all heights up to the last filter header are scanned, in
order and each once.  Whatever went wrong before does not matter: lost requests, lost answers and answers out of order are
made up for.  Missing: if no filter is missing, nothing is asked for and the rescan stands still
(`Scenario.C64_cached_rescan_stalls`). -/
theorem C103_rescan_gets_on_partial {e : Env} (hfair : e.Fair) {t : Tree} {m m1 : Mgr} (hn : t.hashes.Nodup)
    (hd : Delivered p t m) (ha : m.rescan.active = true) (hp : m.peers ≠ [])
    (hl : 6000 ≤ e.now - m.lastProcessed.getD 0)
    (hmiss : ∃ k, m.rescan.current ≤ k ∧ k ≤ m.filters.height ∧ m.rescan.received.get k = none ∧ m.rescan.cache.get k = none)
    (h : m.step p e t .timer = .ok m1) :
    ∃ asks, m1.out = m.out ++ asks ∧ ∀ l : List (Env × Nat × Nat × Nat × Filter),
      (∀ k, Asked t asks k → ∃ x ∈ l, Acceptable p t m.filters x.2.2.1 x.2.2.2.1 x.2.2.2.2 k) →
      ∃ m2 n, receiveAll p t l m1 = .ok m2 ∧ m.filters.height < m.rescan.current + n ∧
        processedHeights m2.out = processedHeights m.out ++ List.range' m.rescan.current n := by
  obtain ⟨k0, g1, g2, g3, g4⟩ := hmiss
  obtain ⟨h1, h2, h3, h4, h5, o, h6, h7⟩ := timer_asks p hfair hd.sound ha hp (Nat.le_trans g1 g2) hl h
  refine ⟨o, h6, fun l hgood => ?_⟩
  have w : Waits m.rescan.current m.filters.height false m1 := ⟨fun k hk1 hk2 => .inr (h4 k hk1 hk2), by simp⟩
  obtain ⟨m2, q1, q2, -, q4, q5, q6⟩ := receiveAll_spec p hn l w (by rw [h3]; exact hd.sound.cacheOK) h1
  have hnone : ∀ k, k ∉ m2.rescan.requested := by
    intro k hk
    obtain ⟨x, hx, hacc⟩ := hgood k (h7 k (q4 k hk))
    exact q5 x hx k hacc hk
  have hw := q6 k0 (h5 k0 g1 g2 g3 g4) (hnone k0)
  have hlt : m.filters.height < m2.rescan.current := by
    by_contra hcon
    have hle := q2.1
    rcases hw.all m2.rescan.current (by omega) (by omega) with hx | hx | hx
    · omega
    · rw [hw.next rfl] at hx; cases hx
    · exact hnone _ hx
  have ho := ((step_order p e t m m1 _ h rfl).trans q2)
  exact ⟨m2, m2.rescan.current - m.rescan.current, q1, by have := ho.1; omega, ho.2⟩

end Verif.Cbf

namespace Verif.Cbf.Scenario
open Verif.Cbf

/-- A run with one tree is a history with every change of the chain reported. -/
theorem run_delivered_one (p : Params) (t : Tree) : ∀ (ops : List (Env × Tree × Op)) (m m' : Mgr), Delivered p t m →
    (∀ x ∈ ops, x.1.fail = false ∧ x.2.1 = t ∧ x.2.2.reverts = false) → m.run p ops = .ok m' → Delivered p t m'
  | [], m, m', h, _, hr => by cases hr; exact h
  | (e, t', op) :: ops, m, m', h, hf, hr => by
    unfold Mgr.run at hr
    rw [Res.bind_eq_ok] at hr
    obtain ⟨m1, h1, h2⟩ := hr
    obtain ⟨k1, k2, k3⟩ := hf (e, t', op) (by simp)
    simp only at k1 k2 k3
    subst k2
    exact run_delivered_one p t' ops m1 m' (.call e op h k1 k3 h1) (fun x hx => hf x (by simp [hx])) h2

/-- A rescan of which only the second filter arrived. -/
def stuck : List (Env × Tree × Op) := setup ++ [(at_ 100002, t, .rescan (.included 1) .unbounded [2]), f2 100003]

/-- C103: in the end of that run the hypotheses hold (and nothing was scanned yet). -/
example : ∃ m, m0.run p stuck = .ok m ∧ Delivered p t m ∧ m.rescan.active = true ∧ m.peers ≠ [] ∧
    requestTimeout ≤ (at_ 110000).now - m.lastProcessed.getD 0 ∧ t.hashes.Nodup ∧ processedHeights m.out = [] ∧
    (m.rescan.current, m.filters.height, (m.rescan.received.get 1).isNone, (m.rescan.cache.get 1).isNone) = (1, 3, true, true) := by
  cases h : m0.run p stuck with
  | ok m =>
    refine ⟨m, rfl, run_delivered_one p t stuck m0 m (.init t _ _ rfl (by decide)) (by decide) h, ?_⟩
    have hx : look (fun m => (m.rescan.active, m.peers.keys, m.lastProcessed, processedHeights m.out)) (m0.run p stuck) =
        some (true, [1], none, []) := by decide
    have hy : look (fun m => (m.rescan.current, m.filters.height, (m.rescan.received.get 1).isNone, (m.rescan.cache.get 1).isNone))
        (m0.run p stuck) = some (1, 3, true, true) := by decide
    rw [h] at hx hy
    simp only [look, Option.some.injEq, Prod.mk.injEq] at hx hy
    obtain ⟨h1, h2, h3, h4⟩ := hx
    refine ⟨h1, ?_, by rw [h3]; decide, by decide, h4, by simp only [Prod.mk.injEq]; exact hy⟩
    intro h0
    rw [h0] at h2
    cases h2
  | err u => have : (look (fun _ => ()) (m0.run p stuck)).isSome = true := by decide
             rw [h] at this; cases this
  | panic => have : (look (fun _ => ()) (m0.run p stuck)).isSome = true := by decide
             rw [h] at this; cases this

/-- The timer asks for filters 1 and 3 again; they arrive in the wrong order, a forged one between them. -/
example : look (fun m => processedHeights m.out)
    (m0.run p (stuck ++ [(at_ 110000, t, .timer), f3 110001, (at_ 110002, t, .cfilter 1 0 101 [7]), f1 110003])) =
    some [1, 2, 3] := by decide

end Verif.Cbf.Scenario
