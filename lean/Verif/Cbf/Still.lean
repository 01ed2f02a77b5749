import Verif.Cbf.PropsSync
import Verif.Cbf.PropsLive

/-!
# What calls do to a running rescan
-/

set_option autoImplicit false

namespace Verif.Cbf

/-- Nothing is scanned between `m` and `m'`; cached filters may be queued, more filters asked for. -/
structure Still (m m' : Mgr) : Prop where
  lastProcessed : m'.lastProcessed = m.lastProcessed
  active : m'.rescan.active = m.rescan.active
  stop : m'.rescan.end = m.rescan.end
  current : m'.rescan.current = m.rescan.current
  cache : m'.rescan.cache = m.rescan.cache
  queued : ∀ k, (m'.rescan.received.get k).isSome → (m.rescan.received.get k).isSome ∨ (m.rescan.cache.get k).isSome
  kept : ∀ k, (m.rescan.received.get k).isSome → (m'.rescan.received.get k).isSome
  asked : ∀ k ∈ m.rescan.requested, k ∈ m'.rescan.requested

theorem Still.refl (m : Mgr) : Still m m := ⟨rfl, rfl, rfl, rfl, rfl, fun _ h => .inl h, fun _ h => h, fun _ h => h⟩

theorem Still.same {m m' : Mgr} (h1 : m'.rescan = m.rescan) (h2 : m'.lastProcessed = m.lastProcessed) : Still m m' :=
  ⟨h2, by rw [h1], by rw [h1], by rw [h1], by rw [h1], by rw [h1]; exact fun _ h => .inl h, by rw [h1]; exact fun _ h => h, by rw [h1]; exact fun _ h => h⟩

theorem Still.trans {a b c : Mgr} (h1 : Still a b) (h2 : Still b c) : Still a c where
  lastProcessed := h2.lastProcessed.trans h1.lastProcessed
  active := h2.active.trans h1.active
  stop := h2.stop.trans h1.stop
  current := h2.current.trans h1.current
  cache := h2.cache.trans h1.cache
  queued k h := by
    rcases h2.queued k h with h | h
    · exact h1.queued k h
    · rw [h1.cache] at h; exact .inr h
  kept k h := h2.kept k (h1.kept k h)
  asked k h := h2.asked k (h1.asked k h)

theorem Still.of_quiet {t : Tree} {m m' : Mgr} (q : Quiet t m m') (h : ∀ k ∈ m.rescan.requested, k ∈ m'.rescan.requested) : Still m m' where
  lastProcessed := q.lastProcessed
  active := by rw [q.rescan]
  stop := by rw [q.rescan]
  current := by rw [q.rescan]
  cache := by rw [q.rescan]
  queued k hk := by
    obtain ⟨x, hx⟩ := Option.isSome_iff_exists.1 hk
    rcases q.queued k x hx with h | h
    · left; rw [h]; rfl
    · right; rw [h.1]; rfl
  kept := q.kept
  asked := h

theorem still_getCFHeaders (e : Env) (m : Mgr) (a b : Nat) : Still m (m.getCFHeaders e a b) := by
  unfold Mgr.getCFHeaders
  split
  · exact .refl m
  · split
    · exact .same rfl rfl
    · exact .refl m

theorem still_getCFilters (e : Env) (t : Tree) (m : Mgr) (a b : Nat) : Still m (m.getCFilters e t a b).1 := by
  refine .of_quiet (quiet_getCFilters e t m a b) fun k hk => ?_
  unfold Mgr.getCFilters
  split
  · exact hk
  · split
    · exact hk
    · split
      · simp only
        rw [askFilters_rescan]
        exact ((C28_requests t m.rescan a b).2.2.1 k).2 (.inl hk)
      · exact hk

variable (p : Params)

theorem still_sync {E : Type} (e : Env) (t : Tree) (m m' : Mgr) (h : (m.sync p e t : Res E Mgr) = .ok m') : Still m m' := by
  unfold Mgr.sync at h
  split at h
  · split at h
    · cases h; exact .refl m
    · rw [Res.bind_eq_ok] at h
      obtain ⟨m1, h1, h2⟩ := h
      have e1 : Still m m1 := by
        split at h1
        · unfold Mgr.sendGetCFHeaders at h1
          split at h1
          · split at h1
            · cases h1
            · cases h1; exact .refl m
          · simp only at h1
            split at h1
            · cases h1
            · cases h1; exact still_getCFHeaders _ _ _ _
        · cases h1; exact .refl m
      split at h2
      · split at h2
        · cases h2
        · rename_i q _ hq
          cases h2
          have := still_getCFilters e t m1 m1.rescan.current m1.filters.height
          rw [hq] at this
          exact e1.trans this
      · cases h2; exact e1
  · cases h

theorem still_idle {E : Type} (e : Env) (t : Tree) (m m' : Mgr) (h : (m.idle p e t : Res E Mgr) = .ok m') : Still m m' := by
  unfold Mgr.idle at h
  split at h
  · rw [Res.bind_eq_ok] at h
    obtain ⟨m1, h1, h2⟩ := h
    cases h2
    exact (still_sync p e t m m1 h1).trans (.same rfl rfl)
  · cases h; exact .refl m

theorem still_expire (e : Env) : ∀ (ks : List Nat) (m : Mgr), Still m (Mgr.expire e ks m)
  | [], m => .refl m
  | stop :: ks, m => by
    unfold Mgr.expire
    split
    · exact still_expire e ks m
    · split
      · split
        · exact still_expire e ks m
        · simp only
          refine Still.trans ?_ (still_expire e ks _)
          split <;> exact .same rfl rfl
      · exact still_expire e ks m

theorem still_headersImported (e : Env) (t : Tree) (m : Mgr) (a b : Nat) : Still m (m.headersImported e t a b).1 := by
  unfold Mgr.headersImported
  split
  · exact .refl m
  · simp only
    split
    · exact .refl m
    · exact still_getCFilters e t m _ _

theorem still_receivedCFHeaders (e : Env) (t : Tree) (m : Mgr) (msg : CFHeadersMsg) : Still m (m.receivedCFHeaders p e t msg).1 := by
  have hs : ∀ m1 : Mgr, m1.rescan = m.rescan → m1.lastProcessed = m.lastProcessed → Still m m1 := fun _ => .same
  generalize hq : m.receivedCFHeaders p e t msg = q
  unfold Mgr.receivedCFHeaders at hq
  split at hq
  · subst hq; exact hs _ rfl rfl
  · simp only at hq
    split at hq
    · subst hq; exact hs _ rfl rfl
    · split at hq
      · subst hq; exact hs _ rfl rfl
      · split at hq
        · subst hq; exact hs _ rfl rfl
        · split at hq
          · subst hq; exact hs _ rfl rfl
          · split at hq
            · subst hq; exact hs _ rfl rfl
            · split at hq
              · subst hq; exact hs _ rfl rfl
              · split at hq
                · subst hq; exact hs _ rfl rfl
                · split at hq
                  · subst hq; exact hs _ rfl rfl
                  · split at hq
                    · rename_i f height hi
                      have x := (hs { m with inflight := m.inflight.erase msg.stop, filters := f } rfl rfl).trans
                        (still_headersImported e t { m with inflight := m.inflight.erase msg.stop, filters := f } m.filters.height height)
                      split at hq
                      · rename_i m2 heq
                        simp only [heq] at x
                        split at hq
                        · split at hq
                          · subst hq; exact x.trans (.same rfl rfl)
                          · split at hq
                            · rename_i m3 hs3
                              subst hq
                              exact x.trans (still_sync p e t _ _ hs3)
                            · subst hq; exact x
                            · subst hq; exact x
                        · subst hq; exact x
                      · rename_i m2 r hne heq
                        simp only [heq] at x
                        subst hq; exact x
                    · subst hq; exact hs _ rfl rfl

/-- Calls other than the timer, filters, a new rescan and re-orgs do not scan. -/
theorem still_step (e : Env) (t : Tree) (m m' : Mgr) (op : Op) (h : m.step p e t op = .ok m') (hp : op.plain = true)
    (h1 : op ≠ .timer) (h2 : ∀ a ft b f, op ≠ .cfilter a ft b f) : Still m m' := by
  cases op with
  | init => exact still_idle p e t m m' h
  | peerNegotiated addr ob hf pers =>
    simp only [Mgr.step] at h
    split at h
    · cases h; exact .refl _
    · split at h
      · cases h; exact .refl _
      · exact Still.trans (b := { m with peers := m.peers.insert addr pers }) (.same rfl rfl) (still_sync p e t _ m' h)
  | peerDisconnected addr => cases h; exact .same rfl rfl
  | blockProcessed block height =>
    simp only [Mgr.step] at h
    split at h
    · cases h; exact .same rfl rfl
    · cases h; exact .refl _
  | blockDisconnected height => cases h; exact .same rfl rfl
  | headersImported reverted =>
    have : reverted = [] := by simpa [Op.plain] using hp
    subst this
    exact still_sync p e t m m' h
  | txConfirmed txid => cases h; exact ⟨rfl, rfl, rfl, rfl, rfl, fun _ h => .inl h, fun _ h => h, fun _ h => h⟩
  | txReverted txid scripts => cases h; exact ⟨rfl, rfl, rfl, rfl, rfl, fun _ h => .inl h, fun _ h => h, fun _ h => h⟩
  | cfheaders peer msg =>
    have x := still_receivedCFHeaders p e t m msg
    simp only [Mgr.step] at h
    generalize m.receivedCFHeaders p e t msg = g at h x
    obtain ⟨g1, g2⟩ := g
    cases g2 with
    | ok n => cases h; exact x
    | err er => cases er <;> cases h <;> exact x.trans (.same rfl rfl)
    | panic => cases h
  | getcfheaders peer ft start stop =>
    have hcc := receivedGetCFHeaders_frame p t m peer ft start stop
    simp only [Mgr.step] at h
    generalize m.receivedGetCFHeaders p t peer ft start stop = g at h hcc
    obtain ⟨g1, g2⟩ := g
    have x : Still m g1 := by
      rcases hcc with rfl | ⟨_, _, rfl⟩ <;> exact .same rfl rfl
    cases g2 with
    | ok n => cases h; exact x
    | err er => cases er <;> cases h <;> exact x.trans (.same rfl rfl)
    | panic => cases h
  | cfilter peer ft block f => exact absurd rfl (h2 peer ft block f)
  | timer => exact absurd rfl h1
  | watch scripts => cases h; exact ⟨rfl, rfl, rfl, rfl, rfl, fun _ h => .inl h, fun _ h => h, fun _ h => h⟩
  | watchTransaction txid scripts => cases h; exact ⟨rfl, rfl, rfl, rfl, rfl, fun _ h => .inl h, fun _ h => h, fun _ h => h⟩
  | rescan a b w => simp [Op.plain] at hp
  | getCFilters a b =>
    have x := still_getCFilters e t m a b
    simp only [Mgr.step] at h
    generalize m.getCFilters e t a b = g at h x
    obtain ⟨g1, g2⟩ := g
    cases g2 with
    | ok n => cases h; exact x
    | err er => cases h; exact x
    | panic => cases h

/-- The timer, before the request timeout. -/
theorem still_timer (e : Env) (t : Tree) (m m' : Mgr) (h : m.step p e t .timer = .ok m')
    (hl : ¬ requestTimeout ≤ e.now - m.lastProcessed.getD 0) : Still m m' := by
  simp only [Mgr.step, Mgr.timerExpired] at h
  rw [Res.bind_eq_ok] at h
  obtain ⟨m1, h1, h2⟩ := h
  have x := (still_idle p e t m m1 h1).trans (still_expire e (e.order m1.inflight.keys) m1)
  generalize Mgr.expire e (e.order m1.inflight.keys) m1 = m2 at h2 x
  rw [if_neg (by rw [x.lastProcessed]; exact hl)] at h2
  cases h2
  exact x

/-- An unfinished rescan without end; the next filter to scan is not queued, and filters in the cache were queued before. -/
structure Runs (m : Mgr) : Prop where
  active : m.rescan.active = true
  stop : m.rescan.end = none
  next : m.rescan.received.get m.rescan.current = none
  cached : ∀ k, m.rescan.current ≤ k → (m.rescan.cache.get k).isSome → (m.rescan.received.get k).isSome

theorem Runs.of_still {m m' : Mgr} (r : Runs m) (s : Still m m') : Runs m' where
  active := s.active.trans r.active
  stop := s.stop.trans r.stop
  next := by
    rw [s.current]
    cases h : m'.rescan.received.get m.rescan.current with
    | none => rfl
    | some x =>
      rcases s.queued m.rescan.current (by rw [h]; rfl) with h | h
      · rw [r.next] at h; cases h
      · have := r.cached _ (Nat.le_refl _) h
        rw [r.next] at this; cases this
  cached k hk hc := by
    rw [s.current] at hk
    rw [s.cache] at hc
    exact s.kept k (r.cached k hk hc)

theorem Runs.missing {m : Mgr} (r : Runs m) : m.rescan.cache.get m.rescan.current = none := by
  cases h : m.rescan.cache.get m.rescan.current with
  | none => rfl
  | some x =>
    have := r.cached _ (Nat.le_refl _) (by rw [h]; rfl)
    rw [r.next] at this; cases this

theorem runs_timer {e : Env} {t : Tree} {m m' : Mgr} (r : Runs m) (h : m.step p e t .timer = .ok m') :
    Runs m' ∧ m'.lastProcessed = m.lastProcessed := by
  have q := quiet_timerExpired p e t m m' h
  refine ⟨⟨by rw [q.rescan]; exact r.active, by rw [q.rescan]; exact r.stop, ?_, ?_⟩, q.lastProcessed⟩
  · have hc : m'.rescan.current = m.rescan.current := by rw [q.rescan]
    rw [hc]
    cases h : m'.rescan.received.get m.rescan.current with
    | none => rfl
    | some x =>
      rcases q.queued _ _ h with h | ⟨h, -⟩
      · rw [r.next] at h; cases h
      · rw [r.missing] at h; cases h
  · intro k hk hc
    rw [q.rescan] at hk hc
    exact q.kept k (r.cached k hk hc)

theorem runs_cfilter {e : Env} {t : Tree} {m m' : Mgr} (r : Runs m) (hc : CacheOK List.length m.rescan.cache) {a ft b : Nat} {f : Filter}
    (h : m.step p e t (.cfilter a ft b f) = .ok m') :
    Runs m' ∧ (m'.rescan.current = m.rescan.current → m'.lastProcessed = m.lastProcessed) ∧
    (m'.rescan.current = m.rescan.current → m.rescan.current ∈ m.rescan.requested → m.rescan.current ∈ m'.rescan.requested) := by
  have hcs := receivedCFilter_cases p e t m a ft b f
  simp only [Mgr.step] at h
  generalize m.receivedCFilter p e t a ft b f = g at h hcs
  have key : ∀ m1 : Mgr, Still m m1 → Runs m1 ∧ (m1.rescan.current = m.rescan.current → m1.lastProcessed = m.lastProcessed) ∧
      (m1.rescan.current = m.rescan.current → m.rescan.current ∈ m.rescan.requested → m.rescan.current ∈ m1.rescan.requested) :=
    fun m1 s => ⟨r.of_still s, fun _ => s.lastProcessed, fun _ h => s.asked _ h⟩
  cases hcs with
  | ignored hi => cases h; exact key _ (.refl _)
  | invalid hh h0 h1 h2 h3 => cases h; exact key _ (.same rfl rfl)
  | unsolicited hh h0 h1 h2 h3 =>
    cases h
    have hf := (afterFilter_frame [] (m.emit [.event (.filterReceived a b hh f)])).1
    exact key _ (.same (by rw [hf]; rfl) (by rw [hf]; rfl))
  | scanned hh cc r1 ms es n h0 h1 h2 h3 h4 h5 =>
    cases h
    have hf := (afterFilter_frame ms { m with rescan := r1, lastProcessed := if 0 < n then some e.now else m.lastProcessed, out := m.out ++ Out.event (Ev.filterReceived a b hh f) :: es.map Out.event }).1
    generalize Mgr.afterFilter { m with rescan := r1, lastProcessed := if 0 < n then some e.now else m.lastProcessed, out := m.out ++ Out.event (Ev.filterReceived a b hh f) :: es.map Out.event } ms = m' at hf ⊢
    have hr : m'.rescan = r1 := by rw [hf]
    have hl : m'.lastProcessed = if 0 < n then some e.now else m.lastProcessed := by rw [hf]
    obtain ⟨n', r', ms', es', stop', k0, k1, k2, k3, -, -, -, -, k4, k6, k5⟩ := C29_process p { m.rescan with
      requested := m.rescan.requested.filter (· ≠ hh), cache := cc.2, received := m.rescan.received.insert hh (f, b, false) }
    rw [k0] at h5
    simp only [Prod.mk.injEq] at h5
    obtain ⟨rfl, rfl, rfl, rfl⟩ := h5
    simp only at k1 k2 k3 k4 k5 k6
    rw [hr]
    refine ⟨⟨?_, ?_, ?_, ?_⟩, fun hcur => ?_, fun hcur hreq => ?_⟩
    · rw [hr]
      rcases k6 with ⟨-, h, -⟩ | ⟨-, -, h⟩
      · rw [h]; exact r.active
      · rw [r.stop] at h; cases h
    · rw [hr, k5]; exact r.stop
    · rw [hr, k4, if_neg (by omega), k1]; exact k3
    · rw [hr]
      intro k hk hck
      rw [k4, if_neg (by omega), AMap.get_insert]
      by_cases hkh : hh = k
      · rw [if_pos hkh]; rfl
      · rw [if_neg hkh]
        have hcc : r'.cache = cc.2 := by rw [k5]
        rw [hcc] at hck
        obtain ⟨g, hg⟩ := Option.isSome_iff_exists.1 hck
        rcases (push_cacheOK hc h4).2 k g hg with h | h
        · exact r.cached k (by omega) (by rw [h]; rfl)
        · exact absurd h.1.symm hkh
    · rw [hl, if_neg (by omega)]
    · rw [show r'.requested = m.rescan.requested.filter (· ≠ hh) by rw [k5], List.mem_filter]
      refine ⟨hreq, ?_⟩
      have hne : m.rescan.current ≠ hh := by
        intro heq
        have hz : n' = 0 := by omega
        rw [hz, Nat.add_zero, AMap.get_insert, if_pos heq.symm] at k3
        cases k3
      simpa using hne
  | panicked m' hh => cases h

/-- A call that neither starts a rescan nor reports a re-org. -/
theorem runs_step {e : Env} {t : Tree} {m m' : Mgr} {op : Op} (r : Runs m) (hc : CacheOK List.length m.rescan.cache) (h : m.step p e t op = .ok m')
    (hp : op.plain = true) : Runs m' ∧ (m'.rescan.current = m.rescan.current → m'.lastProcessed = m.lastProcessed) := by
  by_cases h1 : op = .timer
  · subst h1
    have := runs_timer p r h
    exact ⟨this.1, fun _ => this.2⟩
  · by_cases h2 : ∃ a ft b f, op = .cfilter a ft b f
    · obtain ⟨a, ft, b, f, rfl⟩ := h2
      have := runs_cfilter p r hc h
      exact ⟨this.1, this.2.1⟩
    · have s := still_step p e t m m' op h hp h1 (fun a ft b f h => h2 ⟨a, ft, b, f, h⟩)
      exact ⟨r.of_still s, fun _ => s.lastProcessed⟩

/-- The filter asked for stays asked for until it is scanned. -/
theorem asked_step {e : Env} (hfair : e.Fair) {t : Tree} {m m' : Mgr} {op : Op} (r : Runs m) (hs : Sound t m) (hpe : m.peers ≠ []) (hle : m.rescan.current ≤ m.filters.height)
    (h : m.step p e t op = .ok m') (hp : op.plain = true) (hcur : m'.rescan.current = m.rescan.current) (hreq : m.rescan.current ∈ m.rescan.requested) :
    m.rescan.current ∈ m'.rescan.requested := by
  by_cases h1 : op = .timer
  · subst h1
    by_cases hl : requestTimeout ≤ e.now - m.lastProcessed.getD 0
    · obtain ⟨-, -, -, -, h5, -⟩ := timer_asks p hfair hs r.active hpe hle hl h
      exact h5 _ (Nat.le_refl _) hle r.next r.missing
    · exact (still_timer p e t m m' h hl).asked _ hreq
  · by_cases h2 : ∃ a ft b f, op = .cfilter a ft b f
    · obtain ⟨a, ft, b, f, rfl⟩ := h2
      exact (runs_cfilter p r hs.cacheOK h).2.2 hcur hreq
    · exact (still_step p e t m m' op h hp h1 (fun a ft b f h => h2 ⟨a, ft, b, f, h⟩)).asked _ hreq

/-- A rescan without end starts: no filter from the start on is in memory. -/
theorem runs_rescan {e : Env} {t : Tree} {m m' : Mgr} {first : Bound} {w : List Nat} (h : m.step p e t (.rescan first .unbounded w) = .ok m')
    (hm : ∀ k, first.first t ≤ k → m.rescan.received.get k = none ∧ m.rescan.cache.get k = none) :
    Runs m' ∧ m'.rescan.current = first.first t ∧ processedHeights m'.out = processedHeights m.out ∧
    ∀ k, first.first t ≤ k → m'.rescan.received.get k = none := by
  have hcs := startRescan_cases p e t m first .unbounded w
  simp only [Mgr.step] at h
  generalize m.startRescan p e t first .unbounded w = g at h hcs
  cases hcs with
  | panicked m' => cases h
  | nothing stop hst =>
    cases h
    cases hst
    refine ⟨⟨rfl, rfl, (hm _ (Nat.le_refl _)).1, ?_⟩, rfl, ?_⟩
    · intro k hk hc
      have : (m.rescan.cache.get k).isSome := hc
      rw [(hm k hk).2] at this
      cases this
    · refine ⟨?_, fun k hk => (hm k hk).1⟩
      simp [Mgr.emit, processedHeights_append]
      rfl
  | processed stop m1 r ms es n hst q hpr =>
    cases h
    cases hst
    obtain ⟨n', r', ms', es', stop', k0, k1, k2, k3, k7, -, -, -, k4, k6, k5⟩ := C29_process p m1.rescan
    rw [k0] at hpr
    simp only [Prod.mk.injEq] at hpr
    obtain ⟨rfl, rfl, rfl, rfl⟩ := hpr
    have hcur : m1.rescan.current = first.first t := by rw [q.rescan]; rfl
    have hcache : m1.rescan.cache = m.rescan.cache := by rw [q.rescan]; rfl
    have hnone : ∀ k, first.first t ≤ k → m1.rescan.received.get k = none := by
      intro k hk
      cases h : m1.rescan.received.get k with
      | none => rfl
      | some x =>
        rcases q.queued _ _ h with h | ⟨h, -⟩
        · have h' : m.rescan.received.get k = some x := h
          rw [(hm k hk).1] at h'; cases h'
        · have h' : m.rescan.cache.get k = some x.1 := h
          rw [(hm k hk).2] at h'; cases h'
    have hn : n' = 0 := by
      apply Classical.byContradiction
      intro h0
      have := k2 0 (by omega)
      rw [Nat.add_zero, hnone _ (by omega)] at this
      cases this
    subst hn
    have hend : m1.rescan.end = none := by rw [q.rescan]; rfl
    have hact : m1.rescan.active = true := by rw [q.rescan]; rfl
    have hes : es' = [] := List.eq_nil_of_length_eq_zero k7
    subst hes
    rcases k6 with ⟨rfl, h, -⟩ | ⟨-, -, h⟩
    swap
    · rw [hend] at h; cases h
    refine ⟨⟨by simp only [Mgr.emit]; rw [h]; exact hact, by simp only [Mgr.emit]; rw [k5]; exact hend, ?_, ?_⟩, by simp only [Mgr.emit]; omega, ?_⟩
    · simp only [Mgr.emit]
      rw [k4, if_neg (by omega)]
      exact hnone _ (by omega)
    · simp only [Mgr.emit]
      intro k hk hc
      rw [show r'.cache = m.rescan.cache by rw [k5]; exact hcache, (hm k (by omega)).2] at hc
      cases hc
    · refine ⟨?_, fun k hk => by simp only [Mgr.emit]; rw [k4, if_neg (by omega)]; exact hnone k hk⟩
      obtain ⟨o, h1, h2, -⟩ := q.out
      simp only [Mgr.emit, h1, List.append_nil, List.map_nil, processedHeights_append]
      have e1 : processedHeights o = [] := by simp [processedHeights, h2]
      have e2 : processedHeights (ms'.map (fun x => Out.getBlock x.2)) = [] := by
        have := eventsOf_getBlocks (ms'.map (·.2))
        rw [List.map_map] at this
        unfold processedHeights
        rw [show (List.map (fun x => Out.getBlock x.2) ms') = ms'.map (Out.getBlock ∘ (·.2)) from rfl, this]
        rfl
      rw [e1, e2]
      simp
      rfl

end Verif.Cbf
