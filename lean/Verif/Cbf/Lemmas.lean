import Verif.Cbf.PropsRescan

/-!
# Lemmas about the filter manager: what its internal functions leave alone
-/

set_option autoImplicit false

namespace Verif.Cbf

/-- `m'` comes from `m` by steps that only send messages, set timers, disconnect, keep track of requests and peers, and queue
cached filters (with the block hash of the tree `t`). -/
structure Quiet (t : Tree) (m m' : Mgr) : Prop where
  filters : m'.filters = m.filters
  pending : m'.pending = m.pending
  lastProcessed : m'.lastProcessed = m.lastProcessed
  rescan : m'.rescan = { m.rescan with requested := m'.rescan.requested, received := m'.rescan.received }
  out : ∃ o, m'.out = m.out ++ o ∧ eventsOf o = [] ∧ ∀ x ∈ o, ∀ k, x ≠ .getBlock k
  queued : ∀ h x, m'.rescan.received.get h = some x →
    m.rescan.received.get h = some x ∨ (m.rescan.cache.get h = some x.1 ∧ t.byHeight h = some x.2.1)
  kept : ∀ h, (m.rescan.received.get h).isSome → (m'.rescan.received.get h).isSome

theorem eventsOf_append (a b : List Out) : eventsOf (a ++ b) = eventsOf a ++ eventsOf b := by
  simp [eventsOf]

theorem processedHeights_append (a b : List Out) : processedHeights (a ++ b) = processedHeights a ++ processedHeights b := by
  simp [processedHeights, eventsOf_append]

theorem Quiet.refl (t : Tree) (m : Mgr) : Quiet t m m :=
  ⟨rfl, rfl, rfl, rfl, ⟨[], by simp [eventsOf]⟩, fun _ _ h => Or.inl h, fun _ h => h⟩

theorem Quiet.trans {t : Tree} {a b c : Mgr} (h1 : Quiet t a b) (h2 : Quiet t b c) : Quiet t a c := by
  obtain ⟨o1, e1, e2, e3⟩ := h1.out
  obtain ⟨o2, f1, f2, f3⟩ := h2.out
  have hc : b.rescan.cache = a.rescan.cache := by rw [h1.rescan]
  refine ⟨h2.filters.trans h1.filters, h2.pending.trans h1.pending, h2.lastProcessed.trans h1.lastProcessed, ?_,
    ⟨o1 ++ o2, by rw [f1, e1, List.append_assoc], by rw [eventsOf_append, e2, f2]; rfl, ?_⟩, ?_,
    fun h hh => h2.kept h (h1.kept h hh)⟩
  · rw [h2.rescan, h1.rescan]
  · intro x hx
    rcases List.mem_append.1 hx with hx | hx
    · exact e3 x hx
    · exact f3 x hx
  · intro h x hx
    rcases h2.queued h x hx with h' | ⟨h', h''⟩
    · exact h1.queued h x h'
    · rw [hc] at h'; exact Or.inr ⟨h', h''⟩

/-- Changing only peers, in-flight requests or the idle time, and appending quiet outputs. -/
theorem Quiet.mk' (t : Tree) (m m' : Mgr) (o : List Out) (hf : m'.filters = m.filters) (hp : m'.pending = m.pending)
    (hl : m'.lastProcessed = m.lastProcessed) (hr : m'.rescan = m.rescan) (ho : m'.out = m.out ++ o)
    (he : eventsOf o = []) (hb : ∀ x ∈ o, ∀ k, x ≠ .getBlock k) : Quiet t m m' :=
  ⟨hf, hp, hl, by rw [hr], ⟨o, ho, he, hb⟩, fun _ _ h => Or.inl (by rwa [hr] at h), fun _ h => by rwa [hr]⟩

theorem quiet_getCFHeaders (e : Env) (t : Tree) (m : Mgr) (start stop : Nat) : Quiet t m (m.getCFHeaders e start stop) := by
  unfold Mgr.getCFHeaders
  split
  · exact Quiet.refl t m
  · split
    · exact Quiet.mk' t _ _ [_, _] rfl rfl rfl rfl rfl rfl (by simp)
    · exact Quiet.refl t m

theorem quiet_askFilters (t : Tree) (peers : List Nat) : ∀ (rs : List (Nat × Nat)) (i : Nat) (m : Mgr),
    Quiet t m (Mgr.askFilters t peers i m rs).1
  | [], i, m => by simpa [Mgr.askFilters] using Quiet.refl t m
  | (a, b) :: rs, i, m => by
    unfold Mgr.askFilters
    split
    · exact Quiet.refl t m
    · split
      · exact Quiet.refl t m
      · refine Quiet.trans ?_ (quiet_askFilters t peers rs (i + 1) _)
        exact Quiet.mk' t _ _ [_, _] rfl rfl rfl rfl rfl rfl (by simp)

theorem quiet_getCFilters (e : Env) (t : Tree) (m : Mgr) (start stop : Nat) :
    Quiet t m (m.getCFilters e t start stop).1 := by
  unfold Mgr.getCFilters
  split
  · exact Quiet.refl t m
  · split
    · exact Quiet.refl t m
    · split
      · refine Quiet.trans ?_ (quiet_askFilters t _ _ 0 _)
        obtain ⟨_, _, _, h4, h5⟩ := C28_requests t m.rescan start stop
        refine ⟨rfl, rfl, rfl, h5, ⟨[], by simp [eventsOf]⟩, ?_, ?_⟩
        · intro h x hx
          have hx' : (m.rescan.requests t start stop).2.received.get h = some x := hx
          rw [h4] at hx'
          split at hx'
          · rename_i hc
            rw [Option.bind_eq_some_iff] at hx'
            obtain ⟨f, hf, hx'⟩ := hx'
            rw [Option.map_eq_some_iff] at hx'
            obtain ⟨b, hb, rfl⟩ := hx'
            exact Or.inr ⟨hf, hb⟩
          · exact Or.inl hx'
        · intro h hh
          show ((m.rescan.requests t start stop).2.received.get h).isSome
          rw [h4]
          split
          · rename_i hc
            have := hc.2
            unfold Cached at this
            cases hx : m.rescan.cache.get h <;> cases hy : t.byHeight h <;> simp [hx, hy] at this ⊢
          · exact hh
      · exact Quiet.refl t m

theorem quiet_sendGetCFHeaders {E : Type} (p : Params) (e : Env) (t : Tree) (m m' : Mgr) (start stop : Nat)
    (h : (m.sendGetCFHeaders p e t start stop : Res E Mgr) = .ok m') : Quiet t m m' := by
  unfold Mgr.sendGetCFHeaders at h
  split at h
  · split at h
    · cases h
    · cases h; exact Quiet.refl t m
  · simp only at h
    split at h
    · cases h
    · cases h; exact quiet_getCFHeaders e t m _ _

theorem quiet_sync {E : Type} (p : Params) (e : Env) (t : Tree) (m m' : Mgr)
    (h : (m.sync p e t : Res E Mgr) = .ok m') : Quiet t m m' := by
  unfold Mgr.sync at h
  split at h
  · split at h
    · cases h; exact Quiet.refl t m
    · rw [Res.bind_eq_ok] at h
      obtain ⟨m1, h1, h2⟩ := h
      have q1 : Quiet t m m1 := by
        split at h1
        · exact quiet_sendGetCFHeaders p e t m m1 _ _ h1
        · cases h1; exact Quiet.refl t m
      refine q1.trans ?_
      split at h2
      · have q2 := quiet_getCFilters e t m1 m1.rescan.current m1.filters.height
        generalize m1.getCFilters e t m1.rescan.current m1.filters.height = g at h2 q2
        obtain ⟨g1, g2⟩ := g
        cases g2 <;> simp at h2 <;> (subst h2; exact q2)
      · cases h2; exact Quiet.refl t _
  · cases h

theorem quiet_idle {E : Type} (p : Params) (e : Env) (t : Tree) (m m' : Mgr)
    (h : (m.idle p e t : Res E Mgr) = .ok m') : Quiet t m m' := by
  unfold Mgr.idle at h
  split at h
  · rw [Res.bind_eq_ok] at h
    obtain ⟨m1, h1, h2⟩ := h
    cases h2
    exact (quiet_sync p e t m m1 h1).trans (Quiet.mk' t _ _ [_] rfl rfl rfl rfl rfl rfl (by simp))
  · cases h; exact Quiet.refl t m

theorem quiet_expire (e : Env) (t : Tree) : ∀ (ks : List Nat) (m : Mgr), Quiet t m (Mgr.expire e ks m)
  | [], m => by simpa [Mgr.expire] using Quiet.refl t m
  | k :: ks, m => by
    unfold Mgr.expire
    split
    · exact quiet_expire e t ks m
    · split
      · split
        · exact quiet_expire e t ks m
        · refine Quiet.trans ?_ (quiet_expire e t ks _)
          split
          · exact Quiet.mk' t _ _ [_, _, _] rfl rfl rfl rfl (by simp only [Mgr.emit, List.append_assoc]; rfl) rfl (by simp)
          · exact Quiet.mk' t _ _ [_, _] rfl rfl rfl rfl (by simp only [Mgr.emit]; rfl) rfl (by simp)
      · exact quiet_expire e t ks m

theorem quiet_timerExpired {E : Type} (p : Params) (e : Env) (t : Tree) (m m' : Mgr)
    (h : (m.timerExpired p e t : Res E Mgr) = .ok m') : Quiet t m m' := by
  unfold Mgr.timerExpired at h
  rw [Res.bind_eq_ok] at h
  obtain ⟨m1, h1, h2⟩ := h
  have q1 := (quiet_idle p e t m m1 h1).trans (quiet_expire e t (e.order m1.inflight.keys) m1)
  generalize Mgr.expire e (e.order m1.inflight.keys) m1 = m2 at h2 q1
  simp only at h2
  split at h2
  · split at h2
    · refine q1.trans ?_
      have q0 : Quiet t m2 { m2 with rescan := m2.rescan.reset } :=
        ⟨rfl, rfl, rfl, rfl, ⟨[], by simp [eventsOf]⟩, fun _ _ h => Or.inl h, fun _ h => h⟩
      refine q0.trans ?_
      have q2 := quiet_getCFilters e t { m2 with rescan := m2.rescan.reset } m2.rescan.reset.current m2.filters.height
      generalize Mgr.getCFilters e t { m2 with rescan := m2.rescan.reset } m2.rescan.reset.current m2.filters.height = g
        at h2 q2
      obtain ⟨g1, g2⟩ := g
      cases g2 <;> simp at h2 <;> (subst h2; exact q2)
    · cases h2; exact q1
  · cases h2; exact q1

theorem quiet_headersImported (e : Env) (t : Tree) (m : Mgr) (start stop : Nat) :
    Quiet t m (m.headersImported e t start stop).1 := by
  unfold Mgr.headersImported
  split
  · exact Quiet.refl t m
  · simp only
    split
    · exact Quiet.refl t m
    · exact quiet_getCFilters e t m _ _

end Verif.Cbf
