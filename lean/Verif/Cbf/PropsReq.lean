import Verif.Cbf.PropsSafe

/-!
# Properties C25, C61, C63, C65: requests the filter manager sends, and what becomes of matches
-/

set_option autoImplicit false

namespace Verif.Cbf

variable (p : Params)

/-! ## C65: requests are well formed -/

/-- A request that makes sense: it goes to an allowed peer.  Headers are asked for from just above our own filter-header tip
(at height `H`), at most 2000 of them, up to a block of the active chain — or the request repeats an earlier one.  Filters are
asked for in non-empty ranges of at most 1000, up to a block of the active chain not above our filter-header tip.  Start
heights are sent in 32 bits.  Peers are disconnected only for a reason (`disc`). -/
def GoodRequest (t : Tree) (H : Nat) (allowed : Nat → Prop) (again : Nat → Nat → Prop) (disc : Nat → Prop) : Out → Prop
  | .getCFHeaders peer s stop => allowed peer ∧ ((∃ k, s = (H + 1) % 2 ^ 32 ∧ t.hashes[k]? = some stop ∧
      H + 1 ≤ k ∧ k < H + 1 + 2000) ∨ again s stop)
  | .getCFilters peer s stop => allowed peer ∧ ∃ a k, s = a % 2 ^ 32 ∧ t.hashes[k]? = some stop ∧
      a ≤ k ∧ k < a + 1000 ∧ k ≤ H
  | .disconnect peer => disc peer
  | _ => True

/-- Every request kept track of was sent. -/
def Logged (m : Mgr) : Prop :=
  ∀ stop s a x, m.inflight.get stop = some (s, a, x) → Out.getCFHeaders a (s % 2 ^ 32) stop ∈ m.out

theorem Logged.mono {m m' : Mgr} (h : Logged m) (h1 : m'.inflight = m.inflight) (o : List Out) (h2 : m'.out = m.out ++ o) :
    Logged m' := by
  intro stop s a x hx
  rw [h2]
  exact List.mem_append_left _ (h stop s a x (h1 ▸ hx))

/-- From `m` to `m'` only good requests are sent; the peers stay allowed ones; requests kept track of are old ones or expire
after time `N`. -/
def Sends (N : Nat) (t : Tree) (H : Nat) (allowed : Nat → Prop) (again : Nat → Nat → Prop) (disc : Nat → Prop)
    (m m' : Mgr) : Prop :=
  ((∀ k ∈ m.peers.keys, allowed k) → m.filters.height = H →
    (∀ k ∈ m'.peers.keys, allowed k) ∧ m'.filters.height = H ∧
    ∃ o, m'.out = m.out ++ o ∧ ∀ x ∈ o, GoodRequest t H allowed again disc x) ∧ (Logged m → Logged m') ∧
  (∀ stop s a x, m'.inflight.get stop = some (s, a, x) → x ≤ N → m.inflight.get stop = some (s, a, x)) ∧
  (∀ x ∈ m'.peers, x ∈ m.peers)

section
variable {N : Nat} {t : Tree} {H : Nat} {allowed : Nat → Prop} {again : Nat → Nat → Prop} {disc : Nat → Prop}

theorem Sends.refl (m : Mgr) : Sends N t H allowed again disc m m := ⟨fun h h' => ⟨h, h', [], by simp⟩, id, fun _ _ _ _ h _ => h, fun _ h => h⟩

theorem Sends.trans {a b c : Mgr} (h1 : Sends N t H allowed again disc a b) (h2 : Sends N t H allowed again disc b c) :
    Sends N t H allowed again disc a c := by
  refine ⟨?_, h2.2.1 ∘ h1.2.1, fun _ _ _ _ h h' => h1.2.2.1 _ _ _ _ (h2.2.2.1 _ _ _ _ h h') h',
    fun x h => h1.2.2.2 x (h2.2.2.2 x h)⟩
  intro h hH
  obtain ⟨h3, h4, o1, h5, h6⟩ := h1.1 h hH
  obtain ⟨h7, h8, o2, h9, h10⟩ := h2.1 h3 h4
  refine ⟨h7, h8, o1 ++ o2, by rw [h9, h5, List.append_assoc], ?_⟩
  intro x hx
  rcases List.mem_append.1 hx with hx | hx
  · exact h6 x hx
  · exact h10 x hx

theorem Sends.same {m m' : Mgr} (o : List Out) (h1 : m'.peers = m.peers) (h2 : m'.filters = m.filters)
    (h5 : m'.inflight = m.inflight) (h3 : m'.out = m.out ++ o) (h4 : ∀ x ∈ o, GoodRequest t H allowed again disc x) :
    Sends N t H allowed again disc m m' :=
  ⟨fun h h' => ⟨h1 ▸ h, h2 ▸ h', o, h3, h4⟩, fun h => h.mono h5 o h3, fun _ _ _ _ h _ => h5 ▸ h, fun _ h => h1 ▸ h⟩

theorem sends_askFilters (peers : List Nat) (hp : ∀ k ∈ peers, allowed k) : ∀ (rs : List (Nat × Nat)) (i : Nat) (m : Mgr),
    (∀ x ∈ rs, x.1 ≤ x.2 ∧ x.2 < x.1 + 1000 ∧ x.2 ≤ H) → Sends N t H allowed again disc m (Mgr.askFilters t peers i m rs).1
  | [], i, m, _ => by simpa [Mgr.askFilters] using Sends.refl m
  | (a, b) :: rs, i, m, h => by
    unfold Mgr.askFilters
    split
    · exact Sends.refl m
    · rename_i peer hpeer
      split
      · exact Sends.refl m
      · rename_i stop hb
        refine Sends.trans ?_ (sends_askFilters peers hp rs (i + 1) _ (fun x hx => h x (by simp [hx])))
        refine Sends.same [_, _] rfl rfl rfl rfl ?_
        intro x hx
        simp only [List.mem_cons, List.not_mem_nil, or_false] at hx
        rcases hx with rfl | rfl
        · obtain ⟨h1, h2, h3⟩ := h (a, b) (by simp)
          exact ⟨hp peer (List.mem_of_getElem? hpeer), a, b, rfl, hb, h1, h2, h3⟩
        · trivial

variable (e : Env) (hfair : e.Fair)
include hfair

theorem sends_getCFHeaders (m : Mgr) (start stop k : Nat) (hs : start = H + 1) (hk : t.hashes[k]? = some stop) (h1 : start ≤ k)
    (h2 : k < start + 2000) : Sends e.now t H allowed again disc m (m.getCFHeaders e start stop) := by
  unfold Mgr.getCFHeaders
  split
  · exact Sends.refl m
  · split
    · rename_i peer pers hpk
      refine ⟨?_, ?_, ?_, fun _ h => h⟩
      rotate_left
      · intro hl stop' s a x hx
        simp only [AMap.get_insert] at hx
        split at hx
        · rename_i heq
          subst heq
          cases hx; simp [Mgr.emit]
        · exact List.mem_append_left _ (hl stop' s a x hx)
      · intro stop' s a x hx hle
        simp only [AMap.get_insert] at hx
        split at hx
        · cases hx; unfold requestTimeout at hle; omega
        · exact hx
      intro h h'
      refine ⟨h, h', [_, _], rfl, ?_⟩
      intro x hx
      simp only [List.mem_cons, List.not_mem_nil, or_false] at hx
      rcases hx with rfl | rfl
      · refine ⟨h peer ?_, Or.inl ⟨k, by rw [hs], hk, by omega, by omega⟩⟩
        exact List.mem_map_of_mem (f := (·.1)) (hfair.pick_mem _ _ _ hpk)
      · trivial
    · exact Sends.refl m

theorem sends_sendGetCFHeaders {E : Type} (m m' : Mgr) (start stop : Nat) (hs : start = H + 1)
    (h : (m.sendGetCFHeaders p e t start stop : Res E Mgr) = .ok m') : Sends e.now t H allowed again disc m m' := by
  unfold Mgr.sendGetCFHeaders at h
  split at h
  · split at h
    · cases h
    · cases h; exact Sends.refl m
  · simp only at h
    split at h
    · cases h
    · rename_i hlt stopHash hb
      cases h
      refine sends_getCFHeaders e hfair m start stopHash _ hs hb ?_ ?_ <;> (unfold maxCFHeaders; omega)

theorem sends_getCFilters (m : Mgr) (a b : Nat) : Sends e.now t H allowed again disc m (m.getCFilters e t a b).1 := by
  unfold Mgr.getCFilters
  split
  · exact Sends.refl m
  · split
    · exact Sends.refl m
    · split
      · rename_i hle
        simp only
        refine ⟨?_, ?_⟩
        swap
        · refine (sends_askFilters (t := t) (H := m.filters.height) (allowed := fun _ => True) (again := again) (disc := disc)
            (e.shuffle m.peers.keys) (by simp) _ 0 { m with rescan := (m.rescan.requests t a b).2 } ?_).2
          intro x hx
          obtain ⟨h1, h2, h3, h4⟩ := (C28_requests t m.rescan a b).2.1 x hx
          omega
        intro h h'
        refine (sends_askFilters (N := e.now) (e.shuffle m.peers.keys) ?_ _ 0 { m with rescan := (m.rescan.requests t a b).2 } ?_).1 h h'
        · intro k hk; exact h k ((hfair.shuffle_perm _).mem_iff.1 hk)
        · intro x hx
          obtain ⟨h1, h2, h3, h4⟩ := (C28_requests t m.rescan a b).2.1 x hx
          omega
      · exact Sends.refl m

theorem sends_sync {E : Type} (m m' : Mgr) (h : (m.sync p e t : Res E Mgr) = .ok m') : Sends e.now t H allowed again disc m m' := by
  suffices hh : ∀ H', m.filters.height = H' → Sends e.now t H' allowed again disc m m' from
    ⟨fun ha hH => (hh H hH).1 ha hH, (hh _ rfl).2⟩
  intro H hH
  have hg : ∀ m1 : Mgr, (if m1.rescan.active = true then
        match m1.getCFilters e t m1.rescan.current m1.filters.height with
        | (_, .panic) => .panic
        | (m, _) => .ok m
      else .ok m1 : Res E Mgr) = .ok m' → Sends e.now t H allowed again disc m1 m' := by
    intro m1 hm
    split at hm
    · have := sends_getCFilters (t := t) (H := H) (allowed := allowed) (again := again) (disc := disc) e hfair m1 m1.rescan.current
        m1.filters.height
      generalize m1.getCFilters e t m1.rescan.current m1.filters.height = g at hm this
      obtain ⟨g1, g2⟩ := g
      cases g2 <;> simp at hm <;> (subst hm; exact this)
    · cases hm; exact Sends.refl _
  unfold Mgr.sync at h
  split at h
  · split at h
    · cases h; exact Sends.refl m
    · rw [Res.bind_eq_ok] at h
      obtain ⟨m1, h1, h2⟩ := h
      refine Sends.trans ?_ (hg m1 h2)
      split at h1
      · exact sends_sendGetCFHeaders p e hfair m m1 _ _ (by rw [hH]) h1
      · cases h1; exact Sends.refl m
  · cases h

theorem sends_idle {E : Type} (m m' : Mgr) (h : (m.idle p e t : Res E Mgr) = .ok m') : Sends e.now t H allowed again disc m m' := by
  unfold Mgr.idle at h
  split at h
  · rw [Res.bind_eq_ok] at h
    obtain ⟨m1, h1, h2⟩ := h
    cases h2
    refine (sends_sync p e hfair m m1 h1).trans ?_
    exact Sends.same [_] rfl rfl rfl rfl (by intro x hx; simp at hx; subst hx; trivial)
  · cases h; exact Sends.refl m

theorem sends_expire : ∀ (ks : List Nat) (m : Mgr),
    (∀ stop s a x, m.inflight.get stop = some (s, a, x) → again (s % 2 ^ 32) stop) →
    (∀ stop s a x, m.inflight.get stop = some (s, a, x) → x ≤ e.now → ∀ b, (b, false) ∈ m.peers → b ≠ a → disc a) →
    Sends e.now t H allowed again disc m (Mgr.expire e ks m)
  | [], m, _, _ => Sends.refl m
  | stop :: ks, m, hag, hdis => by
    unfold Mgr.expire
    split
    · exact sends_expire ks m hag hdis
    · rename_i start addr expiry hget
      split
      · rename_i hexp
        split
        · exact sends_expire ks m hag hdis
        · rename_i a pers hpk
          simp only
          generalize hm1 : (if a ≠ addr ∧ pers = false then
              { m.emit [.disconnect addr] with peers := m.peers.erase addr } else m) = m1
          have hmem : a ∈ m.peers.keys := List.mem_map_of_mem (f := (·.1)) (hfair.pick_mem _ _ _ hpk)
          have hif : m1.inflight = m.inflight := by rw [← hm1]; split <;> rfl
          have hs1 : Sends e.now t H allowed again disc m m1 := by
            rw [← hm1]
            split
            · rename_i hcond
              refine ⟨fun h h' => ⟨?_, h', [_], rfl, ?_⟩, fun hl => hl.mono rfl [_] rfl, fun _ _ _ _ h _ => h,
                fun x hx => List.mem_of_mem_filter hx⟩
              · intro k hk
                exact h k ((AMap.mem_keys_erase _ _ _).1 hk).1
              · intro x hx; simp only [List.mem_singleton] at hx; subst hx
                have := hfair.pick_mem _ _ _ hpk
                rw [hcond.2] at this
                exact hdis _ _ _ _ hget hexp a this hcond.1
            · exact Sends.refl m
          refine Sends.trans (b := { m1.emit [.getCFHeaders a (start % 2 ^ 32) stop, .timer requestTimeout] with
            inflight := m1.inflight.insert stop (start, a, e.now + requestTimeout) }) ?_ (sends_expire ks _ ?_ ?_)
          · refine ⟨fun h h' => ?_, fun hl => ?_, ?_, hs1.2.2.2⟩
            · obtain ⟨h1, h2, o, h3, h4⟩ := hs1.1 h h'
              refine ⟨h1, h2, o ++ [.getCFHeaders a (start % 2 ^ 32) stop, .timer requestTimeout], ?_, ?_⟩
              · simp only [Mgr.emit, h3, List.append_assoc]
              · intro x hx
                simp only [List.mem_append, List.mem_cons, List.not_mem_nil, or_false] at hx
                rcases hx with hx | rfl | rfl
                · exact h4 x hx
                · exact ⟨h a hmem, Or.inr (hag _ _ _ _ hget)⟩
                · trivial
            · have hl1 := hs1.2.1 hl
              intro stop' s a' x hx
              simp only [AMap.get_insert] at hx
              split at hx
              · rename_i heq
                subst heq
                cases hx; simp [Mgr.emit]
              · exact List.mem_append_left _ (hl1 _ _ _ _ hx)
            · intro stop' s a' x hx hle
              simp only [AMap.get_insert] at hx
              split at hx
              · cases hx; unfold requestTimeout at hle; omega
              · rw [hif] at hx; exact hx
          · intro stop' s a' x hx
            simp only [AMap.get_insert, hif] at hx
            split at hx
            · rename_i heq
              subst heq
              cases hx; exact hag _ _ _ _ hget
            · exact hag _ _ _ _ hx
          · intro stop' s a' x hx hle b hb
            simp only [AMap.get_insert, hif] at hx
            split at hx
            · cases hx; unfold requestTimeout at hle; omega
            · exact hdis _ _ _ _ hx hle b (hs1.2.2.2 _ hb)
      · exact sends_expire ks m hag hdis

theorem sends_headersImported (m : Mgr) (a b : Nat) : Sends e.now t H allowed again disc m (m.headersImported e t a b).1 := by
  unfold Mgr.headersImported
  split
  · exact Sends.refl m
  · simp only
    split
    · exact Sends.refl m
    · exact sends_getCFilters e hfair m _ _

theorem sends_receivedCFHeaders (m : Mgr) (msg : CFHeadersMsg) :
    Sends e.now t (m.receivedCFHeaders p e t msg).1.filters.height allowed again disc
      { m with filters := (m.receivedCFHeaders p e t msg).1.filters } (m.receivedCFHeaders p e t msg).1 := by
  have herase : ∀ m1 : Mgr, m1.peers = m.peers → m1.inflight = m.inflight.erase msg.stop → (∃ o, m1.out = m.out ++ o ∧
      ∀ x ∈ o, GoodRequest t m1.filters.height allowed again disc x) →
      Sends e.now t m1.filters.height allowed again disc { m with filters := m1.filters } m1 := by
    intro m1 h1 h2 ⟨o, h3, h4⟩
    refine ⟨fun h h' => ⟨by rw [h1]; exact h, rfl, o, h3, h4⟩, fun hl => ?_, ?_, by rw [h1]; exact fun _ h => h⟩
    · intro stop s a x hx
      rw [h2, AMap.get_erase] at hx
      split at hx
      · cases hx
      · rw [h3]; exact List.mem_append_left _ (hl _ _ _ _ hx)
    · intro stop s a x hx _
      rw [h2, AMap.get_erase] at hx
      split at hx
      · cases hx
      · exact hx
  have hstay : ∀ m1 : Mgr, m1.peers = m.peers → m1.inflight = m.inflight.erase msg.stop → m1.out = m.out →
      Sends e.now t m1.filters.height allowed again disc { m with filters := m1.filters } m1 :=
    fun m1 h1 h2 h3 => herase m1 h1 h2 ⟨[], by simp [h3]⟩
  unfold Mgr.receivedCFHeaders
  split
  · exact Sends.refl m
  · simp only
    split
    · exact hstay _ rfl rfl rfl
    · split
      · exact hstay _ rfl rfl rfl
      · split
        · exact hstay _ rfl rfl rfl
        · split
          · exact herase _ rfl rfl ⟨[_], rfl, by intro x hx; simp only [List.mem_singleton] at hx; subst hx; trivial⟩
          · split
            · exact hstay _ rfl rfl rfl
            · split
              · exact hstay _ rfl rfl rfl
              · split
                · exact hstay _ rfl rfl rfl
                · split
                  · exact hstay _ rfl rfl rfl
                  · generalize importHeaders m.filters (chainHeaders p msg.prev msg.hashes) e.fail = g
                    obtain ⟨g1, g2⟩ := g
                    cases g2 with
                    | err er => exact hstay _ rfl rfl rfl
                    | panic => exact hstay _ rfl rfl rfl
                    | ok height =>
                      simp only
                      have hq := sends_headersImported (t := t) (H := g1.height) (allowed := allowed) (again := again) (disc := disc) e hfair
                        { m with inflight := m.inflight.erase msg.stop, filters := g1 } m.filters.height height
                      have hqf := (quiet_headersImported e t
                        { m with inflight := m.inflight.erase msg.stop, filters := g1 } m.filters.height height).filters
                      generalize Mgr.headersImported e t
                        { m with inflight := m.inflight.erase msg.stop, filters := g1 } m.filters.height height = k at hq hqf
                      obtain ⟨k1, k2⟩ := k
                      have hf : k1.filters = g1 := hqf
                      have h0 : Sends e.now t g1.height allowed again disc { m with filters := g1 } k1 :=
                        (hstay { m with inflight := m.inflight.erase msg.stop, filters := g1 } rfl rfl rfl).trans hq
                      have hk0 : Sends e.now t k1.filters.height allowed again disc { m with filters := k1.filters } k1 := by
                        rw [hf]; exact h0
                      cases k2 with
                      | err er => exact hk0
                      | panic => exact hk0
                      | ok u =>
                        cases u
                        simp only
                        split
                        · split
                          · have h1 : Sends e.now t k1.filters.height allowed again disc k1
                              (k1.emit [.event (.filterHeadersSynced height)]) := Sends.same [_] rfl rfl rfl rfl (by
                                intro x hx; simp only [List.mem_singleton] at hx; subst hx; trivial)
                            exact hk0.trans h1
                          · cases hs : (k1.sync p e t : Res Err Mgr) with
                            | ok m2 =>
                              simp only
                              rw [(quiet_sync p e t k1 m2 hs).filters]
                              exact hk0.trans (sends_sync p e hfair k1 m2 hs)
                            | err e => exact hk0
                            | panic => exact hk0
                        · exact hk0

end

/-- Histories with fair random choices and their log of calls, most recent first. -/
inductive FairLog (p : Params) : List Op → Mgr → Prop
  | init (f : FilterHeaders) (cacheSize : Nat) : FairLog p [] (Mgr.new f cacheSize)
  | step {l : List Op} {m m' : Mgr} (e : Env) (t : Tree) (op : Op) :
      FairLog p l m → e.Fair → m.step p e t op = .ok m' → FairLog p (op :: l) m'

/-- The peer negotiated as an outbound peer serving filters and did not disconnect since. -/
def filterPeer (k : Nat) : List Op → Prop
  | [] => False
  | .peerNegotiated k' outbound hasFilters _ :: l => (k' = k ∧ outbound = true ∧ hasFilters = true) ∨ filterPeer k l
  | .peerDisconnected k' :: l => k' ≠ k ∧ filterPeer k l
  | _ :: l => filterPeer k l

/-- Outputs that are no requests and no disconnects. -/
def Out.plain : Out → Bool
  | .getCFHeaders _ _ _ => false
  | .getCFilters _ _ _ => false
  | .disconnect _ => false
  | _ => true

theorem goodRequest_of_plain {t : Tree} {H : Nat} {allowed : Nat → Prop} {again : Nat → Nat → Prop} {disc : Nat → Prop}
    {o : Out}
    (h : o.plain = true) : GoodRequest t H allowed again disc o := by
  cases o <;> first | exact trivial | cases h

/-- Peer `a` may be disconnected: the call is the timer, a header request to it expired, and another, non-persistent peer is
there. -/
def TimedOut (e : Env) (m : Mgr) (op : Op) (a : Nat) : Prop :=
  op = .timer ∧ ∃ stop s x b, m.inflight.get stop = some (s, a, x) ∧ x ≤ e.now ∧ (b, false) ∈ m.peers ∧ b ≠ a

theorem step_sends (e : Env) (hfair : e.Fair) (t : Tree) (m m' : Mgr) (op : Op) (h : m.step p e t op = .ok m')
    (allowed : Nat → Prop) (hlog : Logged m)
    (hal : ∀ k, (k ∈ m.peers.keys ∧ op ≠ .peerDisconnected k ∨ ∃ pers, op = .peerNegotiated k true true pers) → allowed k) :
    (∀ k ∈ m'.peers.keys, allowed k) ∧ Logged m' ∧
    ∃ o, m'.out = m.out ++ o ∧ ∀ x ∈ o, GoodRequest t m'.filters.height allowed
      (fun s stop => ∃ peer, Out.getCFHeaders peer s stop ∈ m.out) (TimedOut e m op) x := by
  set again : Nat → Nat → Prop := fun s stop => ∃ peer, Out.getCFHeaders peer s stop ∈ m.out with hagain
  set disc := TimedOut e m op with hdisc
  have hfin : ∀ m1 : Mgr, Sends e.now t m'.filters.height allowed again disc m1 m' → m1.out = m.out →
      m1.filters.height = m'.filters.height → (∀ k ∈ m1.peers.keys, allowed k) → Logged m1 →
      (∀ k ∈ m'.peers.keys, allowed k) ∧ Logged m' ∧
      ∃ o, m'.out = m.out ++ o ∧ ∀ x ∈ o, GoodRequest t m'.filters.height allowed again disc x := by
    intro m1 hs h1 h2 h3 h4
    obtain ⟨h5, _, o, h6, h7⟩ := hs.1 h3 h2
    exact ⟨h5, hs.2.1 h4, o, by rw [h6, h1], h7⟩
  have hsame : (∀ k, op ≠ .peerDisconnected k) → ∀ k ∈ m.peers.keys, allowed k :=
    fun hn k hk => hal k (Or.inl ⟨hk, hn k⟩)
  have hplain : (∀ k, op ≠ .peerDisconnected k) → m'.peers = m.peers → m'.inflight = m.inflight →
      (∃ o, m'.out = m.out ++ o ∧ ∀ x ∈ o, x.plain = true) →
      (∀ k ∈ m'.peers.keys, allowed k) ∧ Logged m' ∧
      ∃ o, m'.out = m.out ++ o ∧ ∀ x ∈ o, GoodRequest t m'.filters.height allowed again disc x := by
    intro hn h1 h2 ⟨o, h3, h4⟩
    exact ⟨h1 ▸ hsame hn, hlog.mono h2 o h3, o, h3, fun x hx => goodRequest_of_plain (h4 x hx)⟩
  cases op with
  | init => exact hfin m (sends_idle p e hfair m m' h) rfl (by rw [(quiet_idle p e t m m' h).filters]) (hsame (by simp)) hlog
  | peerNegotiated addr ob hf pers =>
    simp only [Mgr.step] at h
    split at h
    · cases h; exact hplain (by simp) rfl rfl ⟨[], by simp, by simp⟩
    · rename_i hob
      split at h
      · cases h; exact hplain (by simp) rfl rfl ⟨[], by simp, by simp⟩
      · rename_i hhf
        refine hfin _ (sends_sync p e hfair _ m' h) rfl (by rw [(quiet_sync p e t _ m' h).filters]) ?_ hlog
        intro k hk
        rcases (AMap.mem_keys_insert _ _ _ _).1 hk with rfl | hk
        · refine hal _ (Or.inr ⟨pers, ?_⟩)
          simp only [Bool.not_eq_false] at hob hhf
          rw [hob, hhf]
        · exact hsame (by simp) k hk
  | peerDisconnected addr =>
    cases h
    refine ⟨?_, hlog, [], by simp, by simp⟩
    intro k hk
    obtain ⟨h1, h2⟩ := (AMap.mem_keys_erase _ _ _).1 hk
    exact hal k (Or.inl ⟨h1, by simpa using fun hh => h2 hh.symm⟩)
  | blockProcessed block height =>
    simp only [Mgr.step] at h
    split at h
    · cases h
      exact hplain (by simp) rfl rfl ⟨[_, _], by simp only [Mgr.emit, List.append_assoc]; rfl, by simp [Out.plain]⟩
    · cases h; exact hplain (by simp) rfl rfl ⟨[], by simp, by simp⟩
  | blockDisconnected height => cases h; exact hplain (by simp) rfl rfl ⟨[], by simp, by simp⟩
  | headersImported reverted =>
    simp only [Mgr.step] at h
    split at h
    · rw [Res.bind_eq_ok] at h
      obtain ⟨fork, _, h⟩ := h
      rw [Res.bind_eq_ok] at h
      obtain ⟨m1, h1, h⟩ := h
      have hs := sends_sync (t := t) (H := m'.filters.height) (allowed := allowed) (again := again) (disc := disc) p e hfair m1 m' h
      have hH : m1.filters.height = m'.filters.height := by rw [(quiet_sync p e t _ m' h).filters]
      have hm1 : m1.peers = m.peers ∧ m1.inflight = m.inflight ∧ ∃ o, m1.out = m.out ++ o ∧ ∀ x ∈ o, x.plain = true := by
        rcases rollback_cases e m m1 fork h1 with ⟨rfl, _⟩ | ⟨_, c, _, hm1, hok, hfl⟩
        · exact ⟨rfl, rfl, [], by simp, by simp⟩
        · refine ⟨by rw [hm1], by rw [hm1], ?_⟩
          cases hf : e.fail
          · exact ⟨[], by simp [(hok hf).2.1], by simp⟩
          · exact ⟨_, (hfl hf).2.1, by simp [Out.plain]⟩
      obtain ⟨h2, h3, o, h4, h5⟩ := hm1
      obtain ⟨h6, _, o2, h7, h8⟩ := hs.1 (by rw [h2]; exact hsame (by simp)) hH
      refine ⟨h6, hs.2.1 (hlog.mono h3 o h4), o ++ o2, by rw [h7, h4, List.append_assoc], ?_⟩
      intro x hx
      rcases List.mem_append.1 hx with hx | hx
      · exact goodRequest_of_plain (h5 x hx)
      · exact h8 x hx
    · exact hfin m (sends_sync p e hfair m m' h) rfl (by rw [(quiet_sync p e t m m' h).filters]) (hsame (by simp)) hlog
  | txConfirmed txid => cases h; exact hplain (by simp) rfl rfl ⟨[], by simp, by simp⟩
  | txReverted txid scripts => cases h; exact hplain (by simp) rfl rfl ⟨[], by simp, by simp⟩
  | cfheaders peer msg =>
    have hs := sends_receivedCFHeaders (t := t) (allowed := allowed) (again := again) (disc := disc) p e hfair m msg
    simp only [Mgr.step] at h
    generalize m.receivedCFHeaders p e t msg = g at h hs
    obtain ⟨g1, g2⟩ := g
    have hflag : ∀ ev : Ev, Sends e.now t g1.filters.height allowed again disc g1 (g1.emit [.event ev]) := fun ev =>
      Sends.same [_] rfl rfl rfl rfl (by intro x hx; simp only [List.mem_singleton] at hx; subst hx; trivial)
    cases g2 with
    | ok n => cases h; exact hfin _ hs rfl rfl (hsame (by simp)) hlog
    | err er =>
      cases er with
      | ignored => cases h; exact hfin _ hs rfl rfl (hsame (by simp)) hlog
      | invalid => cases h; exact hfin _ (hs.trans (hflag _)) rfl rfl (hsame (by simp)) hlog
      | filters => cases h; exact hfin _ (hs.trans (hflag _)) rfl rfl (hsame (by simp)) hlog
    | panic => cases h
  | getcfheaders peer ft start stop =>
    have hc := receivedGetCFHeaders_frame p t m peer ft start stop
    simp only [Mgr.step] at h
    generalize m.receivedGetCFHeaders p t peer ft start stop = g at h hc
    obtain ⟨g1, g2⟩ := g
    have hf : g1.peers = m.peers ∧ g1.inflight = m.inflight ∧ ∃ o, g1.out = m.out ++ o ∧ ∀ x ∈ o, x.plain = true := by
      rcases hc with h1 | ⟨_, _, h1⟩
      · simp only at h1; subst h1; exact ⟨rfl, rfl, [], by simp, by simp⟩
      · simp only at h1; subst h1; exact ⟨rfl, rfl, [_], rfl, by simp [Out.plain]⟩
    obtain ⟨h1, h2, o, h3, h4⟩ := hf
    cases g2 with
    | ok n => cases h; exact hplain (by simp) h1 h2 ⟨o, h3, h4⟩
    | err er =>
      cases er with
      | ignored => cases h; exact hplain (by simp) h1 h2 ⟨o, h3, h4⟩
      | invalid =>
        cases h
        refine hplain (by simp) h1 h2 ⟨o ++ [.event (.peerMisbehaved peer)], by simp [Mgr.emit, h3], ?_⟩
        intro x hx
        rcases List.mem_append.1 hx with hx | hx
        · exact h4 x hx
        · simp at hx; subst hx; rfl
      | filters => cases h; exact hplain (by simp) h1 h2 ⟨o, h3, h4⟩
    | panic => cases h
  | cfilter peer ft block f =>
    have hc := receivedCFilter_cases p e t m peer ft block f
    simp only [Mgr.step] at h
    generalize m.receivedCFilter p e t peer ft block f = g at h hc
    have haf : ∀ (g1 : Mgr) (ms : List (Nat × Nat)), g1.peers = m.peers → g1.inflight = m.inflight →
        (∃ o, g1.out = m.out ++ o ∧ ∀ x ∈ o, x.plain = true) → m' = g1.afterFilter ms →
        m'.peers = m.peers ∧ m'.inflight = m.inflight ∧ ∃ o, m'.out = m.out ++ o ∧ ∀ x ∈ o, x.plain = true := by
      intro g1 ms h1 h2 ⟨o, h3, h4⟩ hm'
      obtain ⟨h5, ks, o2, h6, h7⟩ := afterFilter_frame ms g1
      refine ⟨by rw [hm', h5]; exact h1, by rw [hm', h5]; exact h2, o ++ (ks.map .getBlock ++ o2),
        by rw [hm', h6, h3, List.append_assoc], ?_⟩
      intro x hx
      simp only [List.mem_append, List.mem_map] at hx
      rcases hx with hx | ⟨k, _, rfl⟩ | hx
      · exact h4 x hx
      · rfl
      · rcases h7 with rfl | ⟨_, rfl⟩
        · cases hx
        · simp at hx; subst hx; rfl
    cases hc with
    | ignored hi => cases h; exact hplain (by simp) rfl rfl ⟨[], by simp, by simp⟩
    | invalid hh h0 h1 h2 h3 => cases h; exact hplain (by simp) rfl rfl ⟨[_], rfl, by simp [Out.plain]⟩
    | unsolicited hh h0 h1 h2 h3 =>
      cases h
      obtain ⟨h4, h5, h6⟩ := haf (m.emit [.event (.filterReceived peer block hh f)]) [] rfl rfl
        ⟨[_], rfl, by simp [Out.plain]⟩ rfl
      exact hplain (by simp) h4 h5 h6
    | scanned hh c r ms es n h0 h1 h2 h3 h4 h5 =>
      cases h
      obtain ⟨h4, h5, h6⟩ := haf { m with
          rescan := r, lastProcessed := if 0 < n then some e.now else m.lastProcessed,
          out := m.out ++ .event (.filterReceived peer block hh f) :: es.map .event } ms rfl rfl
        ⟨.event (.filterReceived peer block hh f) :: es.map .event, rfl, by
          intro x hx
          simp only [List.mem_cons, List.mem_map] at hx
          rcases hx with rfl | ⟨_, _, rfl⟩ <;> rfl⟩ rfl
      exact hplain (by simp) h4 h5 h6
    | panicked m' hh hp => cases h
  | timer =>
    simp only [Mgr.step, Mgr.timerExpired] at h
    rw [Res.bind_eq_ok] at h
    obtain ⟨m1, h1, h⟩ := h
    have hq1 := quiet_idle p e t m m1 h1
    have hs0 := sends_idle (t := t) (H := m.filters.height) (allowed := allowed) (again := fun _ _ => False) (disc := disc) p e hfair m m1 h1
    obtain ⟨a1, a2, o1, a3, a4⟩ := hs0.1 (hsame (by simp)) rfl
    have hl1 : Logged m1 := hs0.2.1 hlog
    -- requests in flight after the idle check are old ones or good new ones
    set H := m.filters.height with hHdef
    set again' : Nat → Nat → Prop := fun s stop => again s stop ∨
      ∃ k, s = (H + 1) % 2 ^ 32 ∧ t.hashes[k]? = some stop ∧ H + 1 ≤ k ∧ k < H + 1 + 2000 with hag'
    have hag : ∀ stop s a x, m1.inflight.get stop = some (s, a, x) → again' (s % 2 ^ 32) stop := by
      intro stop s a x hx
      have := hl1 _ _ _ _ hx
      rw [a3] at this
      rcases List.mem_append.1 this with h2 | h2
      · exact Or.inl ⟨a, h2⟩
      · rcases (a4 _ h2).2 with h3 | h3
        · exact Or.inr h3
        · exact h3.elim
    have hs1 := sends_expire (t := t) (H := H) (allowed := allowed) (again := again') (disc := disc) e hfair
      (e.order m1.inflight.keys) m1 hag (fun stop s a x hx hle b hb hne =>
        ⟨rfl, stop, s, x, b, hs0.2.2.1 _ _ _ _ hx hle, hle, hs0.2.2.2 _ hb, hne⟩)
    have hq2 := quiet_expire e t (e.order m1.inflight.keys) m1
    generalize Mgr.expire e (e.order m1.inflight.keys) m1 = m2 at h hs1 hq2
    have hs2 : Sends e.now t H allowed again' disc m2 m' ∧ m'.filters = m2.filters := by
      split at h
      · split at h
        · have hg := sends_getCFilters (t := t) (H := H) (allowed := allowed) (again := again') (disc := disc) e hfair
            { m2 with rescan := m2.rescan.reset } m2.rescan.reset.current m2.filters.height
          have hgf := (quiet_getCFilters e t { m2 with rescan := m2.rescan.reset } m2.rescan.reset.current
            m2.filters.height).filters
          generalize Mgr.getCFilters e t { m2 with rescan := m2.rescan.reset } m2.rescan.reset.current
            m2.filters.height = g at h hg hgf
          obtain ⟨g1, g2⟩ := g
          have h0 : Sends e.now t H allowed again' disc m2 { m2 with rescan := m2.rescan.reset } :=
            Sends.same [] rfl rfl rfl (by simp) (by simp)
          cases g2 <;> simp at h <;> (subst h; exact ⟨h0.trans hg, hgf⟩)
        · cases h; exact ⟨Sends.refl _, rfl⟩
      · cases h; exact ⟨Sends.refl _, rfl⟩
    have hH : m'.filters.height = H := by rw [hs2.2, hq2.filters, hq1.filters]
    obtain ⟨b1, b2, o2, b3, b4⟩ := (hs1.trans hs2.1).1 a1 a2
    refine ⟨b1, (hs1.trans hs2.1).2.1 hl1, o1 ++ o2, by rw [b3, a3, List.append_assoc], ?_⟩
    rw [hH]
    intro x hx
    rcases List.mem_append.1 hx with hx | hx
    · have := a4 x hx
      cases x with
      | getCFHeaders peer s stop =>
        refine ⟨this.1, ?_⟩
        rcases this.2 with h2 | h2
        · exact Or.inl h2
        · exact h2.elim
      | getCFilters peer s stop => exact this
      | disconnect peer => exact this
      | _ => trivial
    · have := b4 x hx
      cases x with
      | getCFHeaders peer s stop =>
        refine ⟨this.1, ?_⟩
        rcases this.2 with h2 | h2 | h2
        · exact Or.inl h2
        · exact Or.inr h2
        · exact Or.inl h2
      | getCFilters peer s stop => exact this
      | disconnect peer => exact this
      | _ => trivial
  | watch scripts => cases h; exact hplain (by simp) rfl rfl ⟨[], by simp, by simp⟩
  | watchTransaction txid scripts => cases h; exact hplain (by simp) rfl rfl ⟨[], by simp, by simp⟩
  | rescan start stop w =>
    simp only [Mgr.step, Mgr.startRescan] at h
    cases hb : (stop.last p.checked : Res Unit (Option Nat)) with
    | err _ => rw [hb] at h; cases h
    | panic => rw [hb] at h; cases h
    | ok st =>
      rw [hb] at h
      simp only at h
      generalize hm1 : Mgr.emit { m with rescan := m.rescan.restart (start.first t) st w }
        [.event (.rescanStarted (start.first t) st)] = m1 at h
      have hs0 : Sends e.now t m.filters.height allowed again disc m m1 := by
        rw [← hm1]
        exact Sends.same [_] rfl rfl rfl rfl (by intro x hx; simp only [List.mem_singleton] at hx; subst hx; trivial)
      have hf1 : m1.filters = m.filters := by rw [← hm1]; rfl
      have hs1 : Sends e.now t m.filters.height allowed again disc m1 (m1.fetchRescan p e t (start.first t) (m1.lastWanted st)).1 ∧
          (m1.fetchRescan p e t (start.first t) (m1.lastWanted st)).1.filters = m1.filters := by
        unfold Mgr.fetchRescan
        split
        · exact ⟨Sends.refl _, rfl⟩
        · split
          · exact ⟨Sends.refl _, rfl⟩
          · have hg := sends_getCFilters (t := t) (H := m.filters.height) (allowed := allowed) (again := again) (disc := disc) e hfair m1
              (start.first t) (m1.lastWanted st)
            have hgf := (quiet_getCFilters e t m1 (start.first t) (m1.lastWanted st)).filters
            generalize m1.getCFilters e t (start.first t) (m1.lastWanted st) = g at hg hgf
            obtain ⟨g1, g2⟩ := g
            have hpq : Sends e.now t m.filters.height allowed again disc g1 (g1.processQueue p).1 := by
              refine Sends.same ((g1.rescan.process p).2.2.1.map .event) rfl rfl rfl rfl ?_
              intro x hx
              obtain ⟨_, _, rfl⟩ := List.mem_map.1 hx
              trivial
            cases g2 with
            | ok u => cases u; exact ⟨hg.trans hpq, hgf⟩
            | err er =>
              cases er with
              | invalidRange => exact ⟨hg, hgf⟩
              | notConnected => exact ⟨hg.trans hpq, hgf⟩
            | panic => exact ⟨hg, hgf⟩
      generalize m1.fetchRescan p e t (start.first t) (m1.lastWanted st) = g at h hs1
      obtain ⟨g1, g2⟩ := g
      cases g2 with
      | ok ms =>
        cases h
        have hH : g1.filters.height = m.filters.height := by rw [hs1.2, hf1]
        have hs2 : Sends e.now t m.filters.height allowed again disc g1 (g1.emit (ms.map (fun x => .getBlock x.2))) := by
          refine Sends.same _ rfl rfl rfl rfl ?_
          intro x hx
          obtain ⟨_, _, rfl⟩ := List.mem_map.1 hx
          trivial
        have hall := hs0.trans (hs1.1.trans hs2)
        rw [← hH] at hall
        exact hfin m hall rfl hH.symm (hsame (by simp)) hlog
      | err er => cases h
      | panic => cases h
  | getCFilters a b =>
    have hg := sends_getCFilters (t := t) (H := m.filters.height) (allowed := allowed) (again := again) (disc := disc) e hfair m a b
    have hgf := (quiet_getCFilters e t m a b).filters
    simp only [Mgr.step] at h
    generalize m.getCFilters e t a b = g at h hg hgf
    obtain ⟨g1, g2⟩ := g
    have hH : g1.filters.height = m.filters.height := by rw [hgf]
    rw [← hH] at hg
    cases g2 <;> simp at h <;> (subst h; exact hfin m hg rfl hH.symm (hsame (by simp)) hlog)

theorem filterPeer_cons (k : Nat) (op : Op) (l : List Op) (h : filterPeer k l) (hn : op ≠ .peerDisconnected k) :
    filterPeer k (op :: l) := by
  cases op with
  | peerNegotiated k' a b c => exact Or.inr h
  | peerDisconnected k' => exact ⟨by rintro rfl; exact hn rfl, h⟩
  | _ => exact h

theorem FairLog.peers {l : List Op} {m : Mgr} (h : FairLog p l m) : (∀ k ∈ m.peers.keys, filterPeer k l) ∧ Logged m := by
  induction h with
  | init f c => exact ⟨by simp [Mgr.new, AMap.keys], by simp [Mgr.new, Logged]⟩
  | @step l m m' e t op _ hfair hs ih =>
    obtain ⟨h1, h2, _⟩ := step_sends p e hfair t m m' op hs (fun k => filterPeer k (op :: l)) ih.2 (by
      rintro k (⟨hk, hn⟩ | ⟨pers, rfl⟩)
      · exact filterPeer_cons k op l (ih.1 k hk) hn
      · exact Or.inl ⟨rfl, rfl, rfl⟩)
    exact ⟨h1, h2⟩

/-- C65 (and C25 for header requests).  In any history, every request sent in a call is well formed: it goes to a peer that
negotiated as an outbound peer serving filters and did not disconnect since; header requests ask for at most 2000 headers
starting right above the filter headers we have and ending at a block of the active chain, or repeat a request sent before;
filter requests ask for at least one and at most 1000 filters ending at a block of the active chain for which we have a filter
header. -/
theorem C65_requests {l : List Op} {m m' : Mgr} (hl : FairLog p l m) (e : Env) (hfair : e.Fair) (t : Tree) (op : Op)
    (h : m.step p e t op = .ok m') :
    ∃ o, m'.out = m.out ++ o ∧
    (∀ peer s stop, Out.getCFHeaders peer s stop ∈ o → filterPeer peer (op :: l) ∧
      ((∃ k, s = (m'.filters.height + 1) % 2 ^ 32 ∧ t.hashes[k]? = some stop ∧ m'.filters.height < k ∧
        k - m'.filters.height ≤ 2000) ∨ ∃ peer', Out.getCFHeaders peer' s stop ∈ m.out)) ∧
    (∀ peer s stop, Out.getCFilters peer s stop ∈ o → filterPeer peer (op :: l) ∧
      ∃ a k, s = a % 2 ^ 32 ∧ t.hashes[k]? = some stop ∧ a ≤ k ∧ k + 1 - a ≤ 1000 ∧ k ≤ m'.filters.height) := by
  obtain ⟨h1, h2⟩ := FairLog.peers p hl
  obtain ⟨_, _, o, h3, h4⟩ := step_sends p e hfair t m m' op h (fun k => filterPeer k (op :: l)) h2 (by
    rintro k (⟨hk, hn⟩ | ⟨pers, rfl⟩)
    · exact filterPeer_cons k op l (h1 k hk) hn
    · exact Or.inl ⟨rfl, rfl, rfl⟩)
  refine ⟨o, h3, fun peer s stop hx => ?_, fun peer s stop hx => ?_⟩
  · obtain ⟨h5, h6⟩ := h4 _ hx
    refine ⟨h5, h6.imp_left ?_⟩
    rintro ⟨k, h7, h8, h9, h10⟩
    exact ⟨k, h7, h8, by omega, by omega⟩
  · obtain ⟨h5, a, k, h7, h8, h9, h10, h11⟩ := h4 _ hx
    exact ⟨h5, a, k, h7, h8, h9, by omega, h11⟩

/-- C63.  The filter manager disconnects a peer only from the timer, only if a header request sent to that peer has expired, and
only if there is another peer to ask which is not persistent.  (Missing for the full property: that the disconnected peer is not
persistent; see `C63_persistent_disconnected`.) -/
theorem C63_disconnect_partial {l : List Op} {m m' : Mgr} (hl : FairLog p l m) (e : Env) (hfair : e.Fair) (t : Tree) (op : Op)
    (h : m.step p e t op = .ok m') :
    ∃ o, m'.out = m.out ++ o ∧ ∀ peer, Out.disconnect peer ∈ o → op = .timer ∧
      (∃ b, (b, false) ∈ m.peers ∧ b ≠ peer) ∧
      ∃ stop s x, m.inflight.get stop = some (s, peer, x) ∧ x ≤ e.now ∧ Out.getCFHeaders peer (s % 2 ^ 32) stop ∈ m.out := by
  obtain ⟨h1, h2⟩ := FairLog.peers p hl
  obtain ⟨_, _, o, h3, h4⟩ := step_sends p e hfair t m m' op h (fun _ => True) h2 (fun _ _ => trivial)
  refine ⟨o, h3, fun peer hx => ?_⟩
  obtain ⟨h5, stop, s, x, b, h6, h7, h8, h9⟩ := h4 _ hx
  exact ⟨h5, ⟨b, h8, h9⟩, stop, s, x, h6, h7, h2 _ _ _ _ h6⟩

end Verif.Cbf
