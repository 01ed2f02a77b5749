import Verif.Cbf.PropsAsk
import Verif.Cbf.PropsLive

/-!
# Requests for filter headers: what a call does to them
-/

set_option autoImplicit false

namespace Verif.Cbf
variable (p : Params)

/-- The block with which the next request for filter headers ends is being waited for. -/
def Wants (t : Tree) (m : Mgr) : Prop :=
  m.filters.height < t.height →
    ∀ k, t.byHeight (m.filters.height + min maxCFHeaders (t.height - m.filters.height)) = some k → m.inflight.contains k = true

/-- A call that takes no filter headers puts out `d`: requests waited for are still waited for, and their time-out is the same or they were sent again; new ones start
above the filter headers; everything sent is waited for; and if the time of the last synchronization changed, then the next filter headers are waited for. -/
structure Moves (t : Tree) (m m' : Mgr) (d : List Out) : Prop where
  filters : m'.filters = m.filters
  out : m'.out = m.out ++ d
  keep : ∀ k s a x, m.inflight.get k = some (s, a, x) → ∃ a' x', m'.inflight.get k = some (s, a', x') ∧ (x' = x ∨ ∃ b, .getCFHeaders b (s % 2 ^ 32) k ∈ d)
  new : ∀ k s a x, m'.inflight.get k = some (s, a, x) → m.inflight.get k = none → s = m.filters.height + 1
  sent : ∀ a i k, .getCFHeaders a i k ∈ d → ∃ s a' x', m'.inflight.get k = some (s, a', x') ∧ i = s % 2 ^ 32
  lazy : m'.lastIdle = m.lastIdle ∨ m'.lastIdle = none ∨ Wants t m'

theorem contains_get {m : Mgr} {k : Nat} : m.inflight.contains k = true ↔ ∃ s a x, m.inflight.get k = some (s, a, x) := by
  unfold AMap.contains
  cases h : m.inflight.get k with
  | none => simp
  | some y => obtain ⟨s, a, x⟩ := y; simp

variable {t : Tree} {p}

theorem Wants.keep {m m' : Mgr} {d : List Out} (h : Moves t m m' d) (w : Wants t m) : Wants t m' := by
  intro hl k hk
  rw [h.filters] at hl hk
  obtain ⟨s, a, x, hg⟩ := contains_get.1 (w hl k hk)
  obtain ⟨a', x', h1, -⟩ := h.keep k s a x hg
  exact contains_get.2 ⟨s, a', x', h1⟩

theorem Moves.trans {a b c : Mgr} {d1 d2 : List Out} (h1 : Moves t a b d1) (h2 : Moves t b c d2) : Moves t a c (d1 ++ d2) where
  filters := h2.filters.trans h1.filters
  out := by rw [h2.out, h1.out, List.append_assoc]
  keep := by
    intro k s y x hk
    obtain ⟨a1, x1, g1, g2⟩ := h1.keep k s y x hk
    obtain ⟨a2, x2, g3, g4⟩ := h2.keep k s a1 x1 g1
    refine ⟨a2, x2, g3, ?_⟩
    rcases g4 with g4 | ⟨b, g4⟩
    · rcases g2 with g2 | ⟨b, g2⟩
      · exact .inl (g4.trans g2)
      · exact .inr ⟨b, List.mem_append_left _ g2⟩
    · exact .inr ⟨b, List.mem_append_right _ g4⟩
  new := by
    intro k s y x hk hn
    cases hb : b.inflight.get k with
    | none => rw [← h1.filters]; exact h2.new k s y x hk hb
    | some z =>
      obtain ⟨s', a', x'⟩ := z
      obtain ⟨a2, x2, g3, -⟩ := h2.keep k s' a' x' hb
      rw [g3] at hk
      cases hk
      exact h1.new k s a' x' hb hn
  sent := by
    intro y i k hk
    rcases List.mem_append.1 hk with hk | hk
    · obtain ⟨s, a', x', g1, g2⟩ := h1.sent y i k hk
      obtain ⟨a2, x2, g3, -⟩ := h2.keep k s a' x' g1
      exact ⟨s, a2, x2, g3, g2⟩
    · exact h2.sent y i k hk
  lazy := by
    rcases h2.lazy with g | g | g
    · rcases h1.lazy with f | f | f
      · exact .inl (g.trans f)
      · exact .inr (.inl (g.trans f))
      · exact .inr (.inr (f.keep h2))
    · exact .inr (.inl g)
    · exact .inr (.inr g)

/-- No request is among the outputs. -/
def NoAsk (d : List Out) : Prop := ∀ a i k, .getCFHeaders a i k ∉ d

theorem Moves.same {m m' : Mgr} {d : List Out} (h1 : m'.inflight = m.inflight) (h2 : m'.filters = m.filters) (h3 : m'.out = m.out ++ d) (h4 : NoAsk d)
    (h5 : m'.lastIdle = m.lastIdle ∨ m'.lastIdle = none) : Moves t m m' d where
  filters := h2
  out := h3
  keep := fun k s a x hk => ⟨a, x, by rw [h1]; exact hk, .inl rfl⟩
  new := fun k s a x hk hn => by rw [h1, hn] at hk; cases hk
  sent := fun a i k hk => absurd hk (h4 a i k)
  lazy := h5.imp_right .inl

theorem noAsk_nil : NoAsk [] := fun _ _ _ => by simp

theorem Moves.refl (m : Mgr) : Moves t m m [] := .same rfl rfl (by simp) noAsk_nil (.inl rfl)

/-- Some list of outputs. -/
def Moved (t : Tree) (m m' : Mgr) : Prop := ∃ d, Moves t m m' d

theorem Moved.trans {a b c : Mgr} : Moved t a b → Moved t b c → Moved t a c := fun ⟨_, h1⟩ ⟨_, h2⟩ => ⟨_, h1.trans h2⟩
theorem Moved.refl (m : Mgr) : Moved t m m := ⟨_, .refl m⟩
theorem Moved.same {m m' : Mgr} (d : List Out) (h1 : m'.inflight = m.inflight) (h2 : m'.filters = m.filters) (h3 : m'.out = m.out ++ d) (h4 : NoAsk d)
    (h5 : m'.lastIdle = m.lastIdle) : Moved t m m' := ⟨d, .same h1 h2 h3 h4 (.inl h5)⟩

theorem Moved.back {m m1 m' : Mgr} (h : Moved t m1 m') (h1 : m1.inflight = m.inflight) (h2 : m1.filters = m.filters) (h3 : m1.out = m.out)
    (h4 : m1.lastIdle = m.lastIdle) : Moved t m m' := .trans (.same [] h1 h2 (by rw [h3]; simp) noAsk_nil h4) h

variable (e : Env)

theorem moved_getCFHeaders (m : Mgr) {start stop : Nat} (h : start = m.filters.height + 1) : Moved t m (m.getCFHeaders e start stop) := by
  unfold Mgr.getCFHeaders
  split
  · exact .refl m
  · rename_i hc
    split
    · refine ⟨[_, _], rfl, rfl, ?_, ?_, ?_, .inl rfl⟩
      · intro k s a x hk
        simp only [AMap.get_insert]
        by_cases hks : stop = k
        · subst hks
          exact absurd (contains_get.2 ⟨s, a, x, hk⟩) hc
        · exact ⟨a, x, by rw [if_neg hks]; exact hk, .inl rfl⟩
      · intro k s a x hk hn
        simp only [AMap.get_insert] at hk
        split at hk
        · cases hk; exact h
        · rw [show m.inflight.get k = none from hn] at hk; cases hk
      · intro a i k hk
        simp only [List.mem_cons, Out.getCFHeaders.injEq, List.not_mem_nil, or_false, reduceCtorEq] at hk
        obtain ⟨rfl, rfl, rfl⟩ := hk
        exact ⟨start, _, _, by simp only [AMap.get_insert, if_pos]; rfl, rfl⟩
    · exact .refl m

theorem moved_sendGetCFHeaders {E : Type} {m m' : Mgr} {stop : Nat} (h : (m.sendGetCFHeaders p e t (m.filters.height + 1) stop : Res E Mgr) = .ok m') :
    Moved t m m' := by
  unfold Mgr.sendGetCFHeaders at h
  split at h
  · split at h
    · cases h
    · cases h; exact .refl m
  · simp only at h
    split at h
    · cases h
    · cases h; exact moved_getCFHeaders e m rfl

theorem moved_askFilters (peers : List Nat) : ∀ (rs : List (Nat × Nat)) (i : Nat) (m : Mgr), Moved t m (Mgr.askFilters t peers i m rs).1
  | [], i, m => by simpa [Mgr.askFilters] using Moved.refl m
  | (a, b) :: rs, i, m => by
    unfold Mgr.askFilters
    split
    · exact .refl m
    · split
      · exact .refl m
      · refine .trans ?_ (moved_askFilters peers rs (i + 1) _)
        exact .same [_, _] rfl rfl rfl (by intro a i k; simp) rfl

theorem moved_getCFilters (m : Mgr) (a b : Nat) : Moved t m (m.getCFilters e t a b).1 := by
  unfold Mgr.getCFilters
  split
  · exact .refl m
  · split
    · exact .refl m
    · split
      · exact Moved.trans (b := { m with rescan := (m.rescan.requests t a b).2 }) (.same [] rfl rfl (by simp) noAsk_nil rfl) (moved_askFilters _ _ _ _)
      · exact .refl m

theorem moved_sync {E : Type} {m m' : Mgr} (h : (m.sync p e t : Res E Mgr) = .ok m') : Moved t m m' := by
  unfold Mgr.sync at h
  split at h
  · split at h
    · cases h; exact .refl m
    · rw [Res.bind_eq_ok] at h
      obtain ⟨m1, h1, h2⟩ := h
      have h0 : Moved t m m1 := by
        split at h1
        · exact moved_sendGetCFHeaders e h1
        · cases h1; exact .refl m
      refine h0.trans ?_
      split at h2
      · have := moved_getCFilters (t := t) e m1 m1.rescan.current m1.filters.height
        generalize m1.getCFilters e t m1.rescan.current m1.filters.height = g at h2 this
        obtain ⟨g1, g2⟩ := g
        cases g2 <;> simp at h2 <;> (subst h2; exact this)
      · cases h2; exact .refl _
  · cases h

/-- After a synchronization, the next filter headers are waited for. -/
theorem sync_wants {E : Type} {m m' : Mgr} (hfair : e.Fair) (hp : m.peers ≠ []) (hb : t.belowCheckpoint = false) (h : (m.sync p e t : Res E Mgr) = .ok m') :
    Wants t m' := by
  unfold Mgr.sync at h
  split at h
  · rw [if_neg (by simp [hb])] at h
    rw [Res.bind_eq_ok] at h
    obtain ⟨m1, h1, h2⟩ := h
    have h0 : Wants t m1 := by
      split at h1
      · rename_i hlt
        unfold Mgr.sendGetCFHeaders at h1
        rw [if_neg (by omega)] at h1
        simp only at h1
        split at h1
        · cases h1
        · rename_i k hk
          cases h1
          have hn : m.filters.height + 1 + min maxCFHeaders (t.height - (m.filters.height + 1) + 1) - 1 =
              m.filters.height + min maxCFHeaders (t.height - m.filters.height) := by omega
          rw [hn] at hk
          intro _ k' hk'
          obtain ⟨d, mv⟩ := moved_getCFHeaders (t := t) (stop := k) e m rfl
          rw [mv.filters, hk] at hk'
          cases hk'
          unfold Mgr.getCFHeaders
          split
          · assumption
          · split
            · rw [contains_get]
              exact ⟨_, _, _, by simp only [AMap.get_insert, if_pos]; rfl⟩
            · rename_i hpk
              have := hfair.pick_some k m.peers hp
              rw [hpk] at this; simp at this
      · rename_i hlt
        cases h1
        intro hl; exact absurd hl hlt
    split at h2
    · obtain ⟨d, this⟩ := moved_getCFilters (t := t) e m1 m1.rescan.current m1.filters.height
      generalize m1.getCFilters e t m1.rescan.current m1.filters.height = g at h2 this
      obtain ⟨g1, g2⟩ := g
      cases g2 <;> simp at h2 <;> (subst h2; exact h0.keep this)
    · cases h2; exact h0
  · cases h

/-- It is time to synchronize. -/
def Mgr.Due (m : Mgr) (e : Env) : Prop := idleTimeout ≤ e.now - m.lastIdle.getD 0

theorem moved_idle {E : Type} {m m' : Mgr} (hfair : e.Fair) (hp : m.peers ≠ []) (hb : t.belowCheckpoint = false) (h : (m.idle p e t : Res E Mgr) = .ok m') :
    Moved t m m' ∧ (m.Due e → Wants t m') := by
  unfold Mgr.idle at h
  split at h
  · rw [Res.bind_eq_ok] at h
    obtain ⟨m1, h1, h2⟩ := h
    cases h2
    have w : Wants t m1 := sync_wants e hfair hp hb h1
    obtain ⟨d, mv⟩ := moved_sync e h1
    have w' : Wants t ({ m1 with lastIdle := some e.now }.emit [.timer idleTimeout]) := w
    refine ⟨⟨d ++ [.timer idleTimeout], ?_⟩, fun _ => w'⟩
    refine ⟨mv.filters, by simp only [Mgr.emit, mv.out, List.append_assoc], ?_, mv.new, ?_, .inr (.inr w')⟩
    · intro k s a x hk
      obtain ⟨a', x', g1, g2⟩ := mv.keep k s a x hk
      exact ⟨a', x', g1, g2.imp_right fun ⟨b, hb⟩ => ⟨b, List.mem_append_left _ hb⟩⟩
    · intro a i k hk
      simp only [List.mem_append, List.mem_singleton, reduceCtorEq, or_false] at hk
      exact mv.sent a i k hk
  · rename_i hd
    cases h; exact ⟨.refl m, fun h => absurd h hd⟩

theorem moved_expire : ∀ (ks : List Nat) (m : Mgr), Moved t m (Mgr.expire e ks m)
  | [], m => .refl m
  | stop :: ks, m => by
    unfold Mgr.expire
    split
    · exact moved_expire ks m
    · split
      · split
        · exact moved_expire ks m
        · rename_i start addr expiry hget hexp _ a pers hpk
          simp only
          generalize hm1 : (if a ≠ addr ∧ pers = false then { m.emit [.disconnect addr] with peers := m.peers.erase addr } else m) = m1
          have h1 : Moved t m m1 ∧ m1.inflight = m.inflight := by
            rw [← hm1]
            split
            · exact ⟨.same [_] rfl rfl rfl (by intro a i k; simp) rfl, rfl⟩
            · exact ⟨.refl m, rfl⟩
          refine h1.1.trans (.trans ?_ (moved_expire ks _))
          refine ⟨[.getCFHeaders a (start % 2 ^ 32) stop, .timer requestTimeout], rfl, rfl, ?_, ?_, ?_, .inl rfl⟩
          · intro k s b x hk
            simp only [AMap.get_insert]
            by_cases hks : stop = k
            · subst hks
              rw [h1.2, hget] at hk
              cases hk
              exact ⟨a, _, by rw [if_pos rfl], .inr ⟨a, by simp⟩⟩
            · exact ⟨b, x, by rw [if_neg hks]; exact hk, .inl rfl⟩
          · intro k s b x hk hn
            simp only [AMap.get_insert] at hk
            split at hk
            · rename_i hks
              subst hks
              rw [h1.2, hget] at hn
              cases hn
            · rw [show (m1.emit _).inflight.get k = none from hn] at hk; cases hk
          · intro b i k hk
            simp only [List.mem_cons, Out.getCFHeaders.injEq, List.not_mem_nil, or_false, reduceCtorEq] at hk
            obtain ⟨rfl, rfl, rfl⟩ := hk
            exact ⟨start, _, _, by simp only [AMap.get_insert, if_pos]; rfl, rfl⟩
      · exact moved_expire ks m

theorem moved_fetchRescan (m : Mgr) (a b : Nat) : Moved t m (m.fetchRescan p e t a b).1 := by
  have ho : ∀ es : List Ev, NoAsk (es.map .event) := fun es a i k => by simp
  unfold Mgr.fetchRescan
  split
  · exact .refl m
  · split
    · exact .refl m
    · have x := moved_getCFilters (t := t) e m a b
      generalize m.getCFilters e t a b = g at x
      obtain ⟨g1, g2⟩ := g
      split <;> (rename_i heq; cases heq)
      · exact x.trans (.same _ rfl rfl rfl (ho _) rfl)
      · exact x.trans (.same _ rfl rfl rfl (ho _) rfl)
      · exact x

theorem moved_startRescan (m : Mgr) (a b : Bound) (w : List Nat) : Moved t m (m.startRescan p e t a b w).1 := by
  unfold Mgr.startRescan
  split
  · refine .trans ?_ (moved_fetchRescan e _ _ _)
    exact .same [_] rfl rfl rfl (by intro a i k; simp) rfl
  · exact .refl m

theorem moved_cfilter (m : Mgr) (a b c : Nat) (f : Filter) : Moved t m (m.receivedCFilter p e t a b c f).1 := by
  unfold Mgr.receivedCFilter
  split
  · exact .refl m
  · split
    · exact .refl m
    · split
      · exact .refl m
      · split
        · exact .refl m
        · split
          · exact .refl m
          · simp only
            split
            · rename_i r _
              generalize r.process p = q
              obtain ⟨r', ms, es, n⟩ := q
              simp only
              have ho : ∀ (x : Ev) (m1 : Mgr), m1.inflight = m.inflight → m1.filters = m.filters → m1.lastIdle = m.lastIdle →
                  m1.out = m.out ++ [.event x] ++ es.map .event → Moved t m m1 := fun x m1 h1 h2 h3 h4 =>
                .same ([.event x] ++ es.map .event) h1 h2 (by rw [h4, List.append_assoc]) (by intro a i k; simp) h3
              split <;> exact ho _ _ rfl rfl rfl rfl
            · exact .same [_] rfl rfl rfl (by intro a i k; simp) rfl
            · exact .same [_] rfl rfl rfl (by intro a i k; simp) rfl
            · exact .same [_] rfl rfl rfl (by intro a i k; simp) rfl

theorem moved_headersImported (m : Mgr) (a b : Nat) : Moved t m (m.headersImported e t a b).1 := by
  unfold Mgr.headersImported
  split
  · exact .refl m
  · simp only
    split
    · exact .refl m
    · exact moved_getCFilters e m _ _

theorem moved_timer {m m' : Mgr} (hfair : e.Fair) (hp : m.peers ≠ []) (hb : t.belowCheckpoint = false) (h : m.step p e t .timer = .ok m') :
    Moved t m m' ∧ (m.Due e → Wants t m') := by
  simp only [Mgr.step, Mgr.timerExpired] at h
  rw [Res.bind_eq_ok] at h
  obtain ⟨m1, h1, h⟩ := h
  obtain ⟨i1, i2⟩ := moved_idle e hfair hp hb h1
  have x : Moved t m1 m' := by
    refine (moved_expire e (e.order m1.inflight.keys) m1).trans ?_
    generalize Mgr.expire e (e.order m1.inflight.keys) m1 = m2 at h ⊢
    split at h
    · split at h
      · have y := moved_getCFilters (t := t) e { m2 with rescan := m2.rescan.reset } m2.rescan.reset.current m2.filters.height
        generalize Mgr.getCFilters e t { m2 with rescan := m2.rescan.reset } m2.rescan.reset.current m2.filters.height = q at h y
        obtain ⟨q1, q2⟩ := q
        have y2 : Moved t m2 q1 := y.back rfl rfl rfl rfl
        cases q2 <;> simp at h <;> (subst h; exact y2)
      · cases h; exact .refl _
    · cases h; exact .refl _
  obtain ⟨d, x⟩ := x
  exact ⟨i1.trans ⟨d, x⟩, fun hd => (i2 hd).keep x⟩

theorem moved_cfheaders (m : Mgr) (msg : CFHeadersMsg) :
    (m.receivedCFHeaders p e t msg).1.filters = m.filters → m.inflight.contains msg.stop = true →
      Moved t { m with inflight := m.inflight.erase msg.stop } (m.receivedCFHeaders p e t msg).1 := by
  unfold Mgr.receivedCFHeaders
  split
  · rename_i hc; intro _ hc'; rw [hc] at hc'; cases hc'
  · intro hf _
    revert hf
    generalize hm1 : { m with inflight := m.inflight.erase msg.stop } = m1
    have hmf : m.filters = m1.filters := by rw [← hm1]
    rw [hmf]
    simp only
    split
    · intro _; exact .refl _
    · split
      · intro _; exact .refl _
      · split
        · intro _; exact .refl _
        · split
          · intro _; exact ⟨_, .same rfl rfl rfl (by intro a i k; simp) (.inr rfl)⟩
          · split
            · intro _; exact .refl _
            · split
              · intro _; exact .refl _
              · split
                · intro _; exact .refl _
                · split
                  · intro _; exact .refl _
                  · rename_i hlen _
                    have himp : ∀ (f : FilterHeaders) r, importHeaders m1.filters (chainHeaders p msg.prev msg.hashes) e.fail = (f, r) → f ≠ m1.filters := by
                      intro f r hr heq
                      have : f.tail = m1.filters.tail ++ chainHeaders p msg.prev msg.hashes := by
                        unfold importHeaders at hr
                        split at hr <;> cases hr <;> rfl
                      rw [heq, List.self_eq_append_right] at this
                      cases hh : msg.hashes with
                      | nil => rw [hh] at hlen; exact hlen rfl
                      | cons a l => rw [hh] at this; simp [chainHeaders] at this
                    split
                    · rename_i f height hi
                      intro hf
                      exfalso
                      refine himp _ _ hi ?_
                      rw [← hf]
                      have x := moved_headersImported (t := t) e { m1 with filters := f } m1.filters.height height
                      split
                      · rename_i m2 heq
                        rw [heq] at x
                        obtain ⟨_, x⟩ := x
                        have x := x.filters
                        simp only at x
                        split
                        · split
                          · exact x.symm
                          · split
                            · rename_i m3 hs
                              obtain ⟨_, y⟩ := moved_sync e hs
                              rw [y.filters, x]
                            · exact x.symm
                            · exact x.symm
                        · exact x.symm
                      · rename_i m2 r hne heq
                        rw [heq] at x
                        obtain ⟨_, x⟩ := x
                        exact x.filters.symm
                    · rename_i f r hne hi
                      intro hf
                      exact absurd hf (himp _ _ hi)

/-- What a call that leaves the filter headers as they are does to the requests. -/
theorem moved_step {m m' : Mgr} {op : Op} (hfair : e.Fair) (hp : m.peers ≠ []) (hb : t.belowCheckpoint = false) (hr : op.reverts = false)
    (h : m.step p e t op = .ok m') (hf : m'.filters = m.filters) :
    (∀ a msg, op = .cfheaders a msg → m.inflight.contains msg.stop = true → Moved t { m with inflight := m.inflight.erase msg.stop } m') ∧
    ((∀ a msg, op = .cfheaders a msg → m.inflight.contains msg.stop = false) → Moved t m m') := by
  cases op with
  | init => exact ⟨by simp, fun _ => (moved_idle e hfair hp hb h).1⟩
  | peerNegotiated a o f x =>
    refine ⟨by simp, fun _ => ?_⟩
    simp only [Mgr.step] at h
    split at h
    · cases h; exact .refl m
    · split at h
      · cases h; exact .refl m
      · have x := moved_sync e h
        exact x.back rfl rfl rfl rfl
  | peerDisconnected a => cases h; exact ⟨by simp, fun _ => .same [] rfl rfl (by simp) noAsk_nil rfl⟩
  | blockProcessed b n =>
    refine ⟨by simp, fun _ => ?_⟩
    simp only [Mgr.step] at h
    split at h
    · cases h
      have ho : ∀ (x y : Ev) (m1 : Mgr), m1.inflight = m.inflight → m1.filters = m.filters → m1.lastIdle = m.lastIdle →
          m1.out = m.out ++ [.event x] ++ [.event y] → Moved t m m1 := fun x y m1 h1 h2 h3 h4 =>
        .same ([.event x] ++ [.event y]) h1 h2 (by rw [h4, List.append_assoc]) (by intro a i k; simp) h3
      exact ho _ _ _ rfl rfl rfl rfl
    · cases h; exact .refl m
  | blockDisconnected n => cases h; exact ⟨by simp, fun _ => .same [] rfl rfl (by simp) noAsk_nil rfl⟩
  | headersImported r =>
    refine ⟨by simp, fun _ => ?_⟩
    cases r with
    | nil => exact moved_sync e h
    | cons x l => simp [Op.reverts] at hr
  | txConfirmed i => cases h; exact ⟨by simp, fun _ => .same [] rfl rfl (by simp) noAsk_nil rfl⟩
  | txReverted i s => cases h; exact ⟨by simp, fun _ => .same [] rfl rfl (by simp) noAsk_nil rfl⟩
  | cfheaders a msg =>
    simp only [Mgr.step] at h
    refine ⟨fun b msg' heq hc => ?_, fun hc => ?_⟩
    · cases heq
      have y := moved_cfheaders (p := p) (t := t) e m msg
      generalize m.receivedCFHeaders p e t msg = q at h y
      obtain ⟨q1, q2⟩ := q
      split at h <;> (rename_i heq; cases heq) <;> cases h
      · exact y hf hc
      · exact (y hf hc).trans (.same [_] rfl rfl rfl (by intro a i k; simp) rfl)
      · exact (y hf hc).trans (.same [_] rfl rfl rfl (by intro a i k; simp) rfl)
      · exact y hf hc
    · have : m.receivedCFHeaders p e t msg = (m, .err .ignored) := by unfold Mgr.receivedCFHeaders; rw [if_pos (hc a msg rfl)]
      rw [this] at h
      cases h
      exact .refl _
  | getcfheaders a ft s st =>
    refine ⟨by simp, fun _ => ?_⟩
    simp only [Mgr.step] at h
    have y : Moved t m (m.receivedGetCFHeaders p t a ft s st).1 := by
      rcases receivedGetCFHeaders_frame p t m a ft s st with hx | ⟨_, _, hx⟩ <;> rw [hx]
      · exact .refl m
      · exact .same [_] rfl rfl rfl (by intro a i k; simp) rfl
    generalize m.receivedGetCFHeaders p t a ft s st = q at h y
    obtain ⟨q1, q2⟩ := q
    split at h <;> (rename_i heq; cases heq) <;> cases h
    · exact y
    · exact y.trans (.same [_] rfl rfl rfl (by intro a i k; simp) rfl)
    · exact y
  | cfilter a ft b f =>
    refine ⟨by simp, fun _ => ?_⟩
    simp only [Mgr.step] at h
    have y := moved_cfilter (p := p) (t := t) e m a ft b f
    generalize m.receivedCFilter p e t a ft b f = q at h y
    obtain ⟨q1, q2⟩ := q
    split at h <;> (rename_i heq; cases heq) <;> cases h
    · refine y.trans ?_
      obtain ⟨h1, ks, o, h2, h3⟩ := afterFilter_frame (m := q1) (ms := _)
      refine .same _ (by rw [h1]) (by rw [h1]) h2 ?_ (by rw [h1])
      intro a i k hk
      rcases h3 with rfl | ⟨_, rfl⟩ <;> simp at hk
    · exact y.trans (.same [_] rfl rfl rfl (by intro a i k; simp) rfl)
    · exact y
  | timer => exact ⟨by simp, fun _ => (moved_timer e hfair hp hb h).1⟩
  | watch s => cases h; exact ⟨by simp, fun _ => .same [] rfl rfl (by simp) noAsk_nil rfl⟩
  | watchTransaction i s => cases h; exact ⟨by simp, fun _ => .same [] rfl rfl (by simp) noAsk_nil rfl⟩
  | rescan a b w =>
    refine ⟨by simp, fun _ => ?_⟩
    simp only [Mgr.step] at h
    have y := moved_startRescan (p := p) (t := t) e m a b w
    generalize m.startRescan p e t a b w = q at h y
    obtain ⟨q1, q2⟩ := q
    cases q2 <;> simp at h
    subst h
    exact y.trans (.same _ rfl rfl rfl (by intro a i k; simp) rfl)
  | getCFilters a b =>
    refine ⟨by simp, fun _ => ?_⟩
    simp only [Mgr.step] at h
    have y := moved_getCFilters (t := t) e m a b
    generalize m.getCFilters e t a b = q at h y
    obtain ⟨q1, q2⟩ := q
    cases q2 <;> simp at h <;> (subst h; exact y)

/-- A request is sent again once its time is over. -/
theorem expire_resends (hfair : e.Fair) {k s : Nat} : ∀ (ks : List Nat) (m : Mgr), m.peers ≠ [] → k ∈ ks →
    (∀ a x, m.inflight.get k = some (s, a, x) → x ≤ e.now) → (∃ a x, m.inflight.get k = some (s, a, x)) →
    ∃ d b, (Mgr.expire e ks m).out = m.out ++ d ∧ .getCFHeaders b (s % 2 ^ 32) k ∈ d
  | [], m, _, hk, _, _ => by cases hk
  | stop :: ks, m, hp, hk, hx, hs => by
    by_cases hks : stop = k
    · subst hks
      obtain ⟨a, x, hg⟩ := hs
      unfold Mgr.expire
      simp only [hg]
      rw [if_pos (hx a x hg)]
      have := hfair.pick_some stop m.peers hp
      obtain ⟨⟨b, pers⟩, hpk⟩ := Option.isSome_iff_exists.1 this
      simp only [hpk]
      generalize hm1 : (if b ≠ a ∧ pers = false then { m.emit [.disconnect a] with peers := m.peers.erase a } else m) = m1
      have h1 : ∃ d, m1.out = m.out ++ d := by
        rw [← hm1]
        split
        · exact ⟨_, rfl⟩
        · exact ⟨[], by simp⟩
      obtain ⟨d, h1⟩ := h1
      obtain ⟨d2, mv⟩ := moved_expire (t := ⟨[], none⟩) e ks { m1.emit [.getCFHeaders b (s % 2 ^ 32) stop, .timer requestTimeout] with
        inflight := m1.inflight.insert stop (s, b, e.now + requestTimeout) }
      refine ⟨d ++ [.getCFHeaders b (s % 2 ^ 32) stop, .timer requestTimeout] ++ d2, b, ?_, by simp⟩
      refine mv.out.trans ?_
      simp only [Mgr.emit, h1, List.append_assoc]
    · have hk' : k ∈ ks := by
        rcases List.mem_cons.1 hk with h | h
        · exact absurd h.symm hks
        · exact h
      unfold Mgr.expire
      split
      · exact expire_resends hfair ks m hp hk' hx hs
      · split
        · split
          · exact expire_resends hfair ks m hp hk' hx hs
          · rename_i start addr expiry hget hexp _ a pers hpk
            simp only
            generalize hm1 : (if a ≠ addr ∧ pers = false then { m.emit [.disconnect addr] with peers := m.peers.erase addr } else m) = m1
            have h1 : (∃ d, m1.out = m.out ++ d) ∧ m1.inflight = m.inflight ∧ m1.peers ≠ [] := by
              rw [← hm1]
              split
              · rename_i hc
                refine ⟨⟨_, rfl⟩, rfl, ?_⟩
                have hm : a ∈ (m.peers.erase addr).keys := (AMap.mem_keys_erase _ _ _).2 ⟨List.mem_map_of_mem (f := (·.1)) (hfair.pick_mem _ _ _ hpk), hc.1⟩
                intro he
                simp only at he
                rw [he] at hm
                cases hm
              · exact ⟨⟨[], by simp⟩, rfl, hp⟩
            obtain ⟨⟨d, h1⟩, h2, h3⟩ := h1
            have hget' : (m1.inflight.insert stop (start, a, e.now + requestTimeout)).get k = m.inflight.get k := by
              rw [AMap.get_insert, if_neg hks, h2]
            obtain ⟨d2, b, r1, r2⟩ := expire_resends hfair ks { m1.emit [.getCFHeaders a (start % 2 ^ 32) stop, .timer requestTimeout] with
              inflight := m1.inflight.insert stop (start, a, e.now + requestTimeout) } h3 hk'
              (fun a x h => hx a x (by simp only [hget'] at h; exact h))
              (by obtain ⟨a, x, h⟩ := hs; exact ⟨a, x, by simp only [hget']; exact h⟩)
            refine ⟨d ++ [.getCFHeaders a (start % 2 ^ 32) stop, .timer requestTimeout] ++ d2, b, ?_, by simp [r2]⟩
            refine r1.trans ?_
            simp only [Mgr.emit, h1, List.append_assoc]
        · exact expire_resends hfair ks m hp hk' hx hs

theorem timer_resends (hfair : e.Fair) {m m' : Mgr} (hp : m.peers ≠ []) (hb : t.belowCheckpoint = false) (h : m.step p e t .timer = .ok m') {k s a x : Nat}
    (hk : m.inflight.get k = some (s, a, x)) (hx : x ≤ e.now) : ∃ d b, m'.out = m.out ++ d ∧ .getCFHeaders b (s % 2 ^ 32) k ∈ d := by
  simp only [Mgr.step, Mgr.timerExpired] at h
  rw [Res.bind_eq_ok] at h
  obtain ⟨m1, h1, h⟩ := h
  obtain ⟨⟨d1, i1⟩, -⟩ := moved_idle e hfair hp hb h1
  have hout : ∃ d, m'.out = (Mgr.expire e (e.order m1.inflight.keys) m1).out ++ d := by
    generalize Mgr.expire e (e.order m1.inflight.keys) m1 = m2 at h ⊢
    split at h
    · split at h
      · obtain ⟨d, y⟩ := moved_getCFilters (t := t) e { m2 with rescan := m2.rescan.reset } m2.rescan.reset.current m2.filters.height
        have y := y.out
        generalize Mgr.getCFilters e t { m2 with rescan := m2.rescan.reset } m2.rescan.reset.current m2.filters.height = q at h y
        obtain ⟨q1, q2⟩ := q
        cases q2 <;> simp at h <;> (subst h; exact ⟨d, y⟩)
      · cases h; exact ⟨[], by simp⟩
    · cases h; exact ⟨[], by simp⟩
  obtain ⟨d3, hout⟩ := hout
  obtain ⟨a', x', g1, g2⟩ := i1.keep k s a x hk
  rcases g2 with g2 | ⟨b, g2⟩
  · subst g2
    have hin : k ∈ e.order m1.inflight.keys := by
      rw [(hfair.order_perm _).mem_iff]
      exact (AMap.get_isSome_iff _ _).1 (by rw [g1]; rfl)
    obtain ⟨d2, b, r1, r2⟩ := expire_resends e hfair (e.order m1.inflight.keys) m1 (by rw [idle_peers p e t m m1 h1]; exact hp) hin
      (fun a x h => by rw [g1] at h; cases h; exact hx) ⟨a', x', g1⟩
    exact ⟨d1 ++ d2 ++ d3, b, by rw [hout, r1, i1.out]; simp, by simp [r2]⟩
  · obtain ⟨d2, mv⟩ := moved_expire (t := t) e (e.order m1.inflight.keys) m1
    exact ⟨d1 ++ d2 ++ d3, b, by rw [hout, mv.out, i1.out]; simp, by simp [g2]⟩

end Verif.Cbf
