import Verif.Cbf.PropsReq
import Verif.Cbf.Scenario

/-!
# Property C66: filter headers are taken only while they are asked for — from anybody
-/

set_option autoImplicit false

namespace Verif.Cbf

variable (p : Params)

/-- Histories of the filter manager, most recent call first, each with what was put out meanwhile. -/
inductive Story (p : Params) : List (Op × List Out) → Mgr → Prop
  | start (f : FilterHeaders) (cacheSize : Nat) : Story p [] (Mgr.new f cacheSize)
  | step {h : List (Op × List Out)} {m m' : Mgr} {op : Op} {outs : List Out} (e : Env) (t : Tree) (r : Story p h m) (hs : m.step p e t op = .ok m')
      (ho : m'.out = m.out ++ outs) : Story p ((op, outs) :: h) m'

/-- A request for the filter headers up to the block `stop` was sent to `a`, and no filter headers up to that block were received since, from whomever. -/
def OpenTo (stop a : Nat) : List (Op × List Out) → Prop
  | [] => False
  | (op, outs) :: h => (∃ start, .getCFHeaders a start stop ∈ outs) ∨ (OpenTo stop a h ∧ ∀ b msg, op = .cfheaders b msg → msg.stop ≠ stop)

/-- A request for the filter headers up to the block `stop` was sent, and no filter headers up to that block were received since. -/
def Open (stop : Nat) (h : List (Op × List Out)) : Prop := ∃ a, OpenTo stop a h

/-! ## The requests kept track of -/

/-- Requests that are kept track of afterwards were kept track of before, or were sent meanwhile. -/
def Tracks (m m' : Mgr) : Prop :=
  ∃ o, m'.out = m.out ++ o ∧ ∀ k s a x, m'.inflight.get k = some (s, a, x) → m.inflight.get k = some (s, a, x) ∨ .getCFHeaders a (s % 2 ^ 32) k ∈ o

theorem Tracks.refl (m : Mgr) : Tracks m m := ⟨[], by simp, fun _ _ _ _ h => .inl h⟩

theorem Tracks.trans {a b c : Mgr} (h1 : Tracks a b) (h2 : Tracks b c) : Tracks a c := by
  obtain ⟨o1, e1, f1⟩ := h1
  obtain ⟨o2, e2, f2⟩ := h2
  refine ⟨o1 ++ o2, by rw [e2, e1, List.append_assoc], fun k s x y hk => ?_⟩
  rcases f2 k s x y hk with hk | hk
  · rcases f1 k s x y hk with hk | hk
    · exact .inl hk
    · exact .inr (List.mem_append_left _ hk)
  · exact .inr (List.mem_append_right _ hk)

theorem Tracks.same {m m' : Mgr} (o : List Out) (h1 : m'.inflight = m.inflight) (h2 : m'.out = m.out ++ o) : Tracks m m' :=
  ⟨o, h2, fun _ _ _ _ h => .inl (h1 ▸ h)⟩

variable {t : Tree} (e : Env)

theorem tracks_getCFHeaders (m : Mgr) (start stop : Nat) : Tracks m (m.getCFHeaders e start stop) := by
  unfold Mgr.getCFHeaders
  split
  · exact .refl m
  · split
    · refine ⟨[_, _], rfl, fun k s a x hk => ?_⟩
      simp only [AMap.get_insert] at hk
      split at hk
      · rename_i h; subst h; cases hk; exact .inr (by simp)
      · exact .inl hk
    · exact .refl m

theorem tracks_sendGetCFHeaders {E : Type} {m m' : Mgr} {start stop : Nat} (h : (m.sendGetCFHeaders p e t start stop : Res E Mgr) = .ok m') : Tracks m m' := by
  unfold Mgr.sendGetCFHeaders at h
  split at h
  · split at h
    · cases h
    · cases h; exact .refl m
  · simp only at h
    split at h
    · cases h
    · cases h; exact tracks_getCFHeaders e m _ _

theorem tracks_askFilters (peers : List Nat) : ∀ (rs : List (Nat × Nat)) (i : Nat) (m : Mgr), Tracks m (Mgr.askFilters t peers i m rs).1
  | [], i, m => by simpa [Mgr.askFilters] using Tracks.refl m
  | (a, b) :: rs, i, m => by
    unfold Mgr.askFilters
    split
    · exact .refl m
    · split
      · exact .refl m
      · refine .trans ?_ (tracks_askFilters peers rs (i + 1) _)
        exact .same [_, _] rfl rfl

theorem tracks_getCFilters (m : Mgr) (a b : Nat) : Tracks m (m.getCFilters e t a b).1 := by
  unfold Mgr.getCFilters
  split
  · exact .refl m
  · split
    · exact .refl m
    · split
      · exact .trans (.same [] rfl (by simp)) (tracks_askFilters _ _ _ _)
      · exact .refl m

theorem tracks_sync {E : Type} {m m' : Mgr} (h : (m.sync p e t : Res E Mgr) = .ok m') : Tracks m m' := by
  unfold Mgr.sync at h
  split at h
  · split at h
    · cases h; exact .refl m
    · rw [Res.bind_eq_ok] at h
      obtain ⟨m1, h1, h2⟩ := h
      have h0 : Tracks m m1 := by
        split at h1
        · exact tracks_sendGetCFHeaders p e h1
        · cases h1; exact .refl m
      refine h0.trans ?_
      split at h2
      · have := tracks_getCFilters (t := t) e m1 m1.rescan.current m1.filters.height
        generalize m1.getCFilters e t m1.rescan.current m1.filters.height = g at h2 this
        obtain ⟨g1, g2⟩ := g
        cases g2 <;> simp at h2 <;> (subst h2; exact this)
      · cases h2; exact .refl _
  · cases h

theorem tracks_idle {E : Type} {m m' : Mgr} (h : (m.idle p e t : Res E Mgr) = .ok m') : Tracks m m' := by
  unfold Mgr.idle at h
  split at h
  · rw [Res.bind_eq_ok] at h
    obtain ⟨m1, h1, h2⟩ := h
    cases h2
    exact (tracks_sync p e h1).trans (.same [_] rfl rfl)
  · cases h; exact .refl m

theorem tracks_expire : ∀ (ks : List Nat) (m : Mgr), Tracks m (Mgr.expire e ks m)
  | [], m => .refl m
  | stop :: ks, m => by
    unfold Mgr.expire
    split
    · exact tracks_expire ks m
    · split
      · split
        · exact tracks_expire ks m
        · rename_i start addr expiry hget hexp _ a pers hpk
          simp only
          generalize hm1 : (if a ≠ addr ∧ pers = false then { m.emit [.disconnect addr] with peers := m.peers.erase addr } else m) = m1
          have h1 : Tracks m m1 := by
            rw [← hm1]
            split
            · exact .same [_] rfl rfl
            · exact .refl m
          refine h1.trans (.trans ?_ (tracks_expire ks _))
          refine ⟨[_, _], rfl, fun k s b x hk => ?_⟩
          simp only [AMap.get_insert] at hk
          split at hk
          · rename_i h; subst h; cases hk; exact .inr (by simp)
          · exact .inl hk
      · exact tracks_expire ks m

theorem tracks_headersImported (m : Mgr) (a b : Nat) : Tracks m (m.headersImported e t a b).1 := by
  unfold Mgr.headersImported
  split
  · exact .refl m
  · simp only
    split
    · exact .refl m
    · exact tracks_getCFilters e m _ _

theorem tracks_receivedCFHeaders (m : Mgr) (msg : CFHeadersMsg) :
    (m.inflight.contains msg.stop = false ∧ (m.receivedCFHeaders p e t msg).1 = m) ∨
    (m.inflight.contains msg.stop = true ∧ Tracks { m with inflight := m.inflight.erase msg.stop } (m.receivedCFHeaders p e t msg).1) := by
  unfold Mgr.receivedCFHeaders
  split
  · rename_i hc; exact .inl ⟨hc, rfl⟩
  · rename_i hc
    refine .inr ⟨by simpa using hc, ?_⟩
    generalize hm1 : { m with inflight := m.inflight.erase msg.stop } = m1
    simp only
    split
    · exact .refl _
    · split
      · exact .refl _
      · split
        · exact .refl _
        · split
          · exact .same [_] rfl rfl
          · split
            · exact .refl _
            · split
              · exact .refl _
              · split
                · exact .refl _
                · split
                  · exact .refl _
                  · split
                    · rename_i f height _
                      have x := tracks_headersImported (t := t) e { m1 with filters := f } m1.filters.height height
                      have x : Tracks m1 _ := Tracks.trans (.same [] rfl (by simp)) x
                      split
                      · rename_i m2 heq
                        rw [heq] at x
                        simp only at x
                        split
                        · split
                          · exact x.trans (.same [_] rfl rfl)
                          · split
                            · rename_i m3 hs; exact x.trans (tracks_sync p e hs)
                            · exact x
                            · exact x
                        · exact x
                      · rename_i m2 r hne heq
                        rw [heq] at x
                        exact x
                    · exact .same [] rfl (by simp)

theorem tracks_rollback {m m' : Mgr} {h : Nat} (hr : m.rollback e h = .ok m') : Tracks m m' := by
  unfold Mgr.rollback at hr
  split at hr
  · cases hr; exact .refl m
  · rw [Res.bind_eq_ok] at hr
    obtain ⟨r, -, hr⟩ := hr
    simp only at hr
    split at hr
    · split at hr
      · split at hr <;> cases hr <;> exact .same [] rfl (by simp)
      · cases hr; exact .same [] rfl (by simp)
    · cases hr; exact .same [_] rfl rfl

theorem tracks_fetchRescan (m : Mgr) (a b : Nat) : Tracks m (m.fetchRescan p e t a b).1 := by
  unfold Mgr.fetchRescan
  split
  · exact .refl m
  · split
    · exact .refl m
    · have x := tracks_getCFilters (t := t) e m a b
      generalize m.getCFilters e t a b = g at x
      obtain ⟨g1, g2⟩ := g
      split <;> (rename_i heq; cases heq)
      · exact x.trans (.same _ rfl rfl)
      · exact x.trans (.same _ rfl rfl)
      · exact x

theorem tracks_startRescan (m : Mgr) (a b : Bound) (w : List Nat) : Tracks m (m.startRescan p e t a b w).1 := by
  unfold Mgr.startRescan
  split
  · refine .trans ?_ (tracks_fetchRescan p e _ _ _)
    exact .same [_] rfl rfl
  · exact .refl m

theorem tracks_cfilter (m : Mgr) (a b c : Nat) (f : Filter) : Tracks m (m.receivedCFilter p e t a b c f).1 := by
  unfold Mgr.receivedCFilter
  split
  · exact .refl m
  · split
    · exact .refl m
    · split
      · exact .refl m
      · split
        · exact .refl m
        · split
          · exact .refl m
          · simp only
            split
            · rename_i r _
              generalize r.process p = q
              obtain ⟨r', ms, es, n⟩ := q
              simp only
              have ho : ∀ (x : Out) (m1 : Mgr), m1.inflight = m.inflight → m1.out = m.out ++ [x] ++ es.map .event → Tracks m m1 := fun x m1 h1 h2 =>
                .same ([x] ++ es.map .event) h1 (by rw [h2, List.append_assoc])
              split <;> exact ho _ _ rfl rfl
            · exact .same [_] rfl rfl
            · exact .same [_] rfl rfl
            · exact .same [_] rfl rfl

theorem tracks_erase (m : Mgr) (k : Nat) : Tracks m { m with inflight := m.inflight.erase k } :=
  ⟨[], by simp, fun k' s a x hk => .inl (by simp only [AMap.get_erase] at hk; split at hk; cases hk; exact hk)⟩

/-- What a call does to the requests kept track of. -/
theorem tracks_step {m m' : Mgr} {op : Op} (h : m.step p e t op = .ok m') :
    Tracks m m' ∧ ∀ a msg, op = .cfheaders a msg →
      (m.inflight.contains msg.stop = false ∧ m' = m) ∨ (m.inflight.contains msg.stop = true ∧ Tracks { m with inflight := m.inflight.erase msg.stop } m') := by
  cases op with
  | init => exact ⟨tracks_idle p e h, by simp⟩
  | peerNegotiated a o f x =>
    refine ⟨?_, by simp⟩
    simp only [Mgr.step] at h
    split at h
    · cases h; exact .refl m
    · split at h
      · cases h; exact .refl m
      · have x := tracks_sync p e h
        exact .trans (.same [] rfl (by simp)) x
  | peerDisconnected a => cases h; exact ⟨.same [] rfl (by simp), by simp⟩
  | blockProcessed b n =>
    refine ⟨?_, by simp⟩
    simp only [Mgr.step] at h
    split at h
    · cases h
      have ho : ∀ (x y : Out) (m1 : Mgr), m1.inflight = m.inflight → m1.out = m.out ++ [x] ++ [y] → Tracks m m1 := fun x y m1 h1 h2 =>
        .same ([x] ++ [y]) h1 (by rw [h2, List.append_assoc])
      exact ho _ _ _ rfl rfl
    · cases h; exact .refl m
  | blockDisconnected n => cases h; exact ⟨.same [] rfl (by simp), by simp⟩
  | headersImported r =>
    refine ⟨?_, by simp⟩
    simp only [Mgr.step] at h
    split at h
    · rw [Res.bind_eq_ok] at h
      obtain ⟨f, -, h⟩ := h
      rw [Res.bind_eq_ok] at h
      obtain ⟨m1, h1, h⟩ := h
      exact (tracks_rollback e h1).trans (tracks_sync p e h)
    · exact tracks_sync p e h
  | txConfirmed i => cases h; exact ⟨.same [] rfl (by simp), by simp⟩
  | txReverted i s => cases h; exact ⟨.same [] rfl (by simp), by simp⟩
  | cfheaders a msg =>
    simp only [Mgr.step] at h
    have key : (m.inflight.contains msg.stop = false ∧ m' = m) ∨
        (m.inflight.contains msg.stop = true ∧ Tracks { m with inflight := m.inflight.erase msg.stop } m') := by
      rcases tracks_receivedCFHeaders p (t := t) e m msg with ⟨x, -⟩ | ⟨x, y⟩
      · have : m.receivedCFHeaders p e t msg = (m, .err .ignored) := by unfold Mgr.receivedCFHeaders; rw [if_pos x]
        rw [this] at h
        cases h
        exact .inl ⟨x, rfl⟩
      · refine .inr ⟨x, ?_⟩
        generalize m.receivedCFHeaders p e t msg = q at h y
        obtain ⟨q1, q2⟩ := q
        split at h <;> (rename_i heq; cases heq) <;> cases h
        · exact y
        · exact y.trans (.same [_] rfl rfl)
        · exact y.trans (.same [_] rfl rfl)
        · exact y
    refine ⟨?_, fun b msg' heq => by cases heq; exact key⟩
    rcases key with ⟨-, rfl⟩ | ⟨-, y⟩
    · exact .refl _
    · exact (tracks_erase m msg.stop).trans y
  | getcfheaders a ft s st =>
    refine ⟨?_, by simp⟩
    simp only [Mgr.step] at h
    have y : Tracks m (m.receivedGetCFHeaders p t a ft s st).1 := by
      rcases receivedGetCFHeaders_frame p t m a ft s st with hx | ⟨_, _, hx⟩ <;> rw [hx]
      · exact .refl m
      · exact .same [_] rfl rfl
    generalize m.receivedGetCFHeaders p t a ft s st = q at h y
    obtain ⟨q1, q2⟩ := q
    split at h <;> (rename_i heq; cases heq) <;> cases h
    · exact y
    · exact y.trans (.same [_] rfl rfl)
    · exact y
  | cfilter a ft b f =>
    refine ⟨?_, by simp⟩
    simp only [Mgr.step] at h
    have y := tracks_cfilter p (t := t) e m a ft b f
    generalize m.receivedCFilter p e t a ft b f = q at h y
    obtain ⟨q1, q2⟩ := q
    split at h <;> (rename_i heq; cases heq) <;> cases h
    · refine y.trans ?_
      obtain ⟨h1, ks, o, h2, -⟩ := afterFilter_frame (m := q1) (ms := _)
      exact .same _ (by rw [h1]) h2
    · exact y.trans (.same [_] rfl rfl)
    · exact y
  | timer =>
    refine ⟨?_, by simp⟩
    simp only [Mgr.step, Mgr.timerExpired] at h
    rw [Res.bind_eq_ok] at h
    obtain ⟨m1, h1, h⟩ := h
    refine (tracks_idle p e h1).trans ((tracks_expire e (e.order m1.inflight.keys) m1).trans ?_)
    generalize Mgr.expire e (e.order m1.inflight.keys) m1 = m2 at h ⊢
    split at h
    · split at h
      · have y := tracks_getCFilters (t := t) e { m2 with rescan := m2.rescan.reset } m2.rescan.reset.current m2.filters.height
        generalize Mgr.getCFilters e t { m2 with rescan := m2.rescan.reset } m2.rescan.reset.current m2.filters.height = q at h y
        obtain ⟨q1, q2⟩ := q
        have y : Tracks m2 q1 := .trans (.same [] rfl (by simp)) y
        cases q2 <;> simp at h <;> (subst h; exact y)
      · cases h; exact .refl _
    · cases h; exact .refl _
  | watch s => cases h; exact ⟨.same [] rfl (by simp), by simp⟩
  | watchTransaction i s => cases h; exact ⟨.same [] rfl (by simp), by simp⟩
  | rescan a b w =>
    refine ⟨?_, by simp⟩
    simp only [Mgr.step] at h
    have y := tracks_startRescan p (t := t) e m a b w
    generalize m.startRescan p e t a b w = q at h y
    obtain ⟨q1, q2⟩ := q
    cases q2 <;> simp at h
    subst h
    exact y.trans (.same _ rfl rfl)
  | getCFilters a b =>
    refine ⟨?_, by simp⟩
    simp only [Mgr.step] at h
    have y := tracks_getCFilters (t := t) e m a b
    generalize m.getCFilters e t a b = q at h y
    obtain ⟨q1, q2⟩ := q
    cases q2 <;> simp at h <;> (subst h; exact y)

/-- Every request kept track of is open. -/
theorem story_open {h : List (Op × List Out)} {m : Mgr} (r : Story p h m) : ∀ k s a x, m.inflight.get k = some (s, a, x) → OpenTo k a h := by
  induction r with
  | start f c => intro k s a x hk; simp [Mgr.new] at hk
  | step e t r hs ho ih =>
    rename_i h m m' op outs
    intro k s a x hk
    obtain ⟨⟨o, h1, h2⟩, h3⟩ := tracks_step p e hs
    have ho' : o = outs := by rw [h1] at ho; exact List.append_cancel_left ho
    subst ho'
    by_cases hc : ∃ b msg, op = .cfheaders b msg ∧ msg.stop = k
    · obtain ⟨b, msg, rfl, rfl⟩ := hc
      rcases h3 b msg rfl with ⟨h4, rfl⟩ | ⟨-, o', h4, h5⟩
      · rw [AMap.contains_eq_false_iff] at h4
        simp [hk] at h4
      · have : o' = o := by rw [h1] at h4; exact (List.append_cancel_left h4).symm
        subst this
        rcases h5 _ _ _ _ hk with h6 | h6
        · simp at h6
        · exact .inl ⟨_, h6⟩
    · rcases h2 _ _ _ _ hk with h6 | h6
      · refine .inr ⟨ih _ _ _ _ h6, fun b msg hop hst => hc ⟨b, msg, hop, hst⟩⟩
      · exact .inl ⟨_, h6⟩

/-- **C66.** Filter headers are added only by a message with filter headers up to a block for which a request is open: it was sent to some peer, and no filter
headers up to that block were received since.  (Missing: that the sender is that peer; see below.) -/
theorem C66_asked_partial {h : List (Op × List Out)} {m m' : Mgr} {op : Op} (r : Story p h m) (hs : m.step p e t op = .ok m') (hf : ¬ m'.filters.all <+: m.filters.all) :
    ∃ b msg, op = .cfheaders b msg ∧ Open msg.stop h := by
  have hi : op.imports = true := by
    have x := step_filters p e t m m' op hs
    generalize m'.filters = f at x hf
    cases x with
    | same => exact absurd (List.prefix_refl _) hf
    | imported hs hi => exact hi
    | rolledBack n _ =>
      refine absurd ?_ hf
      unfold rollbackHeaders
      split
      · exact List.prefix_refl _
      · exact List.cons_prefix_cons.2 ⟨rfl, List.take_prefix _ _⟩
  cases op with
  | cfheaders b msg =>
    refine ⟨b, msg, rfl, ?_⟩
    rcases (tracks_step p e hs).2 b msg rfl with ⟨-, rfl⟩ | ⟨h1, -⟩
    · exact absurd (List.prefix_refl _) hf
    · rw [AMap.contains_iff, ← AMap.get_isSome_iff, Option.isSome_iff_exists] at h1
      obtain ⟨⟨s, a, x⟩, h1⟩ := h1
      exact ⟨a, story_open p r _ _ _ _ h1⟩
  | _ => simp [Op.imports] at hi

/-- **C66**, why not more can be said: it does not matter who sends the message. -/
theorem C66_anyone (m : Mgr) (msg : CFHeadersMsg) (a b : Nat) :
    match m.step p e t (.cfheaders a msg), m.step p e t (.cfheaders b msg) with
    | .ok ma, .ok mb => ma.filters = mb.filters
    | .panic, .panic => True
    | _, _ => False := by
  simp only [Mgr.step]
  generalize m.receivedCFHeaders p e t msg = q
  obtain ⟨q1, q2⟩ := q
  cases q2 with
  | ok x => rfl
  | err x => cases x <;> rfl
  | panic => trivial

end Verif.Cbf

namespace Verif.Cbf.Scenario

/-- Peer 1 is asked for the filter headers up to block 103; the answer is taken, from peer 2. -/
example : ∃ (h : List (Op × List Out)) (m m' : Mgr) (b : Nat) (msg : CFHeadersMsg), Story p h m ∧ m.step p (at_ 100001) t (.cfheaders b msg) = .ok m' ∧
    ¬ m'.filters.all <+: m.filters.all ∧ OpenTo msg.stop 1 h ∧ b ≠ 1 := by
  have h1 : ((m0.step p (at_ 100000) t (.peerNegotiated 1 true true false)) >>= fun m => (m.step p (at_ 100001) t (.cfheaders 2 ⟨0, 103, 6, [1, 2, 3]⟩)) >>= fun m' =>
      .ok (decide (m'.filters.all <+: m.filters.all), decide (.getCFHeaders 1 1 103 ∈ m.out))) = (.ok (false, true) : Res Unit (Bool × Bool)) := by decide +kernel
  rw [Res.bind_eq_ok] at h1
  obtain ⟨m, hm, h1⟩ := h1
  rw [Res.bind_eq_ok] at h1
  obtain ⟨m', hm', h1⟩ := h1
  simp only [Res.ok.injEq, Prod.mk.injEq, decide_eq_false_iff_not, decide_eq_true_eq] at h1
  exact ⟨[(_, m.out)], m, m', 2, ⟨0, 103, 6, [1, 2, 3]⟩, .step (at_ 100000) t (.start _ _) hm (by simp [Mgr.new]), hm', h1.1, .inl ⟨1, h1.2⟩, by decide⟩

end Verif.Cbf.Scenario
