import Verif.Sync.PropsDownload

/-!
# Requests when peers announce blocks by their headers

Without announcements by `inv` no request is ever sent again to another peer, so every request made while the tree stays as it is starts at its tip.
-/

set_option autoImplicit false

namespace Verif.Sync
open Verif.Chain (Header State Err ImportResult)

variable {cfg : Cfg} {U : Header → Prop} {fail : Bool} {P : State → Op → Prop} {g : Header} {t0 st : State}
variable {m m' M : Mgr} {t t' : State} {h : Hist} {op : Op} {a : Nat} {env : Env} {now : Nat}

/-- Blocks announced by `inv` are known already. -/
def Announced (t : State) (op : Op) : Prop := ∀ now a items, op = .inv now a items → ∀ b ∈ blocksOf items, t.isKnown b = true

/-- No outstanding request is to be sent again to another peer. -/
def Calm (m : Mgr) : Prop := ∀ a r, m.inflight.get a = some r → ∀ n, r.onTimeout ≠ .retry n

theorem Calm.sub (c : Calm m) (h : ∀ a r, M.inflight.get a = some r → m.inflight.get a = some r) : Calm M :=
  fun a r hr => c a r (h a r hr)

theorem Calm.erase (c : Calm m) (h : M.inflight = m.inflight.erase a) : Calm M := by
  refine c.sub fun b r hr => ?_
  rw [h, AMap.get_erase] at hr
  split at hr
  · cases hr
  · exact hr

theorem Calm.asks {K : OnTimeout → Prop} {o : List Out} (c : Calm m) (h : Asks now K m m' o) (hk : ∀ k, K k → ∀ n, k ≠ .retry n) : Calm m' := by
  intro a r hr
  rcases h.each a with ⟨-, -, h1⟩ | ⟨l, p, k, -, -, -, -, h1, h2⟩
  · exact c a r (by rw [← h1]; exact hr)
  · rw [h1] at hr
    cases hr
    exact hk k h2

theorem Calm.ignore {o : List Out} (c : Calm m) (h : Asks now (· = .ignore) m m' o) : Calm m' :=
  c.asks h (fun k hk n => by rw [hk]; simp)

/-- Requests that time out are forgotten, or the peers dropped. -/
theorem calm_expire {rs : List (Nat × Request)} {o : List Out} (hr : ∀ p ∈ rs, ∀ n, p.2.onTimeout ≠ .retry n) (h : ∀ x ∈ o, ExpireOut cfg rs x) {b : Nat} {l : Locators} :
    Out.getHeaders b l ∉ o := by
  intro hx
  rcases h _ hx with ⟨a, r, h1, h2, h3⟩ | ⟨a, r, n, b, h1, h2, -⟩ | h1
  · cases h2
  · exact hr _ h1 _ h2
  · cases h1

theorem calm_timedOut (hl : env.Legal) (c : Calm m) : ∀ p ∈ m.timedOut cfg env now, ∀ n, p.2.onTimeout ≠ .retry n :=
  fun p hp => c p.1 p.2 ((mem_timedOut hl).1 hp).1

theorem step_calm (r : Run cfg U fail P t0 h m t) (l : op.Legal U fail) (ann : Announced t op) (e : { m with out := [] }.step cfg t op = .ok (m', t'))
    (c : Calm m) : Calm m' := by
  have c : Calm { m with out := [] } := c
  cases op with
  | init env now =>
    simp only [Mgr.step, Res.bind_eq_ok] at e
    obtain ⟨m1, e1, e2⟩ := e
    cases e2
    obtain ⟨o, h1, -⟩ := idle_ok e1
    exact c.ignore h1
  | negotiated env now b n network filters outbound =>
    simp only [Mgr.step, Res.bind_eq_ok] at e
    obtain ⟨m1, e1, e2⟩ := e
    cases e2
    unfold Mgr.negotiated at e1
    split at e1
    · cases e1; exact c
    · rw [Res.bind_eq_ok] at e1
      obtain ⟨q, e3, e4⟩ := e1
      cases e4
      obtain ⟨o, h1, -⟩ := sync_ok e3
      refine Calm.ignore (c.sub fun a r hr => ?_) h1
      have : (Mgr.reportHeight { m with out := [] } t n).inflight = m.inflight := by
        unfold Mgr.reportHeight
        split <;> rfl
      simp only [Mgr.register] at hr
      rw [this] at hr
      exact hr
  | gone b =>
    simp only [Mgr.step, Res.ok.injEq, Prod.mk.injEq] at e
    obtain ⟨rfl, -⟩ := e
    exact c.erase rfl
  | getheaders b lc =>
    simp only [Mgr.step, Res.bind_eq_ok] at e
    obtain ⟨m1, e1, e2⟩ := e
    cases e2
    unfold Mgr.getheaders at e1
    split at e1
    · cases e1; exact c
    · rw [Res.bind_eq_ok] at e1
      obtain ⟨hs, -, e3⟩ := e1
      split at e3 <;> (cases e3; exact c)
  | inv now b items =>
    have hnone : (blocksOf items).filter (fun x => !(t.isKnown x)) = [] := by
      rw [List.filter_eq_nil_iff]
      intro x hx
      simp [ann now b items rfl x hx]
    simp only [Mgr.step, Res.bind_eq_ok] at e
    obtain ⟨m1, e1, e2⟩ := e
    cases e2
    unfold Mgr.inv at e1
    rw [hnone] at e1
    split at e1
    · cases e1; exact c
    · split at e1
      · cases e1; exact c
      · split at e1
        · cases e1; exact c
        · cases e1; exact c
  | timer env now =>
    simp only [Mgr.step, Res.bind_eq_ok] at e
    obtain ⟨m1, e1, e2⟩ := e
    cases e2
    obtain ⟨o, -, m2, b, o1, o2, -, rfl, g1, -, g2, -, -, -, g6, -, -⟩ := timer_ok l.1 (run_inv r).clear e1
    refine Calm.ignore ?_ g6
    intro a r hr
    have hno : requests a o1 = [] := by
      cases hq : requests a o1 with
      | nil => rfl
      | cons x xs =>
        have hx : x ∈ requests a o1 := by rw [hq]; simp
        exact absurd (mem_requests.1 hx) (calm_expire (calm_timedOut l.1 c) g2)
    rcases g1.each a with ⟨-, -, h1⟩ | ⟨lc, p, k, h1, -⟩
    · rw [h1, without_get l.1] at hr
      exact c a r (Option.filter_eq_some_iff.1 hr).1
    · rw [hno] at h1; cases h1
  | headers env now b hs =>
    have heard : ∀ p, Calm (Mgr.heard { m with out := [] } now b p) := fun p => c.erase (a := b) rfl
    cases headers_ok e with
    | misbehaved => exact c.erase (a := b) rfl
    | ignored => exact c.erase (a := b) rfl
    | known => exact heard _
    | aborted => exact heard _
    | unchanged hlen hi hp hr hf hl e1 =>
      obtain ⟨o, h1, -⟩ := request_ok (K := (· = .ignore)) e1 rfl
      exact (heard _).ignore h1
    | @changed p q header hash height rv cn hlen hi hp hr e1 =>
      obtain ⟨o, h1, -⟩ := sync_ok e1
      refine Calm.ignore ((heard p).sub fun a r hr => ?_) h1
      rw [broadcastTip_eq] at hr
      simp only at hr
      rw [(updated_fields (env := env)).1] at hr
      exact hr
    | @full p m' header hash height rv cn hlen hi hp hr e1 =>
      obtain ⟨o, h1, -⟩ := request_ok (K := (· = .disconnect)) e1 rfl
      refine Calm.asks ((heard p).sub fun a r hr => ?_) h1 (fun k hk n => by rw [hk]; simp)
      rw [(updated_fields (env := env)).1] at hr
      exact hr
  | userImport env hs =>
    simp only [Mgr.step, Mgr.userImport] at e
    have : ∀ q, (Mgr.report env { m with out := [] } (Chain.importBlocks cfg.chain t hs).1 q).inflight = m.inflight := by
      intro q
      unfold Mgr.report
      split
      · rw [broadcastTip_eq]
      · rfl
    split at e
    · cases e
    · cases e
      exact c.sub (fun a r hr => by rw [this] at hr; exact hr)

theorem run_calm (hP : ∀ t op, P t op → Announced t op) (r : Run cfg U fail P t0 h m t) : Calm m := by
  induction r with
  | start => intro a r hr; cases hr
  | step r l p e ih => exact step_calm r l (hP _ _ p) e ih

/-- The requests made by the timer start at the tip. -/
theorem timer_fresh (r : Run cfg U fail P t0 h m t) (c : Calm m) (l : (Op.timer env now).Legal U fail)
    (e : { m with out := [] }.step cfg t (.timer env now) = .ok (m', t')) {lc : Locators} (hx : Out.getHeaders a lc ∈ m'.out) :
    ∃ hashes, Chain.locatorHashes cfg.chain t t.height = .ok hashes ∧ lc = (hashes, 0) := by
  have c : Calm { m with out := [] } := c
  simp only [Mgr.step, Res.bind_eq_ok] at e
  obtain ⟨m1, e1, e2⟩ := e
  cases e2
  obtain ⟨o, h1, m2, b, o1, o2, -, rfl, g1, -, g2, -, -, -, g6, g7, -⟩ := timer_ok l.1 (run_inv r).clear e1
  rw [h1.out] at hx
  simp only [Mgr.without, List.nil_append, List.mem_append] at hx
  rcases hx with hx | hx
  · exact absurd hx (calm_expire (calm_timedOut l.1 c) g2)
  · rcases g7 _ hx with hx | hx
    · exact hx.1
    · cases hx

/-- The timer looks whether we are in sync: headers are being requested then, if there is someone to ask.  Or it is not yet time. -/
theorem timer_looks (r : Run cfg U fail P t0 h m t) (l : (Op.timer env now).Legal U fail)
    (e : { m with out := [] }.step cfg t (.timer env now) = .ok (m', t')) (ht : cfg.timeout ≠ 600000)
    (hb : Behind ((.timer env now, m'.out) :: h) t') (hu : Usable ((.timer env now, m'.out) :: h)) :
    Asking cfg ((.timer env now, m'.out) :: h) ∨ (looked ((.timer env now, m'.out) :: h) = looked h ∧ now < (looked h).getD 0 + 600000) := by
  have i := (step_stepped (run_inv r) l e).inv
  have e0 := e
  simp only [Mgr.step, Res.bind_eq_ok] at e
  obtain ⟨m1, e1, e2⟩ := e
  cases e2
  obtain ⟨o, h1, m2, b, o1, o2, -, rfl, g1, g0, g2, -, -, g5, g6, g7, g8⟩ := timer_ok l.1 (run_inv r).clear e1
  have hold := run_looked ht r
  rcases g8 with ⟨-, c, e3⟩ | ⟨hb0, e3⟩
  · exact .inl (asking_of_sync (K := fun _ => False) l.1 i e3 .refl hb hu)
  · rcases idle_cases e3 with ⟨k1, k2⟩ | ⟨-, -, -, q, o3, k1, k2⟩
    · right
      subst k2
      rw [g0] at k1
      simp only [hold, idleTimeout] at k1
      refine ⟨?_, by omega⟩
      rw [looked, if_neg]
      intro hx
      rw [g1.out] at hx
      simp only [Mgr.without, List.nil_append] at hx
      rcases g2 _ hx with ⟨_, _, _, h2, _⟩ | ⟨_, _, _, _, _, _, _, h2⟩ | h2
      · cases h2
      · cases h2
      · injection h2 with h2; exact ht h2.symm
    · exact .inl (asking_of_sync l.1 i k1 k2 hb hu)

end Verif.Sync
