import Verif.Sync.Ops

/-!
# The state of the manager and its history
-/

set_option autoImplicit false

namespace Verif.Sync
open Verif.Chain (Header State Err ImportResult)

variable {cfg : Cfg} {U : Header → Prop} {fail : Bool} {P : State → Op → Prop} {t0 : State}
variable {env : Env} {m m' m'' : Mgr} {t t' : State} {now : Nat} {h : Hist}

def Peer.info (p : Peer) : Info := ⟨p.outbound, !p.preferred, p.height⟩

/-- What happens when a request times out, by the reason for the request. -/
def KindOk : Cause → OnTimeout → Prop
  | .continued, k => k = .disconnect
  | .announced, k => k = .retry 3
  | .timer, k => k = .ignore ∨ ∃ n, k = .retry n ∧ n < 3
  | .other, k => k = .ignore

/-- The request recorded is the one outstanding. -/
def WaitOk : Option Request → Option Sent → Prop
  | none, none => True
  | some r, some s => r.sentAt = s.time ∧ r.locators = s.locators ∧ KindOk s.cause r.onTimeout
  | _, _ => False

theorem WaitOk.none_iff {r : Option Request} {s : Option Sent} (h : WaitOk r s) : r = none ↔ s = none := by
  cases r <;> cases s <;> simp [WaitOk] at h ⊢

/-- The state of the manager is what the history says. -/
structure Inv (cfg : Cfg) (h : Hist) (m : Mgr) : Prop where
  nodup : m.peers.keys.Nodup
  nodup' : m.inflight.keys.Nodup
  conn : ∀ a, (m.peers.get a).map Peer.info = connected a h
  asked : ∀ a, (m.peers.get a).bind Peer.lastAsked = lastAsked a h
  wait : ∀ a, WaitOk (m.inflight.get a) (awaiting cfg a h)
  sub : ∀ a, m.inflight.get a ≠ none → m.peers.get a ≠ none
  upd : m.lastTipUpdate = tipUpdated h

/-- What a peer was last asked for, if the operation does not ask it. -/
def lastAskedBefore (a : Nat) (op : Op) (h : Hist) : Option Locators :=
  match op with
  | .negotiated _ _ b _ network _ outbound => if b = a ∧ (outbound && !network) = false then none else lastAsked a h
  | .gone b => if b = a then none else lastAsked a h
  | _ => lastAsked a h

/-- An operation changes the state (to `M`, with the outputs `pre`) and then asks for headers (with the outputs `o`). -/
structure SteppedBy (cfg : Cfg) (h : Hist) (op : Op) (m' M : Mgr) (K : OnTimeout → Prop) (pre o : List Out) : Prop where
  asks : Asks op.time K M m' o
  out : m'.out = pre ++ o
  plain : ∀ x ∈ pre, x.plain = true
  nodup : M.peers.keys.Nodup
  nodup' : M.inflight.keys.Nodup
  conn : ∀ a, (M.peers.get a).map Peer.info = connected a ((op, m'.out) :: h)
  asked : ∀ a, (M.peers.get a).bind Peer.lastAsked = lastAskedBefore a op h
  wait : ∀ a, WaitOk (M.inflight.get a) (release cfg a op (awaiting cfg a h))
  sub : ∀ a, M.inflight.get a ≠ none → M.peers.get a ≠ none
  upd : M.lastTipUpdate = tipUpdated ((op, m'.out) :: h)
  kind : ∀ k, K k → KindOk (cause op m'.out) k

def Stepped (cfg : Cfg) (h : Hist) (op : Op) (m' : Mgr) : Prop := ∃ M K pre o, SteppedBy cfg h op m' M K pre o

theorem inv_of_asks {op : Op} {K : OnTimeout → Prop} {o pre : List Out} (ha : Asks op.time K m m' o) (hout : m'.out = pre ++ o)
    (hpre : ∀ x ∈ pre, x.plain = true)
    (hnd : m.peers.keys.Nodup) (hnd' : m.inflight.keys.Nodup)
    (hconn : ∀ a, (m.peers.get a).map Peer.info = connected a ((op, m'.out) :: h))
    (hasked : ∀ a, (m.peers.get a).bind Peer.lastAsked = lastAskedBefore a op h)
    (hwait : ∀ a, WaitOk (m.inflight.get a) (release cfg a op (awaiting cfg a h)))
    (hsub : ∀ a, m.inflight.get a ≠ none → m.peers.get a ≠ none)
    (hupd : m.lastTipUpdate = tipUpdated ((op, m'.out) :: h))
    (hk : ∀ k, K k → KindOk (cause op m'.out) k) : Stepped cfg h op m' :=
  ⟨m, K, pre, o, ha, hout, hpre, hnd, hnd', hconn, hasked, hwait, hsub, hupd, hk⟩

theorem SteppedBy.requests {op : Op} {M : Mgr} {K : OnTimeout → Prop} {pre o : List Out} (s : SteppedBy cfg h op m' M K pre o) (a : Nat) :
    requests a m'.out = Sync.requests a o := by
  rw [s.out, requests_append, requests_plain a s.plain, List.nil_append]

theorem Stepped.inv {op : Op} (hs : Stepped cfg h op m') : Inv cfg ((op, m'.out) :: h) m' := by
  obtain ⟨M, K, pre, o, s⟩ := hs
  have ha := s.asks
  have hreq := s.requests
  refine ⟨ha.nodup s.nodup, ha.nodup' s.nodup', fun a => ?_, fun a => ?_, fun a => ?_, fun a => ?_, by rw [ha.upd, s.upd]⟩
  · rw [← s.conn]
    rcases ha.each a with ⟨h1, h2, h3⟩ | ⟨l, p, k, h1, h2, h3, h4, h5, h6⟩
    · rw [h2]
    · rw [h2, h4]; rfl
  · have : lastAsked a ((op, m'.out) :: h) = match Sync.requests a m'.out with | l :: _ => some l | [] => lastAskedBefore a op h := by
      cases hr : Sync.requests a m'.out <;> cases op <;> simp only [lastAsked, lastAskedBefore, hr]
    rw [this, hreq]
    rcases ha.each a with ⟨h1, h2, h3⟩ | ⟨l, p, k, h1, h2, h3, h4, h5, h6⟩
    · rw [h1, h2]; exact s.asked a
    · rw [h1, h4]; rfl
  · rw [awaiting, hreq]
    rcases ha.each a with ⟨h1, h2, h3⟩ | ⟨l, p, k, h1, h2, h3, h4, h5, h6⟩
    · rw [h1, h3]; exact s.wait a
    · rw [h1, h5]; exact ⟨rfl, rfl, s.kind k h6⟩
  · rcases ha.each a with ⟨h1, h2, h3⟩ | ⟨l, p, k, h1, h2, h3, h4, h5, h6⟩
    · rw [h2, h3]; exact s.sub a
    · intro _; rw [h4]; simp

theorem foldl_max (l : List Nat) (x : Nat) : l.foldl max x = max x (l.foldl max 0) := by
  induction l generalizing x with
  | nil => simp
  | cons y l ih =>
    simp only [List.foldl_cons]
    rw [ih (max x y), ih (max 0 y)]
    omega

theorem importedHeight_append (o o' : List Out) : importedHeight (o ++ o') = max (importedHeight o) (importedHeight o') := by
  unfold importedHeight
  rw [List.filterMap_append, List.foldl_append, foldl_max]

theorem importedHeight_none {o : List Out} (h : ∀ x ∈ o, x.isImported = false) : importedHeight o = 0 := by
  unfold importedHeight
  rw [List.filterMap_eq_nil_iff.2]
  · rfl
  · intro x hx
    have := h x hx
    cases x <;> simp [Out.isImported] at this ⊢

theorem importedHeight_tipEvents (hash height : Nat) (r c : List (Nat × Header)) :
    importedHeight (tipEvents hash height r c) = height := by
  unfold tipEvents
  rw [importedHeight_append, importedHeight_none]
  · simp [importedHeight]
  · intro x hx
    simp only [List.mem_append, List.mem_map] at hx
    rcases hx with ⟨p, -, rfl⟩ | ⟨p, -, rfl⟩ <;> rfl

theorem announcements_quiet (hash : Nat) : ∀ x ∈ announcements env m t hash, x.isImported = false := by
  intro x hx
  unfold announcements at hx
  split at hx
  · simp at hx
  · rw [List.mem_filterMap] at hx
    obtain ⟨a, -, h⟩ := hx
    split at h
    · split at h
      · simp only [Option.some.injEq] at h
        subst h; rfl
      · simp at h
    · simp at h

theorem importedHeight_tipReport (hash height : Nat) (r c : List (Nat × Header)) :
    importedHeight (tipReport env m t hash height r c) = height := by
  unfold tipReport
  rw [importedHeight_append, importedHeight_tipEvents, importedHeight_none (announcements_quiet _)]
  omega

theorem syncOut_quiet {x : Out} (h : SyncOut cfg m t now x) : x.isImported = false := by
  cases x <;> simp [SyncOut, Out.isImported] at h ⊢

theorem any_tipEvents (hash height : Nat) (r c : List (Nat × Header)) :
    (tipEvents hash height r c).any Out.isImported = true := by
  simp [tipEvents, Out.isImported]

theorem any_tipReport (hash height : Nat) (r c : List (Nat × Header)) :
    (tipReport env m t hash height r c).any Out.isImported = true := by
  simp [tipReport, List.any_append, any_tipEvents]

/-- The operations that leave the connected peers alone. -/
theorem inv_quiet {op : Op} (i : Inv cfg h m) {K : OnTimeout → Prop} {o : List Out} (ha : Asks op.time K m m' o) (hm : m.out = [])
    (hconn : ∀ a, connected a ((op, m'.out) :: h) = connected a h) (hasked : ∀ a, lastAskedBefore a op h = lastAsked a h)
    (hw : ∀ a w, release cfg a op w = w) (hupd : tipUpdated ((op, m'.out) :: h) = tipUpdated h)
    (hk : ∀ k, K k → KindOk (cause op m'.out) k) : Stepped cfg h (op) m' :=
  inv_of_asks ha (pre := []) (by rw [ha.out, hm]) (by simp) i.nodup i.nodup' (fun a => by rw [hconn]; exact i.conn a)
    (fun a => by rw [hasked]; exact i.asked a) (fun a => by rw [hw]; exact i.wait a) i.sub (by rw [hupd]; exact i.upd) hk

theorem Inv.clear (i : Inv cfg h m) : Inv cfg h { m with out := [] } := ⟨i.nodup, i.nodup', i.conn, i.asked, i.wait, i.sub, i.upd⟩

/-! ### The operations -/

theorem inv_init (i : Inv cfg h m) (hm : m.out = []) (e : m.idle cfg env t now = .ok m') :
    Stepped cfg h (.init env now) m' := by
  obtain ⟨o, h1, -⟩ := idle_ok e
  exact inv_quiet i h1 hm (fun _ => rfl) (fun _ => rfl) (fun _ _ => rfl) rfl (fun k hk => hk)

theorem inv_gone (i : Inv cfg h m) (hm : m.out = []) (a : Nat) : Stepped cfg h (.gone a) (m.unregister a) := by
  refine inv_of_asks (op := .gone a) (K := fun _ => False) (m := m.unregister a) .refl (pre := []) (by simp [Mgr.unregister, hm]) (by simp)
    (AMap.nodup_erase i.nodup _) (AMap.nodup_erase i.nodup' _) ?_ ?_ ?_ ?_ i.upd (fun _ h => h.elim)
  · intro b
    rw [connected]
    by_cases hb : a = b
    · subst hb; simp [Mgr.unregister]
    · simp only [Mgr.unregister, hb, if_false]
      rw [AMap.get_erase_ne _ hb]; exact i.conn b
  · intro b
    unfold lastAskedBefore
    by_cases hb : a = b
    · subst hb; simp [Mgr.unregister]
    · simp only [Mgr.unregister, hb, if_false]
      rw [AMap.get_erase_ne _ hb]; exact i.asked b
  · intro b
    unfold release
    by_cases hb : a = b
    · subst hb; simp [Mgr.unregister, WaitOk]
    · simp only [Mgr.unregister, hb, if_false]
      rw [AMap.get_erase_ne _ hb]; exact i.wait b
  · intro b
    simp only [Mgr.unregister]
    by_cases hb : a = b
    · subst hb; simp
    · rw [AMap.get_erase_ne _ hb, AMap.get_erase_ne _ hb]; exact i.sub b

theorem inv_getheaders (i : Inv cfg h m) (hm : m.out = []) {a : Nat} {l : Locators} (e : m.getheaders cfg t a l = .ok m') :
    Stepped cfg h (.getheaders a l) m' := by
  have : ∃ o, Asks 0 (fun _ => False) m m' o := by
    unfold Mgr.getheaders at e
    split at e
    · cases e; exact ⟨_, .refl⟩
    · rw [Res.bind_eq_ok] at e
      obtain ⟨hs, -, e2⟩ := e
      split at e2
      · cases e2; exact ⟨_, .refl⟩
      · cases e2; exact ⟨_, asks_push rfl⟩
  obtain ⟨o, h1⟩ := this
  exact inv_quiet i h1 hm (fun _ => rfl) (fun _ => rfl) (fun _ _ => rfl) rfl (fun k hk => hk.elim)

/-- A change of a peer that matters to nobody. -/
theorem inv_touch {op : Op} (i : Inv cfg h m) {K : OnTimeout → Prop} {o : List Out} {a : Nat} {p q : Peer} (hp : m.peers.get a = some p)
    (hi : q.info = p.info) (hq : q.lastAsked = p.lastAsked)
    (ha : Asks op.time K { m with peers := m.peers.insert a q } m' o) (hm : m.out = [])
    (hconn : ∀ a, connected a ((op, m'.out) :: h) = connected a h) (hasked : ∀ a, lastAskedBefore a op h = lastAsked a h)
    (hw : ∀ a w, release cfg a op w = w) (hupd : tipUpdated ((op, m'.out) :: h) = tipUpdated h)
    (hk : ∀ k, K k → KindOk (cause op m'.out) k) : Stepped cfg h (op) m' := by
  refine inv_of_asks ha (pre := []) (by rw [ha.out]; simp [hm]) (by simp) (AMap.nodup_insert i.nodup _ _) i.nodup' ?_
    ?_ (fun a => by rw [hw]; exact i.wait a) ?_ (by rw [hupd]; exact i.upd) hk
  · intro b
    rw [hconn, ← i.conn b]
    simp only [AMap.get_insert]
    by_cases hb : a = b
    · subst hb; simp [hp, hi]
    · simp [hb]
  · intro b
    rw [hasked, ← i.asked b]
    simp only [AMap.get_insert]
    by_cases hb : a = b
    · subst hb; simp [hp, hq]
    · simp [hb]
  · intro b hb
    simp only [AMap.get_insert]
    by_cases hc : a = b
    · simp [hc]
    · simp only [hc, if_false]; exact i.sub b hb

theorem inv_inv (i : Inv cfg h m) (hm : m.out = []) {a : Nat} {items : List Item} (e : m.inv cfg t now a items = .ok m') :
    Stepped cfg h (.inv now a items) m' := by
  have none : Stepped cfg h (.inv now a items) m :=
    inv_quiet (op := .inv now a items) i (K := fun _ => False) .refl hm (fun _ => rfl) (fun _ => rfl) (fun _ _ => rfl) rfl (fun _ h => h.elim)
  unfold Mgr.inv at e
  split at e
  · cases e; exact none
  · split at e
    · cases e; exact none
    · split at e
      · cases e; exact none
      · rename_i p hp
        simp only at e
        split at e
        · cases e
          exact inv_touch (op := .inv now a items) (K := fun _ => False) (q := { p with tip := (blocksOf items).getLastD p.tip }) i hp rfl rfl .refl hm (fun _ => rfl) (fun _ => rfl) (fun _ _ => rfl) rfl
            (fun _ h => h.elim)
        · rw [Res.bind_eq_ok] at e
          obtain ⟨hashes, -, e2⟩ := e
          obtain ⟨o, h1, -⟩ := request_ok (K := (· = .retry 3)) e2 rfl
          exact inv_touch (op := .inv now a items) (q := { p with tip := (blocksOf items).getLastD p.tip }) i hp rfl rfl h1 hm (fun _ => rfl) (fun _ => rfl) (fun _ _ => rfl) rfl
            (fun k hk => hk)

theorem report_asks (r : Res Err ImportResult) : ∃ o, Asks now (fun _ => False) m (m.report env t r) o := by
  cases r with
  | ok ir =>
    cases ir with
    | tipUnchanged => exact ⟨_, .refl⟩
    | tipChanged header hash height rv cn =>
      rw [report_changed]
      exact ⟨_, asks_plain _ (tipReport_plain _ _ _ _)⟩
  | err e => exact ⟨_, .refl⟩
  | panic => exact ⟨_, .refl⟩

theorem inv_userImport (i : Inv cfg h m) (hm : m.out = []) {hs : List (Header × Chain.Env)}
    (e : m.userImport cfg env t hs = .ok (m', t')) : Stepped cfg h (.userImport env hs) m' := by
  have : ∃ o, Asks 0 (fun _ => False) m m' o := by
    unfold Mgr.userImport at e
    simp only at e
    split at e
    · simp at e
    · simp only [Res.ok.injEq, Prod.mk.injEq] at e
      obtain ⟨rfl, -⟩ := e
      exact report_asks _
  obtain ⟨o, h1⟩ := this
  exact inv_quiet i h1 hm (fun _ => rfl) (fun _ => rfl) (fun _ _ => rfl) rfl (fun k hk => hk.elim)

theorem inv_negotiated (i : Inv cfg h m) (hm : m.out = []) {a n : Nat} {network filters outbound : Bool}
    (e : m.negotiated cfg env t now a n network filters outbound = .ok m') :
    Stepped cfg h (.negotiated env now a n network filters outbound) m' := by
  unfold Mgr.negotiated at e
  by_cases hc : (outbound && !network) = true
  · rw [if_pos hc] at e
    cases e
    refine inv_quiet (op := .negotiated env now a n network filters outbound) i (K := fun _ => False) .refl hm ?_ ?_ (fun _ _ => rfl) rfl
      (fun _ h => h.elim)
    · intro b; rw [connected, if_neg (by rw [hc]; simp)]
    · intro b; unfold lastAskedBefore; simp only; rw [if_neg (by rw [hc]; simp)]
  · rw [if_neg hc] at e
    have hc : (outbound && !network) = false := by simpa using hc
    rw [Res.bind_eq_ok] at e
    obtain ⟨r, e1, e2⟩ := e
    cases e2
    obtain ⟨o, h1, -⟩ := sync_ok e1
    have hrep : ∀ (P : Mgr → Prop), (∀ o : List Out, (∀ x ∈ o, x.plain = true) → P { m with out := m.out ++ o }) → P (m.reportHeight t n) := by
      intro P hP
      unfold Mgr.reportHeight
      split
      · exact hP [.peerHeight n] (by simp [Out.plain])
      · have := hP [] (by simp)
        simpa using this
    obtain ⟨pre, hpre, hrep⟩ : ∃ pre : List Out, (∀ x ∈ pre, x.plain = true) ∧ m.reportHeight t n = { m with out := pre } := by
      apply hrep (fun m1 => ∃ pre : List Out, (∀ x ∈ pre, x.plain = true) ∧ m1 = { m with out := pre })
      intro o ho
      exact ⟨o, ho, by rw [hm]; rfl⟩
    rw [hrep] at h1
    refine inv_of_asks (op := .negotiated env now a n network filters outbound) h1 (pre := pre) h1.out hpre
      (AMap.nodup_insert i.nodup _ _) i.nodup' ?_ ?_ (fun b => i.wait b) ?_ i.upd (fun k hk => hk)
    · intro b
      rw [connected]
      simp only [Mgr.register, AMap.get_insert]
      by_cases hb : a = b
      · subst hb; simp [hc, Peer.info]
      · simp only [hb, if_false, false_and]; exact i.conn b
    · intro b
      unfold lastAskedBefore
      simp only [Mgr.register, AMap.get_insert]
      by_cases hb : a = b
      · subst hb; simp [hc]
      · simp only [hb, if_false, false_and]; exact i.asked b
    · intro b hb
      simp only [Mgr.register, AMap.get_insert] at hb ⊢
      by_cases hc : a = b
      · simp [hc]
      · simp only [hc, if_false]; exact i.sub b hb

theorem waitOk_release {r : Option Request} {s : Option Sent} (hw : WaitOk r s) :
    WaitOk (r.filter (fun r => decide (now - r.sentAt < cfg.timeout))) (s.filter (fun s => decide (now - s.time < cfg.timeout))) := by
  cases r with
  | none => cases s <;> simp [WaitOk] at hw ⊢
  | some r =>
    cases s with
    | none => simp [WaitOk] at hw
    | some s =>
      obtain ⟨h1, h2, h3⟩ := hw
      simp only [Option.filter_some, decide_eq_true_eq, h1]
      by_cases hlt : now - s.time < cfg.timeout
      · simp only [hlt, if_true]; exact ⟨h1, h2, h3⟩
      · simp [hlt, WaitOk]

/-- What the timer does: requests that timed out are handled, and then the manager syncs or idles. -/
theorem timer_ok (hl : env.Legal) (i : Inv cfg h m) (e : m.timer cfg env t now = .ok m') :
    ∃ o, Asks now (fun k => k = .ignore ∨ Few k) (m.without ((m.timedOut cfg env now).map (·.1))) m' o ∧
      ∃ m1 b o1 o2, Mgr.expireAll cfg env now (m.timedOut cfg env now) m false = .ok (m1, b) ∧ o = o1 ++ o2 ∧
        Asks now Few (m.without ((m.timedOut cfg env now).map (·.1))) m1 o1 ∧ m1.lastIdle = m.lastIdle ∧
        (∀ x ∈ o1, ExpireOut cfg (m.timedOut cfg env now) x) ∧
        (∀ p ∈ m.timedOut cfg env now, p.2.onTimeout = .disconnect ∨ p.2.onTimeout = .retry 0 → Out.disconnect p.1 ∈ o1) ∧
        (∀ p ∈ m.timedOut cfg env now, ∀ n, p.2.onTimeout = .retry (n + 1) →
          (∃ b, b ≠ p.1 ∧ Out.getHeaders b p.2.locators ∈ o1) ∨
          ∀ b, b ≠ p.1 → m.Free (m.timedOut cfg env now) p.2.locators.1 b → requests b o1 ≠ []) ∧
        (b = true ↔ ∃ a, Out.disconnect a ∈ o1) ∧
        Asks now (· = .ignore) m1 m' o2 ∧ (∀ x ∈ o2, IdleOut cfg m1 t now x) ∧
        ((b = true ∧ ∃ c, m1.sync cfg env t now = .ok (m', c)) ∨ (b = false ∧ m1.idle cfg env t now = .ok m')) := by
  unfold Mgr.timer at e
  rw [Res.bind_eq_ok] at e
  obtain ⟨⟨m1, b⟩, e1, e2⟩ := e
  obtain ⟨o1, g1, g2, g3, g4, g5, g6⟩ := expireAll_ok hl _ i.nodup' (timedOut_keys hl i.nodup')
    (fun p hp => by
      obtain ⟨a, r⟩ := p
      rw [(mem_timedOut hl).1 hp |>.1]; simp)
    (fun p hp n hn => by
      obtain ⟨a, r⟩ := p
      have h1 := ((mem_timedOut hl).1 hp).1
      have h2 := i.wait a
      rw [h1] at h2
      cases hs : awaiting cfg a h with
      | none => rw [hs] at h2; simp [WaitOk] at h2
      | some s =>
        rw [hs] at h2
        have h3 := h2.2.2
        simp only at hn
        rw [hn] at h3
        cases hc : s.cause with
        | continued => rw [hc] at h3; simp [KindOk] at h3
        | other => rw [hc] at h3; simp [KindOk] at h3
        | announced =>
          rw [hc] at h3
          simp only [KindOk, OnTimeout.retry.injEq] at h3
          omega
        | timer =>
          rw [hc] at h3
          rcases h3 with h3 | ⟨k, h3, h4⟩
          · simp at h3
          · simp only [OnTimeout.retry.injEq] at h3
            omega) e1
  have g5 : b = true ↔ ∃ a, Out.disconnect a ∈ o1 := by simpa using g5
  cases b with
  | true =>
    simp only [if_true] at e2
    rw [Res.bind_eq_ok] at e2
    obtain ⟨⟨m2, c⟩, e3, e4⟩ := e2
    cases e4
    obtain ⟨o2, k1, k2⟩ := sync_ok e3
    exact ⟨o1 ++ o2, (g1.mono fun _ h => .inr h).trans (k1.mono fun _ h => .inl h), m1, true, o1, o2, e1, rfl, g1, g6, g2, g3, g4, g5, k1,
      fun x hx => .inl (k2 x hx), .inl ⟨rfl, c, e3⟩⟩
  | false =>
    simp only [Bool.false_eq_true, if_false] at e2
    obtain ⟨o2, k1, k2⟩ := idle_ok e2
    exact ⟨o1 ++ o2, (g1.mono fun _ h => .inr h).trans (k1.mono fun _ h => .inl h), m1, false, o1, o2, e1, rfl, g1, g6, g2, g3, g4, g5, k1,
      k2, .inr ⟨rfl, e2⟩⟩

theorem without_get (hl : env.Legal) (a : Nat) : (m.without ((m.timedOut cfg env now).map (·.1))).inflight.get a =
    (m.inflight.get a).filter (fun r => decide (now - r.sentAt < cfg.timeout)) := by
  simp only [Mgr.without, foldl_erase_get]
  cases hr : m.inflight.get a with
  | none => simp
  | some r =>
    have : a ∈ (m.timedOut cfg env now).map (·.1) ↔ cfg.timeout ≤ now - r.sentAt := by
      rw [List.mem_map]
      constructor
      · rintro ⟨⟨b, q⟩, hp, rfl⟩
        have := (mem_timedOut hl).1 hp
        simp only at hr
        rw [hr] at this
        obtain ⟨h1, h2⟩ := this
        cases h1
        exact h2
      · intro hle
        exact ⟨(a, r), (mem_timedOut hl).2 ⟨hr, hle⟩, rfl⟩
    simp only [this, Option.filter_some, decide_eq_true_eq]
    by_cases hlt : now - r.sentAt < cfg.timeout
    · rw [if_neg (by omega), if_pos hlt]
    · rw [if_pos (by omega), if_neg hlt]

theorem inv_timer (hl : env.Legal) (i : Inv cfg h m) (hm : m.out = []) (e : m.timer cfg env t now = .ok m') :
    Stepped cfg h (.timer env now) m' := by
  obtain ⟨o, h1, -⟩ := timer_ok hl i e
  refine inv_of_asks (op := .timer env now) h1 (pre := []) (by rw [h1.out]; simp [Mgr.without, hm]) (by simp) i.nodup
    (foldl_erase_nodup _ _ i.nodup') i.conn i.asked ?_ ?_ i.upd ?_
  · intro a
    rw [without_get hl]
    exact waitOk_release (i.wait a)
  · intro a ha
    refine i.sub a fun hn => ha ?_
    rw [without_get hl, hn]
    rfl
  · rintro k (h | h)
    · exact .inl h
    · exact .inr h

/-! ### Headers -/

theorem heard_get {a b : Nat} {p : Peer} : (m.heard now a p).peers.get b = if a = b then some { p with lastActive := some now } else m.peers.get b := by
  simp only [Mgr.heard, AMap.get_insert]

theorem heard_info {a : Nat} {p : Peer} (hp : m.peers.get a = some p) (b : Nat) :
    ((m.heard now a p).peers.get b).map Peer.info = (m.peers.get b).map Peer.info ∧
    ((m.heard now a p).peers.get b).bind Peer.lastAsked = (m.peers.get b).bind Peer.lastAsked := by
  rw [heard_get]
  by_cases hb : a = b
  · subst hb; simp [hp, Peer.info]
  · simp [hb]

theorem heard_wait (i : Inv cfg h m) {hs : List (Header × Chain.Env)} (a b : Nat) :
    WaitOk ((m.inflight.erase a).get b) (release cfg b (.headers env now a hs) (awaiting cfg b h)) := by
  unfold release
  by_cases hb : a = b
  · subst hb; simp [WaitOk]
  · simp only [hb, if_false]
    rw [AMap.get_erase_ne _ hb]; exact i.wait b

theorem heard_sub (i : Inv cfg h m) {a : Nat} (b : Nat) : (m.inflight.erase a).get b ≠ none → m.peers.get b ≠ none := by
  intro hb
  apply i.sub b
  rw [AMap.get_erase] at hb
  by_cases hc : a = b
  · simp [hc] at hb
  · simpa [hc] using hb

/-- The peers once a peer gave us a new tip. -/
theorem updated_get {a hash height : Nat} {r c : List (Nat × Header)} {p : Peer} (hp : m.peers.get a = some p) (b : Nat) :
    ∃ q, ((m.updated env t now a hash height r c).peers.get b = if a = b then some q else m.peers.get b) ∧
      q.info = ⟨p.outbound, !p.preferred, max p.height height⟩ ∧ q.lastAsked = p.lastAsked := by
  simp only [Mgr.updated, Mgr.raise, report_changed, hp]
  by_cases hgt : height > p.height
  · rw [if_pos hgt]
    refine ⟨{ p with tip := hash, height := height }, ?_, ?_, rfl⟩
    · simp only [AMap.get_insert]
    · simp only [Peer.info]; congr 1; omega
  · rw [if_neg hgt]
    refine ⟨p, ?_, ?_, rfl⟩
    · by_cases hb : a = b
      · subst hb; simp [hp]
      · simp [hb]
    · simp only [Peer.info]; congr 1; omega

theorem updated_fields {a hash height : Nat} {r c : List (Nat × Header)} :
    (m.updated env t now a hash height r c).inflight = m.inflight ∧
    (m.updated env t now a hash height r c).out = m.out ++ tipReport env m t hash height r c ∧
    (m.updated env t now a hash height r c).lastTipUpdate = some now ∧
    (m.peers.keys.Nodup → (m.updated env t now a hash height r c).peers.keys.Nodup) := by
  simp only [Mgr.updated, Mgr.raise, report_changed]
  split
  · split
    · exact ⟨rfl, rfl, trivial, fun h => AMap.nodup_insert h _ _⟩
    · exact ⟨rfl, rfl, trivial, id⟩
  · exact ⟨rfl, rfl, trivial, id⟩

/-- A peer gave us a new tip. -/
theorem inv_updated (i : Inv cfg h m) {a : Nat} {hs : List (Header × Chain.Env)} {p : Peer} (hp : m.peers.get a = some p)
    {hash height : Nat} {rv cn : List (Nat × Header)} {K : OnTimeout → Prop} {pre o : List Out}
    (hm : m.out = []) (ha : Asks now K ((m.heard now a p).updated env t now a hash height rv cn) m' (pre ++ o))
    (hq : ∀ x ∈ pre ++ o, x.isImported = false)
    (hk : ∀ k, K k → KindOk (cause (.headers env now a hs) m'.out) k) :
    Stepped cfg h (.headers env now a hs) m' := by
  obtain ⟨f1, f2, f3, f4⟩ := updated_fields (env := env) (m := m.heard now a p) (t := t) (now := now) (a := a) (hash := hash)
    (height := height) (r := rv) (c := cn)
  have hout : m'.out = tipReport env (m.heard now a p) t hash height rv cn ++ (pre ++ o) := by
    rw [ha.out, f2]
    simp only [Mgr.heard, hm, List.nil_append]
  have hih : importedHeight m'.out = height := by
    rw [hout, importedHeight_append, importedHeight_tipReport, importedHeight_none hq]
    omega
  have hany : m'.out.any Out.isImported = true := by
    rw [hout, List.any_append, any_tipReport]; rfl
  have hpa : (m.heard now a p).peers.get a = some { p with lastActive := some now } := by rw [heard_get]; simp
  refine inv_of_asks (op := .headers env now a hs) ha (pre := tipReport env (m.heard now a p) t hash height rv cn) hout
    (tipReport_plain _ _ _ _) (f4 (AMap.nodup_insert i.nodup _ _)) (by rw [f1]; exact AMap.nodup_erase i.nodup' _) ?_ ?_ ?_ ?_ ?_ hk
  · intro b
    obtain ⟨q, g1, g2, g3⟩ := updated_get (env := env) (t := t) (now := now) (hash := hash) (height := height) (r := rv) (c := cn) hpa b
    rw [connected, g1]
    by_cases hb : a = b
    · subst hb
      simp only [if_true, Option.map_some, g2, hih, ← i.conn a, hp]
      rfl
    · simp only [hb, if_false]
      rw [(heard_info hp b).1]; exact i.conn b
  · intro b
    obtain ⟨q, g1, g2, g3⟩ := updated_get (env := env) (t := t) (now := now) (hash := hash) (height := height) (r := rv) (c := cn) hpa b
    unfold lastAskedBefore
    rw [g1, ← i.asked b]
    by_cases hb : a = b
    · subst hb
      simp [g3, hp]
    · simp only [hb, if_false]
      rw [(heard_info hp b).2]
  · intro b
    rw [f1]; exact heard_wait i a b
  · intro b hb
    rw [f1] at hb
    have h1 := heard_sub i b hb
    obtain ⟨q, g1, -⟩ := updated_get (env := env) (t := t) (now := now) (hash := hash) (height := height) (r := rv) (c := cn) hpa b
    rw [g1]
    by_cases hb : a = b
    · simp [hb]
    · simp only [hb, if_false]
      rw [heard_get, if_neg hb]; exact h1
  · rw [f3, tipUpdated]
    simp [hany]

theorem inv_headers (i : Inv cfg h m) (hm : m.out = []) {a : Nat} {hs : List (Header × Chain.Env)}
    (e : m.headers cfg env t now a hs = .ok (m', t')) : Stepped cfg h (.headers env now a hs) m' := by
  -- headers that change nothing but perhaps the time the peer was last active
  have quiet : ∀ {M m' : Mgr} {K : OnTimeout → Prop} {o : List Out}, Asks now K M m' o → M.out = [] → (∀ x ∈ o, x.isImported = false) →
      M.peers.keys.Nodup → M.inflight = m.inflight.erase a →
      (∀ b, (M.peers.get b).map Peer.info = (m.peers.get b).map Peer.info ∧
        (M.peers.get b).bind Peer.lastAsked = (m.peers.get b).bind Peer.lastAsked) →
      M.lastTipUpdate = m.lastTipUpdate → (∀ k, K k → k = .ignore) → Stepped cfg h (.headers env now a hs) m' := by
    intro M m' K o ha hM hq hnd hinf hpeers hupd hk
    have hout : m'.out = o := by rw [ha.out, hM]; rfl
    have hany : m'.out.any Out.isImported = false := by
      rw [hout, List.any_eq_false]
      intro x hx; rw [hq x hx]; simp
    refine inv_of_asks (op := .headers env now a hs) ha (pre := []) hout (by simp) hnd (by rw [hinf]; exact AMap.nodup_erase i.nodup' _) ?_ ?_ ?_ ?_ ?_ ?_
    · intro b
      rw [(hpeers b).1, i.conn b, connected, hout, importedHeight_none hq]
      by_cases hb : a = b
      · simp only [hb, if_true]
        cases connected b h <;> simp
      · simp [hb]
    · intro b
      rw [(hpeers b).2]
      exact i.asked b
    · intro b
      rw [hinf]; exact heard_wait i a b
    · intro b hb
      rw [hinf] at hb
      have h1 := heard_sub i b hb
      intro hn
      have h2 := (hpeers b).1
      rw [hn] at h2
      cases hmb : m.peers.get b with
      | none => exact h1 hmb
      | some q => rw [hmb] at h2; simp at h2
    · rw [hupd, tipUpdated, hany]
      exact i.upd
    · intro k hk'
      rw [hk k hk', cause, if_neg (by rw [hany]; simp)]
      rfl
  cases headers_ok e with
  | misbehaved hlen =>
    exact quiet (M := { m with inflight := m.inflight.erase a }) (K := fun _ => False) (asks_push rfl) hm (by simp [Out.isImported]) i.nodup rfl
      (fun _ => ⟨rfl, rfl⟩) rfl (fun _ h => h.elim)
  | ignored hlen hi =>
    exact quiet (M := { m with inflight := m.inflight.erase a }) (K := fun _ => False) .refl hm (by simp) i.nodup rfl
      (fun _ => ⟨rfl, rfl⟩) rfl (fun _ h => h.elim)
  | known hlen hi hp =>
    exact quiet (M := m.heard now a _) (K := fun _ => False) .refl hm (by simp) (AMap.nodup_insert i.nodup _ _) rfl
      (heard_info hp) rfl (fun _ h => h.elim)
  | aborted hlen hi hp hr =>
    exact quiet (M := m.heard now a _) (K := fun _ => False) .refl hm (by simp) (AMap.nodup_insert i.nodup _ _) rfl
      (heard_info hp) rfl (fun _ h => h.elim)
  | unchanged hlen hi hp hr hf hl e1 =>
    obtain ⟨o, h1, h2⟩ := request_ok (K := (· = .ignore)) e1 rfl
    refine quiet (M := m.heard now a _) h1 hm ?_ (AMap.nodup_insert i.nodup _ _) rfl (heard_info hp) rfl (fun _ h => h)
    rcases h2 with ⟨rfl, -⟩ | ⟨rfl, -⟩ <;> simp [Out.isImported]
  | @changed p r header hash height rv cn hlen hi hp hr e1 =>
    obtain ⟨o, h1, h2⟩ := sync_ok e1
    rw [broadcastTip_eq] at h1
    refine inv_updated i hp (pre := announcements env ((m.heard now a p).updated env (Chain.importBlocks cfg.chain t hs).1 now a hash height rv cn)
      (Chain.importBlocks cfg.chain t hs).1 hash) (o := o) hm ((asks_plain _ (announcements_plain _)).trans h1) ?_ ?_
    · intro x hx
      rcases List.mem_append.1 hx with hx | hx
      · exact announcements_quiet _ x hx
      · exact syncOut_quiet (h2 x hx)
    · rintro k rfl
      rw [cause, if_neg (by omega)]
      rfl
  | @full p m' header hash height rv cn hlen hi hp hr e1 =>
    obtain ⟨o, h1, h2⟩ := request_ok (K := (· = .disconnect)) e1 rfl
    have hq : ∀ x ∈ o, x.isImported = false := by
      rcases h2 with ⟨rfl, -⟩ | ⟨rfl, -⟩ <;> simp [Out.isImported]
    refine inv_updated i hp (pre := []) (o := o) hm (by simpa using h1) (by simpa using hq) ?_
    rintro k rfl
    have hany : m'.out.any Out.isImported = true := by
      rw [h1.out, (updated_fields (env := env)).2.1, List.any_append, List.any_append, any_tipReport]
      simp
    rw [cause, if_pos ⟨by omega, hany⟩]
    rfl

theorem step_stepped {op : Op} (ih : Inv cfg h m) (l : op.Legal U fail) (e : { m with out := [] }.step cfg t op = .ok (m', t')) :
    Stepped cfg h op m' := by
    have i := ih.clear
    cases op with
    | init env now =>
      simp only [Mgr.step, Res.bind_eq_ok] at e
      obtain ⟨m1, e1, e2⟩ := e
      cases e2
      exact inv_init i rfl e1
    | negotiated env now a n network filters outbound =>
      simp only [Mgr.step, Res.bind_eq_ok] at e
      obtain ⟨m1, e1, e2⟩ := e
      cases e2
      exact inv_negotiated i rfl e1
    | gone a =>
      simp only [Mgr.step, Res.ok.injEq, Prod.mk.injEq] at e
      obtain ⟨rfl, rfl⟩ := e
      exact inv_gone i rfl a
    | headers env now a hs => exact inv_headers i rfl e
    | getheaders a l =>
      simp only [Mgr.step, Res.bind_eq_ok] at e
      obtain ⟨m1, e1, e2⟩ := e
      cases e2
      exact inv_getheaders i rfl e1
    | inv now a items =>
      simp only [Mgr.step, Res.bind_eq_ok] at e
      obtain ⟨m1, e1, e2⟩ := e
      cases e2
      exact inv_inv i rfl e1
    | timer env now =>
      simp only [Mgr.step, Res.bind_eq_ok] at e
      obtain ⟨m1, e1, e2⟩ := e
      cases e2
      exact inv_timer l.1 i rfl e1
    | userImport env hs => exact inv_userImport i rfl e

/-- In every history the state of the manager is what the history says. -/
theorem run_inv (r : Run cfg U fail P t0 h m t) : Inv cfg h m := by
  induction r with
  | start => exact ⟨by simp [Mgr.new, AMap.keys], by simp [Mgr.new, AMap.keys], fun _ => rfl, fun _ => rfl, fun _ => trivial, fun _ h => absurd rfl h, rfl⟩
  | step r l p e ih => exact (step_stepped ih l e).inv

/-- The tree is reachable. -/
theorem run_reach {g : Header} (h0 : Chain.Reach cfg.chain U g fail t0) (r : Run cfg U fail P t0 h m t) : Chain.Reach cfg.chain U g fail t := by
  induction r with
  | start => exact h0
  | @step h m m' t t' op r l p e ih =>
    have same : t' = t → Chain.Reach cfg.chain U g fail t' := by rintro rfl; exact ih
    have imp : ∀ hs, op.batch = hs → t' = (Chain.importBlocks cfg.chain t hs).1 → (Chain.importBlocks cfg.chain t hs).2 ≠ .panic →
        Chain.Reach cfg.chain U g fail t' := by
      rintro hs rfl rfl hne
      exact .importBlocks _ ih l.2 hne
    cases op with
    | gone a =>
      simp only [Mgr.step, Res.ok.injEq, Prod.mk.injEq] at e
      exact same e.2.symm
    | headers env now a hs =>
      cases headers_ok e with
      | misbehaved => exact same rfl
      | ignored => exact same rfl
      | known => exact same rfl
      | unchanged hlen hi hp hr => exact imp hs rfl rfl (by rw [hr]; simp)
      | aborted hlen hi hp hr => exact imp hs rfl rfl (by rw [hr]; simp)
      | changed hlen hi hp hr => exact imp hs rfl rfl (by rw [hr]; simp)
      | full hlen hi hp hr => exact imp hs rfl rfl (by rw [hr]; simp)
    | userImport env hs =>
      simp only [Mgr.step, Mgr.userImport] at e
      split at e
      · simp at e
      · rename_i hne
        simp only [Res.ok.injEq, Prod.mk.injEq] at e
        exact imp hs rfl e.2.symm hne
    | _ =>
      simp only [Mgr.step, Res.bind_eq_ok, Res.ok.injEq, Prod.mk.injEq] at e
      obtain ⟨m1, -, -, e2⟩ := e
      exact same e2.symm

end Verif.Sync
