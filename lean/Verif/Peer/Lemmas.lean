import Verif.Peer.Spec
import Mathlib.Data.List.Basic

/-!
# Lemmas on the functions of the peer manager
-/

set_option autoImplicit false

namespace Verif.Peer
open Verif.Addr (Sock Ip Domain NetAddr Source has isLocal domainOf sadd)

/-! ### What the functions that open and close connections leave alone -/

/-- `m'` has the outputs of `m` and some that satisfy `P`, every connection of `m'` was there in `m`, and clock, whitelist and
scheduled retries are unchanged. -/
structure Ext (P : Out → Prop) (m m' : Mgr) : Prop where
  out : ∃ l, m'.out = m.out ++ l ∧ ∀ o ∈ l, P o
  conn : ∀ a c i, m'.peers.get a = some (.connected c i) → m.peers.get a = some (.connected c i)
  now : m'.now = m.now
  trusted : m'.trusted = m.trusted
  disc : m'.disconnected = m.disconnected

theorem Ext.refl (P : Out → Prop) (m : Mgr) : Ext P m m :=
  ⟨⟨[], by simp, by simp⟩, fun _ _ _ h => h, rfl, rfl, rfl⟩

theorem Ext.trans {P : Out → Prop} {m m' m'' : Mgr} (h : Ext P m m') (h' : Ext P m' m'') : Ext P m m'' := by
  obtain ⟨l, e, hl⟩ := h.out
  obtain ⟨l', e', hl'⟩ := h'.out
  refine ⟨⟨l ++ l', by rw [e', e, List.append_assoc], ?_⟩, fun a c i x => h.conn a c i (h'.conn a c i x),
    h'.now.trans h.now, h'.trusted.trans h.trusted, h'.disc.trans h.disc⟩
  intro o ho
  rcases List.mem_append.1 ho with x | x
  · exact hl o x
  · exact hl' o x

theorem Ext.mono {P Q : Out → Prop} {m m' : Mgr} (h : Ext P m m') (i : ∀ o, P o → Q o) : Ext Q m m' := by
  obtain ⟨l, e, hl⟩ := h.out
  exact ⟨⟨l, e, fun o ho => i o (hl o ho)⟩, h.conn, h.now, h.trusted, h.disc⟩

theorem Ext.emit {P : Out → Prop} {m : Mgr} {l : List Out} (h : ∀ o ∈ l, P o) : Ext P m (m.emit l) :=
  ⟨⟨l, rfl, h⟩, fun _ _ _ x => x, rfl, rfl, rfl⟩

/-- Outputs of opening a connection. -/
def ConnectOut (o : Out) : Prop := (∃ a, o = .connect a) ∨ (∃ t, o = .timer t)

theorem connect_ext (m : Mgr) (cfg : Config) (a : Sock) : Ext ConnectOut m (m.connect cfg a).2 := by
  unfold Mgr.connect
  by_cases h1 : (m.isConnected a || m.isConnecting a) = true
  · rw [if_pos h1]; exact Ext.refl _ _
  rw [if_neg h1]
  by_cases h2 : domainOf a ∉ cfg.domains
  · rw [if_pos h2]; exact Ext.refl _ _
  rw [if_neg h2]
  refine ⟨⟨_, rfl, ?_⟩, ?_, rfl, rfl, rfl⟩
  · intro o ho
    simp only [List.mem_cons, List.not_mem_nil, or_false] at ho
    rcases ho with rfl | rfl
    · exact Or.inl ⟨a, rfl⟩
    · exact Or.inr ⟨_, rfl⟩
  · intro b c i hb
    simp only [Mgr.dial, AMap.get_insert] at hb
    by_cases e : a = b
    · rw [if_pos e] at hb; simp at hb
    · rw [if_neg e] at hb; exact hb

theorem drop_ext (m : Mgr) (a : Sock) (r : Reason) : Ext (fun o => o = .disconnect a r) m (m.drop a r) := by
  refine ⟨⟨_, rfl, by simp⟩, ?_, rfl, rfl, rfl⟩
  intro b c i hb
  simp only [Mgr.drop, AMap.get_insert] at hb
  by_cases e : a = b
  · rw [if_pos e] at hb; simp at hb
  · rw [if_neg e] at hb; exact hb

theorem disconnect_ext (m : Mgr) (a : Sock) (r : Reason) : Ext (fun o => o = .disconnect a r) m (m.disconnect a r) := by
  unfold Mgr.disconnect
  by_cases h : m.isConnected a = true
  · rw [if_pos h]; exact drop_ext m a r
  · rw [if_neg h]; exact Ext.refl _ _

/-- Outputs of looking for new peers. -/
def MaintainOut (o : Out) : Prop := ConnectOut o ∨ ∃ a s f, o = .evConnecting a s f

theorem maintainLoop_ext (cfg : Config) (below : Bool) (delta : Nat) :
    ∀ (fuel : Nat) (m : Mgr) (src : List Cand) (set : List Sock) (m' : Mgr),
      Mgr.maintainLoop cfg below delta fuel m src set = .ok m' → Ext MaintainOut m m' := by
  intro fuel
  induction fuel with
  | zero =>
    intro m src set m' h
    simp only [Mgr.maintainLoop, Res.ok.injEq] at h
    rw [← h]; exact Ext.refl _ _
  | succ n ih =>
    intro m src set m' h
    simp only [Mgr.maintainLoop] at h
    by_cases h1 : set.length < delta
    · rw [if_pos h1] at h
      cases hc : choose cfg below src with
      | none =>
        simp only [hc, Res.ok.injEq] at h
        rw [← h]; exact Ext.refl _ _
      | some x =>
        obtain ⟨c, src'⟩ := x
        simp only [hc] at h
        cases hs : c.1.sock with
        | none => simp only [hs] at h; exact ih _ _ _ _ h
        | some a =>
          simp only [hs] at h
          by_cases h2 : (cfg.dbg && m.isConnected a) = true
          · rw [if_pos h2] at h; simp at h
          rw [if_neg h2] at h
          by_cases h3 : (m.connect cfg a).1 = true
          · rw [if_pos h3] at h
            refine (((connect_ext m cfg a).mono (fun o x => Or.inl x)).trans (Ext.emit ?_)).trans (ih _ _ _ _ h)
            intro o ho
            simp only [List.mem_cons, List.not_mem_nil, or_false] at ho
            exact Or.inr ⟨_, _, _, ho⟩
          · rw [if_neg h3] at h
            exact ((connect_ext m cfg a).mono (fun o x => Or.inl x)).trans (ih _ _ _ _ h)
    · rw [if_neg h1] at h
      simp only [Res.ok.injEq] at h
      rw [← h]; exact Ext.refl _ _

theorem maintain_ext {m m' : Mgr} {cfg : Config} {src : List Cand} (h : m.maintain cfg src = .ok m') :
    Ext MaintainOut m m' := by
  unfold Mgr.maintain at h
  by_cases h1 : cfg.persistent ≠ []
  · rw [if_pos h1] at h
    simp only [Res.ok.injEq] at h
    rw [← h]; exact Ext.refl _ _
  · rw [if_neg h1] at h
    exact maintainLoop_ext _ _ _ _ _ _ _ _ h

/-- Outputs of the start. -/
def InitOut (o : Out) : Prop := MaintainOut o ∨ ∃ a, o = .evError a

theorem connectAll_ext (cfg : Config) : ∀ (l : List Sock) (m : Mgr), Ext InitOut m (m.connectAll cfg l) := by
  intro l
  induction l with
  | nil => intro m; exact Ext.refl _ _
  | cons a l ih =>
    intro m
    simp only [Mgr.connectAll]
    refine Ext.trans ?_ (ih _)
    by_cases h : (m.connect cfg a).1 = true
    · rw [if_pos h]
      exact (connect_ext m cfg a).mono (fun o x => Or.inl (Or.inl x))
    · rw [if_neg h]
      refine ((connect_ext m cfg a).mono (fun o x => Or.inl (Or.inl x))).trans (Ext.emit ?_)
      intro o ho
      simp only [List.mem_cons, List.not_mem_nil, or_false] at ho
      exact Or.inr ⟨_, ho⟩

theorem initialize_ext {m m' : Mgr} {cfg : Config} {src : List Cand} (h : m.initialize cfg src = .ok m') :
    Ext InitOut m m' := by
  unfold Mgr.initialize at h
  refine (connectAll_ext cfg cfg.persistent m).trans (Ext.trans (Ext.emit ?_) ((maintain_ext h).mono (fun o x => Or.inl x)))
  intro o ho
  simp only [List.mem_cons, List.not_mem_nil, or_false] at ho
  exact Or.inl (Or.inl (Or.inr ⟨_, ho⟩))

theorem reconnect_ext (cfg : Config) : ∀ (l : List Sock) (m : Mgr), Ext ConnectOut m (m.reconnect cfg l) := by
  intro l
  induction l with
  | nil => intro m; exact Ext.refl _ _
  | cons a l ih =>
    intro m
    exact (connect_ext m cfg a).trans (ih _)

/-- Outputs of disconnecting. -/
def DropOut (o : Out) : Prop := ∃ a r, o = .disconnect a r

theorem dropAll_ext : ∀ (l : List (Sock × Reason)) (m : Mgr), Ext DropOut m (m.dropAll l) := by
  intro l
  induction l with
  | nil => intro m; exact Ext.refl _ _
  | cons x l ih =>
    intro m
    obtain ⟨a, r⟩ := x
    exact ((drop_ext m a r).mono (fun o h => ⟨a, r, h⟩)).trans (ih _)

/-- Outputs of the timers. -/
def TimerOut (o : Out) : Prop := MaintainOut o ∨ DropOut o

/-- As `Ext`, without the scheduled retries. -/
structure Ext' (P : Out → Prop) (m m' : Mgr) : Prop where
  out : ∃ l, m'.out = m.out ++ l ∧ ∀ o ∈ l, P o
  conn : ∀ a c i, m'.peers.get a = some (.connected c i) → m.peers.get a = some (.connected c i)
  now : m'.now = m.now
  trusted : m'.trusted = m.trusted

theorem Ext.weak {P : Out → Prop} {m m' : Mgr} (h : Ext P m m') : Ext' P m m' := ⟨h.out, h.conn, h.now, h.trusted⟩

theorem Ext'.mono {P Q : Out → Prop} {m m' : Mgr} (h : Ext' P m m') (i : ∀ o, P o → Q o) : Ext' Q m m' := by
  obtain ⟨l, e, hl⟩ := h.out
  exact ⟨⟨l, e, fun o ho => i o (hl o ho)⟩, h.conn, h.now, h.trusted⟩

theorem Ext'.trans {P : Out → Prop} {m m' m'' : Mgr} (h : Ext' P m m') (h' : Ext' P m' m'') : Ext' P m m'' := by
  obtain ⟨l, e, hl⟩ := h.out
  obtain ⟨l', e', hl'⟩ := h'.out
  refine ⟨⟨l ++ l', by rw [e', e, List.append_assoc], ?_⟩, fun a c i x => h.conn a c i (h'.conn a c i x),
    h'.now.trans h.now, h'.trusted.trans h.trusted⟩
  intro o ho
  rcases List.mem_append.1 ho with x | x
  · exact hl o x
  · exact hl' o x

theorem idle_ext {m m' : Mgr} {cfg : Config} {src : List Cand} (h : m.idle cfg src = .ok m') : Ext MaintainOut m m' := by
  unfold Mgr.idle at h
  by_cases h1 : m.now - m.lastIdle.getD 0 ≥ idleTimeout
  · rw [if_pos h1] at h
    cases hm : m.maintain cfg src with
    | ok m1 =>
      simp only [hm, Res.ok.injEq] at h
      refine (maintain_ext hm).trans ?_
      rw [← h]
      refine ⟨⟨_, rfl, ?_⟩, fun _ _ _ x => x, rfl, rfl, rfl⟩
      intro o ho
      simp only [List.mem_cons, List.not_mem_nil, or_false] at ho
      exact Or.inl (Or.inr ⟨_, ho⟩)
    | err e => simp [hm] at h
    | panic => simp [hm] at h
  · rw [if_neg h1] at h
    simp only [Res.ok.injEq] at h
    rw [← h]; exact Ext.refl _ _

/-- The parts of `timer_expired`. -/
theorem timerExpired_parts {m m' : Mgr} {cfg : Config} {ord : List Sock → List Sock} {src : List Cand}
    (h : m.timerExpired cfg ord src = .ok m') :
    ∃ m1, (m.dropAll (m.timedOut ord)).idle cfg src = .ok m1 ∧ m' = m1.maintainPersistent cfg ord := by
  unfold Mgr.timerExpired at h
  cases hi : (m.dropAll (m.timedOut ord)).idle cfg src with
  | ok m1 =>
    simp only [hi, Res.ok.injEq] at h
    exact ⟨m1, rfl, h.symm⟩
  | err e => simp [hi] at h
  | panic => simp [hi] at h

theorem clearDue_ext (m : Mgr) : Ext' (fun _ => False) m m.clearDue :=
  ⟨⟨[], by simp [Mgr.clearDue], by simp⟩, fun _ _ _ x => x, rfl, rfl⟩

theorem maintainPersistent_ext (m : Mgr) (cfg : Config) (ord : List Sock → List Sock) :
    Ext' ConnectOut m (m.maintainPersistent cfg ord) :=
  ((clearDue_ext m).mono (fun _ x => x.elim)).trans (reconnect_ext cfg _ _).weak

theorem timerExpired_ext {m m' : Mgr} {cfg : Config} {ord : List Sock → List Sock} {src : List Cand}
    (h : m.timerExpired cfg ord src = .ok m') : Ext' TimerOut m m' := by
  obtain ⟨m1, h1, rfl⟩ := timerExpired_parts h
  have e1 : Ext' TimerOut m (m.dropAll (m.timedOut ord)) := (dropAll_ext _ m).weak.mono (fun o x => Or.inr x)
  have e2 : Ext' TimerOut (m.dropAll (m.timedOut ord)) m1 := (idle_ext h1).weak.mono (fun o x => Or.inl x)
  exact (e1.trans e2).trans ((maintainPersistent_ext m1 cfg ord).mono (fun o x => Or.inl (Or.inl x)))

/-- Outputs of losing a connection. -/
def LostOut (a : Sock) (o : Out) : Prop := MaintainOut o ∨ (∃ d, o = .evDisconnected a d) ∨ o = .evConnectionFailed a

theorem forget_ext (m : Mgr) (a : Sock) (d : Disc) : Ext (LostOut a) m (m.forget a d) := by
  refine ⟨⟨_, rfl, ?_⟩, ?_, rfl, rfl, rfl⟩
  · intro o ho
    unfold Mgr.lostEvent at ho
    by_cases h1 : (m.isDisconnecting a || m.isConnected a) = true
    · rw [if_pos h1] at ho
      simp only [List.mem_cons, List.not_mem_nil, or_false] at ho
      exact Or.inr (Or.inl ⟨d, ho⟩)
    · rw [if_neg h1] at ho
      by_cases h2 : (m.isConnecting a && d == .connection) = true
      · rw [if_pos h2] at ho
        simp only [List.mem_cons, List.not_mem_nil, or_false] at ho
        exact Or.inr (Or.inr ho)
      · rw [if_neg h2] at ho
        simp at ho
  · intro b c i hb
    simp only [Mgr.forget, AMap.get_erase] at hb
    by_cases e : a = b
    · rw [if_pos e] at hb; simp at hb
    · rw [if_neg e] at hb; exact hb

theorem forget_get (m : Mgr) (a : Sock) (d : Disc) (b : Sock) :
    (m.forget a d).peers.get b = if a = b then none else m.peers.get b := by
  simp [Mgr.forget, AMap.get_erase]

/-- The parts of `peer_disconnected`. -/
theorem peerDisconnected_parts {m m' : Mgr} {cfg : Config} {a : Sock} {d : Disc} {src : List Cand}
    (h : m.peerDisconnected cfg a d src = .ok m') :
    (a ∈ cfg.persistent ∧ (m.forget a d).persistentDisconnected cfg a = .ok m') ∨
    (a ∉ cfg.persistent ∧ (m.forget a d).maintain cfg src = .ok m') := by
  unfold Mgr.peerDisconnected at h
  by_cases h1 : (cfg.dbg && !m.peers.contains a) = true
  · rw [if_pos h1] at h; simp at h
  rw [if_neg h1] at h
  by_cases h2 : cfg.persistent.contains a = true
  · rw [if_pos h2] at h
    exact Or.inl ⟨by simpa using h2, h⟩
  · rw [if_neg h2] at h
    exact Or.inr ⟨by simpa using h2, h⟩

/-- The effect of `persistent_disconnected`. -/
theorem persistentDisconnected_parts {m m' : Mgr} {cfg : Config} {a : Sock}
    (h : m.persistentDisconnected cfg a = .ok m') :
    cfg.retryMin ≤ cfg.retryMax ∧
    m' = { m with
      disconnected := m.disconnected.insert a
        (some (m.now + max cfg.retryMin (min (backoff ((m.disconnected.get a).getD (none, 0)).2) cfg.retryMax)),
          ((m.disconnected.get a).getD (none, 0)).2 + 1),
      out := m.out ++ [.timer (max cfg.retryMin (min (backoff ((m.disconnected.get a).getD (none, 0)).2) cfg.retryMax))] } := by
  unfold Mgr.persistentDisconnected at h
  by_cases h1 : cfg.retryMax < cfg.retryMin
  · rw [if_pos h1] at h; simp at h
  rw [if_neg h1] at h
  simp only [Res.ok.injEq] at h
  exact ⟨by omega, h.symm⟩

theorem peerDisconnected_ext {m m' : Mgr} {cfg : Config} {a : Sock} {d : Disc} {src : List Cand}
    (h : m.peerDisconnected cfg a d src = .ok m') : Ext' (LostOut a) m m' := by
  rcases peerDisconnected_parts h with ⟨_, h1⟩ | ⟨_, h1⟩
  · obtain ⟨_, e⟩ := persistentDisconnected_parts h1
    refine (forget_ext m a d).weak.trans ?_
    rw [e]
    refine ⟨⟨_, rfl, ?_⟩, fun _ _ _ x => x, rfl, rfl⟩
    intro o ho
    simp only [List.mem_cons, List.not_mem_nil, or_false] at ho
    exact Or.inl (Or.inl (Or.inr ⟨_, ho⟩))
  · exact (forget_ext m a d).weak.trans ((maintain_ext h1).weak.mono (fun o x => Or.inl x))

theorem peerDisconnected_gone {m m' : Mgr} {cfg : Config} {a : Sock} {d : Disc} {src : List Cand}
    (h : m.peerDisconnected cfg a d src = .ok m') (c : Conn) (i : Option Info) :
    m'.peers.get a ≠ some (.connected c i) := by
  intro hc
  have key : (m.forget a d).peers.get a = some (.connected c i) := by
    rcases peerDisconnected_parts h with ⟨_, h1⟩ | ⟨_, h1⟩
    · obtain ⟨_, e⟩ := persistentDisconnected_parts h1
      rw [e] at hc
      exact hc
    · exact (maintain_ext h1).conn _ _ _ hc
  rw [forget_get, if_pos rfl] at key
  simp at key

/-- Outputs of a new connection. -/
def NewConnOut (a : Sock) (o : Out) : Prop :=
  o = .disconnect a .connectionLimit ∨ (∃ v, o = .version a v) ∨ (∃ t, o = .timer t) ∨ (∃ loc l, o = .evConnected a loc l)

/-- The effect of `peer_connected`. -/
theorem peerConnected_ok {m m' : Mgr} {cfg : Config} {a loc : Sock} {link : Link} {height nonce : Nat}
    (h : m.peerConnected cfg a loc link height nonce = .ok m') :
    m' = ((m.addConn a loc link).greet cfg a link height nonce).emit [.timer handshakeTimeout, .evConnected a loc link] ∧
    (cfg.dbg = true → m.isConnected a = false ∧ (link = .outbound → m.isConnecting a = true)) := by
  unfold Mgr.peerConnected at h
  by_cases h1 : (cfg.dbg && link == .outbound && !m.isConnecting a) = true
  · rw [if_pos h1] at h; simp at h
  rw [if_neg h1] at h
  by_cases h2 : (cfg.dbg && m.isConnected a) = true
  · rw [if_pos h2] at h; simp at h
  rw [if_neg h2] at h
  simp only [Res.ok.injEq] at h
  refine ⟨h.symm, fun hd => ?_⟩
  simp only [hd, Bool.true_and] at h1 h2
  refine ⟨by simpa using h2, ?_⟩
  rintro rfl
  simpa using h1

theorem greet_get_ne (m : Mgr) (cfg : Config) (a : Sock) (link : Link) (height nonce : Nat) (b : Sock) (hb : a ≠ b) :
    (m.greet cfg a link height nonce).peers.get b = m.peers.get b := by
  unfold Mgr.greet
  cases link with
  | outbound => rfl
  | inbound =>
    by_cases h : m.inboundCount ≥ cfg.maxInbound
    · simp only [h, if_true, Mgr.drop, AMap.get_insert, if_neg hb]
    · simp only [h, if_false]

theorem peerConnected_get_ne {m m' : Mgr} {cfg : Config} {a loc : Sock} {link : Link} {height nonce : Nat}
    (h : m.peerConnected cfg a loc link height nonce = .ok m') (b : Sock) (hb : a ≠ b) : m'.peers.get b = m.peers.get b := by
  rw [(peerConnected_ok h).1]
  simp only [Mgr.emit, greet_get_ne _ _ _ _ _ _ _ hb, Mgr.addConn, AMap.get_insert, if_neg hb]

theorem peerConnected_get_self {m m' : Mgr} {cfg : Config} {a loc : Sock} {link : Link} {height nonce : Nat}
    (h : m.peerConnected cfg a loc link height nonce = .ok m') :
    m'.peers.get a = some (.connected ⟨a, loc, link, m.now⟩ none) ∨
    (link = .inbound ∧ m'.peers.get a = some .disconnecting) := by
  rw [(peerConnected_ok h).1]
  simp only [Mgr.emit, Mgr.greet]
  cases link with
  | outbound => left; simp [Mgr.addConn]
  | inbound =>
    by_cases h : (m.addConn a loc .inbound).inboundCount ≥ cfg.maxInbound
    · right; simp only [h, if_true, Mgr.drop, AMap.get_insert_self]; trivial
    · left; simp only [h, if_false]; simp [Mgr.addConn]

theorem greet_out (m : Mgr) (cfg : Config) (a : Sock) (link : Link) (height nonce : Nat) :
    ∃ l, (m.greet cfg a link height nonce).out = m.out ++ l ∧ ∀ o ∈ l, NewConnOut a o := by
  unfold Mgr.greet
  cases link with
  | outbound =>
    refine ⟨_, rfl, ?_⟩
    intro o ho
    simp only [List.mem_cons, List.not_mem_nil, or_false] at ho
    exact Or.inr (Or.inl ⟨_, ho⟩)
  | inbound =>
    by_cases h : m.inboundCount ≥ cfg.maxInbound
    · simp only [h, if_true, Mgr.drop]
      refine ⟨_, rfl, ?_⟩
      intro o ho
      simp only [List.mem_cons, List.not_mem_nil, or_false] at ho
      exact Or.inl ho
    · simp only [h, if_false]
      exact ⟨[], by simp, by simp⟩

theorem greet_keep (m : Mgr) (cfg : Config) (a : Sock) (link : Link) (height nonce : Nat) :
    (m.greet cfg a link height nonce).now = m.now ∧ (m.greet cfg a link height nonce).trusted = m.trusted ∧
    (m.greet cfg a link height nonce).disconnected = m.disconnected := by
  unfold Mgr.greet
  cases link with
  | outbound => exact ⟨rfl, rfl, rfl⟩
  | inbound =>
    by_cases h : m.inboundCount ≥ cfg.maxInbound
    · simp only [h, if_true, Mgr.drop, and_self]
    · simp only [h, if_false, and_self]

theorem peerConnected_out {m m' : Mgr} {cfg : Config} {a loc : Sock} {link : Link} {height nonce : Nat}
    (h : m.peerConnected cfg a loc link height nonce = .ok m') :
    (∃ l, m'.out = m.out ++ l ∧ ∀ o ∈ l, NewConnOut a o) ∧ m'.now = m.now ∧ m'.trusted = m.trusted ∧
    m'.disconnected = m.disconnected.erase a := by
  rw [(peerConnected_ok h).1]
  obtain ⟨l, e, hl⟩ := greet_out (m.addConn a loc link) cfg a link height nonce
  obtain ⟨k1, k2, k3⟩ := greet_keep (m.addConn a loc link) cfg a link height nonce
  refine ⟨⟨l ++ [.timer handshakeTimeout, .evConnected a loc link], ?_, ?_⟩, ?_, ?_, ?_⟩
  · simp only [Mgr.emit, e, List.append_assoc]; rfl
  · intro o ho
    rcases List.mem_append.1 ho with x | x
    · exact hl o x
    · simp only [List.mem_cons, List.not_mem_nil, or_false] at x
      rcases x with rfl | rfl
      · exact Or.inr (Or.inr (Or.inl ⟨_, rfl⟩))
      · exact Or.inr (Or.inr (Or.inr ⟨_, _, rfl⟩))
  · simp only [Mgr.emit, k1]; rfl
  · simp only [Mgr.emit, k2]; rfl
  · simp only [Mgr.emit, k3]; rfl

theorem isConnected_iff (m : Mgr) (a : Sock) : m.isConnected a = true ↔ ∃ c i, m.peers.get a = some (.connected c i) := by
  unfold Mgr.isConnected
  cases h : m.peers.get a with
  | none => simp
  | some p => cases p <;> simp

theorem isConnecting_iff (m : Mgr) (a : Sock) : m.isConnecting a = true ↔ ∃ t, m.peers.get a = some (.connecting t) := by
  unfold Mgr.isConnecting
  cases h : m.peers.get a with
  | none => simp
  | some p => cases p <;> simp

theorem isDisconnecting_iff (m : Mgr) (a : Sock) : m.isDisconnecting a = true ↔ m.peers.get a = some .disconnecting := by
  unfold Mgr.isDisconnecting
  cases h : m.peers.get a with
  | none => simp
  | some p => cases p <;> simp

end Verif.Peer
