import Verif.Peer.Lemmas

/-!
# The handshake: what the state of a peer says about the history
-/

set_option autoImplicit false

namespace Verif.Peer
open Verif.Addr (Sock Ip Domain NetAddr Source has isLocal domainOf sadd)

/-- The record of a peer is what its connection has seen. -/
def Matches (cfg : Config) (a : Sock) : Option Seen → Option Info → Prop
  | none, none => True
  | some s, some i =>
    i.height = asHeight s.v.startHeight ∧ i.services = s.v.services ∧ i.agent = s.v.agent ∧
    i.offset = Int.bmod (rawOffset s.v s.at_) (2 ^ 64) ∧ i.receiver = s.v.receiver ∧ i.relay = s.v.relay ∧ i.wtxid = s.wtxid ∧
    i.version = min cfg.protocolVersion s.v.version ∧ i.persistent = cfg.persistent.contains a ∧ i.isNegotiated = s.verack ∧
    (∀ t, i.state = .version t → s.at_ = t)
  | _, _ => False

/-- What holds after every history. -/
structure Inv (cfg : Config) (tr : List Ip) (h : List Op) (m : Mgr) : Prop where
  now : m.now = timeOf h
  trusted : ∀ ip, ip ∈ m.trusted ↔ ip ∈ tr ∨ ∃ b, Op.cmdConnect b ∈ h ∧ b.ip = ip
  sess : ∀ a c i, m.peers.get a = some (.connected c i) →
    c.addr = a ∧ ∃ s, Session cfg tr a h c.link s ∧ Matches cfg a s i

theorem inv_start (cfg : Config) (tr : List Ip) : Inv cfg tr [] (Mgr.new tr) :=
  ⟨rfl, fun ip => by simp [Mgr.new], fun a c i h => by simp [Mgr.new] at h⟩

theorem mem_sadd {α : Type} [DecidableEq α] (l : List α) (a b : α) : b ∈ sadd l a ↔ b = a ∨ b ∈ l := by
  unfold sadd
  by_cases h : a ∈ l
  · rw [if_pos h]
    constructor
    · exact Or.inr
    · rintro (rfl | x)
      · exact h
      · exact x
  · rw [if_neg h]; simp

theorem isTrusted_iff {cfg : Config} {tr : List Ip} {h : List Op} {m : Mgr} (hi : Inv cfg tr h m) (a : Sock) (agent : String) :
    m.isTrusted cfg a agent = true ↔ Trusted cfg tr h a agent := by
  unfold Mgr.isTrusted Trusted
  have := hi.trusted a.ip
  simp only [Bool.or_eq_true, List.contains_iff_mem, this]
  constructor
  · rintro (((x | x) | x) | x)
    · exact Or.inl x
    · exact Or.inr (Or.inr (Or.inr x))
    · exact Or.inr (Or.inl x)
    · exact Or.inr (Or.inr (Or.inl x))
  · rintro (x | x | x | x)
    · exact Or.inl (Or.inl (Or.inl x))
    · exact Or.inl (Or.inr x)
    · exact Or.inr x
    · exact Or.inl (Or.inl (Or.inr x))

/-- Steps that leave connections alone and do not concern `a`. -/
theorem inv_ext {cfg : Config} {tr : List Ip} {h : List Op} {m m' : Mgr} {op : Op} (hi : Inv cfg tr h m)
    (hn : m'.now = timeOf (op :: h)) (ht : ∀ ip, ip ∈ m'.trusted ↔ ip ∈ m.trusted ∨ ∃ b, op = .cmdConnect b ∧ b.ip = ip)
    (hc : ∀ a c i, m'.peers.get a = some (.connected c i) → m.peers.get a = some (.connected c i) ∧ ¬ Touches a op) :
    Inv cfg tr (op :: h) m' := by
  refine ⟨hn, ?_, ?_⟩
  · intro ip
    rw [ht, hi.trusted]
    constructor
    · rintro ((x | ⟨b, hb, e⟩) | ⟨b, hb, e⟩)
      · exact Or.inl x
      · exact Or.inr ⟨b, List.mem_cons_of_mem _ hb, e⟩
      · exact Or.inr ⟨b, by rw [hb]; exact List.mem_cons_self, e⟩
    · rintro (x | ⟨b, hb, e⟩)
      · exact Or.inl (Or.inl x)
      · rcases List.mem_cons.1 hb with x | x
        · exact Or.inr ⟨b, x.symm, e⟩
        · exact Or.inl (Or.inr ⟨b, x, e⟩)
  · intro a c i ha
    obtain ⟨h1, h2⟩ := hc a c i ha
    obtain ⟨e, s, g, mt⟩ := hi.sess a c i h1
    exact ⟨e, s, .other g h2, mt⟩

theorem disconnect_gone (m : Mgr) (a : Sock) (r : Reason) (c : Conn) (i : Option Info) :
    (m.disconnect a r).peers.get a ≠ some (.connected c i) := by
  unfold Mgr.disconnect
  by_cases h : m.isConnected a = true
  · rw [if_pos h]; simp [Mgr.drop]
  · rw [if_neg h]
    intro hc
    exact h ((isConnected_iff m a).2 ⟨c, i, hc⟩)

theorem inv_disconnect {cfg : Config} {tr : List Ip} {h : List Op} {m : Mgr} {op : Op} (hi : Inv cfg tr h m) (a : Sock) (r : Reason)
    (hn : timeOf (op :: h) = timeOf h) (ht : ∀ b, op ≠ .cmdConnect b) (hb : ∀ b, Touches b op → b = a) :
    Inv cfg tr (op :: h) (m.disconnect a r) := by
  have e := disconnect_ext m a r
  refine inv_ext hi ?_ ?_ ?_
  · rw [e.now, hi.now, hn]
  · intro ip
    rw [e.trusted]
    constructor
    · exact Or.inl
    · rintro (x | ⟨b, hb, _⟩)
      · exact x
      · exact absurd hb (ht b)
  · intro b c i hc
    refine ⟨e.conn _ _ _ hc, ?_⟩
    intro ht
    have := hb b ht
    subst this
    exact disconnect_gone _ _ _ _ _ hc

theorem timeOf_message (h : List Op) (a : Sock) (x : Bool) (y : Nat) (z : Bool) (w : Msg) :
    timeOf (.message a x y z w :: h) = timeOf h := rfl

theorem same_trusted {m m' : Mgr} {op : Op} (e : m'.trusted = m.trusted) (ht : ∀ b, op ≠ .cmdConnect b) :
    ∀ ip, ip ∈ m'.trusted ↔ ip ∈ m.trusted ∨ ∃ b, op = .cmdConnect b ∧ b.ip = ip := by
  intro ip
  rw [e]
  constructor
  · exact Or.inl
  · rintro (x | ⟨b, hb, _⟩)
    · exact x
    · exact absurd hb (ht b)

/-- Trust after a step that is not a command to connect. -/
theorem trusted_cons {cfg : Config} {tr : List Ip} {h : List Op} {m m' : Mgr} {op : Op} (hi : Inv cfg tr h m)
    (e : m'.trusted = m.trusted) (ht : ∀ b, op ≠ .cmdConnect b) (ip : Ip) :
    ip ∈ m'.trusted ↔ ip ∈ tr ∨ ∃ b, Op.cmdConnect b ∈ op :: h ∧ b.ip = ip := by
  rw [e, hi.trusted]
  constructor
  · rintro (x | ⟨b, hb, e⟩)
    · exact Or.inl x
    · exact Or.inr ⟨b, List.mem_cons_of_mem _ hb, e⟩
  · rintro (x | ⟨b, hb, e⟩)
    · exact Or.inl x
    · rcases List.mem_cons.1 hb with x | x
      · exact absurd x.symm (ht b)
      · exact Or.inr ⟨b, x, e⟩

/-- A step that replaces the entry of `a` only. -/
theorem inv_update {cfg : Config} {tr : List Ip} {h : List Op} {m m' : Mgr} {op : Op} (hi : Inv cfg tr h m) (a : Sock)
    (hn : m'.now = timeOf (op :: h)) (he : m'.trusted = m.trusted) (ht : ∀ b, op ≠ .cmdConnect b)
    (hb : ∀ b, b ≠ a → ¬ Touches b op) (hg : ∀ b, b ≠ a → m'.peers.get b = m.peers.get b)
    (hs : ∀ c i, m'.peers.get a = some (.connected c i) →
      c.addr = a ∧ ∃ s, Session cfg tr a (op :: h) c.link s ∧ Matches cfg a s i) :
    Inv cfg tr (op :: h) m' := by
  refine ⟨hn, trusted_cons hi he ht, ?_⟩
  intro b c i hc
  by_cases e : b = a
  · subst e; exact hs c i hc
  · rw [hg b e] at hc
    obtain ⟨e1, s, g, mt⟩ := hi.sess b c i hc
    exact ⟨e1, s, .other g (hb b e), mt⟩

/-- Why a version message is accepted. -/
theorem valid_of_refuse {cfg : Config} {tr : List Ip} {h : List Op} {m : Mgr} (hi : Inv cfg tr h m) {c : Conn} {a : Sock}
    {v : Version} {height : Nat} {hook : Bool} (hr : m.refuse cfg c a v height hook = none) :
    Valid cfg tr h a c.link v height hook := by
  unfold Mgr.refuse at hr
  by_cases h1 : v.version < minProtocolVersion
  · simp [h1] at hr
  rw [if_neg h1] at hr
  by_cases h2 : (c.link == .outbound && !has v.services cfg.required && !m.isTrusted cfg a v.agent) = true
  · simp [h2] at hr
  rw [if_neg h2] at hr
  by_cases h3 : (c.link == .outbound && height - asHeight v.startHeight > maxStale && !m.isTrusted cfg a v.agent) = true
  · simp [h3] at hr
  rw [if_neg h3] at hr
  by_cases h4 : m.versioned.any (fun p => p.2.link == .outbound && p.1.nonce == v.nonce) = true
  · simp [h4] at hr
  rw [if_neg h4] at hr
  by_cases h5 : (c.link == .outbound && !has v.services cfg.preferred && (m.negotiated .outbound).length ≥ cfg.target) = true
  · simp [h5] at hr
  rw [if_neg h5] at hr
  by_cases h6 : (!hook) = true
  · simp [h6] at hr
  refine ⟨?_, by simpa using h6, ?_, ?_⟩
  · unfold minProtocolVersion at h1; omega
  · intro hl ht
    have ht' : m.isTrusted cfg a v.agent = false := by
      cases hx : m.isTrusted cfg a v.agent with
      | false => rfl
      | true => exact absurd ((isTrusted_iff hi a v.agent).1 hx) ht
    simp only [hl, ht', beq_self_eq_true, Bool.true_and, Bool.not_false, Bool.and_true] at h2
    simpa [has] using h2
  · intro hl ht
    have ht' : m.isTrusted cfg a v.agent = false := by
      cases hx : m.isTrusted cfg a v.agent with
      | false => rfl
      | true => exact absurd ((isTrusted_iff hi a v.agent).1 hx) ht
    simp only [hl, ht', beq_self_eq_true, Bool.true_and, Bool.not_false, Bool.and_true, gt_iff_lt,
      decide_eq_true_eq] at h3
    unfold maxStale at h3
    omega

/-- An invalid version message is refused. -/
theorem refuse_of_invalid {cfg : Config} {tr : List Ip} {h : List Op} {m : Mgr} (hi : Inv cfg tr h m) {c : Conn} {a : Sock}
    {v : Version} {height : Nat} {hook : Bool} (hv : ¬ Valid cfg tr h a c.link v height hook) :
    ∃ r, m.refuse cfg c a v height hook = some r := by
  cases hr : m.refuse cfg c a v height hook with
  | some r => exact ⟨r, rfl⟩
  | none => exact absurd (valid_of_refuse hi hr) hv

/-- The messages of `a` touch `a` only. -/
theorem touches_message {a b : Sock} {x : Bool} {y : Nat} {z : Bool} {w : Msg} (hb : b ≠ a) : ¬ Touches b (.message a x y z w) :=
  fun e => hb e.symm

theorem inv_message {cfg : Config} {tr : List Ip} {h : List Op} {m m' : Mgr} (hi : Inv cfg tr h m) {a : Sock} {mg : Bool}
    {height : Nat} {hook : Bool} {msg : Msg} (e : m.messageReceived cfg a mg height hook msg = .ok m') :
    Inv cfg tr (.message a mg height hook msg :: h) m' := by
  unfold Mgr.messageReceived at e
  cases mg with
  | false =>
    simp only [Bool.not_false, if_true, Res.ok.injEq] at e
    rw [← e]
    exact inv_disconnect hi a .magic rfl (fun b => by simp) (fun b hb => hb.symm)
  | true =>
    simp only [Bool.not_true, Bool.false_eq_true, if_false] at e
    by_cases hc : m.isConnected a = true
    · simp only [hc, Bool.not_true, Bool.false_eq_true, if_false] at e
      obtain ⟨c, i, hg⟩ := (isConnected_iff m a).1 hc
      obtain ⟨ha, s, g, mt⟩ := hi.sess a c i hg
      cases msg with
      | version v =>
        simp only [Mgr.receivedMsg, Mgr.receivedVersion, hg] at e
        cases hr : m.refuse cfg c a v height hook with
        | some r =>
          simp only [hr, Res.ok.injEq] at e
          rw [← e]
          refine inv_update hi a (by rw [timeOf_message, ← hi.now]; rfl) rfl (fun b => by simp)
            (fun b hb => touches_message hb) ?_ ?_
          · intro b hb
            simp [Mgr.drop, AMap.get_insert, Ne.symm hb]
          · intro c' i' h'
            simp [Mgr.drop] at h'
        | none =>
          simp only [hr] at e
          by_cases hp : (cfg.dbg && rawOffset v m.now < -(2 ^ 63 : Int)) = true
          · rw [if_pos hp] at e; simp at e
          rw [if_neg hp] at e
          simp only [Res.ok.injEq] at e
          rw [← e]
          refine inv_update hi a (by rw [timeOf_message, ← hi.now]; rfl) rfl (fun b => by simp)
            (fun b hb => touches_message hb) ?_ ?_
          · intro b hb
            simp [Mgr.accept, ha, AMap.get_insert, Ne.symm hb]
          · intro c' i' h'
            simp only [Mgr.accept, ha, AMap.get_insert_self, Option.some.injEq, Peer.connected.injEq] at h'
            obtain ⟨rfl, rfl⟩ := h'
            refine ⟨ha, _, .version g (valid_of_refuse hi hr), ?_⟩
            simp only [Matches, infoOf, Info.isNegotiated, hi.now, ha, HState.version.injEq, true_and, imp_self, implies_true]
      | verack =>
        simp only [Mgr.receivedMsg, Res.ok.injEq] at e
        rw [← e]
        unfold Mgr.receivedVerack
        simp only [hg]
        cases i with
        | none =>
          simp only
          refine inv_update hi a (by rw [timeOf_message, ← hi.now]) rfl (fun b => by simp)
            (fun b hb => touches_message hb) (fun _ _ => rfl) ?_
          intro c' i' h'
          rw [hg] at h'
          simp only [Option.some.injEq, Peer.connected.injEq] at h'
          obtain ⟨rfl, rfl⟩ := h'
          cases s with
          | none => exact ⟨ha, _, .verack g, mt⟩
          | some s => exact mt.elim
        | some i =>
          cases s with
          | none => exact mt.elim
          | some s =>
            cases hst : i.state with
            | version since =>
              simp only [hst]
              refine inv_update hi a (by rw [timeOf_message, ← hi.now]) rfl (fun b => by simp)
                (fun b hb => touches_message hb) ?_ ?_
              · intro b hb
                simp [AMap.get_insert, Ne.symm hb]
              · intro c' i' h'
                simp only [AMap.get_insert_self, Option.some.injEq, Peer.connected.injEq] at h'
                obtain ⟨rfl, rfl⟩ := h'
                refine ⟨ha, _, .verack g, ?_⟩
                simp only [Matches, Option.map_some] at mt ⊢
                obtain ⟨m1, m2, m3, m4, m5, m6, m7, m8, m9, m10, m11⟩ := mt
                exact ⟨m1, m2, m3, m4, m5, m6, m7, m8, m9, rfl, by simp⟩
            | verack since =>
              simp only [hst]
              refine inv_update hi a (by rw [timeOf_message, ← hi.now]; rfl) rfl (fun b => by simp)
                (fun b hb => touches_message hb) ?_ ?_
              · intro b hb
                simp [Mgr.drop, AMap.get_insert, Ne.symm hb]
              · intro c' i' h'
                simp [Mgr.drop] at h'
      | wtxidRelay =>
        simp only [Mgr.receivedMsg, Res.ok.injEq] at e
        rw [← e]
        unfold Mgr.receivedWtxidRelay
        simp only [hg]
        cases i with
        | none =>
          simp only
          refine inv_update hi a (by rw [timeOf_message, ← hi.now]) rfl (fun b => by simp)
            (fun b hb => touches_message hb) (fun _ _ => rfl) ?_
          intro c' i' h'
          rw [hg] at h'
          simp only [Option.some.injEq, Peer.connected.injEq] at h'
          obtain ⟨rfl, rfl⟩ := h'
          cases s with
          | none => exact ⟨ha, _, .wtxid g, mt⟩
          | some s => exact mt.elim
        | some i =>
          cases s with
          | none => exact mt.elim
          | some s =>
            cases hst : i.state with
            | version since =>
              simp only [hst]
              refine inv_update hi a (by rw [timeOf_message, ← hi.now]) rfl (fun b => by simp)
                (fun b hb => touches_message hb) ?_ ?_
              · intro b hb
                simp [AMap.get_insert, Ne.symm hb]
              · intro c' i' h'
                simp only [AMap.get_insert_self, Option.some.injEq, Peer.connected.injEq] at h'
                obtain ⟨rfl, rfl⟩ := h'
                refine ⟨ha, _, .wtxid g, ?_⟩
                simp only [Matches, Option.map_some, Info.isNegotiated, hst] at mt ⊢
                obtain ⟨m1, m2, m3, m4, m5, m6, m7, m8, m9, m10, m11⟩ := mt
                exact ⟨m1, m2, m3, m4, m5, m6, trivial, m8, m9, m10, m11⟩
            | verack since =>
              simp only [hst]
              exact inv_disconnect hi a .misbehaving rfl (fun b => by simp) (fun b hb => hb.symm)
    · simp only [Bool.not_eq_true] at hc
      simp only [hc, Bool.not_false, if_true, Res.ok.injEq] at e
      rw [← e]
      refine inv_update hi a (by rw [timeOf_message, ← hi.now]) rfl (fun b => by simp)
        (fun b hb => touches_message hb) (fun _ _ => rfl) ?_
      intro c' i' h'
      rw [(isConnected_iff m a).2 ⟨c', i', h'⟩] at hc
      simp at hc

theorem inv_step {cfg : Config} {tr : List Ip} {h : List Op} {m m' : Mgr} {op : Op} (hi : Inv cfg tr h m)
    (e : m.step cfg op = .ok m') : Inv cfg tr (op :: h) m' := by
  cases op with
  | init src =>
    have x := initialize_ext e
    exact inv_ext hi (by rw [x.now, hi.now]; rfl) (same_trusted x.trusted (fun b => by simp))
      (fun a c i hc => ⟨x.conn _ _ _ hc, fun t => t⟩)
  | tick t =>
    simp only [Mgr.step, Res.ok.injEq] at e
    rw [← e]
    exact inv_ext hi rfl (same_trusted rfl (fun b => by simp)) (fun a c i hc => ⟨hc, fun t => t⟩)
  | attempted a =>
    simp only [Mgr.step, Mgr.peerAttempted] at e
    by_cases h1 : (cfg.dbg && !(m.isConnecting a || m.isInbound a)) = true
    · rw [if_pos h1] at e; simp at e
    · rw [if_neg h1] at e
      simp only [Res.ok.injEq] at e
      rw [← e]
      exact inv_ext hi hi.now (same_trusted rfl (fun b => by simp)) (fun a c i hc => ⟨hc, fun t => t⟩)
  | connected a loc link height nonce =>
    obtain ⟨_, k1, k2, _⟩ := peerConnected_out e
    refine inv_update hi a (by rw [k1, hi.now]; rfl) k2 (fun b => by simp) (fun b hb t => hb t.symm)
      (fun b hb => peerConnected_get_ne e b (Ne.symm hb)) ?_
    intro c i hc
    rcases peerConnected_get_self e with x | ⟨_, x⟩
    · rw [x] at hc
      simp only [Option.some.injEq, Peer.connected.injEq] at hc
      obtain ⟨rfl, rfl⟩ := hc
      exact ⟨rfl, none, .connected, trivial⟩
    · rw [x] at hc
      simp at hc
  | disconnected a d src =>
    have x := peerDisconnected_ext e
    refine inv_ext hi (by rw [x.now, hi.now]; rfl) (same_trusted x.trusted (fun b => by simp)) ?_
    intro b c i hc
    refine ⟨x.conn _ _ _ hc, ?_⟩
    intro t
    change a = b at t
    subst t
    exact peerDisconnected_gone e c i hc
  | message a mg height hook msg => exact inv_message hi e
  | timedOut a =>
    simp only [Mgr.step, Res.ok.injEq] at e
    rw [← e]
    exact inv_disconnect hi a _ rfl (fun b => by simp) (fun b hb => hb.symm)
  | misbehaved a =>
    simp only [Mgr.step, Res.ok.injEq] at e
    rw [← e]
    exact inv_disconnect hi a _ rfl (fun b => by simp) (fun b hb => hb.symm)
  | cmdConnect a =>
    simp only [Mgr.step, Res.ok.injEq] at e
    rw [← e]
    have x := connect_ext (m.whitelist a) cfg a
    refine inv_ext hi (by rw [x.now]; exact hi.now) ?_ (fun b c i hc => ⟨x.conn _ _ _ hc, fun t => t⟩)
    intro ip
    rw [x.trusted]
    simp only [Mgr.whitelist, mem_sadd, Op.cmdConnect.injEq]
    constructor
    · rintro (rfl | y)
      · exact Or.inr ⟨a, rfl, rfl⟩
      · exact Or.inl y
    · rintro (y | ⟨b, rfl, y⟩)
      · exact Or.inr y
      · exact Or.inl y.symm
  | cmdDisconnect a =>
    simp only [Mgr.step, Res.ok.injEq] at e
    rw [← e]
    exact inv_disconnect hi a _ rfl (fun b => by simp) (fun b hb => hb.symm)
  | timer ord src =>
    have x := timerExpired_ext e
    exact inv_ext hi (by rw [x.now, hi.now]; rfl) (same_trusted x.trusted (fun b => by simp))
      (fun a c i hc => ⟨x.conn _ _ _ hc, fun t => t⟩)

theorem run_inv {cfg : Config} {tr : List Ip} {h : List Op} {m : Mgr} (r : Run cfg tr h m) : Inv cfg tr h m := by
  induction r with
  | start => exact inv_start cfg tr
  | step _ _ e ih => exact inv_step ih e

end Verif.Peer
