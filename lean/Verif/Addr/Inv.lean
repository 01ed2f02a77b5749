import Verif.Addr.Lemmas

/-!
-/

set_option autoImplicit false

namespace Verif.Addr

/-- Whether an address is connected after a call. -/
def connAfter (m : Mgr) (x : Ip) : Op → Prop
  | .connected a => x ∈ m.connected ∨ (x = a.ip ∧ isRoutable x = true ∧ isLocal x = false)
  | .disconnected a _ => x ∈ m.connected ∧ x ≠ a.ip
  | _ => x ∈ m.connected

/-- What is known of the sources after a call. -/
def srcAfter (m : Mgr) (b : Sock) : Op → Prop
  | .negotiated _ a _ _ _ => b ∈ m.sources ∨ (b = a ∧ a.ip ∈ m.connected)
  | .disconnected a _ => b ∈ m.sources ∧ (b = a → a.ip ∉ m.connected)
  | _ => b ∈ m.sources

/-- What one call may change, in terms of the book. -/
structure Effect (cfg : Config) (m : Mgr) (op : Op) (res : Option (NetAddr × Source)) (m' : Mgr) : Prop where
  inv : Inv m'
  idle : m'.lastIdle.isSome
  /-- Entries of the new book: old ones, possibly with new metadata, or acceptable ones. -/
  entry : ∀ x ka, m'.peers.get x = some ka →
    (∃ ka0, m.peers.get x = some ka0 ∧ ka.addr.sock = ka0.addr.sock) ∨
    (∃ time t a s, Acceptable cfg m time t a s ∧ s.ip = x ∧ ka.addr = a ∧
      ∃ e now b l, op = .message e now b (.addr l) ∧ (t, a) ∈ l)
  bansMono : ∀ x ∈ m.bans, x ∈ m'.bans
  bansOnly : ∀ x ∈ m'.bans, x ∈ m.bans ∨
    (m'.peers.get x = none ∧ ∃ a r, op = .disconnected a r ∧ a.ip = x ∧ (r = .permanent ∨ r = .dial))
  connected : ∀ x, x ∈ m'.connected ↔ connAfter m x op
  sources : ∀ b, b ∈ m'.sources → srcAfter m b op

theorem inv_of {m m' : Mgr} (hi : Inv m) (h1 : m'.peers = m.peers) (h2 : m'.ranges = m.ranges) : Inv m' :=
  ⟨by rw [h2]; exact hi.keys, by rw [h1, h2]; exact hi.range, by rw [h1, h2]; exact hi.book, fun _ h => h.elim⟩

theorem update_sock {m : Mgr} (ip : Ip) (f : Known → Known) (hfs : ∀ k, (f k).addr.sock = k.addr.sock) (x : Ip) (ka : Known)
    (h : (m.update ip f).peers.get x = some ka) : ∃ ka0, m.peers.get x = some ka0 ∧ ka.addr.sock = ka0.addr.sock := by
  unfold Mgr.update at h
  cases hg : m.peers.get ip with
  | none => rw [hg] at h; exact ⟨ka, h, rfl⟩
  | some k0 =>
    rw [hg] at h
    simp only [AMap.get_insert] at h
    by_cases hx : ip = x
    · rw [if_pos hx] at h; injection h with h; subst h; subst hx
      exact ⟨k0, hg, hfs k0⟩
    · rw [if_neg hx] at h; exact ⟨ka, h, rfl⟩

/-- The book with the sender's time of last activity. -/
theorem message_addr_ok {m : Mgr} (hi : Inv m) {time : Nat} (ht : m.lastIdle = some time) (cfg : Config) {e : Env}
    (hf : e.Fair) (now : Nat) (b : Sock) (l : List (Nat × NetAddr)) :
    ∃ m', m.messageReceived cfg e now b (.addr l) = .ok m' ∧ Inv m' ∧ Frame m m' ∧
      ((l = [] ∨ maxAddrAddresses < l.length) → m' = m.update b.ip (fun ka => { ka with lastActive := some now })) ∧
      ∀ x ka, m'.peers.get x = some ka →
        (m.update b.ip (fun ka => { ka with lastActive := some now })).peers.get x = some ka ∨
        (l.length ≤ maxAddrAddresses ∧ ∃ t a s, (t, a) ∈ l ∧ Acceptable cfg m time t a s ∧ s.ip = x ∧
          ka = Known.new a (.peer b) (some (t * 1000))) := by
  obtain ⟨hu, hfr, _, _⟩ := update_inv hi b.ip (fun ka => { ka with lastActive := some now })
  unfold Mgr.messageReceived Mgr.receivedAddr
  by_cases hl : (decide (l = []) || decide (l.length > maxAddrAddresses)) = true
  · simp only [hl, if_true]
    exact ⟨_, rfl, hu, hfr, fun _ => rfl, fun x ka h => .inl h⟩
  · simp only [hl]
    have hl' : ¬ (l = [] ∨ maxAddrAddresses < l.length) := by simpa using hl
    obtain ⟨m', h1, h2, h3, h4⟩ := insertLoop_ok cfg hf time (.peer b) l _ hu
    refine ⟨m', ?_, h2, hfr.trans h3, fun h => absurd h hl', fun x ka hx => ?_⟩
    · simp only [Mgr.insert, hfr.lastIdle, ht]; exact h1
    · rcases h4 x ka hx with h | ⟨t, a, s, hm, ha, hs, hk⟩
      · exact .inl h
      · exact .inr ⟨by omega, t, a, s, hm, ha.frame hfr, hs, hk⟩

theorem import_nothing (m : Mgr) (cfg : Config) (e : Env) (time : Nat) : ∀ (l : List NetAddr),
    m.insertLoop cfg e time .imported (l.map (fun a => (0, a))) = .ok m
  | [] => rfl
  | a :: l => by
    have : m.insertOne cfg e time .imported 0 a = .ok m := by
      unfold Mgr.insertOne; simp
    simp only [List.map_cons, Mgr.insertLoop, this]
    exact import_nothing m cfg e time l

theorem idle_frame (m : Mgr) (now : Nat) (saved : Bool) : (m.idle now saved).peers = m.peers ∧ (m.idle now saved).ranges = m.ranges ∧
    (m.idle now saved).bans = m.bans ∧ (m.idle now saved).connected = m.connected ∧ (m.idle now saved).sources = m.sources ∧
    (m.idle now saved).locals = m.locals ∧ (m.idle now saved).lastIdle = some now := ⟨rfl, rfl, rfl, rfl, rfl, rfl, rfl⟩

/-- What the timer changes: the clock and the outputs. -/
theorem timer_ok {m : Mgr} (ht : m.lastIdle.isSome) (now : Nat) (saved : Bool) :
    ∃ m', m.timerExpired now saved = .ok m' ∧ m'.peers = m.peers ∧ m'.ranges = m.ranges ∧ m'.bans = m.bans ∧
      m'.connected = m.connected ∧ m'.sources = m.sources ∧ m'.locals = m.locals ∧ m'.lastIdle.isSome := by
  obtain ⟨time, ht⟩ := Option.isSome_iff_exists.1 ht
  unfold Mgr.timerExpired
  by_cases h1 : now - m.lastRequest.getD 0 ≥ requestTimeout
  · simp only [h1, if_true, ht]
    by_cases h2 : m.isExhausted time = true
    · simp only [h2, if_true]
      refine ⟨_, rfl, ?_⟩
      split <;> simp [Mgr.idle]
    · simp only [h2]
      refine ⟨_, rfl, ?_⟩
      simp only [Option.getD_some]
      split <;> simp [Mgr.idle, ht]
  · simp only [h1]
    refine ⟨_, rfl, ?_⟩
    simp only [ht, Option.getD_some]
    split <;> simp [Mgr.idle, ht]

theorem negotiated_ok {m : Mgr} (hi : Inv m) (now : Nat) (a : Sock) (services : Nat) (outbound : Bool) (receiver : Option Sock) :
    Inv (m.peerNegotiated now a services outbound receiver) ∧
      (m.peerNegotiated now a services outbound receiver).bans = m.bans ∧
      (m.peerNegotiated now a services outbound receiver).connected = m.connected ∧
      (m.peerNegotiated now a services outbound receiver).lastIdle = m.lastIdle ∧
      (∀ b, b ∈ (m.peerNegotiated now a services outbound receiver).sources → b ∈ m.sources ∨ (b = a ∧ a.ip ∈ m.connected)) ∧
      ∀ x ka, (m.peerNegotiated now a services outbound receiver).peers.get x = some ka →
        ∃ ka0, m.peers.get x = some ka0 ∧ ka.addr.sock = ka0.addr.sock := by
  unfold Mgr.peerNegotiated
  have e1 : ∀ r, (m.addLocal r).peers = m.peers ∧ (m.addLocal r).ranges = m.ranges ∧ (m.addLocal r).bans = m.bans ∧
      (m.addLocal r).connected = m.connected ∧ (m.addLocal r).sources = m.sources ∧ (m.addLocal r).lastIdle = m.lastIdle := by
    intro r; cases r <;> simp [Mgr.addLocal]
  obtain ⟨p1, p2, p3, p4, p5, p6⟩ := e1 receiver
  generalize m.addLocal receiver = m1 at *
  have i1 : Inv m1 := inv_of hi p1 p2
  unfold Mgr.negotiate
  by_cases hc : a.ip ∉ m1.connected
  · rw [if_pos hc]
    refine ⟨i1, p3, p4, p6, fun b hb => .inl (p5 ▸ hb), fun x ka hx => ⟨ka, p1 ▸ hx, rfl⟩⟩
  · rw [if_neg hc]
    have hc' : a.ip ∈ m.connected := by rw [← p4]; by_contra h; exact hc h
    have e2 : ∀ o, (m1.addSource o a).peers = m.peers ∧ (m1.addSource o a).ranges = m.ranges ∧
        (m1.addSource o a).bans = m.bans ∧ (m1.addSource o a).connected = m.connected ∧
        (m1.addSource o a).lastIdle = m.lastIdle ∧
        ∀ b, b ∈ (m1.addSource o a).sources → b ∈ m.sources ∨ (b = a ∧ a.ip ∈ m.connected) := by
      intro o
      cases o
      · exact ⟨p1, p2, p3, p4, p6, fun b hb => .inl (p5 ▸ hb)⟩
      · refine ⟨p1, p2, p3, p4, p6, fun b hb => ?_⟩
        rcases (mem_sadd _ _ _).1 hb with h | h
        · exact .inl (p5 ▸ h)
        · exact .inr ⟨h, hc'⟩
    obtain ⟨q1, q2, q3, q4, q5, q6⟩ := e2 outbound
    generalize m1.addSource outbound a = m2 at *
    have i2 : Inv m2 := inv_of hi q1 q2
    simp only
    cases hg : m2.peers.get a.ip with
    | none => exact ⟨i2, q3, q4, q5, q6, fun x ka hx => ⟨ka, q1 ▸ hx, rfl⟩⟩
    | some ka =>
      simp only
      have e3 : (m2.askFirst a ka).peers = m2.peers ∧ (m2.askFirst a ka).ranges = m2.ranges ∧
          (m2.askFirst a ka).bans = m2.bans ∧ (m2.askFirst a ka).connected = m2.connected ∧
          (m2.askFirst a ka).sources = m2.sources ∧ (m2.askFirst a ka).lastIdle = m2.lastIdle := by
        unfold Mgr.askFirst; split <;> simp
      obtain ⟨s1, s2, s3, s4, s5, s6⟩ := e3
      generalize m2.askFirst a ka = m3 at *
      have i3 : Inv m3 := inv_of i2 s1 s2
      obtain ⟨i4, fr, _, _⟩ := update_inv i3 a.ip (Known.negotiated now services)
      refine ⟨i4, ?_, ?_, ?_, ?_, ?_⟩
      · rw [fr.bans, s3, q3]
      · rw [fr.connected, s4, q4]
      · rw [fr.lastIdle, s6, q5]
      · intro b hb; rw [fr.sources, s5] at hb; exact q6 b hb
      · intro x k hx
        obtain ⟨k0, h1, h2⟩ := update_sock a.ip (Known.negotiated now services) (fun _ => rfl) x k hx
        exact ⟨k0, by rw [← q1, ← s1]; exact h1, h2⟩

theorem disconnected_ok {m : Mgr} (hi : Inv m) (ht : m.lastIdle.isSome) (cfg : Config) (a : Sock) (r : Reason) :
    ∃ m', m.peerDisconnected a r = .ok m' ∧ Effect cfg m (.disconnected a r) none m' ∧
      (a.ip ∈ m.connected → (r = .permanent ∨ r = .dial) → (m.ranges.get (addrKey a.ip)).isSome →
        a.ip ∈ m'.bans ∧ m'.peers.get a.ip = none) ∧
      (∀ x, x ≠ a.ip → m'.peers.get x = m.peers.get x) ∧
      ((r = .transient ∨ r = .other) → m'.peers = m.peers ∧ m'.bans = m.bans) := by
  unfold Mgr.peerDisconnected
  by_cases hc : a.ip ∈ m.connected
  · rw [if_pos hc]
    generalize hm1 : ({ m with connected := sdel m.connected a.ip, sources := sdel m.sources a } : Mgr) = m1
    have e1 : m1.peers = m.peers ∧ m1.ranges = m.ranges ∧ m1.bans = m.bans ∧ m1.connected = sdel m.connected a.ip ∧
      m1.sources = sdel m.sources a ∧ m1.lastIdle = m.lastIdle := by subst hm1; exact ⟨rfl, rfl, rfl, rfl, rfl, rfl⟩
    obtain ⟨p1, p2, p3, p4, p5, p6⟩ := e1
    have i1 : Inv m1 := inv_of hi p1 p2
    have hnc : a.ip ∉ m1.connected := by rw [p4]; intro h; exact ((mem_sdel _ _ _).1 h).2 rfl
    obtain ⟨m', b1, b2, b3, b4, b5, b6, b7, b8, b9, b10⟩ := ban_ok i1 hnc
    have effBan : ∀ r, (r = .permanent ∨ r = .dial) → Effect cfg m (.disconnected a r) none m' := by
      intro r hr
      refine ⟨b2, by rw [b6, p6]; exact ht, ?_, fun x hx => b7 x (p3 ▸ hx), ?_, ?_, ?_⟩
      · intro x ka hx
        by_cases he : x = a.ip
        · subst he
          -- the ban either removed it or left the book as it was
          cases hg : m1.ranges.get (addrKey a.ip) with
          | none =>
            refine .inl ⟨ka, ?_, rfl⟩
            have : m' = m1 := by
              unfold Mgr.ban at b1
              rw [if_neg hnc, hg] at b1
              injection b1 with b1; exact b1.symm
            rw [this, p1] at hx; exact hx
          | some _ => rw [(b9 (by rw [hg]; rfl)).2] at hx; cases hx
        · rw [b8 x he, p1] at hx; exact .inl ⟨ka, hx, rfl⟩
      · intro x hx
        rcases b10 x hx with h | ⟨rfl, h⟩
        · exact .inl (p3 ▸ h)
        · exact .inr ⟨h, a, r, rfl, rfl, hr⟩
      · intro x; rw [b3, p4]; exact mem_sdel _ _ _
      · intro b hb
        rw [b4, p5] at hb
        obtain ⟨h1, h2⟩ := (mem_sdel _ _ _).1 hb
        exact ⟨h1, fun h => absurd h h2⟩
    have effNo : ∀ r, Effect cfg m (.disconnected a r) none m1 := by
      intro r
      refine ⟨i1, by rw [p6]; exact ht, fun x ka hx => .inl ⟨ka, p1 ▸ hx, rfl⟩, fun x hx => p3.symm ▸ hx,
        fun x hx => .inl (p3 ▸ hx), fun x => by rw [p4]; exact mem_sdel _ _ _, ?_⟩
      intro b hb
      rw [p5] at hb
      obtain ⟨h1, h2⟩ := (mem_sdel _ _ _).1 hb
      exact ⟨h1, fun h => absurd h h2⟩
    cases r with
    | permanent =>
      exact ⟨m', b1, effBan _ (.inl rfl), fun _ _ h => b9 (p2.symm ▸ h), fun x hx => by rw [b8 x hx, p1],
        fun h => by rcases h with h | h <;> cases h⟩
    | dial =>
      exact ⟨m', b1, effBan _ (.inr rfl), fun _ _ h => b9 (p2.symm ▸ h), fun x hx => by rw [b8 x hx, p1],
        fun h => by rcases h with h | h <;> cases h⟩
    | transient =>
      refine ⟨m1, rfl, effNo _, fun _ h => ?_, fun x _ => by rw [p1], fun _ => ⟨p1, p3⟩⟩
      rcases h with h | h <;> cases h
    | other =>
      refine ⟨m1, rfl, effNo _, fun _ h => ?_, fun x _ => by rw [p1], fun _ => ⟨p1, p3⟩⟩
      rcases h with h | h <;> cases h
  · rw [if_neg hc]
    refine ⟨m, rfl, ⟨hi, ht, fun x ka hx => .inl ⟨ka, hx, rfl⟩, fun x hx => hx, fun x hx => .inl hx, fun x => ?_,
      fun b hb => ⟨hb, fun _ => hc⟩⟩, fun h => absurd h hc, fun _ _ => rfl, fun _ => ⟨rfl, rfl⟩⟩
    exact ⟨fun h => ⟨h, fun e => hc (e ▸ h)⟩, fun h => h.1⟩

theorem effect_frame {cfg : Config} {m m' : Mgr} {op : Op} {res : Option (NetAddr × Source)} (hi : Inv m')
    (ht : m'.lastIdle.isSome) (hb : m'.bans = m.bans) (hc : m'.connected = m.connected) (hs : m'.sources = m.sources)
    (he : ∀ x ka, m'.peers.get x = some ka → ∃ ka0, m.peers.get x = some ka0 ∧ ka.addr.sock = ka0.addr.sock)
    (hop : ∀ x, connAfter m x op ↔ x ∈ m.connected) (hop' : ∀ b ∈ m.sources, srcAfter m b op) : Effect cfg m op res m' :=
  ⟨hi, ht, fun x ka hx => .inl (he x ka hx), fun x hx => by rw [hb]; exact hx, fun x hx => .inl (by rw [← hb]; exact hx),
    fun x => by rw [hc, hop], fun b h => hop' b (by rw [← hs]; exact h)⟩

theorem effect_update {cfg : Config} {m : Mgr} (hi : Inv m) (ht : m.lastIdle.isSome) {op : Op}
    {res : Option (NetAddr × Source)} (ip : Ip) (f : Known → Known) (hfs : ∀ k, (f k).addr.sock = k.addr.sock)
    (hop : ∀ x, connAfter m x op ↔ x ∈ m.connected) (hop' : ∀ b ∈ m.sources, srcAfter m b op) :
    Effect cfg m op res (m.update ip f) := by
  obtain ⟨h1, h2, h3, h4⟩ := update_inv hi ip f
  exact effect_frame h1 (by rw [h2.lastIdle]; exact ht) h2.bans h2.connected h2.sources (update_sock ip f hfs) hop hop'

/-- Every call with fair random choices succeeds, and keeps the index consistent. -/
theorem step_ok {m : Mgr} (hi : Inv m) (ht : m.lastIdle.isSome) (cfg : Config) (op : Op) (hf : op.Fair) :
    ∃ res m', m.step cfg op = .ok (res, m') ∧ Effect cfg m op res m' := by
  obtain ⟨time, hti⟩ := Option.isSome_iff_exists.1 ht
  cases op with
  | importAddresses e l =>
    refine ⟨none, m, ?_, effect_frame hi ht rfl rfl rfl (fun x ka hx => ⟨ka, hx, rfl⟩) (fun _ => Iff.rfl) (fun _ h => h)⟩
    simp only [Mgr.step, Mgr.importAddresses, Mgr.insert, hti, import_nothing]
  | attempted now a =>
    exact ⟨none, _, rfl, effect_update hi ht a.ip _ (fun _ => rfl) (fun _ => Iff.rfl) (fun _ h => h)⟩
  | connected a =>
    refine ⟨none, _, rfl, ?_⟩
    unfold Mgr.peerConnected
    by_cases hr : (!isRoutable a.ip || isLocal a.ip) = true
    · rw [if_pos hr]
      refine effect_frame hi ht rfl rfl rfl (fun x ka hx => ⟨ka, hx, rfl⟩) (fun x => ⟨?_, .inl⟩) (fun _ h => h)
      rintro (h | ⟨rfl, h1, h2⟩)
      · exact h
      · rw [h1, h2] at hr; cases hr
    · rw [if_neg hr]
      have hr' : isRoutable a.ip = true ∧ isLocal a.ip = false := by simpa using hr
      refine ⟨inv_of hi rfl rfl, ht, fun x ka hx => .inl ⟨ka, hx, rfl⟩, fun x hx => hx, fun x hx => .inl hx, fun x => ?_,
        fun b hb => hb⟩
      rw [show ({ m with connected := sadd m.connected a.ip } : Mgr).connected = sadd m.connected a.ip from rfl, mem_sadd]
      constructor
      · rintro (h | rfl)
        · exact .inl h
        · exact .inr ⟨rfl, hr'⟩
      · rintro (h | ⟨rfl, _⟩)
        · exact .inl h
        · exact .inr rfl
  | negotiated now a services outbound receiver =>
    obtain ⟨h1, h2, h3, h4, h5, h6⟩ := negotiated_ok hi now a services outbound receiver
    refine ⟨none, _, rfl, h1, by rw [h4]; exact ht, fun x ka hx => .inl (h6 x ka hx), fun x hx => by rw [h2]; exact hx,
      fun x hx => .inl (by rw [← h2]; exact hx), fun x => by rw [h3]; rfl, fun b hb => h5 b hb⟩
  | disconnected a r =>
    obtain ⟨m', h1, h2, _⟩ := disconnected_ok hi ht cfg a r
    exact ⟨none, m', by simp only [Mgr.step, h1], h2⟩
  | message e now a msg =>
    cases msg with
    | addr l =>
      obtain ⟨m', h1, h2, h3, _, h5⟩ := message_addr_ok hi hti cfg hf now a l
      refine ⟨none, m', by simp only [Mgr.step, h1], h2, by rw [h3.lastIdle]; exact ht, fun x ka hx => ?_,
        fun x hx => by rw [h3.bans]; exact hx, fun x hx => .inl (by rw [← h3.bans]; exact hx),
        fun x => by rw [h3.connected]; rfl, fun b hb => by rw [h3.sources] at hb; exact hb⟩
      rcases h5 x ka hx with h | ⟨_, t, b, s, hm, ha, hs, hk⟩
      · exact .inl (update_sock a.ip (fun ka => { ka with lastActive := some now }) (fun _ => rfl) x ka h)
      · exact .inr ⟨time, t, b, s, ha, hs, by rw [hk]; rfl, e, now, a, l, rfl, hm⟩
    | getAddr =>
      obtain ⟨h1, h2, h3, h4⟩ := update_inv hi a.ip (fun ka => { ka with lastActive := some now })
      obtain ⟨l, hl, _⟩ := getAddrLoop_ok _ hf _ (ranges_values h1)
      have hst : m.step cfg (.message e now a .getAddr) = .ok (none,
          { m.update a.ip (fun ka => { ka with lastActive := some now }) with
            out := (m.update a.ip (fun ka => { ka with lastActive := some now })).out ++ [.addr a l] }) := by
        simp only [Mgr.step, Mgr.messageReceived, Mgr.receivedGetAddr, hl]
      exact ⟨none, _, hst, effect_frame (inv_of h1 rfl rfl) (h2.lastIdle.symm ▸ ht) h2.bans h2.connected h2.sources
          (update_sock a.ip (fun ka => { ka with lastActive := some now }) (fun _ => rfl)) (fun _ => Iff.rfl) (fun _ h => h)⟩
    | other =>
      exact ⟨none, _, rfl, effect_update hi ht a.ip _ (fun _ => rfl) (fun _ => Iff.rfl) (fun _ h => h)⟩
  | timer now saved =>
    obtain ⟨m', h1, h2, h3, h4, h5, h6, h7, h8⟩ := timer_ok ht now saved
    exact ⟨none, m', by simp only [Mgr.step, h1],
      effect_frame (inv_of hi h2 h3) h8 h4 h5 h6 (fun x ka hx => ⟨ka, h2 ▸ hx, rfl⟩) (fun _ => Iff.rfl) (fun _ h => h)⟩
  | sample e pred =>
    rcases sampleWith_ok hi cfg hf pred hti with ⟨h, _⟩ | ⟨ip, ka, h, hg, _⟩
    · exact ⟨none, m, h, effect_frame hi ht rfl rfl rfl (fun x ka hx => ⟨ka, hx, rfl⟩) (fun _ => Iff.rfl) (fun _ h => h)⟩
    · exact ⟨_, _, h, effect_update hi ht ip _ (fun _ => rfl) (fun _ => Iff.rfl) (fun _ h => h)⟩

theorem effect_of {m : Mgr} (hi : Inv m) (ht : m.lastIdle.isSome) {cfg : Config} {op : Op} (hf : op.Fair) {res m'}
    (h : m.step cfg op = .ok (res, m')) : Effect cfg m op res m' := by
  obtain ⟨res', m'', h', he⟩ := step_ok hi ht cfg op hf
  rw [h] at h'
  injection h' with h'
  injection h' with h1 h2
  subst h1; subst h2
  exact he

theorem starts_inv {peers : AMap Ip Known} {m : Mgr} (s : Starts peers m) : Inv m ∧ m.lastIdle.isSome ∧ m.bans = [] ∧
    m.connected = [] ∧ m.sources = [] ∧ ∀ x, m.peers.get x = peers.get x ∨ m.peers.get x = none := by
  obtain ⟨hn, e, m0, now, saved, hf, h, rfl⟩ := s
  obtain ⟨m1, h1, h2, h3, h4, h5, _, _, h8⟩ := new_ok peers hn hf
  rw [h1] at h
  injection h with h
  subst h
  exact ⟨inv_of h2 rfl rfl, rfl, h3, h4, h5, h8⟩

theorem Steps.inv {cfg : Config} {m : Mgr} (hi : Inv m) (ht : m.lastIdle.isSome) {l m'} (s : Steps cfg m l m') :
    Inv m' ∧ m'.lastIdle.isSome := by
  induction s with
  | refl => exact ⟨hi, ht⟩
  | step r f h ih => exact ⟨(effect_of ih.1 ih.2 f h).inv, (effect_of ih.1 ih.2 f h).idle⟩

theorem Run.inv {cfg : Config} {peers : AMap Ip Known} {l m} (r : Run cfg peers l m) : Inv m ∧ m.lastIdle.isSome := by
  obtain ⟨m0, hs, st⟩ := r
  obtain ⟨h1, h2, _⟩ := starts_inv hs
  exact st.inv h1 h2

/-- Induction over histories. -/
theorem Run.induct {cfg : Config} {peers : AMap Ip Known} {P : List Entry → Mgr → Prop}
    (start : ∀ m, Starts peers m → P [] m)
    (step : ∀ l m op res m', Run cfg peers l m → P l m → op.Fair → m.step cfg op = .ok (res, m') → Effect cfg m op res m' →
      P ((op, res) :: l) m') {l m} (r : Run cfg peers l m) : P l m := by
  obtain ⟨m0, hs, st⟩ := r
  obtain ⟨h1, h2, _⟩ := starts_inv hs
  induction st with
  | refl => exact start m0 hs
  | step st f h ih =>
    have := st.inv h1 h2
    exact step _ _ _ _ _ ⟨m0, hs, st⟩ ih f h (effect_of this.1 this.2 f h)

/-- The connected addresses are the linked ones that are routable. -/
theorem Run.connected {cfg : Config} {peers : AMap Ip Known} {l m} (r : Run cfg peers l m) :
    ∀ ip, ip ∈ m.connected ↔ linked ip l = true ∧ isRoutable ip = true ∧ isLocal ip = false := by
  refine r.induct (P := fun l m => ∀ ip, ip ∈ m.connected ↔ linked ip l = true ∧ isRoutable ip = true ∧ isLocal ip = false)
    ?_ ?_
  · intro m hs ip
    rw [(starts_inv hs).2.2.2.1]
    simp [linked]
  · intro l m op res m' _ ih _ _ he ip
    rw [he.connected ip]
    cases op with
    | connected a =>
      simp only [linked, connAfter]
      by_cases h : a.ip = ip
      · subst h
        rw [if_pos rfl, ih]
        constructor
        · rintro (⟨_, h⟩ | ⟨_, h⟩) <;> exact ⟨rfl, h⟩
        · rintro ⟨_, h⟩; exact .inr ⟨rfl, h⟩
      · rw [if_neg h, ih]
        constructor
        · rintro (h' | ⟨h', _⟩)
          · exact h'
          · exact absurd h'.symm h
        · exact .inl
    | disconnected a r =>
      simp only [linked, connAfter]
      by_cases h : a.ip = ip
      · subst h; simp
      · rw [if_neg h, ih]
        exact ⟨fun x => x.1, fun x => ⟨x, fun e => h e.symm⟩⟩
    | _ => exact ih ip

/-- Book entries stay under their own, routable address. -/
theorem Run.sound {cfg : Config} {peers : AMap Ip Known} (hp : Sound peers) {l m} (r : Run cfg peers l m) : Sound m.peers := by
  refine r.induct (P := fun _ m => Sound m.peers) ?_ ?_
  · intro m hs ip ka hg
    rcases (starts_inv hs).2.2.2.2.2 ip with h | h
    · rw [h] at hg; exact hp ip ka hg
    · rw [h] at hg; cases hg
  · intro l m op res m' _ ih _ _ he ip ka hg
    rcases he.entry ip ka hg with ⟨ka0, h1, h2⟩ | ⟨_, t, a, s, ha, hs, hk, _⟩
    · obtain ⟨s, h3, h4⟩ := ih ip ka0 h1
      exact ⟨s, by rw [h2]; exact h3, h4⟩
    · exact ⟨s, by rw [hk]; exact ha.sock, hs, hs ▸ ha.routable, hs ▸ ha.notLocal⟩

/-- Banned addresses are not in the book, and stay banned. -/
theorem banned_step {cfg : Config} {m : Mgr} {op res m'} (he : Effect cfg m op res m') {ip : Ip}
    (hb : ip ∈ m.bans) (hn : m.peers.get ip = none) : ip ∈ m'.bans ∧ m'.peers.get ip = none := by
  refine ⟨he.bansMono ip hb, ?_⟩
  cases hg : m'.peers.get ip with
  | none => rfl
  | some ka =>
    exfalso
    rcases he.entry ip ka hg with ⟨ka0, h1, _⟩ | ⟨_, t, a, s, ha, hs, _⟩
    · rw [hn] at h1; cases h1
    · exact ha.notBanned (hs ▸ hb)

theorem banned_steps {cfg : Config} {m : Mgr} (hi : Inv m) (ht : m.lastIdle.isSome) {l m'} (s : Steps cfg m l m') {ip : Ip}
    (hb : ip ∈ m.bans) (hn : m.peers.get ip = none) : ip ∈ m'.bans ∧ m'.peers.get ip = none := by
  induction s with
  | refl => exact ⟨hb, hn⟩
  | step r f h ih =>
    have := r.inv hi ht
    exact banned_step (effect_of this.1 this.2 f h) ih.1 ih.2

theorem Steps.run {cfg : Config} {peers : AMap Ip Known} {l m l' m'} (r : Run cfg peers l m) (s : Steps cfg m l' m') :
    Run cfg peers (l' ++ l) m' := by
  obtain ⟨m0, hs, st⟩ := r
  refine ⟨m0, hs, ?_⟩
  induction s with
  | refl => exact st
  | step _ f h ih => exact .step ih f h

theorem Run.next {cfg : Config} {peers : AMap Ip Known} {l m} (r : Run cfg peers l m) {op res m'} (f : op.Fair)
    (h : m.step cfg op = .ok (res, m')) : Run cfg peers ((op, res) :: l) m' := by
  obtain ⟨m0, hs, st⟩ := r
  exact ⟨m0, hs, .step st f h⟩

theorem isOpen_linked : ∀ {l : List Entry} {a : Sock}, OneConn l → isOpen a l = true → linked a.ip l = true
  | [], a, _, h => by simp [isOpen] at h
  | (op, res) :: l, a, ho, h => by
    cases op with
    | connected b =>
      simp only [isOpen] at h
      simp only [linked]
      by_cases hb : b = a
      · subst hb; simp
      · rw [if_neg hb] at h
        by_cases hi : b.ip = a.ip
        · rw [if_pos hi]
        · rw [if_neg hi]; exact isOpen_linked ho.2 h
    | disconnected b r =>
      simp only [isOpen] at h
      simp only [linked]
      by_cases hb : b = a
      · subst hb; simp at h
      · rw [if_neg hb] at h
        by_cases hi : b.ip = a.ip
        · exact absurd (ho.1 a h hi.symm).symm hb
        · rw [if_neg hi]; exact isOpen_linked ho.2 h
    | _ => exact isOpen_linked (l := l) ho h

/-- Sources are open connections. -/
theorem Run.sources {cfg : Config} {peers : AMap Ip Known} {l m} (r : Run cfg peers l m) : OneConn l → Proper l →
    ∀ b ∈ m.sources, isOpen b l = true ∧ b.ip ∈ m.connected := by
  refine r.induct (P := fun l m => OneConn l → Proper l → ∀ b ∈ m.sources, isOpen b l = true ∧ b.ip ∈ m.connected) ?_ ?_
  · intro m hs _ _ b hb
    rw [(starts_inv hs).2.2.2.2.1] at hb; cases hb
  · intro l m op res m' r ih _ _ he ho hp b hb
    have hsrc := he.sources b hb
    rw [he.connected]
    cases op with
    | connected a =>
      obtain ⟨h1, h2⟩ := ih ho.2 hp b hsrc
      refine ⟨?_, .inl h2⟩
      simp only [isOpen]
      split
      · rfl
      · exact h1
    | disconnected a r' =>
      obtain ⟨h0, h0'⟩ := hsrc
      obtain ⟨h1, h2⟩ := ih ho.2 hp b h0
      have hba : b ≠ a := fun e => h0' e (e ▸ h2)
      simp only [isOpen, connAfter]
      rw [if_neg (fun e => hba e.symm)]
      refine ⟨h1, h2, fun e => hba (ho.1 b h1 e)⟩
    | negotiated now a services outbound receiver =>
      rcases hsrc with h | ⟨rfl, h⟩
      · exact ih ho hp.2 b h
      · exact ⟨hp.1, h⟩
    | _ => exact ih ho hp b hsrc

end Verif.Addr
