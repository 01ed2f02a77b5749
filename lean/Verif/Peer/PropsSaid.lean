import Verif.Peer.PropsHandshake
import Verif.Peer.Scenarios

/-!
# C130: our side of the handshake
-/

set_option autoImplicit false

namespace Verif.Peer
open Verif.Addr (Sock Ip Domain NetAddr Source has isLocal domainOf sadd)

/-! ## Specification -/

/-- The handshake messages among the outputs, in order. -/
def said (l : List Out) : List Out :=
  l.filter fun o => match o with | .version _ _ | .wtxidRelay _ | .verack _ | .sendHeaders _ => true | _ => false

/-- Our version message for a peer: what we support, our time in seconds, the peer's address, and the height of our chain; no transactions are wanted. -/
structure Own (cfg : Config) (a : Sock) (height now : Nat) (v : Version) : Prop where
  version : v.version = cfg.protocolVersion
  services : v.services = cfg.services
  agent : v.agent = cfg.agent
  receiver : v.receiver.sock = some a
  relay : v.relay = false
  /-- Until the year 2106. -/
  time : now / 1000 < 2 ^ 32 → v.timestamp = (now / 1000 : Nat)
  height : height < 2 ^ 31 → v.startHeight = height

/-- The answer to a version message. -/
def Answer (cfg : Config) (a : Sock) (height now : Nat) : Link → List Out → Prop
  | .outbound, l => l = [.wtxidRelay a, .verack a, .sendHeaders a]
  | .inbound, l => ∃ v, Own cfg a height now v ∧ l = [.version a v, .wtxidRelay a, .verack a, .sendHeaders a]

/-! ## Lemmas -/

section
variable {cfg : Config} {tr : List Ip}

theorem own_version (a : Sock) (nonce height now : Nat) : Own cfg a height now (ownVersion cfg a nonce height now) := by
  refine ⟨rfl, rfl, rfl, rfl, rfl, fun h => ?_, fun h => ?_⟩
  · simp only [ownVersion, Nat.mod_eq_of_lt h]
  · simp only [ownVersion]
    rw [Int.bmod_eq_of_le (by omega) (by omega)]

theorem said_nil {l : List Out} (h : ∀ o ∈ l, (∀ a v, o ≠ .version a v) ∧ (∀ a, o ≠ .wtxidRelay a) ∧ (∀ a, o ≠ .verack a) ∧ ∀ a, o ≠ .sendHeaders a) : said l = [] := by
  refine List.filter_eq_nil_iff.2 fun o ho => ?_
  obtain ⟨h1, h2, h3, h4⟩ := h o ho
  cases o with
  | version a v => exact absurd rfl (h1 a v)
  | wtxidRelay a => exact absurd rfl (h2 a)
  | verack a => exact absurd rfl (h3 a)
  | sendHeaders a => exact absurd rfl (h4 a)
  | _ => simp

theorem said_of {m m' : Mgr} {P : Out → Prop} (h : ∃ l, m'.out = m.out ++ l ∧ ∀ o ∈ l, P o)
    (hp : ∀ o, P o → (∀ a v, o ≠ .version a v) ∧ (∀ a, o ≠ .wtxidRelay a) ∧ (∀ a, o ≠ .verack a) ∧ ∀ a, o ≠ .sendHeaders a) : said (added m m') = [] := by
  obtain ⟨l, e, hl⟩ := h
  rw [added_of e]
  exact said_nil fun o ho => hp o (hl o ho)

theorem mute_connect (o : Out) (h : ConnectOut o) : (∀ a v, o ≠ .version a v) ∧ (∀ a, o ≠ .wtxidRelay a) ∧ (∀ a, o ≠ .verack a) ∧ ∀ a, o ≠ .sendHeaders a := by
  rcases h with ⟨a, rfl⟩ | ⟨t, rfl⟩ <;> simp

theorem mute_maintain (o : Out) (h : MaintainOut o) : (∀ a v, o ≠ .version a v) ∧ (∀ a, o ≠ .wtxidRelay a) ∧ (∀ a, o ≠ .verack a) ∧ ∀ a, o ≠ .sendHeaders a := by
  rcases h with h | ⟨a, s, f, rfl⟩
  · exact mute_connect o h
  · simp

theorem mute_init (o : Out) (h : InitOut o) : (∀ a v, o ≠ .version a v) ∧ (∀ a, o ≠ .wtxidRelay a) ∧ (∀ a, o ≠ .verack a) ∧ ∀ a, o ≠ .sendHeaders a := by
  rcases h with h | ⟨a, rfl⟩
  · exact mute_maintain o h
  · simp

theorem mute_timer (o : Out) (h : TimerOut o) : (∀ a v, o ≠ .version a v) ∧ (∀ a, o ≠ .wtxidRelay a) ∧ (∀ a, o ≠ .verack a) ∧ ∀ a, o ≠ .sendHeaders a := by
  rcases h with h | ⟨a, r, rfl⟩
  · exact mute_maintain o h
  · simp

theorem mute_lost {a : Sock} (o : Out) (h : LostOut a o) : (∀ a v, o ≠ .version a v) ∧ (∀ a, o ≠ .wtxidRelay a) ∧ (∀ a, o ≠ .verack a) ∧ ∀ a, o ≠ .sendHeaders a := by
  rcases h with h | ⟨d, rfl⟩ | rfl
  · exact mute_maintain o h
  · simp
  · simp

theorem said_disconnect (m : Mgr) (a : Sock) (r : Reason) : said (added m (m.disconnect a r)) = [] :=
  said_of (disconnect_ext m a r).out (by rintro o rfl; simp)

theorem said_same {m m' : Mgr} (h : m'.out = m.out) : said (added m m') = [] := by
  rw [added_of (l := []) (by rw [h]; simp)]; rfl

/-- Outputs are only ever added. -/
theorem step_grows {m m' : Mgr} {op : Op} (e : m.step cfg op = .ok m') : ∃ l, m'.out = m.out ++ l := by
  have same : ∃ l, m.out = m.out ++ l := ⟨[], by simp⟩
  have ext : ∀ {n n' : Mgr} {P : Out → Prop}, (∃ l, n'.out = n.out ++ l ∧ ∀ o ∈ l, P o) → ∃ l, n'.out = n.out ++ l := fun ⟨l, h, _⟩ => ⟨l, h⟩
  cases op with
  | init src => exact ext (initialize_ext e).out
  | tick t => cases e; exact same
  | attempted a =>
    simp only [Mgr.step, Mgr.peerAttempted] at e
    split at e
    · cases e
    · cases e; exact same
  | connected a loc link height nonce =>
    simp only [Mgr.step, Mgr.peerConnected] at e
    split at e
    · cases e
    · split at e
      · cases e
      · cases e
        cases link with
        | outbound => simp only [Mgr.emit, Mgr.greet, Mgr.addConn, List.append_assoc]; exact ⟨_, rfl⟩
        | inbound =>
          simp only [Mgr.greet]
          split <;> simp only [Mgr.emit, Mgr.drop, Mgr.addConn, List.append_assoc] <;> exact ⟨_, rfl⟩
  | disconnected a d src => exact ext (peerDisconnected_ext e).out
  | message a magicOk height hook msg =>
    simp only [Mgr.step, Mgr.messageReceived] at e
    split at e
    · cases e; exact ext (disconnect_ext m a _).out
    · split at e
      · cases e; exact same
      · cases msg with
        | version v =>
          simp only [Mgr.receivedMsg, Mgr.receivedVersion] at e
          split at e
          · split at e
            · cases e; exact ⟨_, rfl⟩
            · split at e
              · cases e
              · cases e; exact ⟨_, rfl⟩
          · cases e; exact same
        | verack =>
          simp only [Mgr.receivedMsg, Res.ok.injEq] at e
          rw [← e]
          unfold Mgr.receivedVerack
          split
          · split
            · exact ⟨_, rfl⟩
            · exact ext (drop_ext m a _).out
          · exact same
        | wtxidRelay =>
          simp only [Mgr.receivedMsg, Res.ok.injEq] at e
          rw [← e]
          unfold Mgr.receivedWtxidRelay
          split
          · split
            · exact same
            · exact ext (disconnect_ext m a _).out
          · exact same
  | timedOut a => cases e; exact ext (disconnect_ext m a _).out
  | misbehaved a => cases e; exact ext (disconnect_ext m a _).out
  | cmdConnect a => cases e; exact ext (n := m) (connect_ext (m.whitelist a) cfg a).out
  | cmdDisconnect a => cases e; exact ext (disconnect_ext m a _).out
  | timer ord src => exact ext (timerExpired_ext e).out

/-! ## Theorems -/

/-- **C130.** When a connection that the client opened is there, it sends its version message and no other handshake message; on a connection that a peer opened it sends none. -/
theorem C130_connected {h : List Op} {m m' : Mgr} {a loc : Sock} {link : Link} {height nonce : Nat} (r : Run cfg tr h m) (e : m.step cfg (.connected a loc link height nonce) = .ok m') :
    match link with
    | .outbound => ∃ v, Own cfg a height (timeOf h) v ∧ v.nonce = nonce ∧ said (added m m') = [.version a v]
    | .inbound => said (added m m') = [] := by
  simp only [Mgr.step, Mgr.peerConnected] at e
  split at e
  · cases e
  · split at e
    · cases e
    · cases e
      cases link with
      | outbound =>
        refine ⟨ownVersion cfg a nonce height m.now, by rw [(run_inv r).now]; exact own_version a nonce height _, rfl, ?_⟩
        rw [added_of (l := [.version a (ownVersion cfg a nonce height m.now), .timer handshakeTimeout, .evConnected a loc .outbound])
          (by simp [Mgr.emit, Mgr.greet, Mgr.addConn])]
        rfl
      | inbound =>
        simp only [Mgr.greet]
        split
        · rw [added_of (l := [.disconnect a .connectionLimit, .timer handshakeTimeout, .evConnected a loc .inbound]) (by simp [Mgr.emit, Mgr.drop, Mgr.addConn])]
          rfl
        · rw [added_of (l := [.timer handshakeTimeout, .evConnected a loc .inbound]) (by simp [Mgr.emit, Mgr.addConn])]
          rfl

/-- **C130.** A connected peer that sends a version message is disconnected, and then it gets no answer, or the message is valid, and the answer is complete and in the order in which peers expect it: `wtxidrelay`
before `verack`, and our own version message before both, if the peer opened the connection. -/
theorem C130_answer {h : List Op} {m m' : Mgr} {a : Sock} {height : Nat} {hook : Bool} {v : Version} (r : Run cfg tr h m) (hc : m.isConnected a = true)
    (e : m.step cfg (.message a true height hook (.version v)) = .ok m') :
    ((∃ why, .disconnect a why ∈ added m m') ∧ said (added m m') = []) ∨
    ∃ link s, Session cfg tr a h link s ∧ Valid cfg tr h a link v height hook ∧ Answer cfg a height (timeOf h) link (said (added m m')) := by
  have hi := run_inv r
  obtain ⟨c, i, hg⟩ := (isConnected_iff m a).1 hc
  obtain ⟨ea, s, g, mt⟩ := hi.sess a c _ hg
  simp only [Mgr.step, Mgr.messageReceived, hc, Bool.not_true, Bool.false_eq_true, if_false, Mgr.receivedMsg, Mgr.receivedVersion, hg] at e
  cases hr : m.refuse cfg c a v height hook with
  | some why =>
    simp only [hr, Res.ok.injEq] at e
    subst e
    left
    rw [added_of (l := [.disconnect a why]) rfl]
    exact ⟨⟨why, by simp⟩, rfl⟩
  | none =>
    simp only [hr] at e
    split at e
    · cases e
    · cases e
      right
      refine ⟨c.link, s, g, valid_of_refuse hi hr, ?_⟩
      rw [added_of (l := reply cfg c v.nonce height m.now) rfl]
      cases hl : c.link with
      | outbound => simp [reply, hl, Answer, said, ea]
      | inbound =>
        refine ⟨ownVersion cfg a v.nonce height m.now, by rw [hi.now]; exact own_version a _ height _, ?_⟩
        simp [reply, hl, said, ea]

/-- **C130.** Nothing else makes the client send handshake messages: not a message of the wrong network or of a peer that is not connected, no other message, and nothing that is not a message. -/
theorem C130_silent {h : List Op} {m m' : Mgr} {op : Op} (r : Run cfg tr h m) (e : m.step cfg op = .ok m')
    (ho : ∀ a loc height nonce, op ≠ .connected a loc .outbound height nonce)
    (hm : ∀ a height hook v, op = .message a true height hook (.version v) → m.isConnected a = false) : said (added m m') = [] := by
  cases op with
  | init src => exact said_of (initialize_ext e).out mute_init
  | tick t => cases e; exact said_same rfl
  | attempted a =>
    simp only [Mgr.step, Mgr.peerAttempted] at e
    split at e
    · cases e
    · cases e; exact said_same rfl
  | connected a loc link height nonce =>
    cases link with
    | outbound => exact absurd rfl (ho a loc height nonce)
    | inbound => exact C130_connected r e
  | disconnected a d src => exact said_of (peerDisconnected_ext e).out mute_lost
  | message a magicOk height hook msg =>
    simp only [Mgr.step, Mgr.messageReceived] at e
    split at e
    · cases e; exact said_disconnect m a _
    · split at e
      · cases e; exact said_same rfl
      · rename_i hmg hc
        cases msg with
        | version v =>
          have := hm a height hook v (by simp at hmg; rw [hmg])
          simp [this] at hc
        | verack =>
          simp only [Mgr.receivedMsg, Res.ok.injEq] at e
          rw [← e]
          unfold Mgr.receivedVerack
          split
          · split
            · exact said_of ⟨_, rfl, fun o h => h⟩ (by intro o h; simp only [List.mem_cons, List.not_mem_nil, or_false] at h; rcases h with rfl | rfl <;> simp)
            · exact said_of (drop_ext m a _).out (by rintro o rfl; simp)
          · exact said_same rfl
        | wtxidRelay =>
          simp only [Mgr.receivedMsg, Res.ok.injEq] at e
          rw [← e]
          unfold Mgr.receivedWtxidRelay
          split
          · split
            · exact said_same rfl
            · exact said_disconnect m a _
          · exact said_same rfl
  | timedOut a => cases e; exact said_disconnect m a _
  | misbehaved a => cases e; exact said_disconnect m a _
  | cmdConnect a => cases e; exact said_of (m := m) (connect_ext (m.whitelist a) cfg a).out mute_connect
  | cmdDisconnect a => cases e; exact said_disconnect m a _
  | timer ord src => exact said_of (timerExpired_ext e).out mute_timer

/-- **C130.** All handshake messages ever sent are greetings and answers, one after the other. -/
theorem C130_all {h : List Op} {m : Mgr} (r : Run cfg tr h m) : ∃ parts : List (List Out), said m.out = parts.flatten ∧
    ∀ p ∈ parts, ∃ a height now, (∃ v, Own cfg a height now v ∧ p = [.version a v]) ∨ ∃ link, Answer cfg a height now link p := by
  induction r with
  | start => exact ⟨[], rfl, by simp⟩
  | @step h m m' op r l e ih =>
    obtain ⟨parts, h1, h2⟩ := ih
    obtain ⟨l, hl⟩ := step_grows e
    have hs : said m'.out = said m.out ++ said (added m m') := by rw [added_of hl, hl, said, List.filter_append]; rfl
    have none_ : said (added m m') = [] → ∃ parts : List (List Out), said m'.out = parts.flatten ∧
        ∀ p ∈ parts, ∃ a height now, (∃ v, Own cfg a height now v ∧ p = [.version a v]) ∨ ∃ link, Answer cfg a height now link p :=
      fun h => ⟨parts, by rw [hs, h, List.append_nil, h1], h2⟩
    have more : (∃ a height now, (∃ v, Own cfg a height now v ∧ said (added m m') = [.version a v]) ∨ ∃ link, Answer cfg a height now link (said (added m m'))) →
        ∃ parts : List (List Out), said m'.out = parts.flatten ∧
        ∀ p ∈ parts, ∃ a height now, (∃ v, Own cfg a height now v ∧ p = [.version a v]) ∨ ∃ link, Answer cfg a height now link p := by
      intro h
      refine ⟨parts ++ [said (added m m')], by rw [hs, h1]; simp, fun p hp => ?_⟩
      rcases List.mem_append.1 hp with hp | hp
      · exact h2 p hp
      · rw [List.mem_singleton.1 hp]; exact h
    by_cases ho : ∃ a loc height nonce, op = .connected a loc .outbound height nonce
    · obtain ⟨a, loc, height, nonce, rfl⟩ := ho
      obtain ⟨v, k1, -, k2⟩ := C130_connected (link := .outbound) r e
      exact more ⟨a, height, timeOf h, .inl ⟨v, k1, k2⟩⟩
    · by_cases hm : ∃ a height hook v, op = .message a true height hook (.version v) ∧ m.isConnected a = true
      · obtain ⟨a, height, hook, v, rfl, hc⟩ := hm
        rcases C130_answer r hc e with ⟨-, k⟩ | ⟨link, s, -, -, k⟩
        · exact none_ k
        · exact more ⟨a, height, timeOf h, .inr ⟨link, k⟩⟩
      · refine none_ (C130_silent r e (fun a loc height nonce hx => ho ⟨a, loc, height, nonce, hx⟩) fun a height hook v hx => ?_)
        by_contra hc
        exact hm ⟨a, height, hook, v, hx, by simpa using hc⟩

end

/-! ## Concrete cases -/

namespace Scenario

/-- An outbound connection: our version message, then the answer to the peer's; an inbound connection: all in the answer. -/
example : said (after cfg shake).out = [.version a (ownVersion cfg a 7 100 1000000), .wtxidRelay a, .verack a, .sendHeaders a] ∧
    said (after cfg [.tick 1000000, .connected b loc .inbound 100 7]).out = [] ∧
    said (after cfg [.tick 1000000, .connected b loc .inbound 100 7, .message b true 100 true (.version (ver 5 120))]).out =
      [.version b (ownVersion cfg b 5 100 1000000), .wtxidRelay b, .verack b, .sendHeaders b] ∧
    (ownVersion cfg b 5 100 1000000).timestamp = 1000 ∧ (ownVersion cfg b 5 100 1000000).startHeight = 100 := by decide

/-- `C130_answer` and `C130_all` apply. -/
example : (∃ link s, Session cfg [] a early.reverse link s ∧ Valid cfg [] early.reverse a link (ver 5 120) 100 true ∧
      Answer cfg a 100 1000000 link [.wtxidRelay a, .verack a, .sendHeaders a]) ∧
    ∃ parts : List (List Out), said (after cfg shake).out = parts.flatten := by
  refine ⟨?_, (C130_all shake_run).imp fun _ h => h.1⟩
  have hs : said (added (after cfg early) (after cfg (early ++ [.message a true 100 true (.version (ver 5 120))]))) = [.wtxidRelay a, .verack a, .sendHeaders a] := by decide
  rcases C130_answer (a := a) early_run (by decide) (v := ver 5 120) (height := 100) (hook := true)
    (m' := after cfg (early ++ [.message a true 100 true (.version (ver 5 120))])) rfl with ⟨-, h⟩ | ⟨link, s, h1, h2, h3⟩
  · rw [hs] at h; cases h
  · rw [hs] at h3
    exact ⟨link, s, h1, h2, h3⟩

end Scenario

end Verif.Peer
