import Verif.Peer.Query
import Verif.Peer.Opens

/-!
# Completed handshakes were reported
-/

set_option autoImplicit false

namespace Verif.Peer
open Verif.Addr (Sock Ip NetAddr Source domainOf has sadd)

variable {cfg : Config} {tr : List Ip}

/-- A message completes a handshake and reports it, or leaves the completed ones as they are. -/
theorem message_negotiated {h : List Op} {m m' : Mgr} (hi : Inv cfg tr h m) {a : Sock} {mg : Bool} {height : Nat} {hook : Bool}
    {msg : Msg} (e : m.messageReceived cfg a mg height hook msg = .ok m') {b : Sock} {c : Conn} {i : Info}
    (hg : m'.peers.get b = some (.connected c (some i))) (hn : i.isNegotiated = true) :
    m.peers.get b = some (.connected c (some i)) ∨ m'.out = m.out ++ [.evNegotiated b (i.event c), .offset b i.offset] := by
  have rep : ∀ {m2 : Mgr} {c0 : Conn} {j : Info}, j.isNegotiated = false →
      m2.peers = m.peers.insert a (.connected c0 (some j)) → m2.peers.get b = some (.connected c (some i)) →
      m.peers.get b = some (.connected c (some i)) := by
    intro m2 c0 j h0 e2 h2
    rw [e2, AMap.get_insert] at h2
    by_cases hb : a = b
    · rw [if_pos hb] at h2
      simp only [Option.some.injEq, Peer.connected.injEq] at h2
      rw [h2.2, hn] at h0; simp at h0
    · rw [if_neg hb] at h2; exact h2
  unfold Mgr.messageReceived at e
  cases mg with
  | false =>
    simp only [Bool.not_false, if_true, Res.ok.injEq] at e
    subst e
    exact .inl ((disconnect_ext m a _).conn b c _ hg)
  | true =>
    simp only [Bool.not_true, Bool.false_eq_true, if_false] at e
    by_cases hc : m.isConnected a = true
    · simp only [hc, Bool.not_true, Bool.false_eq_true, if_false] at e
      obtain ⟨c0, i0, h0⟩ := (isConnected_iff m a).1 hc
      have ha := (hi.sess a c0 i0 h0).1
      cases msg with
      | version v =>
        simp only [Mgr.receivedMsg, Mgr.receivedVersion, h0] at e
        cases hrf : m.refuse cfg c0 a v height hook with
        | some r =>
          simp only [hrf, Res.ok.injEq] at e
          subst e
          exact .inl ((drop_ext m a _).conn b c _ hg)
        | none =>
          simp only [hrf] at e
          by_cases hp : (cfg.dbg && rawOffset v m.now < -(2 ^ 63 : Int)) = true
          · rw [if_pos hp] at e; simp at e
          rw [if_neg hp] at e
          simp only [Res.ok.injEq] at e
          subst e
          exact .inl (rep (m2 := m.accept cfg c0 v height) (c0 := c0) (j := infoOf cfg c0 v m.now) rfl
            (by simp only [Mgr.accept, ha]) hg)
      | wtxidRelay =>
        simp only [Mgr.receivedMsg, Res.ok.injEq, Mgr.receivedWtxidRelay, h0] at e
        cases i0 with
        | none => simp only at e; subst e; exact .inl hg
        | some i0 =>
          cases hst : i0.state with
          | version since =>
            simp only [hst] at e; subst e
            exact .inl (rep (c0 := c0) (j := { i0 with wtxid := true, state := .version since }) rfl rfl hg)
          | verack since => simp only [hst] at e; subst e; exact .inl ((disconnect_ext m a _).conn b c _ hg)
      | verack =>
        simp only [Mgr.receivedMsg, Res.ok.injEq, Mgr.receivedVerack, h0] at e
        cases i0 with
        | none => simp only at e; subst e; exact .inl hg
        | some i0 =>
          cases hst : i0.state with
          | version since =>
            simp only [hst] at e; subst e
            simp only [AMap.get_insert] at hg
            by_cases hb : a = b
            · rw [if_pos hb] at hg
              simp only [Option.some.injEq, Peer.connected.injEq] at hg
              obtain ⟨rfl, rfl⟩ := hg
              subst hb
              exact .inr rfl
            · rw [if_neg hb] at hg; exact .inl hg
          | verack since => simp only [hst] at e; subst e; exact .inl ((drop_ext m a _).conn b c _ hg)
    · simp only [Bool.not_eq_true] at hc
      simp only [hc, Bool.not_false, if_true, Res.ok.injEq] at e
      subst e; exact .inl hg

/-- The same for any input. -/
theorem step_negotiated {h : List Op} {m m' : Mgr} {op : Op} (hi : Inv cfg tr h m) (e : m.step cfg op = .ok m') {b : Sock} {c : Conn} {i : Info}
    (hg : m'.peers.get b = some (.connected c (some i))) (hn : i.isNegotiated = true) :
    m.peers.get b = some (.connected c (some i)) ∨ m'.out = m.out ++ [.evNegotiated b (i.event c), .offset b i.offset] := by
  cases op with
  | init src => exact .inl ((initialize_ext e).conn _ _ _ hg)
  | tick t =>
    simp only [Mgr.step, Res.ok.injEq] at e
    subst e; exact .inl hg
  | attempted a =>
    simp only [Mgr.step, Mgr.peerAttempted] at e
    by_cases h1 : (cfg.dbg && !(m.isConnecting a || m.isInbound a)) = true
    · rw [if_pos h1] at e; simp at e
    · rw [if_neg h1] at e
      simp only [Res.ok.injEq] at e
      subst e; exact .inl hg
  | connected a loc link height nonce =>
    by_cases hb : a = b
    · subst hb
      rcases peerConnected_get_self e with q | ⟨_, q⟩ <;> rw [q] at hg <;> simp at hg
    · rw [peerConnected_get_ne e b hb] at hg; exact .inl hg
  | disconnected a d src => exact .inl ((peerDisconnected_ext e).conn _ _ _ hg)
  | message a mg height hook msg => exact message_negotiated hi e hg hn
  | timedOut a =>
    simp only [Mgr.step, Res.ok.injEq] at e
    subst e; exact .inl ((disconnect_ext m a _).conn _ _ _ hg)
  | misbehaved a =>
    simp only [Mgr.step, Res.ok.injEq] at e
    subst e; exact .inl ((disconnect_ext m a _).conn _ _ _ hg)
  | cmdConnect a =>
    simp only [Mgr.step, Res.ok.injEq] at e
    subst e; exact .inl ((connect_ext (m.whitelist a) cfg a).conn _ _ _ hg)
  | cmdDisconnect a =>
    simp only [Mgr.step, Res.ok.injEq] at e
    subst e; exact .inl ((disconnect_ext m a _).conn _ _ _ hg)
  | timer ord src => exact .inl ((timerExpired_ext e).conn _ _ _ hg)

/-- A peer with which the handshake is complete was reported so, and not as disconnected since. -/
theorem run_reported {h : List Op} {m : Mgr} (r : Run cfg tr h m) {a : Sock} {c : Conn} {i : Info} :
    m.peers.get a = some (.connected c (some i)) → i.isNegotiated = true →
    ∃ l1 l2, m.out = l1 ++ .evNegotiated a (i.event c) :: l2 ∧ ∀ d, .evDisconnected a d ∉ l2 := by
  induction r with
  | start => intro hg; simp [Mgr.new] at hg
  | @step h m m' op r lg e ih =>
    intro hg hn
    rcases step_negotiated (run_inv r) e hg hn with h1 | h1
    · obtain ⟨l1, l2, h2, h3⟩ := ih h1 hn
      obtain ⟨d, h4, h5⟩ := step_kind r lg e a
      refine ⟨l1, l2 ++ d, by rw [h4, h2]; simp, ?_⟩
      intro x hx
      rcases List.mem_append.1 hx with hx | hx
      · exact h3 x hx
      · have hf : false ∈ evs a d := List.mem_filterMap.2 ⟨_, hx, by simp [ev]⟩
        rcases h5 (by simp [Mgr.kind, hg, kindOf]) with ⟨-, h6⟩ | h6 <;> rw [h6] at hf <;> simp at hf
    · exact ⟨m.out, [.offset a i.offset], h1, by simp⟩

end Verif.Peer
