import Verif.Peer.PropsRetry

/-!
# Properties of the peer manager: valid peers are accepted

C73, the converse of C44: a manager that refuses everybody satisfies C44.
-/

set_option autoImplicit false

namespace Verif.Peer
open Verif.Addr (Sock Ip Domain NetAddr Source has isLocal domainOf sadd)

variable {cfg : Config} {tr : List Ip}

/-- A valid version message is refused only because of the nonce or the number of connections. -/
theorem refuse_of_valid {h : List Op} {m : Mgr} (hi : Inv cfg tr h m) {c : Conn} {a : Sock} {v : Version} {height : Nat} {hook : Bool}
    (hv : Valid cfg tr h a c.link v height hook)
    (hn : m.versioned.any (fun p => p.2.link == .outbound && p.1.nonce == v.nonce) = false)
    (hs : c.link = .inbound ∨ v.services &&& cfg.preferred = cfg.preferred ∨ (m.negotiated .outbound).length < cfg.target) :
    m.refuse cfg c a v height hook = none := by
  have ht : c.link = .outbound → m.isTrusted cfg a v.agent = false → ¬ Trusted cfg tr h a v.agent := by
    intro _ h1 h2
    rw [(isTrusted_iff hi a v.agent).2 h2] at h1; simp at h1
  unfold Mgr.refuse
  have h1 : ¬ v.version < minProtocolVersion := by have := hv.version; unfold minProtocolVersion; omega
  have h2 : ¬ (c.link == .outbound && !has v.services cfg.required && !m.isTrusted cfg a v.agent) = true := by
    simp only [Bool.and_eq_true, beq_iff_eq, Bool.not_eq_true', not_and, Bool.not_eq_false]
    rintro ⟨hl, hr⟩
    by_contra hc
    have := hv.services hl (ht hl (by simpa using hc))
    simp [has, this] at hr
  have h3 : ¬ (c.link == .outbound && height - asHeight v.startHeight > maxStale && !m.isTrusted cfg a v.agent) = true := by
    simp only [Bool.and_eq_true, beq_iff_eq, Bool.not_eq_true', not_and, Bool.not_eq_false, decide_eq_true_eq]
    rintro ⟨hl, hr⟩
    by_contra hc
    have := hv.fresh hl (ht hl (by simpa using hc))
    unfold maxStale at hr
    omega
  have h5 : ¬ (c.link == .outbound && !has v.services cfg.preferred && (m.negotiated .outbound).length ≥ cfg.target) = true := by
    simp only [Bool.and_eq_true, beq_iff_eq, Bool.not_eq_true', decide_eq_true_eq, not_and]
    rintro ⟨hl, hr⟩
    rcases hs with x | x | x
    · rw [x] at hl; simp at hl
    · simp [has, x] at hr
    · omega
  rw [if_neg h1, if_neg h2, if_neg h3, if_neg (by rw [hn]; simp), if_neg h5, if_neg (by rw [hv.hook]; simp)]

/-- C73.  A valid version message is answered with a `verack`, and the peer stays connected, unless an outbound connection has the same
nonce or there are enough outbound peers already and this one lacks the preferred services.  (The last hypothesis: in a debug build, the
subtraction of the times must not overflow.) -/
theorem C73_accepted {h : List Op} {m : Mgr} (r : Run cfg tr h m) {a : Sock} {link : Link} {s : Option Seen} {v : Version}
    {height : Nat} {hook : Bool} (hc : m.isConnected a = true) (g : Session cfg tr a h link s)
    (hv : Valid cfg tr h a link v height hook)
    (hn : ∀ b c i, m.peers.get b = some (.connected c (some i)) → c.link = .outbound → i.nonce ≠ v.nonce)
    (hs : link = .inbound ∨ v.services &&& cfg.preferred = cfg.preferred ∨ (m.negotiated .outbound).length < cfg.target)
    (hd : cfg.dbg = true → -(2 ^ 63 : Int) ≤ v.timestamp - ((m.now / 1000 % 2 ^ 32 : Nat) : Int)) :
    ∃ m', m.step cfg (.message a true height hook (.version v)) = .ok m' ∧ m'.isConnected a = true ∧ .verack a ∈ added m m' ∧
      (∀ b why, .disconnect b why ∉ added m m') ∧ (link = .inbound → ∃ w, .version a w ∈ added m m') := by
  have hi := run_inv r
  obtain ⟨c, i, hg⟩ := (isConnected_iff m a).1 hc
  obtain ⟨ha, s', g', _⟩ := hi.sess a c i hg
  obtain ⟨rfl, rfl⟩ := session_unique g g'
  have hany : m.versioned.any (fun p => p.2.link == .outbound && p.1.nonce == v.nonce) = false := by
    rw [List.any_eq_false]
    intro p hp
    unfold Mgr.versioned at hp
    rw [List.mem_filterMap] at hp
    obtain ⟨⟨b, q⟩, hb, hq⟩ := hp
    cases q with
    | connecting t => simp [Peer.versioned] at hq
    | disconnecting => simp [Peer.versioned] at hq
    | connected c' i' =>
      cases i' with
      | none => simp [Peer.versioned] at hq
      | some i' =>
        simp only [Peer.versioned, Option.some.injEq] at hq
        rw [← hq]
        have := hn b c' i' (AMap.get_of_mem (run_list r).nodup hb)
        simpa using this
  have hr := refuse_of_valid hi hv hany hs
  have hp : ¬ (cfg.dbg && rawOffset v m.now < -(2 ^ 63 : Int)) = true := by
    simp only [Bool.and_eq_true, decide_eq_true_eq, not_and]
    intro hd'
    have := hd hd'
    unfold rawOffset
    omega
  have hadd : added m (m.accept cfg c v height) = reply cfg c v.nonce height m.now := by
    unfold added Mgr.accept; rw [List.drop_left]
  refine ⟨m.accept cfg c v height, ?_, ?_, ?_, ?_, ?_⟩
  · simp only [Mgr.step, Mgr.messageReceived, hc, Mgr.receivedMsg, Mgr.receivedVersion, hg, hr]
    rw [if_neg (by simp), if_neg (by simp), if_neg hp]
  · simp [Mgr.isConnected, Mgr.accept, ha]
  · rw [hadd, reply, ha]; simp
  · intro b why
    rw [hadd, reply]
    cases c.link <;> simp
  · intro hl
    rw [hadd, reply, hl, ha]
    simp

end Verif.Peer
