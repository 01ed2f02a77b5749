import Verif.Peer.Handshake

/-!
# C44: handshake discipline
-/

set_option autoImplicit false

namespace Verif.Peer
open Verif.Addr (Sock Ip Domain NetAddr Source has isLocal domainOf sadd)

variable {cfg : Config} {tr : List Ip}

theorem added_of {m m' : Mgr} {l : List Out} (e : m'.out = m.out ++ l) : added m m' = l := by
  simp [added, e]

/-- The outputs that report a finished handshake. -/
def Reports (a : Sock) (o : Out) : Prop := (∃ n, o = .evNegotiated a n) ∨ ∃ x, o = .offset a x

theorem not_reports_of {m m' : Mgr} {P : Out → Prop} (h : ∃ l, m'.out = m.out ++ l ∧ ∀ o ∈ l, P o)
    (i : ∀ a o, P o → ¬ Reports a o) {a : Sock} {o : Out} (ho : o ∈ added m m') : ¬ Reports a o := by
  obtain ⟨l, e, hl⟩ := h
  rw [added_of e] at ho
  exact i a o (hl o ho)

theorem maintainOut_not {a : Sock} {o : Out} (h : MaintainOut o) : ¬ Reports a o := by
  rcases h with (⟨b, rfl⟩ | ⟨t, rfl⟩) | ⟨b, s, f, rfl⟩ <;> simp [Reports]

theorem drop_not {b : Sock} {r : Reason} {a : Sock} {o : Out} (h : o = .disconnect b r) : ¬ Reports a o := by
  subst h; simp [Reports]

theorem added_self (m : Mgr) : added m m = [] := by simp [added]

theorem reply_not {c : Conn} {n ht nw : Nat} {a : Sock} {o : Out} (h : o ∈ reply cfg c n ht nw) : ¬ Reports a o := by
  unfold reply at h
  cases hl : c.link <;> simp [hl] at h <;>
    (try rcases h with rfl | rfl | rfl | rfl | rfl) <;> simp_all [Reports]

/-- Only a `verack` on a connection whose version was recorded and not yet acknowledged is reported. -/
theorem reports_step {m m' : Mgr} {op : Op} (e : m.step cfg op = .ok m') {a : Sock} {o : Out}
    (ho : o ∈ added m m') (hr : Reports a o) :
    (∃ height hook, op = .message a true height hook .verack) ∧
    ∃ c i, m.peers.get a = some (.connected c (some i)) ∧ i.isNegotiated = false ∧
      (o = .evNegotiated a (i.event c) ∨ o = .offset a i.offset) ∧
      added m m' = [.evNegotiated a (i.event c), .offset a i.offset] := by
  cases op with
  | init src =>
    refine absurd hr (not_reports_of (initialize_ext e).out ?_ ho)
    rintro b o (x | ⟨c, rfl⟩)
    · exact maintainOut_not x
    · simp [Reports]
  | tick t =>
    simp only [Mgr.step, Res.ok.injEq] at e
    rw [← e] at ho
    simp [added] at ho
  | attempted b =>
    simp only [Mgr.step, Mgr.peerAttempted] at e
    by_cases h1 : (cfg.dbg && !(m.isConnecting b || m.isInbound b)) = true
    · rw [if_pos h1] at e; simp at e
    · rw [if_neg h1] at e
      simp only [Res.ok.injEq] at e
      rw [← e, added_self] at ho
      simp at ho
  | connected b loc link height nonce =>
    refine absurd hr (not_reports_of (peerConnected_out e).1 ?_ ho)
    rintro c o (rfl | ⟨v, rfl⟩ | ⟨t, rfl⟩ | ⟨x, y, rfl⟩) <;> simp [Reports]
  | disconnected b d src =>
    refine absurd hr (not_reports_of (peerDisconnected_ext e).out ?_ ho)
    rintro c o (x | ⟨v, rfl⟩ | rfl)
    · exact maintainOut_not x
    · simp [Reports]
    · simp [Reports]
  | timedOut b =>
    simp only [Mgr.step, Res.ok.injEq] at e
    rw [← e] at ho
    exact absurd hr (not_reports_of (disconnect_ext m b _).out (fun a o x => drop_not x) ho)
  | misbehaved b =>
    simp only [Mgr.step, Res.ok.injEq] at e
    rw [← e] at ho
    exact absurd hr (not_reports_of (disconnect_ext m b _).out (fun a o x => drop_not x) ho)
  | cmdConnect b =>
    simp only [Mgr.step, Res.ok.injEq] at e
    rw [← e] at ho
    have x := (connect_ext (m.whitelist b) cfg b).out
    exact absurd hr (not_reports_of (m := m) x (fun a o y => maintainOut_not (Or.inl y)) ho)
  | cmdDisconnect b =>
    simp only [Mgr.step, Res.ok.injEq] at e
    rw [← e] at ho
    exact absurd hr (not_reports_of (disconnect_ext m b _).out (fun a o x => drop_not x) ho)
  | timer ord src =>
    refine absurd hr (not_reports_of (timerExpired_ext e).out ?_ ho)
    rintro b o (x | ⟨b, r, rfl⟩)
    · exact maintainOut_not x
    · simp [Reports]
  | message b mg height hook msg =>
    simp only [Mgr.step, Mgr.messageReceived] at e
    cases mg with
    | false =>
      simp only [Bool.not_false, if_true, Res.ok.injEq] at e
      rw [← e] at ho
      exact absurd hr (not_reports_of (disconnect_ext m b _).out (fun a o x => drop_not x) ho)
    | true =>
      simp only [Bool.not_true, Bool.false_eq_true, if_false] at e
      by_cases hc : m.isConnected b = true
      · simp only [hc, Bool.not_true, Bool.false_eq_true, if_false] at e
        obtain ⟨c, i, hg⟩ := (isConnected_iff m b).1 hc
        cases msg with
        | version v =>
          simp only [Mgr.receivedMsg, Mgr.receivedVersion, hg] at e
          cases hrf : m.refuse cfg c b v height hook with
          | some r =>
            simp only [hrf, Res.ok.injEq] at e
            rw [← e] at ho
            exact absurd hr (not_reports_of (drop_ext m b _).out (fun a o x => drop_not x) ho)
          | none =>
            simp only [hrf] at e
            by_cases hp : (cfg.dbg && rawOffset v m.now < -(2 ^ 63 : Int)) = true
            · rw [if_pos hp] at e; simp at e
            rw [if_neg hp] at e
            simp only [Res.ok.injEq] at e
            rw [← e, added_of (m' := m.accept cfg c v height) rfl] at ho
            exact absurd hr (reply_not ho)
        | wtxidRelay =>
          simp only [Mgr.receivedMsg, Res.ok.injEq, Mgr.receivedWtxidRelay, hg] at e
          cases i with
          | none =>
            simp only at e
            rw [← e, added_self] at ho
            simp at ho
          | some i =>
            cases hst : i.state with
            | version since =>
              simp only [hst] at e
              rw [← e] at ho
              simp [added] at ho
            | verack since =>
              simp only [hst] at e
              rw [← e] at ho
              exact absurd hr (not_reports_of (disconnect_ext m b _).out (fun a o x => drop_not x) ho)
        | verack =>
          simp only [Mgr.receivedMsg, Res.ok.injEq, Mgr.receivedVerack, hg] at e
          cases i with
          | none =>
            simp only at e
            rw [← e, added_self] at ho
            simp at ho
          | some i =>
            cases hst : i.state with
            | version since =>
              simp only [hst] at e
              have ha : added m m' = [.evNegotiated b (i.event c), .offset b i.offset] := by
                rw [← e]; exact added_of rfl
              rw [ha] at ho
              have hab : b = a := by
                rcases hr with ⟨n, rfl⟩ | ⟨x, rfl⟩ <;> simp at ho
                · exact ho.1.symm
                · exact ho.1.symm
              subst hab
              refine ⟨⟨height, hook, rfl⟩, c, i, hg, by simp [Info.isNegotiated, hst], ?_, ha⟩
              simpa using ho
            | verack since =>
              simp only [hst] at e
              rw [← e] at ho
              exact absurd hr (not_reports_of (drop_ext m b _).out (fun a o x => drop_not x) ho)
      · simp only [Bool.not_eq_true] at hc
        simp only [hc, Bool.not_false, if_true, Res.ok.injEq] at e
        rw [← e, added_self] at ho
        simp at ho

/-- The report of a record is the report of what was seen. -/
theorem event_report {a : Sock} {c : Conn} {i : Info} {s : Seen} (mt : Matches cfg a (some s) (some i)) :
    i.event c = report cfg a c.link s := by
  obtain ⟨m1, m2, m3, m4, m5, m6, m7, m8, m9, m10⟩ := mt
  simp [Info.event, report, m1, m2, m3, m5, m6, m7, m8, m9]

/-- C44: a peer is reported negotiated only when it sends a `verack` on a connection that is still open and not being closed by
us, on which it sent a version message before, no `verack` since that message, and no invalid version message at all.  What is
reported is the content of the last version message.  (Not at most once per connection: `C44_negotiated_twice`.) -/
theorem C44_negotiated_partial {h : List Op} {m m' : Mgr} {op : Op} (r : Run cfg tr h m) (e : m.step cfg op = .ok m') {a : Sock}
    {n : Negotiated} (ho : .evNegotiated a n ∈ added m m') :
    (∃ height hook, op = .message a true height hook .verack) ∧
    ∃ link s, Session cfg tr a h link (some s) ∧ s.verack = false ∧ n = report cfg a link s := by
  have hi := run_inv r
  obtain ⟨h1, c, i, hg, hn, hx, _⟩ := reports_step e ho (Or.inl ⟨n, rfl⟩)
  refine ⟨h1, ?_⟩
  obtain ⟨_, s, g, mt⟩ := hi.sess a c _ hg
  cases s with
  | none => exact mt.elim
  | some s =>
    refine ⟨c.link, s, g, ?_, ?_⟩
    · rw [← mt.2.2.2.2.2.2.2.2.2.1]; exact hn
    · simp only [Out.evNegotiated.injEq, true_and, reduceCtorEq, or_false] at hx
      rw [hx, event_report mt]

/-- C44: the difference of the clocks is taken into account only when the handshake is finished, and it is the difference between the
timestamp of the last version message and our time when it came (as a signed 64-bit number). -/
theorem C44_offset {h : List Op} {m m' : Mgr} {op : Op} (r : Run cfg tr h m) (e : m.step cfg op = .ok m') {a : Sock}
    {x : Int} (ho : .offset a x ∈ added m m') :
    (∃ n, .evNegotiated a n ∈ added m m') ∧
    ∃ link s, Session cfg tr a h link (some s) ∧ s.verack = false ∧
      x = Int.bmod (s.v.timestamp - ((s.at_ / 1000 % 2 ^ 32 : Nat) : Int)) (2 ^ 64) := by
  have hi := run_inv r
  obtain ⟨h1, c, i, hg, hn, hx, ha⟩ := reports_step e ho (Or.inr ⟨x, rfl⟩)
  obtain ⟨_, s, g, mt⟩ := hi.sess a c _ hg
  cases s with
  | none => exact mt.elim
  | some s =>
    refine ⟨⟨_, by rw [ha]; exact List.mem_cons_self⟩, c.link, s, g, ?_, ?_⟩
    · rw [← mt.2.2.2.2.2.2.2.2.2.1]; exact hn
    · simp only [Out.offset.injEq, true_and, reduceCtorEq, false_or] at hx
      rw [hx, mt.2.2.2.1]
      rfl

/-- What a connection has seen is determined by the history. -/
theorem session_unique {a : Sock} : ∀ {h : List Op} {l l' : Link} {s s' : Option Seen},
    Session cfg tr a h l s → Session cfg tr a h l' s' → l = l' ∧ s = s' := by
  intro h
  induction h with
  | nil => intro l l' s s' g _; cases g
  | cons op h ih =>
    intro l l' s s' g g'
    cases g with
    | connected =>
      cases g' with
      | connected => exact ⟨rfl, rfl⟩
      | other _ u => exact absurd rfl u
    | version g ok =>
      cases g' with
      | version g' ok' => exact ⟨(ih g g').1, rfl⟩
      | other _ u => exact absurd rfl u
    | wtxid g =>
      cases g' with
      | wtxid g' => obtain ⟨rfl, rfl⟩ := ih g g'; exact ⟨rfl, rfl⟩
      | other _ u => exact absurd rfl u
    | verack g =>
      cases g' with
      | verack g' => obtain ⟨rfl, rfl⟩ := ih g g'; exact ⟨rfl, rfl⟩
      | other _ u => exact absurd rfl u
    | other g u =>
      cases g' with
      | connected => exact absurd rfl u
      | version _ _ => exact absurd rfl u
      | wtxid _ => exact absurd rfl u
      | verack _ => exact absurd rfl u
      | other g' _ => exact ih g g'

/-- C44: a connected peer that sent a version message and then, for the first time, a `verack` is reported negotiated. -/
theorem C44_complete {h : List Op} {m : Mgr} (r : Run cfg tr h m) {a : Sock} {link : Link} {s : Seen} (hc : m.isConnected a = true)
    (g : Session cfg tr a h link (some s)) (hv : s.verack = false) (height : Nat) (hook : Bool) :
    ∃ m', m.step cfg (.message a true height hook .verack) = .ok m' ∧ .evNegotiated a (report cfg a link s) ∈ added m m' := by
  have hi := run_inv r
  obtain ⟨c, i, hg⟩ := (isConnected_iff m a).1 hc
  obtain ⟨_, s', g', mt⟩ := hi.sess a c _ hg
  obtain ⟨rfl, rfl⟩ := session_unique g g'
  cases i with
  | none => exact mt.elim
  | some i =>
    have hn : i.isNegotiated = false := by rw [mt.2.2.2.2.2.2.2.2.2.1]; exact hv
    cases hst : i.state with
    | verack t => simp [Info.isNegotiated, hst] at hn
    | version t =>
      refine ⟨m.receivedVerack a, by simp [Mgr.step, Mgr.messageReceived, hc, Mgr.receivedMsg], ?_⟩
      rw [← event_report (c := c) mt, added_of (l := [.evNegotiated a (i.event c), .offset a i.offset])
        (by simp [Mgr.receivedVerack, hg, hst])]
      exact List.mem_cons_self

/-- C44: a connected peer that sends an invalid version message is disconnected. -/
theorem C44_rejected {h : List Op} {m : Mgr} (r : Run cfg tr h m) {a : Sock} {v : Version} {height : Nat} {hook : Bool}
    (hc : m.isConnected a = true)
    (hv : ∀ link s, Session cfg tr a h link s → ¬ Valid cfg tr h a link v height hook) :
    ∃ m' why, m.step cfg (.message a true height hook (.version v)) = .ok m' ∧ added m m' = [.disconnect a why] ∧
      m'.isConnected a = false := by
  have hi := run_inv r
  obtain ⟨c, i, hg⟩ := (isConnected_iff m a).1 hc
  obtain ⟨_, s, g, mt⟩ := hi.sess a c _ hg
  obtain ⟨why, hr⟩ := refuse_of_invalid hi (hv _ _ g)
  refine ⟨m.drop a why, why, ?_, added_of rfl, ?_⟩
  · simp [Mgr.step, Mgr.messageReceived, hc, Mgr.receivedMsg, Mgr.receivedVersion, hg, hr]
  · simp [Mgr.isConnected, Mgr.drop]

/-- A session that survives a stretch without a new connection was there before. -/
theorem session_before {a : Sock} {h : List Op} : ∀ {mid : List Op} {l : Link} {s : Option Seen},
    Session cfg tr a (mid ++ h) l s → (∀ b x y z w, Op.connected b x y z w ∈ mid → b ≠ a) → ∃ s', Session cfg tr a h l s' := by
  intro mid
  induction mid with
  | nil => intro l s g _; exact ⟨s, g⟩
  | cons op mid ih =>
    intro l s g hm
    have hm' : ∀ b x y z w, Op.connected b x y z w ∈ mid → b ≠ a :=
      fun b x y z w hb => hm b x y z w (List.mem_cons_of_mem _ hb)
    cases g with
    | connected => exact absurd rfl (hm a _ _ _ _ List.mem_cons_self)
    | version g ok => exact ih g hm'
    | wtxid g => exact ih g hm'
    | verack g => exact ih g hm'
    | other g u => exact ih g hm'

/-- C44: after an invalid version message the peer is not reported negotiated until there is a new connection with it. -/
theorem C44_never {h mid : List Op} {m m' : Mgr} {op : Op} {a : Sock} {v : Version} {height : Nat} {hook : Bool}
    (r : Run cfg tr (mid ++ .message a true height hook (.version v) :: h) m) (e : m.step cfg op = .ok m')
    (hv : ∀ link s, Session cfg tr a h link s → ¬ Valid cfg tr h a link v height hook)
    (hm : ∀ b x y z w, Op.connected b x y z w ∈ mid → b ≠ a) (n : Negotiated) : .evNegotiated a n ∉ added m m' := by
  intro ho
  obtain ⟨_, link, s, g, _⟩ := C44_negotiated_partial r e ho
  obtain ⟨s', g'⟩ := session_before g hm
  cases g' with
  | version g'' ok => exact hv _ _ g'' ok
  | other _ u => exact u rfl

end Verif.Peer
