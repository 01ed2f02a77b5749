import Verif.Peer.Idle
import Verif.Peer.PropsRetry

/-!
# The peer manager: concrete histories

Examples that the hypotheses of the theorems are met, and counterexamples to the properties that do not hold in full.
-/

set_option autoImplicit false

namespace Verif.Peer.Scenario
open Verif.Addr (Sock Ip Domain NetAddr Source has isLocal domainOf sadd)

/-- Two outbound connections wanted, no persistent peers. -/
def cfg : Config :=
  { protocolVersion := 70016, agents := [], services := 9, persistent := [], required := 1, preferred := 9, target := 2,
    maxInbound := 4, retryMin := 1000, retryMax := 3600000, agent := "/nakamoto/", domains := [.ipv4], dbg := true }

def a : Sock := { ip := .v4 8 8 8 8, port := 8333 }
def b : Sock := { ip := .v4 9 9 9 9, port := 8333 }
def c : Sock := { ip := .v4 7 7 7 7, port := 8333 }
def loc : Sock := { ip := .v4 1 2 3 4, port := 5555 }

/-- The same with a persistent peer. -/
def pcfg : Config := { cfg with persistent := [a] }

def cand (x : Sock) : Cand := ({ services := 9, sock := some x }, .dns)

/-- A version message. -/
def ver (nonce : Nat) (height : Int) : Version :=
  { version := 70016, services := 9, timestamp := 0, receiver := { services := 0, sock := some loc }, nonce := nonce,
    agent := "/Satoshi/", startHeight := height, relay := false }

/-- Run a list of inputs. -/
def go (cfg : Config) (m : Mgr) : List Op → Option Mgr
  | [] => some m
  | op :: ops =>
    match m.step cfg op with
    | .ok m' => go cfg m' ops
    | _ => none

theorem go_run {cfg : Config} {tr : List Ip} : ∀ (ops : List Op) (h : List Op) (m m' : Mgr), Run cfg tr h m → (∀ op ∈ ops, op.Legal) →
    go cfg m ops = some m' → Run cfg tr (ops.reverse ++ h) m'
  | [], h, m, m', r, _, e => by
    simp only [go, Option.some.injEq] at e
    rw [← e]; exact r
  | op :: ops, h, m, m', r, hl, e => by
    unfold go at e
    cases hs : m.step cfg op with
    | ok m1 =>
      simp only [hs] at e
      have := go_run ops (op :: h) m1 m' (.step r (hl op List.mem_cons_self) hs) (fun o ho => hl o (List.mem_cons_of_mem _ ho)) e
      simpa using this
    | err e' => simp [hs] at e
    | panic => simp [hs] at e

/-- The state after a list of inputs. -/
def after (cfg : Config) (ops : List Op) : Mgr := (go cfg (Mgr.new []) ops).getD (Mgr.new [])

theorem run {cfg : Config} {ops : List Op} (hl : ∀ op ∈ ops, op.Legal) (hs : (go cfg (Mgr.new []) ops).isSome) :
    Run cfg [] ops.reverse (after cfg ops) := by
  obtain ⟨m, e⟩ := Option.isSome_iff_exists.1 hs
  have := go_run (tr := []) ops [] (Mgr.new []) m .start hl e
  unfold after
  rw [e]
  simpa using this

/-- Which timers are the only inputs that are not always legal. -/
def legalB : Op → Bool
  | .timer _ _ => false
  | _ => true

theorem legal_of {ops : List Op} (h : ops.all legalB = true) : ∀ op ∈ ops, op.Legal := by
  intro op ho
  have := List.all_eq_true.1 h op ho
  cases op <;> trivial

theorem legal_timer (src : List Cand) : (Op.timer id src).Legal := fun _ => List.Perm.refl _

/-! ### Handshakes -/

/-- The client connects to `a`, and the handshake is finished except for the `verack`. -/
def shake : List Op :=
  [.tick 1000000, .init [cand a], .attempted a, .connected a loc .outbound 100 7, .message a true 100 true (.version (ver 5 120)),
   .message a true 100 true .wtxidRelay]

theorem shake_run : Run cfg [] shake.reverse (after cfg shake) := run (legal_of (by decide)) (by decide)

/-- What the connection has seen. -/
theorem shake_session : Session cfg [] a shake.reverse .outbound (some ⟨ver 5 120, 1000000, true, false⟩) := by
  refine Session.wtxid (s := some ⟨ver 5 120, 1000000, false, false⟩) (.version (s := none) .connected ?_)
  exact ⟨by decide, rfl, fun _ _ => by decide, fun _ _ => by decide⟩

/-- C44 is not empty: the `verack` leads to the report. -/
example : ∃ m', (after cfg shake).step cfg (.message a true 100 true .verack) = .ok m' ∧
    .evNegotiated a (report cfg a .outbound ⟨ver 5 120, 1000000, true, false⟩) ∈ added (after cfg shake) m' :=
  C44_complete shake_run (by decide) shake_session rfl 100 true

/-- A version message that is not valid: the required services are missing. -/
def badVer : Version := { ver 5 120 with services := 8 }

def early : List Op := [.tick 1000000, .init [cand a], .attempted a, .connected a loc .outbound 100 7]

theorem early_run : Run cfg [] early.reverse (after cfg early) := run (legal_of (by decide)) (by decide)

theorem bad_invalid (link : Link) (s : Option Seen) (g : Session cfg [] a early.reverse link s) :
    ¬ Valid cfg [] early.reverse a link badVer 100 true := by
  intro v
  have h0 : Session cfg [] a early.reverse .outbound none := .connected
  obtain ⟨rfl, _⟩ := session_unique g h0
  have := v.services rfl (by
    rintro (x | x | x | ⟨y, hy, _⟩)
    · simp at x
    · simp [cfg] at x
    · revert x; decide
    · simp [early] at hy)
  revert this
  decide

/-- C44_rejected is not empty. -/
example : ∃ m' why, (after cfg early).step cfg (.message a true 100 true (.version badVer)) = .ok m' ∧
    added (after cfg early) m' = [.disconnect a why] ∧ m'.isConnected a = false :=
  C44_rejected early_run (by decide) bad_invalid

/-- C44 is false in full: a second version message (with another nonce) and `verack` lead to a second report on the same
connection. -/
theorem C44_negotiated_twice : ∃ h m, Run cfg [] h m ∧
    (h.countP (fun o => match o with | .connected .. => true | _ => false)) = 1 ∧
    (m.out.countP (fun o => match o with | .evNegotiated x _ => x = a | _ => false)) = 2 := by
  refine ⟨_, _, run (cfg := cfg) (ops := shake ++ [.message a true 100 true .verack, .message a true 100 true (.version (ver 6 120)),
    .message a true 100 true .verack]) (legal_of (by decide)) (by decide), by decide, by decide⟩

/-- A connection of the client with itself: `b` is its own public address, `loc` the local end of the outbound connection. -/
def selfOps (v v' : Version) : List Op :=
  [.tick 1000000, .init [cand b], .attempted b, .connected b loc .outbound 100 7, .connected loc b .inbound 100 8,
   .message loc true 100 true (.version v), .message b true 100 true (.version v'),
   .message b true 100 true .verack, .message loc true 100 true .verack]

/-- The version messages the client sends on the two ends. -/
def selfV : Version := ownVersion cfg b 7 100 1000000
def selfV' : Version := ownVersion cfg loc 7 100 1000000

/-- What is reported. -/
def neg (link : Link) (agent : String) (receiver : Sock) (height : Nat) : Negotiated :=
  { link := link, services := 9, persistent := false, agent := agent, receiver := { services := 0, sock := some receiver },
    height := height, version := 70016, relay := false, wtxid := false }

/-- C44: a connection with itself is not noticed.  Each end receives exactly what the other end sent, and both are reported
negotiated. -/
theorem C44_self_connection : ∃ m, Run cfg [] (selfOps selfV selfV').reverse m ∧
    .version b selfV ∈ m.out ∧ .version loc selfV' ∈ m.out ∧ .verack b ∈ m.out ∧ .verack loc ∈ m.out ∧
    (∃ n, .evNegotiated b n ∈ m.out) ∧ (∃ n, .evNegotiated loc n ∈ m.out) ∧ ∀ x r, .disconnect x r ∉ m.out := by
  refine ⟨_, run (cfg := cfg) (ops := selfOps selfV selfV') (legal_of (by decide)) (by decide), by decide, by decide, by decide,
    by decide, ⟨neg .outbound "/nakamoto/" loc 100, by decide⟩, ⟨neg .inbound "/nakamoto/" b 100, by decide⟩, ?_⟩
  intro x r hx
  have : (after cfg (selfOps selfV selfV')).out.all (fun o => match o with | .disconnect _ _ => false | _ => true) = true := by decide
  have := List.all_eq_true.1 this _ hx
  simp at this

/-- C44: a negative height is taken for a very large one, so that such a peer is not too far behind. -/
theorem C44_negative_height : ∃ h m n, Run cfg [] h m ∧ .evNegotiated a n ∈ m.out ∧ 10000000 < n.height := by
  refine ⟨_, _, neg .outbound "/Satoshi/" loc (2 ^ 64 - 1),
    run (cfg := cfg) (ops := [.tick 1000000, .init [cand a], .attempted a, .connected a loc .outbound 900000 7,
      .message a true 900000 true (.version (ver 5 (-1))), .message a true 900000 true .verack]) (legal_of (by decide)) (by decide),
    by decide, by decide⟩

/-! ### Limits -/

/-- C45_inbound is not empty: of four inbound connections three stay. -/
example : ((after cfg [.tick 1000000, .connected a loc .inbound 0 0, .connected b loc .inbound 0 0, .connected c loc .inbound 0 0,
    .connected loc loc .inbound 0 0]).conns.filter (fun x => x.link == .inbound)).length = 3 := by decide

/-- C45_outbound is not empty: at the start two connections are opened, though three addresses are known. -/
def opened : Mgr := after cfg [.tick 1000000, .init [cand a, cand b, cand c]]

example : .evConnecting b .dns 9 ∈ added (after cfg [.tick 1000000]) opened ∧ opened.conns.length + opened.connecting.length = 2 := by
  decide

/-- With a peer that lacks the preferred services, one more is opened. -/
def lacking : Mgr := after cfg
  [.tick 1000000, .init [({ services := 1, sock := some a }, .dns)], .attempted a, .connected a loc .outbound 100 7,
   .message a true 100 true (.version { ver 5 120 with services := 1 }), .message a true 100 true .verack,
   .timer id [cand b, cand c]]

example : lacking.conns.length + lacking.connecting.length = 3 ∧ lacking.lacking cfg = 1 ∧ .evConnecting c .dns 9 ∈ lacking.out := by
  decide

/-- C70_fills_partial is not empty: too few candidates, which are all used. -/
example : ∃ m', (after cfg [.tick 1000000]).step cfg (.timer id [cand a]) = .ok m' ∧ m'.isConnecting a = true := by
  refine ⟨after cfg [.tick 1000000, .timer id [cand a]], rfl, ?_⟩
  have := C70_fills_partial (cfg := cfg) (tr := []) (run (ops := [.tick 1000000]) (legal_of (by decide)) (by decide))
    (legal_timer [cand a]) (m' := after cfg [.tick 1000000, .timer id [cand a]]) rfl rfl (by decide) (by
      intro x hx y hy
      have : (after cfg [.tick 1000000]).peers = [] := by decide
      rw [this]; rfl)
  rcases this with h | h
  · revert h; decide
  · exact h (cand a) (by simp) a rfl (by decide)

/-- C70_minute_partial and C70_woken are not empty: connections were looked for, half a minute later not, and a minute later again. -/
example : ∃ m', lookedAt [.tick 1060000, .timer id [], .tick 1030000, .timer id [], .tick 1000000] = 1000000 ∧
    (after cfg [.tick 1000000, .timer id [], .tick 1030000, .timer id [], .tick 1060000]).step cfg (.timer id [cand a]) = .ok m' ∧ m'.isConnecting a = true ∧
    .timer 60000 ∈ added (after cfg [.tick 1000000, .timer id [], .tick 1030000, .timer id [], .tick 1060000]) m' := by
  have r := run (cfg := cfg) (ops := [.tick 1000000, .timer id [], .tick 1030000, .timer id [], .tick 1060000]) (by
    intro op h
    simp only [List.mem_cons, List.not_mem_nil, or_false] at h
    rcases h with rfl | rfl | rfl | rfl | rfl <;> first | exact legal_timer [] | trivial) (by decide)
  refine ⟨after cfg [.tick 1000000, .timer id [], .tick 1030000, .timer id [], .tick 1060000, .timer id [cand a]], by decide, rfl, ?_, ?_⟩
  · have := C70_minute_partial (cfg := cfg) (tr := []) r
      (legal_timer [cand a]) (m' := after cfg [.tick 1000000, .timer id [], .tick 1030000, .timer id [], .tick 1060000, .timer id [cand a]]) rfl rfl (by decide) (by
        intro x hx y hy
        have : (after cfg [.tick 1000000, .timer id [], .tick 1030000, .timer id [], .tick 1060000]).peers = [] := by decide
        rw [this]; rfl)
    rcases this with h | h
    · revert h; decide
    · exact h (cand a) (by simp) a rfl (by decide)
  · exact C70_woken (op := .timer id [cand a]) r rfl (.inr ⟨⟨_, _, rfl⟩, by decide⟩)

/-- C70: two inbound connections keep the client from opening any. -/
def starved : List Op := [.tick 1000000, .connected a loc .inbound 0 0, .connected b loc .inbound 0 0]

theorem C70_counterexample : ∃ m m', Run cfg [] starved.reverse m ∧ m.step cfg (.timer id [cand c]) = .ok m' ∧
    cfg.target = 2 ∧ (∀ x ∈ m'.conns, x.link = .inbound) ∧ (∀ x, .connect x ∉ m'.out) ∧ m'.connecting = [] := by
  refine ⟨after cfg starved, after cfg (starved ++ [.timer id [cand c]]), run (legal_of (by decide)) (by decide), rfl, rfl, by decide,
    ?_, by decide⟩
  intro x hx
  have : (after cfg (starved ++ [.timer id [cand c]])).out.all (fun o => match o with | .connect _ => false | _ => true) = true := by
    decide
  have := List.all_eq_true.1 this _ hx
  simp at this

/-! ### Reconnections -/

/-- The persistent peer `a` is connected, lost, found unreachable and lost again. -/
def lost : List Op :=
  [.tick 1000000, .init [], .attempted a, .connected a loc .outbound 100 7, .disconnected a .connection [], .tick 1001000]

theorem lost_run : Run pcfg [] lost.reverse (after pcfg lost) := run (legal_of (by decide)) (by decide)

theorem lost_scheduled : Scheduled pcfg a lost.reverse 1001000 :=
  .other (h := lost.reverse.tail) (op := .tick 1001000) .lost (by simp) (by simp) (by simp)

/-- C46_retry is not empty: after a second the client connects again. -/
example : ∃ m', (after pcfg lost).step pcfg (.timer id []) = .ok m' ∧ .connect a ∈ added (after pcfg lost) m' := by
  obtain ⟨m', e⟩ : ∃ m', (after pcfg lost).step pcfg (.timer id []) = .ok m' := ⟨_, rfl⟩
  exact ⟨m', e, (C46_retry (by decide) lost_run (legal_timer []) e (by decide) lost_scheduled (by decide) (by decide) (by decide)
    (by decide)).1⟩

/-- The delays with the client's settings: 1, 2, 4, ... seconds, at most an hour. -/
example : delay pcfg 0 = 1000 ∧ delay pcfg 1 = 2000 ∧ delay pcfg 2 = 4000 ∧ delay pcfg 11 = 2048000 ∧ delay pcfg 12 = 3600000 := by
  decide +kernel

/-- No supported address family. -/
def ucfg : Config := { pcfg with domains := [] }

/-- A persistent peer whose address the client does not support is never tried. -/
theorem C46_unsupported : ∃ h m, Run ucfg [] h m ∧ (∀ x, .connect x ∉ m.out) ∧ m.peers = [] ∧
    .evError a ∈ m.out := by
  refine ⟨_, _, run (cfg := ucfg) (ops := [.tick 1000000, .init []]) (legal_of (by decide)) (by decide), ?_,
    by decide, by decide⟩
  intro x hx
  have : (after ucfg [.tick 1000000, .init []]).out.all
    (fun o => match o with | .connect _ => false | _ => true) = true := by decide
  have := List.all_eq_true.1 this _ hx
  simp at this

/-! ### Slow peers -/

/-- Twelve seconds after the connection, without a version message. -/
def waiting : List Op := early ++ [.tick 1012000]

theorem slow_run : Run cfg [] waiting.reverse (after cfg waiting) :=
  run (legal_of (by decide)) (by decide)

/-- C72 is not empty. -/
example : ∃ m', (after cfg waiting).step cfg (.timer id []) = .ok m' ∧
    .disconnect a (.timeout "handshake") ∈ added (after cfg waiting) m' := by
  obtain ⟨m', e⟩ : ∃ m', (after cfg waiting).step cfg (.timer id []) = .ok m' := ⟨_, rfl⟩
  refine ⟨m', e, (C72_slow_handshake slow_run (legal_timer []) e (by decide)).2 ⟨1000000, ⟨.outbound, none, ?_, ?_⟩, by decide⟩⟩
  · exact .other (h := early.reverse) (op := .tick 1012000) .connected (fun x => x)
  · exact .other (h := early.reverse) (op := .tick 1012000) .connected (by simp) (by simp)

end Verif.Peer.Scenario
