import Verif.Peer.Model

/-!
# Specification of the peer manager

Histories of what happened to the client (most recent first) and, in terms of histories only: which peers are trusted, when a
version message is valid, what the current connection with a peer has seen so far, and when a lost persistent peer is to be
tried again.
-/

set_option autoImplicit false

namespace Verif.Peer
open Verif.Addr (Sock Ip Domain NetAddr Source has isLocal domainOf sadd)

/-- Hash maps are visited in some order. -/
def Op.Legal : Op → Prop
  | .timer ord _ => ∀ l, (ord l).Perm l
  | _ => True

/-- The history `h` (most recent first) leads to the state `m`; `tr`: the addresses whitelisted at the start. -/
inductive Run (cfg : Config) (tr : List Ip) : List Op → Mgr → Prop where
  | start : Run cfg tr [] (Mgr.new tr)
  | step {h : List Op} {m m' : Mgr} {op : Op} (r : Run cfg tr h m) (l : op.Legal) (e : m.step cfg op = .ok m') :
      Run cfg tr (op :: h) m'

/-- The outputs added between two states. -/
def added (m m' : Mgr) : List Out := m'.out.drop m.out.length

/-- The time of the last tick. -/
def timeOf : List Op → Nat
  | [] => 0
  | .tick t :: _ => t
  | _ :: h => timeOf h

/-- A peer is trusted if its address or user agent is whitelisted, if the user asked to connect to its address, or if it is on the
local network. -/
def Trusted (cfg : Config) (tr : List Ip) (h : List Op) (a : Sock) (agent : String) : Prop :=
  a.ip ∈ tr ∨ agent ∈ cfg.agents ∨ isLocal a.ip = true ∨ ∃ b, Op.cmdConnect b ∈ h ∧ b.ip = a.ip

/-- A valid version message: recent enough, not vetoed by the user and, on outbound connections with peers that are not trusted, with
the required services and a chain that is not more than two weeks behind ours. -/
structure Valid (cfg : Config) (tr : List Ip) (h : List Op) (a : Sock) (link : Link) (v : Version) (height : Nat) (hook : Bool) :
    Prop where
  version : 70012 ≤ v.version
  hook : hook = true
  services : link = .outbound → ¬ Trusted cfg tr h a v.agent → v.services &&& cfg.required = cfg.required
  fresh : link = .outbound → ¬ Trusted cfg tr h a v.agent → height ≤ asHeight v.startHeight + 2016

/-- What a connection has seen: the last version message, our time when it came, whether `wtxidrelay` and whether `verack` came since
then. -/
structure Seen where
  v : Version
  at_ : Nat
  wtxid : Bool
  verack : Bool

/-- Things that end the current connection with `a`, or that replace or extend what it has seen. -/
def Touches (a : Sock) : Op → Prop
  | .connected b .. => b = a
  | .disconnected b .. => b = a
  | .message b .. => b = a
  | .timedOut b => b = a
  | .misbehaved b => b = a
  | .cmdDisconnect b => b = a
  | _ => False

/-- `a` is connected since some point of the history; since then it was not disconnected, nor did we decide to disconnect it because
of a message of the wrong network, a command, or the verdict of another component; every version message received since then was
valid; `s` is what the connection has seen. -/
inductive Session (cfg : Config) (tr : List Ip) (a : Sock) : List Op → Link → Option Seen → Prop where
  | connected {h : List Op} {loc : Sock} {link : Link} {height nonce : Nat} :
      Session cfg tr a (.connected a loc link height nonce :: h) link none
  | version {h : List Op} {link : Link} {s : Option Seen} {v : Version} {height : Nat} {hook : Bool}
      (g : Session cfg tr a h link s) (ok : Valid cfg tr h a link v height hook) :
      Session cfg tr a (.message a true height hook (.version v) :: h) link (some ⟨v, timeOf h, false, false⟩)
  | wtxid {h : List Op} {link : Link} {s : Option Seen} {height : Nat} {hook : Bool} (g : Session cfg tr a h link s) :
      Session cfg tr a (.message a true height hook .wtxidRelay :: h) link (s.map ({ · with wtxid := true }))
  | verack {h : List Op} {link : Link} {s : Option Seen} {height : Nat} {hook : Bool} (g : Session cfg tr a h link s) :
      Session cfg tr a (.message a true height hook .verack :: h) link (s.map ({ · with verack := true }))
  | other {h : List Op} {link : Link} {s : Option Seen} {op : Op} (g : Session cfg tr a h link s) (u : ¬ Touches a op) :
      Session cfg tr a (op :: h) link s

/-- What is reported of a negotiated peer: the content of its version message. -/
def report (cfg : Config) (a : Sock) (link : Link) (s : Seen) : Negotiated :=
  { link := link, services := s.v.services, persistent := cfg.persistent.contains a, agent := s.v.agent, receiver := s.v.receiver,
    height := asHeight s.v.startHeight, version := min cfg.protocolVersion s.v.version, relay := s.v.relay, wtxid := s.wtxid }

/-- The delay before the reconnection after the `k`-th loss in a row (from zero): `2^k` seconds, within the bounds.  The number of
losses is taken as a 32-bit number. -/
def delay (cfg : Config) (k : Nat) : Nat := max cfg.retryMin (min (1000 * 2 ^ (k % 2 ^ 32)) cfg.retryMax)

/-- How often `a` was lost since it was last connected. -/
def losses (a : Sock) : List Op → Nat
  | [] => 0
  | .connected b _ _ _ _ :: h => if b = a then 0 else losses a h
  | .disconnected b _ _ :: h => if b = a then losses a h + 1 else losses a h
  | _ :: h => losses a h

/-- `a` was lost, was not connected since, and is to be tried again at time `t`, which has not come yet when the timers were last
looked at. -/
inductive Scheduled (cfg : Config) (a : Sock) : List Op → Nat → Prop where
  | lost {h : List Op} {d : Disc} {src : List Cand} :
      Scheduled cfg a (.disconnected a d src :: h) (timeOf h + delay cfg (losses a h))
  | timer {h : List Op} {t : Nat} {ord : List Sock → List Sock} {src : List Cand} (s : Scheduled cfg a h t) (l : timeOf h < t) :
      Scheduled cfg a (.timer ord src :: h) t
  | other {h : List Op} {t : Nat} {op : Op} (s : Scheduled cfg a h t) (n1 : ∀ b c l x y, op = .connected b c l x y → b ≠ a)
      (n2 : ∀ b d src, op = .disconnected b d src → b ≠ a) (n3 : ∀ ord src, op ≠ .timer ord src) :
      Scheduled cfg a (op :: h) t

end Verif.Peer
