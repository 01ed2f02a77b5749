import Verif.Addr.Model

/-!
# Specification of the address manager: histories
-/

set_option autoImplicit false

namespace Verif.Addr

/-- The random choices of a call are fair: indices in range, shuffles are permutations. -/
def Op.Fair : Op → Prop
  | .importAddresses e _ => e.Fair
  | .message e _ _ _ => e.Fair
  | .sample e _ => e.Fair
  | _ => True

/-- The call, and the sampled address, if any. -/
abbrev Entry := Op × Option (NetAddr × Source)

/-- From one state to another by calls; the history is most recent first. -/
inductive Steps (cfg : Config) (m : Mgr) : List Entry → Mgr → Prop where
  | refl : Steps cfg m [] m
  | step {l m' m'' op res} (r : Steps cfg m l m') (f : op.Fair) (h : m'.step cfg op = .ok (res, m'')) :
      Steps cfg m ((op, res) :: l) m''

/-- The manager is created with some address book and initialized (at some time, with writing the book to disk working or
not). -/
def Starts (peers : AMap Ip Known) (m : Mgr) : Prop :=
  peers.keys.Nodup ∧ ∃ (e : Env) (m0 : Mgr) (now : Nat) (saved : Bool), e.Fair ∧ Mgr.new peers e = .ok m0 ∧ m = m0.idle now saved

/-- Histories of a manager since it was created. -/
def Run (cfg : Config) (peers : AMap Ip Known) (l : List Entry) (m : Mgr) : Prop :=
  ∃ m0, Starts peers m0 ∧ Steps cfg m0 l m

/-- There is a connection with that address: it was connected and not disconnected since. -/
def isOpen (a : Sock) : List Entry → Bool
  | [] => false
  | (.connected b, _) :: l => if b = a then true else isOpen a l
  | (.disconnected b _, _) :: l => if b = a then false else isOpen a l
  | _ :: l => isOpen a l

/-- The last connection or disconnection with that IP address was a connection. -/
def linked (ip : Ip) : List Entry → Bool
  | [] => false
  | (.connected b, _) :: l => if b.ip = ip then true else linked ip l
  | (.disconnected b _, _) :: l => if b.ip = ip then false else linked ip l
  | _ :: l => linked ip l

/-- At most one connection per IP address: whenever a connection is opened or closed, no other with the same IP is open. -/
def OneConn : List Entry → Prop
  | [] => True
  | (.connected a, _) :: l => (∀ b, isOpen b l = true → b.ip = a.ip → b = a) ∧ OneConn l
  | (.disconnected a _, _) :: l => (∀ b, isOpen b l = true → b.ip = a.ip → b = a) ∧ OneConn l
  | _ :: l => OneConn l

/-- An announced address that may enter the address book at the given time: it offers the required services and none of the
antiquated ones, has a time of last activity that is at most an hour ahead, an internet address of an allowed domain that is
routable, not local, not ours and not banned. -/
structure Acceptable (cfg : Config) (m : Mgr) (time lastActive : Nat) (a : NetAddr) (s : Sock) : Prop where
  services : has a.services cfg.requiredServices = true
  notUtxo : has a.services svcGetUtxo = false
  notBloom : has a.services svcBloom = false
  active : 0 < lastActive
  notFuture : lastActive * 1000 ≤ time + 3600000
  sock : a.sock = some s
  domain : domainOf s ∈ cfg.domains
  notOurs : s ∉ m.locals
  notBanned : s.ip ∉ m.bans
  routable : isRoutable s.ip = true
  notLocal : isLocal s.ip = false

/-- An address book whose entries are stored under their own IP address and are routable. -/
def Sound (peers : AMap Ip Known) : Prop :=
  ∀ ip ka, peers.get ip = some ka → ∃ s, ka.addr.sock = some s ∧ s.ip = ip ∧ isRoutable ip = true ∧ isLocal ip = false

/-- Handshakes are only completed on open connections. -/
def Proper : List Entry → Prop
  | [] => True
  | (.negotiated _ a _ _ _, _) :: l => isOpen a l = true ∧ Proper l
  | _ :: l => Proper l

end Verif.Addr
