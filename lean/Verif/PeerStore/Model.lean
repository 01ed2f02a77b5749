import Verif.Base.Map
import Verif.Base.Res

/-!
# The peer address file: `client/src/peer.rs`, `KnownAddress` of `common/src/p2p/peer.rs`, peers in `load` of `client/src/client.rs`

Strings are lists of bytes.  The JSON text format (crate `microserde`) and the text forms of addresses (standard library) are parameters; what is assumed
about them is in `Text.Sound` (Spec.lean).  JSON values are modelled as deep as the code looks: an object of objects of scalars; anything else is `other`.
Objects are `BTreeMap`s: lists sorted by key.  Times are milliseconds.  Errors of the file system other than a missing file are not modelled.
-/

set_option autoImplicit false

namespace Verif.PeerStore

/-- A string: its bytes. -/
abbrev Str := List Nat

/-- "address".  (common/src/p2p/peer.rs:239) -/
def kAddress : Str := [97, 100, 100, 114, 101, 115, 115]
/-- "services".  (common/src/p2p/peer.rs:240) -/
def kServices : Str := [115, 101, 114, 118, 105, 99, 101, 115]
/-- "last_success".  (common/src/p2p/peer.rs:242) -/
def kSuccess : Str := [108, 97, 115, 116, 95, 115, 117, 99, 99, 101, 115, 115]
/-- "last_attempt".  (common/src/p2p/peer.rs:249) -/
def kAttempt : Str := [108, 97, 115, 116, 95, 97, 116, 116, 101, 109, 112, 116]
/-- "last_sampled".  (common/src/p2p/peer.rs:256) -/
def kSampled : Str := [108, 97, 115, 116, 95, 115, 97, 109, 112, 108, 101, 100]
/-- "last_active".  (common/src/p2p/peer.rs:263) -/
def kActive : Str := [108, 97, 115, 116, 95, 97, 99, 116, 105, 118, 101]
/-- "source".  (common/src/p2p/peer.rs:270) -/
def kSource : Str := [115, 111, 117, 114, 99, 101]
/-- "dns".  (common/src/p2p/peer.rs:272) -/
def sDns : Str := [100, 110, 115]
/-- "imported".  (common/src/p2p/peer.rs:273) -/
def sImported : Str := [105, 109, 112, 111, 114, 116, 101, 100]

/-- `net::IpAddr`. -/
inductive Ip where
  | v4 (n : Nat)
  | v6 (n : Nat)
  deriving DecidableEq, Repr

/-- `net::SocketAddr`; version 6 with flow information and scope id. -/
inductive Sock where
  | v4 (ip port : Nat)
  | v6 (ip port flow scope : Nat)
  deriving DecidableEq, Repr

/-- `SocketAddr::ip`. -/
def Sock.ip : Sock → Ip
  | .v4 ip _ => .v4 ip
  | .v6 ip _ _ _ => .v6 ip

/-- `bitcoin::network::Address`: services, sixteen bytes of address, port. -/
structure NetAddr where
  services : Nat
  address : Nat
  port : Nat
  deriving DecidableEq, Repr

/-- `Address::new` of the bitcoin crate; version 4 addresses are mapped to ::ffff:a.b.c.d. -/
def NetAddr.new (s : Sock) (services : Nat) : NetAddr :=
  match s with
  | .v4 ip port => ⟨services, 0xffff * 2 ^ 32 + ip, port⟩
  | .v6 ip port _ _ => ⟨services, ip, port⟩

/-- `Source` (common/src/p2p/peer.rs:178-186). -/
inductive Source where
  | peer (a : Sock)
  | dns
  | imported
  deriving DecidableEq, Repr

/-- `KnownAddress` (common/src/p2p/peer.rs:200-213). -/
structure Known where
  addr : NetAddr
  source : Source
  lastSuccess : Option Nat
  lastSampled : Option Nat
  lastAttempt : Option Nat
  lastActive : Option Nat
  deriving DecidableEq, Repr

/-- `KnownAddress::new` (common/src/p2p/peer.rs:217-226). -/
def Known.new (addr : NetAddr) (source : Source) (lastActive : Option Nat) : Known := ⟨addr, source, none, none, none, lastActive⟩

/-- Values that are not objects; numbers are `Number::U64`. -/
inductive Scalar where
  | null
  | num (n : Nat)
  | str (s : Str)
  | other
  deriving DecidableEq, Repr

/-- A value in the object at the top. -/
inductive Value where
  | scalar (s : Scalar)
  | obj (fields : List (Str × Scalar))
  deriving DecidableEq, Repr

/-- The value at the top. -/
inductive Doc where
  | scalar (s : Scalar)
  | obj (fields : List (Str × Value))
  deriving DecidableEq, Repr

/-- Text formats: `json::to_string`, `json::from_str` (`none`: an error), `IpAddr::to_string`, `IpAddr::from_str`, `SocketAddr::to_string`, `SocketAddr::from_str`. -/
structure Text where
  json : Doc → Str
  parseJson : Str → Option Doc
  ip : Ip → Str
  parseIp : Str → Option Ip
  sock : Sock → Str
  parseSock : Str → Option Sock

/-- Errors: `InvalidData`, and seeds that cannot be resolved. -/
inductive Err where
  | invalidData
  | unresolved
  deriving DecidableEq, Repr

/-- Byte order of strings. -/
def strLt (a b : Str) : Bool := decide (a < b)

/-! ## `KnownAddress::to_json` and `from_json` -/

/-- `LocalTime::block_time` (common/src/block/time.rs:121-123): `as_secs` panics if there are more than 2^64 seconds (net/src/time.rs:44-46). -/
def blockTime (t : Nat) : Res Err Nat := if t / 1000 < 2 ^ 64 then .ok (t / 1000 % 2 ^ 32) else .panic

/-- `LocalTime::from_block_time (n as u32)` (common/src/block/time.rs:129-131). -/
def fromBlockTime (n : Nat) : Nat := n % 2 ^ 32 * 1000

/-- A time as a JSON value (common/src/p2p/peer.rs:243-246, 250-253, 257-260, 264-267). -/
def timeJson : Option Nat → Res Err Scalar
  | none => .ok .null
  | some t => do
    let n ← blockTime t
    .ok (.num n)

/-- A source as a JSON value (common/src/p2p/peer.rs:271-275). -/
def sourceJson (x : Text) : Source → Scalar
  | .dns => .str sDns
  | .imported => .str sImported
  | .peer a => .str (x.sock a)

/-- `to_json` (common/src/p2p/peer.rs:229-279). -/
def Known.toJson (x : Text) (k : Known) : Res Err Value := do
  let success ← timeJson k.lastSuccess
  let attempt ← timeJson k.lastAttempt
  let sampled ← timeJson k.lastSampled
  let active ← timeJson k.lastActive
  let fields := sinsert strLt kAddress (.str (x.sock (.v6 k.addr.address k.addr.port 0 0))) []
  let fields := sinsert strLt kServices (.num k.addr.services) fields
  let fields := sinsert strLt kSuccess success fields
  let fields := sinsert strLt kAttempt attempt fields
  let fields := sinsert strLt kSampled sampled fields
  let fields := sinsert strLt kActive active fields
  let fields := sinsert strLt kSource (sourceJson x k.source) fields
  .ok (.obj fields)

/-- A time from a JSON value (common/src/p2p/peer.rs:298-303, 304-309, 310-315, 316-321). -/
def timeFrom : Option Scalar → Res Err (Option Nat)
  | none => .ok none
  | some .null => .ok none
  | some (.num n) => .ok (some (fromBlockTime n))
  | some _ => .err .invalidData

/-- The address (common/src/p2p/peer.rs:290-293): a string that is no address is a panic. -/
def addressFrom (x : Text) : Option Scalar → Res Err Sock
  | some (.str s) => Res.unwrap (x.parseSock s)
  | _ => .err .invalidData

/-- The services (common/src/p2p/peer.rs:294-297). -/
def servicesFrom : Option Scalar → Res Err Nat
  | some (.num n) => .ok n
  | _ => .err .invalidData

/-- The source (common/src/p2p/peer.rs:322-336). -/
def sourceFrom (x : Text) : Option Scalar → Res Err Source
  | some (.str s) =>
    if s = sDns then .ok .dns
    else if s = sImported then .ok .imported
    else match x.parseSock s with
      | some a => .ok (.peer a)
      | none => .err .invalidData
  | _ => .err .invalidData

/-- `from_json` (common/src/p2p/peer.rs:282-346). -/
def Known.fromJson (x : Text) : Value → Res Err Known
  | .scalar _ => .err .invalidData
  | .obj fields => do
    let addr ← addressFrom x (AMap.get fields kAddress)
    let services ← servicesFrom (AMap.get fields kServices)
    let success ← timeFrom (AMap.get fields kSuccess)
    let attempt ← timeFrom (AMap.get fields kAttempt)
    let sampled ← timeFrom (AMap.get fields kSampled)
    let active ← timeFrom (AMap.get fields kActive)
    let source ← sourceFrom x (AMap.get fields kSource)
    .ok ⟨NetAddr.new addr services, source, success, sampled, attempt, active⟩

/-! ## `Cache` -/

/-- `Cache::addrs` (client/src/peer.rs:11): a hash map. -/
abbrev Cache := AMap Ip Known

/-- The map that is collected in `flush` (client/src/peer.rs:105-109); the list is the hash map in the order of its iteration. -/
def entries (x : Text) : Cache → List (Str × Value) → Res Err (List (Str × Value))
  | [], m => .ok m
  | (ip, k) :: c, m => do
    let v ← k.toJson x
    entries x c (sinsert strLt (x.ip ip) v m)

/-- What `flush` writes to the emptied file (client/src/peer.rs:101-119). -/
def Cache.text (x : Text) (c : Cache) : Res Err Str := do
  let m ← entries x c []
  .ok (x.json (.obj m) ++ [10])

/-- The loop of `Cache::from` (client/src/peer.rs:55-62). -/
def loadAll (x : Text) : List (Str × Value) → Cache → Res Err Cache
  | [], c => .ok c
  | (k, v) :: m, c => do
    let ka ← Known.fromJson x v
    match x.parseIp k with
    | none => .err .invalidData
    | some ip => loadAll x m (AMap.insert c ip ka)

/-- `Cache::from` (client/src/peer.rs:39-69). -/
def Cache.load (x : Text) (s : Str) : Res Err Cache :=
  if s = [] then .ok []
  else match x.parseJson s with
    | none => .err .invalidData
    | some (.obj m) => loadAll x m []
    | some (.scalar _) => .err .invalidData

/-- `Store::insert` (common/src/p2p/peer.rs:104-114): known addresses stay. -/
def Cache.add (c : Cache) (ip : Ip) (k : Known) : Cache := if c.contains ip then c else c.insert ip k

/-- The addresses of one seed (common/src/p2p/peer.rs:56-65). -/
def addAll (source : Source) : List Sock → Cache → Cache
  | [], c => c
  | a :: l, c => addAll source l (c.add a.ip (.new (NetAddr.new a 0) source none))

/-- The loop of `Store::seed` (common/src/p2p/peer.rs:52-69) over the answers to the queries (`none`: an error): the book, whether one succeeded, whether one
failed. -/
def seedAll (source : Source) : List (Option (List Sock)) → Cache × Bool × Bool → Cache × Bool × Bool
  | [], r => r
  | some l :: q, (c, _, e) => seedAll source q (addAll source l c, true, e)
  | none :: q, (c, s, _) => seedAll source q (c, s, true)

/-- `Store::seed` (common/src/p2p/peer.rs:44-81). -/
def Cache.seed (c : Cache) (source : Source) (answers : List (Option (List Sock))) : Res Err Cache :=
  let (c, success, error) := seedAll source answers (c, false, false)
  if success then .ok c else if error then .err .unresolved else .ok c

/-- Result of loading the peers at the start of the client: the file afterwards and the book, or an error. -/
structure Started where
  file : Option Str
  result : Res Err Cache
  deriving DecidableEq

/-- The peers in `load` (client/src/client.rs:342-380): given the file, whether peers to connect to are configured, and the answers of the DNS seeds. -/
def start (x : Text) (file : Option Str) (connect : Bool) (answers : List (Option (List Sock))) : Started :=
  match (match file with | none => Res.ok ([] : Cache) | some s => Cache.load x s) with
  | .ok c =>
    let file := some (file.getD [])
    if !connect && c.isEmpty then
      match Cache.seed c .dns answers with
      | .ok c =>
        match Cache.text x c with
        | .ok s => ⟨some s, .ok c⟩
        | .err e => ⟨file, .err e⟩
        | .panic => ⟨file, .panic⟩
      | .err e => ⟨file, .err e⟩
      | .panic => ⟨file, .panic⟩
    else ⟨file, .ok c⟩
  | .err e => ⟨file, .err e⟩
  | .panic => ⟨file, .panic⟩

end Verif.PeerStore
