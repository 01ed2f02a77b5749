import Mathlib.Data.List.Sort
import Mathlib.Data.List.Dedup
import Verif.Cbf.Model
import Verif.Chain.Networks
import Verif.Tx.Model

/-!
# Compact filters (BIP158)

The filter client takes the functions on filters as parameters (`Params`).  Here they are as rust-bitcoin 0.29 computes them (`util/bip158.rs` and `siphash24.rs` of bitcoin_hashes; not part of /repo, written down
from their public source), so that the assumption "a filter matches the scripts of its block" need not be made: `BlockFilter::new_script_filter`, `match_any` and `match_all`, as called in
common/src/block/store.rs:45-69, common/src/block/filter.rs:16-38 and p2p/src/fsm/cbfmgr/rescan.rs:148-176.  Bytes are natural numbers; the arithmetic is that of a release build (it wraps).
-/

set_option autoImplicit false

namespace Verif.Cbf.Gcs
open Verif.Chain.Sha256 (beNat beBytes leBytes sha256)

/-! ## SipHash-2-4 -/

/-- Rotation of a 64-bit word to the left. -/
def rotl (x n : Nat) : Nat := ((x <<< n) % 2 ^ 64) ||| (x >>> (64 - n))

/-- The state. -/
structure V where
  v0 : Nat
  v1 : Nat
  v2 : Nat
  v3 : Nat

/-- One round. -/
def sipRound (s : V) : V :=
  let a0 := (s.v0 + s.v1) % 2 ^ 64
  let a1 := rotl s.v1 13 ^^^ a0
  let a0 := rotl a0 32
  let a2 := (s.v2 + s.v3) % 2 ^ 64
  let a3 := rotl s.v3 16 ^^^ a2
  let b0 := (a0 + a3) % 2 ^ 64
  let b3 := rotl a3 21 ^^^ b0
  let b2 := (a2 + a1) % 2 ^ 64
  let b1 := rotl a1 17 ^^^ b2
  ⟨b0, b1, rotl b2 32, b3⟩

/-- One word of the message. -/
def sipWord (s : V) (m : Nat) : V :=
  let s := sipRound (sipRound { s with v3 := s.v3 ^^^ m })
  { s with v0 := s.v0 ^^^ m }

/-- The words of a message of `len` bytes: eight bytes each, the last one filled up with the length. -/
def sipWords (len : Nat) : List Nat → List Nat
  | a :: b :: c :: d :: e :: f :: g :: h :: l => beNat [h, g, f, e, d, c, b, a] :: sipWords len l
  | l => [len % 256 * 2 ^ 56 + beNat l.reverse]

/-- `siphash24::Hash::hash_to_u64_with_keys`. -/
def sipHash (k : Nat × Nat) (m : List Nat) : Nat :=
  let s : V := ⟨k.1 ^^^ 0x736f6d6570736575, k.2 ^^^ 0x646f72616e646f6d, k.1 ^^^ 0x6c7967656e657261, k.2 ^^^ 0x7465646279746573⟩
  let s := (sipWords m.length m).foldl sipWord s
  let s := sipRound (sipRound (sipRound (sipRound { s with v2 := s.v2 ^^^ 0xff })))
  s.v0 ^^^ s.v1 ^^^ s.v2 ^^^ s.v3

/-! ## Bit streams and numbers -/

/-- The last `n` bits of a number, most significant first. -/
def bits : Nat → Nat → List Bool
  | 0, _ => []
  | n + 1, x => bits n (x / 2) ++ [decide (x % 2 = 1)]

/-- `BitStreamReader`: the bits of the bytes. -/
def toBits (l : List Nat) : List Bool := l.flatMap (bits 8)

/-- The number with the given bits, most significant first. -/
def ofBits (l : List Bool) : Nat := l.foldl (fun x b => 2 * x + b.toNat) 0

/-- `BitStreamWriter`, with `flush`: the bits in bytes, filled up with zeros; `fuel` bounds the number of bytes. -/
def toBytes : Nat → List Bool → List Nat
  | 0, _ => []
  | fuel + 1, l => if l = [] then [] else ofBits ((l ++ List.replicate 7 false).take 8) :: toBytes fuel (l.drop 8)

/-- `GCSFilter::golomb_rice_encode` (`P` = 19). -/
def golombEncode (n : Nat) : List Bool := List.replicate (n / 2 ^ 19) true ++ false :: bits 19 n

/-- The ones up to the first zero. -/
def unary : List Bool → Option (Nat × List Bool)
  | [] => none
  | false :: l => some (0, l)
  | true :: l => (unary l).map fun p => (p.1 + 1, p.2)

/-- `BitStreamReader::read`: a number of `n` bits. -/
def readBits (n : Nat) (l : List Bool) : Option (Nat × List Bool) :=
  if n ≤ l.length then some (ofBits (l.take n), l.drop n) else none

/-- `GCSFilter::golomb_rice_decode`. -/
def golombDecode (l : List Bool) : Option (Nat × List Bool) :=
  match unary l with
  | none => none
  | some (q, l) =>
    match readBits 19 l with
    | none => none
    | some (r, l) => some ((q * 2 ^ 19 + r) % 2 ^ 64, l)

/-- `VarInt::consensus_encode`. -/
def varInt (n : Nat) : List Nat :=
  if n < 0xfd then [n]
  else if n < 2 ^ 16 then 0xfd :: leBytes 2 n
  else if n < 2 ^ 32 then 0xfe :: leBytes 4 n
  else 0xff :: leBytes 8 n

/-- A little-endian number of `n` bytes that is at least `min`. -/
def readLe (n min : Nat) (l : List Nat) : Option (Nat × List Nat) :=
  if n ≤ l.length then
    let x := beNat (l.take n).reverse
    if x < min then none else some (x, l.drop n)
  else none

/-- `VarInt::consensus_decode`. -/
def readVarInt : List Nat → Option (Nat × List Nat)
  | [] => none
  | b :: l =>
    if b = 0xfd then readLe 2 0xfd l
    else if b = 0xfe then readLe 4 (2 ^ 16) l
    else if b = 0xff then readLe 8 (2 ^ 32) l
    else some (b, l)

/-! ## Filters -/

/-- `map_to_range`. -/
def mapToRange (hash nm : Nat) : Nat := hash * nm / 2 ^ 64 % 2 ^ 64

/-- `M`. -/
def paramM : Nat := 784931

/-- The values of the elements, in order (in `GCSFilterWriter::finish` and at the beginning of `match_any`, `match_all`). -/
def values (k : Nat × Nat) (n : Nat) (l : List (List Nat)) : List Nat :=
  (l.map fun e => mapToRange (sipHash k e) (n * paramM % 2 ^ 64)).insertionSort (· ≤ ·)

/-- The differences of ascending numbers, encoded. -/
def deltas (last : Nat) : List Nat → List Bool
  | [] => []
  | d :: l => golombEncode (d - last) ++ deltas d l

/-- `GCSFilterWriter::add_element` for each of the elements (the empty one is left out, the others are kept in a set), and `finish`. -/
def build (k : Nat × Nat) (elements : List (List Nat)) : Filter :=
  let set := (elements.filter (· ≠ [])).dedup
  let b := deltas 0 (values k set.length set)
  varInt set.length ++ toBytes b.length b

/-- Where the inner loop of `match_any` and `match_all` ends for one value. -/
inductive Seek where
  | found (remaining data : Nat) (bits : List Bool)
  | past (remaining data : Nat) (bits : List Bool)
  | ended
  | error

/-- The inner loop: skip the values below `p`. -/
def seek (p : Nat) : Nat → Nat → List Bool → Seek
  | 0, data, b => if data = p then .found 0 data b else if data < p then .ended else .past 0 data b
  | remaining + 1, data, b =>
    if data = p then .found (remaining + 1) data b
    else if data < p then
      match golombDecode b with
      | none => .error
      | some (d, b) => seek p remaining ((data + d) % 2 ^ 64) b
    else .past (remaining + 1) data b

/-- The loop of `match_any`. -/
def anyLoop : List Nat → Nat → Nat → List Bool → Option Bool
  | [], _, _, _ => some false
  | p :: ps, remaining, data, b =>
    match seek p remaining data b with
    | .found _ _ _ => some true
    | .past remaining data b => anyLoop ps remaining data b
    | .ended => some false
    | .error => none

/-- The loop of `match_all`. -/
def allLoop : List Nat → Nat → Nat → List Bool → Option Bool
  | [], _, _, _ => some true
  | p :: ps, remaining, data, b =>
    match seek p remaining data b with
    | .found remaining data b => allLoop ps remaining data b
    | .past _ _ _ => some false
    | .ended => some false
    | .error => none

/-- What `match_any` and `match_all` have in common: read the number of elements (an unreadable one counts as zero) and the first value. -/
def run (loop : List Nat → Nat → Nat → List Bool → Option Bool) (k : Nat × Nat) (f : Filter) (query : List (List Nat)) : Option Bool :=
  let (n, rest) := (readVarInt f).getD (0, f)
  match values k n query with
  | [] => some true
  | ps =>
    if n = 0 then some false
    else
      match golombDecode (toBits rest) with
      | none => none
      | some (data, b) => loop ps (n - 1) data b

/-- `GCSFilterReader::match_any`. -/
def matchAny : Nat × Nat → Filter → List (List Nat) → Option Bool := run anyLoop

/-- `GCSFilterReader::match_all`. -/
def matchAll : Nat × Nat → Filter → List (List Nat) → Option Bool := run allLoop

/-- The keys (`BlockFilterReader::new`, `BlockFilterWriter::new`): the first sixteen bytes of the block hash. -/
def keys (hash : Nat) : Nat × Nat :=
  (beNat ((beBytes 32 hash).take 8).reverse, beNat (((beBytes 32 hash).drop 8).take 8).reverse)

/-- `Script::is_op_return`. -/
def isOpReturn (script : List Nat) : Bool := script.head? = some 0x6a

/-- The elements of a block's filter (`BlockFilterWriter::add_output_scripts`, `add_input_scripts`): the output scripts but those with OP_RETURN, and the scripts of the coins spent, but for the first
transaction.  `scriptBytes` gives the bytes of a script, `coin` the script of a coin (`script_for_coin`). -/
def elements (scriptBytes : Nat → List Nat) (coin : Tx.OutPoint → Nat) (b : Tx.Block) : List (List Nat) :=
  ((b.txs.flatMap fun t => t.outputs.map fun o => scriptBytes o.script).filter fun s => !isOpReturn s) ++
    b.txs.tail.flatMap fun t => t.inputs.map fun k => scriptBytes (coin k)

/-- `BlockFilter::new_script_filter`. -/
def blockFilter (scriptBytes : Nat → List Nat) (coin : Tx.OutPoint → Nat) (b : Tx.Block) : Filter := build (keys b.hash) (elements scriptBytes coin b)

/-! ## The parameters of the filter client -/

/-- Double SHA-256 as a number. -/
def sha256d (l : List Nat) : Nat := beNat (sha256 (sha256 l))

/-- `FilterHash::filter_header`. -/
def filterHeader (hash prev : Nat) : Nat := sha256d (beBytes 32 hash ++ beBytes 32 prev)

/-- The output script of the genesis blocks: a public key and OP_CHECKSIG (`genesis_block` of rust-bitcoin). -/
def genesisScript : List Nat :=
  0x41 :: beBytes 65 0x04678afdb0fe5548271967f1a67130b7105cd6a828e03909a67962e0ea1f61deb649f6bc3f4cef38c4f35504e51ec112de5c384df7ba0b8d578a4c702b6bf11d5f ++ [0xac]

/-- `BlockFilter::genesis` (common/src/block/store.rs:60-69). -/
def genesisFilter (n : Chain.Networks.Network) : Filter := build (keys n.genesisHash) [genesisScript]

/-- The functions on filters the client calls, for a network: `scriptBytes` gives the bytes of a script. -/
def params (scriptBytes : Nat → List Nat) (n : Chain.Networks.Network) (checked : Bool) : Params where
  filterHash := sha256d
  filterHeader := filterHeader
  matchAny := fun f hash w => matchAny (keys hash) f (w.map scriptBytes)
  matchAll := fun f hash w => matchAll (keys hash) f (w.map scriptBytes)
  genHash := sha256d (genesisFilter n)
  genHeader := filterHeader (sha256d (genesisFilter n)) zeroHeader
  checked := checked

end Verif.Cbf.Gcs
