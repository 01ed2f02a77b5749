import Verif.Base.Res

/-!
# Header stores: the file store, the in-memory store and the record codecs

Models `/repo/chain/src/block/store/io.rs`, `/repo/chain/src/block/store/memory.rs`, the codec of
`/repo/chain/src/filter/cache.rs: StoredHeader` and the store part of `/repo/client/src/client.rs: load`.

A file is its byte content.  What is trusted about the operating system: `seek`+`read`/`write` in append mode, `set_len`
and `metadata().len()` act on the byte content as usual; `set_len` is atomic; a crash of the process leaves a byte prefix
of what an interrupted append would have written.  (Power failures that re-order unsynced writes are not modelled.)
-/

set_option autoImplicit false

namespace Verif.Store

/-- A byte. -/
abbrev Byte := UInt8

/-- `common/src/block/store.rs: Error` (common/src/block/store.rs:16-34): the I/O kinds that the stores tell apart. -/
inductive Error where
  | unexpectedEof
  | invalidInput
  | decoding
  | corruption
  deriving DecidableEq, Repr

/-- `Encodable + Decodable` together with `mem::size_of` of the record type. -/
structure Codec (H : Type) where
  /-- `mem::size_of::<H>()` -/
  size : Nat
  /-- `consensus_encode` -/
  enc : H → List Byte
  /-- `consensus_decode` on a buffer -/
  dec : List Byte → Option H

variable {H : Type}

/-- The content of the file: `fs::File`. -/
abbrev Bytes := List Byte

/-- `io.rs: File` (chain/src/block/store/io.rs:133-136): the file content and the genesis header; `checked` tells whether integer overflow panics
(debug build) or wraps (release build). -/
structure FileStore (H : Type) where
  bytes : Bytes
  genesis : H
  deriving DecidableEq, Repr

/-- `u64` multiplication: panics (debug) or wraps (release). -/
def mulU64 (checked : Bool) (a b : Nat) : Res Error Nat :=
  if a * b < 2 ^ 64 then .ok (a * b)
  else if checked then .panic
  else .ok (a * b % 2 ^ 64)

/-- `seek(SeekFrom::Start(off))`: offsets beyond `i64::MAX` are refused by the system. -/
def seekStart (off : Nat) : Res Error Nat :=
  if off < 2 ^ 63 then .ok off else .err .invalidInput

/-- `set_len(n)`: truncates or extends with zero bytes; lengths beyond `i64::MAX` are refused. -/
def setLen (b : Bytes) (n : Nat) : Res Error Bytes :=
  if n < 2 ^ 63 then .ok (b.take n ++ List.replicate (n - b.length) 0) else .err .invalidInput

/-- `io.rs: put` (chain/src/block/store/io.rs:15-26), all writes succeeding: every header is appended; the result is the final position divided by
the record size. -/
def filePut (c : Codec H) (s : FileStore H) (hs : List H) : Nat × FileStore H :=
  let out := hs.flatMap c.enc
  let pos := s.bytes.length + out.length
  (pos / c.size, { s with bytes := s.bytes ++ out })

/-- `io.rs: put` (chain/src/block/store/io.rs:15-26) when the disk accepts only `budget` more bytes: the write fails and what was accepted remains in
the file. -/
def filePutBudget (c : Codec H) (s : FileStore H) (hs : List H) (budget : Nat) : Option Nat × FileStore H :=
  let out := hs.flatMap c.enc
  if out.length ≤ budget then (some (filePut c s hs).1, (filePut c s hs).2)
  else (none, { s with bytes := s.bytes ++ out.take budget })

/-- `io.rs: get` (chain/src/block/store/io.rs:29-37): seek to the record and `read_exact` it. -/
def readRecord (c : Codec H) (checked : Bool) (b : Bytes) (ix : Nat) : Res Error H :=
  mulU64 checked ix c.size >>= fun off =>
  seekStart off >>= fun off =>
  if off + c.size ≤ b.length then
    match c.dec ((b.drop off).take c.size) with
    | some h => .ok h
    | none => .err .decoding
  else .err .unexpectedEof

/-- `io.rs: File::get` (chain/src/block/store/io.rs:176-184). -/
def fileGet (c : Codec H) (checked : Bool) (s : FileStore H) (height : Nat) : Res Error H :=
  match height with
  | 0 => .ok s.genesis
  | ix + 1 => readRecord c checked s.bytes ix

/-- `io.rs: File::rollback` (chain/src/block/store/io.rs:188-194). -/
def fileRollback (c : Codec H) (checked : Bool) (s : FileStore H) (height : Nat) : Res Error (FileStore H) :=
  mulU64 checked height c.size >>= fun n =>
  setLen s.bytes n >>= fun b =>
  .ok { s with bytes := b }

/-- `io.rs: File::len` (chain/src/block/store/io.rs:211-222). -/
def fileLen (c : Codec H) (s : FileStore H) : Res Error Nat :=
  if s.bytes.length % c.size ≠ 0 then .err .corruption else .ok (s.bytes.length / c.size + 1)

/-- `io.rs: File::height` (chain/src/block/store/io.rs:225-227). -/
def fileHeight (c : Codec H) (s : FileStore H) : Res Error Nat :=
  fileLen c s >>= fun n => .ok (n - 1)

/-- `io.rs: File::check` (chain/src/block/store/io.rs:230-232). -/
def fileCheck (c : Codec H) (s : FileStore H) : Res Error Unit :=
  fileLen c s >>= fun _ => .ok ()

/-- `io.rs: File::heal` (chain/src/block/store/io.rs:235-248). -/
def fileHeal (c : Codec H) (s : FileStore H) : Res Error (FileStore H) :=
  let extraneous := s.bytes.length % c.size
  if extraneous ≠ 0 then
    setLen s.bytes (s.bytes.length - extraneous) >>= fun b => .ok { s with bytes := b }
  else .ok s

/-- `io.rs: FileReader` (chain/src/block/store/io.rs:41-45) and `Iter` (93-96), together with the `iter::once(genesis)` in front of it
(`File::iter`, 202-208): `started` is set once the genesis has been yielded. -/
structure Iter (H : Type) where
  started : Bool
  queue : List H
  index : Nat
  height : Nat
  deriving DecidableEq, Repr

/-- `FileReader::BATCH_SIZE` (chain/src/block/store/io.rs:48). -/
def batchSize : Nat := 16

/-- The buffer read by `FileReader::next` (chain/src/block/store/io.rs:62-73).  `read_exact` into a zeroed buffer of `want` bytes; on an unexpected
end of file the standard library has filled the front of the buffer with the bytes that were available (its documentation
leaves the content unspecified; this model follows the implementation), `read_to_end` then *appends* the available bytes
after the `want` bytes and `truncate(n)` keeps the first `n`. -/
def readBatch (b : Bytes) (index want : Nat) : Bytes :=
  let avail := b.drop index
  if want ≤ avail.length then avail.take want
  else
    let buf := avail ++ List.replicate (want - avail.length) 0
    let buf := buf ++ avail
    buf.take avail.length

/-- Lines 80-85: decode `items` records one after the other; the records decoded before a failure are already queued.  (chain/src/block/store/io.rs:80-85) -/
def decodeItems (c : Codec H) : Nat → Bytes → List H × Bool
  | 0, _ => ([], true)
  | n + 1, b =>
    match c.dec (b.take c.size) with
    | none => ([], false)
    | some h =>
      let (q, ok) := decodeItems c n (b.drop c.size)
      (h :: q, ok)

/-- `io.rs: FileReader::next` (chain/src/block/store/io.rs:58-88). -/
def readerNext (c : Codec H) (b : Bytes) (it : Iter H) : Res Error (Option H) × Iter H :=
  match it.queue with
  | h :: q => (.ok (some h), { it with queue := q })
  | [] =>
    let buf := readBatch b it.index (c.size * batchSize)
    let it := { it with index := it.index + buf.length }
    let (q, ok) := decodeItems c (buf.length / c.size) buf
    if ok then
      match q with
      | h :: q => (.ok (some h), { it with queue := q })
      | [] => (.ok none, { it with queue := [] })
    else (.err .decoding, { it with queue := q })

/-- One call of `next` on the iterator returned by `File::iter` (chain/src/block/store/io.rs:107-129, 202-208). -/
def iterNext (c : Codec H) (s : FileStore H) (it : Iter H) : Option (Res Error (Nat × H)) × Iter H :=
  if it.started = false then (some (.ok (0, s.genesis)), { it with started := true })
  else
    match readerNext c s.bytes it with
    | (.err .unexpectedEof, it') => (none, it')
    | (.err e, it') => (some (.err e), it')
    | (.panic, it') => (some .panic, it')
    | (.ok (some h), it') => (some (.ok (it.height, h)), { it' with height := it.height + 1 })
    | (.ok none, it') => (none, it')

/-- `File::iter` (chain/src/block/store/io.rs:202-208), `Iter::new` (99-104), `FileReader::new` (50-56). -/
def fileIter : Iter H := { started := false, queue := [], index := 0, height := 1 }

/-- `memory.rs: Memory` (chain/src/block/store/memory.rs:10): a non-empty list. -/
structure MemStore (H : Type) where
  head : H
  tail : List H
  deriving DecidableEq, Repr

/-- `memory.rs: put` (chain/src/block/store/memory.rs:41-44). -/
def memPut (s : MemStore H) (hs : List H) : Nat × MemStore H :=
  let s := { s with tail := s.tail ++ hs }
  (s.tail.length + 1 - 1, s)

/-- `memory.rs: get` (chain/src/block/store/memory.rs:47-55); `NonEmpty::get`. -/
def memGet (s : MemStore H) (height : Nat) : Res Error H :=
  match (s.head :: s.tail)[height]? with
  | some h => .ok h
  | none => .err .unexpectedEof

/-- `memory.rs: rollback` (chain/src/block/store/memory.rs:58-64). -/
def memRollback (s : MemStore H) (height : Nat) : MemStore H :=
  if height = 0 then { s with tail := [] } else { s with tail := s.tail.take height }

/-- `memory.rs: iter` (chain/src/block/store/memory.rs:72-80). -/
def memIter (s : MemStore H) : List (Nat × H) :=
  (s.head :: s.tail).zipIdx.map (fun p => (p.2, p.1))

/-- `memory.rs: len` (chain/src/block/store/memory.rs:83-85). -/
def memLen (s : MemStore H) : Res Error Nat := .ok (s.tail.length + 1)

/-- `memory.rs: height` (chain/src/block/store/memory.rs:88-90). -/
def memHeight (s : MemStore H) : Res Error Nat := .ok (s.tail.length + 1 - 1)

/-- `client/src/client.rs: load` (chain/src/block/store/io.rs:247-299, 303-325): an existing store file is opened, and healed if `check` fails. -/
def openExisting (c : Codec H) (genesis : H) (b : Bytes) : Res Error (FileStore H) :=
  let s : FileStore H := ⟨b, genesis⟩
  match fileCheck c s with
  | .ok _ => .ok s
  | .err _ => fileHeal c s
  | .panic => .panic

/-! ## Record codecs -/

/-- Little-endian bytes of an integer (`consensus_encode` of `u32`/`i32`; a 32-byte hash is written as it is, which we
represent by the number whose little-endian bytes it is). -/
def leBytes : Nat → Nat → Bytes
  | 0, _ => []
  | k + 1, n => UInt8.ofNat (n % 256) :: leBytes k (n / 256)

/-- The number with the given little-endian bytes. -/
def leNat : Bytes → Nat
  | [] => 0
  | b :: bs => b.toNat + 256 * leNat bs

/-- Read `k` bytes from a reader (`read_exact`; `None` at the end of input). -/
def readLE (k : Nat) (b : Bytes) : Option (Nat × Bytes) :=
  if k ≤ b.length then some (leNat (b.take k), b.drop k) else none

/-- `bitcoin::BlockHeader`: version, previous hash, merkle root, time, bits, nonce.  (Field order of the consensus
encoding, `rust-bitcoin 0.29 blockdata/block.rs: impl_consensus_encoding!(BlockHeader, …)`; the 80-byte layout is fixed by the
Bitcoin protocol.) -/
structure BlockHeader where
  version : BitVec 32
  prev : BitVec 256
  merkle : BitVec 256
  time : BitVec 32
  bits : BitVec 32
  nonce : BitVec 32
  deriving DecidableEq, Repr

/-- `BlockHeader::consensus_encode`. -/
def encHeader (h : BlockHeader) : Bytes :=
  leBytes 4 h.version.toNat ++ leBytes 32 h.prev.toNat ++ leBytes 32 h.merkle.toNat ++
    leBytes 4 h.time.toNat ++ leBytes 4 h.bits.toNat ++ leBytes 4 h.nonce.toNat

/-- `BlockHeader::consensus_decode`. -/
def decHeader (b : Bytes) : Option BlockHeader := do
  let (v, b) ← readLE 4 b
  let (p, b) ← readLE 32 b
  let (m, b) ← readLE 32 b
  let (t, b) ← readLE 4 b
  let (bi, b) ← readLE 4 b
  let (n, _) ← readLE 4 b
  some ⟨.ofNat _ v, .ofNat _ p, .ofNat _ m, .ofNat _ t, .ofNat _ bi, .ofNat _ n⟩

/-- `mem::size_of::<BlockHeader>()` = 80: six fields without padding. -/
def headerCodec : Codec BlockHeader := ⟨80, encHeader, decHeader⟩

/-- `filter/cache.rs: StoredHeader` (chain/src/block/store/io.rs:24-27). -/
structure StoredHeader where
  hash : BitVec 256
  header : BitVec 256
  deriving DecidableEq, Repr

/-- `StoredHeader::consensus_encode` (chain/src/block/store/io.rs:38-47). -/
def encStored (h : StoredHeader) : Bytes := leBytes 32 h.hash.toNat ++ leBytes 32 h.header.toNat

/-- `StoredHeader::consensus_decode` (chain/src/block/store/io.rs:49-56). -/
def decStored (b : Bytes) : Option StoredHeader := do
  let (hash, b) ← readLE 32 b
  let (header, _) ← readLE 32 b
  some ⟨.ofNat _ hash, .ofNat _ header⟩

/-- `mem::size_of::<StoredHeader>()` = 64.  (chain/src/filter/cache.rs:24-56) -/
def storedCodec : Codec StoredHeader := ⟨64, encStored, decStored⟩

end Verif.Store
