import Mathlib.Data.List.Sort
import Verif.Base.Map
import Verif.Base.Res

/-!
# Model of the block header tree (`chain/src/block/cache.rs`, `common/src/block/tree.rs`)
-/

set_option autoImplicit false

namespace Verif.Chain

/-- A block header: the six fields of rust-bitcoin's `BlockHeader`.  Integers as `Nat`; hashes as `Nat`
(the 32 bytes read as a big-endian number, so that `<` on `Nat` is the lexicographic `Ord` of `BlockHash`). -/
structure Header where
  version : Nat
  prev : Nat
  merkle : Nat
  time : Nat
  bits : Nat
  nonce : Nat
  deriving DecidableEq, Repr, Inhabited

/-- `CachedBlock`, chain/src/block/cache.rs:33-38. -/
structure Blk where
  height : Nat
  header : Header
  deriving DecidableEq, Repr, Inhabited

/-- Consensus parameters (`bitcoin::consensus::Params`), checkpoints, and the functions of rust-bitcoin the code
calls.  The latter are parameters of the model:
* `hash` is `BlockHeader::block_hash`, `hashInt` converts a block hash to the integer compared in `validate_pow`
  (bytes read little-endian);
* `target` is `u256_from_compact_target`, `compact` is `compact_target_from_u256`, `work` is `BlockHeader::work`
  as a function of the bits.
`checked` says whether `u32` overflow panics (debug build) or wraps (release build).  Sums of work are
unbounded naturals (the code uses `Uint256`). -/
structure Cfg where
  hash : Header → Nat
  hashInt : Nat → Nat
  target : Nat → Nat
  compact : Nat → Nat
  work : Nat → Nat
  mainnet : Bool
  allowMin : Bool
  noRetarget : Bool
  powLimit : Nat
  powLimitBits : Nat
  interval : Nat
  timespan : Nat
  spacing : Nat
  genesisHash : Nat
  checkpoints : List (Nat × Nat)
  checked : Bool

/-- `common::block::tree::Error`, tree.rs:18-63 (payloads that only serve messages are dropped). -/
inductive Err where
  | invalidPoW
  | invalidTarget
  | invalidHash (hash height : Nat)
  | invalidHeight (height : Nat)
  | timeTooOld (time : Nat)
  | timeTooNew (time : Nat)
  | duplicate (hash : Nat)
  | missing (hash : Nat)
  | aborted (e : Err) (i height : Nat)
  | genesisMismatch
  | store
  deriving DecidableEq, Repr

/-- `ImportResult`, tree.rs:80-101. -/
inductive ImportResult where
  | tipChanged (header : Header) (hash height : Nat)
      (reverted connected : List (Nat × Header))
  | tipUnchanged
  deriving DecidableEq, Repr

/-- `BlockCache`, cache.rs:72-81: `chain` is a `NonEmpty` (head + tail); the configuration part is in `Cfg`.
`store` is the list of headers held by the persistent store, genesis first. -/
structure State where
  head : Blk
  tail : List Blk
  index : AMap Nat Nat
  orphans : AMap Nat Header
  chainwork : Nat
  store : List Header
  deriving DecidableEq, Repr

/-- What the environment decides during one call: hash-map iteration order over the orphan set, the clock
(`Clock::block_time`), and whether the store's `rollback` / `put` fail. -/
structure Env where
  order : List Nat → List Nat
  clock : Nat
  failRollback : Bool
  failPut : Bool

/-- The iteration order is some permutation of the keys. -/
def Env.Fair (e : Env) : Prop := ∀ l, (e.order l).Perm l

/-- `Candidate`, cache.rs:62-67. -/
structure Candidate where
  tip : Nat
  headers : List Header
  forkHeight : Nat
  forkHeader : Header
  deriving DecidableEq, Repr

/-- `u32` addition. -/
def addU32 (cfg : Cfg) (a b : Nat) : Res Err Nat :=
  if a + b < 2 ^ 32 then .ok (a + b) else if cfg.checked then .panic else .ok ((a + b) % 2 ^ 32)

/-- `u32` subtraction. -/
def subU32 (cfg : Cfg) (a b : Nat) : Res Err Nat :=
  if b ≤ a then .ok (a - b) else if cfg.checked then .panic else .ok (a + 2 ^ 32 - b)

/-- The whole chain as a list, `self.chain.iter()`.  (chain/src/block/cache.rs:73) -/
def State.chain (s : State) : List Blk := s.head :: s.tail

/-- `self.chain.last()` (`NonEmpty::last`: total).  (chain/src/block/cache.rs:73) -/
def State.last (s : State) : Blk := s.tail.getLastD s.head

/-- `height()`, cache.rs:724-726: the stored height of the last cached block. -/
def State.height (s : State) : Nat := s.last.height

/-- `tip()`, cache.rs:690-692. -/
def State.tip (cfg : Cfg) (s : State) : Nat × Header := (cfg.hash s.last.header, s.last.header)

/-- `get_block`, cache.rs:655-660. -/
def State.getBlock (s : State) (hash : Nat) : Option (Nat × Header) :=
  match s.index.get hash with
  | none => none
  | some h => (s.chain[h]?).map (fun b => (b.height, b.header))

/-- `get_block_by_height`, cache.rs:663-665. -/
def State.getByHeight (s : State) (h : Nat) : Option Header := (s.chain[h]?).map (·.header)

/-- `contains`, cache.rs:751-753. -/
def State.contains (s : State) (hash : Nat) : Bool := s.index.contains hash

/-- `is_known`, cache.rs:746-748. -/
def State.isKnown (s : State) (hash : Nat) : Bool := s.index.contains hash || s.orphans.contains hash

/-- `chain_work`, cache.rs:695-697. -/
def State.chainWork (s : State) : Nat := s.chainwork

/-- `range(start..end)` on the chain, cache.rs:180-190 (panics when `start > end`). -/
def State.range (s : State) (a b : Nat) : Res Err (List Blk) :=
  if a ≤ b then .ok ((s.chain.drop a).take (b - a)) else .panic

/-- `iter()`, cache.rs:705-707 with common/src/block/iter.rs:15-73: blocks with their position. -/
def State.iter (s : State) : List (Nat × Header) :=
  s.chain.zipIdx.map (fun p => (p.2, p.1.header))

/-- `last_checkpoint`, cache.rs:729-738.  The checkpoint map is a `BTreeMap`: `cfg.checkpoints` is listed in ascending
height order. -/
def State.lastCheckpoint (cfg : Cfg) (s : State) : Nat :=
  ((cfg.checkpoints.reverse.map (·.1)).find? (· ≤ s.height)).getD 0

/-- `MEDIAN_TIME_SPAN`, common/src/block/time.rs. -/
def medianTimeSpan : Nat := 11

/-- `MAX_FUTURE_BLOCK_TIME`, common/src/block/time.rs (two hours). -/
def maxFutureBlockTime : Nat := 60 * 60 * 2

/-- `median_time_past`, cache.rs:198-215: an eleven-slot zero-filled array receives the times of the blocks in
`range(start..end)`, the first `end - start` slots are sorted and the middle one is returned. -/
def medianTimePast (s : State) (height : Nat) : Res Err Nat := do
  Res.assert (height != 0)
  let start := height - medianTimeSpan
  let blks ← s.range start height
  let avail := height - start
  let times := (blks.map (·.header.time)) ++ List.replicate (medianTimeSpan - blks.length) 0
  let sorted := (times.take avail).insertionSort (· ≤ ·)
  Res.unwrap (sorted[avail / 2]?)

/-- `BlockHeader::validate_pow` of rust-bitcoin 0.29 against a required target. -/
inductive PowResult where | good | badTarget | badPow
  deriving DecidableEq, Repr

/-- See `PowResult`. -/
def validatePow (cfg : Cfg) (h : Header) (required : Nat) : PowResult :=
  if cfg.target h.bits ≠ required then .badTarget
  else if cfg.hashInt (cfg.hash h) ≤ cfg.target h.bits then .good
  else .badPow

/-- `next_difficulty_target`, common/src/block/tree.rs:204-248. -/
def nextDifficultyTarget (cfg : Cfg) (s : State) (lastHeight lastTime lastTarget : Nat) : Res Err Nat :=
  if (lastHeight + 1) % cfg.interval ≠ 0 then .ok (cfg.compact lastTarget)
  else
    let adjHeight := lastHeight - (cfg.interval - 1)
    let adjBlock := (s.getByHeight adjHeight).getD s.head.header
    if cfg.noRetarget then .ok adjBlock.bits
    else do
      let actual ← subU32 cfg lastTime adjBlock.time
      let adjusted :=
        if actual < cfg.timespan / 4 then cfg.timespan / 4
        else if actual > cfg.timespan * 4 then cfg.timespan * 4
        else actual
      let target := lastTarget * adjusted / cfg.timespan
      let target := if target > cfg.powLimit then cfg.powLimit else target
      .ok (cfg.compact target)

/-- `next_min_difficulty_target`, cache.rs:498-511. -/
def nextMinDifficultyTarget (cfg : Cfg) (s : State) : Res Err Nat := do
  Res.assert cfg.allowMin
  match s.iter.reverse.find? (fun p => p.2.bits != cfg.powLimitBits || p.1 % cfg.interval == 0) with
  | some p => .ok p.2.bits
  | none => .ok cfg.powLimitBits

/-- The compact target required for a header on top of `tip`, first half of `validate`, cache.rs:446-460. -/
def requiredBits (cfg : Cfg) (s : State) (tip : Blk) (h : Header) : Res Err Nat :=
  if cfg.allowMin && (tip.height + 1) % cfg.interval != 0 then do
    let limit ← addU32 cfg tip.header.time (cfg.spacing * 2)
    if h.time > limit then .ok cfg.powLimitBits else nextMinDifficultyTarget cfg s
  else nextDifficultyTarget cfg s tip.height tip.header.time (cfg.target tip.header.bits)

/-- `validate`, cache.rs:440-495. -/
def validate (cfg : Cfg) (clock : Nat) (s : State) (tip : Blk) (h : Header) : Res Err Unit := do
  Res.assert (cfg.hash tip.header == h.prev)
  let bits ← requiredBits cfg s tip h
  match validatePow cfg h (cfg.target bits) with
  | .badPow => .err .invalidPoW
  | .badTarget => .err .invalidTarget
  | .good => do
    let height := tip.height + 1
    match AMap.get cfg.checkpoints height with
    | some cp => if cfg.hash h ≠ cp then .err (.invalidHash (cfg.hash h) height) else pure ()
    | none => pure ()
    let mtp ← medianTimePast s height
    if h.time ≤ mtp then .err (.timeTooOld h.time)
    else do
      let future ← addU32 cfg clock maxFutureBlockTime
      if h.time > future then .err (.timeTooNew h.time) else pure ()

/-- The loop of `validate_branch`, cache.rs:428-435. -/
def validateHeaders (cfg : Cfg) (clock : Nat) (s : State) : Blk → List Header → Res Err Unit
  | _, [] => .ok ()
  | tip, h :: hs => do
    validate cfg clock s tip h
    validateHeaders cfg clock s ⟨tip.height + 1, h⟩ hs

/-- `validate_branch`, cache.rs:422-437. -/
def validateBranch (cfg : Cfg) (clock : Nat) (s : State) (c : Candidate) : Res Err Unit :=
  validateHeaders cfg clock s ⟨c.forkHeight, c.forkHeader⟩ c.headers

/-- The `while let` loop of `fork`, cache.rs:403-406.  The loop is unbounded in the code; the model gives it fuel equal
to the number of orphans (+1 for the final failing lookup) and panics if that is not enough, which means the
walk revisits an orphan and the code does not terminate. -/
def walk (o : AMap Nat Header) : Nat → Nat → List Header → Res Err (Nat × List Header)
  | 0, _, _ => .panic
  | n + 1, cursor, acc =>
    match o.get cursor with
    | none => .ok (cursor, acc)
    | some h => walk o n h.prev (h :: acc)

/-- `fork`, cache.rs:392-419. -/
def fork (s : State) (tip : Nat) : Res Err (Option Candidate) := do
  Res.assert (!(s.index.contains tip))
  let r ← walk s.orphans (s.orphans.length + 1) tip []
  match s.getBlock r.1 with
  | some (fh, fhdr) => do
    Res.assert (!r.2.isEmpty)
    .ok (some ⟨tip, r.2, fh, fhdr⟩)
  | none => .ok none

/-- The loop of `chain_candidates`, cache.rs:375-381. -/
def candidatesLoop (cfg : Cfg) (clock : Nat) (s : State) : List Nat → Res Err (List Candidate)
  | [] => .ok []
  | tip :: tips => do
    match ← fork s tip with
    | none => candidatesLoop cfg clock s tips
    | some c =>
      match validateBranch cfg clock s c with
      | .panic => .panic
      | .err _ => candidatesLoop cfg clock s tips
      | .ok () => do
        let rest ← candidatesLoop cfg clock s tips
        .ok (c :: rest)

/-- `chain_candidates`, cache.rs:372-383. -/
def chainCandidates (cfg : Cfg) (e : Env) (s : State) : Res Err (List Candidate) :=
  candidatesLoop cfg e.clock s (e.order s.orphans.keys)

/-- `Branch::work`, tree.rs:109-115. -/
def branchWork (cfg : Cfg) (hs : List Header) : Nat := (hs.map (fun h => cfg.work h.bits)).sum

/-- `chain_suffix`, cache.rs:556-558 (slice index panics beyond the end). -/
def State.suffix (s : State) (height : Nat) : Res Err (List Blk) :=
  if height ≤ s.tail.length then .ok (s.tail.drop height) else .panic

/-- Best branch so far: `best_branch`, `best_hash`, `best_work`. -/
structure Best where
  branch : Option Candidate
  hash : Nat
  work : Nat
  deriving DecidableEq, Repr

/-- One iteration of the selection loop, cache.rs:293-322. -/
def selectStep (cfg : Cfg) (s : State) (b : Best) (c : Candidate) : Res Err Best := do
  let candidateWork := branchWork cfg c.headers
  let suffix ← s.suffix c.forkHeight
  let lost := branchWork cfg (suffix.map (·.header))
  if candidateWork < lost then .ok b
  else
    let added := candidateWork - lost
    if added > b.work then .ok ⟨some c, c.tip, added⟩
    else if !cfg.mainnet then
      if added = b.work then
        if c.tip < b.hash then .ok ⟨some c, c.tip, b.work⟩ else .ok b
      else .ok b
    else .ok b

/-- The selection loop, cache.rs:289-322. -/
def selectLoop (cfg : Cfg) (s : State) : Best → List Candidate → Res Err Best
  | b, [] => .ok b
  | b, c :: cs => do
    let b' ← selectStep cfg s b c
    selectLoop cfg s b' cs

/-- The loop of `rollback`, cache.rs:517-523, over the drained blocks; `h` is the counter `height + 1..`. -/
def rollbackLoop (cfg : Cfg) : State → Nat → List Blk → State
  | s, _, [] => s
  | s, h, b :: bs =>
    rollbackLoop cfg
      { s with
        chainwork := s.chainwork - cfg.work b.header.bits
        index := s.index.erase (cfg.hash b.header)
        orphans := s.orphans.insert (cfg.hash b.header) b.header } (h + 1) bs

/-- `rollback`, cache.rs:514-527: drains the tail, then truncates the store.  Returns the state afterwards and the
stale headers (the counter runs from `height + 1`).  When the store fails the cache has already changed. -/
def rollback (cfg : Cfg) (e : Env) (s : State) (height : Nat) : State × Res Err (List (Nat × Header)) :=
  if height ≤ s.tail.length then
    let drained := s.tail.drop height
    let stale := drained.zipIdx.map (fun p => (height + 1 + p.2, p.1.header))
    let s1 := rollbackLoop cfg { s with tail := s.tail.take height } (height + 1) drained
    if e.failRollback then (s1, .err .store)
    else ({ s1 with store := s1.store.take (height + 1) }, .ok stale)
  else (s, .panic)

/-- `extend_chain`, cache.rs:546-553. -/
def extendChain (cfg : Cfg) (s : State) (height hash : Nat) (h : Header) : Res Err State :=
  if h.prev = cfg.hash s.last.header then
    .ok { s with
      index := s.index.insert hash height
      orphans := s.orphans.erase hash
      tail := s.tail ++ [⟨height, h⟩]
      chainwork := s.chainwork + cfg.work h.bits }
  else .panic

/-- The loop of `switch_to_fork`, cache.rs:533-539. -/
def extendLoop (cfg : Cfg) : State → Nat → List Header → Res Err State
  | s, _, [] => .ok s
  | s, height, h :: hs => do
    let s' ← extendChain cfg s height (cfg.hash h) h
    extendLoop cfg s' (height + 1) hs

/-- `switch_to_fork`, cache.rs:530-543. -/
def switchToFork (cfg : Cfg) (e : Env) (s : State) (c : Candidate) :
    State × Res Err (List (Nat × Header)) :=
  match rollback cfg e s c.forkHeight with
  | (s1, .ok stale) =>
    match extendLoop cfg s1 (c.forkHeight + 1) c.headers with
    | .ok s2 =>
      if e.failPut then (s2, .err .store)
      else ({ s2 with store := s2.store ++ c.headers }, .ok stale)
    | .err er => (s1, .err er)
    | .panic => (s1, .panic)
  | (s1, .err er) => (s1, .err er)
  | (s1, .panic) => (s1, .panic)

/-- Orphan pruning, cache.rs:324-336: removes orphans that are on the active chain. -/
def prune (s : State) : State :=
  { s with orphans := s.orphans.filter (fun p => !(s.contains p.1)) }

/-- Second half of `import_block` once a best branch was selected, cache.rs:338-368. -/
def activate (cfg : Cfg) (e : Env) (s : State) (c : Candidate) : State × Res Err ImportResult :=
  match switchToFork cfg e s c with
  | (s', .ok reverted) =>
    match c.headers.getLast? with
    | none => (s', .panic)
    | some header =>
      let height := s'.height
      let start := c.forkHeight + 1
      let stop := height + 1
      if stop > start then
        match s'.range start stop with
        | .ok blks =>
          if blks.isEmpty then (s', .panic)
          else (s', .ok (.tipChanged header c.tip height reverted (blks.map (fun b => (b.height, b.header)))))
        | _ => (s', .panic)
      else (s', .panic)
  | (s', .err er) => (s', .err er)
  | (s', .panic) => (s', .panic)

/-- Chain selection once the header is in the orphan set, cache.rs:284-368. -/
def selectBest (cfg : Cfg) (e : Env) (s : State) : State × Res Err ImportResult :=
  match chainCandidates cfg e s with
  | .panic => (s, .panic)
  | .err er => (s, .err er)
  | .ok cs =>
    if cs.isEmpty then (s, .ok .tipUnchanged)
    else
      match selectLoop cfg s ⟨none, cfg.hash s.last.header, 0⟩ cs with
      | .panic => (s, .panic)
      | .err er => (s, .err er)
      | .ok b =>
        let s1 := prune s
        match b.branch with
        | some c => activate cfg e s1 c
        | none => (s1, .ok .tipUnchanged)

/-- Part of `import_block` after the tip validation, cache.rs:238-369. -/
def importChecked (cfg : Cfg) (e : Env) (s : State) (h : Header) : State × Res Err ImportResult :=
  let hash := cfg.hash h
  match validatePow cfg h (cfg.target h.bits) with
  | .badPow => (s, .err .invalidPoW)
  | .badTarget => (s, .panic)
  | .good =>
    if cfg.target h.bits > cfg.powLimit then (s, .err .invalidTarget)
    else
      match s.index.get h.prev with
      | some height =>
        if height < s.lastCheckpoint cfg then (s, .err (.invalidHeight (height + 1)))
        else selectBest cfg e { s with orphans := s.orphans.insert hash h }
      | none =>
        let s1 := { s with orphans := s.orphans.insert hash h }
        if s1.orphans.contains h.prev then selectBest cfg e s1
        else (s1, .err (.missing h.prev))

/-- `import_block`, cache.rs:219-369. -/
def importBlock (cfg : Cfg) (e : Env) (s : State) (h : Header) : State × Res Err ImportResult :=
  let hash := cfg.hash h
  let tip := s.last
  if s.index.contains hash || s.orphans.contains hash then (s, .err (.duplicate hash))
  else if h.prev = cfg.hash tip.header then
    match validate cfg e.clock s tip h with
    | .err er => (s, .err er)
    | .panic => (s, .panic)
    | .ok () => importChecked cfg e s h
  else importChecked cfg e s h

/-- Lexicographic order on `(Height, BlockHash)`, the key of `reverted` in `import_blocks`. -/
def pairLt (a b : Nat × Nat) : Bool := a.1 < b.1 || (a.1 == b.1 && a.2 < b.2)

/-- Accumulators of `import_blocks`, cache.rs:568-573. -/
structure Acc where
  seen : List Nat
  reverted : List ((Nat × Nat) × Header)
  connected : List (Nat × Header)
  bestHeight : Nat
  bestHash : Nat
  bestHeader : Header
  deriving DecidableEq, Repr

/-- Accounting of one changed tip, cache.rs:584-590. -/
def Acc.add (cfg : Cfg) (a : Acc) (header : Header) (hash height : Nat)
    (r c : List (Nat × Header)) : Acc :=
  { seen := a.seen ++ c.map (fun p => cfg.hash p.2)
    reverted := r.foldl (fun m p => sinsert pairLt (p.1, cfg.hash p.2) p.2 m) a.reverted
    connected := c.foldl (fun m p => sinsert (fun x y => decide (x < y)) p.1 p.2 m) a.connected
    bestHeight := height
    bestHash := hash
    bestHeader := header }

/-- The loop of `import_blocks`, cache.rs:575-597.  Each header comes with what the environment decides while it
is imported. -/
def importLoop (cfg : Cfg) : State → Acc → Nat → List (Header × Env) → State × Res Err Acc
  | s, a, _, [] => (s, .ok a)
  | s, a, i, (h, e) :: hs =>
    match importBlock cfg e s h with
    | (s', .ok (.tipChanged header hash height r c)) =>
      importLoop cfg s' (a.add cfg header hash height r c) (i + 1) hs
    | (s', .ok .tipUnchanged) => importLoop cfg s' a (i + 1) hs
    | (s', .err (.duplicate _)) => importLoop cfg s' a (i + 1) hs
    | (s', .err (.missing _)) => importLoop cfg s' a (i + 1) hs
    | (s', .err er) => (s', .err (.aborted er i s'.height))
    | (s', .panic) => (s', .panic)

/-- `import_blocks`, cache.rs:563-622. -/
def importBlocks (cfg : Cfg) (s : State) (hs : List (Header × Env)) : State × Res Err ImportResult :=
  let acc0 : Acc := ⟨[], [], [], s.height, cfg.hash s.last.header, s.last.header⟩
  match importLoop cfg s acc0 0 hs with
  | (s', .ok a) =>
    if a.connected.isEmpty then (s', .ok .tipUnchanged)
    else
      let reverted := a.reverted.filter (fun p => !(a.seen.contains p.1.2) && !(s'.contains p.1.2))
      let connected := a.connected.filter (fun p => s'.contains (cfg.hash p.2))
      if connected.isEmpty then (s', .panic)
      else (s', .ok (.tipChanged a.bestHeader a.bestHash a.bestHeight
        (reverted.reverse.map (fun p => (p.1.1, p.2))) connected))
  | (s', .err er) => (s', .err er)
  | (s', .panic) => (s', .panic)

/-- `extend_tip`, cache.rs:625-650. -/
def extendTip (cfg : Cfg) (e : Env) (s : State) (h : Header) : State × Res Err ImportResult :=
  let tip := s.last
  let hash := cfg.hash h
  if h.prev = cfg.hash tip.header then
    let height := tip.height + 1
    match validate cfg e.clock s tip h with
    | .err er => (s, .err er)
    | .panic => (s, .panic)
    | .ok () =>
      match extendChain cfg s height hash h with
      | .err er => (s, .err er)
      | .panic => (s, .panic)
      | .ok s' =>
        if e.failPut then (s', .err .store)
        else ({ s' with store := s'.store ++ [h] }, .ok (.tipChanged h hash height [] [(height, h)]))
  else (s, .ok .tipUnchanged)

/-- `BlockCache::new`, cache.rs:85-115: an empty cache over a store whose genesis header is `g`. -/
def new (cfg : Cfg) (g : Header) (store : List Header) : State :=
  { head := ⟨0, g⟩
    tail := []
    index := [(cfg.hash g, 0)]
    orphans := []
    chainwork := cfg.work g.bits
    store := store }

/-- Index building in `load_with`, cache.rs:161-165. -/
def buildIndex (cfg : Cfg) (s : State) : State :=
  let idx := s.tail.foldl (fun (m : AMap Nat Nat) b => m.insert b.header.prev (b.height - 1)) s.index
  { s with index := idx.insert (cfg.hash s.last.header) s.height }

/-- The genesis check of `load_with`, cache.rs:149-159. -/
def genesisCheck (cfg : Cfg) (s : State) : Res Err Unit :=
  match s.tail.head? with
  | none => .ok ()
  | some b =>
    if cfg.hash s.head.header ≠ b.header.prev then .err .genesisMismatch
    else if cfg.genesisHash ≠ cfg.hash s.head.header then .err .genesisMismatch
    else .ok ()

/-- `load_with`, cache.rs:134-172, with a progress callback that never interrupts, on a store whose iteration yields
`store` numbered from 0 (see `Verif.Store` for the file store itself). -/
def load (cfg : Cfg) (s : State) : Res Err State := do
  let blks := (s.store.zipIdx.map (fun p => (⟨p.2, p.1⟩ : Blk))).drop 1
  let s1 := { s with
    tail := s.tail ++ blks
    chainwork := s.chainwork + branchWork cfg (blks.map (·.header)) }
  genesisCheck cfg s1
  let s2 := buildIndex cfg s1
  Res.assert (s2.store.length == s2.chain.length)
  Res.assert (s2.store.length == s2.index.length)
  .ok s2

/-- The loop of `locators_indexes`, common/src/block.rs:44-51.  `fuel` bounds the iterations (`from` decreases by at
least one each time, so `from` iterations suffice; running out of fuel would be a panic).  `step *= 2` on a `u64` panics
(debug) when it reaches `2^64`. -/
def locatorsLoop : Nat → List Nat → Nat → Nat → Res Err (List Nat)
  | 0, indexes, _, height => if height > 0 then .panic else .ok indexes
  | fuel + 1, indexes, step, height =>
    if height > 0 then
      let step' := if indexes.length ≥ 8 then step * 2 else step
      if step' ≥ 2 ^ 64 then .panic
      else locatorsLoop fuel (indexes ++ [height]) step' (height - step')
    else .ok indexes

/-- `locators_indexes`, common/src/block.rs:40-55. -/
def locatorsIndexes (height : Nat) : Res Err (List Nat) := do
  let indexes ← locatorsLoop height [] 1 height
  .ok (indexes ++ [0])

/-- The loop of `locator_hashes`, cache.rs:812-821. -/
def locatorHashesLoop (cfg : Cfg) (s : State) (cp : Nat) : List Nat → List Nat
  | [] => []
  | h :: hs =>
    if h < cp then []
    else
      match s.chain[h]? with
      | some b => cfg.hash b.header :: locatorHashesLoop cfg s cp hs
      | none => locatorHashesLoop cfg s cp hs

/-- `locator_hashes`, cache.rs:805-823. -/
def locatorHashes (cfg : Cfg) (s : State) (height : Nat) : Res Err (List Nat) := do
  Res.assert (decide (height ≤ s.height))
  let idx ← locatorsIndexes height
  .ok (locatorHashesLoop cfg s (s.lastCheckpoint cfg) idx)

/-- The start height in `locate_headers`, cache.rs:780-785. -/
def locateStart (s : State) (locators : List Nat) : Res Err Nat :=
  match locators.find? (fun h => s.contains h) with
  | some hash => do
    let p ← Res.unwrap (s.getBlock hash)
    .ok p.1
  | none => .ok 0

/-- The stop height in `locate_headers`, cache.rs:788-791. -/
def locateStop (s : State) (stopHash : Nat) : Nat :=
  match s.getBlock stopHash with
  | some (h, _) => h
  | none => s.height

/-- `locate_headers`, cache.rs:765-799. -/
def locateHeaders (s : State) (locators : List Nat) (stopHash maxHeaders : Nat) : Res Err (List Header) :=
  if locators.isEmpty then
    match s.getBlock stopHash with
    | some (_, h) => .ok [h]
    | none => .ok []
  else do
    let start ← locateStart s locators
    let start := start + 1
    let stop := min (start + maxHeaders) (locateStop s stopHash + 1)
    if start > stop then .ok []
    else do
      let blks ← s.range start stop
      .ok (blks.map (·.header))

/-- `find_branch`, cache.rs:668-687. -/
def findBranch (s : State) (dest : Nat) : Res Err (Option (Nat × List Header)) :=
  match s.getBlock dest with
  | some (h, hdr) => .ok (some (h, [hdr]))
  | none => do
    match ← fork s dest with
    | some c => .ok (some (c.forkHeight, c.forkHeader :: c.headers))
    | none => .ok none

end Verif.Chain
