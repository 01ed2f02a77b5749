import Verif.Base.Map
import Verif.Base.Res

/-!
# Compact block filters: filter-header chain, filter cache, rescan, filter manager

Models
* `/repo/chain/src/filter/cache.rs` (`FilterCache`, here `FilterHeaders`) and the trait defaults of
  `/repo/common/src/block/filter.rs`;
* `/repo/p2p/src/fsm/filter_cache.rs` (`FilterCache`, here `Cache`);
* `/repo/p2p/src/fsm/cbfmgr/rescan.rs` (`Rescan`);
* `/repo/p2p/src/fsm/cbfmgr.rs` (`FilterManager`, `HeightIterator`).

Conventions: block hashes, filter hashes, filter headers, scripts, transaction ids and peers are naturals.  The block tree is
seen through `BlockReader`: the list of hashes of the active chain (`Tree`).  Time is in milliseconds.
The outbox is never drained: `out` is the log of everything ever output, in order.
-/

set_option autoImplicit false

namespace Verif.Cbf

/-- The content of a compact filter (`BlockFilter::content`). -/
abbrev Filter := List Nat

/-- Functions of rust-bitcoin the code calls, and the build mode.
* `filterHash` = `BlockFilter::filter_header`'s inner hash of the content; `filterHeader h prev` =
  `FilterHash::filter_header`; `BlockFilter::filter_header(prev)` is their composition;
* `matchAny` / `matchAll` = `BlockFilter::match_any` / `match_all` (`none` = decoding error);
* `genHash`, `genHeader`: the network's genesis filter hash and header;
* `checked`: integer overflow panics (debug) or wraps (release). -/
structure Params where
  filterHash : Filter → Nat
  filterHeader : Nat → Nat → Nat
  matchAny : Filter → Nat → List Nat → Option Bool
  matchAll : Filter → Nat → List Nat → Option Bool
  genHash : Nat
  genHeader : Nat
  checked : Bool

/-- What a `BlockReader` shows: hashes of the active chain by height, and the highest checkpoint height.  (common/src/block/tree.rs:136-210) -/
structure Tree where
  hashes : List Nat
  checkpoint : Option Nat
  deriving DecidableEq, Repr

/-- `BlockReader::height`.  (common/src/block/tree.rs:169) -/
def Tree.height (t : Tree) : Nat := t.hashes.length - 1

/-- `BlockReader::get_block_by_height` (the hash of the block).  (common/src/block/tree.rs:140) -/
def Tree.byHeight (t : Tree) (h : Nat) : Option Nat := t.hashes[h]?

/-- `BlockReader::get_block` (the height of the block).  (common/src/block/tree.rs:138) -/
def Tree.heightOf (t : Tree) (hash : Nat) : Option Nat := t.hashes.idxOf? hash

/-! ## Filter-header chain: `chain/src/filter/cache.rs` -/

/-- `FilterHeader::all_zeros()`. -/
def zeroHeader : Nat := 0

/-- `StoredHeader` (chain/src/filter/cache.rs:24-27): filter hash, filter header. -/
abbrev Entry := Nat × Nat

/-- `FilterCache` (chain/src/filter/cache.rs:67-70): the headers in memory (non-empty) and the content of the store. -/
structure FilterHeaders where
  head : Entry
  tail : List Entry
  store : List Entry
  deriving DecidableEq, Repr

/-- All entries in memory, genesis first.  (chain/src/filter/cache.rs:67-70) -/
def FilterHeaders.all (f : FilterHeaders) : List Entry := f.head :: f.tail

/-- Why a `Filters` operation fails (only the store can fail).  (common/src/block/filter.rs:42-49) -/
inductive StoreErr where
  | store
  | integrity
  | interrupted
  deriving DecidableEq, Repr

/-- `load_with` (chain/src/filter/cache.rs:77-96) with a progress callback that may stop at some height. -/
def loadWith (store : List Entry) (stop : Nat → Bool) : Res StoreErr FilterHeaders :=
  match store with
  | [] => .panic   -- a store always holds its genesis
  | g :: rest =>
    if (List.range rest.length).any (fun i => stop (i + 1)) then .err .interrupted
    else .ok ⟨g, rest, store⟩

/-- The loop of `verify_with` (chain/src/filter/cache.rs:116-128) from `height` on. -/
def verifyLoop (p : Params) (stop : Nat → Bool) : Nat → Nat → List Entry → Res StoreErr Unit
  | _, _, [] => .ok ()
  | prev, height, (hash, header) :: es =>
    if header ≠ p.filterHeader hash prev then .err .integrity
    else if stop height then .err .interrupted
    else verifyLoop p stop header (height + 1) es

/-- `verify_with` (chain/src/filter/cache.rs:105-130). -/
def verifyWith (p : Params) (stop : Nat → Bool) (f : FilterHeaders) : Res StoreErr Unit :=
  if f.head.2 ≠ p.genHeader then .err .integrity
  else verifyLoop p stop zeroHeader 0 f.all

/-- `get_header` (chain/src/filter/cache.rs:135-139). -/
def getHeader (f : FilterHeaders) (height : Nat) : Option Entry := f.all[height]?

/-- Number of values of `usize` and `u64`. -/
def u64 : Nat := 2 ^ 64

/-- `usize` subtraction. -/
def subUsize {E : Type} (checked : Bool) (a b : Nat) : Res E Nat :=
  if b ≤ a then .ok (a - b) else if checked then .panic else .ok (a + u64 - b)

/-- `usize` addition. -/
def addUsize {E : Type} (checked : Bool) (a b : Nat) : Res E Nat :=
  if a + b < u64 then .ok (a + b) else if checked then .panic else .ok ((a + b) % u64)

/-- `get_headers` (chain/src/filter/cache.rs:141-150). -/
def getHeaders {E : Type} (checked : Bool) (f : FilterHeaders) (start stop : Nat) : Res E (List Entry) :=
  subUsize checked stop start >>= fun n =>
  addUsize checked n 1 >>= fun n =>
  .ok ((f.all.drop start).take n)

/-- `import_headers` (chain/src/filter/cache.rs:152-162): memory first, then the store; the store may fail. -/
def importHeaders (f : FilterHeaders) (hs : List Entry) (fail : Bool) : FilterHeaders × Res StoreErr Nat :=
  let f := { f with tail := f.tail ++ hs }
  if fail then (f, .err .store)
  else
    let f := { f with store := f.store ++ hs }
    (f, .ok (f.store.length - 1))

/-- `tip` (chain/src/filter/cache.rs:164-167). -/
def tipHeader (f : FilterHeaders) : Nat := (f.tail.getLastD f.head).2

/-- `height` (chain/src/filter/cache.rs:169-171). -/
def FilterHeaders.height (f : FilterHeaders) : Nat := f.tail.length

/-- `rollback` (chain/src/filter/cache.rs:173-178): store first, then memory. -/
def rollbackHeaders (f : FilterHeaders) (height : Nat) (fail : Bool) : FilterHeaders × Res StoreErr Unit :=
  if fail then (f, .err .store)
  else ({ f with store := f.store.take (height + 1), tail := f.tail.take height }, .ok ())

/-- `clear` (chain/src/filter/cache.rs:180-185). -/
def clearHeaders (f : FilterHeaders) (fail : Bool) : FilterHeaders × Res StoreErr Unit :=
  if fail then (f, .err .store)
  else ({ f with store := f.store.take 1, tail := [] }, .ok ())

/-- `get_prev_header`, common/src/block/filter.rs:65-72. -/
def getPrevHeader (f : FilterHeaders) (height : Nat) : Option Nat :=
  if height = 0 then some zeroHeader else (getHeader f (height - 1)).map (·.2)

/-! ## In-memory filter cache: `p2p/src/fsm/filter_cache.rs` -/

/-- `FilterCache` (p2p/src/fsm/filter_cache.rs:29-36); the `BTreeMap` is a list sorted by height; `len` is `Filter::len`. -/
structure Cache (T : Type) where
  cache : List (Nat × T)
  size : Nat
  capacity : Nat
  deriving DecidableEq, Repr

/-- Order of heights. -/
def hlt (a b : Nat) : Bool := decide (a < b)

/-- The eviction loop of `push` (p2p/src/fsm/filter_cache.rs:130-136).  An empty map with `size > capacity` would loop for ever and
`size < filter.len()` would underflow: both are the panic value. -/
def evict {T : Type} (len : T → Nat) (cap : Nat) : List (Nat × T) → Nat → Res Unit (List (Nat × T) × Nat)
  | [], size => if size ≤ cap then .ok ([], size) else .panic
  | (h, f) :: m, size =>
    if size ≤ cap then .ok ((h, f) :: m, size)
    else if len f ≤ size then evict len cap m (size - len f)
    else .panic

/-- `push` (p2p/src/fsm/filter_cache.rs:119-138). -/
def Cache.push {T : Type} (len : T → Nat) (c : Cache T) (height : Nat) (f : T) : Res Unit (Bool × Cache T) :=
  if c.size ≤ c.capacity then
    if c.capacity < len f then .ok (false, c)
    else
      evict len c.capacity (sinsert hlt height f c.cache) (c.size + len f) >>= fun r =>
      .ok (true, { c with cache := r.1, size := r.2 })
  else .panic

/-- `start` (p2p/src/fsm/filter_cache.rs:155-157). -/
def Cache.start {T : Type} (c : Cache T) : Option Nat := c.cache.head?.map (·.1)

/-- `end` (p2p/src/fsm/filter_cache.rs:160-162). -/
def Cache.end {T : Type} (c : Cache T) : Option Nat := c.cache.getLast?.map (·.1)

/-- `get` (p2p/src/fsm/filter_cache.rs:191-193). -/
def Cache.get {T : Type} (c : Cache T) (height : Nat) : Option T :=
  (c.cache.find? (fun p => p.1 = height)).map (·.2)

/-- The loop of `rollback` (p2p/src/fsm/filter_cache.rs:217-229), on the reversed map. -/
def rollbackLoop {T : Type} (len : T → Nat) (height : Nat) :
    List (Nat × T) → Nat → Res Unit (List (Nat × T) × Nat)
  | [], size => .ok ([], size)
  | (h, f) :: m, size =>
    if height < h then
      if len f ≤ size then rollbackLoop len height m (size - len f) else .panic
    else .ok ((h, f) :: m, size)

/-- `rollback` (p2p/src/fsm/filter_cache.rs:217-229). -/
def Cache.rollback {T : Type} (len : T → Nat) (c : Cache T) (height : Nat) : Res Unit (Cache T) :=
  rollbackLoop len height c.cache.reverse c.size >>= fun r =>
  .ok { c with cache := r.1.reverse, size := r.2 }

/-! ## `HeightIterator`: cbfmgr.rs:962-983 -/

/-- The ranges yielded by `HeightIterator { start, stop, step }`, with `fuel` calls of `next`; a range is a pair of
first and last height.  `start + step - 1` is computed without overflow checks (heights are far below `2^64`).  (p2p/src/fsm/cbfmgr.rs:962-988) -/
def heightRanges (step stop : Nat) : Nat → Nat → List (Nat × Nat)
  | 0, _ => []
  | fuel + 1, start =>
    if start ≤ stop then
      let e := min stop (start + step - 1)
      (start, e) :: heightRanges step stop fuel (e + 1)
    else []

/-- All ranges: at most one per height is yielded.  (p2p/src/fsm/cbfmgr.rs:962-988) -/
def heightIter (step start stop : Nat) : List (Nat × Nat) := heightRanges step stop (stop + 1 - start) start

/-! ## `Rescan`: cbfmgr/rescan.rs -/

/-- `MAX_MESSAGE_CFILTERS`, cbfmgr.rs:40. -/
def maxCFilters : Nat := 1000

/-- `MAX_MESSAGE_CFHEADERS`, cbfmgr.rs:37. -/
def maxCFHeaders : Nat := 2000

/-- `IDLE_TIMEOUT`, cbfmgr.rs:31. -/
def idleTimeout : Nat := 60000

/-- `DEFAULT_REQUEST_TIMEOUT`, cbfmgr.rs:46 (also the configured `request_timeout`, 98). -/
def requestTimeout : Nat := 6000

/-- `Rescan` (p2p/src/fsm/cbfmgr/rescan.rs:17-38). `requested` is a set of heights, `received` maps a height to filter, block hash and whether it comes
from the cache. -/
structure Rescan where
  active : Bool
  current : Nat
  start : Nat
  «end» : Option Nat
  cache : Cache Filter
  watch : List Nat
  transactions : AMap Nat (List Nat)
  requested : List Nat
  received : AMap Nat (Filter × Nat × Bool)
  deriving DecidableEq, Repr

/-- Events of the filter manager (`fsm/event.rs`). -/
inductive Ev where
  | filterReceived (peer block height : Nat) (filter : Filter)
  | filterProcessed (block height : Nat) (valid matched cached : Bool)
  | rescanStarted (start : Nat) (stop : Option Nat)
  | rescanStopped (height : Nat)
  | blockMatched (block height : Nat)
  | scanned (height : Nat)
  | filterHeadersSynced (height : Nat)
  | peerMisbehaved (peer : Nat)
  | error
  deriving DecidableEq, Repr

/-- `Rescan::new` (p2p/src/fsm/cbfmgr/rescan.rs:42-49). -/
def Rescan.new (cacheSize : Nat) : Rescan :=
  ⟨false, 0, 0, none, ⟨[], 0, cacheSize⟩, [], [], [], []⟩

/-- `restart` (p2p/src/fsm/cbfmgr/rescan.rs:52-64). -/
def Rescan.restart (r : Rescan) (start : Nat) (stop : Option Nat) (watch : List Nat) : Rescan :=
  { r with active := true, start := start, current := start, «end» := stop, watch := watch, requested := [] }

/-- `reset` (p2p/src/fsm/cbfmgr/rescan.rs:80-82). -/
def Rescan.reset (r : Rescan) : Rescan := { r with requested := [] }

/-- `rollback` (p2p/src/fsm/cbfmgr/rescan.rs:85-87). -/
def Rescan.rollback (r : Rescan) (to : Nat) : Res Unit Rescan :=
  r.cache.rollback List.length to >>= fun c => .ok { r with cache := c }

/-- `received` (p2p/src/fsm/cbfmgr/rescan.rs:90-101). -/
def Rescan.receive (r : Rescan) (height : Nat) (f : Filter) (hash : Nat) : Res Unit (Bool × Rescan) :=
  let requested := r.requested.contains height
  let r := { r with requested := r.requested.filter (· ≠ height) }
  if requested then
    r.cache.push List.length height f >>= fun c =>
    .ok (true, { r with cache := c.2, received := r.received.insert height (f, hash, false) })
  else .ok (false, r)

/-- `match_filter` (p2p/src/fsm/cbfmgr/rescan.rs:145-164): `none` is an error.  The order in which scripts and transactions are tried does not matter. -/
def Rescan.matchFilter (p : Params) (r : Rescan) (f : Filter) (hash : Nat) : Option Bool :=
  let fin (matched : Bool) : Option Bool :=
    if !matched && !r.transactions.isEmpty then
      some (r.transactions.any (fun t => (p.matchAll f hash t.2).getD false))
    else some matched
  if r.watch.isEmpty then fin false
  else match p.matchAny f hash r.watch with
    | none => none
    | some m => fin m

/-- One item of the processing loop: match (if any) and event for the filter at `height` (p2p/src/fsm/cbfmgr/rescan.rs:114-129). -/
def Rescan.processOne (p : Params) (r : Rescan) (height : Nat) (x : Filter × Nat × Bool) :
    List (Nat × Nat) × Ev :=
  let m := r.matchFilter p x.1 x.2.1
  let matched := m.getD false
  (if matched then [(height, x.2.1)] else [],
   .filterProcessed x.2.1 height m.isSome matched x.2.2)

/-- The loop of `process` (p2p/src/fsm/cbfmgr/rescan.rs:113-131); every round removes an entry of `received`, so `received.length` rounds are enough
(`fuel`). -/
def Rescan.processLoop (p : Params) : Nat → Rescan → Rescan × List (Nat × Nat) × List Ev
  | 0, r => (r, [], [])
  | fuel + 1, r =>
    match r.received.get r.current with
    | none => (r, [], [])
    | some x =>
      let (m, e) := r.processOne p r.current x
      let r' := { r with received := r.received.erase r.current, current := r.current + 1 }
      let (r'', ms, es) := processLoop p fuel r'
      (r'', m ++ ms, e :: es)

/-- `process` (p2p/src/fsm/cbfmgr/rescan.rs:107-142): new state, matches, events, number of processed filters. -/
def Rescan.process (p : Params) (r : Rescan) : Rescan × List (Nat × Nat) × List Ev × Nat :=
  let (r', ms, es) := r.processLoop p (r.received.length)
  match r'.end with
  | some stop =>
    if r'.current = stop then
      ({ r' with active := false }, ms, es ++ [.rescanStopped stop], r'.current - r.current)
    else (r', ms, es, r'.current - r.current)
  | none => (r', ms, es, r'.current - r.current)

/-- Heights of a range. -/
def heightsOf (start stop : Nat) : List Nat := (List.range (stop + 1 - start)).map (· + start)

/-- `requests`, lines 178-187: cached filters of the range are put in the queue.  (p2p/src/fsm/cbfmgr/rescan.rs:178-187) -/
def Rescan.queueCached (t : Tree) (r : Rescan) : List Nat → Rescan
  | [] => r
  | h :: hs =>
    let r' := match r.cache.get h, t.byHeight h with
      | some f, some hash => { r with received := r.received.insert h (f, hash, true) }
      | _, _ => r
    queueCached t r' hs

/-- `requests`, lines 200-213: group ascending heights in ranges of consecutive heights (`acc` = ranges so far, last range
first).  (p2p/src/fsm/cbfmgr/rescan.rs:200-213) -/
def groupRanges : List (Nat × Nat) → List Nat → List (Nat × Nat)
  | acc, [] => acc.reverse
  | [], h :: hs => groupRanges [(h, h)] hs
  | (a, b) :: acc, h :: hs =>
    if h = b + 1 then groupRanges ((a, b + 1) :: acc) hs else groupRanges ((h, h) :: (a, b) :: acc) hs

/-- `requests` (p2p/src/fsm/cbfmgr/rescan.rs:169-229). -/
def Rescan.requests (t : Tree) (r : Rescan) (start stop : Nat) : List (Nat × Nat) × Rescan :=
  if stop < start then ([], r)
  else
    let r := r.queueCached t (heightsOf start stop)
    let missing := (heightsOf start stop).filter (fun h => !(r.received.contains h || r.requested.contains h))
    let ranges := (groupRanges [] missing).flatMap (fun x => heightIter maxCFilters x.1 x.2)
    (ranges, { r with requested := r.requested ++ ranges.flatMap (fun x => heightsOf x.1 x.2) })

/-! ## `FilterManager`: cbfmgr.rs -/

/-- Outputs of the manager: messages, timers, disconnects, events, and block requests handed to the inventory manager.  (p2p/src/fsm/output.rs:79-240) -/
inductive Out where
  | getCFHeaders (peer start stop : Nat)
  | cfHeaders (peer stop prev : Nat) (hashes : List Nat)
  | getCFilters (peer start stop : Nat)
  | timer (ms : Nat)
  | disconnect (peer : Nat)
  | event (e : Ev)
  | getBlock (hash : Nat)
  deriving DecidableEq, Repr

/-- `FilterManager` (p2p/src/fsm/cbfmgr.rs:116-135).  `peers` maps a peer to whether it is persistent. -/
structure Mgr where
  rescan : Rescan
  filters : FilterHeaders
  peers : AMap Nat Bool
  out : List Out
  lastIdle : Option Nat
  lastProcessed : Option Nat
  pending : List Nat
  inflight : AMap Nat (Nat × Nat × Nat)
  deriving DecidableEq, Repr

/-- `Error` (p2p/src/fsm/cbfmgr.rs:50-73). -/
inductive Err where
  | ignored
  | invalid
  | filters
  deriving DecidableEq, Repr

/-- `GetFiltersError` (p2p/src/fsm/cbfmgr.rs:77-84). -/
inductive GetErr where
  | invalidRange
  | notConnected
  deriving DecidableEq, Repr

/-- What the environment decides in a call: the clock, random peers, iteration orders, store failures. -/
structure Env where
  now : Nat
  /-- the peer sampled (`AddressBook::sample`), for a request with the given stop hash -/
  pick : Nat → AMap Nat Bool → Option (Nat × Bool)
  /-- `AddressBook::shuffled` -/
  shuffle : List Nat → List Nat
  /-- iteration order of the `inflight` map -/
  order : List Nat → List Nat
  fail : Bool

/-- The random choices are real choices: a sampled peer is in the book, nothing is sampled only from an empty book, a shuffle
is a permutation. -/
structure Env.Fair (e : Env) : Prop where
  pick_mem : ∀ k m x, e.pick k m = some x → x ∈ m
  pick_some : ∀ k m, m ≠ [] → (e.pick k m).isSome
  shuffle_perm : ∀ l, (e.shuffle l).Perm l
  order_perm : ∀ l, (e.order l).Perm l

/-- Append outputs.  (p2p/src/fsm/output.rs:67-72) -/
def Mgr.emit (m : Mgr) (o : List Out) : Mgr := { m with out := m.out ++ o }

/-- `get_cfheaders` (901-926); `Outbox::get_cfheaders` (output.rs:183-199) also sets a timer; the start height is sent as a
`u32`. -/
def Mgr.getCFHeaders (e : Env) (m : Mgr) (start stop : Nat) : Mgr :=
  if m.inflight.contains stop then m
  else match e.pick stop m.peers with
    | some (peer, _) =>
      { m.emit [.getCFHeaders peer (start % 2 ^ 32) stop, .timer requestTimeout] with
        inflight := m.inflight.insert stop (start, peer, e.now + requestTimeout) }
    | none => m

/-- `send_getcfheaders` (p2p/src/fsm/cbfmgr.rs:872-898).  `debug_assert!(start <= end)` only in debug builds. -/
def Mgr.sendGetCFHeaders {E : Type} (p : Params) (e : Env) (t : Tree) (m : Mgr) (start stop : Nat) : Res E Mgr :=
  if stop < start then (if p.checked then .panic else .ok m)
  else
    let count := min maxCFHeaders (stop - start + 1)
    match t.byHeight (start + count - 1) with
    | none => .panic
    | some stopHash => .ok (m.getCFHeaders e start stopHash)

/-- The loop of `get_cfilters` (p2p/src/fsm/cbfmgr.rs:453-476): one message per range, peers in turn. -/
def Mgr.askFilters (t : Tree) (peers : List Nat) : Nat → Mgr → List (Nat × Nat) → Mgr × Res GetErr Unit
  | _, m, [] => (m, .ok ())
  | i, m, (a, b) :: rs =>
    match peers[i % peers.length]? with
    | none => (m, .ok ())   -- no peers: `zip` with an empty cycle
    | some peer =>
      match t.byHeight b with
      | none => (m, .err .invalidRange)
      | some stop => askFilters t peers (i + 1) (m.emit [.getCFilters peer (a % 2 ^ 32) stop, .timer requestTimeout]) rs

/-- `get_cfilters` (p2p/src/fsm/cbfmgr.rs:438-479). -/
def Mgr.getCFilters (e : Env) (t : Tree) (m : Mgr) (start stop : Nat) : Mgr × Res GetErr Unit :=
  if m.peers = [] then (m, .err .notConnected)
  else if stop < start then (m, .err .invalidRange)
  else if stop ≤ m.filters.height then
    let (ranges, r) := m.rescan.requests t start stop
    Mgr.askFilters t (e.shuffle m.peers.keys) 0 { m with rescan := r } ranges
  else (m, .panic)

/-- Block headers are not yet synced up to the last checkpoint (p2p/src/fsm/cbfmgr.rs:576-580). -/
def Tree.belowCheckpoint (t : Tree) : Bool :=
  match t.checkpoint with
  | some c => decide (t.height < c)
  | none => false

/-- `sync` (p2p/src/fsm/cbfmgr.rs:567-600). -/
def Mgr.sync {E : Type} (p : Params) (e : Env) (t : Tree) (m : Mgr) : Res E Mgr :=
  if m.filters.height ≤ t.height then
    if t.belowCheckpoint then .ok m
    else
      (if m.filters.height < t.height then m.sendGetCFHeaders p e t (m.filters.height + 1) t.height else .ok m) >>= fun m =>
      if m.rescan.active then
        match m.getCFilters e t m.rescan.current m.filters.height with
        | (_, .panic) => .panic
        | (m, _) => .ok m
      else .ok m
  else .panic

/-- `idle` (p2p/src/fsm/cbfmgr.rs:856-864). -/
def Mgr.idle {E : Type} (p : Params) (e : Env) (t : Tree) (m : Mgr) : Res E Mgr :=
  if idleTimeout ≤ e.now - m.lastIdle.getD 0 then
    m.sync p e t >>= fun m => .ok ({ m with lastIdle := some e.now }.emit [.timer idleTimeout])
  else .ok m

/-- `schedule_wake` (p2p/src/fsm/cbfmgr.rs:955-958). -/
def Mgr.scheduleWake (m : Mgr) : Mgr := { m with lastIdle := none }.emit [.timer 1000]

/-- `headers_imported` (p2p/src/fsm/cbfmgr.rs:935-953). -/
def Mgr.headersImported (e : Env) (t : Tree) (m : Mgr) (start stop : Nat) : Mgr × Res GetErr Unit :=
  if m.rescan.active = false then (m, .ok ())
  else
    let start := max start m.rescan.current
    let stop := min stop (m.rescan.end.getD stop)
    if stop < start then (m, .ok ()) else m.getCFilters e t start stop

/-- Lines 699-703: headers made out of the hashes.  (p2p/src/fsm/cbfmgr.rs:699-703) -/
def chainHeaders (p : Params) : Nat → List Nat → List Entry
  | _, [] => []
  | prev, h :: hs => (h, p.filterHeader h prev) :: chainHeaders p (p.filterHeader h prev) hs

/-- A `cfheaders` message. -/
structure CFHeadersMsg where
  filterType : Nat
  stop : Nat
  prev : Nat
  hashes : List Nat
  deriving DecidableEq, Repr

/-- `received_cfheaders` (p2p/src/fsm/cbfmgr.rs:610-722). -/
def Mgr.receivedCFHeaders (p : Params) (e : Env) (t : Tree) (m : Mgr) (msg : CFHeadersMsg) : Mgr × Res Err Nat :=
  if m.inflight.contains msg.stop = false then (m, .err .ignored)
  else
    let m := { m with inflight := m.inflight.erase msg.stop }
    if msg.filterType ≠ 0 then (m, .err .invalid)
    else
      let start := m.filters.height
      match t.heightOf msg.stop with
      | none => (m, .err .invalid)
      | some stop =>
        if stop ≤ m.filters.height then (m, .ok m.filters.height)
        else if msg.prev ≠ tipHeader m.filters then (m.scheduleWake, .err .ignored)
        else if stop < start then (m, .err .invalid)
        else if maxCFHeaders < msg.hashes.length then (m, .err .invalid)
        else if msg.hashes.length = 0 then (m, .err .invalid)
        else if stop - start ≠ msg.hashes.length then (m, .err .invalid)
        else
          match importHeaders m.filters (chainHeaders p msg.prev msg.hashes) e.fail with
          | (f, .ok height) =>
            match { m with filters := f }.headersImported e t start height with
            | (m, .ok ()) =>
              if height ≤ t.height then
                if height = t.height then (m.emit [.event (.filterHeadersSynced height)], .ok height)
                else match m.sync p e t with
                  | .ok m => (m, .ok height)
                  | .err e => (m, .err e)
                  | .panic => (m, .panic)
              else (m, .panic)
            | (m, _) => (m, .panic)
          | (f, _) => ({ m with filters := f }, .err .filters)

/-- The answer to `getcfheaders` (p2p/src/fsm/cbfmgr.rs:743-771), given the headers of the range. -/
def Mgr.serveCFHeaders (m : Mgr) (from_ start stop : Nat) : Res Err (List Entry) → Mgr × Res Err Unit
  | .ok [] => (m, .err .ignored)
  | .ok (x :: xs) =>
    match getPrevHeader m.filters start with
    | none => (m, .panic)
    | some prev => (m.emit [.cfHeaders from_ stop prev ((x :: xs).map (·.1))], .ok ())
  | .err e => (m, .err e)
  | .panic => (m, .panic)

/-- `received_getcfheaders` (p2p/src/fsm/cbfmgr.rs:725-775). -/
def Mgr.receivedGetCFHeaders (p : Params) (t : Tree) (m : Mgr) (from_ filterType start stop : Nat) :
    Mgr × Res Err Unit :=
  if filterType ≠ 0 then (m, .err .invalid)
  else match t.heightOf stop with
    | none => (m, .err .ignored)
    | some stopHeight => m.serveCFHeaders from_ start stop (getHeaders p.checked m.filters start stopHeight)

/-- `received_cfilter` (p2p/src/fsm/cbfmgr.rs:780-853). -/
def Mgr.receivedCFilter (p : Params) (e : Env) (t : Tree) (m : Mgr) (from_ filterType block : Nat) (f : Filter) :
    Mgr × Res Err (List (Nat × Nat)) :=
  if filterType ≠ 0 then (m, .err .ignored)
  else match t.heightOf block with
    | none => (m, .err .ignored)
    | some height =>
      match getHeader m.filters height with
      | none => (m, .err .ignored)
      | some (_, header) =>
        match getPrevHeader m.filters height with
        | none => (m, .panic)
        | some prev =>
          if p.filterHeader (p.filterHash f) prev ≠ header then (m, .err .invalid)
          else
            let m := m.emit [.event (.filterReceived from_ block height f)]
            match m.rescan.receive height f block with
            | .ok (true, r) =>
              let (r, ms, es, n) := r.process p
              let m := { m with rescan := r }.emit (es.map .event)
              (if 0 < n then { m with lastProcessed := some e.now } else m, .ok ms)
            | .ok (false, r) => ({ m with rescan := r }, .ok [])
            | .err _ => (m, .panic)
            | .panic => (m, .panic)

/-- `rollback` (p2p/src/fsm/cbfmgr.rs:484-535).  An error of the store is returned after the rescan state was rolled back. -/
def Mgr.rollback (e : Env) (m : Mgr) (height : Nat) : Res Unit Mgr :=
  if m.filters.height ≤ height then .ok m
  else
    m.rescan.rollback height >>= fun r =>
    let m := { m with rescan := r }
    match rollbackHeaders m.filters height e.fail with
    | (f, .ok ()) =>
      let m := { m with filters := f }
      if m.rescan.active then
        if height + 1 < m.rescan.current then
          .ok { m with rescan := { m.rescan with current := max (height + 1) m.rescan.start } }
        else .ok m
      else .ok m
    | (f, _) => .ok ({ m with filters := f }.emit [.event .error])

/-- `Bound<Height>`. -/
inductive Bound where
  | unbounded
  | included (h : Nat)
  | excluded (h : Nat)
  deriving DecidableEq, Repr

/-- The start height of a rescan (p2p/src/fsm/cbfmgr.rs:383-387). -/
def Bound.first (t : Tree) : Bound → Nat
  | .unbounded => t.height + 1
  | .included h => h
  | .excluded h => h + 1

/-- The end height of a rescan (p2p/src/fsm/cbfmgr.rs:388-392).  `h - 1` of `Bound::Excluded(0)` underflows. -/
def Bound.last {E : Type} (checked : Bool) : Bound → Res E (Option Nat)
  | .unbounded => .ok none
  | .included h => .ok (some h)
  | .excluded h => subUsize checked h 1 >>= fun x => .ok (some x)

/-- Lines 427-431: process the queue, emit the events, return the matches.  (p2p/src/fsm/cbfmgr.rs:427-431) -/
def Mgr.processQueue (p : Params) (m : Mgr) : Mgr × Res Unit (List (Nat × Nat)) :=
  let (r, ms, es, _) := m.rescan.process p
  ({ m with rescan := r }.emit (es.map .event), .ok ms)

/-- Lines 401-431, with `stop` the last height to ask for.  (p2p/src/fsm/cbfmgr.rs:401-431) -/
def Mgr.fetchRescan (p : Params) (e : Env) (t : Tree) (m : Mgr) (start stop : Nat) :
    Mgr × Res Unit (List (Nat × Nat)) :=
  if m.rescan.watch.isEmpty then (m, .ok [])
  else if stop < start then (m, .ok [])
  else match m.getCFilters e t start stop with
    | (m, .ok ()) => m.processQueue p
    | (m, .err .notConnected) => m.processQueue p
    | (m, _) => (m, .panic)

/-- The last height to ask for: not further than the filter-header chain (p2p/src/fsm/cbfmgr.rs:408-415). -/
def Mgr.lastWanted (m : Mgr) : Option Nat → Nat
  | some h => min h m.filters.height
  | none => m.filters.height

/-- `rescan` (p2p/src/fsm/cbfmgr.rs:375-432): matches on cached filters are returned. -/
def Mgr.startRescan (p : Params) (e : Env) (t : Tree) (m : Mgr) (start stop : Bound) (watch : List Nat) :
    Mgr × Res Unit (List (Nat × Nat)) :=
  match (stop.last p.checked : Res Unit (Option Nat)) with
  | .ok stop =>
    let m := { m with rescan := m.rescan.restart (start.first t) stop watch }.emit
      [.event (.rescanStarted (start.first t) stop)]
    m.fetchRescan p e t (start.first t) (m.lastWanted stop)
  | _ => (m, .panic)

/-- The loop of `timer_expired` over the in-flight header requests (p2p/src/fsm/cbfmgr.rs:326-348).  Returns the manager with updated peers and
outputs and the updated in-flight map. -/
def Mgr.expire (e : Env) : List Nat → Mgr → Mgr
  | [], m => m
  | stop :: ks, m =>
    match m.inflight.get stop with
    | none => expire e ks m
    | some (start, addr, expiry) =>
      if expiry ≤ e.now then
        match e.pick stop m.peers with
        | none => expire e ks m
        | some (a, persistent) =>
          let m := if a ≠ addr ∧ persistent = false then
              { m.emit [.disconnect addr] with peers := m.peers.erase addr }
            else m
          let m := m.emit [.getCFHeaders a (start % 2 ^ 32) stop, .timer requestTimeout]
          expire e ks { m with inflight := m.inflight.insert stop (start, a, e.now + requestTimeout) }
      else expire e ks m

/-- `timer_expired` (p2p/src/fsm/cbfmgr.rs:318-359). -/
def Mgr.timerExpired {E : Type} (p : Params) (e : Env) (t : Tree) (m : Mgr) : Res E Mgr :=
  m.idle p e t >>= fun m =>
  let m := Mgr.expire e (e.order m.inflight.keys) m
  if requestTimeout ≤ e.now - m.lastProcessed.getD 0 then
    if m.rescan.active then
      let m := { m with rescan := m.rescan.reset }
      match m.getCFilters e t m.rescan.current m.filters.height with
      | (_, .panic) => .panic
      | (m, _) => .ok m
    else .ok m
  else .ok m

/-- Everything the manager can be asked to do: events (`received_event`, 171-315), timer, commands.  (p2p/src/fsm/cbfmgr.rs:171-533) -/
inductive Op where
  | init
  | peerNegotiated (addr : Nat) (outbound hasFilters persistent : Bool)
  | peerDisconnected (addr : Nat)
  | blockProcessed (block height : Nat)
  | blockDisconnected (height : Nat)
  /-- `BlockHeadersImported`: the heights of the reverted blocks, tip first. -/
  | headersImported (reverted : List Nat)
  | txConfirmed (txid : Nat)
  | txReverted (txid : Nat) (scripts : List Nat)
  | cfheaders (peer : Nat) (msg : CFHeadersMsg)
  | getcfheaders (peer filterType start stop : Nat)
  | cfilter (peer filterType block : Nat) (f : Filter)
  | timer
  | watch (scripts : List Nat)
  | watchTransaction (txid : Nat) (scripts : List Nat)
  | rescan (start stop : Bound) (watch : List Nat)
  | getCFilters (start stop : Nat)
  deriving DecidableEq, Repr

/-- Lines 284-288: remember matches and request their blocks.  (p2p/src/fsm/cbfmgr.rs:284-288) -/
def Mgr.requestBlocks : Mgr → List (Nat × Nat) → Mgr
  | m, [] => m
  | m, (height, hash) :: ms =>
    if m.pending.contains height then requestBlocks m ms
    else requestBlocks ({ m with pending := height :: m.pending }.emit [.getBlock hash]) ms

/-- Lines 284-295: request the blocks of the matches; without pending blocks report the progress.  (p2p/src/fsm/cbfmgr.rs:284-295) -/
def Mgr.afterFilter (m : Mgr) (ms : List (Nat × Nat)) : Mgr :=
  let m := m.requestBlocks ms
  if m.pending.isEmpty then m.emit [.event (.scanned m.rescan.current)] else m

/-- One step of the manager.  `Res.err` is not used: errors are turned into events or ignored as in `received_event`.  (p2p/src/fsm/cbfmgr.rs:171-533) -/
def Mgr.step (p : Params) (e : Env) (t : Tree) (m : Mgr) : Op → Res Unit Mgr
  | .init => m.idle p e t
  | .peerNegotiated addr outbound hasFilters persistent =>
    -- `peer_negotiated` (538-564)
    if outbound = false then .ok m
    else if hasFilters = false then .ok m
    else { m with peers := m.peers.insert addr persistent }.sync p e t
  | .peerDisconnected addr => .ok { m with peers := m.peers.erase addr }
  | .blockProcessed block height =>
    if m.pending.contains height then
      let m := { m with pending := m.pending.filter (· ≠ height) }.emit [.event (.blockMatched block height)]
      let h := if m.pending.isEmpty then max m.rescan.current height else height
      .ok (m.emit [.event (.scanned h)])
    else .ok m
  | .blockDisconnected height => .ok { m with pending := m.pending.filter (· ≠ height) }
  | .headersImported reverted =>
    match reverted.getLast? with
    | some height =>
      subUsize p.checked height 1 >>= fun fork =>
      m.rollback e fork >>= fun m => m.sync p e t
    | none => m.sync p e t
  | .txConfirmed txid =>
    .ok { m with rescan := { m.rescan with transactions := m.rescan.transactions.erase txid } }
  | .txReverted txid scripts =>
    .ok { m with rescan := { m.rescan with transactions := m.rescan.transactions.insert txid scripts } }
  | .cfheaders peer msg =>
    match m.receivedCFHeaders p e t msg with
    | (m, .ok _) => .ok m
    | (m, .err .invalid) => .ok (m.emit [.event (.peerMisbehaved peer)])
    | (m, .err .filters) => .ok (m.emit [.event .error])
    | (m, .err .ignored) => .ok m
    | (_, .panic) => .panic
  | .getcfheaders peer filterType start stop =>
    match m.receivedGetCFHeaders p t peer filterType start stop with
    | (m, .ok _) => .ok m
    | (m, .err .invalid) => .ok (m.emit [.event (.peerMisbehaved peer)])
    | (m, .err _) => .ok m
    | (_, .panic) => .panic
  | .cfilter peer filterType block f =>
    match m.receivedCFilter p e t peer filterType block f with
    | (m, .ok ms) => .ok (m.afterFilter ms)
    | (m, .err .invalid) => .ok (m.emit [.event (.peerMisbehaved peer)])
    | (m, .err _) => .ok m
    | (_, .panic) => .panic
  | .timer => m.timerExpired p e t
  | .watch scripts =>
    -- a set in the code: scripts already watched are not added again
    .ok { m with rescan := { m.rescan with watch := m.rescan.watch ++ scripts.filter (fun s => !m.rescan.watch.contains s) } }
  | .watchTransaction txid scripts =>
    .ok { m with rescan := { m.rescan with transactions := m.rescan.transactions.insert txid scripts } }
  | .rescan start stop watch =>
    -- fsm.rs:728-733: blocks of cached matches are requested directly
    match m.startRescan p e t start stop watch with
    | (m, .ok ms) => .ok (m.emit (ms.map (fun x => .getBlock x.2)))
    | (_, _) => .panic
  | .getCFilters start stop =>
    match m.getCFilters e t start stop with
    | (_, .panic) => .panic
    | (m, _) => .ok m

/-- `FilterManager::new` (p2p/src/fsm/cbfmgr.rs:147-163) over a loaded filter-header chain. -/
def Mgr.new (f : FilterHeaders) (cacheSize : Nat) : Mgr :=
  ⟨Rescan.new cacheSize, f, [], [], none, none, [], []⟩

end Verif.Cbf
