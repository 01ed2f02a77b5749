# Formal model of nakamoto — design

Subject: `/repo` (cloudhead/nakamoto, Rust), read as text.  Nothing in `/repo` is built, run or changed.
Deliverable: a Lean 4 model (`lean/Verif/…`) and machine-checked theorems about it.

## Trusted base

* Lean 4.33.0 kernel, and the installed Mathlib modules that are imported one by one.
* Axioms: at most `propext`, `Classical.choice`, `Quot.sound`; the section "Axioms" at the end lists them per theorem.
  No own axioms, no `sorry`, no `native_decide`, no `bv_decide`.
* The hand translation Rust → Lean.  Every model definition carries the file and lines it models and says where it simplifies.
* Assumptions are theorem hypotheses, never axioms, in particular
  * `hash : Header → Nat` is an uninterpreted parameter.  Where a walk along previous hashes must end we assume *acyclicity on the headers
    ever presented*: there is a rank that grows from a header's previous hash to its own hash, for every header in the universe `U` of
    presented headers.  (It would be false for *all* 80-byte headers by a pigeonhole argument, so it is never assumed for all headers.)
    Likewise for absence of hash collisions.
  * The iteration order of hash maps and random choices are parameters (`Env`), arbitrary at each use; `Env.Legal` says that shuffles are
    permutations and samples are elements.
  * What the operating system does (results of writes, connection attempts, crashes) is a parameter or part of the operations.

## Conventions

* Each component has `Model.lean` (code, function by function), `Spec.lean` (independent specification: what the English property says,
  mostly functions of the *history* of operations and their outputs), `Props*.lean` (the property theorems), helpers, and `Scenario(s).lean`
  or sections beside the theorems with concrete cases that meet the hypotheses, and the counterexamples.  Small components use fewer files.
* A Rust panic (`assert!`, `unwrap`, `expect`, index out of bounds, debug overflow) is an explicit result value (`Res.panic`); "never
  panics" is a theorem.  A flag `checked` says whether overflow checks and debug assertions are compiled in.
* Integer widths: heights, times and sizes are `Nat`; where the Rust type can over- or underflow this is modelled explicitly or recorded as a
  simplification in the definition's comment.
* Histories are lists of operations with their outputs, most recent first; `Run`/`Reach` relations generate the reachable states.
* Hash maps are association lists with unique keys (`AMap`), tree maps sorted lists, hash sets duplicate-free lists.

## What is modelled, and what is not

| component | code modelled | left out |
|-----------|---------------|----------|
| `Verif.Chain` | chain/src/block/cache.rs (all of `BlockCache`: import, extension, fork selection, validation, load, queries), common/src/block/tree.rs (locators, trait defaults), the parts of common/src/block.rs and common/src/network.rs they use (compact targets, checkpoints, retargeting limits) | SHA256d (a parameter; `Chain/Sha256.lean` is the real one, used by `Chain/Networks.lean`, which models common/src/network.rs, block/checkpoints.rs and block/genesis.rs), iterators as lazy objects (lists instead, except `Iter` of common/src/block/iter.rs: `Chain/Iter.lean`), logging |
| `Verif.Store` | chain/src/block/store/io.rs, store/memory.rs, `StoredHeader` codec of chain/src/filter/cache.rs, store part of client/src/client.rs `load` | file locking, power failures that re-order unsynced writes |
| `Verif.Cbf` | chain/src/filter/cache.rs, common/src/block/filter.rs, p2p/src/fsm/filter_cache.rs, p2p/src/fsm/cbfmgr.rs, p2p/src/fsm/cbfmgr/rescan.rs | Golomb-coded set matching (parameter), logging |
| `Verif.Time` | common/src/block/time.rs (`AdjustedTime`), net/src/time.rs, net/poll/src/time.rs (`TimeoutManager`) | reading the system clock |
| `Verif.Ping` | p2p/src/fsm/pingmgr.rs | logging |
| `Verif.Io` | net/poll/src/socket.rs, p2p/src/fsm/output.rs, `Iterator for StateMachine` of p2p/src/fsm.rs, net/src/event.rs, p2p/src/stream.rs, client/src/service.rs | the payload decoders of the bitcoin crate (parameter `parse`, required to be prefix-stable), epoll |
| `Verif.Addr` | p2p/src/fsm/addrmgr.rs, in-memory store of common/src/p2p/peer.rs | logging |
| `Verif.Peer` | p2p/src/fsm/peermgr.rs, message dispatch and connect/disconnect commands of p2p/src/fsm.rs; `Net`: net/poll/src/reactor.rs (sockets, dialing, processing of outputs) | two sockets with the same remote address, `AlreadyExists` of a fresh socket |
| `Verif.Tx`, `Verif.Fees` | what is looked at in transactions and blocks; p2p/src/fsm/fees.rs with exact double-precision arithmetic | script and signature contents |
| `Verif.Inv` | p2p/src/fsm/invmgr.rs | logging, `Peer::requests` (never read) |
| `Verif.Sync` | p2p/src/fsm/syncmgr.rs on the tree of `Verif.Chain`, `Command::ImportHeaders` of p2p/src/fsm.rs | logging, protocol version in `getheaders` |
| `Verif.Wallet` | wallet/src/wallet.rs (`apply`, block events, `run`), wallet/src/wallet/ui.rs (what is drawn), wallet/src/wallet/db.rs, wallet/src/wallet/schema.sql | layout of the screen, hardware device (parameter), SQLite failures |
| `Verif.PeerStore` | client/src/peer.rs, `KnownAddress` and `Store::seed` of common/src/p2p/peer.rs, the peers in `load` of client/src/client.rs | the JSON text format of `microserde` and the text forms of addresses (parameters, see `Text.Sound`) |
| `Verif.Node` | `StateMachine` of p2p/src/fsm.rs as far as the sync, inventory and filter managers and the queues between them go: `initialize`, `event`, `command`, `message_received`, `timer_expired`, `next` | peer, ping, address managers (their events are inputs here); order of outputs across managers |
| `Verif.Machine` | the whole `StateMachine` of p2p/src/fsm.rs (all managers, the outbox order of `next`), and the loop of net/poll/src/reactor.rs as far as sockets, `connected`/`disconnected` calls and outputs go, and client/src/service.rs between them (`Machine/Service.lean`) | how messages are encoded (see `Io`, `Wire`), logging; the commands that only read are in `Node/Answers.lean`, `Machine/Answers.lean` and `Peer/Query.lean`; peers are numbers in `Node` and socket addresses elsewhere (`Cfg.id`, injective) |
| `Verif.Cbf.Gcs` | `BlockFilter` of rust-bitcoin 0.29 (util/bip158.rs; a dependency, not in /repo), which common/src/block/filter.rs and rescan.rs call | reading a filter from a stream that fails for other reasons than its end; overflow of the count times M wraps (as in release builds) |
| `Verif.Handle` | net/src/event.rs, `Handle` of client/src/client.rs (`events`, `blocks`, `filters`, `connect`, `disconnect`, `wait_for_peers`, `wait_for_height`, `submit_transaction`) | the clock and scheduling of the waiting thread (parameters: when it takes which event), errors of the command channel and waker |
| `Verif.Loop` | `Handle::_command` and `Handle::shutdown` of client/src/client.rs, the loop `Reactor::run` of net/poll/src/reactor.rs with its waker and timers, as concurrent threads; apart from that (`Sockets.lean`) the registered sockets with `process`, `handle_writable` and `handle_readable` | the service (its requests for timers are a parameter), sockets (sources that may be ready at any time), crossbeam's channels and popol's waker (taken as queues and a flag), errors of `wake`, a clock that goes backwards, errors that end the loop, popol's `Sources` (taken to report registered sources, each once, and only what was asked for) |
| `Verif.Sim` | net/src/simulator.rs: `Inbox`, `Simulation::{new, latency, step, schedule, is_partitioned}` with connections, attempts, partitions, latencies, timers and events | the simulated state machines and the random generator (environment), `initialize`, printing and `run_while`'s end; time as natural numbers |
| `Verif.Time.Clock` | net/src/time.rs: `LocalTime::now`, as steps of concurrent threads | weak memory (all operations are `SeqCst`), times before the epoch or beyond 64 bits |
| `Verif.Wallet.Exit` | wallet/src/lib.rs: `run`; wallet/src/input.rs: `run`, `signals`; the loops of `Wallet::run`, as concurrent threads | what inputs and events do (`Verif.Wallet.Screen`); the client as a thread that may fail; `signal_hook` and `termion` as environment |
| `Verif.Wallet.Table` | wallet/src/wallet/ui/table.rs; `Aligned` of wallet/src/wallet/ui.rs | escape sequences; characters that take more or less than one column |
| `Verif.Wallet.Hardware` | wallet/src/wallet/hw.rs; the first function key (wallet/src/wallet.rs: `handle_input`) | the device, the decoding of addresses and the text form of paths (parameters) |
| `Verif.Wallet.Amount` | wallet/src/wallet/ui.rs: `Balance` | amounts of 2^53 satoshi and more (the conversion to `f64` is then not exact) |
| `Verif.Wallet.Database`, `Verif.Wallet.DatabaseLife` | wallet/src/wallet/db.rs, wallet/src/wallet/db/types.rs: results, and statements that fail | SQLite itself (what becomes of a statement is a parameter); text forms of addresses and ids; the columns `received`, `used` and `date`, which are never written |
| `Verif.Book` | common/src/collections.rs: `AddressBook` | the random generator (the numbers drawn are parameters; the loop of `fastrand` 1.8's `shuffle` is modelled) and the hashing of `HashMap` (its order is a parameter) |
| `Verif.Start` | node/src/main.rs, node/src/lib.rs, wallet/src/main.rs, wallet/src/lib.rs: from options to the configuration | the parsing of the command line (argh), log levels |

Not modelled at all: threads and channels beyond FIFO queues, command line, logging, TUI and hardware device, the simulator and test
crates, and the glue of `client.rs` and `fsm.rs` other than what the table lists.

## Properties: what is modelled and how it is proved

Status as in MANIFEST.json.  "partial": the claim holds in part only, or part of it is not proved; the note says which, and the named
counterexamples are theorems.

| id | title | status | model | proof | note |
|----|-------|--------|-------|-------|------|
| C01 | Active chain is a single linked chain rooted at genesis, seen consistently by every query | proved | Chain: `BlockCache`, `import_block`, `import_blocks`, `extend_tip` | invariant preserved by every step, induction over histories | Absence of panics is for release builds; C01_debug_build_can_panic shows the 32-bit time arithmetic panics in debug builds. |
| C02 | Reported chain work is exact and never decreases | proved | Chain | part of the invariant; monotonicity from the selection loop | Monotonicity for histories in which the store does not fail. |
| C03 | Chain selection picks the branch with most work | proved | Chain: `find_best_chain`, candidates in any order | fold lemma: the result is maximal | Branches valid in the tree before the switch. |
| C04 | Order of header arrival does not matter (outside mainnet) | proved | Chain, validation that succeeds, no checkpoints | invariant "active chain is the best chain formable from known headers"; uniqueness of the best chain | Setting of the property spelled out in OrderSetting; Scenario.orderSetting shows it is met. |
| C05 | Import of one header reports exactly what changed | proved | Chain | equation for `switch_to_fork` |  |
| C06 | Batch import reports the net change of the active chain | partial | Chain: `import_blocks` | fold over the batch; counterexample | Exact when no header is disconnected and connected again within the batch; C06_incomplete_report shows the claim fails otherwise. |
| C07 | A rejected header never disturbs the active chain | proved | Chain: error paths | case analysis; fold lemma for batches | Store I/O failures excluded. |
| C08 | Every active header carries valid proof-of-work and matches checkpoints | proved | Chain: `validate` | invariant over histories |  |
| C09 | Contextual validation: difficulty and timestamps of accepted headers follow the consensus rules | partial | Chain: `validate` | in-order import; counterexample for branches | Proved for headers that connect directly to the active chain; false for headers activated as later members of a branch (C09_counterexample). |
| C10 | Blocks at or below the last checkpoint are never reverted | partial | Chain: checkpoints | work comparison; counterexample | Proved unless a shorter chain of presented headers has as much work as the checkpointed prefix; false otherwise (C10_counterexample). |
| C11 | Persistent header store mirrors the active chain and reloading restores it | proved | Chain: store as list, `load_with` | invariant and reload theorem |  |
| C12 | Block locators | proved | Chain: `locators_indexes`, `locator_hashes` | recursion lemmas |  |
| C13 | Answering getheaders | proved | Chain: `locate_headers` | from the C01 invariant |  |
| C14 | find_branch returns a linked path from the active chain to a known block | proved | Chain: `find_branch` | from the C01 invariant |  |
| C15 | Difficulty retargeting | partial | Chain: `next_difficulty_target`, compact encoding | arithmetic; counterexample | Proved when the period does not have negative length; the code wraps otherwise (C15_negative_timespan_counterexample). |
| C16 | Median time past | proved | Chain: `median_time_past` | sorting lemmas |  |
| C17 | File header store behaves like an append-only list with truncation | proved | Store: file as byte list; put/get/rollback/iter/heal | refinement to a list of headers | Operations used as documented (OpsOK). Two theorems show what happens outside it: roll-back above the tip appends zero records; get of a height near 2^60 wraps in release builds. |
| C18 | Header store survives torn writes | proved | Store | crash = arbitrary byte prefix of the write; heal restores a list | The last theorem records that a failed append without restart is not healed (later appends are misaligned). |
| C19 | Stored records decode to what was written | proved | Store: codecs; SHA-256 of the header (`Verif.Store.Hashed`) | round trip; equality of the bytes written and the bytes hashed | Field layout of rust-bitcoin's BlockHeader is part of the model. The bytes written for a header are those whose double SHA-256 is the hash of the block (C19_hashed, C19_file_hashed). |
| C20 | Memory and file stores are interchangeable | proved | Store: file and memory store | both refine the same list operations | Operations used as documented; outside it the stores differ (second theorem). |
| C21 | Crash during a re-org leaves a recoverable chain | proved | Store, with the roll-back/append sequence of a re-org | crash at every point; case analysis | Process crash: truncation atomic, append cut at any byte. Power failure with write re-ordering not modelled. |
| C22 | Filter-header chain is always hash-linked to genesis | proved | Cbf: filter header cache, cfheaders import | invariant over histories of the manager | All histories of the filter manager (any messages, any tree, re-orgs, restarts, store failures). |
| C23 | Verification of the filter-header store detects every broken link | proved | Cbf: `verify` | equivalence with the chain specification | verify succeeds iff the stored filter headers form a filter-header chain from genesis; also with an interrupting progress callback. |
| C24 | Filter header ranges | proved | Cbf: `get_range` | list lemmas | Range below the u64 maximum; C24_reversed_range shows what a reversed range does (debug panic, release: everything from start on). |
| C25 | Compact filter request ranges tile the requested interval | proved | Cbf: `HeightIterator` | induction | Any step > 0; C65_requests bounds the requests actually sent in every history. |
| C26 | A compact filter is only accepted if it matches the committed filter header | proved | Cbf: `received_cfilter` | case analysis; history version | Single call and over histories. |
| C27 | Filter memory cache is bounded and faithful | proved | Cbf: filter memory cache | invariant | The cache is not contiguous (C27_not_contiguous) and counts a height pushed twice twice (C27_repush_overcounts). |
| C28 | Rescan never requests a filter twice and leaves no gap | proved | Cbf: `Rescan::requests` | list lemmas | Every rescan state and range. |
| C29 | Rescan processes each height exactly once, in order | proved | Cbf: `Rescan::process` | induction over the scan; history version | C29_process: one call. C29_in_order: any history from a rescan command to the next rescan command or re-org. |
| C30 | Rescan stops at its end height | partial | Cbf: rescan | invariant; counterexamples | Proved: a stop event names the requested end and every height below it was scanned, in order. Missing and false: the end height itself, that the stop comes at all, that it comes once (the named counterexamples). |
| C31 | A re-org makes the rescan re-scan the replaced heights with the new filters | partial | Cbf: roll-back of a rescan | invariant; counterexample | Proved when no filter waits in the queue at a height above the fork; otherwise false (C31_scans_reverted_block): queued filters of reverted blocks are not dropped. |
| C32 | Network-adjusted time stays within 70 minutes of local time | partial | Time: `AdjustedTime` | invariant; counterexample for i64::MIN | Proved for all samples except the least i64, for which it is false (C32_min_offset) or crashes debug builds (C32_min_panics); at most 200 peer samples plus our own zero. |
| C33 | Adjusted offset is the median of peer samples | partial | Time | sorted-insertion lemma | All samples except the least i64, for which the bound check wraps. |
| C34 | Ping protocol: liveness detection and bounded bookkeeping | proved | Ping | invariant over histories | For any time-out; the client configures 30 s. A peer is disconnected again at every tick until the disconnect is processed. |
| C35 | Ping replies | proved | Ping | direct, in reachable states | Exactly one pong with the same nonce to known peers, nothing otherwise, in every reachable state. |
| C36 | Stream decoding does not depend on packet boundaries | proved | Io: `Decoder`, abstract prefix-stable grammar | induction over chunks | For every prefix-stable grammar; the network's frame grammar is shown prefix-stable for every checksum and payload decoder. After a decoding error the code repeats the disconnect call for each later chunk, so errors are compared as sets. |
| C37 | Timers fire in order, not early, and none is lost | proved | Time: `TimeoutManager` | sorted-list invariant | The sort order of equal keys is a parameter. |
| C38 | Socket writes preserve the byte stream | proved | Io: `Socket` | conservation of bytes | The operating system's write results are arbitrary, except that a write never claims more bytes than it was given. |
| C39 | Address manager index stays consistent and bounded | proved | Addr | invariant | Random choices and hash orders are arbitrary (indices in range, shuffles are permutations). The debug assertion of ban is included. |
| C40 | Banned addresses never come back | partial | Addr | invariant; counterexample | False in full: a ban has no effect when no address in the same range is known (C40_ban_without_effect). Proved otherwise: a banned address never returns to the book and is never sampled. |
| C41 | Address sampling respects eligibility | partial | Addr | case analysis in reachable states; counterexamples | Time is that of the last save of the book, so an address can be sampled twice within two minutes (C41_sampled_early); connections are tracked by IP, so a connected address can be sampled when two connections share it (C41_connected_sampled). Proved with those readings, plus completeness. |
| C42 | Address acceptance rules | partial | Addr | case analysis; counterexample | Acceptance rules proved for every message. Known addresses are kept unless their range gets full: then a message can evict and overwrite one (C42_known_overwritten). |
| C43 | Imported addresses enter the address book | partial | Addr | induction over histories (importing never changes the book) | False: proved that importing never changes the book, for every history and list, because the time of last activity is passed as zero, which the insertion filter rejects. |
| C44 | Handshake discipline | partial | Peer: handshake | invariant over histories | Proved: reports only after a valid version and then a verack on the same open connection, with the content of the version message; invalid versions disconnect and are never negotiated. Not true in full: a second version message leads to a second report, and self-connections are not noticed (both proved). |
| C45 | Connection limits | proved | Peer: limits | invariant | All histories of the peer manager; the inbound bound is even one less than configured. |
| C46 | Peer bookkeeping follows connections | partial | Peer and reactor | invariant of the composition | Reconnections: proved. Listing: proved for the composition with the reactor, in executions in which no connection is asked for with an address whose socket is still open; without that it fails (C71_redial_lost: disconnect and connect commands in one batch). |
| C47 | Transaction inventory is consistent | proved | Inv | invariant over histories | Announcements list exactly the queued transactions, all pending; requests are answered with exactly the pending transactions asked for; confirmation silences a transaction. |
| C48 | Blocks are delivered in ascending height order | proved | Inv | loop lemma; invariant | Processed blocks are exactly the requested and received ones, in ascending order, when none is missing. See C77 for what can be left out. |
| C49 | Bounded retries | proved | Inv | invariant relating counters with the history | Proved per peer, with the exact conditions. It does not hold per transaction: a transaction can be announced more than three times and sooner than a minute (Verif.Inv.Scenario.C49_reannounced), and a peer can be dropped without any announcement of the pending transaction (Verif.Inv.Scenario.C49_dropped_early). |
| C50 | Header synchronisation requests | partial | Sync with Chain | invariant relating the state with what the history says is outstanding | One outstanding request per connected peer, the reasons for requests, who is dropped, retry of announced blocks and treatment of unwanted headers are proved for all histories. 'Every overdue request is retried or the peer dropped' is false: a request made to get in sync is simply forgotten (C50_not_retried). |
| C51 | Serving headers | proved | Sync with Chain | from C13 | The answer to every getheaders, for every history; genesis hash of the configuration is that of the tree. |
| C52 | Chain events replay to the active chain | partial | Sync with Chain | from C06; replay lemmas | Replay is proved for histories of imports that do not fail after changing the active chain and do not re-activate headers within one batch; false otherwise (two counterexamples). |
| C53 | Fee estimates are ordered and reflect the block | proved | Fees: exact IEEE double arithmetic | rounding lemmas | Rates and medians are computed with an exact model of double-precision arithmetic (Fees/Float.lean). Fee rates are exact for fees below 2^50 satoshis. FeeEstimate::from, which is public, gives a median below the lower end for rates above 2^53 (Verif.Fees.Scenario.C53_large_rates); rates computed from blocks are never affected. |
| C54 | Fee estimator state after processing and rollback | partial | Fees | refinement to the multiset of unspent outputs | False in general: an input after an unknown one stays tracked; rolling back to the current height or above forgets the last processed block; rolling back more blocks than snapshots keeps the reverted blocks and refuses their replacements. Proved: rollbacks within the limits restore the state as if the reverted blocks had never been processed; unspent outputs are tracked; exact if all inputs are known. |
| C55 | Outputs of the state machine are delivered in order and none is lost | proved | Io: output queues | FIFO refinement | Order is per manager queue; events are also handed to all managers in the order in which they come out. |
| C56 | Event subscribers see all later events in order | proved | Io: `Emitter` | refinement | Channels are unbounded queues (crossbeam); a send fails exactly when the receiver was dropped. |
| C57 | Wallet balance equals the value of unspent outputs paid to watched scripts | proved | Wallet: `apply`, `handle_client_event`, the tables | refinement to the set of unspent outputs; sums over permutations | Assumes that transaction ids identify outputs (Sane), that the script of an address can be read back (Codec.Sound) and that the database executes statements. The bound 2^63 is needed: Scenario.C57_overflow and C57_negative show that a forged block with larger amounts ends the wallet or hides coins. |
| C58 | Peer address records survive saving and loading | partial | PeerStore: JSON of the peer cache | round trip over an abstract JSON type; crash points of flush | Parts of seconds are lost (Scenario.C58_time_rounded), times wrap in 2106 (C58_time_wraps), and a malformed address in the file is a panic (C58_bad_address_panics). Exact for times in whole seconds. Assumes the text formats of the libraries (Text.Sound); Scenario.text_sound is an instance. |
| C59 | No peer message crashes the filter client | partial | Cbf: message handlers | totality | cfilter never crashes; getcfheaders exactly in debug builds with a reversed range; cfheaders only with an active rescan and no filter peer (where it does, C59_cfheaders_crash). |
| C60 | No chain event, timer or user command crashes the filter client | partial | Cbf: events, timers, commands | totality; counterexamples | All cases in which a call can crash are listed; the counterexamples show they do. |
| C61 | Every filter match is eventually reported as a matched block | partial | Cbf | invariant relating matches and reports | Proved for matches found when a filter message arrives; false for filters found in memory when a rescan starts. |
| C62 | A Scanned event names a height that was scanned | partial | Cbf | from C29 | False as stated: Scanned names the next height to be scanned (C62_scanned_not_yet); proved: all heights below it were processed, in order. |
| C63 | Unresponsive persistent peers are not disconnected by the filter client | partial | Cbf: time-outs | case analysis | Only the peer of an expired request is disconnected; but persistence of the wrong peer is tested (C63_persistent_disconnected). |
| C64 | A rescan whose filters are all in memory completes | partial | Cbf | progress lemma | Proved when a filter peer is connected at the start; false otherwise (C64_cached_rescan_stalls). |
| C65 | Filter requests sent to peers are well formed | proved | Cbf: requests | invariant over the log | Start heights are sent modulo 2^32 as in the code. |
| C66 | Filter headers are taken only in answer to a request, from the peer that was asked | partial | Cbf, Machine | ghost history of requests sent and filter headers received; invariant: every request kept track of is open; counterexample: execution of the whole machine in which a stranger answers | Missing, and false: that the answer comes from the peer asked. C66_stranger: a party that completed no handshake and was not asked; C66_blamed: an honest peer is then disconnected. |
| C67 | A complete message frame is delivered or its sender disconnected | partial | Io: frames | case analysis over the grammar | False as stated: a complete frame whose payload ends early is reported as unexpected end of file and waited upon forever, blocking the peer's later messages (C67_truncated_payload_stalls). Proved when the payload decoder does not run out of bytes. |
| C68 | Addresses are requested when the book is exhausted, from connected peers | partial | Addr | case analysis in reachable states | With at most one connection per IP address; with two, a disconnected peer is asked (C68_disconnected_asked). C68_machine_partial: in executions of the whole state machine, without further assumptions. |
| C69 | Answers to address requests are bounded and come from the book | proved | Addr | direct | For every history and random choice. |
| C70 | Enough outbound connections | partial | Peer: `maintain_connections` | loop lemma; counterexample | Not true in full: as many inbound peers as the outbound target stop all automatic outbound connections (proved for every history, with a concrete case). Partial: all connections counted, once a minute the target is reached or all candidates are used. |
| C71 | Connection events match the connections | partial | Peer and reactor | invariant of the composition; counterexamples | Not true in full: an attempt that times out is reported disconnected though never connected, and reconnecting while a connection is being closed loses the event (release) or panics (debug); all three are proved. Partial: executions without such reconnections. |
| C72 | Slow peers are dropped, others are not | proved | Peer: time-outs | invariant | All histories of the peer manager. |
| C73 | Valid peers are accepted | proved | Peer: handshake | progress in reachable states | All histories of the peer manager; in debug builds the difference of the clocks must not overflow. |
| C74 | A block sent by a peer cannot crash the client | partial | Fees and Inv: blocks | totality under sensible amounts; counterexamples | False in general: the transactions of a block are not checked against its header, and a transaction that pays out more than its known inputs fails an assertion. Proved for blocks with sensible amounts. |
| C75 | Transactions of reverted blocks are pending again | proved | Inv: reverted blocks | loop lemma | Reverted events, pending again, announced again. |
| C76 | Peers that do not want transactions get none | partial | Inv | invariant; counterexample | False for transactions pending when the peer connects; proved for all others. |
| C77 | Received blocks are processed, reverted ones are not | partial | Inv: received blocks | invariant; counterexamples | False in two ways: blocks wait forever if the last requested block left the active chain, and a reverted block can still be processed. |
| C78 | Being in sync is reported truthfully | proved | Sync | invariant (known heights, last tip update) | Both directions, for all histories. |
| C79 | Header synchronisation does not crash | partial | Sync | totality | Proved for release builds. Debug builds panic in three ways (counterexamples). |
| C80 | New tips are announced | proved | Sync | origin of every output | Both directions, for all histories. |
| C81 | Headers are requested while a peer has a longer chain | partial | Sync | progress lemma for `sync` | Proved if a connected peer does not serve compact filters; false if all of them do. The peer asked may be one that is being disconnected (C81_dropped_asked). |
| C82 | Misbehaviour in header synchronisation | partial | Sync | origin of every output | A peer is reported exactly for more than 2000 headers; peers that send invalid headers are never reported. |
| C83 | Stopping the wallet never corrupts its coins | proved | Wallet: statements one by one, restarts (`Left`) | invariant over restarts: every row is an output of the chain; then the refinement of C57 from any such database | Statements are durable one by one. While the chain is scanned again, spent coins are shown again (Scenario.C83_during). |
| C84 | Wallet coins follow re-organisations | partial | Wallet: as C83, with the transactions of another chain | as C83; counterexamples | False as stated: coins of reverted blocks stay forever (Scenario.C84_phantom) and coins spent in reverted blocks are missing until the next scan (Scenario.C84_lost). Proved: after a scan of the active chain all its coins are there, and any other coin was created on the other chain and is unspent on the active one. |
| C85 | The wallet watches the same addresses after every start | partial | Wallet: start of `run`, the table of addresses | induction over the list of addresses; counterexample | False if the first start is interrupted while the addresses are stored: then only those stored are ever watched (Scenario.C85_interrupted). Proved for a first start that stores all of them. |
| C86 | The peer address file survives interrupted saves | partial | PeerStore: `flush` as truncation and a write that may stop at any byte; `Cache::from` | case analysis over the point of interruption; counterexamples | False as stated: the file is emptied before it is written, so all addresses can be lost (Scenario.C86_lost), and a file written in part keeps the client from starting at every later start (Scenario.C86_unreadable, C86_stuck). Proved: exactly what is loaded after each interruption. |
| C87 | Seeding the address book | proved | PeerStore: `Store::seed`, peers in `load` | induction over the answers | The answers of the DNS seeds are a parameter. |
| C88 | The managers stay consistent inside the state machine | proved | Node: the composed state machine, with output queues between managers | induction over histories; each step projects to a step of every manager | For every history of the composed state machine (sync, inventory and filter managers, with their output queues). |
| C89 | Scanned filters are those of the active chain | partial | Node: as C88; calm histories, and tidy histories with re-orgs | invariant relating filter scans to both chains and to the reports of re-orgs that wait | Histories without re-orgs, and histories with re-orgs in which the reports of a re-org are taken before anything else happens and blocks that leave the chain were dealt with before. False for other re-orgs (C31_scans_reverted_block). The scripts are those watched at that moment, plus those of the transactions followed. |
| C90 | Matching blocks are reported once and in the order of their matches | partial | Node: as C88; queues of the inventory manager included | invariant relating pending matches, block requests and queued events; counterexamples | As C89; counterexamples when the user requests blocks, and for rescans with matching filters in memory. |
| C91 | A rescan reports every block that concerns the watched scripts | partial | Node: as C88 | as C90, with the position of the scan as determined by the outputs | As C89, histories in which no other rescan or script is asked for; starts given as a height; with re-orgs also: rescans without end, after a re-org the scan goes on from the lowest block replaced. Without re-orgs also: nothing is reported that matches neither the scripts nor a followed transaction. The theorems named filters say it with the filters of BIP158: every block at the heights scanned that pays to one of the scripts or spends a coin paid to one is reported. |
| C92 | The wallet shows the coins of the active chain | partial | Node and Wallet | as C91 with C57; blocks that do not concern the addresses change nothing; counterexample | Histories without re-orgs (with re-orgs the wallet is wrong, C84), blocks sent by peers genuine; the client does not check that, see the counterexample. C92_filters_partial needs no assumption on the answers of filters, they are those of BIP158. |
| C93 | The order in which messages arrive does not matter | partial | Node: as C88 | from C91: the report (with re-orgs: the last report for each height) is determined by the chains and the scripts | As C91, no transaction followed. With re-orgs: a client that went through re-orgs and one that did not agree on the blocks of the active chain; reports about blocks that left the chain differ. |
| C94 | A rescan of future blocks changes nothing | partial | Node: as C88 | case analysis of the command; counterexample | Nothing is put out, requested or scanned by the command itself; but a scan under way is given up (counterexample). |
| C95 | Commands can be repeated | proved | Node: as C88 | computation: insertion into maps and sets is idempotent | Up to one more request for a wake-up. The repeated command comes right after the first. |
| C96 | Subscribers get every event, once and in order | proved | Handle: channels with subscribers that come, receive and go | invariant: received ++ queued = published since subscription | Nobody closes the channels of the handle: its own copy of the list of senders keeps them open after shutdown. |
| C97 | wait_for_height returns the block at that height | partial | Handle: `wait` over a feed of timed events, on Sync | reduction of `wait` to the first match; C52 for the tip reported; counterexample | Soundness is proved in full. Success is proved if the chain grows one block at a time after the query; false if a message with several headers passes the height (counterexample). |
| C98 | wait_for_peers returns the requested number of peers | partial | Handle: as C97, on Peer | invariant of the map of known peers; handshake report C44; general negative theorem | Soundness is proved in full, each peer at some moment since the call (not all at the same time: counterexample C98_gone). Success is proved if at most n peers are connected at first; with more the call always fails (C98_too_many). |
| C99 | connect and disconnect report what happened | partial | Handle: as C97, on Peer.Net | C71 for the events of connections; counterexamples | In executions in which no connection is asked for with an address whose socket is open (see C71). The calls fail if the peer is already connected, respectively not connected (counterexamples). |
| C100 | submit_transaction returns the peers that get the transaction | proved | Handle: answer of the command, on Inv | C47 and C49 | The next announcement comes when the timer fires. |
| C101 | Transactions are only announced to peers that want them | partial | Inv: as C47 | induction over the history of the queue; counterexample | Proved for peers that connected while no transaction was pending; false for others: pending transactions are announced to every new peer (counterexample). |
| C102 | Nothing that peers or the user do crashes the client | partial | Node: as C85, release build | invariant of the three managers; totality of each (C60, C74, C79) from it; for re-orgs to shorter chains the ownership invariant of C106 bounds the filter headers; counterexamples | Proved for release builds, if the active chain never became shorter, or else re-orgs are reported before the next input is given and imports are clean as in C106; the filter store did not fail, heights fit in 64 bits, amounts in blocks make sense, and the input is neither a request for filters above the filter headers nor filter headers during a rescan without filter peers. Each of the conditions excludes a crash (five counterexamples; for debug builds see C59, C60, C74, C79). |
| C103 | A rescan gets on after lost requests or answers | partial | Cbf: the filter manager as in C28/C29, histories `Delivered` | what the timer asks for (C28); an invariant over filter messages: each height is scanned, queued or asked for, and after a scan the next height is not queued | Holds whenever at least one filter of the range is missing; if all are in memory nothing is asked for and the rescan stands still (counterexample). The chain of blocks does not change between the timer and the answers. |
| C104 | Valid headers are accepted | proved | Chain: as C01 and C09 | converse of C09 for the checks; the branch of the new header alone is heavier than nothing; induction over the message | Release builds, a store that does not fail, timestamps that do not wrap 32-bit arithmetic. Parameters: compacting and expanding a target returns it (shown for the real arithmetic in Compact.target_compact_target). For a whole message no stale headers may be known, since a heavier stale branch could win. |
| C105 | Initial download reaches the chain of an honest peer | partial | Sync and Chain; the peer answers as `locate_headers` on its own tree; histories `Talk` | induction over the conversation; C13 (answers), C12 (locators), C104 (import), C50 (one request at a time), C79 (no panic); counterexample for forks | Proved for peers whose chain extends ours, while no stale headers are known, in release builds. False for forks whose first headers do not carry more work than our branch: the client asks for the same header over and over (C105_fork_never_adopted, Scenario.C105_fork_loop). Peers that serve compact filters are not asked (C81). Forks that are complete and heavier within one answer are adopted (C105_fork_adopted_partial, with the restrictions of C124). |
| C106 | Filter headers belong to the blocks of the active chain | partial | Node; ghost list of block hashes, one for each filter header, kept by `owners` | invariant: each entry is that of the active chain or the report of the re-org waits in the queue; C06 (reports), C52 (events) | Proved for all histories in which the filter store does not fail and imports either succeed without re-activating a block they reverted, or leave the chain alone. Missing: an import that fails after a re-org leaves stale filter headers (C106_failed_import, a defect). |
| C107 | The client starts again after a stop or a crash | partial | Node, `Disk`, `restart` (client.rs `load`), `CrashIn` (disk contents while an input is handled) | C106 at the end of the history, C11 for prefixes of the store (`load_prefix`), C21 for bytes; counterexamples for re-orgs; invariant for filter headers that are never replaced | Proved for stops and for crashes at every point of an input that reverts no block, when no report of a re-org waits; the start then goes on without a panic (C107_starts, release build). Missing: a crash in a re-org can leave more filter headers than block headers, after which the client never starts (C107_crash_in_reorg), or filter headers of reverted blocks that are never replaced (C107_kill_before_outputs); both are defects. Disk contents are lists of entries; bytes and torn writes are C21. |
| C108 | The managers are used as assumed when wired together | proved | Machine: all managers and the queues between them (p2p/src/fsm.rs); Reactor: sockets and output processing (net/poll/src/reactor.rs) | what each manager is told at each input (`step_effect`), then induction over the execution | C108_sockets for executions in which no connection is asked for with an address whose socket is open (see C111); the managers' own executions are those of the other claims. |
| C109 | The managers agree on who is connected | proved | Machine; the events taken from the peer manager so far | invariant `Agrees`: rosters of the managers equal the peers met, by induction; C46 for the peer manager | exact for sync and ping managers; the inventory and filter managers know only such peers. |
| C110 | Requests go only to peers that are connected and serve what is asked for | proved | Machine, as C109 | the requests of one input go to members of the rosters (per manager), then C109 | requests put out while one input is handled, against the events taken by then. |
| C111 | A peer that is gone is forgotten | partial | Machine with Reactor | C109 and C71 (open sockets) | False in full: C111_redial. Proved for executions in which no connection is asked for with an address whose socket is still open. |
| C112 | Nothing a peer sends and no command crashes the client | partial | Machine | each manager apart from the node is total in release builds (`*_total`); C102 for the node | Release builds. Peer, ping and address managers and the wiring never panic (C112_who, full); for the node the conditions of C102 remain, with counterexamples there. |
| C113 | No output of the state machine is lost | proved | Machine with Reactor; `State.Waits` (Machine/Spec.lean, Node/Queues.lean) | one step keeps what waits or takes the head (`step_keeps`), then induction over the path to a state with an empty outbox | The order in which the outboxes are emptied is that of the code; address-manager outputs keep waiting as well (C113_processed covers them). |
| C114 | A peer that misbehaves or does not answer is disconnected | partial | Machine with Reactor | C113 brings the report to the head; the step that processes it closes the socket (`closes_step`) or makes the peer manager ask for that (`report_step`), then C113 again | C114_closed, C114_asked and C114_ping for every execution; reports of misbehaviour for executions in which no connection is asked for with an address whose socket is open (see C111). |
| C115 | The client connects only to addresses it was told about or that are usable | partial | Machine; Peer (`maintain`, `connect`), Addr (`sample`) | every call of the peer manager dials only what it may (`Dials`), the addresses drawn come from the address manager (`step_addrEffect`), then C41 | That there is no open connection with the same IP address holds as long as there is at most one connection per IP address (otherwise C41_connected_sampled); banned addresses: C116. The rest in full. |
| C116 | A peer that was disconnected for its behaviour is not dialed again | partial | Machine | what the address manager is told is what the events say (`run_heard`), then C40 over the rest of the execution | For public IP addresses in a range of which the address book has an address; otherwise the ban has no effect (C40_ban_without_effect). |
| C117 | The client does not loop: the processing of outputs ends | proved | Machine/Reactor.lean (processing steps), Addr sampling, the outboxes | Lexicographic measure: 3·(addresses not drawn recently) + 2·(dials that wait) + open sockets; events that the other managers act on; outputs of the sync manager; of the inventory manager that the filter manager hears of; the rest. Every processing step decreases it; well-foundedness of the lexicographic order. | No infinite sequence of processing steps, from any state (a measure on the addresses not drawn recently, the dials that wait, the open sockets and the outboxes decreases). A bound on the number of dials. In a release build processing stops only when there is nothing left, unless the sync, inventory or filter manager panics (C102/C112). |
| C118 | Asking for the peers and broadcasting to them gives exactly the connected peers | partial | Peer/Query.lean (GetPeers, broadcast, Peer::from), over the peer manager and the whole state machine | Invariant: what is kept with a connection is what the open connection was made with and what its last version message said (uniqueness of the session); completed handshakes were reported and not revoked; machine level by C109 and C46. Counterexample for broadcasts before the end of the handshake. | get_peers is exact for every history, and agrees with the reports to the other managers and with the sockets. Broadcasts go exactly once to every selected peer that sent its version; that includes peers whose handshake is not complete, so the property is false for them (C118_broadcast_early). The socket part needs that no connection is asked for with an address whose socket is still open (as C46, C111). |
| C119 | The filter headers catch up with the chain | proved | Cbf (filter manager), over endless executions | A relation on the requests in flight kept by every call (`Moves`); a due synchronization puts the next request in flight; a time-out sends it again; an honest answer raises the height (`honest_next`); otherwise, requests and answers for the same range would alternate for ever: contradiction with the fairness of answers. Induction on the missing heights. | Liveness over endless executions, under the fairness conditions spelled out in the structure Serves (chain unchanged, store works, always a filter peer, timers go on, honest answers, a request sent again and again is answered again and again and only then). A concrete endless execution with a lost message meets them (ScenariosSync.lean). |
| C120 | Only peers that send improper messages about filters are reported | partial | Cbf | Outputs of every call split into quiet ones and reports (`step_blames`); honest answers pass every check when filter headers have no collisions. Counterexamples: re-organization while a request is in flight; forged filter headers. | Holds when the filter headers held are those of the chain. False in full: an honest answer arriving after its stop block left the chain gets the peer reported (requests in flight are not dropped at a rollback, and the stop hash is then unknown); and once a stranger got forged filter headers accepted, honest peers are reported for true filters. |
| C121 | A rescan gets to the tip | partial | Cbf (filter manager and rescan), over endless executions | On top of C119: invariant of a running rescan (`Runs`: nothing from the current height on is queued or cached unless the current filter is missing; `Going`: scanned so far is the range from the start); a silent timer clears the requests and asks again from the current height; if the current height stood still it would be asked for again and again, so its filter would come in and be processed: contradiction. Induction on the missing heights. Without the condition on cached filters: C64_cached_rescan_stalls. | Liveness over endless executions, under the fairness conditions spelled out in Serves/Delivers; a concrete endless execution with lost and re-ordered messages meets them (ScenariosArrive.lean). Missing: rescans over heights whose filters are in memory when the user asks; they may stall (C64_cached_rescan_stalls), so the full claim is false. |
| C122 | Blocks that were asked for are delivered | partial | Inv (inventory manager), over endless executions | An outstanding block is asked for again by every timer 15 s after the last request (C49), so comes in; the first one to come in either is the last (all waiting blocks are delivered, C48) or waits; induction on the blocks outstanding. Negative: as long as one is missing, nothing is delivered. | Holds if every block asked for is on the chain and comes in when requested again and again, and no more are asked for. False in full: one block that does not come in keeps all others from being delivered, for ever (C122_blocked; nothing removes a request). |
| C123 | Header synchronization gets to the tip | partial | Sync: as C79, and Chain: as C104 | the chain grows or stays; while it stays, the timer makes requests that start at the tip (no request is ever sent again with old locators), so an answer comes and extends the chain; concrete endless execution with a lost request | Proved for release builds if every header that comes in is one of the best chain, starting at most one above our tip, no stale headers are known at the start, and blocks announced by inv are known already. Not proved: other headers coming in (false with forks, C105_fork_never_adopted), and if all peers serve compact filters (false, Scenario.C81_all_serve_filters). |
| C124 | The chain with the most work wins | partial | Chain (`validate`, `medianTimePast` above the tip, `nextDifficultyTarget`) | pointwise comparison of the timestamp windows of both chains; invariant over the delivery (on the old chain / on the fork); counterexample by an invariant over all further imports | Proved for networks without the minimum-difficulty rule, forks of at most one retarget period (2016 headers) whose headers are later than every header they would displace; the whole-delivery theorem also starts from a tree without stale headers. The full statement is false of the code: the headers of a fork are measured against the median time (and retarget base) of the active chain, so a heavier chain whose headers all obey the rules can be refused for ever (C124_counterexample, for any number of further headers on top of it). |
| C125 | Submitted transactions are announced, and settled | partial | Inv (inventory manager), over endless executions | A timer a minute after the last announcement announces all that is queued or gives the peer up (C49); times of announcements only grow by announcements. Settled: four times the number of transactions queued plus the announcements left decreases with every announcement and never grows. Negative: a concrete periodic execution. | Announcement: full. Settlement: proved when no more transactions are submitted or reverted; otherwise false (C125_kept): a request for any transaction resets the attempts of the peer. |
| C126 | Iterating over the chain from both ends | proved | Chain/Iter.lean (the double-ended iterator) | invariant by induction over the calls: what was got from both ends and what is left are the chain | For all chains and all sequences of calls. |
| C127 | The wallet's screen shows what the wallet knows | partial | wallet/src/wallet/ui.rs and the loops of wallet.rs as steps on the user interface, the database and the three areas of the screen | invariant: every area is up to date or marked, and what is known equals a function of the history; counterexamples for 'Synced' | Balance, tab, contents and status are shown as claimed, and no step panics. The claim about 'Synced' is false: it is decided by a Scanned event, which names the next height, and by the height of the last import, which is 0 after a restart. |
| C128 | Questions about the chain and about submitted transactions have answers that fit together | partial | Node/Answers.lean (the commands that only read), Machine/Answers.lean | every step is at most one turn of the sync manager and leaves the tree alone otherwise, so a history of the client is one of the sync manager with the same outputs; C01, C02 and C52 are carried over. The outbox of the sync manager is always the end of what it put out. The pool follows the outputs (fold over the history). Negative: an import that fails midway. | Proved in full but for the events: they lead to the chain of the answers as long as imports do not fail midway and no single batch re-activates old headers. Without that it is false: C128_failed_import is a history in which a peer sends a branch followed by a bad header; the chain is replaced and no event says so. |
| C129 | What peers send cannot fill the client's memory | partial | Chain, Cbf, Inv, Io/Stream, Node and Machine models | potential functions: what is kept is bounded by what was asked for, by induction over histories; every header kept went through the checks of import. Negative: the inbox of a connection grows without bound after a message whose payload ends too early | Proved for blocks, transactions, headers and filters. Not true for the bytes of a connection: after a message whose payload ends too early any number of bytes is kept (proved); otherwise less than one message is kept. The number of connections, addresses and time samples is bounded by C45, C39 and C32. |
| C130 | Our side of the handshake | proved | Peer model (`reply`, `ownVersion`) | case analysis on all operations, then induction over histories: the handshake messages sent are a sequence of greetings and answers | The time field is 32 bits wide in the model as in the conversion of the code, hence 'until 2106'. An inbound peer gets its own nonce back in our version message, as in the code. |
| C131 | Peers cannot fill the address book from one network | proved | Addr model (`addrKey`, `isRoutable`, `isLocal`, ranges) | counting over the ranges of C39_index; the address classes equal membership in a list of networks given as prefixes (omega) | The code hashes networks into 255 ranges of 256 addresses; addresses of one network share a range. For version 6 addresses nothing is claimed about being public: the code takes all (C42_v6). |
| C132 | Filter requests are spread evenly over the peers | proved | Cbf model (`askFilters`, the cycle over shuffled peers) | the peers asked are a prefix of the cycle; counting residues; the book of peers has no address twice (invariant) | The shuffle is any permutation. |
| C133 | Addresses tried in vain are left alone, addresses that answered are not given up | proved | Address manager (`Addr`) inside the whole state machine (`Machine`). | Invariant of the record of an address over all calls that are neither a completed handshake nor an announcement of it (`step_kept`); carried to the state machine by what it tells the address manager. | C133_machine is about the whole state machine; C133_met is about the address manager (an address is found when one is asked for, unless that one is connected or was drawn in the last three minutes). |
| C134 | Every part of the client hears what it should hear | proved | The whole state machine (`Machine`). | Message by message and event by event: what each manager is told is read off the effect of one step (`step_effect`, `step_addrEffect`); the answers to pings and address requests by way of C109 and C69. | Message by message (Reaches), event by event (Why, Complains), without the tables of the model. 'Other network' is a flag of the message. Which operations of a manager follow from what it is told is the subject of the other properties. |
| C135 | The built-in networks are set up correctly | proved | Constants of the networks and SHA-256 (`Chain/Networks.lean`, `Chain/Sha256.lean`) as a configuration of the header tree (`Chain`). | The facts about constants by evaluation in the kernel, network by network; the rest by instantiating C01 and C08. | SHA-256 is computed in Lean (Chain/Sha256.lean); the genesis blocks, consensus parameters and magic numbers come from rust-bitcoin and are written down from its public source (the genesis headers hash to the hashes in /repo). What is assumed of the hash: no header is its own ancestor (Acyclic). The example is the first real block of mainnet. |
| C136 | Compact filters miss nothing | proved | BIP158 filters (`Cbf/Gcs.lean`): SipHash, bits, Golomb-Rice codes, `build`, the two searches, `blockFilter`. | Round trips of bits and codes; the searches over sorted lists by induction; together the answer is membership of hash values. | The filters are those of rust-bitcoin 0.29 (util/bip158.rs), written down from its public source (it is a dependency and not in /repo): SipHash-2-4, Golomb-Rice coding, readers and writers of bits. Blocks with fewer than 2^64 scripts. The model evaluates to the test vectors of BIP158. |
| C137 | A block that contains a submitted transaction is found | partial | BIP158 filters as parameters of the filter manager (`Cbf`) and the state machine (`Node`). | C136 for the outputs of the transaction; that it is followed while scanned by the invariants of C91 and C106; the failure by a concrete transaction with an OP_RETURN output. | Only if the script of no output is empty or starts with OP_RETURN: all outputs are looked for, but filters leave those out, so a transaction with data is never found (counterexample). In the client: rescans without end asked for after the submission, histories as for C91_rescan_reorg_partial, filter headers that commit to the block's filter only. |
| C138 | A submitted transaction that gets into a scanned block is reported as confirmed | partial | the state machine with its managers and queues (`Verif.Node`), real filters (`Verif.Cbf.Gcs`) | from C137 and C90: the block is found and reported; reported blocks were processed since the rescan; invariant: a submitted transaction is pooled, in no block processed since, or reported as confirmed | proved for tidy histories with re-orgs (blocks found are reported before the next rescan, no re-org below a block still awaited), for transactions none of whose outputs has an empty script or one that begins with OP_RETURN; without that restriction it is false of the code (C137_counterexample): such a transaction is never found in a filter |
| C139 | The client hears exactly what its peers say, however the network cuts up the bytes | proved | `client/src/service.rs` around the whole state machine (`Machine/Service.lean`), the decoder of `Verif.Io`, the reactor of `Machine/Reactor.lean`. | The loop over the inbox can be interrupted anywhere (induction on the bytes); every execution with bytes is one of the state machine with the messages in them; the request to close survives until it is processed (C113, C114). | For every prefix-stable decoder (the network's is: frame_stable of C36). When messages crash the client: C112. |
| C140 | Commands given through handles are executed, once and in order | proved | Handles, command and shutdown channels, waker and the loop of the reactor as threads whose steps interleave (`Verif.Loop`). | Invariants over all interleavings (what was sent is handled or waits; a waiting command has a wake-up to come); for infinite executions a measure that each step of the reactor lowers. | The reactor's thread must get its turn (Fair); a reactor that ends (shutdown or i/o error) drops what is still in the channel. |
| C141 | shutdown ends the client | partial | As C140. | The same measure for a pending shutdown; the failure by an execution in which the shutdown falls between the look at its channel and the reset of the waker. | False of the code: a shutdown whose wake-up falls between the reactor's look at the shutdown channel and its reset of the waker is lost. Proved: outside that window the client ends, if commands stop coming; and a lost shutdown stays lost until the next call. |
| C142 | The client is woken when it asked to be | partial | As C140, with the timers of `Verif.Time` and a clock. | Invariant: each request is covered by a running timer or a wake-up less than a second away; a measure for quiet executions; the failures by concrete infinite executions. | False of the code in two ways: a request within a second of a running timer is dropped, so the wake-up may come up to a second early and never again; and timers are not looked at while sockets keep the reactor busy. Proved: each request is kept to within a second, and fires once nothing else wakes the reactor. |
| C143 | What the client sends is written to the connection | proved | Registered sockets with their buffers and the interest in writing, the events of a poll and the outputs of the service as steps of the loop (`Verif.Loop.Sockets`, on `Verif.Io`). | Invariants (wire and buffer are what was sent; a buffer that is not empty comes with interest in writing; events left are about registered sockets); for infinite executions induction on the bytes that are missing. | Takes says that as long as the reactor asks to be told that a socket can be written to, it is told at some time and bytes are taken; that is about TCP, poll and the scheduling of the thread, not about the code. |
| C144 | The simulator gives messages in order and loses none | partial | The whole simulator, with the simulated state machines and the random generator as environment (`Verif.Sim`); histories of what was sent and told. | Invariant over steps and outputs: given and under way, in order of time, are a sublist of what was sent, and all of it if no entry is due at the present time; what is sent in a step is what nodes put out, by induction on the outputs; the loss by a concrete simulation. | What is put out for a connected node counts as sent, in the order in which it is put out, always if the options have no failures; over a link that failed nothing is sent in either direction. Order, and no message twice: proved for all simulations. That none is lost: proved if no latency is zero and no timer has length zero; false otherwise (a disconnect removes the entry that is due at the present time). |
| C145 | The simulator wakes nodes that ask to be woken | partial | As C144, with the wake-ups asked for. | Invariant: a wake-up asked for was told or is in the inbox, for the node or for another that asked for the same time; the failure by a concrete simulation. | No node is woken without having asked. Wake-ups come if only one node asks; in general some node that asked for one is woken. False of two nodes that ask for the same time. |
| C146 | The simulator does not fail by itself | partial | As C144; assertions as errors. | Invariant: no entry of the inbox is before the present time; the failing assertion by a concrete simulation. | Time never goes backwards. The assertion that no node is both connected and connecting to another is false of nodes that connect to each other. |
| C147 | Simulated nodes are told of connections consistently | partial | As C144. | Invariant: the connections of the simulator are those it told of; the failure by a concrete simulation. | Connections and disconnects are told consistently. Messages are also given after a disconnect was told. |
| C148 | Simulated latencies are in their range | partial | As C144. | Invariant on the table of latencies; arithmetic; the failure by a concrete simulation. | Ranges and symmetry for all draws; at least a millisecond if the range does not begin at zero, false if it does. |
| C149 | The local clock does not go backwards | partial | `LocalTime::now` as three steps of any number of threads, with the clock of the system as environment (`Verif.Time.Clock`). | Invariants over interleavings, for clocks that are not set back and for calls that do not overlap; the failure by a concrete execution. | Never behind the system's clock. Monotonic if that is not set back, or if calls do not overlap; false otherwise. |
| C150 | The wallet ends when the user asks it to | partial | The four threads of the wallet with their channels, the user as environment (`Verif.Wallet.Exit`). | Invariants over interleavings; the failures by concrete executions. | The client is told to stop only after an interrupt, and before the program waits for it; after q the program ends. False: it never ends without an error, an interrupt alone does not end it, q ends it without telling the client, and a failed client is not noticed. |
| C151 | What the wallet draws fits the terminal | partial | `Table` and `Aligned` on lists of characters (`Verif.Wallet.Table`). | Induction over rows and cells; the failures by concrete sizes. | Everything but the absence of panics: those happen on terminals narrower than the texts of the header (or without columns). |
| C152 | The wallet's addresses are those of its hardware device | partial | `Hw` with the iterator over children and the loop of `request_addresses`; the device as environment that changes between calls (`Verif.Wallet.Hardware`). | Induction over the iterator and the loop; over histories of uses for the stale handle; the failures by concrete worlds. | Addresses and indexes, all or nothing, and the first start are proved. False of the code: after a device was pulled out its handle is kept for ever (connect returns it, and reconnect uses get_or_insert), so that no request succeeds any more; and the first function key ends the program with an error if there is no device. The device and the decoding of addresses are parameters. |
| C153 | The amounts the wallet shows are the amounts | partial | `Balance::fmt` with the double as fraction and both roundings as functions on natural numbers (`Verif.Wallet.Amount`). | Bounds on the two rounding errors; the failures by concrete amounts. | At most 5000 satoshi off, exact for multiples of 10000 satoshi, and in order, with the floating-point division and the rounding to four decimals modelled exactly. False of the code: coins below 5000 satoshi are shown as nothing, and shown amounts do not add up. |
| C154 | Random choices leave nothing out and favour nobody | proved | `sample_with`, `shuffled` (the swaps of `fastrand`) and `cycle` on lists, the numbers drawn as parameters (`Verif.Book`). | Induction over the rounds of the shuffle, forwards for permutations and backwards to find the draws; the assumptions `Fair`/`Legal` of the managers' models are derived. | The numbers drawn and the order of hash maps are parameters; that the generator draws uniformly is not modelled. |
| C155 | What the wallet's database reports is what happened | partial | The functions of `Db` with their results; each statement may fail when prepared or when executed (`Verif.Wallet.Database`). | Case analysis over the fates of statements, lemmas about association lists; the failures by concrete databases. | Proved for statements that do not fail when executed; errors change nothing; nothing is ever stored twice, whatever fails. False of the code: refused insertions are not reported, failed reads end lists early or hide a coin that is then removed, and an address with a taken index is not stored but relabels another one. |
| C156 | What the command line asks for is what the programs do | partial | The options of the two programs and the configuration of the peer manager made from them (`Verif.Start`); the peer manager and the reactor as in C45 and C71. | Induction over executions with `C115_dialed` and `C73_accepted`; a count of distinct configured peers bounds the connections; the wallet's failures by concrete histories. | False of the wallet: the limit of outbound connections is not raised to the number of peers given, so with nine of them the last is refused (C156_wallet_refuses; C156_wallet_accepts_partial for up to eight), and the addresses to watch are not used (C156_addresses_ignored). All of it is proved of the node. |
| C157 | An address file is read in full or refused | partial | As C58, for arbitrary files (`Verif.PeerStore`). | Case distinction on the fields of a record, induction over the records; the failures by concrete files. | A file that is accepted was read in full (times as 32-bit seconds). Two parts are false: a record whose address is no address makes the client panic, and the name a record is filed under is not compared with its address. |

## Findings

Each is a theorem about the model (a concrete reachable case, or a statement for every history); the code lines are cited at the definitions.

* Chain: a batch that disconnects and reconnects headers reports an incomplete change (C06_incomplete_report); later members of a branch are validated against
  the active chain instead of their branch (C09_counterexample); a branch with more work can revert checkpointed blocks (C10_counterexample); a negative retarget
  period wraps (C15_negative_timespan_counterexample); debug builds can panic on 32-bit time arithmetic (C01_debug_build_can_panic).
* Store: roll-back above the tip appends zero records (C17_rollback_above_tip, C20_rollback_above_tip), `get` wraps (C17_get_wraps), a failed append
  is not healed without a restart (C18_failed_append_not_healed).
* Filters: reversed ranges (C24_reversed_range); the filter cache may have gaps and overcounts (C27_not_contiguous, C27_repush_overcounts); a rescan may stop before
  its end, never stop, go on beyond it, or stop repeatedly (C30_stops_before_end, C30_never_stops, C30_scans_beyond_end, C30_stop_repeated); queued filters of reverted blocks
  are scanned (C31_scans_reverted_block); crashes (C59_cfheaders_crash, C59_getcfheaders_crash, C60_getcfilters_crash, C60_rescan_crash,
  C60_shorter_chain_crash); matches in memory are not reported (C61_cached_match_not_reported); C62_scanned_not_yet; the wrong peer's persistence is tested
  (C63_persistent_disconnected); C64_cached_rescan_stalls.
* Time: the sample i64::MIN defeats the bound (C32_min_offset) or panics (C32_min_panics).
* Io: a complete frame with a truncated payload stalls its sender's messages for ever (C67_truncated_payload_stalls).
* Addresses: a ban may have no effect (C40_ban_without_effect); C41_connected_sampled, C41_sampled_early, C42_known_overwritten; imports never change the book
  (C43_not_imported); C68_disconnected_asked.
* Peers: a second `version` renegotiates (C44_negotiated_twice), self-connections are not noticed (C44_self_connection), negative heights wrap
  (C44_negative_height); inbound peers starve outbound connections (C70_inbound_starves, C70_counterexample); C46_unsupported; C71_never_connected, C71_redial_lost,
  C71_redial_panics.
* Fees: medians of very large rates (C53_large_rates); C54_spent_tracked, C54_rollback_above, C54_rollback_deep; a block whose transactions pay out more than they
  take in crashes the client — blocks are not compared with the Merkle root of their header anywhere (C74_forged_block).
* Inventory: C77_stuck, C77_stale, C49_reannounced, C49_dropped_early, C74_timer_panics, C76_unwanted.
* Header synchronization: a batch that fails half-way changes the active chain without an event (C52_aborted), batches that re-activate headers
  lose events (C52_reconnected), senders of invalid headers are not reported because the error is wrapped (C82_invalid_not_reported), overdue requests are
  forgotten (C50_not_retried), no request if all peers serve filters (C81_all_serve_filters), the peer being dropped is asked again (C81_dropped_asked), three panics
  of debug builds (C79_asked_again, C79_stale_twice, C79_clock).
* Wallet: coins of reverted blocks stay and coins spent in them are missing (C84_phantom, C84_lost); forged amounts end the wallet or hide coins
  (C57_overflow, C57_negative); spent coins are shown again while the chain is scanned after a restart (C83_during); an interrupted first start leaves addresses
  unwatched for ever (C85_interrupted).
* Peer address file: an interrupted save loses all addresses (C86_lost) or keeps the client from starting until the file is removed
  (C86_unreadable, C86_stuck); parts of seconds are lost (C58_time_rounded), times wrap in 2106 (C58_time_wraps), a malformed address crashes (C58_bad_address_panics).
* State machine: a block requested by the user makes matches be reported out of order (C90_user_request); matches found by filters in memory are never
  reported (C90_cached_match); the transactions of a block are not compared with its hash, so that a peer can make up coins (C92_forged_block).
* Handle: `wait_for_height` misses a height that is passed by a message with several headers (C97_passed); `wait_for_peers` fails for ever if more peers are
  connected than asked for (C98_too_many), and counts peers that have gone since (C98_gone); `connect` and `disconnect` time out if the peer is connected already,
  respectively not connected (C99_already_connected, C99_not_connected); receivers never see the end of the channel after a shutdown.
* Inventory: pending transactions are announced to every peer that connects, even if it does not want transactions (C101_unwanted); a transaction is kept
  and announced later although `submit_transaction` returned an error (C100_kept).
* The state machine of a release build panics (C102): when filter headers arrive during a rescan without filter peers (C102_cfheaders), when filters above the filter
  headers are requested (C102_filters), when a block pays out more than it takes in (C102_forged_block), and when a peer connects after the active chain became
  shorter and before the outputs are taken (C102_shorter_chain; the reactor handles all events of a poll before it takes outputs), or, even if they are taken,
  after an import that made the chain shorter and then failed, since no re-org is reported (C102_failed_import).
* C105 (counterexample `Scenario.C105_fork_loop`, general form `C105_fork_never_adopted`): when a peer's headers do not change the tip (a fork that does not carry more work yet), `received_headers` (syncmgr.rs:317-326) asks the peer for headers with the first of them as *stop* hash. An honest peer answers with just that header; it is known and stale, so nothing changes and the same request is sent again. In release builds this repeats as long as the peer answers, and since a request is always outstanding, block announcements are ignored (`received_inv` returns while syncing); a fork longer than one message, or one that grows later, is not fetched by this exchange. Debug builds panic at the second request (C79).
* C106, C107: filter headers of reverted blocks are dropped only when the report of the re-org is delivered, and the two files are written independently. An import that fails after
  a re-org leaves the filter headers of the old blocks (C106_failed_import). If the process is killed during a re-org between cutting off the old blocks and writing the new ones,
  `filters.db` is longer than `headers.db`, and every later start panics at the assertion in `sync` (cbfmgr.rs:571) until the files are removed (C107_crash_in_reorg, general form
  C107_never_starts; the healing of a damaged `headers.db` can have the same effect). If it is killed after a re-org and before the report is delivered, it starts with filter headers of
  the old blocks and never replaces them (C107_kill_before_outputs, C107_stuck).
* C111 (counterexample `Scenario.C111_redial`): if the user disconnects a peer and connects to it again before the outputs are processed, the new socket replaces the old one in the
  reactor's table and the end of the first connection is never reported. If the second connection fails, sync, ping and filter managers keep the peer for good and go on
  sending requests to it.
- **C66** Filter headers from anybody.  `received_cfheaders` checks that a request up to that block is open, but not who sends the answer, and `message_received` does not check that the handshake is complete.  A party that just opened a connection to us can answer our request with forged filter headers (`C66_stranger`).  They are taken, and the honest peers that send the true filters are then disconnected for misbehaving, while the stranger stays (`C66_blamed`).

- **C118 (broadcast).** `broadcast` (fsm.rs:567) goes through all peers that have sent a version message, not only those that are negotiated, unlike `GetPeers`: a message is also sent to peers whose handshake is not complete (`C118_broadcast_early`), which are not listed and not known to any other manager. The Bitcoin protocol forbids messages other than the handshake at that stage; peers may disconnect us for it.
- C120: filter-header requests in flight survive a re-organization. An honest peer whose answer comes in after the stop block left the active chain is reported as
  misbehaving ("unknown `cfheaders` stop hash", cbfmgr.rs:634-641; `inflight` is not cleared by `rollback`, 484-535) and disconnected. Likewise, after forged filter headers
  were accepted, honest peers are reported for sending true filters.
- **C122 (one missing block keeps back all others).** `received_block` (invmgr.rs:425) holds back all received blocks while any requested block is still missing, and nothing ever takes a block off the list of requested ones but its arrival. A single block that no peer has — `Command::RequestBlock` takes any hash, and a block matched by a filter may be on a fork that peers no longer serve — keeps all other blocks from being delivered, for ever (`C122_blocked`); the client then sees no more blocks, and the synced height of its mapper stands still.

- **A heavier valid chain can be refused for ever** (C124). `validate_branch` (cache.rs:422-437) checks the headers of a fork with `validate`, which looks up the median time past and the first block of the retarget period *by height in the active chain*. A fork whose headers are above the median of their own ancestors but not above that of the active blocks at the same heights is refused, and stays refused whatever is mined on top, so the node stays on the lighter chain (`Scenario.C124_counterexample`; there the window is short, on a long chain it takes a fork of at least six blocks). `C124_reorg_partial` gives conditions under which the fork is followed.
- **C125 (attempts are counted per peer, not per transaction).** Any request for any queued transaction resets the peer's attempts (invmgr.rs:347, 370), so a peer that never asks for one transaction but for others submitted again and again is never given up and that transaction is announced to it every minute for ever (`Scenario.C125_kept`). The converse of `C49_dropped_early`, where the attempts for one transaction count against another.
- **C127.** The wallet compares the height of a `Scanned` event with that of the last `BlockHeadersImported` event. The first names the next height to be scanned (see C62), the second never comes when the headers were already stored. So the wallet shows "Syncing 3/2" when all is scanned, "Synced to block 3" when block 3 was not, and "Syncing 5/0" after a restart (`C127_not_synced`, `C127_synced_early`, `C127_restarted`). The column `received` of the addresses is never written, so the tab always shows zero there. The coins are always shown with addresses of the main network. The balance is shown with four decimals.
- **C129 (bytes).** After a message whose payload ends before its declared contents do, the decoder waits for more bytes for ever (C67), and everything the peer sends from then on is kept: a peer can make the client keep any number of bytes (`C129_bytes_unbounded`). Even before, a peer may declare a length of up to 2^32-1 bytes, and the client keeps all of them until the message is complete.
- **C131/C42 (version 6).** All version 6 addresses count as routable and none as local (`C42_v6`), among them `::1` and link-local ones, so peers can put them into the address book.
- **C137 (transactions with data).** `watch_transaction` (cbfmgr.rs:367-372) takes the scripts of all outputs, `match_filter` (rescan.rs:145-164) asks the filter for all of them, but BIP158 filters leave out scripts that begin with OP_RETURN (and empty ones). A submitted transaction with such an output is never found by the filter, so its confirmation is never reported unless the block matches otherwise (`C137_counterexample`).

* **A shutdown can be lost (C141).** The reactor looks for a shutdown, then resets the waker (reactor.rs:235-238). If another thread calls `shutdown` between the two, its
  wake-up is erased and the client goes on running, until some other command is sent (C141_counterexample, C141_stuck). Resetting the waker first would do.
* **Timers are dropped for earlier ones (C142).** A request for a timer is dropped if another timer less than a second away is running, also an earlier one
  (net/poll/src/time.rs:55-61). The client is then woken before the time it asked for, finds that nothing is due yet, and is not woken again for it
  (C142_early_counterexample, C142_never).
* **A busy peer stops the timers (C142).** Timers are looked at only when a wait ends without any event (reactor.rs:255). While some peer sends so often that each
  wait finds something to read, no timer fires: no pings, no timeouts, no new connections (C142_busy_counterexample).
- **C144 (simulator: lost messages).** `step_` (simulator.rs:343-358) takes a disconnect from the queue of urgent inputs, which is not in the inbox, and then removes the inbox's entry at the present time all the same. With a latency of zero (C148), or after a timer of zero length, that is a message or a wake-up which is lost (`C144_lost_counterexample`).
- **C145 (simulator: timers).** A `SetTimer` is ignored if a wake-up is scheduled at the same time, even if it is another node's (`C145_counterexample`), so a simulated node may wait forever.
- **C146 (simulator: assertion).** When two nodes connect to each other and one disconnects before the second attempt is over, `assert!(!(attempt && connection))` fails (`C146_both_counterexample`).
- **C147 (simulator: late messages).** Messages under way are given also after the receiver was told that it is disconnected from the sender (`C147_counterexample`).
- **C148 (simulator: latency zero).** `MIN_LATENCY` is not applied to latencies that were drawn (`C148_counterexample`).
- **C149 (clock).** `LocalTime::now` reads `LAST` and stores it in two operations. A thread that is held up between them stores an old time over a newer one; when then the clock of the system is set back, the next call returns less than an earlier one (`C149_counterexample`).
- **C150 (quitting the wallet).** `run` of wallet/src/lib.rs never returns `Ok` (`C150_never_ok`), because the thread for signals loops over `forever()`, which nobody closes. After `q`, the input thread ends without telling anybody; the main loop then fails with a channel error, and the process ends with status 1 while the client runs, untold (`C150_quit_counterexample`). After an interrupt, the program waits for another key and then for another signal (`C150_waits`, `C150_interrupt_counterexample`). Both together make `exit_tx.send(()).unwrap()` panic (`C150_panic_counterexample`). When the client fails, the main loop does not notice, because the handle keeps the sending end of the event channel alive (`C150_deaf_counterexample`).
- **C151 (narrow terminals).** `Aligned::right`, `Aligned::center` and `Table::render` subtract without a check; a terminal narrower than the header's texts makes the wallet panic (`C151_header_counterexample`, `C151_narrow_counterexample`).
- **C152 (hardware device).** `Hw::reconnect` stores the newly opened device with `get_or_insert`, and `connect` returns the stored one without looking at it; once a device was pulled out, all requests for addresses fail, also after it is plugged in again (`C152_stale`, `C152_replug_counterexample`). The first function key without a device ends the program, as `handle_input` passes the error on (`C152_key_counterexample`).
- **C153 (amounts).** Amounts are shown with four decimals: a coin of less than 5000 satoshi is shown as 0.0000 BTC, and shown amounts do not add up to the shown balance (`C153_dust_counterexample`, `C153_sum_counterexample`).
- **C155 (database errors).** `add_utxo` and `add_address` drop the result of the step and return what `change_count` says: a coin that could not be written is reported as known, or as added, but never as failed (`C155_refused_counterexample`). `utxo`, `utxos` and `addresses` take an error for the end of the rows (`C155_cut_counterexample`), so `remove_utxo` may delete a coin and report that there was none (`C155_unread_counterexample`). `add_address` with an index that is taken gives the label to the other address and returns `true` (`C155_index_counterexample`).
- **C156 (options).** The node raises the limit of outbound connections to the number of peers given with `--connect`; the wallet does not, so with nine such peers without compact filters the ninth is refused each time (`C156_wallet_refuses`). The wallet's option `--addresses` ("watch the following addresses") is never read (`C156_addresses_ignored`).
- **C157 (address files).** A record whose address is a string that is no address makes the client panic (`C58_bad_address_panics`), and the address a record is filed under is not compared with the one in it (`C157_other_address`).

Observed while reading, without a theorem: block requests of the inventory manager are retried without limit; `Stream` has no
cap on its buffer; the ping manager repeats a disconnect at every tick until it is processed; served `cfheaders` are not
capped; `client.rs` verifies stored filters only if configured to; messages other than those of the handshake are handled for peers that are connected but have not
completed it; a peer disconnected by the user's command is banned like one that misbehaved (`is_transient`, fsm.rs:128-133; cf. C116); a second `version` message of a negotiated peer starts its handshake again, so that it can be reported as negotiated twice; the count at the beginning of a compact filter is multiplied without check in rust-bitcoin, so that in debug builds a filter with a huge count panics (the filter must first agree with the filter header).

## Wrong-program tests

`seeded/LOG.jsonl` has one line per edit of the model (in a scratch copy) and the theorems that failed.  Limits of that log: the build
stops at the first failing module, so the theorems named are often the helper lemmas below the property theorem; and an edit that does not
change behaviour can break a proof script, which is no evidence.  Edits that survived led to the tightenings named in the log.

## Axioms

Printed by `#print axioms` for every theorem named in MANIFEST.json, grouped by the axioms.

* **propext, Classical.choice, Quot.sound** (390 theorems)
  * `Verif.Chain`: C01_consistent_view, C01_import_no_panic, C01_extend_no_panic, C02_chain_work_exact, C02_import_monotone, C02_extend_monotone, C03_most_work, C04_best_chain, C04_order_independent, C05_single_import_report, C06_batch_report_partial, C06_batch_report, C07_rejected_import, C07_rejected_extend, C07_aborted_batch, C08_proof_of_work, C08_checkpoints, C08_target_limit, C09_first_connected_partial, C09_extend_tip, C09_in_order_partial, C10_fork_below_checkpoint_rejected, C10_same_up_to_checkpoint, C10_checkpoint_final_partial, C11_store_mirror_reload, C12_locator_hashes, C13_locate_headers, C14_find_branch, C16_median_time_past, C104_valid_header_accepted, C104_valid_batch_accepted, C124_heaviest_partial, C124_reorg_partial, Scenario.C124_counterexample, C129_headers_worked, C129_headers_limit, C129_headers_once, C129_headers_count, Networks.C135_params, Networks.C135_chain, Networks.C135_work, Networks.C135_held
  * `Verif.Store`: C17_file_store_is_list, C17_from_any_store, C17_get_wraps, C18_torn_write, C19_block_header, C19_filter_record, C19_hashed, C19_same_bytes, C19_file_hashed, C20_interchangeable, C21_crash_any_op, C21_crash_in_reorg
  * `Verif.Cbf`: C22_linked, C24_get_headers, C25_tiling, C65_requests, C26_accepts_only_committed, C26_history, C28_requests, C28_no_repeat, C29_process, C29_in_order, C30_stop_partial, C31_rewinds, C31_active_chain_partial, C31_rescans, C59_getcfheaders_panics_iff, C59_cfheaders_safe, C60_chain_changes_safe, C60_no_crash_partial, C61_match_requested, C61_reported_partial, C62_below_scanned_partial, C63_disconnect_partial, C64_cached_rescan_partial, C65_requests, C66_asked_partial, C103_rescan_gets_on_partial, C119_filter_headers_arrive, C120_blamed_partial, C121_rescan_arrives_partial, C129_filters, C132_get, C132_rescan, Gcs.C136_any, Gcs.C136_all, Gcs.C136_found, Gcs.C136_all_found, Gcs.C136_genesis, Gcs.C137_found_partial
  * `Verif.Time`: C32_bounded_partial, C33_median_partial, C37_register, C37_history
  * `Verif.Io`: C36_chunks, C36_boundaries, C36_unknown, C55_in_order, C55_none_lost, C129_bytes_partial
  * `Verif.Addr`: Scenario.C42_known_overwritten, C42_public, C69_times, C131_size, C131_public, C133_met
  * `Verif.Peer`: C45_inbound, C45_outbound, C45_target, C45_persistent, C46_listed_partial, C46_settled_partial, C46_retry, C46_only, C46_delay_bounds, C70_fills_partial, C70_minute_partial, C70_inbound_starves, C71_open_partial, C71_reported_partial, C71_connected_partial, C71_disconnected_partial, C71_no_panic_partial, C72_slow_handshake, C72_slow_connect, C72_only, C73_accepted, C115_dialed, C118_peers, C118_once, C118_broadcast_partial, C118_broadcast_once, C118_reached, C130_silent, C130_all
  * `Verif.Inv`: C47_queued, C47_announced, C47_answered, C47_by_wtxid, C47_by_txid, C47_acknowledged, C47_asked, C47_submitted_to, C47_lookup, C47_confirmed, C47_silent, C48_ascending, C48_processed, C48_complete, C49_announced, C49_dropped, C49_spaced, C49_once, C49_block_asked, C49_block_retried, C49_block_spaced, C53_reported, C74_inventory_partial, Scenario.C74_forged_block, Scenario.C74_timer_panics, C75_reported, C75_pending, C75_announced, Scenario.C76_unwanted, C77_processed_partial, C77_waits, Scenario.C77_stuck, Scenario.C77_stale, C101_relay_partial, Scenario.C101_unwanted, C122_blocks_arrive_partial, C122_blocked, C125_announced, C125_settled_partial, Scenario.C125_kept, C129_blocks, C129_messages, C129_transactions
  * `Verif.Sync`: C51_serve, C52_replay_partial, C52_imported, C52_new_blocks, C52_tip_reported, C79_no_panic_partial, C80_announced, C80_only, C81_connected_partial, C81_headers_partial, C81_timer_partial, C105_download, C105_start_partial, C105_fork_never_adopted, Scenario.C105_fork_loop, C105_fork_adopted_partial, C123_synced_partial
  * `Verif.Fees`: C53_estimate, C53_covers, C54_restored_partial, C54_tracked_partial, C54_unspent_partial, C54_snapshots, Scenario.C54_spent_tracked, Scenario.C54_rollback_above, Scenario.C54_rollback_deep, C74_no_panic_partial, Scenario.C74_forged_block
  * `Verif.Wallet`: C57_balance, C57_balance_shown, C57_runs, Screen.C127_balance, Exit.Scenarios.C150_deaf_counterexample, Table.C151_aligned, Table.C151_tight, Table.Scenarios.C151_narrow_counterexample, Table.Scenarios.C151_header_counterexample, Hardware.C152_answered, Hardware.C152_first_start, Hardware.C152_stale, Hardware.Scenarios.C152_key_counterexample, Hardware.Scenarios.C152_replug_counterexample, Amount.C153_near_partial, Amount.C153_exact_partial, Amount.C153_order, Amount.C153_differ_partial, Amount.Scenarios.C153_dust_counterexample, Amount.Scenarios.C153_sum_counterexample
  * `Verif.PeerStore`: C58_save_load_partial, C58_save_load_exact, C86_interrupted_partial, C86_next_start, C87_first_start, C157_read, C157_refused_partial, Scenario.C157_other_address
  * `Verif.Machine`: Scenario.C66_stranger, Scenario.C66_blamed, C68_machine_partial, C108_parts, C108_told, C108_told_addr, C108_reactor, C108_sockets, C109_exact, C109_known, C109_addresses, C110_requests, C111_open_partial, C111_settled_partial, Scenario.C111_redial, C112_who, C112_no_crash_partial, C112_no_crash_reorg_partial, C113_put, C113_processed, C114_closed, C114_asked, C114_reported_partial, C114_ping, C115_only, C115_start, C115_fresh_partial, C116_banned_partial, C117_ends, C117_dials, C117_proceeds, C117_waits, C118_known, C118_open_partial, C128_client_chain, C128_client_work, C128_client_submitted, C129_client_blocks, C129_client_transactions, C129_client_headers, C133_machine, C134_message, C134_stranger, C134_network, C134_negotiated, C134_disconnected, C134_connecting, C134_connected, C134_complaint, C134_pong, C134_addresses, C139_heard, C139_cut, C139_garbage, C139_steps, C139_closed, C139_who, C139_ends, C139_unknown
  * `Verif.Node`: C88_parts, C89_scanned_partial, C89_scanned_reorg_partial, C90_reports_partial, C90_complete_partial, C90_reports_reorg_partial, C90_complete_reorg_partial, C90_onchain_reorg_partial, Scenario.C90_user_request, Scenario.C90_cached_match, C91_rescan_partial, C91_rescan_reorg_partial, C91_filters_partial, C91_filters_reorg_partial, C92_wallet_partial, C92_filters_partial, Scenario.C92_forged_block, C93_order_partial, C93_order_reorg_partial, C94_future_partial, Scenario.C94_moves_scan, C95_idempotent, C102_no_crash_partial, C102_no_crash_reorg_partial, Crash.C102_cfheaders, Crash.C102_filters, Crash.C102_forged_block, Crash.C102_shorter_chain, Shorter.C102_failed_import, C106_filter_headers_active_partial, C106_filter_headers_ends, C106_filter_headers_waiting, C106_filter_store, Owned.C106_before_outputs, Owned.C106_failed_import, C107_stop_partial, C107_crash_partial, C107_starts, C107_linked, C107_never_starts, C107_stuck, Owned.C107_crash_in_reorg, Owned.C107_kill_before_outputs, C128_chain, C128_work, C128_events_partial, C128_submitted, Owned.C128_failed_import, C129_node_blocks, C129_node_transactions, C129_node_headers, C137_scanned_partial, C138_confirmed_partial
  * `Verif.Handle`: C96_next, C97_height, C97_reached_partial, C98_peers, C98_enough_partial, C98_too_many, C99_connect_partial, C99_connected_partial, C99_disconnect_partial, C99_disconnected_partial, C100_submitted, C100_kept
  * `Verif.Loop`: C140_handled, C141_ends_partial, C141_counterexample, C142_kept_partial, C142_sleep, C142_looks, C142_fires_partial, C142_never, C142_early_counterexample, C142_busy_counterexample, Sockets.C143_written
  * `Verif.Sim`: C144_order_partial, C144_all_partial, C144_done_partial, C145_only, C145_someone_partial, C145_alone_partial, C146_backwards_partial, C148_range_partial, C148_positive_partial
  * `Verif.Book`: C154_some, C154_every_order, C154_even, C154_nobody_else, C154_managers
  * `Verif.Start`: C156_node_dials, C156_wallet_dials, C156_accepts_partial, C156_wallet_accepts_partial, C156_separate
* **propext, Quot.sound** (168 theorems)
  * `Verif.Chain`: C06_incomplete_report, C09_counterexample, C10_equal_work, C12_descending, C12_unique, C15_retarget, C15_no_overflow, Iter.C126_both_ends, Networks.C135_services, Networks.C135_no_overflow, Networks.C135_limit_exact, Networks.C135_starts
  * `Verif.Store`: C18_open_heals
  * `Verif.Cbf`: C23_verify_iff, C23_verify_interrupted, C24_reversed_range, C27_history, C27_push, C27_rollback, C27_evicts_lowest, C59_cfilter_safe, C129_filter_unasked
  * `Verif.Time`: IsMedian.unique, C37_wake, C37_next, C37_apart, Clock.C149_current, Clock.C149_steady_partial, Clock.C149_single_partial
  * `Verif.Ping`: C34_timer, C34_others, C34_one_outstanding, C34_latencies, C35_reply
  * `Verif.Io`: frame_stable, C38_stream, C38_flushed, C38_progress, C56_in_order, C56_live, C67_complete_frame_partial, C67_truncated_payload_stalls, Example.C129_bytes_unbounded
  * `Verif.Addr`: C39_start, C39_index, C39_no_panic, C40_banned_partial, C40_only, C40_transient, Scenario.C40_ban_without_effect, C41_sampled_partial, C41_not_connected_partial, C41_complete, Scenario.C41_connected_sampled, Scenario.C41_sampled_early, C42_domain, C41_services, C41_services_complete, C42_accepted, C42_rejected, C42_inserted, C42_known_kept_partial, C42_only_announced, C42_domain, C42_own, C43_import_ignored, Scenario.C43_not_imported, C68_connected_partial, C68_asked, Scenario.C68_disconnected_asked, C69_answer, C42_domain, C131_network, C133_tried
  * `Verif.Peer`: C44_negotiated_partial, C44_offset, C44_complete, C44_rejected, C44_never, Scenario.C44_negotiated_twice, Scenario.C44_self_connection, Scenario.C44_negative_height, C46_wakeup, C46_delay_doubles, C46_delay_max, Scenario.C46_unsupported, NetScenario.C71_redial_lost, C70_woken, Scenario.C70_counterexample, NetScenario.C71_never_connected, NetScenario.C71_redial_lost, NetScenario.C71_redial_panics, Scenario.C118_broadcast_early, C130_connected, C130_answer
  * `Verif.Sync`: C50_one, C50_connected, C50_why, C50_dropped, C50_continued, C50_announced_partial, C50_unwanted, C50_wanted, Scenario.C50_not_retried, Scenario.C52_aborted, Scenario.C52_reconnected, C78_synced, C78_reported, Scenario.C79_asked_again, Scenario.C79_stale_twice, C81_continue, Scenario.C81_all_serve_filters, Scenario.C81_dropped_asked, C82_only_partial, Scenario.C82_invalid_not_reported
  * `Verif.Wallet`: C57_coins, C57_coins_chain, C57_no_panic, C83_restart, C84_rescan_partial, C85_watched_partial, Screen.C127_shown, Screen.C127_status_partial, Screen.C127_no_panic, Exit.Scenarios.C150_interrupt_counterexample, Table.C151_rows, Table.C151_drawn_partial, Table.C151_header_partial, Hardware.C152_addresses, Hardware.C152_key_partial, Database.C155_add_partial, Database.C155_remove_partial, Database.C155_address_partial, Database.C155_again_partial, Database.C155_relabel_partial, Database.C155_list_partial, Database.C155_coins_once, Database.C155_unique
  * `Verif.PeerStore`: C58_stable, C58_saves, C87_seed_fails, C87_seed, C87_start
  * `Verif.Handle`: C96_received, Scenario.C97_passed, Scenario.C98_gone, Scenario.C99_already_connected, Scenario.C99_not_connected
  * `Verif.Loop`: C140_order, C140_only, Sockets.C143_no_crash
  * `Verif.Sim`: C144_sent_partial, C144_reliable_partial, C144_failed_partial, C144_outputs_partial, Scenarios.C144_lost_counterexample, Scenarios.C145_counterexample, Scenarios.C146_both_counterexample, C147_connected_partial, C147_disconnected_partial, Scenarios.C147_counterexample, Scenarios.C148_counterexample
  * `Verif.Book`: C154_fair, C154_shuffled, C154_uniform
  * `Verif.Start`: C156_node_starts, C156_wallet_starts, Scenarios.C156_wallet_refuses
* **propext** (59 theorems)
  * `Verif.Chain`: C10_counterexample, C15_unchanged, C15_negative_timespan_counterexample, Networks.C135_genesis, Networks.C135_checkpoints
  * `Verif.Store`: C18_check
  * `Verif.Cbf`: C24_prev_header, Scenario.C30_stops_before_end, Scenario.C30_never_stops, Scenario.C30_scans_beyond_end, Scenario.C30_stop_repeated, Scenario.C31_scans_reverted_block, Scenario.C59_cfheaders_crash, Scenario.C59_getcfheaders_crash, Scenario.C60_getcfilters_crash, Scenario.C60_rescan_crash, Scenario.C60_shorter_chain_crash, Scenario.C61_cached_match_not_reported, Scenario.C62_scanned_not_yet, Scenario.C63_persistent_disconnected, Scenario.C64_cached_rescan_stalls, C66_anyone, Scenario.C31_scans_reverted_block, Scenario.C64_cached_rescan_stalls, Scenario.C120_reorg, Scenario.C120_forged, Scenario.C64_cached_rescan_stalls, Gcs.Scenario.C137_counterexample, Gcs.Scenario.C137_counterexample
  * `Verif.Time`: C32_min_offset, C32_min_panics, Clock.Scenarios.C149_counterexample
  * `Verif.Inv`: C48_requested, C76_relay_partial
  * `Verif.Fees`: C54_rollback_total
  * `Verif.Io`: C55_events, C56_independent
  * `Verif.Sync`: Scenario.C79_clock
  * `Verif.PeerStore`: C86_stuck, Scenario.C58_bad_address_panics
  * `Verif.Wallet`: Screen.Scenario.C127_not_synced, Screen.Scenario.C127_synced_early, Screen.Scenario.C127_restarted, Screen.Scenario.C127_stale, Exit.C150_never_ok, Exit.C150_waits, Exit.C150_told_partial, Exit.C150_quit_partial, Exit.Scenarios.C150_quit_counterexample, Exit.Scenarios.C150_panic_counterexample, Database.C155_errors, Database.Scenarios.C155_unread_counterexample
  * `Verif.Loop`: C140_awake, C141_stuck, Sockets.C143_stream, Sockets.C143_asks
  * `Verif.Book`: C154_match, C154_turns
  * `Verif.Start`: C156_network
* **no axioms** (13 theorems)
  * `Verif.Store`: C17_rollback_above_tip, C18_failed_append_not_healed, C19_decoding_injective, C20_rollback_above_tip
  * `Verif.Cbf`: CacheScenario.C27_not_contiguous, CacheScenario.C27_repush_overcounts
  * `Verif.Addr`: C42_v6
  * `Verif.Chain`: Networks.C135_name, Networks.C135_distinct
  * `Verif.Wallet`: Database.Scenarios.C155_refused_counterexample, Database.Scenarios.C155_index_counterexample, Database.Scenarios.C155_cut_counterexample
  * `Verif.Start`: Scenarios.C156_addresses_ignored
