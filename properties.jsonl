{"id": "C01", "title": "Active chain is a single linked chain rooted at genesis, seen consistently by every query", "statement": "After any sequence of header imports and tip extensions on a freshly created block tree, the active chain starts with the genesis header, each header's previous-hash is the hash of the header one height below, `height()` is the height of the last header, `get_block_by_height(h)` is defined exactly for h <= height(), `get_block(hash)`/`contains(hash)` succeed exactly for hashes of headers on the active chain and return that header with its own height, and no call panics on an internal assertion.", "quantifier": "every initial genesis/params, every finite sequence of import_blocks / extend_tip calls with arbitrary headers and clocks, every hash-map iteration order", "why_tests_cant": "the invariant spans unbounded histories of forks and re-orgs; unit tests fix a handful of fork shapes and one map order", "anchors": ["chain/src/block/cache.rs: BlockCache::{import_block,switch_to_fork,rollback,extend_chain,extend_tip,get_block,get_block_by_height,contains,height,tip}"]}
{"id": "C02", "title": "Reported chain work is exact and never decreases", "statement": "`chain_work()` always equals the sum of the proof-of-work of all headers on the active chain, and no import or extension ever makes it smaller; on mainnet the tip only changes when the chain work strictly increases.", "quantifier": "every history of imports/extensions, every header set, every map iteration order", "why_tests_cant": "needs induction over re-orgs of arbitrary depth; incremental add/subtract bookkeeping errors only show for particular fork shapes", "anchors": ["chain/src/block/cache.rs: chainwork, rollback, extend_chain, import_block", "common/src/block/tree.rs: Branch::work"]}
{"id": "C03", "title": "Chain selection picks the branch with most work", "statement": "Whenever importing a header succeeds, the resulting active chain carries at least as much work as the previous active chain and as every chain that goes through the active chain to a known, valid fork branch; the tip only changes to such a branch.", "quantifier": "every tree state reachable by imports, every newly imported header, every map iteration order", "why_tests_cant": "the number of competing branches and fork heights is unbounded; tests use a few hand-made forks", "anchors": ["chain/src/block/cache.rs: import_block, chain_candidates, fork"]}
{"id": "C04", "title": "Order of header arrival does not matter (outside mainnet)", "statement": "On networks other than mainnet without checkpoints, when all headers pass contextual validation, the active chain after importing a set of headers is the maximum-work chain (lowest tip hash on ties) that can be formed from all headers ever received, so any two arrival orders, batchings and map iteration orders yield the same active chain.", "quantifier": "every finite set of headers forming an arbitrary forest, every permutation and batching, every map iteration order", "why_tests_cant": "factorially many arrival orders; property testing samples a few", "anchors": ["chain/src/block/cache.rs: import_blocks, import_block, chain_candidates", "test/src/block/cache/model.rs: longest_chain"]}
{"id": "C05", "title": "Import of one header reports exactly what changed", "statement": "When importing one header changes the tip, the reported `reverted` list is exactly the headers of the old active chain above the fork point with their heights, the reported `connected` list is exactly the headers of the new active chain above the fork point with their heights, and (header, hash, height) describe the new tip; when the tip is reported unchanged the active chain is unchanged.", "quantifier": "every reachable tree, every header, every iteration order", "why_tests_cant": "requires comparing old and new chain for forks of every depth", "anchors": ["chain/src/block/cache.rs: import_block, switch_to_fork, rollback"]}
{"id": "C06", "title": "Batch import reports the net change of the active chain", "statement": "When `import_blocks` returns a changed tip, `connected` is exactly the new active-chain headers that were not on the active chain before the call, `reverted` is exactly the headers that were on the active chain before the call and no longer are (highest first), and (header, hash, height) describe the current tip.", "quantifier": "every reachable tree, every batch of headers (any order, duplicates, forks), every iteration order", "why_tests_cant": "batches can contain several re-orgs back and forth; tests only exercise single re-orgs", "anchors": ["chain/src/block/cache.rs: import_blocks (seen/reverted/connected filtering)"]}
{"id": "C07", "title": "A rejected header never disturbs the active chain", "statement": "If importing a single header or extending the tip is refused because of the header (invalid, duplicate, unconnected, below the last checkpoint), the active chain, its work, its index and the persistent store are unchanged; if a batch aborts, the tree is exactly the result of importing the headers preceding the offending one. (I/O failures of the store are a different matter.)", "quantifier": "every reachable tree, every header, every error path, every batch", "why_tests_cant": "errors can be raised at many points of the import path for unboundedly many inputs", "anchors": ["chain/src/block/cache.rs: import_block, import_blocks, extend_tip, validate"]}
{"id": "C08", "title": "Every active header carries valid proof-of-work and matches checkpoints", "statement": "Every header of the active chain other than genesis hashes to at most the target encoded in its own bits, that target is not above the network's limit when it was accepted through import, and at every checkpointed height reached by the chain the header hash equals the checkpoint hash.", "quantifier": "every history of imports and extensions with adversarial headers", "why_tests_cant": "headers enter the chain through several paths (direct extension, orphan branches, re-orgs)", "anchors": ["chain/src/block/cache.rs: import_block, validate, validate_branch, checkpoints"]}
{"id": "C09", "title": "Contextual validation: difficulty and timestamps of accepted headers follow the consensus rules", "statement": "Every header that becomes part of the active chain has the difficulty target required by the retargeting rules and a timestamp above the median of the (up to) eleven preceding headers of its own chain, and not more than two hours after the network-adjusted time at acceptance.", "quantifier": "every history, every arrival order of headers", "why_tests_cant": "rule must hold along any branch and arrival order", "anchors": ["chain/src/block/cache.rs: validate, validate_branch, median_time_past, next_min_difficulty_target", "common/src/block/tree.rs: next_difficulty_target"]}
{"id": "C10", "title": "Blocks at or below the last checkpoint are never reverted", "statement": "Once the active chain has reached a checkpoint height, no later import reverts a header at or below that height.", "quantifier": "every history of imports, every set of checkpoints", "why_tests_cant": "depends on orphan branches received long before the checkpoint was reached", "anchors": ["chain/src/block/cache.rs: import_block (fork height test), last_checkpoint"]}
{"id": "C11", "title": "Persistent header store mirrors the active chain and reloading restores it", "statement": "After any history of imports without store failure, the persistent store contains exactly the active chain, and opening a new block tree on that store yields the same active chain, same work and same query answers.", "quantifier": "every history of imports, any chain length", "why_tests_cant": "requires relating two representations after arbitrary re-orgs", "anchors": ["chain/src/block/cache.rs: new, load_with, switch_to_fork, extend_tip", "chain/src/block/store/"]}
{"id": "C12", "title": "Block locators", "statement": "`locator_hashes(from)` for from <= height lists hashes of active-chain blocks in strictly descending height starting at `from`, the first eight steps going down by one and later steps doubling (2, 4, 8, ...), never below the last checkpoint, and reaching genesis when there is no checkpoint; index arithmetic never overflows for any 64-bit height.", "quantifier": "every height, every chain, every checkpoint set", "why_tests_cant": "heights are unbounded 64-bit values and the step doubles", "anchors": ["common/src/block.rs: locators_indexes", "chain/src/block/cache.rs: locator_hashes, last_checkpoint"]}
{"id": "C13", "title": "Answering getheaders", "statement": "`locate_headers(locators, stop, max)` returns at most `max` headers, which are consecutive active-chain headers starting right after the first locator known on the active chain (after genesis if none is known), never going past `stop` when it is on the active chain; with no locators it returns just the stop header if it is active and nothing otherwise; it never panics.", "quantifier": "every active chain, every locator list, stop hash and maximum", "why_tests_cant": "locator lists and stop hashes come from remote peers and are arbitrary", "anchors": ["chain/src/block/cache.rs: locate_headers"]}
{"id": "C14", "title": "find_branch returns a linked path from the active chain to a known block", "statement": "If `find_branch(hash)` returns (height, headers), the first header is the active-chain header at `height`, each further header links to the one before it and is not active, and the last header has the requested hash; it returns a result for every known block that is connected to the active chain, and nothing otherwise.", "quantifier": "every reachable tree and every hash", "why_tests_cant": "stale branches of any length", "anchors": ["chain/src/block/cache.rs: find_branch, fork"]}
{"id": "C15", "title": "Difficulty retargeting", "statement": "The required target for the next block equals the previous one except at multiples of the adjustment interval, where it is previous target * clamp(elapsed, timespan/4, timespan*4) / timespan capped at the proof-of-work limit (compact-encoded); the result never exceeds the proof-of-work limit and changes by at most a factor of four (up to compact rounding).", "quantifier": "every chain, height, time and target", "why_tests_cant": "256-bit values and arbitrary timestamps", "anchors": ["common/src/block/tree.rs: next_difficulty_target"]}
{"id": "C16", "title": "Median time past", "statement": "For a height within one of the chain's tip, `median_time_past(height)` is the median (upper median for even counts) of the timestamps of the up to eleven headers immediately below that height, regardless of order of timestamps.", "quantifier": "every chain and every height >= 1 up to tip height + 1", "why_tests_cant": "the timestamps are arbitrary 32-bit values in any order", "anchors": ["chain/src/block/cache.rs: median_time_past, range"]}
{"id": "C17", "title": "File header store behaves like an append-only list with truncation", "statement": "After any sequence of put and rollback operations (rollback to a height the store contains, as documented) on a new file store, get(height), height(), len() and full iteration return exactly what the same operations on a plain list of headers (genesis first) would return.", "quantifier": "every sequence of operations, any number of headers, any batch boundaries of the reader", "why_tests_cant": "batch reader has boundary cases at every multiple of the batch size and end of file", "anchors": ["chain/src/block/store/io.rs: put, get, FileReader::next, Iter, File::{put,get,rollback,iter,len,height}"]}
{"id": "C18", "title": "Header store survives torn writes", "statement": "If a crash leaves any byte-prefix of the file, `check` reports corruption exactly when the file is not a whole number of records, and after `heal` the store opens and contains exactly the longest prefix of whole headers, all other headers intact.", "quantifier": "every file content, every truncation point, every record size > 0", "why_tests_cant": "crash points are every byte offset of a file of unbounded size", "anchors": ["chain/src/block/store/io.rs: File::{check,heal,len,height}", "client/src/client.rs: load"]}
{"id": "C19", "title": "Stored records decode to what was written", "statement": "Encoding a block header (80 bytes) or filter-header record (64 bytes) and decoding it returns the original, records have a fixed size, and decoding is injective.", "quantifier": "every header / record value", "why_tests_cant": "2^640 values", "anchors": ["chain/src/filter/cache.rs: StoredHeader", "chain/src/block/store/io.rs: put, get"]}
{"id": "C20", "title": "Memory and file stores are interchangeable", "statement": "For every sequence of put/rollback/get/iter/len/height operations used as documented (rollback to a height in the store) the in-memory store and the file store return the same answers.", "quantifier": "every sequence of operations", "why_tests_cant": "unbounded operation sequences", "anchors": ["chain/src/block/store/memory.rs", "chain/src/block/store/io.rs"]}
{"id": "C21", "title": "Crash during a re-org leaves a recoverable chain", "statement": "If the process dies at any point of a re-org (between truncation and the end of the append, at any byte), the healed store holds a prefix of the old active chain or a prefix of the new active chain containing the common ancestor - never a mixture.", "quantifier": "every old chain, fork height, new branch and crash byte offset", "why_tests_cant": "all interleavings of crash with truncation and append", "anchors": ["chain/src/block/cache.rs: switch_to_fork", "chain/src/block/store/io.rs: rollback, put, heal"]}
{"id": "C22", "title": "Filter-header chain is always hash-linked to genesis", "statement": "After any history of filter-header imports received from peers and rollbacks, every stored filter header is the hash of its filter hash and the filter header one height below, starting at the network's genesis filter header.", "quantifier": "every history of cfheaders messages (adversarial), rollbacks, re-orgs", "why_tests_cant": "adversarial messages of any shape interleaved with rollbacks", "anchors": ["chain/src/filter/cache.rs: import_headers, rollback", "p2p/src/fsm/cbfmgr.rs: received_cfheaders"]}
{"id": "C23", "title": "Verification of the filter-header store detects every broken link", "statement": "`verify` succeeds if and only if the stored filter headers start at the network's genesis filter header and every record's header is the hash of its filter hash and the previous header.", "quantifier": "every store content", "why_tests_cant": "store content is arbitrary", "anchors": ["chain/src/filter/cache.rs: verify_with"]}
{"id": "C24", "title": "Filter header ranges", "statement": "`get_headers(a..=b)` returns exactly the stored entries at heights a..=b, cut at the tip; `get_prev_header` returns the header one height below.", "quantifier": "every cache and range with a <= b", "why_tests_cant": "unbounded ranges", "anchors": ["chain/src/filter/cache.rs: get_headers, get_header"]}
{"id": "C25", "title": "Compact filter request ranges tile the requested interval", "statement": "Splitting a height interval for requests yields consecutive, non-overlapping, non-empty sub-ranges of at most the message maximum (1000 filters / 2000 headers) whose union is exactly the requested interval.", "quantifier": "every interval and batch size > 0", "why_tests_cant": "intervals are unbounded", "anchors": ["p2p/src/fsm/cbfmgr.rs: HeightIterator, get_cfilters"]}
{"id": "C26", "title": "A compact filter is only accepted if it matches the committed filter header", "statement": "A received compact filter leads to a FilterReceived event, is scanned or cached only if its block is on the active chain, its height is in the filter-header chain and the filter hashes (with the previous filter header) to the stored filter header at that height; otherwise it is ignored or the peer is flagged.", "quantifier": "every received cfilter message and every state", "why_tests_cant": "messages are adversarial", "anchors": ["p2p/src/fsm/cbfmgr.rs: received_cfilter"]}
{"id": "C27", "title": "Filter memory cache is bounded and faithful", "statement": "After any sequence of pushes (at any heights, contiguous or not) and rollbacks the accounted size never exceeds the capacity, the memory really held never exceeds the accounted size, looking up a height returns nothing or the filter last pushed for that height and not rolled back since, a rollback to h keeps exactly the filters at or below h, and eviction only removes the lowest heights. No call panics or loops for ever.", "quantifier": "every sequence of pushes (any height, any size) and rollbacks, every capacity", "why_tests_cant": "eviction loop behaviour depends on unbounded histories of sizes", "anchors": ["p2p/src/fsm/filter_cache.rs: push, get, start, end, rollback"]}
{"id": "C28", "title": "Rescan never requests a filter twice and leaves no gap", "statement": "The ranges a rescan decides to request are non-empty, pairwise disjoint, in ascending order, contain no height that was already received or requested, and together with those cover every height of the asked range (clipped to what is available); they are recorded as requested.", "quantifier": "every rescan state and range", "why_tests_cant": "sets of received/requested heights are arbitrary", "anchors": ["p2p/src/fsm/cbfmgr/rescan.rs: requests"]}
{"id": "C29", "title": "Rescan processes each height exactly once, in order", "statement": "However filters arrive (any order, duplicates), an active rescan emits FilterProcessed for consecutive heights starting at the rescan start, each height exactly once, and reports as matches exactly the block hashes of processed heights whose filter matches the watch list.", "quantifier": "every arrival order of filters, every watch list", "why_tests_cant": "orders of arrival are factorially many", "anchors": ["p2p/src/fsm/cbfmgr/rescan.rs: received, process, match_filter"]}
{"id": "C30", "title": "Rescan stops at its end height", "statement": "A rescan with an end height processes every height up to and including the end, and none beyond, then emits a stop event exactly once.", "quantifier": "every start/end and arrival order", "why_tests_cant": "arrival batching affects the loop", "anchors": ["p2p/src/fsm/cbfmgr/rescan.rs: process"]}
{"id": "C31", "title": "A re-org makes the rescan re-scan the replaced heights with the new filters", "statement": "After a rollback to height h during a rescan, every height above h is scanned again against the filter of the new active chain; no match is produced from a filter of a reverted block.", "quantifier": "every interleaving of filter arrival and re-org", "why_tests_cant": "interleavings unbounded", "anchors": ["p2p/src/fsm/cbfmgr/rescan.rs: rollback", "p2p/src/fsm/cbfmgr.rs: rollback, received_event"]}
{"id": "C32", "title": "Network-adjusted time stays within 70 minutes of local time", "statement": "After any sequence of peer time samples the adjusted offset is within +-70 minutes, each source is counted once, at most 200 samples are kept, and adjusted time is local time plus offset.", "quantifier": "every sequence of samples from any sources, any offsets", "why_tests_cant": "adversarial peers choose arbitrary samples", "anchors": ["common/src/block/time.rs: AdjustedTime"]}
{"id": "C33", "title": "Adjusted offset is the median of peer samples", "statement": "Once enough samples (an odd number >= 5) are recorded the offset is the median of recorded samples if it is within 70 minutes and zero otherwise; with fewer or an even number of samples the offset does not change.", "quantifier": "every sequence of samples", "why_tests_cant": "median depends on multiset of samples", "anchors": ["common/src/block/time.rs: AdjustedTime::record_offset"]}
{"id": "C34", "title": "Ping protocol: liveness detection and bounded bookkeeping", "statement": "For each connected peer at most one ping is outstanding, a peer is disconnected for ping timeout exactly when its outstanding ping is at least 30 seconds old at a timer tick, a pong only counts if it carries the nonce of the outstanding ping, and at most 64 latencies are remembered per peer.", "quantifier": "every interleaving of timer ticks, pings, pongs, connects and disconnects, every clock", "why_tests_cant": "unbounded interleavings", "anchors": ["p2p/src/fsm/pingmgr.rs"]}
{"id": "C35", "title": "Ping replies", "statement": "A ping from a known peer is answered exactly once with the same nonce; pings from unknown peers are not answered.", "quantifier": "every message and state", "why_tests_cant": "arbitrary peers", "anchors": ["p2p/src/fsm/pingmgr.rs: received_ping"]}
{"id": "C36", "title": "Stream decoding does not depend on packet boundaries", "statement": "Feeding a byte stream to the message decoder in any chunking yields the same sequence of messages, the same error (if any) and the same undecoded rest as feeding it at once.", "quantifier": "every byte stream and every chunking, every prefix-stable message grammar", "why_tests_cant": "exponentially many chunkings", "anchors": ["p2p/src/stream.rs: Decoder", "client/src/service.rs: message_received"]}
{"id": "C37", "title": "Timers fire in order, not early, and none is lost", "statement": "The timer manager reports a wake-up exactly for those registered timers whose time has been reached, earliest first, keeps all others, computes the wait until the earliest one exactly, and refuses a timer only if one within the threshold already exists.", "quantifier": "every sequence of register/wake calls, every clock", "why_tests_cant": "unbounded sequences", "anchors": ["net/poll/src/time.rs: TimeoutManager"]}
{"id": "C38", "title": "Socket writes preserve the byte stream", "statement": "Bytes handed to a peer socket are written to the connection in order, without loss or duplication, under any pattern of partial writes and would-block errors.", "quantifier": "every sequence of pushes/flushes and every pattern of partial writes", "why_tests_cant": "OS behaviour is nondeterministic", "anchors": ["net/poll/src/socket.rs: Socket::{push,flush}"]}
{"id": "C39", "title": "Address manager index stays consistent and bounded", "statement": "After any history of address announcements, connections, samples and bans, every indexed address range holds at most 256 addresses, no range is empty, every indexed address is in the address book, and sampling never panics.", "quantifier": "every history of operations and random choices", "why_tests_cant": "random evictions and bans interleave arbitrarily", "anchors": ["p2p/src/fsm/addrmgr.rs: insert, ban, populate_address_ranges, sample_with"]}
{"id": "C40", "title": "Banned addresses never come back", "statement": "After an address is banned it is not in the address book, is never inserted again from peer announcements and is never sampled.", "quantifier": "every later history", "why_tests_cant": "unbounded later histories", "anchors": ["p2p/src/fsm/addrmgr.rs: ban, insert"]}
{"id": "C41", "title": "Address sampling respects eligibility", "statement": "A sampled address is in the address book, satisfies the predicate, is of an allowed domain, is not currently connected, was not sampled less than three minutes before (measured from the last sample) and has its last-sampled time set to now.", "quantifier": "every state and random choice", "why_tests_cant": "random choices", "anchors": ["p2p/src/fsm/addrmgr.rs: sample_with"]}
{"id": "C42", "title": "Address acceptance rules", "statement": "Announced addresses are only inserted if they are routable (outside regtest), have a non-zero last-active time, are not our own local addresses and are not banned; over-long address messages are rejected; an address already known is never overwritten except for its services/last-active metadata.", "quantifier": "every address message", "why_tests_cant": "adversarial messages", "anchors": ["p2p/src/fsm/addrmgr.rs: received_addr, insert, is_routable, is_local"]}
{"id": "C43", "title": "Imported addresses enter the address book", "statement": "Addresses imported by the user through import_addresses become part of the address book when routable and not banned.", "quantifier": "every list of addresses", "why_tests_cant": "depends on interaction of command handler and insertion filter", "anchors": ["p2p/src/fsm.rs: command ImportAddresses", "p2p/src/fsm/addrmgr.rs: insert"]}
{"id": "C44", "title": "Handshake discipline", "statement": "A peer is reported negotiated only after it sent a valid version message and afterwards a verack on the same connection, at most once per connection; peers with too old protocol version, missing required services (outbound) or self-connections are disconnected and never negotiated.", "quantifier": "every message sequence from every peer", "why_tests_cant": "adversarial message orders", "anchors": ["p2p/src/fsm/peermgr.rs: handle_version, received_verack"]}
{"id": "C45", "title": "Connection limits", "statement": "The number of connected inbound peers stays below the configured maximum (the connection that would reach it is closed); whenever the client opens connections of its own accord, connected and connecting peers together are afterwards at most the target plus the number of outbound peers that lack preferred services, and at most one and a half times the target; with persistent peers configured, it opens none.", "quantifier": "every history of connects and disconnects", "why_tests_cant": "unbounded histories", "anchors": ["p2p/src/fsm/peermgr.rs: peer_connected, maintain_connections, delta"]}
{"id": "C46", "title": "Peer bookkeeping follows connections", "statement": "A peer is listed exactly while it is connecting or connected: connect adds, disconnect removes; a disconnected persistent peer is scheduled for re-connection with a delay between the configured minimum and maximum that doubles per attempt.", "quantifier": "every history of events", "why_tests_cant": "unbounded histories", "anchors": ["p2p/src/fsm/peermgr.rs: peer_connected, peer_disconnected, persistent_disconnected"]}
{"id": "C47", "title": "Transaction inventory is consistent", "statement": "Transactions announced to peers are always available to be sent on request: every id queued for a peer is in the submitted-transaction pool, getdata for it is answered with that transaction, and confirmation removes it from all queues.", "quantifier": "every history of announcements, peers, getdata, blocks", "why_tests_cant": "unbounded histories", "anchors": ["p2p/src/fsm/invmgr.rs"]}
{"id": "C48", "title": "Blocks are delivered in ascending height order", "statement": "Downloaded matching blocks are processed in strictly ascending height order within a request queue and never before all lower requested blocks were received or cancelled.", "quantifier": "every arrival order", "why_tests_cant": "arrival order arbitrary", "anchors": ["p2p/src/fsm/invmgr.rs: received_block"]}
{"id": "C49", "title": "Bounded retries", "statement": "A peer is sent at most three transaction announcements before it is dropped, a block request is repeated, and announcements to a peer are at least a minute and requests for the same block at least fifteen seconds apart. (A peer that asks for an announced transaction starts afresh.) As long as there is something to announce or to request and a suitable peer, the client keeps trying.", "quantifier": "every clock and history", "why_tests_cant": "time-dependent", "anchors": ["p2p/src/fsm/invmgr.rs: timer_expired"]}
{"id": "C50", "title": "Header synchronisation requests", "statement": "At any time at most one header request is outstanding with a peer, and only with connected peers. Headers are only requested to get in sync, to learn a fork, to continue after a full batch, because a block was announced, or because another peer did not answer. A request that is not answered in time is retried with another peer, or the peer is dropped. More than 24 headers that were not asked for are ignored, and more than 2000 are misbehaviour.", "quantifier": "every interleaving of messages, timers, connects", "why_tests_cant": "interleavings unbounded", "anchors": ["p2p/src/fsm/syncmgr.rs: SyncManager::request, received_headers, received_inv, timer_expired, sync, idle"]}
{"id": "C51", "title": "Serving headers", "statement": "A getheaders request is answered only when we are not syncing, with at most 2000 headers taken from the active chain after the locator, and not at all if there is nothing to send.", "quantifier": "every request", "why_tests_cant": "adversarial requests", "anchors": ["p2p/src/fsm/syncmgr.rs: received_getheaders"]}
{"id": "C52", "title": "Chain events replay to the active chain", "statement": "Applying BlockDisconnected and BlockConnected events in order of emission to the previously announced active chain yields the current active chain.", "quantifier": "every history of header imports", "why_tests_cant": "needs relation between event stream and chain for all histories", "anchors": ["p2p/src/fsm/syncmgr.rs: import_blocks, received_headers", "chain/src/block/cache.rs: import_blocks"]}
{"id": "C53", "title": "Fee estimates are ordered and reflect the block", "statement": "Every fee estimate emitted for a block is made of the fee rates (satoshis per virtual byte, rounded to the nearest integer) of the transactions of the block whose inputs are all outputs of processed transactions: low is the smallest, high the largest and median the median of these rates, and low <= median <= high. Every transaction whose inputs are all known and unspent counts.", "quantifier": "every block and history", "why_tests_cant": "arbitrary blocks", "anchors": ["p2p/src/fsm/fees.rs: FeeEstimate::from, apply"]}
{"id": "C54", "title": "Fee estimator state after processing and rollback", "statement": "After processing blocks in order the tracked outputs are exactly the unspent outputs created by processed blocks; rolling back to a retained height restores the state of that height; at most 12 snapshots are kept.", "quantifier": "every sequence of blocks and rollbacks", "why_tests_cant": "unbounded histories", "anchors": ["p2p/src/fsm/fees.rs: process, rollback"]}
{"id": "C55", "title": "Outputs of the state machine are delivered in order and none is lost", "statement": "Messages, events, connection requests and timers queued by the protocol managers are handed to the reactor exactly once each and in the order queued per manager.", "quantifier": "every interleaving of inputs and draining", "why_tests_cant": "unbounded interleavings", "anchors": ["p2p/src/fsm/output.rs: Outbox", "p2p/src/fsm.rs: Iterator::next"]}
{"id": "C56", "title": "Event subscribers see all later events in order", "statement": "A subscriber receives every event emitted after it subscribed, in order, exactly once, until it drops its receiver; dropping one subscriber does not affect others.", "quantifier": "every interleaving of subscribe/emit/drop", "why_tests_cant": "unbounded interleavings", "anchors": ["net/src/event.rs: Emitter, Subscriber, Broadcast"]}
{"id": "C57", "title": "Wallet balance equals the value of unspent outputs paid to watched scripts", "statement": "After scanning a sequence of blocks with a fresh wallet database, the wallet's coins are exactly the outputs that the transactions pay to the wallet's addresses and that no transaction spends; the balance shown is the sum of their amounts if that is below 2^63 satoshis, and the wallet does not stop.", "quantifier": "every sequence of blocks in which transaction ids identify outputs", "why_tests_cant": "arbitrary transaction graphs", "anchors": ["wallet/src/wallet.rs: Wallet::apply, handle_client_event, balance", "wallet/src/wallet/db.rs: Write::{add_utxo, remove_utxo}, Read::{utxo, utxos, balance}"]}
{"id": "C58", "title": "Peer address records survive saving and loading", "statement": "Saving the peer address book and loading it yields the same known addresses with all recorded metadata; loading never crashes the client.", "quantifier": "every address book", "why_tests_cant": "arbitrary field values", "anchors": ["common/src/p2p/peer.rs: KnownAddress::{to_json,from_json}", "client/src/peer.rs: Cache"]}
{"id": "C59", "title": "No peer message crashes the filter client", "statement": "Whatever a peer sends as a compact-filter message (filter headers, filters, requests for filter headers), handling it does not crash the client.", "quantifier": "every message, every state, every active chain", "why_tests_cant": "adversarial message contents and states", "anchors": ["p2p/src/fsm/cbfmgr.rs: received_cfheaders, received_getcfheaders, received_cfilter"]}
{"id": "C60", "title": "No chain event, timer or user command crashes the filter client", "statement": "Reporting a longer or re-organised active chain, timers, peer connections and the user commands for rescanning and fetching filters never crash the client.", "quantifier": "every history of calls in which chain changes are reported as they happen", "why_tests_cant": "unbounded histories and interleavings", "anchors": ["p2p/src/fsm/cbfmgr.rs: received_event, timer_expired, rescan, get_cfilters, rollback, sync"]}
{"id": "C61", "title": "Every filter match is eventually reported as a matched block", "statement": "If a FilterProcessed event says the filter matched, then the block is scheduled for download and a BlockMatched event is emitted when that block is processed (unless it was disconnected before).", "quantifier": "every history between the match and the arrival of the block", "why_tests_cant": "arbitrary interleavings of further filters, re-orgs and rescans", "anchors": ["p2p/src/fsm/cbfmgr.rs: received_event (cfilter, BlockProcessed)", "p2p/src/fsm.rs: Command::Rescan", "p2p/src/fsm/event.rs: FilterProcessed"]}
{"id": "C62", "title": "A Scanned event names a height that was scanned", "statement": "When the client reports that the chain was scanned up to a height, the filter at that height has been processed and no matching block below is still outstanding.", "quantifier": "every history", "why_tests_cant": "depends on arrival order of filters and blocks", "anchors": ["p2p/src/fsm/cbfmgr.rs: received_event, event.rs: Scanned"]}
{"id": "C63", "title": "Unresponsive persistent peers are not disconnected by the filter client", "statement": "On a request timeout the filter client disconnects only the peer that did not answer, and never a peer configured as persistent.", "quantifier": "every history, every random choice of peers", "why_tests_cant": "depends on random sampling", "anchors": ["p2p/src/fsm/cbfmgr.rs: timer_expired"]}
{"id": "C64", "title": "A rescan whose filters are all in memory completes", "statement": "If all filters of the requested range are in the filter cache, a rescan processes them without needing any further message.", "quantifier": "every cache content and connection state", "why_tests_cant": "state-dependent", "anchors": ["p2p/src/fsm/cbfmgr.rs: rescan, rescan.rs: requests, process"]}
{"id": "C65", "title": "Filter requests sent to peers are well formed", "statement": "Every request goes to a connected outbound peer that serves filters; header requests ask for at most 2000 headers starting right above the known filter headers and ending at a block of the active chain (or repeat an earlier request); filter requests ask for between 1 and 1000 filters, ending at a block of the active chain whose filter header is known.", "quantifier": "every history, every random choice", "why_tests_cant": "unbounded histories", "anchors": ["p2p/src/fsm/cbfmgr.rs: send_getcfheaders, get_cfheaders, get_cfilters, timer_expired"]}
{"id": "C66", "title": "Filter headers are taken only in answer to a request, from the peer that was asked", "statement": "Filter headers are added to the chain of filter headers only by a message that answers a request for filter headers sent before, and only if the message comes from the peer the request was sent to.", "quantifier": "every history of the filter manager; every peer and message", "why_tests_cant": "every interleaving of requests and messages from all peers", "anchors": ["p2p/src/fsm/cbfmgr.rs: FilterManager::received_cfheaders, get_cfheaders, inflight", "p2p/src/fsm.rs: StateMachine::message_received"]}
{"id": "C67", "title": "A complete message frame is delivered or its sender disconnected", "statement": "When a peer has sent all bytes of a message frame (header, declared length, payload), the message is delivered to the protocol or the peer is disconnected for a decoding error; it is never silently waited upon.", "quantifier": "every frame, checksum function and payload decoder", "why_tests_cant": "depends on every payload grammar and every malformed payload", "anchors": ["p2p/src/stream.rs: Decoder::decode_next", "client/src/service.rs: message_received"]}
{"id": "C68", "title": "Addresses are requested when the book is exhausted, from connected peers", "statement": "When no address in the book can be used, the client reports exhaustion and asks every outbound peer for addresses, at most once a minute; it never asks a peer that is no longer connected.", "quantifier": "every history of connections and timers", "why_tests_cant": "unbounded histories of connections", "anchors": ["p2p/src/fsm/addrmgr.rs: timer_expired, get_addresses, is_exhausted, peer_negotiated, peer_disconnected"]}
{"id": "C69", "title": "Answers to address requests are bounded and come from the book", "statement": "A peer that asks for addresses receives exactly one address message with at most 255 addresses, all of them from the address book.", "quantifier": "every history and random choice", "why_tests_cant": "random choices; depends on the index invariant", "anchors": ["p2p/src/fsm/addrmgr.rs: received_getaddr"]}
{"id": "C70", "title": "Enough outbound connections", "statement": "When the client has fewer outbound connections than the target and knows addresses it can connect to, it opens connections the next time it looks (once a minute); inbound connections, which anybody can open, do not keep it from doing so.", "quantifier": "every history and every set of candidates", "why_tests_cant": "the counts depend on every earlier event; inbound connections are chosen by others", "anchors": ["p2p/src/fsm/peermgr.rs: delta, maintain_connections, timer_expired"]}
{"id": "C71", "title": "Connection events match the connections", "statement": "For every address, the last of the events PeerConnected and PeerDisconnected is PeerConnected exactly while an established connection with it exists: a connection is reported once when it is established, and its end is always reported. What the network layer reports about connections never makes the client panic.", "quantifier": "every interleaving of commands, messages, timers, connection attempts, losses and the processing of outputs", "why_tests_cant": "interleavings of the peer manager and the reactor are unbounded", "anchors": ["p2p/src/fsm/peermgr.rs: peer_attempted, peer_connected, peer_disconnected", "net/poll/src/reactor.rs: run, process, handle_writable, unregister_peer"]}
{"id": "C72", "title": "Slow peers are dropped, others are not", "statement": "When the timers are looked at, a connected peer that did not complete the handshake is disconnected exactly if twelve seconds passed since the connection (no version came) or since its version message (no verack came); a connection attempt is given up exactly after six seconds; the timers disconnect nobody else.", "quantifier": "every history of messages, connections and times", "why_tests_cant": "times and message orders are unbounded", "anchors": ["p2p/src/fsm/peermgr.rs: timer_expired, idle_peers"]}
{"id": "C73", "title": "Valid peers are accepted", "statement": "A connected peer that sends a valid version message (recent protocol version, required services and chain height unless trusted or inbound, not vetoed) is answered with a verack and stays connected, unless an outbound connection uses the same nonce or enough outbound peers are negotiated and this one lacks the preferred services.", "quantifier": "every history and every valid version message", "why_tests_cant": "histories and message contents are unbounded", "anchors": ["p2p/src/fsm/peermgr.rs: handle_version"]}
{"id": "C74", "title": "A block sent by a peer cannot crash the client", "statement": "Whatever block a peer sends in answer to a block request, processing it (fee estimation, transaction confirmation) does not panic.", "quantifier": "every content of a block message and every history before it", "why_tests_cant": "arbitrary transactions, amounts and histories", "anchors": ["p2p/src/fsm/fees.rs: process, apply", "p2p/src/fsm/invmgr.rs: received_block"]}
{"id": "C75", "title": "Transactions of reverted blocks are pending again", "statement": "When blocks are reverted, exactly the user's transactions that were confirmed in them (at most twelve blocks deep) are reported as reverted; they are available to peers again and announced again to every connected peer that relays transactions.", "quantifier": "every history of submissions, blocks and reorganisations", "why_tests_cant": "depends on the whole history of blocks and peers", "anchors": ["p2p/src/fsm/invmgr.rs: block_reverted, timer_expired"]}
{"id": "C76", "title": "Peers that do not want transactions get none", "statement": "A peer whose version message says that it does not want transactions relayed is not sent transaction announcements.", "quantifier": "every history of connections and submissions", "why_tests_cant": "order of submission and connection is arbitrary", "anchors": ["p2p/src/fsm/invmgr.rs: peer_negotiated, announce"]}
{"id": "C77", "title": "Received blocks are processed, reverted ones are not", "statement": "Once every requested block was received or left the active chain, all received blocks are processed; a block that was reverted before is not.", "quantifier": "every arrival order and every reorganisation in between", "why_tests_cant": "arrival order and reorganisations are arbitrary", "anchors": ["p2p/src/fsm/invmgr.rs: received_block"]}
{"id": "C78", "title": "Being in sync is reported truthfully", "statement": "The event that says the client is in sync names the tip of the active chain and its height, and is only emitted if the tip is recent and no connected peer is known to have a longer chain; when a peer connects in that situation it is emitted.", "quantifier": "every history of connections, header batches, timers and clock values", "why_tests_cant": "depends on all earlier peer heights, tip changes and clock values", "anchors": ["p2p/src/fsm/syncmgr.rs: SyncManager::is_synced, sync, idle, peer_negotiated", "p2p/src/fsm/event.rs: Event::BlockHeadersSynced"]}
{"id": "C79", "title": "Header synchronisation does not crash", "statement": "No message of a peer, timer or command makes header synchronisation panic.", "quantifier": "every history of messages, timers, connections and imports", "why_tests_cant": "adversarial inputs; unbounded histories", "anchors": ["p2p/src/fsm/syncmgr.rs: SyncManager::request (debug_assert), is_synced, stale_tip, import_blocks"]}
{"id": "C80", "title": "New tips are announced", "statement": "When the active chain gets a new tip, its header is sent to every peer that connected to us and is not known to have that height, and headers are sent for no other reason except to answer a request.", "quantifier": "every history of connections and header imports", "why_tests_cant": "depends on all peers' heights over the whole history", "anchors": ["p2p/src/fsm/syncmgr.rs: SyncManager::broadcast_tip, import_blocks, received_headers"]}
{"id": "C81", "title": "Headers are requested while a peer has a longer chain", "statement": "After a peer connected, after a peer's headers gave us a new tip, and at the latest ten minutes after the last look, headers are being requested from some connected peer if a connected peer is known to have a longer chain; a peer that sent a full batch is asked for the headers after it.", "quantifier": "every history of connections, header batches and timers", "why_tests_cant": "liveness over unbounded histories", "anchors": ["p2p/src/fsm/syncmgr.rs: SyncManager::sync, idle, received_headers, timer_expired, preferred_peer, is_request_candidate"]}
{"id": "C82", "title": "Misbehaviour in header synchronisation", "statement": "A peer is reported as misbehaving if and only if it sends invalid headers or more than 2000 headers in one message.", "quantifier": "every history of header messages", "why_tests_cant": "adversarial inputs", "anchors": ["p2p/src/fsm/syncmgr.rs: SyncManager::received_headers, record_misbehavior"]}
{"id": "C83", "title": "Stopping the wallet never corrupts its coins", "statement": "A wallet that was stopped at any point of its scans, even in the middle of a transaction, and started any number of times while the chain grew, has exactly the coins of a fresh wallet once it scanned the chain again.", "quantifier": "every number of restarts, every crash point between database statements, every chain", "why_tests_cant": "arbitrary crash points and histories", "anchors": ["wallet/src/wallet.rs: Wallet::apply, run", "wallet/src/wallet/db.rs"]}
{"id": "C84", "title": "Wallet coins follow re-organisations", "statement": "After a re-organisation the wallet's coins are those of the active chain.", "quantifier": "every pair of chains and every point at which the wallet was stopped", "why_tests_cant": "arbitrary forks", "anchors": ["wallet/src/wallet.rs: Wallet::handle_client_event, apply", "wallet/src/wallet/db.rs"]}
{"id": "C85", "title": "The wallet watches the same addresses after every start", "statement": "All addresses that the hardware device gave at the first start are watched at every later start, with or without the device.", "quantifier": "every list of addresses and every later answer of the device", "why_tests_cant": "arbitrary device answers and crash points", "anchors": ["wallet/src/wallet.rs: Wallet::run", "wallet/src/wallet/db.rs: Write::add_address, Read::addresses"]}
{"id": "C86", "title": "The peer address file survives interrupted saves", "statement": "If saving the address book is interrupted at any point, the next start of the client has the book saved before or the new one.", "quantifier": "every pair of books and every point of interruption", "why_tests_cant": "arbitrary crash points", "anchors": ["client/src/peer.rs: Cache::{flush, from}", "client/src/client.rs: Client::load"]}
{"id": "C87", "title": "Seeding the address book", "statement": "A client without known addresses and without configured peers asks the DNS seeds and fails only if none can be resolved; all addresses of the seeds that were resolved are in its book and in its file afterwards; known addresses are never overwritten; otherwise the seeds are not used.", "quantifier": "every book and every list of answers of the seeds", "why_tests_cant": "arbitrary answers and books", "anchors": ["common/src/p2p/peer.rs: Store::seed, insert", "client/src/client.rs: Client::load"]}
{"id": "C88", "title": "The managers stay consistent inside the state machine", "statement": "Whatever peers send and the user asks for, in any order and with outputs taken at any pace: the header tree of the running client answers all its queries consistently, and each manager is in a state it reaches by a history of its own, so that its guarantees hold inside the client.", "quantifier": "every history of inputs of the state machine and every schedule in which outputs are taken", "why_tests_cant": "arbitrary interleavings of messages, commands and event deliveries between managers", "anchors": ["p2p/src/fsm.rs: StateMachine::{command, event, message_received, timer_expired}, Iterator::next"]}
{"id": "C89", "title": "Scanned filters are those of the active chain", "statement": "A filter reported as scanned at a height is the one the filter headers commit to, the block named is the one at that height of the active chain, and it is reported to match iff it contains a watched script.", "quantifier": "every history of inputs; with re-orgs, those in which the events of a re-org are taken before the next input and blocks that leave the chain were dealt with", "why_tests_cant": "arbitrary histories, with two chains (headers, filter headers) that grow independently", "anchors": ["p2p/src/fsm.rs: StateMachine::{event, command}", "p2p/src/fsm/cbfmgr.rs: FilterManager::{received_cfilter, rescan}"]}
{"id": "C90", "title": "Matching blocks are reported once and in the order of their matches", "statement": "The blocks reported as matching are exactly those whose filters were found to match, each once and in the same order, whatever the order in which peers deliver blocks; each is the block at that height of the active chain, as sent by a peer.  When every such block was received and all events were taken, all of them are reported.", "quantifier": "every history of inputs without requests of blocks by the user and early rescans; re-orgs as for C89", "why_tests_cant": "arbitrary orders of block deliveries, timers and event deliveries", "anchors": ["p2p/src/fsm.rs: StateMachine::event, Iterator::next", "p2p/src/fsm/cbfmgr.rs: FilterManager::received_event", "p2p/src/fsm/invmgr.rs: InventoryManager::{received_block, get_block}"]}
{"id": "C91", "title": "A rescan reports every block that concerns the watched scripts", "statement": "After a rescan from a height, heights are scanned upwards without gap from there, after a re-org again from the lowest block replaced; once matching blocks were received, every block of the active chain at those heights whose filter contains a watched script has been reported, without re-orgs at ascending heights.", "quantifier": "every history after the rescan, with any deliveries of filters and blocks", "why_tests_cant": "arbitrary histories and chains", "anchors": ["client/src/handle.rs: Handle::rescan", "p2p/src/fsm.rs: StateMachine::command", "p2p/src/fsm/cbfmgr.rs: FilterManager::rescan", "p2p/src/fsm/cbfmgr/rescan.rs: Rescan::process"]}
{"id": "C92", "title": "The wallet shows the coins of the active chain", "statement": "A wallet with a fresh database that rescans for its addresses has, after the scan, exactly the outputs paid to its addresses and not spent in the blocks of the active chain at the heights scanned.", "quantifier": "every history of the client and every chain of blocks whose filters are honest", "why_tests_cant": "composition of header chain, filter chain, scans, block downloads and wallet over arbitrary histories", "anchors": ["wallet/src/wallet.rs: Wallet::run, apply", "p2p/src/fsm.rs: StateMachine", "p2p/src/fsm/cbfmgr.rs: Event::BlockMatched"]}
{"id": "C93", "title": "The order in which messages arrive does not matter", "statement": "Two clients that ask for the same rescan and end with the same chains, having scanned equally far and received the matching blocks, have reported the same blocks in the same order, however the peers' messages were ordered, split into batches, or repeated.", "quantifier": "every pair of histories with the same rescan and the same final chains", "why_tests_cant": "pairs of arbitrary message schedules", "anchors": ["client/src/event.rs: documented client properties (order invariance, granularity)", "p2p/src/fsm.rs: StateMachine", "p2p/src/fsm/cbfmgr.rs: FilterManager::received_cfilter", "p2p/src/fsm/invmgr.rs: InventoryManager::received_block"]}
{"id": "C94", "title": "A rescan of future blocks changes nothing", "statement": "A rescan whose start is above the height synced so far is a no-op: the same blocks are found as without it.", "quantifier": "every state of the client, every start above the last filter header, all scripts", "why_tests_cant": "every state and what follows", "anchors": ["client/src/event.rs: documented client properties (6)", "p2p/src/fsm/cbfmgr.rs: FilterManager::rescan", "p2p/src/fsm/cbfmgr/rescan.rs: Rescan::restart"]}
{"id": "C95", "title": "Commands can be repeated", "statement": "Watching the same scripts again, submitting the same transaction again, or requesting the same block again at once leaves the client as it was after the first command.", "quantifier": "every state of the client, all scripts, transactions and block hashes", "why_tests_cant": "every state", "anchors": ["client/src/event.rs: documented client properties (5)", "p2p/src/fsm.rs: StateMachine::command", "p2p/src/fsm/cbfmgr.rs: FilterManager::watch, watch_transaction", "p2p/src/fsm/invmgr.rs: InventoryManager::announce, get_block"]}
{"id": "C96", "title": "Subscribers get every event, once and in order", "statement": "A subscriber (to events, blocks or filters) receives exactly what is published after it subscribed, in that order, without loss or repetition, until it drops its receiver; other subscribers that are slow or gone make no difference. The end of the channel is only seen after it was closed and everything published before was received.", "quantifier": "every interleaving of subscriptions, publications, receptions and dropped receivers, any number of subscribers", "why_tests_cant": "every interleaving of any length", "anchors": ["net/src/event.rs: Emitter, Subscriber, Broadcast", "client/src/client.rs: Handle::events, blocks, filters"]}
{"id": "C97", "title": "wait_for_height returns the block at that height", "statement": "If wait_for_height(h) returns a hash, it is that of the block which is at height h of the active chain at some moment since the call; and the call succeeds when the chain reaches the height in time.", "quantifier": "every history of header imports and reorganizations before and after the call, every height and timeout, every time at which events are taken", "why_tests_cant": "every history and schedule", "anchors": ["client/src/client.rs: Handle::wait_for_height", "net/src/event.rs: wait", "p2p/src/fsm/syncmgr.rs: Event::BlockHeadersImported"]}
{"id": "C98", "title": "wait_for_peers returns the requested number of peers", "statement": "If wait_for_peers(n, services) returns, then n different peers, each of which has the services and completed the handshake, with the height and services it announced; and the call succeeds when there are at least that many in time.", "quantifier": "every history of connections and messages before and after the call, every n, services and timeout", "why_tests_cant": "every history and schedule", "anchors": ["client/src/client.rs: Handle::wait_for_peers", "p2p/src/fsm.rs: Command::GetPeers", "net/src/event.rs: wait"]}
{"id": "C99", "title": "connect and disconnect report what happened", "statement": "If connect(a) returns, a connection with a was established since the call; if disconnect(a) returns, the connection with a was closed since the call. The calls succeed when a is connected, respectively not connected, in time.", "quantifier": "every execution of reactor and peer manager before and after the call, every address and timeout", "why_tests_cant": "every execution and schedule", "anchors": ["client/src/client.rs: Handle::connect, disconnect", "net/src/event.rs: wait", "p2p/src/fsm/peermgr.rs: Event::Connected, Event::Disconnected"]}
{"id": "C100", "title": "submit_transaction returns the peers that get the transaction", "statement": "The peers returned by submit_transaction are exactly the connected peers that relay transactions, and it is queued for announcement to each. There is an error exactly if there is no such peer; even then the transaction is kept, and announced to the next peer that connects.", "quantifier": "every history of the client before the call, every transaction", "why_tests_cant": "every history", "anchors": ["p2p/src/fsm.rs: Command::SubmitTransaction", "p2p/src/fsm/invmgr.rs: InventoryManager::announce, peer_negotiated, timer_expired", "client/src/client.rs: Handle::submit_transaction"]}
{"id": "C101", "title": "Transactions are only announced to peers that want them", "statement": "A transaction is announced only to peers that did not ask (by the relay flag of their version message) to be spared transactions.", "quantifier": "every history of connections, submissions, blocks and timers", "why_tests_cant": "every history", "anchors": ["p2p/src/fsm/invmgr.rs: InventoryManager::announce, peer_negotiated, timer_expired"]}
{"id": "C102", "title": "Nothing that peers or the user do crashes the client", "statement": "Whatever messages peers send, whatever commands the user gives and whatever happened before, the state machine made of header synchronization, filters, inventory and transactions handles the next input without panicking.", "quantifier": "every history of messages, commands, timers and outputs taken, every next input, every store of headers and filter headers", "why_tests_cant": "every history", "anchors": ["p2p/src/fsm.rs: StateMachine", "p2p/src/fsm/syncmgr.rs, cbfmgr.rs, invmgr.rs, fees.rs"]}
{"id": "C103", "title": "A rescan gets on after lost requests or answers", "statement": "While a rescan is running and a peer serving filters is connected: if nothing was scanned for six seconds, the next timer makes the client ask again for every filter it lacks up to the last known filter header, and once genuine answers to these requests have arrived, in any order and mixed with any other filter messages, all those heights have been scanned, in order and each once.", "quantifier": "every history before the timer, every set of lost messages, every order of the answers, any junk between them", "why_tests_cant": "every loss pattern and every order of the answers", "anchors": ["p2p/src/fsm/cbfmgr.rs: FilterManager::timer_expired, get_cfilters, received_cfilter", "p2p/src/fsm/cbfmgr/rescan.rs: Rescan::reset, requests, process"]}
{"id": "C104", "title": "Valid headers are accepted", "statement": "A header that names the tip of the active chain and obeys every consensus rule (proof of work, required difficulty, timestamp after the median of the last eleven and at most two hours ahead of network time, checkpoint) is never refused: importing it gives a new tip, and the new active chain carries at least the work of the old one plus that of the header. If no stale headers are known, a whole message of such headers is appended to the active chain and its last header is reported as the tip.", "quantifier": "every reachable tree, every header and every list of headers of any length, every consensus parameters, network time and store behaviour without failures", "why_tests_cant": "every chain length, difficulty history and timestamp pattern; the converse of rejecting invalid headers", "anchors": ["chain/src/block/cache.rs: BlockCache::import_block, import_blocks, validate, next_difficulty_target, median_time_past"]}
{"id": "C105", "title": "Initial download reaches the chain of an honest peer", "statement": "If a connected peer has a valid chain with more work than ours and answers our requests for headers as the protocol asks (at most 2000 headers per answer), then the peer's chain becomes our active chain: after k answers we have its blocks up to 2000*k above our tip, and as long as blocks are missing a request to the peer is outstanding whose answer is processed without a panic. A client that just started asks the first peer with a longer chain.", "quantifier": "every valid chain of any length, every reachable tree and history before, every interleaving of the answers with other events that bring no headers, any number of answers", "why_tests_cant": "chains of any length, every interleaving with timers, connections, announcements and requests of other peers", "anchors": ["p2p/src/fsm/syncmgr.rs: SyncManager::received_headers, request, sync, peer_negotiated", "chain/src/block/cache.rs: BlockCache::import_blocks, locate_headers, locator_hashes"]}
{"id": "C106", "title": "Filter headers belong to the blocks of the active chain", "statement": "Whenever the client's outputs have been taken, each filter header it holds was accepted when the block now at its height in the active chain was at that height, and there is no filter header above the best block: filter headers of blocks that left the chain in a re-org are dropped. An input only drops filter headers from the end or only adds some at the end, and the file holds what memory holds.", "quantifier": "every history of inputs to the state machine: headers of any peers, re-orgs of any depth, filter headers, timers, commands, in every interleaving", "why_tests_cant": "every interleaving of re-orgs and filter-header messages, every depth", "anchors": ["p2p/src/fsm/cbfmgr.rs: FilterManager::received_event, rollback, received_cfheaders", "p2p/src/fsm.rs: StateMachine::next", "chain/src/filter/cache.rs: FilterCache::import_headers, rollback"]}
{"id": "C107", "title": "The client starts again after a stop or a crash", "statement": "However the client ends - stopped, or killed at any point while it handles an input - the next start succeeds with the block headers and filter headers that were stored, the filter headers still belong to the blocks of the active chain, and no stored header is lost unless it was being replaced in a re-org.", "quantifier": "every history, every input being handled, every point of it at which the process is killed", "why_tests_cant": "every crash point of every history", "anchors": ["client/src/client.rs: Client::load", "chain/src/block/cache.rs: BlockCache::import_blocks, switch_to_fork, load_with", "chain/src/filter/cache.rs: FilterCache::load_with, import_headers", "p2p/src/fsm/cbfmgr.rs: FilterManager::sync, initialize"]}
{"id": "C108", "title": "The managers are used as assumed when wired together", "statement": "In every execution of the whole state machine - commands, messages, timers, connections, in any order - each manager (sync, inventory, filters, peers, pings, addresses) goes through one of the executions for which its own properties hold; with the reactor, the sockets and the peer manager do so too. What is proved for a manager alone thus holds for the client.", "quantifier": "every configuration, start state and sequence of reactor calls and commands, with outputs taken at any point", "why_tests_cant": "every interleaving of six managers over unbounded histories", "anchors": ["p2p/src/fsm.rs: StateMachine::message_received, attempted, connected, disconnected, timer_expired, command, initialize, event, next", "net/poll/src/reactor.rs: Reactor::run, process"]}
{"id": "C109", "title": "The managers agree on who is connected", "statement": "At every moment, the sync manager keeps a record of exactly the peers for which the last thing reported is a completed handshake rather than a disconnection (of those the client connected to, only the ones serving blocks), and the ping manager of exactly those peers. The inventory and filter managers keep records only of such peers; the filter manager only of outbound peers serving compact filters.", "quantifier": "every execution of the state machine", "why_tests_cant": "every interleaving of connections, handshakes, disconnections and outputs", "anchors": ["p2p/src/fsm.rs: StateMachine::event, next", "p2p/src/fsm/syncmgr.rs: peer_negotiated, peer_disconnected", "p2p/src/fsm/pingmgr.rs: peer_negotiated, peer_disconnected", "p2p/src/fsm/invmgr.rs: received_event", "p2p/src/fsm/cbfmgr.rs: received_event"]}
{"id": "C110", "title": "Requests go only to peers that are connected and serve what is asked for", "statement": "Whatever input the client handles, the requests for headers, blocks, filter headers and filters and the announcements of transactions it puts out are addressed to peers that completed the handshake and were not reported disconnected since; requests for filters and filter headers only to outbound peers that serve compact filters.", "quantifier": "every execution of the state machine and every next input", "why_tests_cant": "every history of peers coming and going while requests are retried", "anchors": ["p2p/src/fsm/syncmgr.rs: request", "p2p/src/fsm/invmgr.rs: get_block, timer_expired", "p2p/src/fsm/cbfmgr.rs: send_filters_requests, sync", "p2p/src/fsm.rs: StateMachine::next"]}
{"id": "C111", "title": "A peer that is gone is forgotten", "statement": "When the client has processed its outputs, every peer that some manager keeps a record of has an open, established connection.", "quantifier": "every execution of state machine and reactor", "why_tests_cant": "every order of connection events, commands and output processing", "anchors": ["net/poll/src/reactor.rs: Reactor::process, unregister_peer", "p2p/src/fsm.rs: StateMachine::disconnected, next", "p2p/src/fsm/peermgr.rs: disconnect, disconnected"]}
{"id": "C112", "title": "Nothing a peer sends and no command crashes the client", "statement": "No input - a message of a peer, a connection event, a timer, a command - makes the state machine panic.", "quantifier": "every execution of the state machine, every next input", "why_tests_cant": "every history and message", "anchors": ["p2p/src/fsm.rs: StateMachine", "p2p/src/fsm/peermgr.rs", "p2p/src/fsm/pingmgr.rs", "p2p/src/fsm/addrmgr.rs"]}
{"id": "C113", "title": "No output of the state machine is lost", "statement": "Whatever a manager puts out (a message, a request to connect or disconnect, an event) waits in the outbox until the reactor processes it, and the reactor waits for new input only when everything put out before was processed.", "quantifier": "every execution of state machine and reactor, every output", "why_tests_cant": "every interleaving of inputs, timers and output processing; outputs are produced while others are processed", "anchors": ["p2p/src/fsm.rs: StateMachine::next (Iterator)", "p2p/src/fsm/output.rs: Outbox", "net/poll/src/reactor.rs: Reactor::run, process"]}
{"id": "C114", "title": "A peer that misbehaves or does not answer is disconnected", "statement": "When a manager asks for a peer to be disconnected, reports that it misbehaved, or a ping stays unanswered for too long, the connection with that peer is closed by the time the client waits for new input.", "quantifier": "every execution of state machine and reactor, every report, every time-out", "why_tests_cant": "reports pass through the outboxes of several managers, in every interleaving with connection events", "anchors": ["p2p/src/fsm.rs: StateMachine::next", "p2p/src/fsm/pingmgr.rs: received_timer", "p2p/src/fsm/peermgr.rs: received_event, disconnect", "net/poll/src/reactor.rs: Reactor::process"]}
{"id": "C115", "title": "The client connects only to addresses it was told about or that are usable", "statement": "The client asks for a connection only with an address of an allowed domain that is configured, that the user asked for, or - only if none are configured - that was drawn from its address book and is usable: not banned, not tried without success, and with no connection open to the same IP address.", "quantifier": "every execution of the state machine, every next input, every address dialed", "why_tests_cant": "addresses come from peers, which choose them; every history of connections, failures and address messages", "anchors": ["p2p/src/fsm/peermgr.rs: PeerManager::maintain_connections, connect", "p2p/src/fsm/addrmgr.rs: AddressManager::sample, sample_with", "p2p/src/fsm.rs: StateMachine"]}
{"id": "C116", "title": "A peer that was disconnected for its behaviour is not dialed again", "statement": "After a connection is closed for a reason that is not transient, the client never dials that IP address again by itself, whatever peers tell it, unless the address is configured or the user asks for it.", "quantifier": "every execution of the state machine, every disconnection, everything that happens later", "why_tests_cant": "no bound on what happens later; the address can come back in address messages", "anchors": ["p2p/src/fsm/addrmgr.rs: AddressManager::peer_disconnected, discard_address", "p2p/src/fsm/peermgr.rs: PeerManager::maintain_connections"]}
{"id": "C117", "title": "The client does not loop: the processing of outputs ends", "statement": "Whatever the managers put out and whatever they do about each other's events, and whichever connections succeed or fail meanwhile, the client processes only finitely many outputs before it waits for new input; in that time it dials at most the addresses it was about to dial and each address of its book once more.", "quantifier": "every sequence of processing steps of state machine and reactor from every state, every outcome of the connection attempts, every choice of addresses", "why_tests_cant": "outputs produce events that produce outputs; failed dials draw new addresses that are dialed; absence of infinite executions is not observable in a test", "anchors": ["net/poll/src/reactor.rs: Reactor::process", "p2p/src/fsm.rs: StateMachine::next (Iterator)", "p2p/src/fsm/peermgr.rs: PeerManager::peer_disconnected, maintain_connections", "p2p/src/fsm/addrmgr.rs: AddressManager::sample"]}
{"id": "C118", "title": "Asking for the peers and broadcasting to them gives exactly the connected peers", "statement": "After every history, the answer to get_peers lists exactly the connected peers with a completed handshake that announced the services asked for, each once, with the contents of the last version message on the open connection and with when and from where it was made; the other managers were told of each of them and there is a socket for it. A broadcast goes exactly once to each of the peers with a completed handshake that the predicate selects, and to nobody else.", "quantifier": "every history of connections, messages, timers and commands; every set of services; every predicate", "why_tests_cant": "the answer depends on everything that happened before on every connection, including repeated and interrupted handshakes", "anchors": ["p2p/src/fsm.rs: Command::GetPeers, Command::Broadcast, StateMachine::broadcast, Peer::from", "p2p/src/fsm/peermgr.rs: PeerManager::peers, PeerInfo::is_negotiated", "client/src/handle.rs: Handle::get_peers, broadcast"]}
{"id": "C119", "title": "The filter headers catch up with the chain", "statement": "While the chain stays as it is, if there is always some peer serving filters, timers go on, peers answer honestly and not every message to or from them is lost, the filter headers of all blocks of the chain are downloaded after some time, in memory and in the store, and the user is told so; this does not depend on how many messages are lost, on requests left over from before, or on what else the node is asked to do meanwhile.", "quantifier": "every endless execution of the filter manager from every state whose filter headers are a beginning of the chain's; every interleaving of events, timers, messages and commands", "why_tests_cant": "a liveness property: it speaks about all endless schedules with any number of lost messages", "anchors": ["p2p/src/fsm/cbfmgr.rs: FilterManager::sync, idle, timer_expired, get_cfheaders, received_cfheaders, schedule_wake"]}
{"id": "C120", "title": "Only peers that send improper messages about filters are reported", "statement": "A peer is reported as misbehaving (and then disconnected) by the filter manager only on a message of its own that is improper: a request for an unknown kind of filter, a filter that the true filter headers do not commit to, or filter headers that are not a true answer to a request.", "quantifier": "every state, every tree of blocks, every event, message and command", "why_tests_cant": "an honest answer can meet any state of the node, for instance after a re-organization of the chain or after other answers", "anchors": ["p2p/src/fsm/cbfmgr.rs: FilterManager::received_cfheaders, received_cfilter, received_getcfheaders, received_event"]}
{"id": "C121", "title": "A rescan gets to the tip", "statement": "After the user asks for a rescan from some height on, all heights from there up to the tip are scanned, in order and each once, provided that some connected peer serves filters and that filters and filter headers asked for again and again are answered again and again.", "quantifier": "every endless execution with a chain that stays as it is, from every state with true filter headers; any number of lost requests and answers, any other messages, events and commands in between", "why_tests_cant": "progress is a claim about endless executions; any number of messages may be lost and the rest may come in any order", "anchors": ["p2p/src/fsm/cbfmgr.rs: FilterManager::rescan, timer_expired, sync, received_cfilter, headers_imported", "p2p/src/fsm/cbfmgr/rescan.rs: Rescan::process, received, requests, reset"]}
{"id": "C122", "title": "Blocks that were asked for are delivered", "statement": "A block that the user asked for, or that a filter matched, is delivered, provided that some connected peer serves blocks and that a block requested from peers again and again comes in again and again.", "quantifier": "every endless execution with a chain that stays as it is, after every history; any number of lost requests and blocks, any other messages, events and commands in between", "why_tests_cant": "progress is a claim about endless executions; blocks may be lost and come in any order", "anchors": ["p2p/src/fsm/invmgr.rs: InventoryManager::get_block, timer_expired, received_block", "p2p/src/fsm.rs: Command::RequestBlock"]}
{"id": "C123", "title": "Header synchronization gets to the tip", "statement": "If from some time on there is always a connected peer that does not serve compact filters and, while blocks are missing, one that reported a longer chain, and requests for headers that are made again and again are answered again and again, then at some time the active chain is the best chain, and it stays so; any number of requests and answers may be lost, peers may come and go, some may never answer, and messages and timers may come in any order.", "quantifier": "all endless executions of the sync manager, over all valid chains of any length, all choices of peers, all orders of events and all losses of messages", "why_tests_cant": "a test runs finitely many steps of a few schedules; that nothing is stuck for ever is a statement about endless executions", "anchors": ["p2p/src/fsm/syncmgr.rs: SyncManager::timer_expired, sync, preferred_peer, request, received_headers, idle, sample_peers", "chain/src/block/cache.rs: BlockCache::import_blocks"]}
{"id": "C124", "title": "The chain with the most work wins", "statement": "When a fork is delivered whose headers each obey the consensus rules of the chain they are on (timestamp above the median of their own ancestors and not too far in the future, difficulty computed from their own ancestors, proof of work, checkpoints), importing its headers succeeds, and the active chain then carries at least the work of the fork's: a fork of more work than the part of the active chain it displaces is followed, whatever the sizes of the batches it arrives in, and a fork of less work leaves the active chain as it is.", "quantifier": "for all trees reachable through the API, all active blocks forked off, all lists of headers on top of it, all partitions into batches, all clocks and iteration orders of the set of stale headers", "why_tests_cant": "A test shows a few short forks with well-behaved timestamps; the rules are checked against the active chain instead of the fork's own ancestors, and whether that matters depends on the timestamps, the depth and the retarget periods of both chains.", "anchors": ["chain/src/block/cache.rs: BlockCache::import_block, chain_candidates, fork, validate_branch, validate, median_time_past, next_difficulty_target, switch_to_fork, import_blocks"]}
{"id": "C125", "title": "Submitted transactions are announced, and settled", "statement": "A transaction submitted while a relaying peer is connected (or pending when a peer connects) is announced to that peer at some time, unless before that the peer asks for it, leaves or is given up, or a block with it is processed. If no more transactions are submitted, it does not stay queued for ever: at some time the peer asks for it, a block with it is processed, or the peer leaves or is given up.", "quantifier": "all endless executions of the inventory manager after all histories, with timers going off again and again; any order of submissions, messages, blocks, re-orgs, connections and disconnections", "why_tests_cant": "a test runs finitely many steps of a few schedules; that nothing stays queued for ever is a statement about endless executions, and the counter of attempts is shared by all transactions queued for a peer", "anchors": ["p2p/src/fsm/invmgr.rs: InventoryManager::announce, timer_expired, received_getdata, peer_negotiated, Peer::attempted, Peer::reset"]}
{"id": "C126", "title": "Iterating over the chain from both ends", "statement": "An iterator over the active chain (`BlockReader::iter`) gives every block exactly once, with its height, whatever calls of `next` and `next_back` are made in whatever order: from the front in ascending order, from the back in descending order, and nothing once all were given.", "quantifier": "all chains and all sequences of calls from either end", "why_tests_cant": "the interleavings of the two calls and the lengths are unbounded; the doc test shows one", "anchors": ["common/src/block/iter.rs: Iter::new, next, next_back", "chain/src/block/cache.rs: BlockCache::iter"]}
{"id": "C127", "title": "The wallet's screen shows what the wallet knows", "statement": "After anything happened (a key, a resize, a loading step, an event of the client) the screen shows the balance of the database, which is that of the blocks that matched applied in order; the tab the user went to and its present contents; and what the client is doing, where a loading step may be skipped if something was drawn less than 16 ms before. 'Synced' is shown when the whole chain was scanned. Nothing that happens makes the wallet panic.", "quantifier": "every order of keys, resizes, loading steps and client events, all their times, blocks, addresses and databases", "why_tests_cant": "what is drawn depends on flags set by earlier steps in any interleaving, and on timing", "anchors": ["wallet/src/wallet/ui.rs: refresh, redraw, handle_input_event, handle_loading_event, handle_synced, set_balance, draw_utxo_tab", "wallet/src/wallet.rs: run, handle_client_event, handle_signal"]}
{"id": "C128", "title": "Questions about the chain and about submitted transactions have answers that fit together", "statement": "At every time, all answers of a running client about the chain come from one chain of headers that starts with genesis: the header at a height, the header and height for a hash, and height, header and total work of the tip. The work of the tip never gets less from one answer to the next unless the header store fails, and on mainnet the same work means the same chain. The events about connected and disconnected blocks handed out so far, followed by those that wait to be handed out, lead from the chain at the start to that of the answers. Asking for a submitted transaction gives one exactly if a transaction with that id was submitted, or was in a reverted block, and was in no block processed since.", "quantifier": "every execution of the client: all orders of messages, commands, timers, connections and outputs taken, all headers, re-orgs and transactions", "why_tests_cant": "answers can be asked for between any two of the steps of unboundedly many interleavings, in particular while events wait to be handed out", "anchors": ["p2p/src/fsm.rs: StateMachine::command, next", "chain/src/block/cache.rs: BlockCache::get_block, get_block_by_height, tip, chain_work", "p2p/src/fsm/invmgr.rs: InventoryManager::get_submitted_tx", "client/src/handle.rs: Handle::get_tip, get_block, get_block_by_height, get_submitted_transaction"]}
{"id": "C129", "title": "What peers send cannot fill the client's memory", "statement": "Whatever peers send, the client keeps only what it asked for or what was worked for: blocks only if the user asked for them or their filter matched, and no more than that; submitted transactions no more than the user submitted; headers only with proof of work within the limit of the network, each at most once; filters only while they are awaited; and of the bytes of a connection less than one message.", "quantifier": "every execution: all messages, peers, orders and numbers of them", "why_tests_cant": "a bound over all histories; a flood test shows one flood", "anchors": ["p2p/src/fsm/invmgr.rs: received_block, get_block, received_getdata, announce", "chain/src/block/cache.rs: import_block", "p2p/src/fsm/cbfmgr.rs: received_cfilter", "p2p/src/fsm/cbfmgr/rescan.rs: Rescan::received", "p2p/src/stream.rs: Decoder", "client/src/service.rs: message_received"]}
{"id": "C130", "title": "Our side of the handshake", "statement": "On a connection that it opened the client sends its version message (protocol version, services, user agent, time in seconds, the peer's address, height of its chain, no relaying of transactions) and nothing else of the handshake. A valid version message is answered with wtxidrelay, verack and sendheaders in this order, preceded by the client's own version message if the peer opened the connection. A version message that is not valid gets no answer but the connection is closed. Nothing else makes the client send handshake messages, so verack is never sent without wtxidrelay right before it.", "quantifier": "every history of connections, messages, timers and commands, and all contents of version messages", "why_tests_cant": "holds for all orders of events of all peers; peers enforce the order (BIP 339) and disconnect if it is wrong", "anchors": ["p2p/src/fsm/peermgr.rs: peer_connected, received_version, version, received_verack, received_wtxidrelay"]}
{"id": "C131", "title": "Peers cannot fill the address book from one network", "statement": "Whatever addresses peers announce, the address book holds at most 256 addresses of the same network (the first 16 bits of a version 4 address, the first 32 bits of a version 6 address) and at most 65280 in all, and version 4 addresses that enter it by a peer's message are public: outside the networks for private use, loopback, link-local, documentation, broadcast and 'this network'.", "quantifier": "every history of address messages, connections, samples and bans, all random choices, all addresses", "why_tests_cant": "a bound over all histories of adversarial announcements and random evictions; the classes of addresses have 2^32 members", "anchors": ["p2p/src/fsm/addrmgr.rs: insert, addr_key, is_routable, is_local, ipv4_is_routable, MAX_RANGE_SIZE", "common/src/p2p.rs: Domain::for_address"]}
{"id": "C132", "title": "Filter requests are spread evenly over the peers", "statement": "When filters are asked for, by a command or for a rescan, the messages needed are sent to the peers that serve filters in turn: no peer gets more than one message more than any other.", "quantifier": "every state the client can reach, every range of heights, every set of peers, every random order", "why_tests_cant": "the numbers of peers and of messages are unbounded and the order is random", "anchors": ["p2p/src/fsm/cbfmgr.rs: FilterManager::get_cfilters, rescan", "common/src/collections.rs: AddressBook::cycle, shuffled"]}
{"id": "C133", "title": "Addresses tried in vain are left alone, addresses that answered are not given up", "statement": "An address of the address book that the client tried to connect to and that never completed a handshake is not dialed again, whatever happens, until a peer announces it anew or it completes a handshake (unless it is configured or the user asks for it). An address that completed a handshake stays usable: while it is in the book, later attempts in vain do not exclude it.", "quantifier": "all executions of the state machine, all addresses, every number of inputs between the attempt and the next connection", "why_tests_cant": "A test follows one attempt for a few steps; the claim covers every later history and every way in which the record of an address may change.", "anchors": ["p2p/src/fsm/addrmgr.rs: peer_attempted, peer_negotiated, sample_with", "p2p/src/fsm/peermgr.rs: maintain_connections"]}
{"id": "C134", "title": "Every part of the client hears what it should hear", "statement": "A message of a connected peer reaches the parts of the client it is for, unchanged and together with its sender, and no other part: version, verack and wtxidrelay the handshake; pings and pongs the liveness check; addresses and requests for addresses the address book; headers, inventories, blocks, requests for data, filter headers and filters the synchronization. Whatever a connected peer sends counts as a sign of life in the address book. A message of somebody who is not connected has no effect; one with another network's magic bytes only ever concerns the connection it came on. When a handshake is reported, all parts hear of it, with the announced height and whether the first and the seventh bit of the peer's services are set (serves blocks; serves compact filters). When the end of a connection is reported, all parts hear of it, and the address book hears whether the reason is one that may go away. When a peer is reported to misbehave or not to answer, the part that disconnects it is told. A ping of a peer with a completed handshake is answered exactly once, with its number, and nobody else's is; a connected peer that asks for addresses gets one message with at most 255 addresses of the book.", "quantifier": "every reachable state, every message, sender and reported event", "why_tests_cant": "The client dispatches by hand-written matches with catch-all arms; a message or event that is forwarded to one part too few shows only in a later effect of that part, for some histories.", "anchors": ["p2p/src/fsm.rs: message_received, Iterator for StateMachine (next)", "p2p/src/fsm/pingmgr.rs: received_ping", "p2p/src/fsm/addrmgr.rs: received_getaddr, peer_negotiated, peer_disconnected", "p2p/src/fsm/peermgr.rs: received_event"]}
{"id": "C135", "title": "The built-in networks are set up correctly", "statement": "For each of the built-in networks: the genesis hash is the double SHA-256 of the genesis header, which has the proof-of-work it claims, within the network's limit; the checkpoints are in strictly ascending order above genesis and are possible proof-of-work hashes; the network's name is read back as the network, nothing else but 'bitcoin' is, and networks differ in genesis, magic number, port and name; difficulty adjustment cannot overflow 256-bit arithmetic where difficulty is adjusted; a client that starts with an empty directory starts, with the genesis header. Whatever headers it is then presented with: its chain starts with that header, is linked, each of its headers has a double SHA-256 hash at most its target, each target is within the limit, and at the listed heights it holds the listed blocks. The services asked of peers are blocks, and compact filters unless only the chain is wanted.", "quantifier": "every network; every history of headers presented, with the real hash function", "why_tests_cant": "Tests check a constant here and there; that the guarantees of the header tree hold on each real network, with its parameters and hash, ranges over all histories.", "anchors": ["common/src/network.rs: Network, Services", "common/src/block/checkpoints.rs", "common/src/block/genesis.rs", "client/src/client.rs: Client::load", "chain/src/block/cache.rs: BlockCache::new, load_with"]}
{"id": "C136", "title": "Compact filters miss nothing", "statement": "The compact filter of a block, asked for any list of scripts, answers without error, and the answer is yes whenever one of them is paid to by an output of the block (unless it is empty or starts with OP_RETURN) or was paid to by a coin spent in the block (but for the first transaction). It answers yes for no others but those whose 64-bit hashes, scaled to the filter's range, collide with one of the scripts in the filter; likewise for the question whether all scripts of a list are there. On each network the genesis filter header used as the start of the chain of filter headers is the one of the filter of the genesis block.", "quantifier": "every block, every list of scripts, every network", "why_tests_cant": "The encoding is a bit stream of hashes; tests check a few vectors, not that encoding and search agree for every set of scripts.", "anchors": ["common/src/block/filter.rs: BlockFilter, FilterHeader::genesis", "common/src/block/store.rs: Genesis for BlockFilter", "p2p/src/fsm/cbfmgr/rescan.rs: Rescan::match_filter"]}
{"id": "C137", "title": "A block that contains a submitted transaction is found", "statement": "After a transaction was submitted and as long as it is not confirmed, a rescan finds every block of the active chain it scans that contains the transaction, whether or not the block concerns a watched script.", "quantifier": "every transaction, every block that contains it, every history with a rescan after the submission", "why_tests_cant": "ranges over all transactions and the hashes in all filters", "anchors": ["p2p/src/fsm/cbfmgr.rs: FilterManager::watch_transaction", "p2p/src/fsm/cbfmgr/rescan.rs: Rescan::match_filter", "p2p/src/fsm.rs: Command::SubmitTransaction"]}
{"id": "C138", "title": "A submitted transaction that gets into a scanned block is reported as confirmed", "statement": "If a transaction was submitted, and a block of the active chain that contains it was scanned by a rescan asked for afterwards, then, once the blocks found to match have been received and all events were taken, the client has reported the transaction as confirmed.", "quantifier": "every history of messages, timeouts, commands, re-orgs and deliveries of events between the parts of the client; every transaction, block, height and set of watched scripts; every order in which blocks and filters arrive", "why_tests_cant": "The transaction has to survive in the pool and in the rescan's list until its block is found, requested, possibly put aside while others are missing, and processed; a test follows one such path, but what must be excluded is that any interleaving of re-orgs, other submissions, late blocks and events loses it.", "anchors": ["p2p/src/fsm/invmgr.rs: InventoryManager::announce, received_block", "p2p/src/fsm/cbfmgr.rs: FilterManager::rescan, FilterManager::watch_transaction", "p2p/src/fsm.rs: StateMachine::next, command (SubmitTransaction, Rescan)"]}
{"id": "C139", "title": "The client hears exactly what its peers say, however the network cuts up the bytes", "statement": "Whatever bytes peers send, in whatever pieces, interleaved with whatever else happens: of each connected peer the client's state machine gets the messages that the bytes sent since it connected begin with, all of them, once, in order, and nothing else; how the bytes were cut makes no difference to the client. Bytes that cannot be read make the client close that peer's connection, and do nothing else. Bytes of peers that are not connected are ignored. Receiving bytes always ends, and crashes a release build only if one of the messages in them does.", "quantifier": "every byte string and every way to cut it, every history of connections, disconnections, commands, timers and outputs in between, every decoder that decides on a prefix as on any continuation", "why_tests_cant": "The bytes of one message can arrive in arbitrarily many pieces with anything in between; tests can only try some cuts of some messages, and not the state in which each piece finds the whole client.", "anchors": ["client/src/service.rs: Service::message_received, connected, disconnected", "p2p/src/stream.rs: Decoder", "p2p/src/fsm.rs: StateMachine::disconnect, message_received", "net/poll/src/reactor.rs: handle_readable"]}
{"id": "C140", "title": "Commands given through handles are executed, once and in order", "statement": "Any number of threads may use handles at the same time. Every command whose call has returned is handled by the client, unless the client ends first; each is handled once, in the order in which the commands were sent; nothing else is handled; and the client never goes to sleep leaving a command of a finished call waiting.", "quantifier": "every number of threads, every interleaving of their calls with the loop of the reactor, with socket events and timers; every execution in which the reactor's thread gets its turn", "why_tests_cant": "A lost wake-up needs one particular interleaving of a send, a wake-up, a reset and a drain; tests run a few of the unboundedly many schedules.", "anchors": ["client/src/client.rs: Handle::_command, Client::new", "net/poll/src/reactor.rs: Reactor::run, Waker"]}
{"id": "C141", "title": "shutdown ends the client", "statement": "After a call of shutdown has returned, the client ends, whatever else is going on.", "quantifier": "every interleaving of calls on handles with the loop of the reactor, every execution in which the reactor's thread gets its turn", "why_tests_cant": "Whether it holds depends on which of the reactor's operations the two operations of shutdown fall between.", "anchors": ["client/src/client.rs: Handle::shutdown", "net/poll/src/reactor.rs: Reactor::run"]}
{"id": "C142", "title": "The client is woken when it asked to be", "statement": "When the state machine asks to be woken after some time, it is woken at that time or soon after it: not before, whatever other timers are running, and also when peers keep the client busy.", "quantifier": "every history of requests and of the clock, every schedule of socket events, commands and timers", "why_tests_cant": "Requests may come at any distance from each other and socket events at any time; the failing cases are particular distances, and executions that go on forever.", "anchors": ["net/poll/src/reactor.rs: Reactor::run, process", "net/poll/src/time.rs: TimeoutManager"]}
{"id": "C143", "title": "What the client sends is written to the connection", "statement": "The bytes written to a connection are those the client sent to the peer, in order and without gaps. As long as the connection lasts and the network keeps taking bytes from it, everything the client sends to the peer is written at some time; no message stays behind in a buffer. No event of a socket makes the reactor panic.", "quantifier": "every sequence of polls, events and outputs, every number of connections, every result of writes (any split, would-block, zero, error), also for bytes sent before the connection is established", "why_tests_cant": "Bytes get stuck if the wish to be told about writability is dropped in one particular order of events; the orders are unbounded and the claim is about executions that go on forever.", "anchors": ["net/poll/src/reactor.rs: Reactor::run, process, handle_writable, handle_readable, register_peer", "net/poll/src/socket.rs: Socket::push, flush"]}
{"id": "C144", "title": "The simulator gives messages in order and loses none", "statement": "In a simulation, messages that a node sends to a node it is connected to, while they are not partitioned, are given to the receiver in the order they were sent, each once, and when the simulation is done, all have been given. Nodes are partitioned only in simulations whose options allow failures, and a link that failed carries messages in neither direction.", "quantifier": "every sequence of outputs of any number of nodes, every draw of latencies and failures, every number of steps", "why_tests_cant": "Entries are kept by time, and collide at particular latencies and times only; the sequences of outputs are unbounded.", "anchors": ["net/src/simulator.rs: Simulation::schedule, step_, Inbox::insert, Inbox::last"]}
{"id": "C145", "title": "The simulator wakes nodes that ask to be woken", "statement": "In a simulation, a node that asks to be woken after some time is woken at that time or later, and no node is woken that did not ask.", "quantifier": "every sequence of outputs of any number of nodes, every draw of latencies and failures", "why_tests_cant": "The failing case needs two nodes that ask for the very same millisecond.", "anchors": ["net/src/simulator.rs: Simulation::schedule, step_"]}
{"id": "C146", "title": "The simulator does not fail by itself", "statement": "Whatever the simulated nodes put out, no assertion of the simulator about its own state fails, and its time does not go backwards.", "quantifier": "every sequence of outputs of nodes that do not connect to themselves or to nodes that are not simulated", "why_tests_cant": "The assertions depend on the order in which connections, attempts and disconnects arrive.", "anchors": ["net/src/simulator.rs: Simulation::step_"]}
{"id": "C147", "title": "Simulated nodes are told of connections consistently", "statement": "In a simulation, a node is told that it is connected to another only if it was not, that it is disconnected only if it was connected or connecting, and is given messages only from nodes it is connected to.", "quantifier": "every sequence of outputs, every draw of latencies and failures", "why_tests_cant": "Messages, connections and disconnects are under way at the same time, in any order.", "anchors": ["net/src/simulator.rs: Simulation::schedule, step_"]}
{"id": "C148", "title": "Simulated latencies are in their range", "statement": "The latency between two nodes is drawn from the range of the options, the same in both directions; that of each message is between half and twice of it, and never less than a millisecond.", "quantifier": "every range, every draw, every pair of nodes", "why_tests_cant": "Latencies are random; the failing draw is one of a thousand and more.", "anchors": ["net/src/simulator.rs: Simulation::latency, step_"]}
{"id": "C149", "title": "The local clock does not go backwards", "statement": "A call for the local time that begins after another has returned, in the same or in another thread, does not return an earlier time; and the time returned is not behind the system's clock.", "quantifier": "every number of threads, every interleaving of their calls, every change of the system's clock, also when it is set back", "why_tests_cant": "The failing case needs two calls that overlap at one particular point, and a clock that is set back.", "anchors": ["net/src/time.rs: LocalTime::now"]}
{"id": "C150", "title": "The wallet ends when the user asks it to", "statement": "When the user quits the wallet, by a key or by an interrupt, the program ends without an error, after it told the client to stop. When the client fails, the program ends too.", "quantifier": "every interleaving of the threads for input, signals, client and screen, every sequence of keys and signals", "why_tests_cant": "The outcome depends on which of four threads ends first.", "anchors": ["wallet/src/lib.rs: run", "wallet/src/input.rs: run, signals", "wallet/src/wallet.rs: Wallet::run"]}
{"id": "C151", "title": "What the wallet draws fits the terminal", "statement": "Every row of a table is drawn, in order, at most as wide as the terminal, with the cells of each column one below the other; a row that is too wide is cut. Texts of the header are put at the right and in the middle of it. No size of the terminal makes the wallet panic.", "quantifier": "every table, with any number of rows, columns and characters, and every size of the terminal", "why_tests_cant": "Tables, texts and sizes are unbounded.", "anchors": ["wallet/src/wallet/ui/table.rs: Table::push, render", "wallet/src/wallet/ui.rs: Aligned::right, center"]}
{"id": "C152", "title": "The wallet's addresses are those of its hardware device", "statement": "A request for the addresses of a range of indexes gives exactly one address for each index, in ascending order, namely the one the connected device gives for the child with this index of the configured derivation path, or else an error and no address at all; it succeeds whenever a device is plugged in that gives an address for each index, also after a device was pulled out and plugged in again. The key that connects the device does not end the program.", "quantifier": "all paths, all ranges, all answers of devices and of the decoding of addresses, all histories of plugging in, pulling out, requests and keys", "why_tests_cant": "A test needs a device and tries a few ranges and answers; the claim is about every range, every failure in the middle of a request and every history of the device.", "anchors": ["wallet/src/wallet/hw.rs: Hw::request_addresses, Hw::connect, Hw::reconnect", "wallet/src/wallet.rs: Wallet::run, Wallet::handle_input"]}
{"id": "C153", "title": "The amounts the wallet shows are the amounts", "statement": "The amount that is shown for a balance or a coin is that amount; in particular it is never off by more than the last decimal shown, amounts that differ are shown differently, a larger amount is never shown as a smaller one, and shown amounts add up.", "quantifier": "all amounts below 2^53 satoshi (more than all bitcoins there are)", "why_tests_cant": "The display goes through a floating-point division and a decimal rounding; a test looks at a few of the 2.1 quadrillion amounts.", "anchors": ["wallet/src/wallet/ui.rs: Balance, impl Display for Balance"]}
{"id": "C154", "title": "Random choices leave nothing out and favour nobody", "statement": "Picking a random entry that satisfies a condition gives such an entry whenever there is one, and each of them for exactly one of the numbers that can be drawn; a shuffled book has the same entries, each order comes up for exactly one sequence of draws, and going round among the entries never ends and gives everyone the same number of turns, up to one. What the theorems about peers, headers, filters, blocks and addresses assume of random choices holds of these.", "quantifier": "all books, all conditions, all sequences of numbers drawn, all orders of hash maps", "why_tests_cant": "Tests with a fixed or random seed see some of the draws; the claim is about all of them, and about how many lead to which result.", "anchors": ["common/src/collections.rs: AddressBook::sample, AddressBook::sample_with, AddressBook::shuffled, AddressBook::cycle", "p2p/src/fsm/syncmgr.rs", "p2p/src/fsm/invmgr.rs", "p2p/src/fsm/cbfmgr.rs", "p2p/src/fsm/addrmgr.rs"]}
{"id": "C155", "title": "What the wallet's database reports is what happened", "statement": "Adding a coin returns whether it was new, and the coin is stored afterwards; removing one returns the coin that was stored, which is then gone; adding an address stores it with its index, or changes its label if it is stored already; lists have everything that is stored; other coins and addresses are never touched. If the database refuses a statement, an error is returned and nothing has changed.", "quantifier": "all contents of the database, all arguments, all statements that fail at any point", "why_tests_cant": "Tests run against a database in memory in which no statement fails; the claim is about every failure and every content, including conflicts between addresses and indexes.", "anchors": ["wallet/src/wallet/db.rs: Db, Read, Write", "wallet/src/wallet/db/types.rs", "wallet/src/wallet/schema.sql"]}
{"id": "C156", "title": "What the command line asks for is what the programs do", "statement": "Started with `--connect`, the node and the wallet dial only the peers given unless the user asks for others, dial each of them at the start if its kind of address is allowed, and accept each of them whatever optional services it has, however many are given; `-4` and `-6` restrict what is dialed to IPv4 and IPv6; the network is the one asked for, and programs run for different networks never use the same directory; every option has an effect.", "quantifier": "All options of the two programs; all executions of the peer manager with the configuration made from them, against arbitrary peers and the reactor", "why_tests_cant": "The claims are about every execution with every set of options; the options only act through limits and lists which the managers consult in many places.", "anchors": ["node/src/main.rs: Options, main", "node/src/lib.rs: run", "wallet/src/main.rs: Options, main", "wallet/src/lib.rs: run", "client/src/client.rs: Config, Client::load", "client/src/service.rs: Service::new", "p2p/src/fsm.rs: Limits, Config, StateMachine::new", "p2p/src/fsm/peermgr.rs: initialize, connect, received_message"]}
{"id": "C157", "title": "An address file is read in full or refused", "statement": "Whatever the file of peer addresses contains: if the client accepts it, each record in it is complete and in the book, each record in the book has the values that are in the file, and it is filed under its own address; any other file is refused with an error.", "quantifier": "every content of the file", "why_tests_cant": "files are arbitrary texts; a record can be damaged in each field and be anywhere in the file", "anchors": ["client/src/peer.rs: Cache::from", "common/src/p2p/peer.rs: KnownAddress::from_json"]}
