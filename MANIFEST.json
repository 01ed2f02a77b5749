{
 "claims": [
  {
   "property": "C01",
   "status": "proved",
   "theorems": [
    "Verif.Chain.C01_consistent_view",
    "Verif.Chain.C01_import_no_panic",
    "Verif.Chain.C01_extend_no_panic"
   ],
   "note": "Absence of panics is for release builds; C01_debug_build_can_panic shows the 32-bit time arithmetic panics in debug builds."
  },
  {
   "property": "C02",
   "status": "proved",
   "theorems": [
    "Verif.Chain.C02_chain_work_exact",
    "Verif.Chain.C02_import_monotone",
    "Verif.Chain.C02_extend_monotone"
   ],
   "note": "Monotonicity for histories in which the store does not fail."
  },
  {
   "property": "C03",
   "status": "proved",
   "theorems": [
    "Verif.Chain.C03_most_work"
   ],
   "note": "Branches valid in the tree before the switch."
  },
  {
   "property": "C04",
   "status": "proved",
   "theorems": [
    "Verif.Chain.C04_best_chain",
    "Verif.Chain.C04_order_independent"
   ],
   "note": "Setting of the property spelled out in OrderSetting; Scenario.orderSetting shows it is met."
  },
  {
   "property": "C05",
   "status": "proved",
   "theorems": [
    "Verif.Chain.C05_single_import_report"
   ],
   "note": ""
  },
  {
   "property": "C06",
   "status": "partial",
   "theorems": [
    "Verif.Chain.C06_batch_report_partial",
    "Verif.Chain.C06_batch_report",
    "Verif.Chain.C06_incomplete_report"
   ],
   "note": "Exact when no header is disconnected and connected again within the batch; C06_incomplete_report shows the claim fails otherwise."
  },
  {
   "property": "C07",
   "status": "proved",
   "theorems": [
    "Verif.Chain.C07_rejected_import",
    "Verif.Chain.C07_rejected_extend",
    "Verif.Chain.C07_aborted_batch"
   ],
   "note": "Store I/O failures excluded."
  },
  {
   "property": "C08",
   "status": "proved",
   "theorems": [
    "Verif.Chain.C08_proof_of_work",
    "Verif.Chain.C08_checkpoints",
    "Verif.Chain.C08_target_limit"
   ],
   "note": ""
  },
  {
   "property": "C09",
   "status": "partial",
   "theorems": [
    "Verif.Chain.C09_first_connected_partial",
    "Verif.Chain.C09_extend_tip",
    "Verif.Chain.C09_in_order_partial",
    "Verif.Chain.C09_counterexample"
   ],
   "note": "Proved for headers that connect directly to the active chain; false for headers activated as later members of a branch (C09_counterexample)."
  },
  {
   "property": "C10",
   "status": "partial",
   "theorems": [
    "Verif.Chain.C10_fork_below_checkpoint_rejected",
    "Verif.Chain.C10_same_up_to_checkpoint",
    "Verif.Chain.C10_checkpoint_final_partial",
    "Verif.Chain.C10_equal_work",
    "Verif.Chain.C10_counterexample"
   ],
   "note": "Proved unless a shorter chain of presented headers has as much work as the checkpointed prefix; false otherwise (C10_counterexample)."
  },
  {
   "property": "C11",
   "status": "proved",
   "theorems": [
    "Verif.Chain.C11_store_mirror_reload"
   ],
   "note": ""
  },
  {
   "property": "C12",
   "status": "proved",
   "theorems": [
    "Verif.Chain.C12_locator_hashes",
    "Verif.Chain.C12_descending",
    "Verif.Chain.C12_unique"
   ],
   "note": ""
  },
  {
   "property": "C13",
   "status": "proved",
   "theorems": [
    "Verif.Chain.C13_locate_headers"
   ],
   "note": ""
  },
  {
   "property": "C14",
   "status": "proved",
   "theorems": [
    "Verif.Chain.C14_find_branch"
   ],
   "note": ""
  },
  {
   "property": "C15",
   "status": "partial",
   "theorems": [
    "Verif.Chain.C15_unchanged",
    "Verif.Chain.C15_retarget",
    "Verif.Chain.C15_no_overflow",
    "Verif.Chain.C15_negative_timespan_counterexample"
   ],
   "note": "Proved when the period does not have negative length; the code wraps otherwise (C15_negative_timespan_counterexample)."
  },
  {
   "property": "C16",
   "status": "proved",
   "theorems": [
    "Verif.Chain.C16_median_time_past"
   ],
   "note": ""
  },
  {
   "property": "C17",
   "status": "proved",
   "theorems": [
    "Verif.Store.C17_file_store_is_list",
    "Verif.Store.C17_from_any_store",
    "Verif.Store.C17_rollback_above_tip",
    "Verif.Store.C17_get_wraps"
   ],
   "note": "Operations used as documented (OpsOK). Two theorems show what happens outside it: roll-back above the tip appends zero records; get of a height near 2^60 wraps in release builds."
  },
  {
   "property": "C18",
   "status": "proved",
   "theorems": [
    "Verif.Store.C18_check",
    "Verif.Store.C18_open_heals",
    "Verif.Store.C18_torn_write",
    "Verif.Store.C18_failed_append_not_healed"
   ],
   "note": "The last theorem records that a failed append without restart is not healed (later appends are misaligned)."
  },
  {
   "property": "C19",
   "status": "proved",
   "theorems": [
    "Verif.Store.C19_block_header",
    "Verif.Store.C19_filter_record",
    "Verif.Store.C19_decoding_injective",
    "Verif.Store.C19_hashed",
    "Verif.Store.C19_same_bytes",
    "Verif.Store.C19_file_hashed"
   ],
   "note": "Field layout of rust-bitcoin's BlockHeader is part of the model. The bytes written for a header are those whose double SHA-256 is the hash of the block (C19_hashed, C19_file_hashed)."
  },
  {
   "property": "C20",
   "status": "proved",
   "theorems": [
    "Verif.Store.C20_interchangeable",
    "Verif.Store.C20_rollback_above_tip"
   ],
   "note": "Operations used as documented; outside it the stores differ (second theorem)."
  },
  {
   "property": "C21",
   "status": "proved",
   "theorems": [
    "Verif.Store.C21_crash_any_op",
    "Verif.Store.C21_crash_in_reorg"
   ],
   "note": "Process crash: truncation atomic, append cut at any byte. Power failure with write re-ordering not modelled."
  },
  {
   "property": "C22",
   "status": "proved",
   "theorems": [
    "Verif.Cbf.C22_linked"
   ],
   "note": "All histories of the filter manager (any messages, any tree, re-orgs, restarts, store failures)."
  },
  {
   "property": "C23",
   "status": "proved",
   "theorems": [
    "Verif.Cbf.C23_verify_iff",
    "Verif.Cbf.C23_verify_interrupted"
   ],
   "note": "verify succeeds iff the stored filter headers form a filter-header chain from genesis; also with an interrupting progress callback."
  },
  {
   "property": "C24",
   "status": "proved",
   "theorems": [
    "Verif.Cbf.C24_get_headers",
    "Verif.Cbf.C24_prev_header",
    "Verif.Cbf.C24_reversed_range"
   ],
   "note": "Range below the u64 maximum; C24_reversed_range shows what a reversed range does (debug panic, release: everything from start on)."
  },
  {
   "property": "C25",
   "status": "proved",
   "theorems": [
    "Verif.Cbf.C25_tiling",
    "Verif.Cbf.C65_requests"
   ],
   "note": "Any step > 0; C65_requests bounds the requests actually sent in every history."
  },
  {
   "property": "C26",
   "status": "proved",
   "theorems": [
    "Verif.Cbf.C26_accepts_only_committed",
    "Verif.Cbf.C26_history"
   ],
   "note": "Single call and over histories."
  },
  {
   "property": "C27",
   "status": "proved",
   "theorems": [
    "Verif.Cbf.C27_history",
    "Verif.Cbf.C27_push",
    "Verif.Cbf.C27_rollback",
    "Verif.Cbf.C27_evicts_lowest",
    "Verif.Cbf.CacheScenario.C27_not_contiguous",
    "Verif.Cbf.CacheScenario.C27_repush_overcounts"
   ],
   "note": "The cache is not contiguous (C27_not_contiguous) and counts a height pushed twice twice (C27_repush_overcounts)."
  },
  {
   "property": "C28",
   "status": "proved",
   "theorems": [
    "Verif.Cbf.C28_requests",
    "Verif.Cbf.C28_no_repeat"
   ],
   "note": "Every rescan state and range."
  },
  {
   "property": "C29",
   "status": "proved",
   "theorems": [
    "Verif.Cbf.C29_process",
    "Verif.Cbf.C29_in_order"
   ],
   "note": "C29_process: one call. C29_in_order: any history from a rescan command to the next rescan command or re-org."
  },
  {
   "property": "C30",
   "status": "partial",
   "theorems": [
    "Verif.Cbf.C30_stop_partial",
    "Verif.Cbf.Scenario.C30_stops_before_end",
    "Verif.Cbf.Scenario.C30_never_stops",
    "Verif.Cbf.Scenario.C30_scans_beyond_end",
    "Verif.Cbf.Scenario.C30_stop_repeated"
   ],
   "note": "Proved: a stop event names the requested end and every height below it was scanned, in order. Missing and false: the end height itself, that the stop comes at all, that it comes once (the named counterexamples)."
  },
  {
   "property": "C31",
   "status": "partial",
   "theorems": [
    "Verif.Cbf.C31_rewinds",
    "Verif.Cbf.C31_active_chain_partial",
    "Verif.Cbf.C31_rescans",
    "Verif.Cbf.Scenario.C31_scans_reverted_block"
   ],
   "note": "Proved when no filter waits in the queue at a height above the fork; otherwise false (C31_scans_reverted_block): queued filters of reverted blocks are not dropped."
  },
  {
   "property": "C32",
   "status": "partial",
   "theorems": [
    "Verif.Time.C32_bounded_partial",
    "Verif.Time.C32_min_offset",
    "Verif.Time.C32_min_panics"
   ],
   "note": "Proved for all samples except the least i64, for which it is false (C32_min_offset) or crashes debug builds (C32_min_panics); at most 200 peer samples plus our own zero."
  },
  {
   "property": "C33",
   "status": "partial",
   "theorems": [
    "Verif.Time.C33_median_partial",
    "Verif.Time.IsMedian.unique"
   ],
   "note": "All samples except the least i64, for which the bound check wraps."
  },
  {
   "property": "C34",
   "status": "proved",
   "theorems": [
    "Verif.Ping.C34_timer",
    "Verif.Ping.C34_others",
    "Verif.Ping.C34_one_outstanding",
    "Verif.Ping.C34_latencies"
   ],
   "note": "For any time-out; the client configures 30 s. A peer is disconnected again at every tick until the disconnect is processed."
  },
  {
   "property": "C35",
   "status": "proved",
   "theorems": [
    "Verif.Ping.C35_reply"
   ],
   "note": "Exactly one pong with the same nonce to known peers, nothing otherwise, in every reachable state."
  },
  {
   "property": "C36",
   "status": "proved",
   "theorems": [
    "Verif.Io.C36_chunks",
    "Verif.Io.C36_boundaries",
    "Verif.Io.C36_unknown",
    "Verif.Io.frame_stable"
   ],
   "note": "For every prefix-stable grammar; the network's frame grammar is shown prefix-stable for every checksum and payload decoder. After a decoding error the code repeats the disconnect call for each later chunk, so errors are compared as sets."
  },
  {
   "property": "C37",
   "status": "proved",
   "theorems": [
    "Verif.Time.C37_register",
    "Verif.Time.C37_wake",
    "Verif.Time.C37_next",
    "Verif.Time.C37_history",
    "Verif.Time.C37_apart"
   ],
   "note": "The sort order of equal keys is a parameter."
  },
  {
   "property": "C38",
   "status": "proved",
   "theorems": [
    "Verif.Io.C38_stream",
    "Verif.Io.C38_flushed",
    "Verif.Io.C38_progress"
   ],
   "note": "The operating system's write results are arbitrary, except that a write never claims more bytes than it was given."
  },
  {
   "property": "C39",
   "status": "proved",
   "theorems": [
    "Verif.Addr.C39_start",
    "Verif.Addr.C39_index",
    "Verif.Addr.C39_no_panic"
   ],
   "note": "Random choices and hash orders are arbitrary (indices in range, shuffles are permutations). The debug assertion of ban is included."
  },
  {
   "property": "C40",
   "status": "partial",
   "theorems": [
    "Verif.Addr.C40_banned_partial",
    "Verif.Addr.C40_only",
    "Verif.Addr.C40_transient",
    "Verif.Addr.Scenario.C40_ban_without_effect"
   ],
   "note": "False in full: a ban has no effect when no address in the same range is known (C40_ban_without_effect). Proved otherwise: a banned address never returns to the book and is never sampled."
  },
  {
   "property": "C41",
   "status": "partial",
   "theorems": [
    "Verif.Addr.C41_sampled_partial",
    "Verif.Addr.C41_not_connected_partial",
    "Verif.Addr.C41_complete",
    "Verif.Addr.Scenario.C41_connected_sampled",
    "Verif.Addr.Scenario.C41_sampled_early",
    "Verif.Addr.C42_domain",
    "Verif.Addr.C41_services",
    "Verif.Addr.C41_services_complete"
   ],
   "note": "Time is that of the last save of the book, so an address can be sampled twice within two minutes (C41_sampled_early); connections are tracked by IP, so a connected address can be sampled when two connections share it (C41_connected_sampled). Proved with those readings, plus completeness."
  },
  {
   "property": "C42",
   "status": "partial",
   "theorems": [
    "Verif.Addr.C42_accepted",
    "Verif.Addr.C42_rejected",
    "Verif.Addr.C42_inserted",
    "Verif.Addr.C42_known_kept_partial",
    "Verif.Addr.C42_only_announced",
    "Verif.Addr.Scenario.C42_known_overwritten",
    "Verif.Addr.C42_public",
    "Verif.Addr.C42_v6",
    "Verif.Addr.C42_domain",
    "Verif.Addr.C42_own"
   ],
   "note": "Acceptance rules proved for every message. Known addresses are kept unless their range gets full: then a message can evict and overwrite one (C42_known_overwritten)."
  },
  {
   "property": "C43",
   "status": "partial",
   "theorems": [
    "Verif.Addr.C43_import_ignored",
    "Verif.Addr.Scenario.C43_not_imported"
   ],
   "note": "False: proved that importing never changes the book, for every history and list, because the time of last activity is passed as zero, which the insertion filter rejects."
  },
  {
   "property": "C44",
   "status": "partial",
   "theorems": [
    "Verif.Peer.C44_negotiated_partial",
    "Verif.Peer.C44_offset",
    "Verif.Peer.C44_complete",
    "Verif.Peer.C44_rejected",
    "Verif.Peer.C44_never",
    "Verif.Peer.Scenario.C44_negotiated_twice",
    "Verif.Peer.Scenario.C44_self_connection",
    "Verif.Peer.Scenario.C44_negative_height"
   ],
   "note": "Proved: reports only after a valid version and then a verack on the same open connection, with the content of the version message; invalid versions disconnect and are never negotiated. Not true in full: a second version message leads to a second report, and self-connections are not noticed (both proved)."
  },
  {
   "property": "C45",
   "status": "proved",
   "theorems": [
    "Verif.Peer.C45_inbound",
    "Verif.Peer.C45_outbound",
    "Verif.Peer.C45_target",
    "Verif.Peer.C45_persistent"
   ],
   "note": "All histories of the peer manager; the inbound bound is even one less than configured."
  },
  {
   "property": "C46",
   "status": "partial",
   "theorems": [
    "Verif.Peer.C46_listed_partial",
    "Verif.Peer.C46_settled_partial",
    "Verif.Peer.C46_retry",
    "Verif.Peer.C46_only",
    "Verif.Peer.C46_wakeup",
    "Verif.Peer.C46_delay_bounds",
    "Verif.Peer.C46_delay_doubles",
    "Verif.Peer.C46_delay_max",
    "Verif.Peer.Scenario.C46_unsupported",
    "Verif.Peer.NetScenario.C71_redial_lost"
   ],
   "note": "Reconnections: proved. Listing: proved for the composition with the reactor, in executions in which no connection is asked for with an address whose socket is still open; without that it fails (C71_redial_lost: disconnect and connect commands in one batch)."
  },
  {
   "property": "C47",
   "status": "proved",
   "theorems": [
    "Verif.Inv.C47_queued",
    "Verif.Inv.C47_announced",
    "Verif.Inv.C47_answered",
    "Verif.Inv.C47_by_wtxid",
    "Verif.Inv.C47_by_txid",
    "Verif.Inv.C47_acknowledged",
    "Verif.Inv.C47_asked",
    "Verif.Inv.C47_submitted_to",
    "Verif.Inv.C47_lookup",
    "Verif.Inv.C47_confirmed",
    "Verif.Inv.C47_silent"
   ],
   "note": "Announcements list exactly the queued transactions, all pending; requests are answered with exactly the pending transactions asked for; confirmation silences a transaction."
  },
  {
   "property": "C48",
   "status": "proved",
   "theorems": [
    "Verif.Inv.C48_ascending",
    "Verif.Inv.C48_processed",
    "Verif.Inv.C48_complete",
    "Verif.Inv.C48_requested"
   ],
   "note": "Processed blocks are exactly the requested and received ones, in ascending order, when none is missing. See C77 for what can be left out."
  },
  {
   "property": "C49",
   "status": "proved",
   "theorems": [
    "Verif.Inv.C49_announced",
    "Verif.Inv.C49_dropped",
    "Verif.Inv.C49_spaced",
    "Verif.Inv.C49_once",
    "Verif.Inv.C49_block_asked",
    "Verif.Inv.C49_block_retried",
    "Verif.Inv.C49_block_spaced"
   ],
   "note": "Proved per peer, with the exact conditions. It does not hold per transaction: a transaction can be announced more than three times and sooner than a minute (Verif.Inv.Scenario.C49_reannounced), and a peer can be dropped without any announcement of the pending transaction (Verif.Inv.Scenario.C49_dropped_early)."
  },
  {
   "property": "C50",
   "status": "partial",
   "theorems": [
    "Verif.Sync.C50_one",
    "Verif.Sync.C50_connected",
    "Verif.Sync.C50_why",
    "Verif.Sync.C50_dropped",
    "Verif.Sync.C50_continued",
    "Verif.Sync.C50_announced_partial",
    "Verif.Sync.C50_unwanted",
    "Verif.Sync.C50_wanted",
    "Verif.Sync.Scenario.C50_not_retried"
   ],
   "note": "One outstanding request per connected peer, the reasons for requests, who is dropped, retry of announced blocks and treatment of unwanted headers are proved for all histories. 'Every overdue request is retried or the peer dropped' is false: a request made to get in sync is simply forgotten (C50_not_retried)."
  },
  {
   "property": "C51",
   "status": "proved",
   "theorems": [
    "Verif.Sync.C51_serve"
   ],
   "note": "The answer to every getheaders, for every history; genesis hash of the configuration is that of the tree."
  },
  {
   "property": "C52",
   "status": "partial",
   "theorems": [
    "Verif.Sync.C52_replay_partial",
    "Verif.Sync.C52_imported",
    "Verif.Sync.C52_new_blocks",
    "Verif.Sync.C52_tip_reported",
    "Verif.Sync.Scenario.C52_aborted",
    "Verif.Sync.Scenario.C52_reconnected"
   ],
   "note": "Replay is proved for histories of imports that do not fail after changing the active chain and do not re-activate headers within one batch; false otherwise (two counterexamples)."
  },
  {
   "property": "C53",
   "status": "proved",
   "theorems": [
    "Verif.Fees.C53_estimate",
    "Verif.Fees.C53_covers",
    "Verif.Inv.C53_reported"
   ],
   "note": "Rates and medians are computed with an exact model of double-precision arithmetic (Fees/Float.lean). Fee rates are exact for fees below 2^50 satoshis. FeeEstimate::from, which is public, gives a median below the lower end for rates above 2^53 (Verif.Fees.Scenario.C53_large_rates); rates computed from blocks are never affected."
  },
  {
   "property": "C54",
   "status": "partial",
   "theorems": [
    "Verif.Fees.C54_restored_partial",
    "Verif.Fees.C54_tracked_partial",
    "Verif.Fees.C54_unspent_partial",
    "Verif.Fees.C54_snapshots",
    "Verif.Fees.C54_rollback_total",
    "Verif.Fees.Scenario.C54_spent_tracked",
    "Verif.Fees.Scenario.C54_rollback_above",
    "Verif.Fees.Scenario.C54_rollback_deep"
   ],
   "note": "False in general: an input after an unknown one stays tracked; rolling back to the current height or above forgets the last processed block; rolling back more blocks than snapshots keeps the reverted blocks and refuses their replacements. Proved: rollbacks within the limits restore the state as if the reverted blocks had never been processed; unspent outputs are tracked; exact if all inputs are known."
  },
  {
   "property": "C55",
   "status": "proved",
   "theorems": [
    "Verif.Io.C55_in_order",
    "Verif.Io.C55_none_lost",
    "Verif.Io.C55_events"
   ],
   "note": "Order is per manager queue; events are also handed to all managers in the order in which they come out."
  },
  {
   "property": "C56",
   "status": "proved",
   "theorems": [
    "Verif.Io.C56_in_order",
    "Verif.Io.C56_live",
    "Verif.Io.C56_independent"
   ],
   "note": "Channels are unbounded queues (crossbeam); a send fails exactly when the receiver was dropped."
  },
  {
   "property": "C57",
   "status": "proved",
   "theorems": [
    "Verif.Wallet.C57_coins",
    "Verif.Wallet.C57_coins_chain",
    "Verif.Wallet.C57_balance",
    "Verif.Wallet.C57_balance_shown",
    "Verif.Wallet.C57_no_panic",
    "Verif.Wallet.C57_runs"
   ],
   "note": "Assumes that transaction ids identify outputs (Sane), that the script of an address can be read back (Codec.Sound) and that the database executes statements. The bound 2^63 is needed: Scenario.C57_overflow and C57_negative show that a forged block with larger amounts ends the wallet or hides coins."
  },
  {
   "property": "C58",
   "status": "partial",
   "theorems": [
    "Verif.PeerStore.C58_save_load_partial",
    "Verif.PeerStore.C58_save_load_exact",
    "Verif.PeerStore.C58_stable",
    "Verif.PeerStore.C58_saves"
   ],
   "note": "Parts of seconds are lost (Scenario.C58_time_rounded), times wrap in 2106 (C58_time_wraps), and a malformed address in the file is a panic (C58_bad_address_panics). Exact for times in whole seconds. Assumes the text formats of the libraries (Text.Sound); Scenario.text_sound is an instance."
  },
  {
   "property": "C59",
   "status": "partial",
   "theorems": [
    "Verif.Cbf.C59_cfilter_safe",
    "Verif.Cbf.C59_getcfheaders_panics_iff",
    "Verif.Cbf.C59_cfheaders_safe",
    "Verif.Cbf.Scenario.C59_cfheaders_crash",
    "Verif.Cbf.Scenario.C59_getcfheaders_crash"
   ],
   "note": "cfilter never crashes; getcfheaders exactly in debug builds with a reversed range; cfheaders only with an active rescan and no filter peer (where it does, C59_cfheaders_crash)."
  },
  {
   "property": "C60",
   "status": "partial",
   "theorems": [
    "Verif.Cbf.C60_chain_changes_safe",
    "Verif.Cbf.C60_no_crash_partial",
    "Verif.Cbf.Scenario.C60_getcfilters_crash",
    "Verif.Cbf.Scenario.C60_rescan_crash",
    "Verif.Cbf.Scenario.C60_shorter_chain_crash"
   ],
   "note": "All cases in which a call can crash are listed; the counterexamples show they do."
  },
  {
   "property": "C61",
   "status": "partial",
   "theorems": [
    "Verif.Cbf.C61_match_requested",
    "Verif.Cbf.C61_reported_partial",
    "Verif.Cbf.Scenario.C61_cached_match_not_reported"
   ],
   "note": "Proved for matches found when a filter message arrives; false for filters found in memory when a rescan starts."
  },
  {
   "property": "C62",
   "status": "partial",
   "theorems": [
    "Verif.Cbf.C62_below_scanned_partial",
    "Verif.Cbf.Scenario.C62_scanned_not_yet"
   ],
   "note": "False as stated: Scanned names the next height to be scanned (C62_scanned_not_yet); proved: all heights below it were processed, in order."
  },
  {
   "property": "C63",
   "status": "partial",
   "theorems": [
    "Verif.Cbf.C63_disconnect_partial",
    "Verif.Cbf.Scenario.C63_persistent_disconnected"
   ],
   "note": "Only the peer of an expired request is disconnected; but persistence of the wrong peer is tested (C63_persistent_disconnected)."
  },
  {
   "property": "C64",
   "status": "partial",
   "theorems": [
    "Verif.Cbf.C64_cached_rescan_partial",
    "Verif.Cbf.Scenario.C64_cached_rescan_stalls"
   ],
   "note": "Proved when a filter peer is connected at the start; false otherwise (C64_cached_rescan_stalls)."
  },
  {
   "property": "C65",
   "status": "proved",
   "theorems": [
    "Verif.Cbf.C65_requests"
   ],
   "note": "Start heights are sent modulo 2^32 as in the code."
  },
  {
   "property": "C66",
   "status": "partial",
   "theorems": [
    "Verif.Cbf.C66_asked_partial",
    "Verif.Cbf.C66_anyone",
    "Verif.Machine.Scenario.C66_stranger",
    "Verif.Machine.Scenario.C66_blamed"
   ],
   "note": "Missing, and false: that the answer comes from the peer asked. C66_stranger: a party that completed no handshake and was not asked; C66_blamed: an honest peer is then disconnected."
  },
  {
   "property": "C67",
   "status": "partial",
   "theorems": [
    "Verif.Io.C67_complete_frame_partial",
    "Verif.Io.C67_truncated_payload_stalls"
   ],
   "note": "False as stated: a complete frame whose payload ends early is reported as unexpected end of file and waited upon forever, blocking the peer's later messages (C67_truncated_payload_stalls). Proved when the payload decoder does not run out of bytes."
  },
  {
   "property": "C68",
   "status": "partial",
   "theorems": [
    "Verif.Addr.C68_connected_partial",
    "Verif.Machine.C68_machine_partial",
    "Verif.Addr.C68_asked",
    "Verif.Addr.Scenario.C68_disconnected_asked"
   ],
   "note": "With at most one connection per IP address; with two, a disconnected peer is asked (C68_disconnected_asked). C68_machine_partial: in executions of the whole state machine, without further assumptions."
  },
  {
   "property": "C69",
   "status": "proved",
   "theorems": [
    "Verif.Addr.C69_answer",
    "Verif.Addr.C69_times"
   ],
   "note": "For every history and random choice."
  },
  {
   "property": "C70",
   "status": "partial",
   "theorems": [
    "Verif.Peer.C70_fills_partial",
    "Verif.Peer.C70_woken",
    "Verif.Peer.C70_minute_partial",
    "Verif.Peer.C70_inbound_starves",
    "Verif.Peer.Scenario.C70_counterexample"
   ],
   "note": "Not true in full: as many inbound peers as the outbound target stop all automatic outbound connections (proved for every history, with a concrete case). Partial: all connections counted, once a minute the target is reached or all candidates are used."
  },
  {
   "property": "C71",
   "status": "partial",
   "theorems": [
    "Verif.Peer.C71_open_partial",
    "Verif.Peer.C71_reported_partial",
    "Verif.Peer.C71_connected_partial",
    "Verif.Peer.C71_disconnected_partial",
    "Verif.Peer.C71_no_panic_partial",
    "Verif.Peer.NetScenario.C71_never_connected",
    "Verif.Peer.NetScenario.C71_redial_lost",
    "Verif.Peer.NetScenario.C71_redial_panics"
   ],
   "note": "Not true in full: an attempt that times out is reported disconnected though never connected, and reconnecting while a connection is being closed loses the event (release) or panics (debug); all three are proved. Partial: executions without such reconnections."
  },
  {
   "property": "C72",
   "status": "proved",
   "theorems": [
    "Verif.Peer.C72_slow_handshake",
    "Verif.Peer.C72_slow_connect",
    "Verif.Peer.C72_only"
   ],
   "note": "All histories of the peer manager."
  },
  {
   "property": "C73",
   "status": "proved",
   "theorems": [
    "Verif.Peer.C73_accepted"
   ],
   "note": "All histories of the peer manager; in debug builds the difference of the clocks must not overflow."
  },
  {
   "property": "C74",
   "status": "partial",
   "theorems": [
    "Verif.Fees.C74_no_panic_partial",
    "Verif.Fees.Scenario.C74_forged_block",
    "Verif.Inv.C74_inventory_partial",
    "Verif.Inv.Scenario.C74_forged_block",
    "Verif.Inv.Scenario.C74_timer_panics"
   ],
   "note": "False in general: the transactions of a block are not checked against its header, and a transaction that pays out more than its known inputs fails an assertion. Proved for blocks with sensible amounts."
  },
  {
   "property": "C75",
   "status": "proved",
   "theorems": [
    "Verif.Inv.C75_reported",
    "Verif.Inv.C75_pending",
    "Verif.Inv.C75_announced"
   ],
   "note": "Reverted events, pending again, announced again."
  },
  {
   "property": "C76",
   "status": "partial",
   "theorems": [
    "Verif.Inv.C76_relay_partial",
    "Verif.Inv.Scenario.C76_unwanted"
   ],
   "note": "False for transactions pending when the peer connects; proved for all others."
  },
  {
   "property": "C77",
   "status": "partial",
   "theorems": [
    "Verif.Inv.C77_processed_partial",
    "Verif.Inv.C77_waits",
    "Verif.Inv.Scenario.C77_stuck",
    "Verif.Inv.Scenario.C77_stale"
   ],
   "note": "False in two ways: blocks wait forever if the last requested block left the active chain, and a reverted block can still be processed."
  },
  {
   "property": "C78",
   "status": "proved",
   "theorems": [
    "Verif.Sync.C78_synced",
    "Verif.Sync.C78_reported"
   ],
   "note": "Both directions, for all histories."
  },
  {
   "property": "C79",
   "status": "partial",
   "theorems": [
    "Verif.Sync.C79_no_panic_partial",
    "Verif.Sync.Scenario.C79_asked_again",
    "Verif.Sync.Scenario.C79_stale_twice",
    "Verif.Sync.Scenario.C79_clock"
   ],
   "note": "Proved for release builds. Debug builds panic in three ways (counterexamples)."
  },
  {
   "property": "C80",
   "status": "proved",
   "theorems": [
    "Verif.Sync.C80_announced",
    "Verif.Sync.C80_only"
   ],
   "note": "Both directions, for all histories."
  },
  {
   "property": "C81",
   "status": "partial",
   "theorems": [
    "Verif.Sync.C81_connected_partial",
    "Verif.Sync.C81_headers_partial",
    "Verif.Sync.C81_continue",
    "Verif.Sync.C81_timer_partial",
    "Verif.Sync.Scenario.C81_all_serve_filters",
    "Verif.Sync.Scenario.C81_dropped_asked"
   ],
   "note": "Proved if a connected peer does not serve compact filters; false if all of them do. The peer asked may be one that is being disconnected (C81_dropped_asked)."
  },
  {
   "property": "C82",
   "status": "partial",
   "theorems": [
    "Verif.Sync.C82_only_partial",
    "Verif.Sync.Scenario.C82_invalid_not_reported"
   ],
   "note": "A peer is reported exactly for more than 2000 headers; peers that send invalid headers are never reported."
  },
  {
   "property": "C83",
   "status": "proved",
   "theorems": [
    "Verif.Wallet.C83_restart"
   ],
   "note": "Statements are durable one by one. While the chain is scanned again, spent coins are shown again (Scenario.C83_during)."
  },
  {
   "property": "C84",
   "status": "partial",
   "theorems": [
    "Verif.Wallet.C84_rescan_partial"
   ],
   "note": "False as stated: coins of reverted blocks stay forever (Scenario.C84_phantom) and coins spent in reverted blocks are missing until the next scan (Scenario.C84_lost). Proved: after a scan of the active chain all its coins are there, and any other coin was created on the other chain and is unspent on the active one."
  },
  {
   "property": "C85",
   "status": "partial",
   "theorems": [
    "Verif.Wallet.C85_watched_partial"
   ],
   "note": "False if the first start is interrupted while the addresses are stored: then only those stored are ever watched (Scenario.C85_interrupted). Proved for a first start that stores all of them."
  },
  {
   "property": "C86",
   "status": "partial",
   "theorems": [
    "Verif.PeerStore.C86_interrupted_partial",
    "Verif.PeerStore.C86_next_start",
    "Verif.PeerStore.C86_stuck"
   ],
   "note": "False as stated: the file is emptied before it is written, so all addresses can be lost (Scenario.C86_lost), and a file written in part keeps the client from starting at every later start (Scenario.C86_unreadable, C86_stuck). Proved: exactly what is loaded after each interruption."
  },
  {
   "property": "C87",
   "status": "proved",
   "theorems": [
    "Verif.PeerStore.C87_seed_fails",
    "Verif.PeerStore.C87_seed",
    "Verif.PeerStore.C87_start",
    "Verif.PeerStore.C87_first_start"
   ],
   "note": "The answers of the DNS seeds are a parameter."
  },
  {
   "property": "C88",
   "status": "proved",
   "theorems": [
    "Verif.Node.C88_parts"
   ],
   "note": "For every history of the composed state machine (sync, inventory and filter managers, with their output queues)."
  },
  {
   "property": "C89",
   "status": "partial",
   "theorems": [
    "Verif.Node.C89_scanned_partial",
    "Verif.Node.C89_scanned_reorg_partial",
    "Verif.Cbf.Scenario.C31_scans_reverted_block"
   ],
   "note": "Histories without re-orgs, and histories with re-orgs in which the reports of a re-org are taken before anything else happens and blocks that leave the chain were dealt with before. False for other re-orgs (C31_scans_reverted_block). The scripts are those watched at that moment, plus those of the transactions followed."
  },
  {
   "property": "C90",
   "status": "partial",
   "theorems": [
    "Verif.Node.C90_reports_partial",
    "Verif.Node.C90_complete_partial",
    "Verif.Node.C90_reports_reorg_partial",
    "Verif.Node.C90_complete_reorg_partial",
    "Verif.Node.C90_onchain_reorg_partial",
    "Verif.Node.Scenario.C90_user_request",
    "Verif.Node.Scenario.C90_cached_match"
   ],
   "note": "As C89; counterexamples when the user requests blocks, and for rescans with matching filters in memory."
  },
  {
   "property": "C91",
   "status": "partial",
   "theorems": [
    "Verif.Node.C91_rescan_partial",
    "Verif.Node.C91_rescan_reorg_partial",
    "Verif.Node.C91_filters_partial",
    "Verif.Node.C91_filters_reorg_partial"
   ],
   "note": "As C89, histories in which no other rescan or script is asked for; starts given as a height; with re-orgs also: rescans without end, after a re-org the scan goes on from the lowest block replaced. Without re-orgs also: nothing is reported that matches neither the scripts nor a followed transaction. The theorems named filters say it with the filters of BIP158: every block at the heights scanned that pays to one of the scripts or spends a coin paid to one is reported."
  },
  {
   "property": "C92",
   "status": "partial",
   "theorems": [
    "Verif.Node.C92_wallet_partial",
    "Verif.Node.C92_filters_partial",
    "Verif.Node.Scenario.C92_forged_block"
   ],
   "note": "Histories without re-orgs (with re-orgs the wallet is wrong, C84), blocks sent by peers genuine; the client does not check that, see the counterexample. C92_filters_partial needs no assumption on the answers of filters, they are those of BIP158."
  },
  {
   "property": "C93",
   "status": "partial",
   "theorems": [
    "Verif.Node.C93_order_partial",
    "Verif.Node.C93_order_reorg_partial"
   ],
   "note": "As C91, no transaction followed. With re-orgs: a client that went through re-orgs and one that did not agree on the blocks of the active chain; reports about blocks that left the chain differ."
  },
  {
   "property": "C94",
   "status": "partial",
   "theorems": [
    "Verif.Node.C94_future_partial",
    "Verif.Node.Scenario.C94_moves_scan"
   ],
   "note": "Nothing is put out, requested or scanned by the command itself; but a scan under way is given up (counterexample)."
  },
  {
   "property": "C95",
   "status": "proved",
   "theorems": [
    "Verif.Node.C95_idempotent"
   ],
   "note": "Up to one more request for a wake-up. The repeated command comes right after the first."
  },
  {
   "property": "C96",
   "status": "proved",
   "theorems": [
    "Verif.Handle.C96_received",
    "Verif.Handle.C96_next"
   ],
   "note": "Nobody closes the channels of the handle: its own copy of the list of senders keeps them open after shutdown."
  },
  {
   "property": "C97",
   "status": "partial",
   "theorems": [
    "Verif.Handle.C97_height",
    "Verif.Handle.C97_reached_partial",
    "Verif.Handle.Scenario.C97_passed"
   ],
   "note": "Soundness is proved in full. Success is proved if the chain grows one block at a time after the query; false if a message with several headers passes the height (counterexample)."
  },
  {
   "property": "C98",
   "status": "partial",
   "theorems": [
    "Verif.Handle.C98_peers",
    "Verif.Handle.C98_enough_partial",
    "Verif.Handle.C98_too_many",
    "Verif.Handle.Scenario.C98_gone"
   ],
   "note": "Soundness is proved in full, each peer at some moment since the call (not all at the same time: counterexample C98_gone). Success is proved if at most n peers are connected at first; with more the call always fails (C98_too_many)."
  },
  {
   "property": "C99",
   "status": "partial",
   "theorems": [
    "Verif.Handle.C99_connect_partial",
    "Verif.Handle.C99_connected_partial",
    "Verif.Handle.C99_disconnect_partial",
    "Verif.Handle.C99_disconnected_partial",
    "Verif.Handle.Scenario.C99_already_connected",
    "Verif.Handle.Scenario.C99_not_connected"
   ],
   "note": "In executions in which no connection is asked for with an address whose socket is open (see C71). The calls fail if the peer is already connected, respectively not connected (counterexamples)."
  },
  {
   "property": "C100",
   "status": "proved",
   "theorems": [
    "Verif.Handle.C100_submitted",
    "Verif.Handle.C100_kept"
   ],
   "note": "The next announcement comes when the timer fires."
  },
  {
   "property": "C101",
   "status": "partial",
   "theorems": [
    "Verif.Inv.C101_relay_partial",
    "Verif.Inv.Scenario.C101_unwanted"
   ],
   "note": "Proved for peers that connected while no transaction was pending; false for others: pending transactions are announced to every new peer (counterexample)."
  },
  {
   "property": "C102",
   "status": "partial",
   "theorems": [
    "Verif.Node.C102_no_crash_partial",
    "Verif.Node.C102_no_crash_reorg_partial",
    "Verif.Node.Crash.C102_cfheaders",
    "Verif.Node.Crash.C102_filters",
    "Verif.Node.Crash.C102_forged_block",
    "Verif.Node.Crash.C102_shorter_chain",
    "Verif.Node.Shorter.C102_failed_import"
   ],
   "note": "Proved for release builds, if the active chain never became shorter, or else re-orgs are reported before the next input is given and imports are clean as in C106; the filter store did not fail, heights fit in 64 bits, amounts in blocks make sense, and the input is neither a request for filters above the filter headers nor filter headers during a rescan without filter peers. Each of the conditions excludes a crash (five counterexamples; for debug builds see C59, C60, C74, C79)."
  },
  {
   "property": "C103",
   "status": "partial",
   "theorems": [
    "Verif.Cbf.C103_rescan_gets_on_partial",
    "Verif.Cbf.Scenario.C64_cached_rescan_stalls"
   ],
   "note": "Holds whenever at least one filter of the range is missing; if all are in memory nothing is asked for and the rescan stands still (counterexample). The chain of blocks does not change between the timer and the answers."
  },
  {
   "property": "C104",
   "status": "proved",
   "theorems": [
    "Verif.Chain.C104_valid_header_accepted",
    "Verif.Chain.C104_valid_batch_accepted"
   ],
   "note": "Release builds, a store that does not fail, timestamps that do not wrap 32-bit arithmetic. Parameters: compacting and expanding a target returns it (shown for the real arithmetic in Compact.target_compact_target). For a whole message no stale headers may be known, since a heavier stale branch could win."
  },
  {
   "property": "C105",
   "status": "partial",
   "theorems": [
    "Verif.Sync.C105_download",
    "Verif.Sync.C105_start_partial",
    "Verif.Sync.C105_fork_never_adopted",
    "Verif.Sync.Scenario.C105_fork_loop",
    "Verif.Sync.C105_fork_adopted_partial"
   ],
   "note": "Proved for peers whose chain extends ours, while no stale headers are known, in release builds. False for forks whose first headers do not carry more work than our branch: the client asks for the same header over and over (C105_fork_never_adopted, Scenario.C105_fork_loop). Peers that serve compact filters are not asked (C81). Forks that are complete and heavier within one answer are adopted (C105_fork_adopted_partial, with the restrictions of C124)."
  },
  {
   "property": "C106",
   "status": "partial",
   "theorems": [
    "Verif.Node.C106_filter_headers_active_partial",
    "Verif.Node.C106_filter_headers_ends",
    "Verif.Node.C106_filter_headers_waiting",
    "Verif.Node.C106_filter_store",
    "Verif.Node.Owned.C106_before_outputs",
    "Verif.Node.Owned.C106_failed_import"
   ],
   "note": "Proved for all histories in which the filter store does not fail and imports either succeed without re-activating a block they reverted, or leave the chain alone. Missing: an import that fails after a re-org leaves stale filter headers (C106_failed_import, a defect)."
  },
  {
   "property": "C107",
   "status": "partial",
   "theorems": [
    "Verif.Node.C107_stop_partial",
    "Verif.Node.C107_crash_partial",
    "Verif.Node.C107_starts",
    "Verif.Node.C107_linked",
    "Verif.Node.C107_never_starts",
    "Verif.Node.C107_stuck",
    "Verif.Node.Owned.C107_crash_in_reorg",
    "Verif.Node.Owned.C107_kill_before_outputs"
   ],
   "note": "Proved for stops and for crashes at every point of an input that reverts no block, when no report of a re-org waits; the start then goes on without a panic (C107_starts, release build). Missing: a crash in a re-org can leave more filter headers than block headers, after which the client never starts (C107_crash_in_reorg), or filter headers of reverted blocks that are never replaced (C107_kill_before_outputs); both are defects. Disk contents are lists of entries; bytes and torn writes are C21."
  },
  {
   "property": "C108",
   "status": "proved",
   "theorems": [
    "Verif.Machine.C108_parts",
    "Verif.Machine.C108_told",
    "Verif.Machine.C108_told_addr",
    "Verif.Machine.C108_reactor",
    "Verif.Machine.C108_sockets"
   ],
   "note": "C108_sockets for executions in which no connection is asked for with an address whose socket is open (see C111); the managers' own executions are those of the other claims."
  },
  {
   "property": "C109",
   "status": "proved",
   "theorems": [
    "Verif.Machine.C109_exact",
    "Verif.Machine.C109_known",
    "Verif.Machine.C109_addresses"
   ],
   "note": "exact for sync and ping managers; the inventory and filter managers know only such peers."
  },
  {
   "property": "C110",
   "status": "proved",
   "theorems": [
    "Verif.Machine.C110_requests"
   ],
   "note": "requests put out while one input is handled, against the events taken by then."
  },
  {
   "property": "C111",
   "status": "partial",
   "theorems": [
    "Verif.Machine.C111_open_partial",
    "Verif.Machine.C111_settled_partial",
    "Verif.Machine.Scenario.C111_redial"
   ],
   "note": "False in full: C111_redial. Proved for executions in which no connection is asked for with an address whose socket is still open."
  },
  {
   "property": "C112",
   "status": "partial",
   "theorems": [
    "Verif.Machine.C112_who",
    "Verif.Machine.C112_no_crash_partial",
    "Verif.Machine.C112_no_crash_reorg_partial"
   ],
   "note": "Release builds. Peer, ping and address managers and the wiring never panic (C112_who, full); for the node the conditions of C102 remain, with counterexamples there."
  },
  {
   "property": "C113",
   "status": "proved",
   "theorems": [
    "Verif.Machine.C113_put",
    "Verif.Machine.C113_processed"
   ],
   "note": "The order in which the outboxes are emptied is that of the code; address-manager outputs keep waiting as well (C113_processed covers them)."
  },
  {
   "property": "C114",
   "status": "partial",
   "theorems": [
    "Verif.Machine.C114_closed",
    "Verif.Machine.C114_asked",
    "Verif.Machine.C114_reported_partial",
    "Verif.Machine.C114_ping"
   ],
   "note": "C114_closed, C114_asked and C114_ping for every execution; reports of misbehaviour for executions in which no connection is asked for with an address whose socket is open (see C111)."
  },
  {
   "property": "C115",
   "status": "partial",
   "theorems": [
    "Verif.Peer.C115_dialed",
    "Verif.Machine.C115_only",
    "Verif.Machine.C115_start",
    "Verif.Machine.C115_fresh_partial",
    "Verif.Addr.C42_domain"
   ],
   "note": "That there is no open connection with the same IP address holds as long as there is at most one connection per IP address (otherwise C41_connected_sampled); banned addresses: C116. The rest in full."
  },
  {
   "property": "C116",
   "status": "partial",
   "theorems": [
    "Verif.Machine.C116_banned_partial"
   ],
   "note": "For public IP addresses in a range of which the address book has an address; otherwise the ban has no effect (C40_ban_without_effect)."
  },
  {
   "property": "C117",
   "status": "proved",
   "theorems": [
    "Verif.Machine.C117_ends",
    "Verif.Machine.C117_dials",
    "Verif.Machine.C117_proceeds",
    "Verif.Machine.C117_waits"
   ],
   "note": "No infinite sequence of processing steps, from any state (a measure on the addresses not drawn recently, the dials that wait, the open sockets and the outboxes decreases). A bound on the number of dials. In a release build processing stops only when there is nothing left, unless the sync, inventory or filter manager panics (C102/C112)."
  },
  {
   "property": "C118",
   "status": "partial",
   "theorems": [
    "Verif.Peer.C118_peers",
    "Verif.Peer.C118_once",
    "Verif.Peer.C118_broadcast_partial",
    "Verif.Peer.C118_broadcast_once",
    "Verif.Peer.C118_reached",
    "Verif.Peer.Scenario.C118_broadcast_early",
    "Verif.Machine.C118_known",
    "Verif.Machine.C118_open_partial"
   ],
   "note": "get_peers is exact for every history, and agrees with the reports to the other managers and with the sockets. Broadcasts go exactly once to every selected peer that sent its version; that includes peers whose handshake is not complete, so the property is false for them (C118_broadcast_early). The socket part needs that no connection is asked for with an address whose socket is still open (as C46, C111)."
  },
  {
   "property": "C119",
   "status": "proved",
   "theorems": [
    "Verif.Cbf.C119_filter_headers_arrive"
   ],
   "note": "Liveness over endless executions, under the fairness conditions spelled out in the structure Serves (chain unchanged, store works, always a filter peer, timers go on, honest answers, a request sent again and again is answered again and again and only then). A concrete endless execution with a lost message meets them (ScenariosSync.lean)."
  },
  {
   "property": "C120",
   "status": "partial",
   "theorems": [
    "Verif.Cbf.C120_blamed_partial",
    "Verif.Cbf.Scenario.C120_reorg",
    "Verif.Cbf.Scenario.C120_forged"
   ],
   "note": "Holds when the filter headers held are those of the chain. False in full: an honest answer arriving after its stop block left the chain gets the peer reported (requests in flight are not dropped at a rollback, and the stop hash is then unknown); and once a stranger got forged filter headers accepted, honest peers are reported for true filters."
  },
  {
   "property": "C121",
   "status": "partial",
   "theorems": [
    "Verif.Cbf.C121_rescan_arrives_partial",
    "Verif.Cbf.Scenario.C64_cached_rescan_stalls"
   ],
   "note": "Liveness over endless executions, under the fairness conditions spelled out in Serves/Delivers; a concrete endless execution with lost and re-ordered messages meets them (ScenariosArrive.lean). Missing: rescans over heights whose filters are in memory when the user asks; they may stall (C64_cached_rescan_stalls), so the full claim is false."
  },
  {
   "property": "C122",
   "status": "partial",
   "theorems": [
    "Verif.Inv.C122_blocks_arrive_partial",
    "Verif.Inv.C122_blocked"
   ],
   "note": "Holds if every block asked for is on the chain and comes in when requested again and again, and no more are asked for. False in full: one block that does not come in keeps all others from being delivered, for ever (C122_blocked; nothing removes a request)."
  },
  {
   "property": "C123",
   "status": "partial",
   "theorems": [
    "Verif.Sync.C123_synced_partial"
   ],
   "note": "Proved for release builds if every header that comes in is one of the best chain, starting at most one above our tip, no stale headers are known at the start, and blocks announced by inv are known already. Not proved: other headers coming in (false with forks, C105_fork_never_adopted), and if all peers serve compact filters (false, Scenario.C81_all_serve_filters)."
  },
  {
   "property": "C124",
   "status": "partial",
   "theorems": [
    "Verif.Chain.C124_heaviest_partial",
    "Verif.Chain.C124_reorg_partial",
    "Verif.Chain.Scenario.C124_counterexample"
   ],
   "note": "Proved for networks without the minimum-difficulty rule, forks of at most one retarget period (2016 headers) whose headers are later than every header they would displace; the whole-delivery theorem also starts from a tree without stale headers. The full statement is false of the code: the headers of a fork are measured against the median time (and retarget base) of the active chain, so a heavier chain whose headers all obey the rules can be refused for ever (C124_counterexample, for any number of further headers on top of it)."
  },
  {
   "property": "C125",
   "status": "partial",
   "theorems": [
    "Verif.Inv.C125_announced",
    "Verif.Inv.C125_settled_partial",
    "Verif.Inv.Scenario.C125_kept"
   ],
   "note": "Announcement: full. Settlement: proved when no more transactions are submitted or reverted; otherwise false (C125_kept): a request for any transaction resets the attempts of the peer."
  },
  {
   "property": "C126",
   "status": "proved",
   "theorems": [
    "Verif.Chain.Iter.C126_both_ends"
   ],
   "note": "For all chains and all sequences of calls."
  },
  {
   "property": "C127",
   "status": "partial",
   "theorems": [
    "Verif.Wallet.Screen.C127_shown",
    "Verif.Wallet.Screen.C127_balance",
    "Verif.Wallet.Screen.C127_status_partial",
    "Verif.Wallet.Screen.C127_no_panic",
    "Verif.Wallet.Screen.Scenario.C127_not_synced",
    "Verif.Wallet.Screen.Scenario.C127_synced_early",
    "Verif.Wallet.Screen.Scenario.C127_restarted",
    "Verif.Wallet.Screen.Scenario.C127_stale"
   ],
   "note": "Balance, tab, contents and status are shown as claimed, and no step panics. The claim about 'Synced' is false: it is decided by a Scanned event, which names the next height, and by the height of the last import, which is 0 after a restart."
  },
  {
   "property": "C128",
   "status": "partial",
   "theorems": [
    "Verif.Node.C128_chain",
    "Verif.Node.C128_work",
    "Verif.Node.C128_events_partial",
    "Verif.Node.C128_submitted",
    "Verif.Node.Owned.C128_failed_import",
    "Verif.Machine.C128_client_chain",
    "Verif.Machine.C128_client_work",
    "Verif.Machine.C128_client_submitted"
   ],
   "note": "Proved in full but for the events: they lead to the chain of the answers as long as imports do not fail midway and no single batch re-activates old headers. Without that it is false: C128_failed_import is a history in which a peer sends a branch followed by a bad header; the chain is replaced and no event says so."
  },
  {
   "property": "C129",
   "status": "partial",
   "theorems": [
    "Verif.Chain.C129_headers_worked",
    "Verif.Chain.C129_headers_limit",
    "Verif.Chain.C129_headers_once",
    "Verif.Chain.C129_headers_count",
    "Verif.Io.C129_bytes_partial",
    "Verif.Io.Example.C129_bytes_unbounded",
    "Verif.Cbf.C129_filters",
    "Verif.Cbf.C129_filter_unasked",
    "Verif.Inv.C129_blocks",
    "Verif.Inv.C129_messages",
    "Verif.Inv.C129_transactions",
    "Verif.Node.C129_node_blocks",
    "Verif.Node.C129_node_transactions",
    "Verif.Node.C129_node_headers",
    "Verif.Machine.C129_client_blocks",
    "Verif.Machine.C129_client_transactions",
    "Verif.Machine.C129_client_headers"
   ],
   "note": "Proved for blocks, transactions, headers and filters. Not true for the bytes of a connection: after a message whose payload ends too early any number of bytes is kept (proved); otherwise less than one message is kept. The number of connections, addresses and time samples is bounded by C45, C39 and C32."
  },
  {
   "property": "C130",
   "status": "proved",
   "theorems": [
    "Verif.Peer.C130_connected",
    "Verif.Peer.C130_answer",
    "Verif.Peer.C130_silent",
    "Verif.Peer.C130_all"
   ],
   "note": "The time field is 32 bits wide in the model as in the conversion of the code, hence 'until 2106'. An inbound peer gets its own nonce back in our version message, as in the code."
  },
  {
   "property": "C131",
   "status": "proved",
   "theorems": [
    "Verif.Addr.C131_network",
    "Verif.Addr.C131_size",
    "Verif.Addr.C131_public"
   ],
   "note": "The code hashes networks into 255 ranges of 256 addresses; addresses of one network share a range. For version 6 addresses nothing is claimed about being public: the code takes all (C42_v6)."
  },
  {
   "property": "C132",
   "status": "proved",
   "theorems": [
    "Verif.Cbf.C132_get",
    "Verif.Cbf.C132_rescan"
   ],
   "note": "The shuffle is any permutation."
  },
  {
   "property": "C133",
   "status": "proved",
   "theorems": [
    "Verif.Machine.C133_machine",
    "Verif.Addr.C133_tried",
    "Verif.Addr.C133_met"
   ],
   "note": "C133_machine is about the whole state machine; C133_met is about the address manager (an address is found when one is asked for, unless that one is connected or was drawn in the last three minutes)."
  },
  {
   "property": "C134",
   "status": "proved",
   "theorems": [
    "Verif.Machine.C134_message",
    "Verif.Machine.C134_stranger",
    "Verif.Machine.C134_network",
    "Verif.Machine.C134_negotiated",
    "Verif.Machine.C134_disconnected",
    "Verif.Machine.C134_connecting",
    "Verif.Machine.C134_connected",
    "Verif.Machine.C134_complaint",
    "Verif.Machine.C134_pong",
    "Verif.Machine.C134_addresses"
   ],
   "note": "Message by message (Reaches), event by event (Why, Complains), without the tables of the model. 'Other network' is a flag of the message. Which operations of a manager follow from what it is told is the subject of the other properties."
  },
  {
   "property": "C135",
   "status": "proved",
   "theorems": [
    "Verif.Chain.Networks.C135_genesis",
    "Verif.Chain.Networks.C135_checkpoints",
    "Verif.Chain.Networks.C135_name",
    "Verif.Chain.Networks.C135_distinct",
    "Verif.Chain.Networks.C135_services",
    "Verif.Chain.Networks.C135_no_overflow",
    "Verif.Chain.Networks.C135_params",
    "Verif.Chain.Networks.C135_limit_exact",
    "Verif.Chain.Networks.C135_starts",
    "Verif.Chain.Networks.C135_chain",
    "Verif.Chain.Networks.C135_work",
    "Verif.Chain.Networks.C135_held"
   ],
   "note": "SHA-256 is computed in Lean (Chain/Sha256.lean); the genesis blocks, consensus parameters and magic numbers come from rust-bitcoin and are written down from its public source (the genesis headers hash to the hashes in /repo). What is assumed of the hash: no header is its own ancestor (Acyclic). The example is the first real block of mainnet."
  },
  {
   "property": "C136",
   "status": "proved",
   "theorems": [
    "Verif.Cbf.Gcs.C136_any",
    "Verif.Cbf.Gcs.C136_all",
    "Verif.Cbf.Gcs.C136_found",
    "Verif.Cbf.Gcs.C136_all_found",
    "Verif.Cbf.Gcs.C136_genesis"
   ],
   "note": "The filters are those of rust-bitcoin 0.29 (util/bip158.rs), written down from its public source (it is a dependency and not in /repo): SipHash-2-4, Golomb-Rice coding, readers and writers of bits. Blocks with fewer than 2^64 scripts. The model evaluates to the test vectors of BIP158."
  },
  {
   "property": "C137",
   "status": "partial",
   "theorems": [
    "Verif.Cbf.Gcs.C137_found_partial",
    "Verif.Node.C137_scanned_partial",
    "Verif.Cbf.Gcs.Scenario.C137_counterexample"
   ],
   "note": "Only if the script of no output is empty or starts with OP_RETURN: all outputs are looked for, but filters leave those out, so a transaction with data is never found (counterexample). In the client: rescans without end asked for after the submission, histories as for C91_rescan_reorg_partial, filter headers that commit to the block's filter only."
  },
  {
   "property": "C138",
   "status": "partial",
   "theorems": [
    "Verif.Node.C138_confirmed_partial",
    "Verif.Cbf.Gcs.Scenario.C137_counterexample"
   ],
   "note": "proved for tidy histories with re-orgs (blocks found are reported before the next rescan, no re-org below a block still awaited), for transactions none of whose outputs has an empty script or one that begins with OP_RETURN; without that restriction it is false of the code (C137_counterexample): such a transaction is never found in a filter"
  },
  {
   "property": "C139",
   "status": "proved",
   "theorems": [
    "Verif.Machine.C139_heard",
    "Verif.Machine.C139_cut",
    "Verif.Machine.C139_garbage",
    "Verif.Machine.C139_steps",
    "Verif.Machine.C139_closed",
    "Verif.Machine.C139_who",
    "Verif.Machine.C139_ends",
    "Verif.Machine.C139_unknown"
   ],
   "note": "For every prefix-stable decoder (the network's is: frame_stable of C36). When messages crash the client: C112."
  },
  {
   "property": "C140",
   "status": "proved",
   "theorems": [
    "Verif.Loop.C140_order",
    "Verif.Loop.C140_awake",
    "Verif.Loop.C140_handled",
    "Verif.Loop.C140_only"
   ],
   "note": "The reactor's thread must get its turn (Fair); a reactor that ends (shutdown or i/o error) drops what is still in the channel."
  },
  {
   "property": "C141",
   "status": "partial",
   "theorems": [
    "Verif.Loop.C141_ends_partial",
    "Verif.Loop.C141_stuck",
    "Verif.Loop.C141_counterexample"
   ],
   "note": "False of the code: a shutdown whose wake-up falls between the reactor's look at the shutdown channel and its reset of the waker is lost. Proved: outside that window the client ends, if commands stop coming; and a lost shutdown stays lost until the next call."
  },
  {
   "property": "C142",
   "status": "partial",
   "theorems": [
    "Verif.Loop.C142_kept_partial",
    "Verif.Loop.C142_sleep",
    "Verif.Loop.C142_looks",
    "Verif.Loop.C142_fires_partial",
    "Verif.Loop.C142_never",
    "Verif.Loop.C142_early_counterexample",
    "Verif.Loop.C142_busy_counterexample"
   ],
   "note": "False of the code in two ways: a request within a second of a running timer is dropped, so the wake-up may come up to a second early and never again; and timers are not looked at while sockets keep the reactor busy. Proved: each request is kept to within a second, and fires once nothing else wakes the reactor."
  },
  {
   "property": "C143",
   "status": "proved",
   "theorems": [
    "Verif.Loop.Sockets.C143_stream",
    "Verif.Loop.Sockets.C143_asks",
    "Verif.Loop.Sockets.C143_written",
    "Verif.Loop.Sockets.C143_no_crash"
   ],
   "note": "Takes says that as long as the reactor asks to be told that a socket can be written to, it is told at some time and bytes are taken; that is about TCP, poll and the scheduling of the thread, not about the code."
  },
  {
   "property": "C144",
   "status": "partial",
   "theorems": [
    "Verif.Sim.C144_sent_partial",
    "Verif.Sim.C144_reliable_partial",
    "Verif.Sim.C144_failed_partial",
    "Verif.Sim.C144_outputs_partial",
    "Verif.Sim.C144_order_partial",
    "Verif.Sim.C144_all_partial",
    "Verif.Sim.C144_done_partial",
    "Verif.Sim.Scenarios.C144_lost_counterexample"
   ],
   "note": "What is put out for a connected node counts as sent, in the order in which it is put out, always if the options have no failures; over a link that failed nothing is sent in either direction. Order, and no message twice: proved for all simulations. That none is lost: proved if no latency is zero and no timer has length zero; false otherwise (a disconnect removes the entry that is due at the present time)."
  },
  {
   "property": "C145",
   "status": "partial",
   "theorems": [
    "Verif.Sim.C145_only",
    "Verif.Sim.C145_someone_partial",
    "Verif.Sim.C145_alone_partial",
    "Verif.Sim.Scenarios.C145_counterexample"
   ],
   "note": "No node is woken without having asked. Wake-ups come if only one node asks; in general some node that asked for one is woken. False of two nodes that ask for the same time."
  },
  {
   "property": "C146",
   "status": "partial",
   "theorems": [
    "Verif.Sim.C146_backwards_partial",
    "Verif.Sim.Scenarios.C146_both_counterexample"
   ],
   "note": "Time never goes backwards. The assertion that no node is both connected and connecting to another is false of nodes that connect to each other."
  },
  {
   "property": "C147",
   "status": "partial",
   "theorems": [
    "Verif.Sim.C147_connected_partial",
    "Verif.Sim.C147_disconnected_partial",
    "Verif.Sim.Scenarios.C147_counterexample"
   ],
   "note": "Connections and disconnects are told consistently. Messages are also given after a disconnect was told."
  },
  {
   "property": "C148",
   "status": "partial",
   "theorems": [
    "Verif.Sim.C148_range_partial",
    "Verif.Sim.C148_positive_partial",
    "Verif.Sim.Scenarios.C148_counterexample"
   ],
   "note": "Ranges and symmetry for all draws; at least a millisecond if the range does not begin at zero, false if it does."
  },
  {
   "property": "C149",
   "status": "partial",
   "theorems": [
    "Verif.Time.Clock.C149_current",
    "Verif.Time.Clock.C149_steady_partial",
    "Verif.Time.Clock.C149_single_partial",
    "Verif.Time.Clock.Scenarios.C149_counterexample"
   ],
   "note": "Never behind the system's clock. Monotonic if that is not set back, or if calls do not overlap; false otherwise."
  },
  {
   "property": "C150",
   "status": "partial",
   "theorems": [
    "Verif.Wallet.Exit.C150_never_ok",
    "Verif.Wallet.Exit.C150_waits",
    "Verif.Wallet.Exit.C150_told_partial",
    "Verif.Wallet.Exit.C150_quit_partial",
    "Verif.Wallet.Exit.Scenarios.C150_interrupt_counterexample",
    "Verif.Wallet.Exit.Scenarios.C150_quit_counterexample",
    "Verif.Wallet.Exit.Scenarios.C150_panic_counterexample",
    "Verif.Wallet.Exit.Scenarios.C150_deaf_counterexample"
   ],
   "note": "The client is told to stop only after an interrupt, and before the program waits for it; after q the program ends. False: it never ends without an error, an interrupt alone does not end it, q ends it without telling the client, and a failed client is not noticed."
  },
  {
   "property": "C151",
   "status": "partial",
   "theorems": [
    "Verif.Wallet.Table.C151_rows",
    "Verif.Wallet.Table.C151_aligned",
    "Verif.Wallet.Table.C151_tight",
    "Verif.Wallet.Table.C151_drawn_partial",
    "Verif.Wallet.Table.C151_header_partial",
    "Verif.Wallet.Table.Scenarios.C151_narrow_counterexample",
    "Verif.Wallet.Table.Scenarios.C151_header_counterexample"
   ],
   "note": "Everything but the absence of panics: those happen on terminals narrower than the texts of the header (or without columns)."
  },
  {
   "property": "C152",
   "status": "partial",
   "theorems": [
    "Verif.Wallet.Hardware.C152_addresses",
    "Verif.Wallet.Hardware.C152_answered",
    "Verif.Wallet.Hardware.C152_first_start",
    "Verif.Wallet.Hardware.C152_key_partial",
    "Verif.Wallet.Hardware.C152_stale",
    "Verif.Wallet.Hardware.Scenarios.C152_key_counterexample",
    "Verif.Wallet.Hardware.Scenarios.C152_replug_counterexample"
   ],
   "note": "Addresses and indexes, all or nothing, and the first start are proved. False of the code: after a device was pulled out its handle is kept for ever (connect returns it, and reconnect uses get_or_insert), so that no request succeeds any more; and the first function key ends the program with an error if there is no device. The device and the decoding of addresses are parameters."
  },
  {
   "property": "C153",
   "status": "partial",
   "theorems": [
    "Verif.Wallet.Amount.C153_near_partial",
    "Verif.Wallet.Amount.C153_exact_partial",
    "Verif.Wallet.Amount.C153_order",
    "Verif.Wallet.Amount.C153_differ_partial",
    "Verif.Wallet.Amount.Scenarios.C153_dust_counterexample",
    "Verif.Wallet.Amount.Scenarios.C153_sum_counterexample"
   ],
   "note": "At most 5000 satoshi off, exact for multiples of 10000 satoshi, and in order, with the floating-point division and the rounding to four decimals modelled exactly. False of the code: coins below 5000 satoshi are shown as nothing, and shown amounts do not add up."
  },
  {
   "property": "C154",
   "status": "proved",
   "theorems": [
    "Verif.Book.C154_some",
    "Verif.Book.C154_match",
    "Verif.Book.C154_fair",
    "Verif.Book.C154_shuffled",
    "Verif.Book.C154_every_order",
    "Verif.Book.C154_uniform",
    "Verif.Book.C154_turns",
    "Verif.Book.C154_even",
    "Verif.Book.C154_nobody_else",
    "Verif.Book.C154_managers"
   ],
   "note": "The numbers drawn and the order of hash maps are parameters; that the generator draws uniformly is not modelled."
  },
  {
   "property": "C155",
   "status": "partial",
   "theorems": [
    "Verif.Wallet.Database.C155_add_partial",
    "Verif.Wallet.Database.C155_remove_partial",
    "Verif.Wallet.Database.C155_errors",
    "Verif.Wallet.Database.C155_address_partial",
    "Verif.Wallet.Database.C155_again_partial",
    "Verif.Wallet.Database.C155_relabel_partial",
    "Verif.Wallet.Database.C155_list_partial",
    "Verif.Wallet.Database.C155_coins_once",
    "Verif.Wallet.Database.C155_unique",
    "Verif.Wallet.Database.Scenarios.C155_refused_counterexample",
    "Verif.Wallet.Database.Scenarios.C155_unread_counterexample",
    "Verif.Wallet.Database.Scenarios.C155_index_counterexample",
    "Verif.Wallet.Database.Scenarios.C155_cut_counterexample"
   ],
   "note": "Proved for statements that do not fail when executed; errors change nothing; nothing is ever stored twice, whatever fails. False of the code: refused insertions are not reported, failed reads end lists early or hide a coin that is then removed, and an address with a taken index is not stored but relabels another one."
  },
  {
   "property": "C156",
   "status": "partial",
   "theorems": [
    "Verif.Start.C156_node_dials",
    "Verif.Start.C156_wallet_dials",
    "Verif.Start.C156_node_starts",
    "Verif.Start.C156_wallet_starts",
    "Verif.Start.C156_accepts_partial",
    "Verif.Start.C156_wallet_accepts_partial",
    "Verif.Start.C156_network",
    "Verif.Start.C156_separate",
    "Verif.Start.Scenarios.C156_wallet_refuses",
    "Verif.Start.Scenarios.C156_addresses_ignored"
   ],
   "note": "False of the wallet: the limit of outbound connections is not raised to the number of peers given, so with nine of them the last is refused (C156_wallet_refuses; C156_wallet_accepts_partial for up to eight), and the addresses to watch are not used (C156_addresses_ignored). All of it is proved of the node."
  },
  {
   "property": "C157",
   "status": "partial",
   "theorems": [
    "Verif.PeerStore.C157_read",
    "Verif.PeerStore.C157_refused_partial",
    "Verif.PeerStore.Scenario.C157_other_address",
    "Verif.PeerStore.Scenario.C58_bad_address_panics"
   ],
   "note": "A file that is accepted was read in full (times as 32-bit seconds). Two parts are false: a record whose address is no address makes the client panic, and the name a record is filed under is not compared with its address."
  }
 ]
}