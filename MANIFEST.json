{
 "claims": [
  {
   "property": "C01",
   "status": "proved",
   "theorems": [
    "SM.Props.C01_llrb_refines_sorted_list"
   ],
   "note": ""
  },
  {
   "property": "C02",
   "status": "proved",
   "theorems": [
    "SM.Props.C02_llrb_never_panics"
   ],
   "note": ""
  },
  {
   "property": "C03",
   "status": "proved",
   "theorems": [
    "SM.Props.C03_llrb_depth",
    "SM.Props.C03_llrb_comparisons",
    "SM.Props.C03_llrb_put_comparisons",
    "SM.Props.C03_llrb_patch_comparisons",
    "SM.Props.C03_llrb_delete_comparisons"
   ],
   "note": ""
  },
  {
   "property": "C04",
   "status": "proved",
   "theorems": [
    "SM.Props.C04_llrb_bisect_present",
    "SM.Props.C04_llrb_bisect_absent"
   ],
   "note": ""
  },
  {
   "property": "C05",
   "status": "proved",
   "theorems": [
    "SM.Props.C05_llrb_index_range",
    "SM.Props.C05_llrb_index_order",
    "SM.Props.C05_llrb_key_index_agree"
   ],
   "note": ""
  },
  {
   "property": "C06",
   "status": "proved",
   "theorems": [
    "SM.Props.C06_llrb_put_present",
    "SM.Props.C06_llrb_patchByKey_absent",
    "SM.Props.C06_llrb_patchByIndex_absent",
    "SM.Props.C06_llrb_patchByIndex_present",
    "SM.Props.C06_llrb_patchByKey_present"
   ],
   "note": ""
  },
  {
   "property": "C07",
   "status": "proved",
   "theorems": [
    "SM.Props.C07_llrb_deleteByIndex_present",
    "SM.Props.C07_llrb_deleteByIndex_absent",
    "SM.Props.C07_llrb_deleteByKey_present",
    "SM.Props.C07_llrb_deleteByKey_absent"
   ],
   "note": ""
  },
  {
   "property": "C08",
   "status": "proved",
   "theorems": [
    "SM.Props.C08_llrb_validate_len"
   ],
   "note": ""
  },
  {
   "property": "C09",
   "status": "proved",
   "theorems": [
    "SM.Props.C09_llrb_compare_error",
    "SM.Props.C09_llrb_compare_error_empty"
   ],
   "note": ""
  },
  {
   "property": "C10",
   "status": "partial",
   "theorems": [
    "SM.Props.C10_btree_rejected_key_stored",
    "SM.Props.C10_btree_rejected_key_partial",
    "SM.Props.C10_llrb_rejected_key_stored",
    "SM.Props.C10_llrb_rejected_key_partial"
   ],
   "note": "False as stated in both implementations: on the empty map a rejected key is stored (C10_llrb_rejected_key_stored, C10_btree_rejected_key_stored); proved on non-empty maps."
  },
  {
   "property": "C11",
   "status": "proved",
   "theorems": [
    "SM.Props.C11_compareUint16_order",
    "SM.Props.C11_compareUint32_order",
    "SM.Props.C11_compareUint64_order",
    "SM.Props.C11_compareString_order",
    "SM.Props.C11_compareByteSlice_order",
    "SM.Props.C11_compareUint16_lawful",
    "SM.Props.C11_compareUint32_lawful",
    "SM.Props.C11_compareUint64_lawful",
    "SM.Props.C11_compareString_lawful",
    "SM.Props.C11_compareByteSlice_lawful"
   ],
   "note": ""
  },
  {
   "property": "C12",
   "status": "partial",
   "theorems": [
    "SM.Props.C12_compareInt_not_numeric",
    "SM.Props.C12_compareInt_map_out_of_order",
    "SM.Props.C12_compareInt_partial",
    "SM.Props.C12_compareInt_small_partial"
   ],
   "note": "False as stated: subtraction overflows (C12_compareInt_not_numeric, C12_compareInt_map_out_of_order); proved when the true difference fits an int."
  },
  {
   "property": "C13",
   "status": "partial",
   "theorems": [
    "SM.Props.C13_compareTime_not_transitive",
    "SM.Props.C13_compareTime_partial",
    "SM.Props.C13_compareTime_antisymm_partial"
   ],
   "note": "False as stated: mixing times with and without monotonic reading is not transitive; proved on homogeneous sets, antisymmetry proved for all."
  },
  {
   "property": "C14",
   "status": "proved",
   "theorems": [
    "SM.Props.C14_compareInt_rejects",
    "SM.Props.C14_compareUint16_rejects",
    "SM.Props.C14_compareUint32_rejects",
    "SM.Props.C14_compareUint64_rejects",
    "SM.Props.C14_compareString_rejects",
    "SM.Props.C14_compareByteSlice_rejects",
    "SM.Props.C14_compareTime_rejects"
   ],
   "note": ""
  },
  {
   "property": "C15",
   "status": "proved",
   "theorems": [
    "SM.Props.C15_btree_refines_sorted_list",
    "SM.Props.C15_btree_operation"
   ],
   "note": ""
  },
  {
   "property": "C16",
   "status": "partial",
   "theorems": [
    "SM.Props.C16_btree_never_panics_partial",
    "SM.Props.C16_btree_panics_after_failed_delete"
   ],
   "note": "False as stated: after a deletion that failed while rebalancing, GetByIndex can panic (C16_btree_panics_after_failed_delete). Proved for every history in which no deletion has failed since the last restart (after a failing Prune: but for Prune and Discard of that map)."
  },
  {
   "property": "C17",
   "status": "proved",
   "theorems": [
    "SM.Props.C17_balanced"
   ],
   "note": ""
  },
  {
   "property": "C18",
   "status": "proved",
   "theorems": [
    "SM.Props.C18_btree_validate"
   ],
   "note": ""
  },
  {
   "property": "C19",
   "status": "proved",
   "theorems": [
    "SM.Props.C19_btree_bisect_present",
    "SM.Props.C19_btree_bisect_absent"
   ],
   "note": ""
  },
  {
   "property": "C20",
   "status": "proved",
   "theorems": [
    "SM.Props.C20_btree_getByIndex",
    "SM.Props.C20_btree_patchByIndex",
    "SM.Props.C20_btree_deleteByIndex"
   ],
   "note": ""
  },
  {
   "property": "C21",
   "status": "proved",
   "theorems": [
    "SM.Props.C21_same_answers"
   ],
   "note": ""
  },
  {
   "property": "C22",
   "status": "proved",
   "theorems": [
    "SM.Props.C22_flush_then_open"
   ],
   "note": "Opening is by the next process (restart); opening one location twice in the same process is not covered."
  },
  {
   "property": "C23",
   "status": "proved",
   "theorems": [
    "SM.Props.C23_snapshot_survives"
   ],
   "note": ""
  },
  {
   "property": "C24",
   "status": "proved",
   "theorems": [
    "SM.Props.C24_prune_after_flush"
   ],
   "note": "No Prune of the map failed since it was opened (else C56)."
  },
  {
   "property": "C25",
   "status": "partial",
   "theorems": [
    "SM.Props.C25_prune_destroys_last_snapshot",
    "SM.Props.C25_counterexample",
    "SM.Props.C25_prune_keeps_current_snapshot_partial"
   ],
   "note": "False as stated: C25_prune_destroys_last_snapshot shows it for every map and every modification, C25_counterexample a concrete one. Proved while the snapshot is current."
  },
  {
   "property": "C26",
   "status": "proved",
   "theorems": [
    "SM.Props.C26_discarded_once",
    "SM.Props.C26_storage_accounted_for"
   ],
   "note": "Histories as in C16; any callback may fail. What Prune and Discard discard is claimed if no Prune of the map failed since it was opened."
  },
  {
   "property": "C27",
   "status": "proved",
   "theorems": [
    "SM.Props.C27_discard_leaves_cache",
    "SM.Props.C27_discard_releases_all"
   ],
   "note": "DiscardNode and reading not failing, no Prune of the map failed before."
  },
  {
   "property": "C28",
   "status": "partial",
   "theorems": [
    "SM.Props.C28_discard_hides_failure",
    "SM.Props.C28_discard_partial"
   ],
   "note": "False as stated: Discard hides a failing read (C28_discard_hides_failure). Proved: errors of DiscardNode are returned; if nothing fails to be read, success means everything was released."
  },
  {
   "property": "C29",
   "status": "proved",
   "theorems": [
    "SM.Props.C29_contents_unchanged",
    "SM.Props.C29_purge_answer"
   ],
   "note": ""
  },
  {
   "property": "C30",
   "status": "proved",
   "theorems": [
    "SM.Props.C30_flush_is_complete",
    "SM.Props.C30_flush_twice"
   ],
   "note": ""
  },
  {
   "property": "C31",
   "status": "proved",
   "theorems": [
    "SM.Props.C31_reading_writes_nothing",
    "SM.Props.C31_reading_calls_no_writer"
   ],
   "note": ""
  },
  {
   "property": "C32",
   "status": "proved",
   "theorems": [
    "SM.Props.C32_touch_rewrites_all"
   ],
   "note": ""
  },
  {
   "property": "C33",
   "status": "proved",
   "theorems": [
    "SM.Props.C33_sweep",
    "SM.Props.C33_touch_item"
   ],
   "note": ""
  },
  {
   "property": "C34",
   "status": "proved",
   "theorems": [
    "SM.Props.C34_btree_failing_read",
    "SM.Props.C34_btree_failing_read_calls"
   ],
   "note": ""
  },
  {
   "property": "C35",
   "status": "partial",
   "theorems": [
    "SM.Props.C35_failed_delete_loses_item",
    "SM.Props.C35_failed_delete_partial"
   ],
   "note": "False as stated: C35_failed_delete_loses_item. Proved: DeleteByKey returning false and an error loses nothing and histories may go on."
  },
  {
   "property": "C36",
   "status": "proved",
   "theorems": [
    "SM.Props.C36_failed_flush",
    "SM.Props.C36_flush_succeeds",
    "SM.Props.C36_retry_succeeds"
   ],
   "note": ""
  },
  {
   "property": "C37",
   "status": "proved",
   "theorems": [
    "SM.Props.C37_roundtrip",
    "SM.Props.C37_trailing_garbage",
    "SM.Props.C37_injective",
    "SM.Props.C37_load_bytes",
    "SM.Props.C37_post_bytes",
    "SM.Props.C37_load_garbage"
   ],
   "note": "Numbers stored in 64 bits (Fits); the key and value codec of the client round-trips and consumes what it wrote (Codec.Inverse); cstruct packs little-endian 64-bit words and one-byte booleans."
  },
  {
   "property": "C38",
   "status": "proved",
   "theorems": [
    "SM.Props.C38_cache_exact"
   ],
   "note": "Histories as in C16."
  },
  {
   "property": "C39",
   "status": "proved",
   "theorems": [
    "SM.Props.C39_evict",
    "SM.Props.C39_look",
    "SM.Props.C39_drainer_ends"
   ],
   "note": "Operations are atomic (each holds its tree's mutex); the drainer's look and its eviction are separate steps and may be interleaved with any operations."
  },
  {
   "property": "C40",
   "status": "proved",
   "theorems": [
    "SM.Props.C40_alone",
    "SM.Props.C40_broken_neighbours",
    "SM.Props.C40_maps_apart"
   ],
   "note": "C40_maps_apart: histories as in C16, maps sharing the storage in any way. C40_alone, C40_broken_neighbours: any calls at all on the other maps, failing deletions included; here each map has its own area of the storage."
  },
  {
   "property": "C41",
   "status": "partial",
   "theorems": [
    "SM.Props.C41_drainer_livelock",
    "SM.Props.C41_drainer_progress_partial"
   ],
   "note": "False as stated: after a Discard that could not read a node the drainer loops forever (C41_drainer_livelock). Proved for every history without failed Discards, deletions and Prunes."
  },
  {
   "property": "C42",
   "status": "partial",
   "theorems": [
    "SM.Props.C42_limit_not_kept",
    "SM.Props.C42_limit_partial"
   ],
   "note": "False as stated: marking nodes dirty starts no drainer (C42_limit_not_kept). Proved for calls that neither change a map nor drop nodes, for UpdateLimits, the drainer's end and its evictions."
  },
  {
   "property": "C43",
   "status": "proved",
   "theorems": [
    "SM.Props.C43_layout_report"
   ],
   "note": ""
  },
  {
   "property": "C44",
   "status": "proved",
   "theorems": [
    "SM.Props.C44_dimensions"
   ],
   "note": ""
  },
  {
   "property": "C45",
   "status": "proved",
   "theorems": [
    "SM.Props.C45_no_deadlock",
    "SM.Props.C45_every_thread_can_finish",
    "SM.Props.C45_locks_are_paired"
   ],
   "note": "On the model of the lock behaviour (Verif/Conc/Locks.lean); client callbacks take no mutex of the package."
  },
  {
   "property": "C46",
   "status": "proved",
   "theorems": [
    "SM.Props.C46_llrb_linearizable",
    "SM.Props.C46_btree_calls_linearizable",
    "SM.Props.C46_btree_linearizable",
    "SM.Props.C46_btrees_calls_linearizable",
    "SM.Props.C46_btrees_linearizable"
   ],
   "note": "LLRB: every interleaving. B+Trees: any number of maps sharing a cache, the drainer and UpdateLimits, interleaved access by access. Storage places are not shared between maps (Areas in DESIGN.md); no other thread uses a map being discarded; callbacks do not fail during deletions and Prune. Dump without its line about the cache, whose fields it reads without the mutex."
  },
  {
   "property": "C47",
   "status": "proved",
   "theorems": [
    "SM.Props.C47_new_panics",
    "SM.Props.C47_new_panics_iff",
    "SM.Props.C47_new_ok"
   ],
   "note": ""
  },
  {
   "property": "C48",
   "status": "proved",
   "theorems": [
    "SM.Props.C48_btree_compare_error"
   ],
   "note": ""
  },
  {
   "property": "C49",
   "status": "proved",
   "theorems": [
    "SM.Props.C49_llrb_validate_iff",
    "SM.Props.C49_llrb_validated",
    "SM.Props.C49_llrb_order_unchecked",
    "SM.Props.C49_btree_validated",
    "SM.Props.C49_btree_sums_unchecked"
   ],
   "note": ""
  },
  {
   "property": "C50",
   "status": "proved",
   "theorems": [
    "SM.Props.C50_evicts_least_recently_used",
    "SM.Props.C50_getByKey_renews",
    "SM.Props.C50_getByIndex_renews"
   ],
   "note": "On the five functions that maintain the lists, from an empty cache; and for the two lookups on reachable states."
  },
  {
   "property": "C51",
   "status": "proved",
   "theorems": [
    "SM.Props.C51_misses_count_reads",
    "SM.Props.C51_uncounted",
    "SM.Props.C51_len_counts_one"
   ],
   "note": "Dump, Validate and FetchLayoutReport load nodes without counting them (C51_uncounted)."
  },
  {
   "property": "C52",
   "status": "proved",
   "theorems": [
    "SM.Props.C52_layout_keeps_memory"
   ],
   "note": ""
  },
  {
   "property": "C53",
   "status": "proved",
   "theorems": [
    "SM.Props.C53_reads",
    "SM.Props.C53_touch_item_reads",
    "SM.Props.C53_dimensions_reads",
    "SM.Props.C53_levels",
    "SM.Props.C53_whole_reads"
   ],
   "note": ""
  },
  {
   "property": "C54",
   "status": "partial",
   "theorems": [
    "SM.Props.C54_llrb_dump",
    "SM.Props.C54_btree_dump_partial",
    "SM.Props.C54_btree_dump_hides_failure"
   ],
   "note": "LLRB: proved. B+Tree: proved but for the error, which is false: dumpNode's error for a child is ignored, so Dump returns nil without having printed everything (C54_btree_dump_hides_failure)."
  },
  {
   "property": "C55",
   "status": "proved",
   "theorems": [
    "SM.Props.C55_limits_last_set",
    "SM.Props.C55_counters_never_decrease",
    "SM.Props.C55_drainer_keeps_stats"
   ],
   "note": ""
  },
  {
   "property": "C56",
   "status": "proved",
   "theorems": [
    "SM.Props.C56_failing_prune",
    "SM.Props.C56_retry_fails",
    "SM.Props.C56_retry_destroys"
   ],
   "note": "That a retry fails relies on DiscardNode refusing a location where nothing is stored, as the modelled client does; C56_retry_destroys does not."
  },
  {
   "property": "C57",
   "status": "partial",
   "theorems": [
    "SM.Props.C57_reset_partial",
    "SM.Props.C57_reset_during_put_panics"
   ],
   "note": "False as stated: Reset takes no mutex, and a Put of a new key during which it is called may dereference nil (C57_reset_during_put_panics). Proved for a Reset that is not called while another call has the mutex."
  },
  {
   "property": "C58",
   "status": "partial",
   "theorems": [
    "SM.Props.C58_location_during_change",
    "SM.Props.C58_location_partial",
    "SM.Props.C58_location_changed_partial"
   ],
   "note": "False as stated: FetchLocation takes no mutex and reads three fields, so it can return parts of two locations (C58_location_during_change, a model of these reads and writes alone). Proved between calls."
  },
  {
   "property": "C59",
   "status": "proved",
   "theorems": [
    "SM.Props.C59_others_do_not_notice",
    "SM.Props.C59_snapshot_beside",
    "SM.Props.C59_prune_takes_from_the_other"
   ],
   "note": "C59_others_do_not_notice: any behaviour of the callbacks. C59_snapshot_beside: the callbacks work for the further map, which has the parameters of the first. C59_prune_takes_from_the_other shows that Prune must be excluded."
  },
  {
   "property": "C60",
   "status": "proved",
   "theorems": [
    "SM.Props.C60_writes",
    "SM.Props.C60_refused",
    "SM.Props.C60_levels",
    "SM.Props.C60_unchanged",
    "SM.Props.C60_touchItem",
    "SM.Props.C60_writes_stored",
    "SM.Props.C60_failed_flush",
    "SM.Props.C60_writes_series"
   ],
   "note": ""
  },
  {
   "property": "C61",
   "status": "proved",
   "theorems": [
    "SM.Props.C61_prefix_free",
    "SM.Props.C61_short_bytes",
    "SM.Props.C61_short_read",
    "SM.Props.C61_careless_codec"
   ],
   "note": ""
  },
  {
   "property": "C62",
   "status": "proved",
   "theorems": [
    "SM.Props.C62_flush_releases",
    "SM.Props.C62_purge_releases"
   ],
   "note": ""
  }
 ]
}