{
 "C10": {
  "status": "partial",
  "note": "False as stated in both implementations: on the empty map a rejected key is stored (C10_llrb_rejected_key_stored, C10_btree_rejected_key_stored); proved on non-empty maps."
 },
 "C12": {
  "status": "partial",
  "note": "False as stated: subtraction overflows (C12_compareInt_not_numeric, C12_compareInt_map_out_of_order); proved when the true difference fits an int."
 },
 "C13": {
  "status": "partial",
  "note": "False as stated: mixing times with and without monotonic reading is not transitive; proved on homogeneous sets, antisymmetry proved for all."
 },
 "C16": {
  "status": "partial",
  "note": "False as stated: after a deletion that failed while rebalancing, GetByIndex can panic (C16_btree_panics_after_failed_delete). Proved for every history in which no deletion has failed since the last restart (after a failing Prune: but for Prune and Discard of that map)."
 },
 "C25": {
  "status": "partial",
  "note": "False as stated: C25_prune_destroys_last_snapshot shows it for every map and every modification, C25_counterexample a concrete one. Proved while the snapshot is current."
 },
 "C22": {
  "note": "Opening is by the next process (restart); opening one location twice in the same process is not covered."
 },
 "C26": {
  "note": "Histories as in C16; any callback may fail. What Prune and Discard discard is claimed if no Prune of the map failed since it was opened."
 },
 "C27": {
  "note": "DiscardNode and reading not failing, no Prune of the map failed before."
 },
 "C40": {
  "note": "C40_maps_apart: histories as in C16, maps sharing the storage in any way. C40_alone, C40_broken_neighbours: any calls at all on the other maps, failing deletions included; here each map has its own area of the storage."
 },
 "C39": {
  "note": "Operations are atomic (each holds its tree's mutex); the drainer's look and its eviction are separate steps and may be interleaved with any operations."
 },
 "C38": {
  "note": "Histories as in C16."
 },
 "C28": {
  "status": "partial",
  "note": "False as stated: Discard hides a failing read (C28_discard_hides_failure). Proved: errors of DiscardNode are returned; if nothing fails to be read, success means everything was released."
 },
 "C35": {
  "status": "partial",
  "note": "False as stated: C35_failed_delete_loses_item. Proved: DeleteByKey returning false and an error loses nothing and histories may go on."
 },
 "C41": {
  "status": "partial",
  "note": "False as stated: after a Discard that could not read a node the drainer loops forever (C41_drainer_livelock). Proved for every history without failed Discards, deletions and Prunes."
 },
 "C42": {
  "status": "partial",
  "note": "False as stated: marking nodes dirty starts no drainer (C42_limit_not_kept). Proved for calls that neither change a map nor drop nodes, for UpdateLimits, the drainer's end and its evictions."
 },
 "C37": {
  "note": "Numbers stored in 64 bits (Fits); the key and value codec of the client round-trips and consumes what it wrote (Codec.Inverse); cstruct packs little-endian 64-bit words and one-byte booleans."
 },
 "C45": {
  "status": "proved",
  "note": "On the model of the lock behaviour (Verif/Conc/Locks.lean); client callbacks take no mutex of the package."
 },
 "C46": {
  "note": "LLRB: every interleaving. B+Trees: any number of maps sharing a cache, the drainer and UpdateLimits, interleaved access by access. Storage places are not shared between maps (Areas in DESIGN.md); no other thread uses a map being discarded; callbacks do not fail during deletions and Prune. Dump without its line about the cache, whose fields it reads without the mutex."
 },
 "C50": {
  "note": "On the five functions that maintain the lists, from an empty cache; and for the two lookups on reachable states."
 },
 "C51": {
  "note": "Dump, Validate and FetchLayoutReport load nodes without counting them (C51_uncounted)."
 },
 "C54": {
  "status": "partial",
  "note": "LLRB: proved. B+Tree: proved but for the error, which is false: dumpNode's error for a child is ignored, so Dump returns nil without having printed everything (C54_btree_dump_hides_failure)."
 },
 "C24": {
  "note": "No Prune of the map failed since it was opened (else C56)."
 },
 "C56": {
  "note": "That a retry fails relies on DiscardNode refusing a location where nothing is stored, as the modelled client does; C56_retry_destroys does not."
 },
 "C57": {
  "status": "partial",
  "note": "False as stated: Reset takes no mutex, and a Put of a new key during which it is called may dereference nil (C57_reset_during_put_panics). Proved for a Reset that is not called while another call has the mutex."
 },
 "C58": {
  "status": "partial",
  "note": "False as stated: FetchLocation takes no mutex and reads three fields, so it can return parts of two locations (C58_location_during_change, a model of these reads and writes alone). Proved between calls."
 },
 "C59": {
  "note": "C59_others_do_not_notice: any behaviour of the callbacks. C59_snapshot_beside: the callbacks work for the further map, which has the parameters of the first. C59_prune_takes_from_the_other shows that Prune must be excluded."
 }
}