{
 "claims": [
  {
   "property": "C01",
   "status": "proved",
   "theorems": [
    "Hx.Props.C01_key_roundtrip"
   ],
   "note": "All subjects and predicates shorter than 2^64 bytes with types below 256."
  },
  {
   "property": "C02",
   "status": "proved",
   "theorems": [
    "Hx.Props.C02_key_injective",
    "Hx.Props.C02_large_types_alias"
   ],
   "note": "Second theorem: outside the range (types >= 256) keys do collide because types are cut to 8 bits."
  },
  {
   "property": "C03",
   "status": "proved",
   "theorems": [
    "Hx.Props.C03_integer_order",
    "Hx.Props.C03_encoded_order",
    "Hx.Props.C03_bad_symbols_false"
   ],
   "note": "For sign symbols below and above the digits; the configuration reader also accepts other symbols, for which the order is wrong."
  },
  {
   "property": "C04",
   "status": "partial",
   "theorems": [
    "Hx.Props.C04_integer_roundtrip_partial",
    "Hx.Props.C04_unsigned_roundtrip",
    "Hx.Props.C04_int_min_ub",
    "Hx.Props.C04_short_integer_ub",
    "Hx.Props.C04_malformed",
    "Hx.Props.C04_decode_defined"
   ],
   "note": "False at the smallest signed value: the encoder negates it, undefined behaviour. Proved for every other value."
  },
  {
   "property": "C05",
   "status": "proved",
   "theorems": [
    "Hx.Props.C05_integer_prefix_free",
    "Hx.Props.C05_order_stable"
   ],
   "note": ""
  },
  {
   "property": "C06",
   "status": "proved",
   "theorems": [
    "Hx.Props.C06_predicate_order",
    "Hx.Props.C06_subject_order"
   ],
   "note": ""
  },
  {
   "property": "C07",
   "status": "partial",
   "theorems": [
    "Hx.Props.C07_float_order",
    "Hx.Props.C07_float_order_stable",
    "Hx.Props.C07_float_decode_partial",
    "Hx.Props.C07_float_decode_false",
    "Hx.Props.C07_double_collision"
   ],
   "note": "Order and prefix-freedom proved for all values the encoder keeps apart. Decoding is false: an exponent of -9 comes back as 0. Distinct doubles can share an encoding. C59 continues with the binary numbers in memory."
  },
  {
   "property": "C08",
   "status": "partial",
   "theorems": [
    "Hx.Props.C08_request_wire_partial",
    "Hx.Props.C08_received_addresses",
    "Hx.Props.C08_null_predicate_ub",
    "Hx.Props.C08_codes"
   ],
   "note": "Proved for every request without null pointers. False for null blobs: they pack to no bytes, so a GETOP with the documented null predicate is misread by a remote server."
  },
  {
   "property": "C09",
   "status": "partial",
   "theorems": [
    "Hx.Props.C09_response_wire_partial",
    "Hx.Props.C09_empty_object_ub",
    "Hx.Props.C09_first_on_empty_ub"
   ],
   "note": "Proved for every response whose sent blobs are not null. False for zero length objects and for the error response of an empty datastore to FIRST/LAST."
  },
  {
   "property": "C10",
   "status": "proved",
   "theorems": [
    "Hx.Props.C10_request_fits",
    "Hx.Props.C10_response_fits",
    "Hx.Props.C10_request_exact",
    "Hx.Props.C10_response_exact"
   ],
   "note": "The sizes are those of the message at packing time; a histogram shared with a running datastore may grow between sizing and packing, which is not modelled."
  },
  {
   "property": "C11",
   "status": "partial",
   "theorems": [
    "Hx.Props.C11_request_in_bounds_partial",
    "Hx.Props.C11_response_in_bounds_partial",
    "Hx.Props.C11_wrong_direction_request",
    "Hx.Props.C11_wrong_direction_response",
    "Hx.Props.C11_unknown_op",
    "Hx.Props.C11_directions_disjoint",
    "Hx.Props.C11_short_packet_ub"
   ],
   "note": "In-bounds reading proved for packets without null blobs (otherwise false, see C08_null_predicate_ub). Rejection proved for all packets of at least 24 bytes; shorter ones are read out of bounds."
  },
  {
   "property": "C22",
   "status": "proved",
   "theorems": [
    "Hx.Props.C22_id_to_location",
    "Hx.Props.C22_location_to_id",
    "Hx.Props.C22_created",
    "Hx.Props.C22_opened"
   ],
   "note": ""
  },
  {
   "property": "C23",
   "status": "proved",
   "theorems": [
    "Hx.Props.C23_counts",
    "Hx.Props.C23_range_server_id",
    "Hx.Props.C23_no_range_server_id",
    "Hx.Props.C23_is_range_server",
    "Hx.Props.C23_no_id"
   ],
   "note": ""
  },
  {
   "property": "C24",
   "status": "partial",
   "theorems": [
    "Hx.Props.C24_location_false",
    "Hx.Props.C24_location_never_right",
    "Hx.Props.C24_location_partial"
   ],
   "note": "GetDatastoreLocation passes its arguments to the wrong overload; the rank is wrong. Proved: ids outside the session refused, offsets right, datastore 0 right."
  },
  {
   "property": "C25",
   "status": "partial",
   "theorems": [
    "Hx.Props.C25_same_for_all_ranks_partial",
    "Hx.Props.C25_rank_mod_false",
    "Hx.Props.C25_in_range",
    "Hx.Props.C25_defined",
    "Hx.Props.C25_large_pair_ub",
    "Hx.Props.C25_chained_concatenation",
    "Hx.Props.C25_test_vectors",
    "Hx.Props.C25_bernstein",
    "Hx.Props.C25_more_vectors",
    "Hx.Props.C25_too_many_false"
   ],
   "note": "RankModDatastores depends on the asking rank, so the first half is false for it; proved for all other hash functions."
  },
  {
   "property": "C41",
   "status": "partial",
   "theorems": [
    "Hx.Props.C41_change_name_distinct",
    "Hx.Props.C41_change_name_job",
    "Hx.Props.C41_change_hash_false",
    "Hx.Props.C41_change_hash_all_same"
   ],
   "note": "True for ChangeDatastoreName, false for ChangeHash."
  },
  {
   "property": "C12",
   "status": "proved",
   "theorems": [
    "Hx.Props.C12_last_put_decides",
    "Hx.Props.C12_default_callbacks",
    "Hx.Props.C12_type_codes"
   ],
   "note": "For a datastore opened empty, both backends, any callbacks whose decoder undoes the encoder on the subjects and predicates used; instantiated for the library's callbacks on byte strings, pointers and integers."
  },
  {
   "property": "C13",
   "status": "partial",
   "theorems": [
    "Hx.Props.C13_same_records_partial",
    "Hx.Props.C13_put_answers_partial",
    "Hx.Props.C13_status_false",
    "Hx.Props.C13_getop_false"
   ],
   "note": "Same records and same GET answers proved for every history. False for PUT statuses (unregistered types), DELETE statuses (absent pairs) and some GETOPs."
  },
  {
   "property": "C14",
   "status": "partial",
   "theorems": [
    "Hx.Props.C14_mem_put_status",
    "Hx.Props.C14_null_number_refused",
    "Hx.Props.C14_level_false",
    "Hx.Props.C14_level_put_status_partial"
   ],
   "note": "Proved in memory; false on LevelDB and RocksDB for items that cannot be encoded."
  },
  {
   "property": "C15",
   "status": "partial",
   "theorems": [
    "Hx.Props.C15_delete_removes",
    "Hx.Props.C15_mem_delete_status",
    "Hx.Props.C15_level_status_false"
   ],
   "note": "Removal proved for all backends, status proved in memory; LevelDB and RocksDB report success for absent pairs."
  },
  {
   "property": "C16",
   "status": "proved",
   "theorems": [
    "Hx.Props.C16_reads_change_nothing"
   ],
   "note": ""
  },
  {
   "property": "C21",
   "status": "partial",
   "theorems": [
    "Hx.Props.C21_one_response_each_partial",
    "Hx.Props.C21_range_server_partial",
    "Hx.Props.C21_unusable_false"
   ],
   "note": "Proved for usable datastores; an unusable datastore answers with an empty response."
  },
  {
   "property": "C49",
   "status": "proved",
   "theorems": [
    "Hx.Props.C49_statistics"
   ],
   "note": "For a usable datastore. A HISTOGRAM packet counts as a GET."
  },
  {
   "property": "C17",
   "status": "partial",
   "theorems": [
    "Hx.Props.C17_contents_exist",
    "Hx.Props.C17_first",
    "Hx.Props.C17_last_partial",
    "Hx.Props.C17_last_empty_ub"
   ],
   "note": "FIRST proved for both backends and every history, LAST proved except for an empty in-memory datastore, where begin() is decremented."
  },
  {
   "property": "C18",
   "status": "partial",
   "theorems": [
    "Hx.Props.C18_exact",
    "Hx.Props.C18_start_at_pair_partial",
    "Hx.Props.C18_integers_partial",
    "Hx.Props.C18_eq_absent_false",
    "Hx.Props.C18_eq_other_false",
    "Hx.Props.C18_types_false"
   ],
   "note": "C18_exact says for all operations and contents which records a GETOP returns. The code never compares the found key with the requested one, so EQ returns other records. Proved when the pair is stored and no earlier record's key starts with the encoded pair; this always holds for integer subjects and predicates of the same types."
  },
  {
   "property": "C19",
   "status": "partial",
   "theorems": [
    "Hx.Props.C19_lowest_partial",
    "Hx.Props.C19_highest_returns_nothing",
    "Hx.Props.C19_lowest_skips_false",
    "Hx.Props.C19_lowest_none_false",
    "Hx.Props.C19_lowest_short_key_ub",
    "Hx.Props.C19_highest_false",
    "Hx.Props.C19_highest_begin_ub"
   ],
   "note": "LOWEST proved with the stated exceptions. HIGHEST is wrong: proved to return no record unless a key equals the prefix (or the prefix and a zero byte)."
  },
  {
   "property": "C20",
   "status": "partial",
   "theorems": [
    "Hx.Props.C20_at_most_n",
    "Hx.Props.C20_level_in_bounds_partial",
    "Hx.Props.C20_zero_records_ub"
   ],
   "note": "At most n records proved for every database and operation. In bounds proved for LevelDB with n >= 1; n = 0 writes into an empty array."
  },
  {
   "property": "C42",
   "status": "partial",
   "theorems": [
    "Hx.Props.C42_counts",
    "Hx.Props.C42_before",
    "Hx.Props.C42_one_bucket",
    "Hx.Props.C42_sum",
    "Hx.Props.C42_total_partial",
    "Hx.Props.C42_right_end",
    "Hx.Props.C42_below_first_false",
    "Hx.Props.C42_generator_failure_ub",
    "Hx.Props.C42_zero_first_false"
   ],
   "note": "Every covered value is counted in its bucket, for all ascending boundaries. The sum equals the number of values only when none lies left of the first boundary; false otherwise. A generator that fails once leads to an out of bounds read."
  },
  {
   "property": "C43",
   "status": "partial",
   "theorems": [
    "Hx.Props.C43_pack_partial",
    "Hx.Props.C43_exact_buffer",
    "Hx.Props.C43_write_read_partial",
    "Hx.Props.C43_reopen_partial",
    "Hx.Props.C43_open_fails",
    "Hx.Props.C43_continues_partial",
    "Hx.Props.C43_cache_false",
    "Hx.Props.C43_restored_ub",
    "Hx.Props.C43_memory_reopen_false"
   ],
   "note": "Proved for every histogram reachable by adding values. Cached values are lost once there are buckets; a histogram restored before it has buckets calls a null bucket generator; an in-memory datastore loses everything when reopened."
  },
  {
   "property": "C44",
   "status": "proved",
   "theorems": [
    "Hx.Props.C44_tracks",
    "Hx.Props.C44_runs",
    "Hx.Props.C44_counts",
    "Hx.Props.C44_requests",
    "Hx.Props.C44_init",
    "Hx.Props.C44_float_value"
   ],
   "note": "Reported successful is what the response says; LevelDB and RocksDB report success for items they could not encode (C14_level_false)."
  },
  {
   "property": "C45",
   "status": "partial",
   "theorems": [
    "Hx.Props.C45_write_partial",
    "Hx.Props.C45_get_partial",
    "Hx.Props.C45_get_refused",
    "Hx.Props.C45_getop_refused",
    "Hx.Props.C45_overwrites_false",
    "Hx.Props.C45_first_false"
   ],
   "note": "Histograms are stored in the user's key space. Proved: no other pair changes, and with the default callbacks no GET or GETOP returns a histogram. False for the pair (HISTOGRAM, name); a GETOP that reaches a histogram record fails."
  },
  {
   "property": "C26",
   "status": "proved",
   "theorems": [
    "Hx.Props.C26_orderings",
    "Hx.Props.C26_put_queues",
    "Hx.Props.C26_put_defined",
    "Hx.Props.C26_put_failure",
    "Hx.Props.C26_not_started"
   ],
   "note": "For all masks and triples accepted by Put and any hash function that has a datastore for them. When the hash function fails for one ordering the earlier ones stay queued although an error is returned (C26_put_failure)."
  },
  {
   "property": "C27",
   "status": "proved",
   "theorems": [
    "Hx.Props.C27_order",
    "Hx.Props.C27_packet_length",
    "Hx.Props.C27_defined",
    "Hx.Props.C27_zero_ops_ub"
   ],
   "note": "For all sequences of single and bulk calls. Undefined when the maximum number of operations per request is 0, which the setter accepts."
  },
  {
   "property": "C28",
   "status": "partial",
   "theorems": [
    "Hx.Props.C28_size_partial",
    "Hx.Props.C28_single_false",
    "Hx.Props.C28_together_false"
   ],
   "note": "False: the first operation of a packet is not checked, and the check forgets 16 to 20 bytes of the operation being added. Proved: a packet with two or more operations exceeds the limit by at most these bytes."
  },
  {
   "property": "C47",
   "status": "partial",
   "theorems": [
    "Hx.Props.C47_bulk_partial",
    "Hx.Props.C47_no_arrays",
    "Hx.Props.C47_succeeds",
    "Hx.Props.C47_histograms",
    "Hx.Props.C47_single_type_partial",
    "Hx.Props.C47_no_types_ub",
    "Hx.Props.C47_put_false",
    "Hx.Props.C47_single_type_getop_false",
    "Hx.Props.C47_single_type_getop_refused",
    "Hx.Props.C47_single_type_getop_ub",
    "Hx.Props.C47_put_single_false",
    "Hx.Props.C47_kept_ignored"
   ],
   "note": "Proved for items the single calls accept. False for empty items, which only the bulk calls queue, for BGetOpSingleType, which always fails, and for BPutSingleType with asynchronous PUTs disabled, which sends all PUTs at once and keeps results no flush returns."
  },
  {
   "property": "C33",
   "status": "partial",
   "theorems": [
    "Hx.Props.C33_items",
    "Hx.Props.C33_position",
    "Hx.Props.C33_visits",
    "Hx.Props.C33_end",
    "Hx.Props.C33_append",
    "Hx.Props.C33_c_interface",
    "Hx.Props.C33_stale_iterator_ub"
   ],
   "note": "Proved for all sequences of additions and movements in which GoToHead comes between an addition and the next use of the iterator. Without it the iterator of the deque dangles and using it is undefined, also for a list just returned by Flush."
  },
  {
   "property": "C34",
   "status": "partial",
   "theorems": [
    "Hx.Props.C34_subject_predicate",
    "Hx.Props.C34_object",
    "Hx.Props.C34_always",
    "Hx.Props.C34_histogram_pointer",
    "Hx.Props.C34_histogram_partial",
    "Hx.Props.C34_histogram_false",
    "Hx.Props.C34_c_interface"
   ],
   "note": "All accessors proved except the five-variable Histogram: for a histogram without buckets it sets the name variables and returns an error."
  },
  {
   "property": "C35",
   "status": "partial",
   "theorems": [
    "Hx.Props.C35_results_partial",
    "Hx.Props.C35_histograms",
    "Hx.Props.C35_chain_partial",
    "Hx.Props.C35_no_records_ub",
    "Hx.Props.C35_codes"
   ],
   "note": "Proved for GETOPs with at least one record (k > 0). A GETOP without records uses its result after destroying it."
  },
  {
   "property": "C29",
   "status": "partial",
   "theorems": [
    "Hx.Props.C29_flush_partial",
    "Hx.Props.C29_at_most_once",
    "Hx.Props.C29_mpi_layouts",
    "Hx.Props.C29_thallium_layouts",
    "Hx.Props.C29_single_rank",
    "Hx.Props.C29_results_partial",
    "Hx.Props.C29_put_results_partial",
    "Hx.Props.C29_del_results_partial",
    "Hx.Props.C29_get_results_partial",
    "Hx.Props.C29_null_ub",
    "Hx.Props.C29_two_datastores_false",
    "Hx.Props.C29_mpi_wrong_rank_false",
    "Hx.Props.C29_mpi_group_false",
    "Hx.Props.C29_thallium_ratio_false",
    "Hx.Props.C29_unusable_false",
    "Hx.Props.C29_zero_records_ub"
   ],
   "note": "Proved for all queues and all layouts in which other ranks have one datastore each and can be reached, among them one datastore per range server with range server ids equal to ranks, and jobs of one rank. At most once for all layouts. False otherwise: packets are lost or executed by the wrong rank. One result per operation for PUTs, GETs and DELETEs on usable datastores. The fuel of the loop is the number of packets, so termination is part of the theorem."
  },
  {
   "property": "C30",
   "status": "partial",
   "theorems": [
    "Hx.Props.C30_order",
    "Hx.Props.C30_complete_partial",
    "Hx.Props.C30_async_partial"
   ],
   "note": "Proved for every layout and transport with asynchronous PUTs disabled. C30_complete_partial adds that nothing is missing, under the conditions of C29. With asynchronous PUTs C30_async_partial shows, for all interleavings, that once FlushPuts has returned no PUT is left to be done; missing: the interleavings with a data race (C32_race_ub)."
  },
  {
   "property": "C31",
   "status": "partial",
   "theorems": [
    "Hx.Props.C31_same_results_partial",
    "Hx.Props.C31_same_failures",
    "Hx.Props.C31_default_callbacks",
    "Hx.Props.C31_same_views",
    "Hx.Props.C31_empty_object_false",
    "Hx.Props.C31_first_false"
   ],
   "note": "Proved for all requests and responses that can be packed. False for objects of length zero and for FIRST and LAST that fail, whose responses can not be packed."
  },
  {
   "property": "C36",
   "status": "partial",
   "theorems": [
    "Hx.Props.C36_last_source",
    "Hx.Props.C36_undefined",
    "Hx.Props.C36_line_unique",
    "Hx.Props.C36_comments",
    "Hx.Props.C36_blanks",
    "Hx.Props.C36_priority",
    "Hx.Props.C36_env_ignored_false",
    "Hx.Props.C36_trailing_comment_false",
    "Hx.Props.C37_defaults",
    "Hx.Props.C37_untouched_session"
   ],
   "note": "Proved for all files and environments on the level of texts: the last source wins, in the documented order. False: environment variables of the keys missing from DEFAULT_CONFIG are ignored, and text after a value is not a comment. Defaults for undefined keys: C37_untouched_session, except the negative symbol."
  },
  {
   "property": "C37",
   "status": "partial",
   "theorems": [
    "Hx.Props.C37_defaults",
    "Hx.Props.C37_default_config",
    "Hx.Props.C37_numbers",
    "Hx.Props.C37_symbols",
    "Hx.Props.C37_untouched",
    "Hx.Props.C37_untouched_session",
    "Hx.Props.C37_applied_partial",
    "Hx.Props.C37_complete",
    "Hx.Props.C37_first_four",
    "Hx.Props.C37_lost_false",
    "Hx.Props.C37_lost_endpoints_false",
    "Hx.Props.C37_single_option_false",
    "Hx.Props.C37_neg_false",
    "Hx.Props.C37_hash_false",
    "Hx.Props.C37_endpoint_list_ub",
    "Hx.Props.C37_negative_ratio_false"
   ],
   "note": "Untouched options keep their defaults (except the negative symbol) for all configurations. Applied is proved for configurations that are read to their end, which C37_complete characterises. False: without DATASTORE, DATASTORE_PREFIX, DATASTORE_BASENAME or ENDPOINT_GROUP later options are silently dropped; HASH is ignored with the NULL transport; a list of ranks never finishes."
  },
  {
   "property": "C38",
   "status": "partial",
   "theorems": [
    "Hx.Props.C38_open_refused",
    "Hx.Props.C38_open_defined",
    "Hx.Props.C38_zero_refused",
    "Hx.Props.C38_positive",
    "Hx.Props.C38_frozen",
    "Hx.Props.C38_zero_ops_false",
    "Hx.Props.C38_null_strings_ub",
    "Hx.Props.C38_no_session"
   ],
   "note": "Proved for all setters, sessions and call sequences, except that a null module or predicate is used before the session is checked, and that zero operations per request are accepted."
  },
  {
   "property": "C51",
   "status": "partial",
   "theorems": [
    "Hx.Props.C51_known_types_false",
    "Hx.Props.C51_other_types_partial",
    "Hx.Props.C51_second_call_false"
   ],
   "note": "False for all eight data types: emplace keeps the library's functions. Proved for other type numbers and the first call."
  },
  {
   "property": "C39",
   "status": "partial",
   "theorems": [
    "Hx.Props.C39_refused_partial",
    "Hx.Props.C39_nothing_queued",
    "Hx.Props.C39_flush_false",
    "Hx.Props.C39_flush_ub",
    "Hx.Props.C39_c_results_ub",
    "Hx.Props.C39_epoch_false"
   ],
   "note": "Proved for all calls but the flush functions, GetEpoch and the C variants of Sync, ChangeHash and ChangeDatastoreName. Nothing is ever queued, for all call sequences. False for the flush functions and GetEpoch between Init and Open; undefined behaviour of flush functions without private data."
  },
  {
   "property": "C40",
   "status": "partial",
   "theorems": [
    "Hx.Props.C40_close_false",
    "Hx.Props.C40_flush_first_partial"
   ],
   "note": "False: Close ignores what is queued, because running is reset before Sync is called. Proved when the program flushes before Close, with asynchronous PUTs disabled and under the conditions of C29."
  },
  {
   "property": "C50",
   "status": "partial",
   "theorems": [
    "Hx.Props.C50_open_one_ub",
    "Hx.Props.C50_more_ranks_partial"
   ],
   "note": "False for every configuration: OpenOne destroys the datastore configuration and then dereferences it. Only the refusal of larger jobs holds."
  },
  {
   "property": "C52",
   "status": "partial",
   "theorems": [
    "Hx.Props.C52_open",
    "Hx.Props.C52_open_success",
    "Hx.Props.C52_close",
    "Hx.Props.C52_reopen_ub",
    "Hx.Props.C52_async_close_ub"
   ],
   "note": "Return values proved for all cases in which the calls return. Undefined behaviour: Open after a failed Open or after Close, and Close of a session with asynchronous PUTs whose thread was never started."
  },
  {
   "property": "C53",
   "status": "partial",
   "theorems": [
    "Hx.Props.C53_open",
    "Hx.Props.C53_step",
    "Hx.Props.C53_hash_name_false",
    "Hx.Props.C53_null_hash_ub"
   ],
   "note": "Proved for all configurations and calls, except that GetHash returns the old name after ChangeHash. A null hash function is accepted by ChangeHash and called by the next GET or DELETE."
  },
  {
   "property": "C32",
   "status": "partial",
   "theorems": [
    "Hx.Props.C32_at_most_once",
    "Hx.Props.C32_flush_partial",
    "Hx.Props.C32_results_partial",
    "Hx.Props.C32_no_race_partial",
    "Hx.Props.C32_in_turn_partial",
    "Hx.Props.C32_no_deadlock",
    "Hx.Props.C32_returns",
    "Hx.Props.C32_more_datastores_ub",
    "Hx.Props.C32_race_ub",
    "Hx.Props.C32_race_drain_ub",
    "Hx.Props.C32_close_false"
   ],
   "note": "Proved for all interleavings and all programs: nothing is sent or returned twice; when FlushPuts returns, every PUT has been sent exactly once and all results were returned, one per PUT on usable datastores; the threads do not block each other and calls return. Not true in full: when the limit of queued PUTs is reached the threads can race for the results (C32_race_ub; excluded below the limit by C32_no_race_partial, where every interleaving equals the sequential execution), Close drops queued PUTs, and with more than one datastore per range server queueing is undefined. BPutSingleType is not part of this model."
  },
  {
   "property": "C46",
   "status": "partial",
   "theorems": [
    "Hx.Props.C46_defined",
    "Hx.Props.C46_at_most_once",
    "Hx.Props.C46_users",
    "Hx.Props.C46_one_owner",
    "Hx.Props.C46_not_early",
    "Hx.Props.C46_exactly_once",
    "Hx.Props.C46_at_once",
    "Hx.Props.C46_put_remote",
    "Hx.Props.C46_put_local",
    "Hx.Props.C46_delete_remote",
    "Hx.Props.C46_delete_local",
    "Hx.Props.C46_get_remote",
    "Hx.Props.C46_get_local",
    "Hx.Props.C46_histogram_remote",
    "Hx.Props.C46_write_histograms",
    "Hx.Props.C46_read_histograms",
    "Hx.Props.C46_getop_remote_partial",
    "Hx.Props.C46_getop_local_partial",
    "Hx.Props.C46_unpack_leaks_false",
    "Hx.Props.C46_clear_leaks_false",
    "Hx.Props.C46_set_clean_ub",
    "Hx.Props.C46_own_users_ub",
    "Hx.Props.C46_mpi_put_false",
    "Hx.Props.C46_mpi_get_false",
    "Hx.Props.C46_getop_decode_false"
   ],
   "note": "For all sequences of operations of the class that follow six rules (own only what alloc returned and nobody owns, no clear, unpack or set_clean(true) on the wrong blob, and so on), which are needed. That the library follows them is proved for flushes of any number of PUTs, GETs, DELETEs, GETOPs with any numbers of records, and histograms, served by the rank itself or through Thallium, from queueing to the destruction of the results, with every packet, encoded value and key. False in full: range servers of the MPI transport free messages without destroying their blobs (C46_mpi_put_false, C46_mpi_get_false), and GETOPs lose what was decoded when a later part of the record cannot be (C46_getop_decode_false). The response that the datastore makes and the one into which the range server steals its entries are both in the model. Missing: steal of requests, which nothing calls."
  },
  {
   "property": "C48",
   "status": "partial",
   "theorems": [
    "Hx.Props.C48_gets_partial",
    "Hx.Props.C48_partial",
    "Hx.Props.C48_runs_partial",
    "Hx.Props.C48_default_callbacks",
    "Hx.Props.C48_default_answered",
    "Hx.Props.C48_thallium_sessions",
    "Hx.Props.C48_mpi_sessions",
    "Hx.Props.C48_rank_hash_false",
    "Hx.Props.C48_two_datastores_false",
    "Hx.Props.C48_empty_object_ub"
   ],
   "note": "Proved for all numbers of ranks, sequences of turns (queue, then flush) and operations, for hash functions that depend only on the pair and layouts in which every packet arrives (Routed; C48_*_sessions give them), and turns of PUTs, GETs, DELETEs, histogram requests and the GETOPs EQ, NEXT and PREV are shown to succeed. False in full: with two datastores on another rank PUTs get lost (C48_two_datastores_false), hash functions may depend on the rank (C48_rank_hash_false), and the response to a GET of an empty object makes another rank read past the message (C48_empty_object_ub). Failed writes: C76. Asynchronous PUTs: C77. Flushes that overlap in time are C55."
  },
  {
   "property": "C54",
   "status": "partial",
   "theorems": [
    "Hx.Props.C54_put_remote",
    "Hx.Props.C54_put_local",
    "Hx.Props.C54_delete_remote",
    "Hx.Props.C54_delete_local",
    "Hx.Props.C54_get_remote",
    "Hx.Props.C54_get_local",
    "Hx.Props.C54_histograms",
    "Hx.Props.C54_getop_remote_partial",
    "Hx.Props.C54_getop_local_partial",
    "Hx.Props.C54_getop_empty_false"
   ],
   "note": "Proved for both transports, all backends and all outcomes, except for GETOPs that return no record, for which it is false: the user is given a result that has been destructed (C54_getop_empty_false). Messages mixed with others, those of the background thread among them: C88. Memory of messages is C89, of results C90. Missing: memory of arrays."
  },
  {
   "property": "C55",
   "status": "partial",
   "theorems": [
    "Hx.Props.C55_gets_partial",
    "Hx.Props.C55_explained_partial",
    "Hx.Props.C55_partial",
    "Hx.Props.C55_reads_in_order",
    "Hx.Props.C55_runs_partial",
    "Hx.Props.C55_turns"
   ],
   "note": "Proved for all numbers of flushes and operations and all orders in which the range servers execute the requests, under the conditions of C48 on hash functions and layouts. Flushes of PUTs, GETs, DELETEs, histogram requests and the GETOPs EQ, NEXT and PREV are shown to be possible in every order. Within a flush another rank's PUT can come between the flush's own PUT and GET (see the example). Failed writes: C78. Asynchronous PUTs: C81. Histograms: C82. Missing: false for the layouts and hash functions of C48_two_datastores_false and C48_rank_hash_false, and for empty objects (C48_empty_object_ub)."
  },
  {
   "property": "C56",
   "status": "partial",
   "theorems": [
    "Hx.Props.C56_faithful",
    "Hx.Props.C56_complete",
    "Hx.Props.C56_terminates",
    "Hx.Props.C56_progress_partial",
    "Hx.Props.C56_finishes_partial",
    "Hx.Props.C56_two_ranks",
    "Hx.Props.C56_deadlock_false",
    "Hx.Props.C56_large_responses_false",
    "Hx.Props.C56_rounds"
   ],
   "note": "Everything but the absence of deadlocks is proved for all programs and interleavings, for range servers that answer every request to the rank it came from. No deadlock if the MPI library copies all messages, or every round is one request, or every rank has a listener for each of the other clients but one (in particular with two ranks). False in full: three ranks with one listener each can block for ever when requests, or only responses, are too large to be copied."
  },
  {
   "property": "C57",
   "status": "partial",
   "theorems": [
    "Hx.Props.C57_acts",
    "Hx.Props.C57_few",
    "Hx.Props.C57_unreachable",
    "Hx.Props.C57_safe_partial",
    "Hx.Props.C57_partial",
    "Hx.Props.C57_finishes_partial",
    "Hx.Props.C57_reads_partial",
    "Hx.Props.C57_sessions",
    "Hx.Props.C57_deadlock_false"
   ],
   "note": "Proved for all interleavings and numbers of ranks, listeners, flushes and operations: the messages a rank receives unpack to the results of its flushes in one order of all requests, which respects real time and the order of each rank (so everything of C55 holds), and a GET of a later flush finds the object of the earlier PUT. C57_sessions gives jobs the theorems apply to. Flushes return under the conditions of C56; false in full, three ranks that PUT to each other can block for ever (C57_deadlock_false). The GETOPs EQ, NEXT and PREV are included, and what they find is C61_mpi_partial. Missing: FIRST, LAST, LOWEST and HIGHEST, histograms whose bucket generator can fail or that were read back (other histograms are covered, C82_mpi_partial), asynchronous PUTs, objects that come back empty (C48_empty_object_ub). Writes may fail, only the theorem on later GETs assumes that they do not; without that assumption it is C78."
  },
  {
   "property": "C58",
   "status": "partial",
   "theorems": [
    "Hx.Props.C58_sets_partial",
    "Hx.Props.C58_defined",
    "Hx.Props.C58_last_partial",
    "Hx.Props.C58_endpoints",
    "Hx.Props.C58_tracked",
    "Hx.Props.C58_transform_false",
    "Hx.Props.C58_bootstrap_false",
    "Hx.Props.C58_mpi_communicator_false"
   ],
   "note": "Proved for all setters, arguments and sequences of calls on sessions that are not open. False: a second pair of functions for a type is dropped though the call succeeds, a refused null communicator replaces the one that was set, and the MPI transport keeps the communicator of the time it was chosen."
  },
  {
   "property": "C59",
   "status": "partial",
   "theorems": [
    "Hx.Props.C59_order",
    "Hx.Props.C59_predicate_order",
    "Hx.Props.C59_subject_order",
    "Hx.Props.C59_stored",
    "Hx.Props.C59_distinct",
    "Hx.Props.C59_back_partial",
    "Hx.Props.C59_zero",
    "Hx.Props.C59_get_partial",
    "Hx.Props.C59_lost_exponent_false",
    "Hx.Props.C59_large_false",
    "Hx.Props.C59_small_false",
    "Hx.Props.C59_not_finite_ub",
    "Hx.Props.C59_collision"
   ],
   "note": "For every C library whose log10 is within 1/50 and does not decrease and whose pow(10, n) has a relative error below 2^-46 (LibmOk). Order is proved for all finite floats and doubles; the stored decimal number and the number that comes back are within a stated relative error, which also decides which numbers are kept apart; GETs of float and double objects after any history. False: exponents -9 and 9 are lost, the largest doubles come back as infinity, the smallest as zero, neighbouring doubles share a key; infinity and NaN are undefined behaviour. Missing: reading back subnormal floats and the floats above 2^125."
  },
  {
   "property": "C60",
   "status": "partial",
   "theorems": [
    "Hx.Props.C60_compare",
    "Hx.Props.C60_bucket_count",
    "Hx.Props.C60_good_partial",
    "Hx.Props.C60_even",
    "Hx.Props.C60_whole_widths",
    "Hx.Props.C60_counted_partial",
    "Hx.Props.C60_uniform_partial",
    "Hx.Props.C60_sturges_partial",
    "Hx.Props.C60_scott_false",
    "Hx.Props.C60_uniform_false",
    "Hx.Props.C60_no_buckets_false",
    "Hx.Props.C60_rice_false",
    "Hx.Props.C60_sturges_false",
    "Hx.Props.C60_fractions_false",
    "Hx.Props.C60_infinite_false",
    "Hx.Props.C60_errors"
   ],
   "note": "For every C library that meets MathOk. Ascending buckets from the smallest value on, with stated positions and numbers, for N_BUCKETS, square root, Sturges and Rice, and for logarithmic buckets of ranges above 1. False: the generator of Scott's rule has the difference the wrong way round and never makes a bucket (or is undefined) for any finite input; logarithmic buckets of ranges up to 1; Rice's rule adds 2 instead of doubling; Sturges' formula has one bucket too many for powers of two; N_BUCKETS rounds widths up to whole numbers, so fractions share a bucket; infinite values give NaN boundaries. Missing: positions of logarithmic buckets, ranges above 2^53 for them."
  },
  {
   "property": "C61",
   "status": "partial",
   "theorems": [
    "Hx.Props.C61_partial",
    "Hx.Props.C61_apart",
    "Hx.Props.C61_overlap_partial",
    "Hx.Props.C61_runs_partial",
    "Hx.Props.C61_mpi_partial",
    "Hx.Props.C61_first_ub",
    "Hx.Props.C61_empty_false"
   ],
   "note": "Proved for all numbers of ranks, turns and operations, both backends, under the conditions of C48 on hash functions and layouts: the results of every GETOP of a turn are exactly the records that getOpAnswer picks out of what the job has put into the datastore. C61_overlap_partial is the same for flushes that overlap in any way: the records are those of the datastore at the request's place in the log, which contains the own PUTs, everything of finished flushes and a beginning of what each other flush does there. C61_runs_partial shows that EQ, NEXT and PREV do return (turns), C61_mpi_partial that over MPI what a rank makes of the messages it receives is right, for all interleavings of clients and listeners. False in full: after a failed FIRST or LAST on another rank the response cannot be read (C61_first_ub), and records with an empty predicate come back with the object as predicate (C61_empty_false). What the operations themselves get wrong is C17 to C20."
  },
  {
   "property": "C62",
   "status": "proved",
   "theorems": [
    "Hx.Props.C62_faithful",
    "Hx.Props.C62_complete",
    "Hx.Props.C62_rounds",
    "Hx.Props.C62_buffers",
    "Hx.Props.C62_terminates",
    "Hx.Props.C62_progress",
    "Hx.Props.C62_finishes"
   ],
   "note": "For all programs, interleavings and addresses, with at least one handler per rank, for range servers that answer every request. Unlike with MPI (C56) there is no deadlock. Calls themselves do not fail; the lifetime of bulk handles is that of the memory they describe (see the trusted base)."
  },
  {
   "property": "C63",
   "status": "partial",
   "theorems": [
    "Hx.Props.C63_acts",
    "Hx.Props.C63_few",
    "Hx.Props.C63_unreachable",
    "Hx.Props.C63_safe_partial",
    "Hx.Props.C63_partial",
    "Hx.Props.C63_finishes_partial",
    "Hx.Props.C63_reads_partial",
    "Hx.Props.C63_getops_partial",
    "Hx.Props.C63_sessions"
   ],
   "note": "Proved for all interleavings and numbers of ranks, handlers, flushes and operations, with and without ASYNC_THALLIUM: the responses a rank reads unpack to the results of its flushes in one order of all requests, which respects real time and the order of each rank (so everything of C55 and C61 holds); a GET of a later flush finds the object of the earlier PUT; flushes return with one handler per rank (unlike C57), and all buffers are freed. C63_sessions gives jobs the theorems apply to. Missing: FIRST, LAST, LOWEST and HIGHEST, histograms whose bucket generator can fail or that were read back (other histograms are covered, C82_thallium_partial), asynchronous PUTs, objects that come back empty (C48_empty_object_ub). Writes may fail, only the theorem on later GETs assumes that they do not; without that assumption it is C78."
  },
  {
   "property": "C64",
   "status": "partial",
   "theorems": [
    "Hx.Props.C64_mpi_safe_partial",
    "Hx.Props.C64_mpi_terminates",
    "Hx.Props.C64_mpi_partial",
    "Hx.Props.C64_mpi_closes_partial",
    "Hx.Props.C64_early_close_false",
    "Hx.Props.C64_hang_false",
    "Hx.Props.C64_mpi_ub",
    "Hx.Props.C64_mpi_send_ub",
    "Hx.Props.C64_thallium_terminates",
    "Hx.Props.C64_thallium_closes",
    "Hx.Props.C64_thallium_safe_partial",
    "Hx.Props.C64_thallium_tidy",
    "Hx.Props.C64_thallium_ub"
   ],
   "note": "MPI: proved for programs in which every rank calls Sync directly before Close (and, for the absence of deadlock, under the conditions of C56). False without: Close resets running before its barrier, so the listeners of a rank that closes stop; then a rank with an open request for it waits for ever and no Close returns (C64_early_close_false, for all programs), the size of a late request is written to the stack of the ended listener (C64_mpi_ub), or a response is freed while it is sent (C64_mpi_send_ub). Thallium: Close returns on all ranks for all programs, no Sync needed; safe and without leaks as long as no range server is destroyed while a request to free a response is under way, which nothing in the code prevents (C64_thallium_ub)."
  },
  {
   "property": "C65",
   "status": "partial",
   "theorems": [
    "Hx.Props.C65_gather_ub",
    "Hx.Props.C65_addrs",
    "Hx.Props.C65_partial",
    "Hx.Props.C65_endpoints_partial"
   ],
   "note": "False as MPI is specified: every rank calls MPI_Allgather with more characters to receive than are sent, which is erroneous, whatever the addresses are (C65_gather_ub). With a library that accepts that and leaves the rest of the buffer zero, proved for all numbers of ranks and addresses without zeros whose total size fits an int."
  },
  {
   "property": "C66",
   "status": "partial",
   "theorems": [
    "Hx.Props.C66_partial",
    "Hx.Props.C66_exists",
    "Hx.Props.C66_only",
    "Hx.Props.C66_ends",
    "Hx.Props.C66_short_false",
    "Hx.Props.C66_short",
    "Hx.Props.C66_file_false"
   ],
   "note": "Proved for all paths of two or more characters with no file in the way, and all interleavings with processes that add directories. False: a path of one character is not made though 0 is returned; 0 is returned if the path names a file. Missing: processes that remove directories, links, paths that are too long for the system."
  },
  {
   "property": "C67",
   "status": "partial",
   "theorems": [
    "Hx.Props.C67_format_partial",
    "Hx.Props.C67_line",
    "Hx.Props.C67_printed_partial",
    "Hx.Props.C67_header_long",
    "Hx.Props.C67_buffer_partial",
    "Hx.Props.C67_copy_partial",
    "Hx.Props.C67_found_partial",
    "Hx.Props.C67_image",
    "Hx.Props.C67_cut_false",
    "Hx.Props.C67_small_ub",
    "Hx.Props.C67_overflow_ub",
    "Hx.Props.C67_stdout_false"
   ],
   "note": "Proved for all sequences of messages whose length together with the header fits an int, all buffer sizes, and images of hosts of either byte order. False: a message buffer that is cut off at the end of an image is found with pieces outside of it (the check leaves out the header); whether the header is shortened on standard output depends on standard error; messages just below 2^31 bytes overflow an int. The failure of the first snprintf, which is undefined behaviour too, is in the model only."
  },
  {
   "property": "C68",
   "status": "partial",
   "theorems": [
    "Hx.Props.C68_filter_partial",
    "Hx.Props.C68_same",
    "Hx.Props.C68_mixed_false",
    "Hx.Props.C68_table",
    "Hx.Props.C68_results",
    "Hx.Props.C68_negative_ub",
    "Hx.Props.C68_too_many_ub",
    "Hx.Props.C68_long_name_false",
    "Hx.Props.C68_levels",
    "Hx.Props.C68_level_names",
    "Hx.Props.C68_lower_case_false",
    "Hx.Props.C68_set_partial",
    "Hx.Props.C68_null_ub",
    "Hx.Props.C68_get",
    "Hx.Props.C68_back_partial",
    "Hx.Props.C68_unnamed_false",
    "Hx.Props.C68_session_partial",
    "Hx.Props.C68_two_sessions_false",
    "Hx.Props.C68_levels_false"
   ],
   "note": "Filter: proved for masks that are a level or a set of debug channels; a mask with both drops messages of its own level. Facilities: all sequences of calls with numbers from 0 on; negative numbers are undefined behaviour. Text: all lists of settings without commas and equal signs in names; an unknown level for all facilities is undefined behaviour when errors are logged; facilities without a name are written in a way that cannot be set again. Sessions: proved for one at a time; a second session in the process does not get its level and silences the first when closed, level 0 writes nothing although everything passes the filter."
  },
  {
   "property": "C69",
   "status": "partial",
   "theorems": [
    "Hx.Props.C69_negative_precision",
    "Hx.Props.C69_small_order_partial",
    "Hx.Props.C69_small_back_partial",
    "Hx.Props.C69_small_exact",
    "Hx.Props.C69_small_one_false",
    "Hx.Props.C69_small_no_digits",
    "Hx.Props.C69_large_order_partial",
    "Hx.Props.C69_large_back_partial",
    "Hx.Props.C69_large_whole",
    "Hx.Props.C69_large_big_false",
    "Hx.Props.C69_large_inf_false",
    "Hx.Props.C69_int16_partial",
    "Hx.Props.C69_int16_min_false",
    "Hx.Props.C69_int8_false",
    "Hx.Props.C69_compare_partial",
    "Hx.Props.C69_compare_integers",
    "Hx.Props.C69_compare_false"
   ],
   "note": "Proved for small decimals whose magnitude is not rounded to 1, with at least one digit, and for large decimals whose integer part fits an int; the precision is any. Decimals of up to 6 or 15 digits come back exactly, and so do whole numbers. False: numbers that are rounded to 1 or are larger come back without their integer part from small_decimals; large_decimals writes all numbers from 2^31 on alike, is undefined for those up to -2^31, and writes infinity and NaN like 0; the smallest integer of two bytes comes back as another; of the integers of one byte only 0, 53 and -53 come back, since a stream reads them as characters; lex_comp orders characters from 128 on before the others. Assumed: streams print and read exactly, rounding ties to even."
  },
  {
   "property": "C70",
   "status": "partial",
   "theorems": [
    "Hx.Props.C70_apart_partial",
    "Hx.Props.C70_both_send_false",
    "Hx.Props.C70_alone",
    "Hx.Props.C70_calls",
    "Hx.Props.C70_too_many_ub",
    "Hx.Props.C70_sent_false",
    "Hx.Props.C70_sent_ub",
    "Hx.Props.C70_received_false",
    "Hx.Props.C70_thallium"
   ],
   "note": "Proved for programs whose queued PUTs stay below the limit: the threads never send at the same time, and calls one after the other get their own responses over MPI. Proved for Thallium with any number of threads per rank. False over MPI when both send at once, which happens if the limit is reached during a flush of GETs: the arrays of the endpoint group are shared without a lock. For any two such requests there is an interleaving that sends one of them, cut off, to the rank of the other or reads behind its end, and one in which the threads receive each other's responses."
  },
  {
   "property": "C71",
   "status": "partial",
   "theorems": [
    "Hx.Props.C71_counting_is_harmless",
    "Hx.Props.C71_puts",
    "Hx.Props.C71_gets",
    "Hx.Props.C71_times",
    "Hx.Props.C71_get_bytes_partial",
    "Hx.Props.C71_getstats",
    "Hx.Props.C71_getstats_false",
    "Hx.Props.C71_get_bytes_false",
    "Hx.Props.C71_failed_false",
    "Hx.Props.C71_rate",
    "Hx.Props.C71_rate_nothing",
    "Hx.Props.C71_rate_ub",
    "Hx.Props.C71_closing",
    "Hx.Props.C71_closing_ub",
    "Hx.Props.C71_destroy_ub"
   ],
   "note": "Proved: counting changes nothing; PUTs and the bytes of their keys and values; what is called GETs are GETs, histogram names and records of GETOPs; times; rates and the message. False: objects that are found are not counted, since the size is read from the response before the object is added, and LevelDB counts no bytes of GETs at all; GetStats gives numbers of packets; bytes LevelDB failed to write are counted. Destroying a datastore reads behind the array of units exactly when the rate exceeds 1024 PB/s or no time has passed. The bytes of GETOPs are arguments of the model."
  },
  {
   "property": "C72",
   "status": "partial",
   "theorems": [
    "Hx.Props.C72_packets",
    "Hx.Props.C72_flush",
    "Hx.Props.C72_fill",
    "Hx.Props.C72_outgoing",
    "Hx.Props.C72_destinations",
    "Hx.Props.C72_delivered_partial",
    "Hx.Props.C72_dropped_false",
    "Hx.Props.C72_calls",
    "Hx.Props.C72_getops",
    "Hx.Props.C72_getop_false",
    "Hx.Props.C72_kinds",
    "Hx.Props.C72_stream",
    "Hx.Props.C72_precision_false"
   ],
   "note": "Proved for all sequences of calls and flushes in a running session: operations counted and queued are those asked for, packets have between 1 and the maximum number of operations, numbers per datastore are the packets that were queued for it and add up to the number of packets. False: with two datastores on another rank packets are counted that are never sent; a single GETOP is reported as a bulk operation; the precision of the stream is 3 afterwards. Packets counted are delivered in the layouts of C29. Doubles are exact."
  },
  {
   "property": "C73",
   "status": "partial",
   "theorems": [
    "Hx.Props.C73_line",
    "Hx.Props.C73_ignored_false",
    "Hx.Props.C73_text",
    "Hx.Props.C73_lines",
    "Hx.Props.C73_bulk",
    "Hx.Props.C73_blank",
    "Hx.Props.C73_unknown",
    "Hx.Props.C73_single",
    "Hx.Props.C73_several",
    "Hx.Props.C73_refused_false",
    "Hx.Props.C73_range",
    "Hx.Props.C73_too_large",
    "Hx.Props.C73_nearest",
    "Hx.Props.C73_unsigned_false",
    "Hx.Props.C73_help_false",
    "Hx.Props.C73_joined_false"
   ],
   "note": "Proved for all lines in the documented form with any white space and all texts of them; a line for several operations is the same as a line for each; unknown operations and numbers out of range are refused; fractions are the nearest of the type. False: words behind an operation are ignored; the operations a refused line for several begins with are run all the same; the negative of an unsigned number is accepted; the help text has no number of operations for BGETOP, and a line written like that is always refused; a number may be joined to the next word. Numbers with more than one sign, hexadecimal digits or exponents that are not written out are not in the grammar of the specification."
  },
  {
   "property": "C74",
   "status": "partial",
   "theorems": [
    "Hx.Props.C74_integers",
    "Hx.Props.C74_unsigned_false",
    "Hx.Props.C74_bytes",
    "Hx.Props.C74_zero_false",
    "Hx.Props.C74_floats_partial",
    "Hx.Props.C74_small_false",
    "Hx.Props.C74_results",
    "Hx.Props.C74_put_line",
    "Hx.Props.C74_get_line",
    "Hx.Props.C74_error_line",
    "Hx.Props.C74_waits",
    "Hx.Props.C74_queued",
    "Hx.Props.C74_getops",
    "Hx.Props.C74_flushes",
    "Hx.Props.C74_session",
    "Hx.Props.C74_gets_partial"
   ],
   "note": "Proved for all commands and values: nothing is sent or printed before a flush, each flush sends its kind, one line per result, signed integers and words can be read again, fractions up to the digits printed. A session whose turns end with FLUSH is a job of one rank, and the lines of the GETs of the last turn have the object of the latest PUT (C74_gets_partial, under the conditions of C48). False: unsigned numbers from 2^31 or 2^63 on are printed as negative ones; bytes behind a zero are not printed; small doubles are all printed as 0; GETOPs are only sent by FLUSH. Missing: MPI ranks other than 0, which only open and close, and what is missing in C48."
  },
  {
   "property": "C75",
   "status": "partial",
   "theorems": [
    "Hx.Props.C75_lowest_integers",
    "Hx.Props.C75_lowest_numbers",
    "Hx.Props.C75_exactly",
    "Hx.Props.C75_processed_integers",
    "Hx.Props.C75_processed_numbers",
    "Hx.Props.C75_highest_integers_false",
    "Hx.Props.C75_highest_numbers_false",
    "Hx.Props.C75_cells_partial",
    "Hx.Props.C75_cells_outside_ub",
    "Hx.Props.C75_cells_overlap_false",
    "Hx.Props.C75_program_partial"
   ],
   "note": "LOWEST proved for integers of all types and for floats and doubles that are 0 or moderate, for both backends and all histories of packets; things whose numbers are stored alike count once, since they share a key. False: HIGHEST always answers with nothing, since the search starts below all numbers and goes down. The example program: proved for square grids and grids of one row on any number of ranks; with more columns than rows it writes behind its array, with more rows than columns cells overwrite each other. Names and attribute must not be prefixes of each other and start above the sign symbols; in InMemory the attribute is at most 19 bytes long. The question is asked by the rank of the datastore: to another rank a null predicate cannot be sent (C08_null_predicate_ub)."
  },
  {
   "property": "C76",
   "status": "partial",
   "theorems": [
    "Hx.Props.C76_gets_partial",
    "Hx.Props.C76_partial",
    "Hx.Props.C76_runs_partial",
    "Hx.Props.C76_reported"
   ],
   "note": "Proved for all numbers of ranks, turns and operations and all choices of writes that fail. A GET that LevelDB fails to read is not in the model. A PUT that a transformation refuses is reported as successful by LevelDB and stores nothing (C14), so the theorem is about PUTs that are accepted. Flushes that overlap in time are C78. Missing: what is missing in C48 apart from failed writes."
  },
  {
   "property": "C77",
   "status": "partial",
   "theorems": [
    "Hx.Props.C77_turns",
    "Hx.Props.C77_defined",
    "Hx.Props.C77_completes",
    "Hx.Props.C77_runs",
    "Hx.Props.C77_gets_partial",
    "Hx.Props.C77_partial"
   ],
   "note": "Proved for all numbers of ranks, turns and operations, all interleavings of the two threads of all ranks and all choices of writes that fail: the range servers and results are those of a job without asynchronous PUTs, no step is undefined, and a turn can always be completed. Missing: turns with as many PUTs as the limit, for which FlushPuts is a data race (C32), more datastores than range servers (C32_more_datastores_ub), and as C76. Turns that overlap in time are C81."
  },
  {
   "property": "C78",
   "status": "partial",
   "theorems": [
    "Hx.Props.C78_gets_partial",
    "Hx.Props.C78_explained_partial",
    "Hx.Props.C78_partial",
    "Hx.Props.C78_reads_in_order",
    "Hx.Props.C78_told",
    "Hx.Props.C78_runs_partial",
    "Hx.Props.C78_mpi_partial",
    "Hx.Props.C78_thallium_partial",
    "Hx.Props.C78_mpi_reads_partial",
    "Hx.Props.C78_thallium_reads_partial"
   ],
   "note": "Proved for all numbers of flushes and operations, all orders in which the range servers execute the requests, and all choices of writes that fail; with MPI and Thallium for all interleavings of clients and listeners or handlers. What a rank is told by the results of its PUTs and DELETEs is what others see. GETOPs when writes fail are C79. Missing, as C55: layouts and hash functions of C48_two_datastores_false and C48_rank_hash_false, empty objects (C48_empty_object_ub). Asynchronous PUTs are C81."
  },
  {
   "property": "C79",
   "status": "partial",
   "theorems": [
    "Hx.Props.C79_partial",
    "Hx.Props.C79_runs_partial",
    "Hx.Props.C79_overlap_partial",
    "Hx.Props.C79_mpi_partial",
    "Hx.Props.C79_thallium_partial"
   ],
   "note": "Proved for all numbers of ranks, flushes and operations, both backends, all choices of writes that fail, for ranks that take turns, flushes that overlap, and all interleavings over MPI and Thallium: a GETOP has exactly the records getOpAnswer picks out of what reported success in the datastore. Missing: what is missing in C61 (FIRST and LAST on another rank that fail, records with an empty predicate), a LevelDB iterator that fails, and what is missing in C78."
  },
  {
   "property": "C80",
   "status": "partial",
   "theorems": [
    "Hx.Props.C80_names",
    "Hx.Props.C80_distinct",
    "Hx.Props.C80_short_buffer_false",
    "Hx.Props.C80_random",
    "Hx.Props.C80_phases",
    "Hx.Props.C80_mpi_partial",
    "Hx.Props.C80_thallium_partial"
   ],
   "note": "Proved for all numbers of ranks and triples, all interleavings over MPI and Thallium and all choices of writes that fail: names are distinct and fit, GETs before the flush of the PUTs find nothing, GETs afterwards find what the PUTs that reported success put, up to the digits stored (C59). Flushing GETs while PUTs are queued is the same as flushing GETs alone (C80_phases, for one rank at a time). False: a buffer as long as a name loses its last character, and a shorter one is read behind its end. Missing: asynchronous PUTs (C77, C81), doubles that C59 leaves out, and as C78."
  },
  {
   "property": "C81",
   "status": "partial",
   "theorems": [
    "Hx.Props.C81_overlap",
    "Hx.Props.C81_explained_partial",
    "Hx.Props.C81_getops_partial",
    "Hx.Props.C81_partial",
    "Hx.Props.C81_runs"
   ],
   "note": "Proved for all numbers of ranks, turns and operations, all interleavings of the two threads of all ranks with the execution of requests, and all choices of writes that fail: C81_overlap turns every execution into one of C78 and C79 without asynchronous PUTs, with the same requests and results, and keeps which turns ended before others began. The two threads of one rank take steps one at a time (that they do not send at once is C70), the transport is that of C55. Missing: turns with as many PUTs as the limit, for which FlushPuts is a data race (C32), more datastores than range servers (C32_more_datastores_ub), and what is missing in C78 and C79."
  },
  {
   "property": "C82",
   "status": "partial",
   "theorems": [
    "Hx.Props.C82_overlap_partial",
    "Hx.Props.C82_all_partial",
    "Hx.Props.C82_counted",
    "Hx.Props.C82_counts",
    "Hx.Props.C82_async_partial",
    "Hx.Props.C82_mpi_partial",
    "Hx.Props.C82_thallium_partial"
   ],
   "note": "Proved for all numbers of ranks, flushes and operations, all orders in which the range servers execute the requests, all choices of writes that fail, and with all interleavings of asynchronous PUTs below the limit (C81). Which numbers a request sees is stated by what the PUTs of each flush were told. Buckets and counts are those of C42. Missing: histograms that were read back from a datastore (C43), bucket generators that return an empty list of buckets. C82_mpi_partial and C82_thallium_partial are the same for what ranks make of the messages they receive; that such jobs finish is C57_finishes_partial and C63_finishes_partial."
  },
  {
   "property": "C83",
   "status": "partial",
   "theorems": [
    "Hx.Props.C83_gets_partial",
    "Hx.Props.C83_explained_partial",
    "Hx.Props.C83_in_order",
    "Hx.Props.C83_partial",
    "Hx.Props.C83_opens",
    "Hx.Props.C83_kept_partial",
    "Hx.Props.C83_memory",
    "Hx.Props.C83_one_rank",
    "Hx.Props.C83_hists",
    "Hx.Props.C83_other_number_false"
   ],
   "note": "Proved for all numbers of sessions, flushes and operations, all layouts with the same number of datastores, all orders in which the range servers execute the requests, and all choices of writes that fail. C83_other_number_false is a pair of sessions with three datastores and with one, where the second does not find what the first stored. Missing, as C78: layouts and hash functions of C48_two_datastores_false and C48_rank_hash_false, empty objects; after a session has written histograms (HistsApart): GETOPs, and GETs of pairs that are stored under the key of a histogram (C45_overwrites_false: such a pair is replaced); for the histograms themselves (C83_hists): first sessions that read histograms from sessions before; sessions that end without closing the datastores."
  },
  {
   "property": "C84",
   "status": "partial",
   "theorems": [
    "Hx.Props.C84_single",
    "Hx.Props.C84_bulk_get",
    "Hx.Props.C84_bulk_put_partial",
    "Hx.Props.C84_no_numbers_false",
    "Hx.Props.C84_bulk_getop_false",
    "Hx.Props.C84_operations",
    "Hx.Props.C84_calls",
    "Hx.Props.C84_turns_partial",
    "Hx.Props.C84_back_partial",
    "Hx.Props.C84_later_partial",
    "Hx.Props.C84_thallium_sessions",
    "Hx.Props.C84_one_rank"
   ],
   "note": "Proved for all numbers of ranks, flushes, sessions and operations, for numbers that are 0 or moderate and whose exponent is not lost (Kept, as C59). False: BPutFloat and BPutDouble of no numbers fail, though BPut of nothing succeeds; BGetOpFloat and BGetOpDouble never queue anything; without asynchronous PUTs the bulk PUT sends at once (C47_put_single_false), so C84_bulk_put_partial is for sessions with asynchronous PUTs and at least one number. Missing: other permutations than SPO in C84_calls, numbers C59 leaves out, and what is missing in C48, C78 and C83."
  },
  {
   "property": "C85",
   "status": "proved",
   "theorems": [
    "Hx.Props.C85_nano",
    "Hx.Props.C85_backwards_false",
    "Hx.Props.C85_adds",
    "Hx.Props.C85_sec",
    "Hx.Props.C85_chrono",
    "Hx.Props.C85_far_ub",
    "Hx.Props.C85_line",
    "Hx.Props.C85_line_back",
    "Hx.Props.C85_total",
    "Hx.Props.C85_puts",
    "Hx.Props.C85_duration",
    "Hx.Props.C85_rate",
    "Hx.Props.C85_rate_zero_false"
   ],
   "note": "Proved for all times in order. Outside of the statement: a time before the other gives a number near 2^64 (C85_backwards_false), points of the steady clock 2^63 nanoseconds apart overflow (C85_far_ub), no time at all gives inf or nan as rate (C85_rate_zero_false). puts.c divides with the precision of a double (C85_puts)."
  },
  {
   "property": "C86",
   "status": "partial",
   "theorems": [
    "Hx.Props.C86_queued",
    "Hx.Props.C86_zero_ub",
    "Hx.Props.C86_thallium",
    "Hx.Props.C86_thallium_all",
    "Hx.Props.C86_local",
    "Hx.Props.C86_local_false",
    "Hx.Props.C86_mpi_false",
    "Hx.Props.C86_more_ub",
    "Hx.Props.C86_event",
    "Hx.Props.C86_event_false"
   ],
   "note": "Queueing, and requests through Thallium: proved for all operations and packets. False on the rank itself, where the steal functions of the responses do not call that of Message (C86_local_false), and through MPI, where nothing moves the stamps (C86_mpi_false): every such result has stamps that were never set, and what is printed for it is a number near 2^64 (C86_event_false). The answers themselves are handed on by the local range server, in order and without a copy left behind (C86_local), if there are no more than operations (C86_more_ub). Missing: stamps of the transport, digits of the seconds in what is printed."
  },
  {
   "property": "C87",
   "status": "partial",
   "theorems": [
    "Hx.Props.C87_once",
    "Hx.Props.C87_own",
    "Hx.Props.C87_guest",
    "Hx.Props.C87_unused",
    "Hx.Props.C87_threads_false",
    "Hx.Props.C87_ub",
    "Hx.Props.C87_endpoint",
    "Hx.Props.C87_endpoint_values",
    "Hx.Props.C87_epoch"
   ],
   "note": "Proved for programs that leave MPI to the instance with a library that has MPI_THREAD_MULTIPLE, and for programs that initialise and finalise MPI around the first use. False for a library without that level: MPI is initialised and never finalised, and the instance has rank 0 of 0 (C87_threads_false). Undefined: a program that finalises the MPI of the instance, initialises MPI after a use, or uses the instance for the first time after MPI was finalised (C87_ub). Missing: threads that make their first sessions at the same time."
  },
  {
   "property": "C88",
   "status": "partial",
   "theorems": [
    "Hx.Props.C88_once_partial",
    "Hx.Props.C88_safe_partial",
    "Hx.Props.C88_mpi_false"
   ],
   "note": "Proved for all numbers of messages, all kinds, all numbers of operations in each, and all orders of single operations on blobs that keep the order of each message; C88_safe_partial for messages that take different transports. False in full, as C46 and C54 are: range servers of the MPI transport lose buffers (C88_mpi_false), and GETOPs that return no record or cannot be decoded are left out. Missing: those GETOPs, races inside an operation on a blob."
  },
  {
   "property": "C89",
   "status": "partial",
   "theorems": [
    "Hx.Props.C89_process_partial",
    "Hx.Props.C89_two_datastores_false",
    "Hx.Props.C89_again_partial",
    "Hx.Props.C89_close_partial",
    "Hx.Props.C89_thallium",
    "Hx.Props.C89_mpi",
    "Hx.Props.C89_mpi_false",
    "Hx.Props.C89_mpi_ub"
   ],
   "note": "Flushes: proved for all queues, all numbers of rounds and whatever the transport returns, if no two datastores are on the same other rank; false otherwise, the request that is overwritten in the map is neither sent nor destructed (C89_two_datastores_false). Closing a session with requests queued: proved for all orders in which the two threads get at the queue of PUTs, under the same condition (C89_close_partial). Range servers of Thallium: proved for all sequences of packets, requests or not. False for those of MPI, which lose the arrays of two messages with each request (C89_mpi, C89_mpi_false); a packet that is no request is undefined there, since the result of unpacking is not looked at (C89_mpi_ub). Messages that Thallium and MPI construct for responses are C91. Results are C90."
  },
  {
   "property": "C90",
   "status": "partial",
   "theorems": [
    "Hx.Props.C90_kept",
    "Hx.Props.C90_closed",
    "Hx.Props.C90_after_close",
    "Hx.Props.C90_c_after_close_ub",
    "Hx.Props.C90_puts",
    "Hx.Props.C90_flush",
    "Hx.Props.C90_sync",
    "Hx.Props.C90_handed_over_false"
   ],
   "note": "Proved for all sequences of flushes, syncs, rounds of the thread or PUTs sent at once, and destructions of lists, with and without a background thread, through both interfaces. With a background thread FlushPuts, Flush and Sync give the user what the session has kept and the new results, in this order, in a new list, and change no other (C90_puts, C90_flush, C90_sync). Undefined: hxhim_results_destroy after the session was closed, which reads hx->p (C90_c_after_close_ub); the C++ interface allows it (C90_after_close). Without a background thread the user never gets the results of PUTs that were sent at once; they are destructed when the session is closed (C90_handed_over_false). Missing: GETOPs that return no record, whose result is destructed and then added (C54_getop_empty_false), the data race of FlushPuts with the thread (C32), programs built with PRINT_TIMESTAMPS."
  },
  {
   "property": "C91",
   "status": "partial",
   "theorems": [
    "Hx.Props.C91_partial",
    "Hx.Props.C91_debug_ub",
    "Hx.Props.C91_false",
    "Hx.Props.C91_mpi"
   ],
   "note": "Proved for all rounds if output of level THALLIUM_DBG is off or no request fails. False otherwise: process_requests reads response->src for the log before it looks whether there is a response, so every round with a request that has no endpoint, cannot be packed, or whose response cannot be unpacked is undefined (C91_debug_ub); the default level of hxhim_private is MLOG_DBG3, at which the argument is evaluated (MLOG_DBG has the bit of MLOG_DBG3). Over MPI (C91_mpi) what was received is unpacked and linked without that error, for all combinations; that calls of MPI succeed and the session is not stopped meanwhile is assumed. Missing: range servers that do not answer, exceptions of Thallium."
  },
  {
   "property": "C92",
   "status": "partial",
   "theorems": [
    "Hx.Props.C92_leaked",
    "Hx.Props.C92_partial",
    "Hx.Props.C92_false"
   ],
   "note": "False: a send that cannot be started deallocates the object at the index of the message instead of the one at the counter; the two differ once an earlier message was not sent, and then the object is leaked (C92_false). Proved for all combinations and all orders in which sends complete: no undefined behaviour, the number returned, and exactly which objects are leaked (C92_leaked); every object is deallocated exactly once if every range server has a rank and at most one send fails (C92_partial). Missing: buffers of sends that are not complete when the session is stopped."
  },
  {
   "property": "C93",
   "status": "partial",
   "theorems": [
    "Hx.Props.C93_buffers_partial",
    "Hx.Props.C93_partial",
    "Hx.Props.C93_length_false",
    "Hx.Props.C93_server_false"
   ],
   "note": "False: if the data of one server cannot be received, the buffers after it move up and are unpacked with the lengths of other servers, which can be more than was allocated (C93_length_false); if a length cannot be received, its data is received nevertheless with the length of a request, and the last server is left out (C93_server_false). Proved for all rounds in which every length can be received and no data after data that cannot (C93_partial), and for the buffers if every length can be received (C93_buffers_partial). Missing: sessions that are stopped meanwhile."
  },
  {
   "property": "C94",
   "status": "partial",
   "theorems": [
    "Hx.Props.C94_abandoned",
    "Hx.Props.C94_partial",
    "Hx.Props.C94_false"
   ],
   "note": "False: recv allocates the buffer before the request is received, and if that fails or the session is stopped meanwhile the listener goes on without deallocating it (C94_false). Proved for all turns: no undefined behaviour, and exactly those buffers are left (C94_abandoned); every buffer is deallocated exactly once if every request is received the length of which was (C94_partial). Missing: buffers that MPI still uses when the session is stopped."
  }
 ]
}