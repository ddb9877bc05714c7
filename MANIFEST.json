{
 "claims": [
  {
   "property": "C01",
   "status": "proved",
   "theorems": [
    "Svm.Storage.C01_read_after_write",
    "Svm.Storage.C01_read_after_write_keys"
   ],
   "note": "Every history, every key and value."
  },
  {
   "property": "C02",
   "status": "proved",
   "theorems": [
    "Svm.Storage.C02_refines_layered_map"
   ],
   "note": "Observational refinement of an abstract stack of snapshots, all crash-free histories with rewinds to existing layers >= -2."
  },
  {
   "property": "C03",
   "status": "proved",
   "theorems": [
    "Svm.Storage.C03_historical_reads_stable"
   ],
   "note": ""
  },
  {
   "property": "C04",
   "status": "proved",
   "theorems": [
    "Svm.Storage.C04_rewind_restores",
    "Svm.Storage.C04_rewind_same_future"
   ],
   "note": "Full state equality with the state right after the commit."
  },
  {
   "property": "C05",
   "status": "proved",
   "theorems": [
    "Svm.Storage.C05_rollback_discards",
    "Svm.Storage.C05_rollback_keeps_checkpoint"
   ],
   "note": ""
  },
  {
   "property": "C06",
   "status": "proved",
   "theorems": [
    "Svm.Storage.C06_dirty_refused",
    "Svm.Storage.C06_flag_after_write"
   ],
   "note": ""
  },
  {
   "property": "C07",
   "status": "proved",
   "theorems": [
    "Svm.Storage.C07_commit_consecutive",
    "Svm.Storage.C07_numbers"
   ],
   "note": ""
  },
  {
   "property": "C08",
   "status": "partial",
   "theorems": [
    "Svm.Storage.C08_crash_invisible_false",
    "Svm.Storage.C08_crash_cleanup_partial"
   ],
   "note": "The code violates the claim (read query does not join values to layers); negation proved for every hash function. Proved part: rows of complete layers are intact at every crash point and the cleanup statement restores all reads."
  },
  {
   "property": "C09",
   "status": "partial",
   "theorems": [
    "Svm.Storage.C09_reopen_restores_false",
    "Svm.Storage.C09_reopen_always_fails",
    "Svm.Storage.C09_reopen_after_crash_fails",
    "Svm.Storage.C09_reopen_keeps_data_partial"
   ],
   "note": "The code violates the claim: re-opening any database fails. Proved part: the failing open does not change the database; a new database opens."
  },
  {
   "property": "C10",
   "status": "partial",
   "theorems": [
    "Svm.Storage.C10_fingerprint_depends_on_data_false",
    "Svm.Storage.C10_fingerprint_is_constant",
    "Svm.Storage.C10_consecutive_fingerprints_differ_partial"
   ],
   "note": "The code violates the claim: the fingerprint is a function of the layer number only."
  },
  {
   "property": "C11",
   "status": "proved",
   "theorems": [
    "Svm.Storage.C11_order_independent"
   ],
   "note": ""
  },
  {
   "property": "C12",
   "status": "partial",
   "theorems": [
    "Svm.Storage.GlobalState.C12_panic_leaves_usable_false",
    "Svm.Storage.GlobalState.C12_poisoned_forever",
    "Svm.Storage.GlobalState.C12_future_layer_poisons",
    "Svm.Storage.GlobalState.C12_no_poison_without_panic_partial",
    "Svm.Storage.GlobalState.C12_current_layer_after_genesis"
   ],
   "note": "The code violates the claim: a panic under the lock poisons it for ever."
  },
  {
   "property": "C13",
   "status": "proved",
   "theorems": [
    "Svm.Layout.C13_layout_ranges"
   ],
   "note": "Guard: variable ids and the total size fit in 32 bits (otherwise debug builds panic and release builds wrap)."
  },
  {
   "property": "C14",
   "status": "proved",
   "theorems": [
    "Svm.Account.C14_segments_cover"
   ],
   "note": ""
  },
  {
   "property": "C15",
   "status": "proved",
   "theorems": [
    "Svm.Account.C15_read_after_write",
    "Svm.Account.C15_read_after_write_vec",
    "Svm.Account.load_layoutOk",
    "Svm.Account.exists_noCollision"
   ],
   "note": "Every reachable state; layouts as produced by the template decoder; hash without collisions between keys (existence proved)."
  },
  {
   "property": "C16",
   "status": "proved",
   "theorems": [
    "Svm.Account.C16_isolation"
   ],
   "note": "Also for writes that fail part way."
  },
  {
   "property": "C17",
   "status": "proved",
   "theorems": [
    "Svm.Account.C17_keys_injective"
   ],
   "note": ""
  },
  {
   "property": "C18",
   "status": "proved",
   "theorems": [
    "Svm.Account.C18_create",
    "Svm.Account.C18_create_ok_iff",
    "Svm.Account.C18_createStub",
    "Svm.Account.C18_set_balance",
    "Svm.Account.C18_set_counter"
   ],
   "note": ""
  },
  {
   "property": "C19",
   "status": "proved",
   "theorems": [
    "Svm.Runtime.C19_roundtrip32",
    "Svm.Runtime.C19_roundtrip64",
    "Svm.Runtime.C19_storage"
   ],
   "note": "Variables of at least one byte (zero sized ones panic, see C67); every reachable state, layouts as produced by the template decoder."
  },
  {
   "property": "C20",
   "status": "proved",
   "theorems": [
    "Svm.Runtime.C20_transfer_conserves",
    "Svm.Runtime.C20_host_transfer_conserves"
   ],
   "note": "Both for Runtime::transfer and for the host call svm_transfer."
  },
  {
   "property": "C21",
   "status": "partial",
   "theorems": [
    "Svm.Runtime.C21_claim_false",
    "Svm.Runtime.C21_self_transfer_mints",
    "Svm.Runtime.C21_distinct_partial",
    "Svm.Runtime.C21_host_distinct_partial"
   ],
   "note": "The code violates the claim: a transfer to oneself adds the amount. Proved for different accounts, for every outcome."
  },
  {
   "property": "C22",
   "status": "partial",
   "theorems": [
    "Svm.Runtime.C22_claim_false",
    "Svm.Runtime.C22_overflow_debits",
    "Svm.Runtime.C22_all_or_nothing_partial"
   ],
   "note": "The code violates the claim: when the destination overflows, the source has been debited. Proved in all other cases."
  },
  {
   "property": "C23",
   "status": "partial",
   "theorems": [
    "Svm.Runtime.C23_claim_false",
    "Svm.Runtime.C23_spends_any_account",
    "Svm.Runtime.C23_only_source_partial"
   ],
   "note": "The code violates the claim: the source is read from memory and not checked. Proved part: nobody else than that source loses money."
  },
  {
   "property": "C24",
   "status": "proved",
   "theorems": [
    "Svm.Runtime.C24_denied",
    "Svm.Runtime.C24_denied_call",
    "Svm.Runtime.C24_alloc"
   ],
   "note": "All programs as arbitrary interactions with the host functions."
  },
  {
   "property": "C25",
   "status": "proved",
   "theorems": [
    "Svm.Runtime.C25_call_receipt",
    "Svm.Runtime.C25_spawn_receipt",
    "Svm.Runtime.C25_touched",
    "Svm.Runtime.C25_start",
    "Svm.Runtime.C25_touched_exec"
   ],
   "note": ""
  },
  {
   "property": "C26",
   "status": "partial",
   "theorems": [
    "Svm.Runtime.C26_claim_false",
    "Svm.Runtime.C26_published_later",
    "Svm.Runtime.C26_rollback_partial"
   ],
   "note": "The code violates the claim: the runtime never rolls back, so the writes of a failed call are published by the next commit. Proved: always so for every failed call, and a rollback after the failure would restore every read."
  },
  {
   "property": "C27",
   "status": "proved",
   "theorems": [
    "Svm.Runtime.C27_one_layer"
   ],
   "note": ""
  },
  {
   "property": "C28",
   "status": "proved",
   "theorems": [
    "Svm.Runtime.C28_verify_pure"
   ],
   "note": ""
  },
  {
   "property": "C29",
   "status": "partial",
   "theorems": [
    "Svm.Runtime.C29_claim_false",
    "Svm.Runtime.C29_never_succeeds",
    "Svm.Runtime.C29_return_panics",
    "Svm.Runtime.C29_typed_not_run",
    "Svm.Runtime.C29_failure_partial"
   ],
   "note": "The code violates the claim: verification never returns a success receipt."
  },
  {
   "property": "C30",
   "status": "proved",
   "theorems": [
    "Svm.Runtime.C30_spawn_non_ctor",
    "Svm.Runtime.C30_call_ctor"
   ],
   "note": ""
  },
  {
   "property": "C31",
   "status": "partial",
   "theorems": [
    "Svm.Runtime.C31_claim_false",
    "Svm.Runtime.C31_two_spawns",
    "Svm.Runtime.C31_same_address",
    "Svm.Runtime.C31_free_address_partial"
   ],
   "note": "The code violates the claim: the address depends on the template only, so the second account of a template replaces the first. Proved: no other account is overwritten."
  },
  {
   "property": "C32",
   "status": "partial",
   "theorems": [
    "Svm.Runtime.C32_unchanged_partial",
    "Svm.Runtime.C32_claim_false",
    "Svm.Runtime.C32_two_deploys",
    "Svm.Runtime.C32_same_code",
    "Svm.Runtime.C32_other_addresses_partial"
   ],
   "note": "The code violates the claim: the address depends on the code only. Proved: templates at other addresses are unchanged."
  },
  {
   "property": "C33",
   "status": "partial",
   "theorems": [
    "Svm.Runtime.C33_claim_false",
    "Svm.Runtime.C33_panics",
    "Svm.Runtime.C33_deploy_partial"
   ],
   "note": "The code violates the claim: it panics without a code section, with 255 constructors and with 65535 variables. Proved for all other messages."
  },
  {
   "property": "C34",
   "status": "proved",
   "theorems": [
    "Svm.Runtime.C34_spawn_gas"
   ],
   "note": "Whenever the price of the constructor is defined; also the converse."
  },
  {
   "property": "C35",
   "status": "proved",
   "theorems": [
    "Svm.Runtime.C35_consume",
    "Svm.Runtime.C35_empty_stays"
   ],
   "note": ""
  },
  {
   "property": "C36",
   "status": "partial",
   "theorems": [
    "Svm.Runtime.C36_release_false",
    "Svm.Runtime.C36_checked_build",
    "Svm.Runtime.C36_release_partial"
   ],
   "note": "Holds for builds with overflow checks; in release builds the addition wraps silently."
  },
  {
   "property": "C37",
   "status": "partial",
   "theorems": [
    "Svm.Codec.C37_lossless_false",
    "Svm.Codec.C37_zero_gas_becomes_unlimited",
    "Svm.Codec.C37_envelope_lossless_partial"
   ],
   "note": "The code violates the claim for gas limit 0 (decodes as no limit). Proved for all other envelopes, and the 60 byte length for all."
  },
  {
   "property": "C38",
   "status": "proved",
   "theorems": [
    "Svm.Codec.C38_transaction_lossless"
   ],
   "note": ""
  },
  {
   "property": "C39",
   "status": "proved",
   "theorems": [
    "Svm.Codec.C39_spawn_context_lossless"
   ],
   "note": ""
  },
  {
   "property": "C40",
   "status": "partial",
   "theorems": [
    "Svm.Codec.C40_unambiguous_false",
    "Svm.Codec.C40_unambiguous_partial"
   ],
   "note": "Envelopes with gas 0 and with no gas collide; all other messages are unambiguous and prefix free."
  },
  {
   "property": "C41",
   "status": "proved",
   "theorems": [
    "Svm.Codec.C41_decode_untrusted"
   ],
   "note": ""
  },
  {
   "property": "C42",
   "status": "partial",
   "theorems": [
    "Svm.Codec.C42_no_panic_false",
    "Svm.Codec.C42_schema_panics",
    "Svm.Codec.C42_code_panics_iff",
    "Svm.Codec.C42_layout_panics_iff",
    "Svm.Codec.C42_no_panic_partial"
   ],
   "note": "The code violates the claim: three exactly characterised panics."
  },
  {
   "property": "C43",
   "status": "partial",
   "theorems": [
    "Svm.Codec.C43_lossless_false",
    "Svm.Codec.C43_layout_lossless_iff",
    "Svm.Codec.C43_default_layout_changes",
    "Svm.Codec.C43_encodes_iff",
    "Svm.Codec.C43_lossless_partial"
   ],
   "note": "The code violates the claim for layouts whose first id is not representable in the encoding; exact characterisation."
  },
  {
   "property": "C44",
   "status": "proved",
   "theorems": [
    "Svm.Codec.C44_selective_decode"
   ],
   "note": ""
  },
  {
   "property": "C45",
   "status": "partial",
   "theorems": [
    "Svm.Codec.C45_lossless_false",
    "Svm.Codec.C45_lossless_partial",
    "Svm.Codec.C45_encodes_iff"
   ],
   "note": "Receipts with gas Some(0) decode with gas None; all others are lossless for every set iteration order."
  },
  {
   "property": "C46",
   "status": "partial",
   "theorems": [
    "Svm.Codec.C46_lossless_false",
    "Svm.Codec.C46_deploy_drops_logs",
    "Svm.Codec.C46_long_message_cut",
    "Svm.Codec.C46_long_message_panics",
    "Svm.Codec.C46_encodes_iff",
    "Svm.Codec.C46_lossless_partial"
   ],
   "note": "The code violates the claim: failed deploys lose their logs, long messages are cut or make the encoder panic."
  },
  {
   "property": "C47",
   "status": "partial",
   "theorems": [
    "Svm.Wasm.C47_claim_false",
    "Svm.Wasm.C47_no_floats_partial"
   ],
   "note": "The code violates the claim: ten instructions that convert or reinterpret floating point numbers as integers are missing from the list. Proved: those are the only ones."
  },
  {
   "property": "C48",
   "status": "partial",
   "theorems": [
    "Svm.Wasm.C48_claim_false",
    "Svm.Wasm.C48_accepts_iff",
    "Svm.Wasm.C48_sound",
    "Svm.Wasm.C48_accepts_iff_partial"
   ],
   "note": "Accepted programs have no loops, indirect calls or recursion. The converse fails only for calls of functions with an index above 65535; the exact condition is proved."
  },
  {
   "property": "C49",
   "status": "proved",
   "theorems": [
    "Svm.Gas.C49_topological_sort",
    "Svm.Gas.C49_self_loop"
   ],
   "note": "Any sequence of node and edge insertions without self loops; the sort never crashes."
  },
  {
   "property": "C50",
   "status": "partial",
   "theorems": [
    "Svm.Gas.C50_claim_false",
    "Svm.Gas.C50_report",
    "Svm.Gas.C50_cycle_partial",
    "Svm.Wasm.C50_program"
   ],
   "note": "The code violates the claim: the report may start with functions that are not on the cycle, or be empty (debug builds panic). The exact behaviour is proved for every graph and every program, and the claim when every cycle reachable from the first candidate passes through it."
  },
  {
   "property": "C51",
   "status": "proved",
   "theorems": [
    "Svm.Wasm.C51_terminates"
   ],
   "note": "Executions of structured code with arbitrary conditions, branch indices and traps; the length is bounded by a function of the program size."
  },
  {
   "property": "C52",
   "status": "partial",
   "theorems": [
    "Svm.Wasm.C52_claim_false",
    "Svm.Wasm.C52_bounds_checked",
    "Svm.Wasm.C52_bounds_partial"
   ],
   "note": "Holds in builds with overflow checks, and in every build when the prices are below 2^64; release builds wrap, so a program that costs 2^64 gets the price 0."
  },
  {
   "property": "C53",
   "status": "partial",
   "theorems": [
    "Svm.Gas.C53_claim_false",
    "Svm.Gas.C53_max_path_checked",
    "Svm.Gas.C53_max_path_partial",
    "Svm.Gas.C53_succeeds_iff"
   ],
   "note": "Proved for all graphs in builds with overflow checks, and in every build when path weights fit in 64 bits; release builds wrap otherwise. Also proved exactly when the computation panics on unreachable nodes."
  },
  {
   "property": "C54",
   "status": "partial",
   "theorems": [
    "Svm.Wasm.C54_claim_false",
    "Svm.Wasm.C54_crashes",
    "Svm.Wasm.C54_release_iff",
    "Svm.Wasm.C54_succeeds_partial",
    "Svm.Wasm.clear_iff"
   ],
   "note": "The code violates the claim: a function in which both arms of a conditional return crashes the pricing, as do other kinds of dead code. Proved exactly which programs crash (in release builds; with overflow checks also when the sums do not fit in 64 bits)."
  },
  {
   "property": "C55",
   "status": "partial",
   "theorems": [
    "Svm.Wasm.C55_claim_false",
    "Svm.Wasm.C55_exact_checked",
    "Svm.Wasm.C55_exact_partial",
    "Svm.Wasm.prices_exist",
    "Svm.Wasm.prices_unique"
   ],
   "note": "The code violates the claim in release builds: a function that costs 2^64 gets the price 0. Exact in builds with overflow checks, and in every build when the prices are below 2^64."
  },
  {
   "property": "C56",
   "status": "partial",
   "theorems": [
    "Svm.Gas.C56_claim_false",
    "Svm.Gas.C56_release_wraps",
    "Svm.Gas.C56_alternative",
    "Svm.Gas.C56_sequence_checked",
    "Svm.Gas.C56_sequence_partial"
   ],
   "note": "The sequence of two ranges wraps in release builds; with overflow checks, or when the sums fit in 64 bits, both operations are sound and tight."
  },
  {
   "property": "C57",
   "status": "proved",
   "theorems": [
    "Svm.Runtime.C57_cached_prices"
   ],
   "note": "Each template address stands for one code (addresses are hashes of the code)."
  },
  {
   "property": "C58",
   "status": "partial",
   "theorems": [
    "Svm.Abi.C58_claim_false",
    "Svm.Abi.C58_eight",
    "Svm.Abi.C58_roundtrip_partial"
   ],
   "note": "The code violates the claim: the decoder uses the marker byte of an array as the capacity of its vector, which is 7 for an array of eight, so reading any array of eight items panics. Every other sequence round trips."
  },
  {
   "property": "C59",
   "status": "partial",
   "theorems": [
    "Svm.Abi.C59_claim_false",
    "Svm.Abi.C59_array_panics",
    "Svm.Abi.C59_size_partial",
    "Svm.Abi.C59_max",
    "Svm.Abi.C59_encodes"
   ],
   "note": "The code violates the claim: byte_size of every array reads one item too many and panics. Exact for all other values; the bound by the maximum holds for all."
  },
  {
   "property": "C60",
   "status": "partial",
   "theorems": [
    "Svm.Abi.C60_claim_false",
    "Svm.Abi.C60_accepted",
    "Svm.Abi.C60_decodes_partial",
    "Svm.Abi.C60_nested"
   ],
   "note": "The code violates the claim: nested arrays and arrays of eight are encoded but make the decoder panic. Proved exactly which values are accepted and which come back."
  },
  {
   "property": "C61",
   "status": "proved",
   "theorems": [
    "Svm.Sdk.C61_list",
    "Svm.Sdk.C61_raw_parts",
    "Svm.Sdk.C61_into_iter"
   ],
   "note": "Vectors made with with_capacity, and with from_raw_parts on initialized memory."
  },
  {
   "property": "C62",
   "status": "proved",
   "theorems": [
    "Svm.Sdk.C62_to_string",
    "Svm.Sdk.C62_unique",
    "Svm.Sdk.C62_push_str"
   ],
   "note": ""
  },
  {
   "property": "C63",
   "status": "partial",
   "theorems": [
    "Svm.Sdk.C63_claim_false",
    "Svm.Sdk.C63_checked",
    "Svm.Sdk.C63_partial",
    "Svm.Sdk.C63_truncated"
   ],
   "note": "Holds in builds with overflow checks, and for structs with less than 2^32 cells in every build. Missing: release builds wrap the ids of larger structs."
  },
  {
   "property": "C64",
   "status": "partial",
   "theorems": [
    "Svm.Runtime.C64_claim_false",
    "Svm.Runtime.C64_overlap",
    "Svm.Runtime.C64_regions_partial"
   ],
   "note": "The code violates the claim: it returns the end of the region. The regions ending at the returned addresses are disjoint and inside the memory (below 4 GiB)."
  },
  {
   "property": "C65",
   "status": "proved",
   "theorems": [
    "Svm.Ffi.C65_accepted",
    "Svm.Ffi.C65_destroy",
    "Svm.Ffi.C65_once",
    "Svm.Ffi.C65_count"
   ],
   "note": ""
  },
  {
   "property": "C66",
   "status": "proved",
   "theorems": [
    "Svm.Ffi.C66_result",
    "Svm.Ffi.C66_pointer",
    "Svm.Ffi.C66_argument",
    "Svm.Ffi.C66_call",
    "Svm.Ffi.C66_header"
   ],
   "note": ""
  },
  {
   "property": "C67",
   "status": "partial",
   "theorems": [
    "Svm.Account.C67_claim_false",
    "Svm.Account.C67_zero_size_read",
    "Svm.Account.C67_zero_size_write"
   ],
   "note": "The code violates the claim; the exact cases in which it panics are proved."
  },
  {
   "property": "C68",
   "status": "proved",
   "theorems": [
    "Svm.Runtime.C68_call_isolation"
   ],
   "note": ""
  },
  {
   "property": "C69",
   "status": "proved",
   "theorems": [
    "Svm.Runtime.C69_spawn_isolation"
   ],
   "note": ""
  },
  {
   "property": "C70",
   "status": "proved",
   "theorems": [
    "Svm.Codec.C70_stored_sections"
   ],
   "note": ""
  },
  {
   "property": "C71",
   "status": "partial",
   "theorems": [
    "Svm.Wasm.C71_claim_false",
    "Svm.Wasm.C71_panics_iff",
    "Svm.Wasm.C71_no_crash_partial"
   ],
   "note": "The code violates the claim: exporting an imported function as svm_alloc crashes. Proved exactly when it crashes."
  },
  {
   "property": "C72",
   "status": "proved",
   "theorems": [
    "Svm.Wasm.C72_required_exports"
   ],
   "note": ""
  },
  {
   "property": "C73",
   "status": "partial",
   "theorems": [
    "Svm.Wasm.C73_claim_false",
    "Svm.Wasm.C73_any_count",
    "Svm.Wasm.C73_function_count_partial"
   ],
   "note": "The code violates the documented bound: each kind is limited to 65535 separately."
  },
  {
   "property": "C74",
   "status": "partial",
   "theorems": [
    "Svm.Abi.C74_claim_false",
    "Svm.Abi.C74_eight",
    "Svm.Abi.C74_roundtrip_partial",
    "Svm.Abi.C74_no_confusion"
   ],
   "note": "Fails for arrays of exactly eight items only."
  },
  {
   "property": "C75",
   "status": "partial",
   "theorems": [
    "Svm.Abi.C75_claim_false",
    "Svm.Abi.C75_padded",
    "Svm.Abi.C75_decode_partial",
    "Svm.Abi.C75_end"
   ],
   "note": "The code violates the claim: numbers with leading zero bytes are accepted, so every short integer has a second encoding. Proved that what is consumed is a prefix at least as long as the encoding of the value."
  },
  {
   "property": "C76",
   "status": "partial",
   "theorems": [
    "Svm.Sdk.C76_claim_false",
    "Svm.Sdk.C76_checked",
    "Svm.Sdk.C76_deployed_partial",
    "Svm.Sdk.C76_wraps"
   ],
   "note": "Holds when the CLI has overflow checks, and for structs of less than 4 GiB; release builds wrap the offsets otherwise."
  },
  {
   "property": "C77",
   "status": "proved",
   "theorems": [
    "Svm.Sdk.C77_roundtrip",
    "Svm.Sdk.C77_isolation",
    "Svm.Sdk.C77_out_of_range",
    "Svm.Sdk.C77_zero"
   ],
   "note": ""
  },
  {
   "property": "C78",
   "status": "partial",
   "theorems": [
    "Svm.Sdk.C78_claim_false",
    "Svm.Sdk.C78_overwritten",
    "Svm.Sdk.C78_stays_partial"
   ],
   "note": "The code violates the claim: static_alloc returns the end of the region it reserves, so after less than 20 bytes are allocated they overlap with the address. Proved for further reads and for allocations of 20 bytes and more."
  },
  {
   "property": "C79",
   "status": "partial",
   "theorems": [
    "Svm.Ffi.C79_claim_false",
    "Svm.Ffi.C79_disabled",
    "Svm.Ffi.C79_creates_partial"
   ],
   "note": "The code violates the claim: a panic while a runtime is created poisons the mutex of the initialisation flag; later creations always fail. Proved when no creation has failed that way before."
  },
  {
   "property": "C80",
   "status": "partial",
   "theorems": [
    "Svm.Ffi.C80_claim_false",
    "Svm.Ffi.C80_leaks"
   ],
   "note": "The code violates the claim: no runtime is ever freed."
  },
  {
   "property": "C81",
   "status": "partial",
   "theorems": [
    "Svm.Ffi.C81_claim_false",
    "Svm.Ffi.C81_null",
    "Svm.Ffi.C81_unwrap",
    "Svm.Ffi.C81_drop_partial",
    "Svm.Ffi.C81_bytes",
    "Svm.Ffi.C81_ok"
   ],
   "note": "The code violates the claim: dropping a nonempty result also releases a null pointer, and unwrap releases the receipt it returns. Proved that the own buffer is released exactly once."
  },
  {
   "property": "C82",
   "status": "partial",
   "theorems": [
    "Svm.Ffi.C82_claim_false",
    "Svm.Ffi.C82_address",
    "Svm.Ffi.C82_reports_partial",
    "Svm.Ffi.C82_genesis"
   ],
   "note": "The code violates the claim: the address field is never written. All other fields are exact."
  },
  {
   "property": "C83",
   "status": "partial",
   "theorems": [
    "Svm.Ffi.C83_claim_false",
    "Svm.Ffi.C83_zero_gas",
    "Svm.Ffi.C83_action_partial",
    "Svm.Ffi.C83_total",
    "Svm.Ffi.C83_unknown"
   ],
   "note": "The code violates the claim for gas limit zero, which becomes no limit; proved for all other envelopes."
  },
  {
   "property": "C84",
   "status": "partial",
   "theorems": [
    "Svm.JsonApi.C84_claim_false",
    "Svm.JsonApi.C84_decode",
    "Svm.JsonApi.C84_roundtrip_partial",
    "Svm.JsonApi.C84_empty"
   ],
   "note": "The code violates the claim: arrays of eight items and nested arrays make the decoder panic, empty arrays come back with the type null, which is refused when encoded again. Proved for all other items, with the exact outcome for each kind."
  },
  {
   "property": "C85",
   "status": "partial",
   "theorems": [
    "Svm.JsonApi.C85_claim_false",
    "Svm.JsonApi.C85_encode_partial",
    "Svm.JsonApi.C85_panics"
   ],
   "note": "The code violates the claim: an item that does not have its declared type makes the encoder panic. Success is characterised exactly."
  },
  {
   "property": "C86",
   "status": "partial",
   "theorems": [
    "Svm.JsonApi.C86_claim_false",
    "Svm.JsonApi.C86_reencode_partial",
    "Svm.JsonApi.C86_shown",
    "Svm.JsonApi.C86_empty"
   ],
   "note": "The code violates the claim for arrays that are empty or mix types; proved for all others. Which bytes can be shown is characterised exactly."
  },
  {
   "property": "C87",
   "status": "partial",
   "theorems": [
    "Svm.JsonApi.C87_claim_false",
    "Svm.JsonApi.C87_roundtrip_partial",
    "Svm.JsonApi.C87_mismatch"
   ],
   "note": "The code violates the claim: types or items in excess are dropped silently. Proved for input data given as objects with as many items as types and plain items."
  },
  {
   "property": "C88",
   "status": "partial",
   "theorems": [
    "Svm.JsonApi.C88_claim_false",
    "Svm.JsonApi.C88_call_partial",
    "Svm.JsonApi.C88_spawn_partial",
    "Svm.JsonApi.C88_empty_array"
   ],
   "note": "The code violates the claim: bytes that are no spawn, and input data that cannot be shown, make the decoders panic. The outcome is characterised for all bytes."
  },
  {
   "property": "C89",
   "status": "partial",
   "theorems": [
    "Svm.JsonApi.C89_claim_false",
    "Svm.JsonApi.C89_gas",
    "Svm.JsonApi.C89_faithful_partial",
    "Svm.JsonApi.C89_failure"
   ],
   "note": "The code violates the claim: gas of 2^63 or more is shown as a negative number, the greatest as the -1 of no gas. Proved for smaller gas, and for failures."
  },
  {
   "property": "C90",
   "status": "partial",
   "theorems": [
    "Svm.JsonApi.C90_claim_false",
    "Svm.JsonApi.C90_zero_gas",
    "Svm.JsonApi.C90_shown_partial",
    "Svm.JsonApi.C90_failure"
   ],
   "note": "The code violates the claim: a log that is not UTF-8 makes the decoder panic, and zero gas is shown as -1. Proved in all other cases."
  },
  {
   "property": "C91",
   "status": "partial",
   "theorems": [
    "Svm.Runtime.C91_claim_false",
    "Svm.Runtime.C91_not_lost",
    "Svm.Runtime.C91_conserved_partial",
    "Svm.Runtime.C91_spawn_burns",
    "Svm.Runtime.C91_history_partial"
   ],
   "note": "The code violates the claim: a program that transfers to the account it transfers from mints coins, and a spawn over an account with coins burns them. Proved, also for whole histories, when neither happens."
  },
  {
   "property": "C92",
   "status": "partial",
   "theorems": [
    "Svm.Runtime.C92_claim_false",
    "Svm.Runtime.C92_counters",
    "Svm.Runtime.C92_monotone_partial",
    "Svm.Runtime.C92_spawn_resets"
   ],
   "note": "The code violates the claim: a spawn over an account sets its counter to zero. Proved that nothing else changes a counter (in particular none is ever advanced)."
  },
  {
   "property": "C93",
   "status": "partial",
   "theorems": [
    "Svm.Runtime.C93_claim_false",
    "Svm.Runtime.C93_kept_partial"
   ],
   "note": "The code violates the claim: a spawn over the account takes its coins. Proved for all other transactions."
  },
  {
   "property": "C94",
   "status": "proved",
   "theorems": [
    "Svm.Runtime.C94_deterministic"
   ],
   "note": "By a simulation: both storages refine one layered map."
  },
  {
   "property": "C95",
   "status": "partial",
   "theorems": [
    "Svm.Runtime.C95_claim_false",
    "Svm.Runtime.C95_stuck",
    "Svm.Runtime.C95_commit_partial"
   ],
   "note": "The code violates the claim: only calls and spawns make a checkpoint, so after a deployment, a creation of an account, a credit or a payment every commit and rewind is refused until a call or spawn succeeds. Proved for calls and spawns."
  },
  {
   "property": "C96",
   "status": "partial",
   "theorems": [
    "Svm.Sdk.C96_claim_false",
    "Svm.Sdk.C96_spoiled",
    "Svm.Sdk.C96_overwritten",
    "Svm.Sdk.C96_args_partial"
   ],
   "note": "The code violates the claim: svm_static_alloc answers the end of a block, so the vector of an array starts inside the calldata if these are longer than the block, and its items replace arguments not yet read. Proved if the block of every array parameter is at least as large as the calldata."
  },
  {
   "property": "C97",
   "status": "partial",
   "theorems": [
    "Svm.Sdk.C97_claim_false",
    "Svm.Sdk.C97_overwritten",
    "Svm.Sdk.C97_echo_wrong",
    "Svm.Sdk.C97_echo_right",
    "Svm.Sdk.C97_address",
    "Svm.Sdk.C97_result_partial"
   ],
   "note": "The code violates the claim: an address argument that is less than 20 bytes before the buffer of the returndata is overwritten while it is copied; an endpoint that returns its last argument returns a wrong address if the arguments before it take 1 to 20 bytes. Proved for results whose addresses are apart from the buffer; for single addresses exactly."
  },
  {
   "property": "C98",
   "status": "partial",
   "theorems": [
    "Svm.Sdk.C98_claim_false",
    "Svm.Sdk.C98_empty",
    "Svm.Sdk.C98_too_long",
    "Svm.Sdk.C98_safe_partial",
    "Svm.Sdk.C98_no_parameters_partial"
   ],
   "note": "The code violates the claim: no calldata for an endpoint with parameters, and calldata for which the memory has no room twice, crash the runtime. Proved for all other calldata if there is room for the vectors."
  },
  {
   "property": "C99",
   "status": "partial",
   "theorems": [
    "Svm.Sdk.C99_claim_false",
    "Svm.Sdk.C99_links",
    "Svm.Sdk.C99_fails",
    "Svm.Sdk.C99_instantiates_partial",
    "Svm.Sdk.C99_hosts"
   ],
   "note": "The code violates the claim: the runtime has no namespace sm, and svm_log has another type than the SDK imports, so a template that logs, transfers, or asks for the value, the balance, an address or the layer never runs. Proved exactly which templates link."
  },
  {
   "property": "C100",
   "status": "partial",
   "theorems": [
    "Svm.Sdk.Macro.C100_claim_false",
    "Svm.Sdk.Macro.C100_attrs_iff",
    "Svm.Sdk.Macro.C100_roles_partial",
    "Svm.Sdk.Macro.C100_exported",
    "Svm.Sdk.Macro.C100_metadata"
   ],
   "note": "The code violates the claim: #[ctor] and #[fundable_hook] are accepted together, so that a payment can run a constructor. Proved exactly which attributes are accepted, and the claim for all other functions."
  },
  {
   "property": "C101",
   "status": "partial",
   "theorems": [
    "Svm.Sdk.Macro.C101_claim_false",
    "Svm.Sdk.Macro.C101_hooks",
    "Svm.Sdk.Macro.C101_unnamed_partial",
    "Svm.Sdk.Macro.C101_unlinkable",
    "Svm.Sdk.Macro.C101_signatures",
    "Svm.Sdk.Macro.C101_asks"
   ],
   "note": "The code violates the claim: #[fundable(x)] may name any function. Proved exactly which function is called, the claim for functions that name none, and that a template with a fundable function cannot be linked by this runtime."
  },
  {
   "property": "C102",
   "status": "partial",
   "theorems": [
    "Svm.Sdk.Macro.C102_claim_false",
    "Svm.Sdk.Macro.C102_crafts_iff",
    "Svm.Sdk.Macro.C102_faithful_partial",
    "Svm.Sdk.Macro.C102_schema",
    "Svm.Sdk.Macro.C102_deployed",
    "Svm.Sdk.Macro.C102_self_test",
    "Svm.Sdk.Macro.C102_self_test_sound"
   ],
   "note": "The code violates the claim: with 255 constructors, a longer name than 255 bytes, 65535 cells or a Wasm file of 4 GiB the CLI panics. Proved exactly when it does, and the claim for every message that is written."
  },
  {
   "property": "C103",
   "status": "partial",
   "theorems": [
    "Svm.Sdk.Macro.C103_claim_false",
    "Svm.Sdk.Macro.C103_equal_iff",
    "Svm.Sdk.Macro.C103_differs",
    "Svm.Sdk.Macro.C103_reproducible_partial"
   ],
   "note": "The code violates the claim for every template with two constructors, since the metadata follow the order of a HashMap. Proved for templates with at most one."
  },
  {
   "property": "C104",
   "status": "proved",
   "theorems": [
    "Svm.Runtime.C104_content_addressed",
    "Svm.Runtime.C104_one_code",
    "Svm.Runtime.C104_cached_prices",
    "Svm.Runtime.C104_mainnet"
   ],
   "note": "An invariant of every stored pair, kept by rewinds. That no two codes brought in collide is a hypothesis; all hashes are of 20 bytes."
  },
  {
   "property": "C105",
   "status": "partial",
   "theorems": [
    "Svm.Runtime.C105_claim_false",
    "Svm.Runtime.C105_starts_iff",
    "Svm.Runtime.C105_loads_partial",
    "Svm.Runtime.C105_mainnet"
   ],
   "note": "The code violates the claim: a template without one of the three core sections or with a section that cannot be encoded makes the node panic at the start, and the layout of the main network comes back changed. Proved exactly when a node starts, and the claim for representable layouts."
  },
  {
   "property": "C106",
   "status": "partial",
   "theorems": [
    "Svm.Runtime.C106_claim_false",
    "Svm.Runtime.C106_never_spawned"
   ],
   "note": "The code violates the claim: the template has no constructors, so every spawn fails."
  },
  {
   "property": "C107",
   "status": "partial",
   "theorems": [
    "Svm.Runtime.C107_claim_false",
    "Svm.Runtime.C107_checked_partial",
    "Svm.Runtime.C107_release_false",
    "Svm.Runtime.C107_fits_partial"
   ],
   "note": "The code violates the claim: svm_alloc is not paid for, and in release builds the price of a constructor can wrap around. Proved for the constructor in builds with overflow checks, and in all builds for programs whose prices fit in 64 bits. The Wasm parser is a parameter."
  },
  {
   "property": "C108",
   "status": "partial",
   "theorems": [
    "Svm.Runtime.C108_claim_false",
    "Svm.Runtime.C108_iff",
    "Svm.Runtime.C108_crashes",
    "Svm.Runtime.C108_release_iff"
   ],
   "note": "The code violates the claim: validation does not look at the constructors, the gas mode, or whether the program can be priced. Proved exactly when the check panics."
  },
  {
   "property": "C109",
   "status": "partial",
   "theorems": [
    "Svm.Query.C109_claim_false",
    "Svm.Query.C109_swapped",
    "Svm.Query.C109_iff",
    "Svm.Query.C109_amount",
    "Svm.Query.C109_partial",
    "Svm.Query.C109_hex_injective"
   ],
   "note": "The code violates the claim: integers are stored little endian and shown as big endian, so their bytes appear in the opposite order. Proved for flags, integers of one byte and addresses. No reader for accounts exists in the code; the one here returns the bytes of the variable."
  },
  {
   "property": "C110",
   "status": "partial",
   "theorems": [
    "Svm.Query.C110_claim_false",
    "Svm.Query.C110_iff",
    "Svm.Query.C110_answers_partial",
    "Svm.Query.C110_order"
   ],
   "note": "The code violates the claim: a request for a balance panics, as do flags and integers of a wrong size. Proved exactly when a query panics, and the claim for all other schemas."
  },
  {
   "property": "C111",
   "status": "proved",
   "theorems": [
    "Svm.Sdk.C111_test_is_chain",
    "Svm.Sdk.C111_raw_differs"
   ],
   "note": "For the generated accessors. For the functions of the storage trait themselves the two differ, which is shown beside it. Addresses are compared by their bytes."
  },
  {
   "property": "C112",
   "status": "partial",
   "theorems": [
    "Svm.Sdk.C112_claim_false",
    "Svm.Sdk.C112_same_pointer",
    "Svm.Sdk.C112_lost",
    "Svm.Sdk.C112_iff",
    "Svm.Sdk.C112_interned_partial"
   ],
   "note": "The code violates the claim: Address hashes its pointer but compares its bytes, so an equal address at another place in memory is not found unless the table happens to compare the two. Proved exactly for which pointers the balance is found, and the claim for programs that keep one pointer per address."
  },
  {
   "property": "C113",
   "status": "partial",
   "theorems": [
    "Svm.Sdk.C113_claim_false",
    "Svm.Sdk.C113_chain_partial",
    "Svm.Sdk.C113_test_partial",
    "Svm.Sdk.C113_differs"
   ],
   "note": "The code violates the claim: the mock pays addresses without an account, and in release builds sums that do not fit wrap around; the chain panics. Proved if both accounts exist and the sum fits, and in the other direction without a condition."
  },
  {
   "property": "C114",
   "status": "partial",
   "theorems": [
    "Svm.Sdk.C114_claim_false",
    "Svm.Sdk.C114_reset_partial",
    "Svm.Sdk.C114_history"
   ],
   "note": "The code violates the claim: reset keeps the balances. Proved that it keeps nothing else, and that after a test that set a balance no reset gives a new mock."
  },
  {
   "property": "C115",
   "status": "proved",
   "theorems": [
    "Svm.Wasm.C115_halts",
    "Svm.Wasm.machine_loops"
   ],
   "note": "For a machine with fuel, whose data instructions and host are parameters; `machine_loops` shows that a program with a loop, which is rejected, uses up every amount of fuel."
  },
  {
   "property": "C116",
   "status": "partial",
   "theorems": [
    "Svm.Wasm.C116_claim_false",
    "Svm.Wasm.C116_free",
    "Svm.Wasm.C116_cost_checked",
    "Svm.Wasm.C116_cost_partial"
   ],
   "note": "The code violates the claim in release builds: a program of 17 functions gets the price 0, and the machine executes it to the end at a cost of 2^64. Proved in builds with overflow checks, and in every build when the prices are below 2^64."
  },
  {
   "property": "C117",
   "status": "partial",
   "theorems": [
    "Svm.Runtime.C117_claim_false",
    "Svm.Runtime.loop_answer",
    "Svm.Runtime.C117_no_hang_partial",
    "Svm.Runtime.fuelOf_enough",
    "Svm.Runtime.run_congr"
   ],
   "note": "The code violates the claim: deploy does not validate, so a template with a loop is accepted and a call of it never ends. Proved when every template that was brought in passes the validation that the node offers separately; the engine is any one that executes the code it is given."
  },
  {
   "property": "C118",
   "status": "proved",
   "theorems": [
    "Svm.JsonApi.C118_crafts",
    "Svm.JsonApi.C118_refuses",
    "Svm.JsonApi.C118_mismatch"
   ],
   "note": "Refusals are panics: the tool never returns an error for a bad specification. Reading the input file and creating the output file are assumed to succeed; the text parser and printer of serde_json are not modelled."
  },
  {
   "property": "C119",
   "status": "partial",
   "theorems": [
    "Svm.Runtime.C119_claim_false",
    "Svm.Runtime.C119_layers",
    "Svm.Runtime.C119_genesis"
   ],
   "note": "The code violates the claim: the layer of the genesis is -1, which does not fit the unsigned number, so a new node panics until layer 0 is made. Proved exactly when it answers, and with which number."
  },
  {
   "property": "C120",
   "status": "proved",
   "theorems": [
    "Svm.Runtime.C120_rewind_undoes"
   ],
   "note": "The condition on the addresses of codes is that of C104: without it the price cache is wrong even without a rewind. Layers from 2^63 on cannot be given to rewind."
  },
  {
   "property": "C121",
   "status": "proved",
   "theorems": [
    "Svm.Runtime.C121_credits",
    "Svm.Runtime.C121_iff"
   ],
   "note": "The hash function is assumed to have no collisions on storage keys."
  },
  {
   "property": "C122",
   "status": "partial",
   "theorems": [
    "Svm.Runtime.C122_claim_false",
    "Svm.Runtime.C122_replaces",
    "Svm.Runtime.C122_books_partial",
    "Svm.Runtime.Holds.unique"
   ],
   "note": "The code violates the claim: an account can be created over one with coins, which are then gone (proved with the exact difference); a template that pays an account from itself makes coins, too. Proved for all histories without these two, where no call panics (a panic may stop a payment between its two writes)."
  },
  {
   "property": "C123",
   "status": "partial",
   "theorems": [
    "Svm.Runtime.C123_claim_false",
    "Svm.Runtime.C123_dropped",
    "Svm.Runtime.C123_shows_partial",
    "Svm.Runtime.C123_call_partial",
    "Svm.Runtime.C123_spawn_partial",
    "Svm.Runtime.C123_executed"
   ],
   "note": "The code violates the claim: what svm_alloc logs is dropped if svm_alloc returns (proved for every such call; shown if it traps). Proved in full for all other executions, for calls of the public call function and for constructors, with the existence and uniqueness of the execution."
  },
  {
   "property": "C124",
   "status": "partial",
   "theorems": [
    "Svm.Sdk.C124_claim_false",
    "Svm.Sdk.C124_answers_partial"
   ],
   "note": "The code violates the claim: an endpoint that returns an address it was given returns other bytes (results are written over by the encoder, as in C97; arrays as in C96). Proved for results without addresses and for arrays whose vectors are at least as large as the calldata. Bodies are arbitrary programs over the host functions with a memory budget."
  },
  {
   "property": "C125",
   "status": "partial",
   "theorems": [
    "Svm.Runtime.C125_claim_false",
    "Svm.Runtime.C125_required",
    "Svm.Runtime.C125_accepts",
    "Svm.Runtime.C125_usable_partial",
    "Svm.Runtime.C125_unvalidated",
    "Svm.Runtime.C125_refuses",
    "Svm.Runtime.C125_deploy_refuses"
   ],
   "note": "The code violates the claim: a data section without a layout passes validate_deploy, and then the creation of any account of the template panics; with 255 constructors or 65535 variables the deployment panics. Proved exactly when it holds, that the decoder of templates demands the three sections, and that what the other validations cannot decode makes call, verify and spawn panic."
  },
  {
   "property": "C126",
   "status": "proved",
   "theorems": [
    "Svm.Runtime.C126_kept"
   ],
   "note": "For a layer that was not just made, rewinds may go to the next layer at most, since a rewind drops what was not part of a layer. The hash function is assumed to have no collisions on storage keys."
  },
  {
   "property": "C127",
   "status": "proved",
   "theorems": [
    "Svm.Sdk.C127_counter",
    "Svm.Sdk.C127_spawns"
   ],
   "note": "The bodies of the three functions are written by hand as programs over the SDK's accessors (C97, C112), and the module that the engine compiles is the SDK's (C123). The spawn is the only account of the template, because the address of an account is the hash of its template's address (C31)."
  },
  {
   "property": "C128",
   "status": "partial",
   "theorems": [
    "Svm.Account.C128_records_partial",
    "Svm.Account.C128_variables_current",
    "Svm.Account.C128_variables_partial",
    "Svm.Account.C128_future_layer",
    "Svm.Account.C128_wraps",
    "Svm.Account.C128_claim_false"
   ],
   "note": "The code violates the claim: variables are read with None, so the current value is returned whatever the parameter (proved for every parameter and state). Proved in full for the fields, the loading of accounts and the sections of templates, and for the variables of accounts whose segments were not written since. A layer that was not committed makes the fields panic while the variables are answered; the parameter is cast to i64, so the largest numbers stand for the layers below 0."
  },
  {
   "property": "C129",
   "status": "partial",
   "theorems": [
    "Svm.Account.C129_writes_stale",
    "Svm.Account.C129_no_record",
    "Svm.Account.C129_current_partial",
    "Svm.Account.C129_variables",
    "Svm.Account.C129_claim_false",
    "Svm.Account.C129_coins_return"
   ],
   "note": "The code violates the claim: replace reads the record at the layer of the handle and writes all of it to the present, so the other field goes back to its value of that layer (coins that were spent come back). Proved exactly what is written, that nothing else changes, that nothing is written if the handle reads no record, and the claim when the handle reads the current values."
  },
  {
   "property": "C130",
   "status": "proved",
   "theorems": [
    "Svm.Runtime.C130_apart",
    "Svm.Runtime.C130_any_order",
    "Svm.Runtime.C130_alone"
   ],
   "note": "Threads are programs of reads and writes (Account.Prog), one critical section each; footprints are given by a predicate over keys that holds for every value read."
  },
  {
   "property": "C131",
   "status": "partial",
   "theorems": [
    "Svm.Runtime.C131_partial",
    "Svm.Runtime.C131_lost_update",
    "Svm.Runtime.C131_claim_false"
   ],
   "note": "The code violates the claim: the lock is released between the reads of the balances and the writes. Proved for every state in which two payments from one account to another are possible: some interleaving lets both return while the payer is charged only the one amount and the other account gets only the other one. Proved for any number of threads if all accounts involved are different: results, balances and everything else."
  },
  {
   "property": "C132",
   "status": "partial",
   "theorems": [
    "Svm.Runtime.C132_partial",
    "Svm.Runtime.C132_lost_write",
    "Svm.Runtime.C132_claim_false"
   ],
   "note": "The code violates the claim: set_var_bytes reads a 32-byte segment and writes it back without the lock in between. Proved for every state and any two variables inside the same segment: some interleaving lets both writes return and loses one of them. Proved for any number of writers whose variables share no segment: every write is kept."
  },
  {
   "property": "C133",
   "status": "partial",
   "theorems": [
    "Svm.Runtime.C133_one_read",
    "Svm.Runtime.C133_getters",
    "Svm.Runtime.C133_partial",
    "Svm.Runtime.C133_small_partial",
    "Svm.Runtime.C133_torn",
    "Svm.Runtime.C133_claim_false"
   ],
   "note": "Proved for the getters of accounts and for variables inside one 32-byte segment, for any other threads and any schedule, also with rollbacks and rewinds. The code violates the claim for all other variables: for every state, every variable over a border of segments and every new value some interleaving makes the reader return the old bytes before the border and the new ones after it."
  },
  {
   "property": "C134",
   "status": "partial",
   "theorems": [
    "Svm.Runtime.C134_partial",
    "Svm.Runtime.C134_half",
    "Svm.Runtime.C134_claim_false"
   ],
   "note": "The code violates the claim. Proved for every state in which a payment is possible: some interleaving lets the payment return and has a layer in which the payer is charged and the other account is not paid. Proved for clients that commit without making checkpoints: commits fail while there are dirty changes, and so every layer made holds exactly what could be read at the beginning, for any threads and programs."
  },
  {
   "property": "C135",
   "status": "partial",
   "theorems": [
    "Svm.Wasm.C135_claim_false",
    "Svm.Wasm.C135_says_valid",
    "Svm.Wasm.C135_missing",
    "Svm.Wasm.C135_accepted_partial",
    "Svm.Wasm.C135_reasons",
    "Svm.Wasm.C135_files"
   ],
   "note": "The code violates the claim: the tool checks neither the two required exports nor loops and recursion. Proved exactly what the tool accepts and what the runtime checks in addition, so that what the runtime accepts is called valid by the tool."
  },
  {
   "property": "C136",
   "status": "partial",
   "theorems": [
    "Svm.Wasm.C136_claim_false",
    "Svm.Wasm.C136_shown",
    "Svm.Wasm.C136_crashes",
    "Svm.Wasm.C136_partial"
   ],
   "note": "Whatever is shown is what the runtime computes, for all functions in their order and for every file. The code violates the claim where an import without a price in the table is called: the runtime charges 1000 and the tool panics; proved for all accepted templates. For all others with at least one function the prices are shown."
  },
  {
   "property": "C137",
   "status": "partial",
   "theorems": [
    "Svm.Runtime.C137_claim_false",
    "Svm.Runtime.C137_calls",
    "Svm.Runtime.C137_spawns",
    "Svm.Runtime.C137_deploys_partial"
   ],
   "note": "The code violates the claim: no receipt of a call, verification or spawn says how much gas was used, whatever was done. For deployments it is proved, with the exact number."
  },
  {
   "property": "C138",
   "status": "partial",
   "theorems": [
    "Svm.Runtime.C138_release_false",
    "Svm.Runtime.C138_flood",
    "Svm.Runtime.C138_checked",
    "Svm.Runtime.C138_fits_partial"
   ],
   "note": "Proved for builds with overflow checks. In release builds the code violates it: prices wrap around, and there is a template that passes validation whose constructor calls svm_set64 2^60 times and whose spawn costs no more than its message; there it is proved for all programs whose prices are below 2^64."
  },
  {
   "property": "C139",
   "status": "partial",
   "theorems": [
    "Svm.Runtime.C139_claim_false",
    "Svm.Runtime.C139_step",
    "Svm.Runtime.C139_poisons",
    "Svm.Runtime.C139_poisoned",
    "Svm.Runtime.C139_forever",
    "Svm.Runtime.C139_dead",
    "Svm.Runtime.C139_by_message",
    "Svm.Runtime.C139_lock_partial"
   ],
   "note": "The code violates it: a deploy message that decodes but cannot be encoded again (255 constructors, or a layout of 65535 variables), a rewind to a layer that does not exist, and an account name of more than 255 bytes panic while the mutex is held and poison it; from then on every call panics, except deploys without enough gas. Proved for all other histories, with an exact description of the calls that poison the lock."
  },
  {
   "property": "C140",
   "status": "partial",
   "theorems": [
    "Svm.Storage.C140_claim_false",
    "Svm.Storage.C140_refines",
    "Svm.Storage.C140_lost",
    "Svm.Storage.C140_stuck",
    "Svm.Storage.C140_mixture",
    "Svm.Storage.C140_repair",
    "Svm.Storage.C140_layers",
    "Svm.Storage.C140_retry_partial"
   ],
   "note": "The code violates it: commit moves the pending changes out before its first statement and uses no transaction. A failure before the row of the layer loses the changes silently (the repeated commit succeeds with an empty layer and the same fingerprint); a failure after it leaves a half-written layer that is read and makes every later commit fail until a rewind. Proved: the exact behaviour of all histories with failures, that committed layers are never affected, that a rewind repairs the store, and the claim when nothing is pending."
  },
  {
   "property": "C141",
   "status": "partial",
   "theorems": [
    "Svm.Ffi.C141_claim_false",
    "Svm.Ffi.C141_same_file",
    "Svm.Ffi.C141_after_failure",
    "Svm.Ffi.C141_isolated_partial"
   ],
   "note": "The code violates it for the creation: a second runtime on a path of the same file is never created, even after the first was destroyed, and a creation that fails makes every later creation of the process fail. Proved: this, for every state of the process; and isolation for every runtime that is created successfully, for all interleavings."
  },
  {
   "property": "C142",
   "status": "partial",
   "theorems": [
    "Svm.Sdk.C142_claim_false",
    "Svm.Sdk.C142_alias",
    "Svm.Sdk.C142_outside",
    "Svm.Sdk.C142_aligned",
    "Svm.Sdk.C142_data",
    "Svm.Sdk.C142_growing_partial"
   ],
   "note": "The code violates it: the host returns the end of the region it reserves, so an object that is smaller than the one before it is part of that one, the last object can reach beyond the memory, and the first one lies on the static data of the module; alignments are ignored. Proved: these, in every state; and full correctness for programs whose requests never get smaller and are multiples of all alignments, with room for the largest once more."
  },
  {
   "property": "C143",
   "status": "partial",
   "theorems": [
    "Svm.Wasm.C143_claim_false",
    "Svm.Wasm.C143_exponential",
    "Svm.Wasm.C143_runtime",
    "Svm.Wasm.C143_linear_partial",
    "Svm.Wasm.C143_no_dead_ends_partial"
   ],
   "note": "The code violates it when return_cycles is set: recur_find_cycle forgets the functions it has searched, so there are programs with at most 12n + 12 functions and instructions for which it makes 2^n calls, for every n up to 21844. Proved: this; the claim for return_cycles = false, which the runtime uses, and for accepted programs; and the claim when every function that recursive functions lead to calls a function of the program itself."
  },
  {
   "property": "C144",
   "status": "proved",
   "theorems": [
    "Svm.Wasm.C144_linear"
   ],
   "note": "Operations on an IndexMap or IndexSet count as one step. Programs whose pricing panics are not covered by the statement (C54 says which these are)."
  },
  {
   "property": "C145",
   "status": "partial",
   "theorems": [
    "Svm.Codec.C145_claim_false",
    "Svm.Codec.C145_greedy",
    "Svm.Codec.C145_bound",
    "Svm.Codec.C145_messages_partial",
    "Svm.Codec.C145_accepted_partial"
   ],
   "note": "Refuted for templates: a message of 34 bytes makes the decoder ask for any amount up to 4 GiB. Proved: envelopes, contexts, calls and spawns ask for at most 4 per byte and 510; a template that is decoded asks for at most 4 per byte; every message for at most 4 per byte, 4 GiB and 64 K."
  },
  {
   "property": "C146",
   "status": "partial",
   "theorems": [
    "Svm.Runtime.C146_claim_false",
    "Svm.Runtime.C146_blind",
    "Svm.Runtime.C146_unpaid"
   ],
   "note": "The code violates the claim: the gas of a call is passed on to compile_template, which does not use it. Proved: calls and verifications with the same message do the same in every state whatever their gas limits are, and for every n there is a call that logs n times and succeeds with every gas limit. For spawns see C107 and C138."
  },
  {
   "property": "C147",
   "status": "partial",
   "theorems": [
    "Svm.Sdk.Amounts.C147_claim_false",
    "Svm.Sdk.Amounts.C147_subtraction",
    "Svm.Sdk.Amounts.C147_fits_partial",
    "Svm.Sdk.Amounts.C147_checked_partial",
    "Svm.Sdk.Amounts.C147_subtracts_partial",
    "Svm.Sdk.Amounts.C147_modulo",
    "Svm.Sdk.Amounts.C147_wraps",
    "Svm.Sdk.Amounts.C147_never_stops",
    "Svm.Sdk.Amounts.C147_negative"
   ],
   "note": "The code violates the claim: only subtraction is guarded, and templates are built without overflow checks, so sums and products wrap around. Proved: with overflow checks the claim holds and a calculation stops exactly if a result does not fit; in both modes results that all fit are exact and subtraction is exact or stops; without checks results are right modulo 2^64, and a sum that does not fit is smaller than both summands."
  },
  {
   "property": "C148",
   "status": "partial",
   "theorems": [
    "Svm.Sdk.C148_claim_false",
    "Svm.Sdk.C148_amount",
    "Svm.Sdk.C148_address",
    "Svm.Sdk.C148_layer_partial",
    "Svm.Sdk.C148_layer_panics",
    "Svm.Sdk.C148_distinct"
   ],
   "note": "The code violates the claim for layers: the builder has room for 26 bytes but the text of a layer needs up to 28, so showing a layer panics exactly from 10^18 on. Proved without restriction for amounts and addresses, and for layers below 10^18."
  },
  {
   "property": "C149",
   "status": "proved",
   "theorems": [
    "Svm.Storage.Growth.C149_rows",
    "Svm.Storage.Growth.C149_layers",
    "Svm.Storage.Growth.C149_commit"
   ],
   "note": "Histories without a crash, from the empty database; rewinds not below layer -2."
  },
  {
   "property": "C150",
   "status": "partial",
   "theorems": [
    "Svm.Storage.Growth.C150_claim_false",
    "Svm.Storage.Growth.C150_selects",
    "Svm.Storage.Growth.C150_product",
    "Svm.Storage.Growth.C150_historical",
    "Svm.Storage.Growth.C150_square",
    "Svm.Storage.Growth.C150_bound_partial"
   ],
   "note": "The code violates the claim: the join condition does not relate layer_id to the id of the layer, so every version is joined with every complete layer. Proved: the number of rows is the product of the number of versions and the number of layers, for reads of the past also counting later layers; n (n + 1) rows if a key is written in each of n layers; at most one version for each layer; and the query selects from this join."
  },
  {
   "property": "C151",
   "status": "partial",
   "theorems": [
    "Svm.Sdk.Widths.C151_claim_false",
    "Svm.Sdk.Widths.C151_which",
    "Svm.Sdk.Widths.C151_refuses",
    "Svm.Sdk.Widths.C151_accepts",
    "Svm.Sdk.Widths.C151_panics",
    "Svm.Sdk.Widths.C151_documented_partial"
   ],
   "note": "The code violates the claim for all functions but get64: get32 cuts variables of 5 to 8 bytes, set32 and set64 cut values that the variable cannot hold, and store160 and load160 accept all variables of up to 20 bytes. Proved: which of the comments hold; exactly when each function panics; what it does otherwise, as a function of the bytes of the variable; and that every panic is documented."
  },
  {
   "property": "C152",
   "status": "partial",
   "theorems": [
    "Svm.Runtime.Modes.C152_claim_false",
    "Svm.Runtime.Modes.C152_transfer",
    "Svm.Runtime.Modes.C152_balances_partial",
    "Svm.Runtime.Modes.C152_partial"
   ],
   "note": "The code violates the claim: svm_transfer asks only for read access. Proved: with read access only, a transfer does exactly what it does with full access; a program without transfers changes nothing; and no program changes anything but balances."
  },
  {
   "property": "C153",
   "status": "proved",
   "theorems": [
    "Svm.Runtime.Modes.C153_more_rights"
   ],
   "note": "Proved for all programs, from the same statement for each host function."
  },
  {
   "property": "C154",
   "status": "proved",
   "theorems": [
    "Svm.Account.Touches.C154_segments",
    "Svm.Account.Touches.C154_read",
    "Svm.Account.Touches.C154_write",
    "Svm.Account.Touches.C154_refused"
   ],
   "note": "Proved as the sequence of all accesses to the storage, for every size and offset. Variables of 0 bytes are left out, as in C15."
  },
  {
   "property": "C155",
   "status": "partial",
   "theorems": [
    "Svm.Runtime.Renew.C155_claim_false",
    "Svm.Runtime.Renew.C155_deployed",
    "Svm.Runtime.Renew.C155_core",
    "Svm.Runtime.Renew.C155_core_partial",
    "Svm.Runtime.Renew.C155_noncore_partial"
   ],
   "note": "The code violates the claim for set_core: sections of the non-core record win, and a deployment puts all sections there. Proved: which section wins after set_core, for every template; a deployed template keeps every deployed section whatever set_core is given; set_noncore always takes effect, and set_core for kinds that the non-core record lacks."
  }
 ]
}
