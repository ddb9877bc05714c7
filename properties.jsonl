{"id": "C01", "title": "Reads see the latest write", "statement": "After any history of storage operations, writing value v under key k and then reading k (no layer given) returns v, and reading any other key (different key hash) returns exactly what it returned before the write.", "quantifier": "every history of upsert/checkpoint/commit/rollback/rewind, every key, every value", "why_tests_cant": "The number of histories and keys is infinite; quickcheck only samples short single-phase histories.", "anchors": ["crates/host/state/src/storage.rs Storage::get, Storage::get_by_hash, Storage::upsert, Storage::upsert_by_hash"]}
{"id": "C02", "title": "Storage behaves like a layered key-value map", "statement": "For every history of operations with no crash, what the SQLite-backed storage returns for every read (current or at a past layer), every error and every layer number is what an abstract stack of key-value layers with a pending and a dirty overlay returns.", "quantifier": "every history, every key, every layer, every order in which the hash map of pending changes is iterated", "why_tests_cant": "It is a refinement statement over unbounded histories; a test fixes one history and one iteration order.", "anchors": ["crates/host/state/src/storage.rs Storage (all public methods)", "crates/host/state/src/resources/schema.sql"]}
{"id": "C03", "title": "Historical reads never change", "statement": "Once layer L is committed, reading any key at layer L returns the value that a plain read returned right after that commit, whatever operations follow, as long as none of them rewinds below L.", "quantifier": "every history before and after the commit, every key", "why_tests_cant": "Later histories are unbounded.", "anchors": ["crates/host/state/src/storage.rs Storage::get_by_hash, Storage::get_by_hash_historical, Storage::commit"]}
{"id": "C04", "title": "Rewind restores the exact past state", "statement": "Rewinding to a committed layer L (L >= -1) with no dirty changes puts the storage in exactly the state it had immediately after L was committed: same reads, same layer number, same fingerprints, and hence the same answers to every later history.", "quantifier": "every history, every committed layer L >= -1", "why_tests_cant": "Needs equality of full states after arbitrary histories.", "anchors": ["crates/host/state/src/storage.rs Storage::rewind, Storage::commit"]}
{"id": "C05", "title": "Rollback discards exactly the writes since the last checkpoint", "statement": "After rollback every read (current and historical) and every later commit behave as if the writes since the last checkpoint had never been issued, and checkpointed or committed data is untouched.", "quantifier": "every history, every batch of dirty writes", "why_tests_cant": "Unbounded histories and batches.", "anchors": ["crates/host/state/src/storage.rs Storage::rollback, Storage::checkpoint"]}
{"id": "C06", "title": "Commit and rewind refuse to drop unsaved writes", "statement": "If there are writes not yet checkpointed, commit and rewind return the dirty-changes error and leave the storage state unchanged; the has-uncommitted-changes flag is true exactly in that case.", "quantifier": "every state, every layer argument", "why_tests_cant": "All states must be covered.", "anchors": ["crates/host/state/src/storage.rs Storage::commit, Storage::rewind, Storage::has_uncommitted_changes"]}
{"id": "C07", "title": "Layer numbers are consecutive and commits never fail in normal operation", "statement": "Starting from a fresh database every commit without dirty changes succeeds and returns the layer number one above the last one (the first is -1, and after a rewind to L the next is L+1), and last_layer returns that number and the fingerprint returned by the commit.", "quantifier": "every history", "why_tests_cant": "Unbounded histories; success depends on the invariant that the previous layer row exists.", "anchors": ["crates/host/state/src/storage.rs Storage::commit, Storage::last_layer, Storage::new_with_pool"]}
{"id": "C08", "title": "Reads never return data of a layer that was not completely committed", "statement": "If a commit is interrupted after any number of its SQL statements, reads (current or historical) on the resulting database return what they returned before that commit.", "quantifier": "every history, every crash point inside commit, every key", "why_tests_cant": "Crash points times histories; the join condition of the read query is only wrong in states no unit test produces.", "anchors": ["crates/host/state/src/storage.rs Storage::commit, Storage::get_by_hash, Storage::get_by_hash_historical"]}
{"id": "C09", "title": "A persisted database can be reopened after any history", "statement": "Opening the storage on the database left by any earlier session succeeds, and all committed layers and values are still there.", "quantifier": "every history of the earlier session, with or without a crash at the end", "why_tests_cant": "All tests use fresh in-memory databases.", "anchors": ["crates/host/state/src/storage.rs Storage::new, Storage::new_with_pool, Storage::insert_layer, Storage::delete_bad_layers", "crates/host/state/src/global_state.rs GlobalState::new"]}
{"id": "C10", "title": "The committed fingerprint depends on the committed data", "statement": "Two sessions that commit different data at some layer (and do not collide under the hash) report different fingerprints for that layer.", "quantifier": "every pair of histories", "why_tests_cant": "The existing tests compare fingerprints of a few histories and pass by accident.", "anchors": ["crates/host/state/src/storage.rs Storage::checkpoint, Storage::commit, xor_fingerprint, hash_key_value_pair"]}
{"id": "C11", "title": "The committed fingerprint does not depend on the order or the batching of writes", "statement": "The fingerprint and all reads after a commit depend only on the final value written to each key, not on the order of the writes, on how they were grouped by checkpoints, nor on hash map iteration order.", "quantifier": "every pair of write sequences with the same net effect, every checkpoint grouping, every iteration order", "why_tests_cant": "Permutations of unbounded sequences.", "anchors": ["crates/host/state/src/storage.rs Storage::checkpoint, Storage::commit"]}
{"id": "C12", "title": "A panic inside the storage does not disable the runtime", "statement": "After an operation on the global state that panics (for example a rewind to a layer that does not exist yet), later operations on the same runtime still work.", "quantifier": "every history containing a panicking operation", "why_tests_cant": "Mutex poisoning only shows up in sequences of calls after a caught panic.", "anchors": ["crates/host/state/src/global_state.rs GlobalState::storage, GlobalState::rewind", "crates/host/state/src/storage.rs Storage::assert_layer_id_is_complete", "crates/host/runtime-ffi/src/c_api.rs catch_unwind_or_fail, svm_rewind"]}
{"id": "C13", "title": "Fixed layouts give every variable its own byte range", "statement": "A layout built from a list of byte sizes gives variable number first+i the range starting at the sum of the preceding sizes and of exactly the i-th size; ranges of different variables never overlap, and together they cover the layout without gaps.", "quantifier": "every first id, every list of sizes whose total fits in u32", "why_tests_cant": "Lists of any length.", "anchors": ["crates/host/layout/src/fixed.rs FixedLayout::from_byte_sizes, FixedLayout::get, FixedLayoutBuilder"]}
{"id": "C14", "title": "Segments of a variable cover exactly its bytes", "statement": "Splitting a byte range of an account's storage into 32-byte segments yields segment ranges that, read in order, enumerate exactly the absolute byte positions offset, offset+1, ..., offset+size-1, each once.", "quantifier": "every offset and every size >= 1", "why_tests_cant": "All u32 pairs.", "anchors": ["crates/host/state/src/account_storage.rs var_segments, Segment::len"]}
{"id": "C15", "title": "Account variables: read after write", "statement": "After writing a value to a variable of an account, reading that variable returns the written bytes, whatever its size, alignment to segments, and previous contents, including when the value spans several segments.", "quantifier": "every layout of a decoded template, every variable of at least one byte, every value of sufficient length, every reachable storage state, assuming the hash does not collide on the keys involved", "why_tests_cant": "Combination of offsets, sizes, and states is unbounded.", "anchors": ["crates/host/state/src/account_storage.rs AccountStorage::get_var, AccountStorage::set_var_bytes, AccountStorage::get_var_vec"]}
{"id": "C16", "title": "Account variables: isolation", "statement": "Writing one variable of one account changes no other variable of that account, no variable of any other account, and no account's balance, counter, name or template.", "quantifier": "every reachable state, every layout, every pair of variables (of any size), every pair of accounts, every value, whether or not the write succeeds, assuming the hash does not collide on the keys involved", "why_tests_cant": "Pairs of variables and accounts in every state.", "anchors": ["crates/host/state/src/account_storage.rs AccountStorage::set_var_bytes, key_account_var_segment, AccountData::key, AccountMut::key"]}
{"id": "C17", "title": "Storage keys of different objects are different", "statement": "The textual keys of account data, account balance, variable segments and template sections are pairwise different for different accounts, templates or segment numbers.", "quantifier": "every pair of addresses and segment numbers", "why_tests_cant": "Pairs of 160-bit addresses cannot be enumerated.", "anchors": ["crates/host/state/src/account_storage.rs key_account_var_segment, AccountData::key, AccountMut::key", "crates/host/state/src/template_storage.rs key_core, key_noncore", "crates/host/types/src/lib.rs BytesPrimitive"]}
{"id": "C18", "title": "Account fields: read after write and independence", "statement": "Creating an account makes its name, template, balance and counter readable with the given values; set_balance changes only the balance, set_counter only the counter, and neither affects another account.", "quantifier": "every name of at most 255 bytes, every balance, counter, address and state", "why_tests_cant": "All values and states.", "anchors": ["crates/host/state/src/account_storage.rs AccountStorage::create, AccountStorage::set_balance, AccountStorage::set_counter, AccountStorage::balance, AccountStorage::counter"]}
{"id": "C19", "title": "Typed 32 and 64 bit variables round trip through the host calls", "statement": "Storing a 32-bit (64-bit) integer into a variable of at most 4 (8) bytes and loading it again with the matching host call returns the stored integer reduced to the variable's width.", "quantifier": "every variable width of at least one byte, every integer, every state", "why_tests_cant": "Width/offset/value combinations.", "anchors": ["crates/host/runtime/src/vmcalls/storage.rs get32, set32, get64, set64", "crates/host/state/src/account_storage.rs get_var_i64, set_var_i64, set_var_i32"]}
{"id": "C20", "title": "A transfer between two different accounts conserves money", "statement": "When a transfer between two distinct existing accounts succeeds, the source loses exactly the amount, the destination gains exactly the amount, every other account keeps its balance, and counters, names, templates and variables of all accounts are unchanged.", "quantifier": "every state, every pair of distinct accounts, every amount", "why_tests_cant": "All balances and amounts including the u64 boundary.", "anchors": ["crates/host/runtime/src/runtime/runtime.rs Runtime::transfer", "crates/host/runtime/src/vmcalls/transfer.rs"]}
{"id": "C21", "title": "No transfer creates money", "statement": "The total of all balances never increases by a transfer, whatever source, destination and amount are, including source = destination.", "quantifier": "every state, every pair of accounts, every amount", "why_tests_cant": "The aliasing case source = destination is easy to miss in tests and holds for every amount.", "anchors": ["crates/host/runtime/src/runtime/runtime.rs Runtime::transfer", "crates/host/runtime/src/vmcalls/transfer.rs svm_transfer"]}
{"id": "C22", "title": "A transfer either happens completely or not at all", "statement": "If a transfer fails (missing account, insufficient balance, overflow of the destination) no balance has changed.", "quantifier": "every state, every pair of accounts, every amount", "why_tests_cant": "The failing branch after the first write only exists near the u64 limit.", "anchors": ["crates/host/runtime/src/runtime/runtime.rs Runtime::transfer"]}
{"id": "C23", "title": "A contract can only spend the money of its own account", "statement": "The transfer host call, run on behalf of account A, never lowers the balance of an account other than A.", "quantifier": "every memory content, every account, every amount", "why_tests_cant": "Adversarial memory contents.", "anchors": ["crates/host/runtime/src/vmcalls/transfer.rs svm_transfer"]}
{"id": "C24", "title": "Code running with storage access denied cannot observe or modify the account", "statement": "Any sequence of storage host calls made while access is denied leaves every balance and every variable unchanged and returns no stored data.", "quantifier": "every sequence of host calls with any arguments, every state", "why_tests_cant": "Sequences of arbitrary length.", "anchors": ["crates/host/runtime/src/func_env.rs FuncEnv::storage, FuncEnv::storage_mut", "crates/host/runtime/src/vmcalls/storage.rs", "crates/host/runtime/src/runtime/runtime.rs Runtime::verify, Runtime::call_alloc"]}
{"id": "C25", "title": "Every account whose balance changed is reported as touched", "statement": "The set of touched accounts after a sequence of host calls contains the executing account and every account whose balance differs from the start; and success receipts of calls and spawns list all of these (and for a spawn the new account and the principal).", "quantifier": "every sequence of host calls", "why_tests_cant": "Unbounded sequences.", "anchors": ["crates/host/runtime/src/vmcalls/transfer.rs svm_transfer", "crates/host/runtime/src/func_env.rs touched_accounts"]}
{"id": "C26", "title": "A failed call leaves no effects", "statement": "If a call transaction returns a failure receipt, then no later commit, of this or of any other transaction, contains a write made by that call.", "quantifier": "every state, every program behaviour, every later history", "why_tests_cant": "Requires reasoning about what later transactions commit.", "anchors": ["crates/host/runtime/src/runtime/runtime.rs Runtime::call, Runtime::exec_call, outcome_to_receipt, commit_changes"]}
{"id": "C27", "title": "A successful call commits exactly one layer and reports its fingerprint", "statement": "A call that returns a success receipt has created exactly one new layer; the new-state field of the receipt is that layer's fingerprint and all writes of the call are readable at that layer.", "quantifier": "every state, every program behaviour", "why_tests_cant": "All program behaviours.", "anchors": ["crates/host/runtime/src/runtime/runtime.rs outcome_to_receipt, commit_changes"]}
{"id": "C28", "title": "Verification never changes state", "statement": "Running verification of a transaction, whatever the program does and whatever the result is, leaves every key readable with the same value and adds no layer.", "quantifier": "every program behaviour, every state, every transaction", "why_tests_cant": "All program behaviours.", "anchors": ["crates/host/runtime/src/runtime/runtime.rs Runtime::verify"]}
{"id": "C29", "title": "Verification can succeed", "statement": "If the program's verification function runs without trapping, verification returns a success receipt.", "quantifier": "every program whose svm_verify returns normally", "why_tests_cant": "Universal over programs.", "anchors": ["crates/host/runtime/src/runtime/runtime.rs Runtime::verify, outcome_to_receipt, commit_changes", "crates/host/runtime/src/func_env.rs storage_mut"]}
{"id": "C30", "title": "Constructors run only at spawn, and only constructors run at spawn", "statement": "A spawn naming a function that is not listed as constructor fails without creating an account or changing any state; a call naming a constructor fails without running any code or changing state.", "quantifier": "every template, every function name, every state", "why_tests_cant": "All templates and names.", "anchors": ["crates/host/runtime/src/runtime/runtime.rs Runtime::spawn, Runtime::ensure_ctor, Runtime::ensure_not_ctor, Runtime::validate_func_usage"]}
{"id": "C31", "title": "Two successful spawns create two accounts", "statement": "Spawning an account never overwrites an existing account.", "quantifier": "every pair of spawn messages", "why_tests_cant": "Tests spawn once per template.", "anchors": ["crates/host/runtime/src/runtime/runtime.rs compute_account_addr, Runtime::spawn", "crates/host/state/src/account_storage.rs AccountStorage::create"]}
{"id": "C32", "title": "Different templates are deployed at different addresses", "statement": "Deploying a template never replaces a previously deployed template that has different contents.", "quantifier": "every pair of templates, assuming a collision-free hash", "why_tests_cant": "Tests deploy one template per code.", "anchors": ["crates/host/types/src/address.rs", "crates/host/types/src/template/mod.rs compute_template_addr", "crates/host/runtime/src/runtime/runtime.rs Runtime::deploy"]}
{"id": "C33", "title": "Deploy charges by size and is all or nothing", "statement": "A deploy whose gas limit is below 1000 units per message byte returns out-of-gas and changes nothing; otherwise it succeeds, reports exactly that gas, and the stored template reads back with the deployed sections.", "quantifier": "every message that decodes, every gas limit, every state", "why_tests_cant": "All limits and messages.", "anchors": ["crates/host/runtime/src/runtime/runtime.rs Runtime::deploy", "crates/host/gas/src/lib.rs transaction::deploy", "crates/host/state/src/template_storage.rs"]}
{"id": "C34", "title": "Out of gas at spawn changes nothing", "statement": "A spawn whose gas limit does not exceed the payload price plus the constructor price returns out-of-gas, creates no account and changes no state.", "quantifier": "every state, message, gas limit and price", "why_tests_cant": "All limits.", "anchors": ["crates/host/runtime/src/runtime/runtime.rs Runtime::spawn, check_gas_for_payload, check_gas_for_func", "crates/host/runtime/src/runtime/gas_tank.rs"]}
{"id": "C35", "title": "Gas tank arithmetic", "statement": "Consuming charges one after another leaves gas exactly when the limit is strictly greater than their sum, the remainder is limit minus sum, an empty tank never becomes non-empty, and no sequence wraps around.", "quantifier": "every limit and every finite sequence of charges", "why_tests_cant": "All sequences and u64 values.", "anchors": ["crates/host/runtime/src/runtime/gas_tank.rs GasTank"]}
{"id": "C36", "title": "Optional gas arithmetic is safe", "statement": "Adding, subtracting and comparing optional gas values never wraps silently, and treats the absent value as specified.", "quantifier": "every pair of values", "why_tests_cant": "All u64 pairs.", "anchors": ["crates/host/types/src/gas/mod.rs"]}
{"id": "C37", "title": "Envelope encoding is lossless", "statement": "Encoding an envelope and decoding the bytes, followed by anything, gives back the same envelope and leaves the rest unread; the encoding is always 60 bytes.", "quantifier": "every envelope, every suffix", "why_tests_cant": "All u64/u128 field values.", "anchors": ["crates/host/codec/src/codec.rs Codec for Envelope, Codec for Gas"]}
{"id": "C38", "title": "Call transaction encoding is lossless", "statement": "Encoding a transaction whose variable-length fields fit their length prefixes and decoding the bytes (followed by anything) returns the same transaction; oversized fields are refused rather than truncated.", "quantifier": "every transaction, every suffix", "why_tests_cant": "All strings and byte vectors.", "anchors": ["crates/host/codec/src/codec.rs Codec for Transaction, Codec for String, DataWithPrefix"]}
{"id": "C39", "title": "Spawn and context encodings are lossless", "statement": "Encoding a spawn message or a context and decoding the bytes (followed by anything) returns the same value.", "quantifier": "every value, every suffix", "why_tests_cant": "All values.", "anchors": ["crates/host/codec/src/codec.rs Codec for SpawnAccount, Codec for Context"]}
{"id": "C40", "title": "Message encodings are unambiguous", "statement": "Two different values of the same message type never have the same encoding, and no encoding is a proper prefix of another.", "quantifier": "every pair of values of each message type", "why_tests_cant": "Pairs of unbounded values.", "anchors": ["crates/host/codec/src/codec.rs"]}
{"id": "C41", "title": "Decoding untrusted call, spawn, envelope and context bytes never panics", "statement": "For every byte string the decoders of envelope, context, call and spawn messages return a value or an error; when they return a value, re-encoding it reproduces the consumed bytes (up to the canonical form of gas 0).", "quantifier": "every byte string", "why_tests_cant": "All byte strings.", "anchors": ["crates/host/codec/src/codec.rs", "crates/host/codec/src/ext.rs"]}
{"id": "C42", "title": "Decoding untrusted template bytes never panics", "statement": "For every byte string the template decoder used when validating a deploy message returns a template or an error.", "quantifier": "every byte string", "why_tests_cant": "All byte strings.", "anchors": ["crates/host/codec/src/template.rs", "crates/host/codec/src/section"]}
{"id": "C43", "title": "Template sections encoding is lossless", "statement": "Encoding sections (code, data layout, constructors, header, deploy) and decoding the bytes returns the same sections in the same order.", "quantifier": "every set of sections with distinct kinds", "why_tests_cant": "All sections contents.", "anchors": ["crates/host/codec/src/section", "crates/host/codec/src/template.rs"]}
{"id": "C44", "title": "Decoding only the interesting sections agrees with decoding all", "statement": "Decoding a template with a list of interesting section kinds returns exactly the sections of the full decode whose kind is listed.", "quantifier": "every encoded sections list, every list of kinds", "why_tests_cant": "All subsets and contents.", "anchors": ["crates/host/codec/src/section/decode.rs", "crates/host/codec/src/section/preview.rs"]}
{"id": "C45", "title": "Receipts of successful transactions encode without loss", "statement": "Encoding the receipt of a successful deploy, spawn or call whose fields fit their prefixes and decoding it gives back the same receipt.", "quantifier": "every receipt", "why_tests_cant": "All receipts.", "anchors": ["crates/host/codec/src/receipt"]}
{"id": "C46", "title": "Failure receipts encode without loss", "statement": "Encoding a failure receipt and decoding it gives back the same error and logs.", "quantifier": "every receipt", "why_tests_cant": "All error messages, including non-ASCII ones longer than 255 bytes.", "anchors": ["crates/host/codec/src/receipt"]}
{"id": "C47", "title": "Floating point code is rejected at deploy", "statement": "A program accepted by deploy validation contains no instruction that computes with floating point numbers.", "quantifier": "every program", "why_tests_cant": "All programs; a missing opcode in a list is invisible to tests that try other opcodes.", "anchors": ["crates/host/program/src/program.rs", "crates/host/program/src"]}
{"id": "C48", "title": "Accepted programs have no loops, no indirect calls and no recursion", "statement": "The gas validation accepts a program exactly when no function contains a loop or an indirect call and the call relation between functions is acyclic.", "quantifier": "every program", "why_tests_cant": "All call graphs.", "anchors": ["crates/host/gas/src/validation.rs validate_wasm", "crates/host/gas/src/call_graph"]}
{"id": "C49", "title": "Topological sort is correct", "statement": "Sorting succeeds exactly when the graph has no cycle, and then returns every node exactly once with every edge pointing forward.", "quantifier": "every finite directed graph without self loops", "why_tests_cant": "All graphs.", "anchors": ["crates/host/gas/src/graph/sort.rs"]}
{"id": "C50", "title": "The reported call cycle is a cycle of the program", "statement": "When validation with cycle reporting rejects a recursive program it reports a list of functions in which each calls the next and the last equals the first.", "quantifier": "every program", "why_tests_cant": "All graphs, including cycles with tails and several components.", "anchors": ["crates/host/gas/src/graph/sort.rs derive_cycle, find_cycle"]}
{"id": "C51", "title": "Every execution of an accepted program terminates within a static bound", "statement": "In an accepted program every chain of nested calls visits each function at most once, and every execution executes at most a number of instructions fixed by the program text.", "quantifier": "every accepted program, every execution", "why_tests_cant": "All executions.", "anchors": ["crates/host/gas/src/validation.rs", "crates/host/program/src/visitor.rs"]}
{"id": "C52", "title": "The static price bounds the cost of every execution", "statement": "The price computed for a function is at least the total price of the priced instructions executed by any run of that function, including the functions it calls.", "quantifier": "every accepted program, every function, every execution path", "why_tests_cant": "The number of paths is exponential.", "anchors": ["crates/host/gas/src/pricing", "crates/host/gas/src/cfg", "crates/host/gas/src/graph/weight.rs"]}
{"id": "C53", "title": "The maximum path computation is exact", "statement": "On an acyclic graph whose nodes are all reachable from the start, the computed weight is the maximum of the weights of all paths from start to end, and the returned path attains it.", "quantifier": "every weighted graph", "why_tests_cant": "Exponentially many paths.", "anchors": ["crates/host/gas/src/graph/weight.rs compute_max_weight_path"]}
{"id": "C54", "title": "Pricing an accepted program never crashes", "statement": "Price computation terminates without panic on every program that passed validation.", "quantifier": "every accepted program", "why_tests_cant": "Depends on the shape of dead code after branches.", "anchors": ["crates/host/gas/src/graph/weight.rs prune_unreachable_nodes", "crates/host/gas/src/pricing", "crates/host/gas/src/cfg/builder.rs"]}
{"id": "C55", "title": "Prices do not wrap around", "statement": "The price used for the gas check equals the mathematical sum of instruction prices on the most expensive path.", "quantifier": "every accepted program", "why_tests_cant": "Needs programs with exponentially large prices.", "anchors": ["crates/host/gas/src/pricing", "crates/host/gas/src/graph/weight.rs"]}
{"id": "C56", "title": "Gas range algebra is sound", "statement": "The alternative of two gas ranges contains every value of either range, the sequence of two ranges contains the sum of any value of the first with any value of the second, and the bounds are attained.", "quantifier": "every pair of ranges", "why_tests_cant": "All u64 ranges.", "anchors": ["crates/host/gas/src/gas.rs"]}
{"id": "C57", "title": "Cached template prices are the computed prices", "statement": "The price returned from the cache for a template equals the price computed from that template's program.", "quantifier": "every sequence of price queries", "why_tests_cant": "Sequences of queries; the cache key is the template address only.", "anchors": ["crates/host/runtime/src/runtime/price_cache.rs"]}
{"id": "C58", "title": "ABI values round trip", "statement": "Encoding any sequence of ABI values (booleans, integers of all widths, amounts, addresses, unit, none, and arrays of up to ten of these) and decoding the bytes returns the same sequence and then reports the end.", "quantifier": "every sequence of values", "why_tests_cant": "All values and sequences.", "anchors": ["crates/wasm/abi-encoder/src", "crates/wasm/abi-decoder/src", "crates/wasm/abi-layout/src/lib.rs"]}
{"id": "C59", "title": "The declared byte size of an ABI value is its encoded length", "statement": "For every ABI value the byte size announced before encoding equals the number of bytes the encoder writes and never exceeds the type's maximum.", "quantifier": "every value of every supported type", "why_tests_cant": "All integers; arrays of every length.", "anchors": ["crates/wasm/abi-encoder/src/traits.rs", "crates/wasm/abi-encoder/src/types"]}
{"id": "C60", "title": "Everything the ABI encoder accepts the decoder accepts", "statement": "No value accepted by the encoder makes the decoder panic or fail.", "quantifier": "every value, including nested arrays", "why_tests_cant": "Nested values of any shape.", "anchors": ["crates/wasm/abi-decoder/src/decoder.rs"]}
{"id": "C61", "title": "Fixed capacity vectors behave like lists", "statement": "The SDK's vector behaves like a list with a capacity: push appends and refuses when full, pop removes the last element and refuses when empty, clear empties it, and iteration yields the elements in order.", "quantifier": "every sequence of operations", "why_tests_cant": "Unbounded sequences.", "anchors": ["crates/wasm/sdk-std/src/vec.rs"]}
{"id": "C62", "title": "Integers print as their decimal representation", "statement": "The SDK's to_string of any 8 to 64 bit signed or unsigned integer is its canonical decimal representation.", "quantifier": "every integer", "why_tests_cant": "2^64 values.", "anchors": ["crates/wasm/sdk-std/src/string/traits.rs", "crates/wasm/sdk-std/src/string/builder.rs"]}
{"id": "C63", "title": "Contract storage structs get disjoint variables", "statement": "The variable ids and byte ranges that the storage macro assigns to the fields of a struct, including every cell of every array field, are pairwise disjoint, and out-of-range array indices are refused.", "quantifier": "every struct, every pair of cells", "why_tests_cant": "Structs with any number of fields.", "anchors": ["crates/wasm/sdk-macros/src/struct/storage.rs storage_vars", "crates/wasm/sdk-storage/src/lib.rs cell_offset"]}
{"id": "C64", "title": "Static allocation returns fresh memory", "statement": "Successive static allocations return non-overlapping regions inside the reserved memory.", "quantifier": "every sequence of allocation sizes", "why_tests_cant": "Sequences of sizes.", "anchors": ["crates/host/runtime/src/vmcalls/alloc.rs", "crates/wasm/sdk-alloc/src"]}
{"id": "C65", "title": "FFI handles: only live runtimes are usable and counting is exact", "statement": "A runtime pointer is accepted exactly between its creation and its destruction, destroying twice or destroying an unknown pointer is an error without effect, and the reported number of runtimes is the number created minus the number destroyed.", "quantifier": "every interleaving of create, use and destroy operations", "why_tests_cant": "All interleavings.", "anchors": ["crates/host/runtime-ffi/src/resource_tracker.rs", "crates/host/runtime-ffi/src/c_api.rs svm_runtime_create, svm_runtime_destroy, svm_runtimes_count"]}
{"id": "C66", "title": "Wasm exchange buffers keep length within capacity and round trip", "statement": "A buffer allocated for a result carries exactly the marker and data given, and its length never exceeds its capacity.", "quantifier": "every data", "why_tests_cant": "All data lengths.", "anchors": ["crates/host/codec/src/api/wasm/buffer.rs"]}
{"id": "C67", "title": "Variables of size zero are harmless", "statement": "Reading or writing a variable whose size is zero bytes succeeds, like for any other variable of a layout that the template decoder accepts.", "quantifier": "every layout with a variable of size zero, every state, with and without overflow checks", "why_tests_cant": "Layouts used in tests have no empty variables, and whether the code panics depends on the offset of the variable and on the build profile.", "anchors": ["crates/host/state/src/account_storage.rs var_segments, Segment::len, AccountStorage::get_var, AccountStorage::set_var_bytes", "crates/host/layout/src/lib.rs FixedLayoutBuilder"]}
{"id": "C68", "title": "A call can change only its own variables", "statement": "Whatever the program of the called account does and however the call ends, every stored record except the variables of the called account and the balances and counters of accounts reads as before; in particular names, templates of accounts, variables of other accounts and deployed templates are unchanged.", "quantifier": "every program behaviour, every message, every reachable state, every key", "why_tests_cant": "Programs are arbitrary Wasm code and can call the host functions in any order with any arguments.", "anchors": ["crates/host/runtime/src/vmcalls/*", "crates/host/runtime/src/runtime/runtime.rs exec_call, call", "crates/host/state/src/account_storage.rs"]}
{"id": "C69", "title": "A spawn can change only the spawned account", "statement": "However a spawn ends, every stored record except the record and the variables of the account at the computed address and the balances and counters of accounts reads as before.", "quantifier": "every constructor behaviour, every message, gas limit, price and reachable state, every key", "why_tests_cant": "The constructor is arbitrary Wasm code.", "anchors": ["crates/host/runtime/src/runtime/runtime.rs spawn, call_ctor, create_account"]}
{"id": "C70", "title": "Decoded templates survive storing", "statement": "If a byte string decodes as sections and these encode again, then the new encoding (with anything after it) decodes to the same sections; and they do encode again unless there are 255 constructors or 65535 variables in a layout.", "quantifier": "every byte string shorter than 2^32-1 bytes", "why_tests_cant": "Byte strings that decode but are not themselves output of the encoder are the interesting ones and there are infinitely many.", "anchors": ["crates/host/codec/src/section/*", "crates/host/codec/src/section"]}
{"id": "C71", "title": "Deploy validation does not crash on hostile modules", "statement": "Validating a deploy returns either a program or an error for every module: it never panics.", "quantifier": "every byte string and every module it parses to, builds with and without debug assertions", "why_tests_cant": "All modules, including ones whose exports refer to imported functions or to functions that do not exist.", "anchors": ["crates/host/program/src/program.rs module_validate_exports, export_func_signature", "crates/host/runtime/src/runtime/runtime.rs validate_deploy"]}
{"id": "C72", "title": "Accepted programs export the two required functions", "statement": "A program accepted by deploy validation has exactly one export named svm_alloc and one named svm_verify, each is a function defined in the module (not imported), the first of type (i32) -> i32 and the second of type () -> i32.", "quantifier": "every module", "why_tests_cant": "All modules, including ones with repeated export names and other kinds of exports.", "anchors": ["crates/host/program/src/program.rs module_validate_exports, validate_func_signature", "crates/host/program/src/exports.rs"]}
{"id": "C73", "title": "Bound on the number of functions", "statement": "A program accepted by Program::new has at most 65535 functions, counting imported and defined ones together, as its documentation says.", "quantifier": "every module", "why_tests_cant": "Needs modules with tens of thousands of functions and all numbers of imports.", "anchors": ["crates/host/program/src/program.rs Program, count_functions_in_program", "crates/host/program/src/import.rs"]}
{"id": "C74", "title": "Typed arguments are read back as they were passed", "statement": "For every sequence of arguments of supported Rust types (unit, booleans, addresses, amounts, integers, options of these and arrays of one to ten of these), encoding them and reading them with next_1 to next_6 at the same types returns the same arguments and leaves what follows; reading at another type never yields a different ABI value.", "quantifier": "every sequence of types and values, any following bytes", "why_tests_cant": "All types, lengths and values; the tests use a few.", "anchors": ["crates/wasm/abi-decoder/src/calldata.rs", "crates/wasm/sdk-types/src/value.rs From<Value>", "crates/wasm/abi-encoder/src/types"]}
{"id": "C75", "title": "ABI encodings are canonical", "statement": "Bytes that decode to an ABI value are exactly the encoding of that value, followed by what the decoder leaves unread; so no two byte strings carry the same arguments.", "quantifier": "every byte string", "why_tests_cant": "All byte strings, including hand-made ones no encoder produces.", "anchors": ["crates/wasm/abi-decoder/src/decoder.rs", "crates/wasm/abi-encoder/src/types/numeric.rs"]}
{"id": "C76", "title": "The data section describes the same variables as the storage struct", "statement": "For every storage struct, the data section that the CLI derives from the metadata of the struct gives, for each cell that the generated accessors use, a variable with the same id and with exactly the number of bytes of the type of the cell; the variables follow each other without gaps or overlaps from offset 0, and there are no other variables.", "quantifier": "every storage struct: any number of fields, arrays of any length", "why_tests_cant": "All structs and array lengths; the tests use three small ones, and ids and offsets are computed in different crates.", "anchors": ["crates/wasm/sdk-macros/src/struct/storage.rs", "crates/host/cli/src/subcmd_craft_deploy/meta.rs data_section", "crates/host/layout/src/fixed.rs"]}
{"id": "C77", "title": "Storage accessors behave like struct fields", "statement": "In an account deployed from a contract whose data section matches its storage struct, a getter returns what the last setter of the same field and index stored, setters leave all other fields and array items as they were, accesses out of the range of an array never change anything, and fields of a new account read as zero.", "quantifier": "every storage struct, field, index, value, prior state and host environment with room for the operands", "why_tests_cant": "All structs, states and values; passes through the macro, the host functions and the account storage, which are tested separately with mocks.", "anchors": ["crates/wasm/sdk-macros/src/struct/storage.rs", "crates/wasm/sdk-storage-ffi/src/lib.rs", "crates/host/runtime/src/vmcalls", "crates/host/state/src/account_storage.rs"]}
{"id": "C78", "title": "An address read from the storage stays what it was", "statement": "An address that a getter returned (a pointer into the program's memory) denotes the same 20 bytes after the program reads further addresses and after it allocates memory and fills what it got.", "quantifier": "every environment, memory, stored address and size of the allocation", "why_tests_cant": "The mock host allocates with the native allocator; needs all sizes and orders of allocations with the real one.", "anchors": ["crates/wasm/sdk-storage-ffi/src/lib.rs get_addr", "crates/host/runtime/src/vmcalls/alloc.rs", "crates/wasm/sdk-types/src/blob.rs"]}
{"id": "C79", "title": "A failed creation of a runtime does not prevent later ones", "statement": "After the library has been initialised, creating a runtime with valid arguments succeeds, whatever calls were made before, including creations that failed.", "quantifier": "every sequence of calls of the C API", "why_tests_cant": "Tests create runtimes that succeed; the effect of a panic on a lock shared by later calls needs all histories.", "anchors": ["crates/host/runtime-ffi/src/c_api.rs svm_init, svm_runtime_create"]}
{"id": "C80", "title": "Destroying a runtime frees it", "statement": "After every created runtime has been destroyed no memory of a runtime is left allocated.", "quantifier": "every sequence of calls of the C API", "why_tests_cant": "A leak is not observable through the API; needs the ownership of the box over all histories.", "anchors": ["crates/host/runtime-ffi/src/c_api.rs svm_runtime_destroy", "crates/host/runtime-ffi/src/resource_tracker.rs"]}
{"id": "C81", "title": "Results of the C API own their memory", "statement": "A result carries the bytes it was made from; dropping it returns exactly its buffer to the allocator, once, and releases nothing else; a receipt obtained by unwrap is still allocated.", "quantifier": "every heap, bytes and kind of result", "why_tests_cant": "Double frees and releases of null are undefined behaviour that usually goes unnoticed.", "anchors": ["crates/host/runtime-ffi/src/result.rs", "crates/host/runtime-ffi/src/c_api.rs svm_free_result"]}
{"id": "C82", "title": "svm_get_account reports the account", "statement": "A successful svm_get_account fills in the address, balance, counter and template of the account; after svm_create_genesis_account these are the values it was given.", "quantifier": "every state, address, balance and counter halves", "why_tests_cant": "All 128 bit counters through two 64 bit halves, in every state.", "anchors": ["crates/host/runtime-ffi/src/c_api.rs svm_account, svm_get_account, svm_create_genesis_account"]}
{"id": "C83", "title": "Transactions pass the C API unchanged", "statement": "The deploy, spawn, verify and call functions of the C API run the action of the runtime on exactly the envelope, message and context that the caller encoded, whatever follows in memory, and return the encoded receipt; no envelope or context bytes are refused, and unknown runtimes are.", "quantifier": "every action, envelope, message, context, state and surrounding memory", "why_tests_cant": "All byte strings and all actions, including panicking ones.", "anchors": ["crates/host/runtime-ffi/src/c_api.rs svm_runtime_action", "crates/host/codec/src/codec.rs"]}
{"id": "C84", "title": "JSON input data round trip", "statement": "Decoding input data that was encoded from JSON returns the same types and the same items, up to the case of the digits of addresses.", "quantifier": "every JSON object the encoder accepts", "why_tests_cant": "All types, nesting depths and items; the repository tests a handful of literals.", "anchors": ["crates/host/codec/src/api/json/inputdata.rs encode_inputdata, decode_inputdata"]}
{"id": "C85", "title": "The JSON encoder of input data never panics", "statement": "encode_inputdata succeeds exactly on objects whose items have the declared types, and returns an error on everything else, without panicking.", "quantifier": "every JSON value", "why_tests_cant": "All JSON values, including ill-typed ones.", "anchors": ["crates/host/codec/src/api/json/inputdata.rs EncodedOrDecoded, InputData, encode_inputdata"]}
{"id": "C86", "title": "Shown input data can be encoded again", "statement": "Whatever bytes the decoder of input data shows as JSON, the JSON is accepted by the encoder and shown alike again.", "quantifier": "every byte string the decoder accepts", "why_tests_cant": "All byte strings, including non-canonical ones.", "anchors": ["crates/host/codec/src/api/json/inputdata.rs calldata_to_json, encode_inputdata"]}
{"id": "C87", "title": "JSON call round trip", "statement": "Decoding a call encoded from JSON returns a call with the same version, target, function name, verify data and call data.", "quantifier": "every JSON object encode_call accepts", "why_tests_cant": "All calls, with input data given in either form and lists of any lengths.", "anchors": ["crates/host/codec/src/api/json/call.rs encode_call, encode_call_raw, decode_call", "crates/host/codec/src/api/json/inputdata.rs"]}
{"id": "C88", "title": "The JSON decoders of calls and spawns never panic", "statement": "Given any bytes, decode_call and decode_spawn return JSON or an error.", "quantifier": "every byte string", "why_tests_cant": "All byte strings; the failures need particular input data.", "anchors": ["crates/host/codec/src/api/json/call.rs decode_call", "crates/host/codec/src/api/json/spawn.rs decode_spawn"]}
{"id": "C89", "title": "The JSON of a receipt determines the receipt", "statement": "Two receipts shown as the same JSON are of the same kind and agree in success, error, address, state, returned data, gas, touched accounts and logs.", "quantifier": "every two receipts, orders of the touched accounts and build modes", "why_tests_cant": "All pairs of receipts; the collisions lie at gas of 2^63 and more.", "anchors": ["crates/host/codec/src/api/json/receipt.rs", "crates/host/codec/src/api/json/mod.rs gas_to_json, logs_to_json"]}
{"id": "C90", "title": "decode_receipt shows what was encoded", "statement": "decode_receipt applied to the encoding of a receipt of a successful transaction shows that receipt as JSON and does not panic.", "quantifier": "every successful receipt, orders of the touched accounts, build modes", "why_tests_cant": "All receipts, with arbitrary bytes in logs.", "anchors": ["crates/host/codec/src/api/json/receipt.rs decode_receipt", "crates/host/codec/src/receipt/mod.rs"]}
{"id": "C91", "title": "Transactions conserve the total of all balances", "statement": "Every transaction (deploy, spawn, call, verify) that ends with a receipt, whether of success or failure, leaves the sum of the balances of all accounts as it was; so does every sequence of such transactions.", "quantifier": "every reachable storage, engine, template, message, price cache, hash-map order and list of accounts that names all holders of coins once", "why_tests_cant": "An inductive invariant over all programs and all histories of transactions.", "anchors": ["crates/host/runtime/src/runtime/runtime.rs call", "crates/host/runtime/src/runtime/runtime.rs spawn", "crates/host/runtime/src/vmcalls/transfer.rs svm_transfer", "crates/host/state/src/account_storage.rs create"]}
{"id": "C92", "title": "Nonce counters never go down", "statement": "No transaction, whatever its outcome, lowers the nonce counter of an existing account.", "quantifier": "every reachable storage, engine, message and account", "why_tests_cant": "All programs and histories.", "anchors": ["crates/host/runtime/src/runtime/runtime.rs spawn", "crates/host/state/src/account_storage.rs create", "crates/host/state/src/account_storage.rs set_counter"]}
{"id": "C93", "title": "An account that no program debits keeps its coins", "statement": "If no program ever asks for a transfer from account A, then no transaction, whatever its outcome, lowers the balance of A.", "quantifier": "every reachable storage, engine whose programs do not transfer from A, message", "why_tests_cant": "All programs that satisfy the condition, all interleavings of host calls.", "anchors": ["crates/host/runtime/src/vmcalls/transfer.rs svm_transfer", "crates/host/runtime/src/runtime/runtime.rs spawn"]}
{"id": "C94", "title": "Nodes that get the same calls agree", "statement": "Two nodes start from the same genesis and get the same calls of public functions in the same order: deployments, spawns, calls, verifications, creations of accounts, credits, payments, queries, commits, rewinds. Whatever the iteration orders of their hash maps, they give the same answers (receipts with their state hashes included, and also the same panics), and afterwards every key reads the same at every layer on both.", "quantifier": "every genesis, list of calls, engine, pricer, hash function and two streams of hash-map orders", "why_tests_cant": "The iteration order of a Rust HashMap is random per process; agreement is over all pairs of orders at every step of all histories.", "anchors": ["crates/host/state/src/storage.rs checkpoint", "crates/host/state/src/storage.rs commit", "crates/host/runtime/src/runtime/runtime.rs commit_changes"]}
{"id": "C95", "title": "Whatever a public function has changed can be committed", "statement": "After a deployment, spawn, call, creation of an account, credit or payment that reports success, a commit succeeds.", "quantifier": "every storage, engine, pricer, call of a public function, and any calls that follow", "why_tests_cant": "The wrong behaviour persists over all continuations of a history.", "anchors": ["crates/host/runtime/src/runtime/runtime.rs commit", "crates/host/runtime/src/runtime/runtime.rs commit_changes", "crates/host/runtime/src/runtime/runtime.rs increase_balance", "crates/host/state/src/storage.rs commit"]}
{"id": "C96", "title": "An SDK endpoint gets the arguments that were sent", "statement": "A template written with the SDK is called with the encoding of arguments of the types that the endpoint declares, and its memory is large enough. Then the endpoint's body runs on values that mean exactly these arguments: equal numbers and flags, and addresses that point to the bytes that were sent.", "quantifier": "every endpoint and body, list of parameter types and arguments, memory, environment, and layout of decoded values chosen by the compiler", "why_tests_cant": "Whether the vectors of decoded arrays run into calldata not yet read depends on the sizes of all arguments together; the SDK's tests run with a mock host that uses the allocator of the operating system, never the bump allocator of the runtime.", "anchors": ["crates/wasm/sdk-macros/src/function/endpoint.rs expand_prologue", "crates/wasm/abi-decoder/src/decoder.rs decode_array", "crates/wasm/sdk-std/src/vec.rs with_capacity", "crates/host/runtime/src/func_env.rs static_alloc", "crates/host/runtime/src/runtime/runtime.rs call_with_alloc"]}
{"id": "C97", "title": "The returndata of an SDK endpoint is the encoding of its result", "statement": "An endpoint's body ends with a value, and there is enough memory. Then the returndata in the receipt is the encoding of what the value meant when the body ended.", "quantifier": "every result type, value, memory and environment; for addresses every place in memory; every endpoint that returns its last argument", "why_tests_cant": "The buffer of the returndata may overlap an address that is still to be read; for which calls depends on the byte sizes of the other arguments.", "anchors": ["crates/wasm/sdk-macros/src/function/endpoint.rs expand_epilogue", "crates/wasm/abi-encoder/src/types/address.rs encode", "crates/wasm/sdk-types/src/blob.rs", "crates/host/runtime/src/func_env.rs static_alloc", "crates/host/runtime/src/runtime/runtime.rs take_returndata"]}
{"id": "C98", "title": "No calldata crashes the runtime", "statement": "If the code of an endpoint written with the SDK does not crash the runtime, then calling the endpoint does not, whatever bytes are sent: at worst the call fails.", "quantifier": "every endpoint, calldata, memory, environment and layout of decoded values", "why_tests_cant": "The calldata are arbitrary bytes from the network, of any length; the property is about all of them.", "anchors": ["crates/host/runtime/src/runtime/runtime.rs set_calldata", "crates/host/runtime/src/func_env.rs static_alloc", "crates/host/runtime/src/vmcalls/calldata.rs calldata_offset", "crates/wasm/abi-decoder/src/calldata.rs next"]}
{"id": "C99", "title": "A template written with the SDK can be instantiated", "statement": "Whatever functions of the SDK a template uses (storage, calldata, returndata, allocation, logging, the value, balance, addresses and layer of the transaction, transfers), the runtime provides every host function it imports, so that its code is instantiated and runs.", "quantifier": "every module, every set of SDK functions it uses, every call, environment and state", "why_tests_cant": "The templates of the test suite import hand-picked host functions, and the tests of the SDK run natively with a mock host; that the two sides agree on namespace, name and type of each function is a statement about all combinations.", "anchors": ["crates/wasm/sdk-host-ffi/src/ext.rs", "crates/wasm/sdk-storage-ffi/src/ext.rs", "crates/wasm/sdk-alloc/src/lib.rs", "crates/wasm/sdk-std/src/log.rs", "crates/host/runtime/src/vmcalls/mod.rs wasmer_register", "crates/host/runtime/src/runtime/runtime.rs create_import_object"]}
{"id": "C100", "title": "Every function of a template has at most one role", "statement": "In every template that the macro #[template] accepts, each function is a constructor, an endpoint, a fundable hook or a helper, never two of these; only constructors and endpoints take coins; the exported functions and the metadata are exactly the constructors and endpoints, each with its kind.", "quantifier": "every module with any items, functions and attributes in any order", "why_tests_cant": "The macro's tests try single combinations of attributes; the set of accepted combinations is a statement about all lists of attributes.", "anchors": ["crates/wasm/sdk-macros/src/function/mod.rs validate_attrs", "crates/wasm/sdk-macros/src/function/attr.rs", "crates/wasm/sdk-macros/src/template.rs", "crates/wasm/sdk-macros/src/meta.rs"]}
{"id": "C101", "title": "Coins are announced to a fundable hook", "statement": "The function that a fundable constructor or endpoint calls when it gets coins is a function of the template marked #[fundable_hook], namely the one it names or else the default hook, or the empty hook that the macro adds if there is no default hook; and functions that are not marked #[fundable] call none.", "quantifier": "every accepted template and each of its functions", "why_tests_cant": "Tests look at templates where the names are right; that no accepted template names another function is about all templates.", "anchors": ["crates/wasm/sdk-macros/src/function/fundable.rs", "crates/wasm/sdk-macros/src/function/fundable_hook.rs", "crates/wasm/sdk-macros/src/template.rs extract_default_fundable_hook", "crates/wasm/sdk-macros/src/function/endpoint.rs"]}
{"id": "C102", "title": "The crafted deploy message is the template", "statement": "For every template that the macro accepts and every Wasm file, craft-deploy writes a message that decodes, in any build and followed by any bytes, to that Wasm file, to exactly the functions marked #[ctor] as constructors, and to a layout that matches the cells of the storage struct; its self tests pass, and after a deploy of it the stored template has these.", "quantifier": "every accepted template, every order in which the metadata list the exports, every Wasm file, both builds, every storage and sufficient gas", "why_tests_cant": "The CLI tests one example file; limits on the number of constructors, cells and bytes and the arbitrary order of the metadata cannot be enumerated.", "anchors": ["crates/host/cli/src/subcmd_craft_deploy/mod.rs", "crates/host/cli/src/subcmd_craft_deploy/meta.rs", "crates/wasm/sdk-macros/src/meta.rs", "crates/wasm/sdk-macros/src/json.rs", "crates/host/codec/src/section/encode.rs"]}
{"id": "C103", "title": "Crafting a template is reproducible", "statement": "Compiling the same template twice and crafting deploy messages with the same Wasm file gives the same bytes.", "quantifier": "every accepted template, every two orders in which the metadata list the exports, every Wasm file", "why_tests_cant": "The order of a HashMap changes from run to run with a random seed; a test that passes once says nothing about the next run.", "anchors": ["crates/wasm/sdk-macros/src/meta.rs TemplateMeta::exports", "crates/wasm/sdk-macros/src/json.rs api", "crates/host/cli/src/subcmd_craft_deploy/meta.rs ctors_section"]}
{"id": "C104", "title": "A template address always stands for the same code", "statement": "At every point of every history of a node, the code of any template that can be loaded has the address it is loaded from and was brought in at genesis or by a deployment; the code loaded at an address is the same at any two points, and cached prices are the prices of the code that is loaded.", "quantifier": "every sequence of deployments, spawns, calls, verifications, account creations, credits, payments, commits and rewinds, every engine and pricer, every iteration order of the hash maps, every genesis configuration with templates at the addresses of their codes; hash collisions among the codes brought in are excluded", "why_tests_cant": "Rewinds restore older templates while the price cache keeps its entries; that the two never disagree is an invariant over all histories.", "anchors": ["crates/host/runtime/src/runtime/runtime.rs deploy, spawn, check_gas_for_func", "crates/host/runtime/src/runtime/price_cache.rs", "crates/host/state/src/global_state.rs init_genesis", "crates/host/types/src/address.rs compute_template_addr"]}
{"id": "C105", "title": "Genesis templates can be loaded as configured", "statement": "A node starts with every genesis configuration, and each configured template is loaded at its address, section by section as configured, for as long as nobody deploys there.", "quantifier": "every genesis configuration, every history without a deployment at the address, including rewinds to any layer", "why_tests_cant": "Tests start nodes with an empty or one fixed configuration.", "anchors": ["crates/host/state/src/global_state.rs GlobalState::new, init_genesis", "crates/host/genesis-config/src/lib.rs", "crates/host/types/src/template/section.rs Sections::remove_noncore", "crates/host/state/src/template_storage.rs"]}
{"id": "C106", "title": "The template of the main network can be spawned", "statement": "From the template that the main network is configured with, an account can be spawned by some message.", "quantifier": "every code file, every history without a deployment at the address, every spawn message and envelope", "why_tests_cant": "No test spawns from the genesis template; that no message at all works is a statement about all messages.", "anchors": ["crates/host/genesis-config/src/lib.rs GenesisConfig::mainnet, sct", "crates/host/runtime/src/runtime/runtime.rs spawn, validate_ctor"]}
{"id": "C107", "title": "The gas limit of a spawn covers what the spawn executes", "statement": "When the gas limit of a spawn does not exceed the price of its message plus the cost of some execution of svm_alloc (which runs when there is calldata) and of the constructor, nothing is changed.", "quantifier": "every history of a node in which all codes passed validate_deploy, every spawn message, every execution of the constructor and of svm_alloc in the code that the node loads, every gas limit", "why_tests_cant": "Relates every possible execution of every accepted program to a price that is computed once and cached across rewinds; the violation in release builds needs a price of 2^64.", "anchors": ["crates/host/runtime/src/runtime/runtime.rs spawn, check_gas_for_func, exec_prelude", "crates/host/runtime/src/runtime/price_cache.rs", "crates/host/gas/src/pricing/mod.rs", "crates/host/runtime/src/runtime/gas_tank.rs"]}
{"id": "C108", "title": "The gas check of a spawn never panics for a validated template", "statement": "When the code of a template passed validate_deploy and a spawn names one of the constructors of the template, the gas check of the spawn answers: it passes or reports out of gas.", "quantifier": "every history of a node in which all codes passed validate_deploy, every spawn of a declared constructor, every amount of gas", "why_tests_cant": "The check unwraps the exports, the pricing and the price of the function; which templates make one of them panic is a statement about all programs.", "anchors": ["crates/host/runtime/src/runtime/runtime.rs check_gas_for_func, validate_deploy", "crates/host/program/src/exports.rs", "crates/host/gas/src/pricing/func_price.rs"]}
{"id": "C109", "title": "A query shows the value that a program stored", "statement": "After a program has set a variable of an account through the SDK (a flag, an integer, an amount, or an address), a storage query with a schema that declares the variable's type shows that value.", "quantifier": "for all reachable storages, accounts, layouts, variables, types, values, and build modes", "why_tests_cant": "The tests of the query crate use one byte integers and a mock storage, so they cannot see that the renderer reads big endian what the host functions write little endian; the set of integers shown correctly is a property of all values.", "anchors": ["crates/host/query/src/render.rs:34-57", "crates/host/query/src/query.rs:46-54", "crates/host/state/src/account_storage.rs:165-230", "crates/wasm/sdk-storage/src/lib.rs:47-105"]}
{"id": "C110", "title": "A storage query answers all its requests", "statement": "A batch of storage requests whose reader returns as many bytes as the layout says returns one answer per request, in order, and never panics.", "quantifier": "for all schemas, readers and lists of requests", "why_tests_cant": "The tests run single requests on well formed variables; whether any request in any batch can take down the whole batch is a statement about all schemas and byte strings.", "anchors": ["crates/host/query/src/query.rs:79-91", "crates/host/query/src/render.rs:20-92", "crates/host/query/src/schema.rs:57-74"]}
{"id": "C111", "title": "Tests of a storage struct see what the chain would show", "statement": "A program that only uses the fields of its storage struct reads the same values, and stops at the same access, when it runs in a test with the mock of the storage and when it runs on the chain on an account whose storage was not touched before.", "quantifier": "for all storage structs whose layout was deployed, programs (which may depend on what they read), reachable storages and build modes of the runtime, the program and the test", "why_tests_cant": "The mock keeps typed values in a hash map while the chain keeps bytes at offsets of a fixed layout; that no program can tell them apart is a refinement between two implementations, for programs of any length.", "anchors": ["crates/wasm/sdk-storage-mock/src/lib.rs:20-112", "crates/wasm/sdk-macros/src/struct/storage.rs:386-400", "crates/wasm/sdk-storage/src/lib.rs:47-105", "crates/host/runtime/src/vmcalls/storage.rs:1-110"]}
{"id": "C112", "title": "The mock of the host returns the balance that was set", "statement": "After the balance of an address has been set in the mock of the host, every address with the same bytes has that balance.", "quantifier": "for all contents of the map, pointers, amounts and ways in which the hash map places pointers", "why_tests_cant": "Whether two equal addresses meet in the hash map depends on the random keys of the hasher and on the size of the table; a test sees one case.", "anchors": ["crates/wasm/sdk-host-mock/src/lib.rs:252-254", "crates/wasm/sdk-host-mock/src/lib.rs:276-278", "crates/wasm/sdk-types/src/blob.rs:9-20", "crates/wasm/sdk-types/src/blob.rs:129-133"]}
{"id": "C113", "title": "A transfer that succeeds in a test succeeds on the chain", "statement": "If the mock of the host knows the balances of the chain, a transfer that succeeds in the test succeeds on the chain, and afterwards the mock knows the balances again.", "quantifier": "for all reachable storages, mocks, accounts, amounts and build modes", "why_tests_cant": "It relates the mock with the runtime, which no test runs side by side, for all states and amounts.", "anchors": ["crates/wasm/sdk-host-mock/src/lib.rs:316-335", "crates/host/runtime/src/vmcalls/transfer.rs:19-54", "crates/wasm/sdk-types/src/amount.rs:28-60"]}
{"id": "C114", "title": "A reset of the mock of the host forgets everything", "statement": "After MockHost::reset, with which the tests start, nothing that earlier tests did can be observed.", "quantifier": "for all sequences of calls of the mock before the reset", "why_tests_cant": "The tests that reset the mock set the balances they need, so balances left behind by other tests of the same process remain unseen.", "anchors": ["crates/wasm/sdk-host-mock/src/lib.rs:280-288", "crates/wasm/sdk-host-mock/src/lib.rs:214-225"]}
{"id": "C115", "title": "A machine that runs an accepted program stops", "statement": "A machine that executes a function of a program which passed validate_wasm, instruction by instruction, stops after a number of instructions that can be computed from the program, whatever the instructions do with the data and whatever the host functions answer.", "quantifier": "for all accepted programs, functions, behaviours of the data instructions, states of the machine and answers of the host", "why_tests_cant": "Termination for all data and all host answers cannot be observed; a test that does not stop only times out.", "anchors": ["crates/host/gas/src/validation.rs", "crates/host/gas/src/detect_loops.rs", "crates/host/gas/src/call_graph/builder.rs", "crates/host/runtime/src/runtime/runtime.rs:229-259"]}
{"id": "C116", "title": "What a machine executes costs at most the price", "statement": "The instructions that a machine executes when it runs a function of an accepted program, summed up with the price table, never cost more than the price that was computed for the function.", "quantifier": "for all accepted and priced programs, functions, behaviours of the data instructions, states of the machine, answers of the host and build modes", "why_tests_cant": "The price is a maximum over all paths; tests execute a few of them, and the sums only go wrong beyond 64 bits.", "anchors": ["crates/host/gas/src/pricing/mod.rs", "crates/host/gas/src/pricing/func_price.rs", "crates/host/gas/src/pricing/resolver.rs"]}
{"id": "C117", "title": "No transaction makes a node hang", "statement": "A node that executes its templates with a machine never runs for ever: for every history of transactions there is an amount of fuel such that the answers and the state of the node do not depend on what happens when the fuel is used up.", "quantifier": "for all genesis templates, histories of calls of the runtime, Wasm engines that execute the code they are given, gas limits and build modes", "why_tests_cant": "It needs every reachable state, every program and every answer of the host; and a test cannot see that something never ends.", "anchors": ["crates/host/runtime/src/runtime/runtime.rs:88-159", "crates/host/runtime/src/runtime/runtime.rs:581-617", "crates/host/runtime/src/runtime/runtime.rs:553-579", "crates/host/gas/src/validation.rs"]}
{"id": "C118", "title": "The command line tool crafts the transaction its specification file describes, or nothing", "statement": "`svm-cli tx` succeeds exactly if the specification file is a JSON object that describes a call or a spawn: a version of 16 bits, an address of 40 hexadecimal digits, names and, for each list of input data, as many types as items, every item a value of its type, with names and encoded lists of at most 255 bytes. The file it writes is then decoded by the node to the transaction described: the same version, address and names, and the input data is the ABI encoding of the values the items stand for. In every other case the tool writes nothing and the output file keeps its contents.", "quantifier": "for all JSON values (and text that is not JSON), both types of transactions and all previous contents of the output file", "why_tests_cant": "Tests try a few specification files; the claim covers every JSON value, every nesting of arrays and every size, and what happens to the file on each failure.", "anchors": ["crates/host/cli/src/subcmd_tx.rs:41-101", "crates/host/codec/src/api/json/call.rs:39-50", "crates/host/codec/src/api/json/spawn.rs:20-37", "crates/host/codec/src/api/json/inputdata.rs"]}
{"id": "C119", "title": "The layers of a node are numbered one after the other, and the newest can be asked for", "statement": "At every point of every history of a node, current_layer answers with the number of the newest layer: the genesis is layer -1, every call, spawn and commit that succeeds adds one, a rewind that succeeds goes to the layer given, and nothing else changes the number.", "quantifier": "for all genesis configurations a node starts with, all finite histories of calls of the public functions, all hash functions, Wasm engines, prices and hash map orders", "why_tests_cant": "A test asks after a few chosen calls; the claim is about the count over every history, including failures at each stage of a transaction.", "anchors": ["crates/host/runtime/src/runtime/runtime.rs:485-487", "crates/host/runtime/src/runtime/runtime.rs:718-730", "crates/host/runtime/src/runtime/runtime.rs:858-868", "crates/host/state/src/global_state.rs:119-152"]}
{"id": "C120", "title": "A rewind undoes everything that happened since", "statement": "A node has just made layer n. Then anything may happen: deployments, spawns, calls, payments, commits, and rewinds that do not go behind n. If nothing is uncommitted then, a rewind to layer n succeeds, and from there on the node gives the same answers to every further history, receipts and state hashes included, as if nothing had happened since layer n, and reads the same values at every layer. In particular the prices it cached for templates that no longer exist have no effect.", "quantifier": "for all genesis configurations whose templates are at the addresses of their codes, all three histories, all engines, prices and hash map orders, if no two codes that are brought in have the same address and the hash function has no collisions on storage keys", "why_tests_cant": "A test rewinds after a few writes and reads a few keys; the claim compares all continuations, and has to account for the state that is not in the database.", "anchors": ["crates/host/runtime/src/runtime/runtime.rs:718-722", "crates/host/state/src/storage.rs:354-389", "crates/host/runtime/src/runtime/price_cache.rs", "crates/host/runtime/src/runtime/runtime.rs:421-447"]}
{"id": "C121", "title": "A credit adds exactly the amount, or panics without a trace", "statement": "increase_balance(a, amount) succeeds exactly if account a can be loaded and its balance plus the amount fits in 64 bits. Then the balance of a is larger by exactly the amount, and no other balance, no counter, name, template or variable of any account, and no template changes. In all other cases it panics, and the storage is as before.", "quantifier": "for all storages (with a collision-free hash), accounts and amounts, in both kinds of builds", "why_tests_cant": "A test credits one account with one amount; the claim includes every amount at which the sum overflows and every object that must stay as it is.", "anchors": ["crates/host/runtime/src/runtime/runtime.rs:490-505"]}
{"id": "C122", "title": "The coins of all accounts are those that were brought in", "statement": "At every point of every history of a node, the balances of all accounts together are exactly the coins that creations of accounts and credits brought in, less those that were undone by a rewind: deployments, spawns, calls, verifications, payments and commits neither make nor burn a coin, whether they succeed or fail, and a rewind to a layer restores the total of that layer.", "quantifier": "for all genesis configurations, all finite histories of calls of the public functions without a panic, all Wasm engines, prices and hash map orders", "why_tests_cant": "The total involves every account that ever existed and every transaction of a history with rewinds; tests look at a few accounts after a few transactions.", "anchors": ["crates/host/runtime/src/runtime/runtime.rs:490-551", "crates/host/runtime/src/runtime/runtime.rs:600-730"]}
{"id": "C123", "title": "A receipt shows what the program logged, returned and touched", "statement": "The receipt of a call or of a constructor shows the execution behind it: its logs are exactly the parts of the memory that the program gave to svm_log, in order and as they were at that moment, whether the execution succeeded or failed; a successful one has as returndata the bytes that the memory held at the end at the last place declared by svm_set_returndata (none if none was declared), and touches exactly the called account and the accounts that paid or were paid; a failed one has no returndata.", "quantifier": "for all storages, accounts, templates, Wasm modules and their behaviours, calldata, access modes and hash map orders", "why_tests_cant": "Programs may log, return and pay in any order and any number of times, in the start function, in svm_alloc and in the called function, and may stop anywhere; the tests check the receipts of a few fixed programs.", "anchors": ["crates/host/runtime/src/runtime/runtime.rs:117-271", "crates/host/runtime/src/runtime/runtime.rs:803-899", "crates/host/runtime/src/func_env.rs"]}
{"id": "C124", "title": "A call of an SDK endpoint answers with the encoding of what its body computes", "statement": "For a call message whose calldata encodes arguments of the declared types, to an account whose template is written with the SDK: if the memory is large enough and the body of the endpoint computes a value from exactly these arguments, the receipt is a success, its returndata is the encoding of that value, and the storage afterwards is what the body left.", "quantifier": "for all storages, accounts, endpoints and their bodies, argument and result types, values, memories, access modes and hash map orders", "why_tests_cant": "The way from the message to the receipt crosses the codec, the runtime, the host functions and the code generated by the macros; the tests run each part on a few values and never check that the memory given to arguments and results does not overlap for all types.", "anchors": ["crates/host/runtime/src/runtime/runtime.rs:117-271", "crates/wasm/sdk-macros/src/function/endpoint.rs:10-157", "crates/wasm/sdk-macros/src/template.rs:278-297"]}
{"id": "C125", "title": "A message that passed validate_deploy can be deployed, loaded and spawned from", "statement": "If validate_deploy accepts a message and the gas suffices, its deployment succeeds; the template can then be loaded at the reported address, has its code and its list of constructors (so that a spawn with another function is refused instead of crashing), and accounts can be created of it. What validate_call and validate_spawn accept are exactly the messages that begin with the encoding of a call or spawn, and what validate_deploy accepts has code, data and constructors and a code that passes the program checks.", "quantifier": "for all messages, Wasm readers, envelopes, storages, builds with and without debug checks, and all addresses, names, balances and counters of the created accounts", "why_tests_cant": "The validation and the deployment decode the message with different functions, and the account creation reads what was stored by them; the tests deploy a few templates made by the tools, never a message with unusual sections.", "anchors": ["crates/host/runtime/src/runtime/runtime.rs:531-617", "crates/host/codec/src/template.rs:73-88", "crates/host/state/src/account_storage.rs:63-91", "crates/host/state/src/account_storage.rs:331-340"]}
{"id": "C126", "title": "Nobody but an account's own program changes its name, template and variables", "statement": "Whatever a node does after some point - deployments, spawns, calls, verifications, payments, new accounts, commits, rewinds that do not go behind the layer of that point - the name, the template and every variable of an account read the same as at that point, as long as the account itself is not called and no account is created or spawned at its address. If also nobody deploys at the address of its template, the account loads as before.", "quantifier": "for all genesis configurations, all histories before and after the point, all accounts, all engines (programs), prices and hash map orders, if the hash function has no collisions on storage keys", "why_tests_cant": "It is about every history of events and every program run by other accounts; a test runs a few templates, none of which tries to reach another account's variables.", "anchors": ["crates/host/runtime/src/runtime/runtime.rs", "crates/host/runtime/src/vmcalls/*", "crates/host/state/src/account_storage.rs", "crates/host/state/src/storage.rs"]}
{"id": "C127", "title": "The counter template counts, from its source to the receipts", "statement": "The file that the CLI crafts from the counter template (a u32 variable, the constructor initialize, the endpoints add and mul) deploys if the gas suffices. An account spawned from it with initialize(init), which succeeds if the gas exceeds the price, holds init. From then on its value is what the calls make of it: add(n) and mul(n) answer with the old and the new value and store the new one, and on an overflow in builds with overflow checks they fail and store nothing; whatever else happens on the node (other deployments, spawns, calls, payments, commits, malformed calls of the counter itself) leaves the value or changes it as one operation would, until someone rewinds or replaces the account or the template.", "quantifier": "for all genesis configurations, all histories before the deployment, between it and the spawn, and after the spawn, all initial values and arguments, all template build modes, engines that compile the file to the SDK's module, prices, metadata orders and hash map orders, if the hash function has no collisions on storage keys", "why_tests_cant": "The tests of the counter deploy, spawn and call it once each, with small numbers and nothing in between; this is about every history, every value up to the overflow, and every malformed call.", "anchors": ["crates/host/runtime-ffi/tests/wasm/counter/src/lib.rs", "crates/host/runtime/src/runtime/runtime.rs", "crates/wasm/sdk-macros/src/function/endpoint.rs", "crates/host/cli/src/subcmd_craft_deploy/mod.rs"]}
{"id": "C128", "title": "A handle with a layer set reads the account as of that layer", "statement": "GlobalState::layer_query_parameter_mut says that the layer set there is used in all read operations. So an account that is loaded and read through such a handle shows, for ever after, the name, template, balance, counter, layout and every variable that it had when that layer was committed, as long as nobody rewinds behind the layer.", "quantifier": "for all histories before the layer, all later histories of programs (through handles with any parameter) and layer operations that do not rewind behind it, all accounts, variables, buffers and iteration orders, if the hash function has no collisions on storage keys", "why_tests_cant": "No test sets the parameter and reads a variable; the claim is about every later history and every read operation.", "anchors": ["crates/host/state/src/global_state.rs", "crates/host/state/src/account_storage.rs"]}
{"id": "C129", "title": "Setting the balance or the counter through any handle changes nothing else", "statement": "AccountStorage::set_balance changes the balance of the account and set_counter the counter; the other of the two, the name, the template, the variables and all other accounts stay as they are, whatever layer is set in the handle.", "quantifier": "for all reachable states, all handles, accounts, balances and counters, if the hash function has no collisions on storage keys", "why_tests_cant": "The record holds both fields and is read before it is written; no test does so through a handle with a layer, and none compares all other fields and accounts.", "anchors": ["crates/host/state/src/global_state.rs", "crates/host/state/src/account_storage.rs"]}
{"id": "C130", "title": "Threads that do not touch each other's keys do not influence each other", "statement": "Any number of threads use one global state at the same time, each read and each write under the lock. If no thread writes what another one reads or writes, then in every interleaving, also with checkpoints and commits anywhere, every thread that has ended returned what it returns when it runs alone, what it wrote is what it writes alone, keys that no thread writes are unchanged, and all complete interleavings leave the same state and results.", "quantifier": "for all reachable states, all pools of programs over any index type, all schedules without rollbacks, rewinds and foreign writes, if the hash function has no collisions on storage keys", "why_tests_cant": "The tests use one thread; the number of interleavings is unbounded.", "anchors": ["crates/host/state/src/global_state.rs", "crates/host/state/src/storage.rs", "crates/host/runtime-ffi/src/resource_tracker.rs", "crates/host/runtime-ffi/src/c_api.rs"]}
{"id": "C131", "title": "Payments made at the same time all take effect", "statement": "If two threads make payments with Runtime::transfer at the same time and both return, every account has what it had, less what it paid, plus what it was paid.", "quantifier": "for all reachable states, all payments between different accounts, all interleavings of the threads with checkpoints and commits, if the hash function has no collisions on storage keys", "why_tests_cant": "Races depend on the interleaving; the tests use one thread.", "anchors": ["crates/host/runtime/src/runtime/runtime.rs", "crates/host/state/src/account_storage.rs", "crates/host/state/src/global_state.rs", "crates/host/runtime-ffi/src/resource_tracker.rs"]}
{"id": "C132", "title": "Writes to different variables at the same time are all kept", "statement": "If several threads write to different variables of an account at the same time and all writes return, every variable has the value written to it.", "quantifier": "for all reachable states, all layouts, variables and values, all interleavings of the threads with checkpoints and commits, if the hash function has no collisions on storage keys", "why_tests_cant": "Races depend on the interleaving; the tests use one thread.", "anchors": ["crates/host/state/src/account_storage.rs", "crates/host/state/src/global_state.rs", "crates/host/runtime-ffi/src/resource_tracker.rs"]}
{"id": "C133", "title": "A reader sees a variable before or after a concurrent write", "statement": "A thread that reads a variable, or the name, template, balance or counter of an account, while other threads write gets a value that it had at some moment, never a mixture of two.", "quantifier": "for all reachable states, all layouts, variables and values, all interleavings of the threads with checkpoints and commits, if the hash function has no collisions on storage keys", "why_tests_cant": "Races depend on the interleaving; the tests use one thread.", "anchors": ["crates/host/state/src/account_storage.rs", "crates/host/state/src/global_state.rs", "crates/host/runtime-ffi/src/resource_tracker.rs"]}
{"id": "C134", "title": "A layer contains whole payments", "statement": "If one client commits layers while another one makes a payment, then in every new layer the two accounts together have what they had before.", "quantifier": "for all reachable states, accounts, amounts, all interleavings of the payment with checkpoints and commits, if the hash function has no collisions on storage keys", "why_tests_cant": "Races depend on the interleaving; the tests use one thread.", "anchors": ["crates/host/runtime/src/runtime/runtime.rs", "crates/host/state/src/storage.rs", "crates/host/state/src/account_storage.rs", "crates/host/state/src/global_state.rs"]}
{"id": "C135", "title": "svm-cli validate agrees with the runtime", "statement": "svm-cli validate says that a Wasm file contains a valid module if and only if the runtime's deploy validation accepts that module.", "quantifier": "for all files and modules, with and without overflow checks", "why_tests_cant": "The two validations are separate code paths; the tests of the tool run single files.", "anchors": ["crates/host/cli/src/subcmd_validate.rs", "crates/host/program/src/program.rs", "crates/host/gas/src/pricing/resolvers/example.rs", "crates/host/gas/src/pricing/func_price.rs", "crates/host/runtime/src/runtime/runtime.rs"]}
{"id": "C136", "title": "svm-cli validate shows the prices that the runtime charges", "statement": "For every template that the runtime accepts and prices, svm-cli validate shows each function with the price that the runtime checks the gas limit against.", "quantifier": "for all modules, with and without overflow checks", "why_tests_cant": "The tool and the runtime use different price tables; equality for all programs is about all paths through all functions.", "anchors": ["crates/host/cli/src/subcmd_validate.rs", "crates/host/program/src/program.rs", "crates/host/gas/src/pricing/resolvers/example.rs", "crates/host/gas/src/pricing/func_price.rs", "crates/host/runtime/src/runtime/runtime.rs"]}
{"id": "C137", "title": "The receipt of a successful transaction says how much gas it used", "statement": "The receipt of every successful deployment, spawn and call says how much gas the transaction used.", "quantifier": "for all messages, states, engines, pricers and envelopes, with and without overflow checks", "why_tests_cant": "Tests look at single receipts; the claim is about all programs and all messages, and the gas of calls is never looked at.", "anchors": ["crates/host/runtime/src/runtime/runtime.rs", "crates/host/types/src/receipt/call.rs", "crates/host/types/src/receipt/spawn.rs", "crates/host/types/src/receipt/deploy.rs"]}
{"id": "C138", "title": "The gas limit of a spawn bounds how often its constructor can call the host", "statement": "If some execution of the constructor calls a host function n times, then a spawn whose gas limit is not more than the price of the message and n times the price of that function changes nothing.", "quantifier": "for all templates, executions, host functions, messages, states and gas limits", "why_tests_cant": "It is about all executions of all programs, and prices are computed before the program runs.", "anchors": ["crates/host/runtime/src/runtime/runtime.rs", "crates/host/gas/src/pricing/resolvers/v0.rs", "crates/host/gas/src/pricing/cfg.rs"]}
{"id": "C139", "title": "A panic concerns only the call that panics", "statement": "After a call of a function of the runtime has panicked (and the C API has caught the panic), the runtime answers every later call as if the panicking call had not been made.", "quantifier": "for all genesis configurations, histories of transactions and node calls, programs and hash-map orders", "why_tests_cant": "It is about every history of calls, and about which of the panics of every function happen while the mutex of the storage is held.", "anchors": ["crates/host/state/src/global_state.rs", "crates/host/runtime/src/runtime/runtime.rs", "crates/host/runtime-ffi/src/c_api.rs", "crates/host/state/src/template_storage.rs"]}
{"id": "C140", "title": "A commit that the database does not finish can be repeated", "statement": "If a statement of a commit fails (a full disk, a locked file, an I/O error), the values that can be read stay as they were, and the next commit that the database executes creates the layer with them. Layers committed before are not affected.", "quantifier": "for all histories of storage operations with any number of failing commits and rewinds, all statements that can fail, all subsets of the value insertions that were executed nevertheless, all hash-map orders and hash functions", "why_tests_cant": "The tests use databases that never fail, and it is about every statement and every history before and after the failure.", "anchors": ["crates/host/state/src/storage.rs", "crates/host/state/src/resources/schema.sql"]}
{"id": "C141", "title": "The runtimes of a process do not influence each other", "statement": "The calls of the C API about one runtime are answered as if the process had no other runtimes: nothing done with the others, including creating them, their transactions, their rewinds, their panics and their destruction, changes an answer.", "quantifier": "for all sequences of calls of the C API in a process, all numbers of runtimes, all paths (several may name one file), all contents of the files, all orders of interleaving, all addresses the allocator can choose, all hash functions, engines, prices and hash-map orders", "why_tests_cant": "The tests create one runtime, or two without using both; it is about every interleaving of the calls of any number of runtimes.", "anchors": ["crates/host/runtime-ffi/src/c_api.rs", "crates/host/runtime-ffi/src/resource_tracker.rs", "crates/host/state/src/global_state.rs", "crates/host/state/src/storage.rs"]}
{"id": "C142", "title": "Objects on the heap of a template keep their contents", "statement": "Memory that a template gets from the allocator of the SDK is inside of its memory, aligned as requested, and shared with no other object: each object contains what was written to it last, until it is freed.", "quantifier": "for all sequences of allocations, zeroed allocations, enlargements, frees and writes, with any sizes and alignments, in memories of any size below 4 GiB", "why_tests_cant": "The tests use the allocator of the operating system, and it is about every sequence of requests.", "anchors": ["crates/wasm/sdk-alloc/src/lib.rs", "crates/host/runtime/src/vmcalls/alloc.rs"]}
{"id": "C143", "title": "Validating a program takes time linear in its size", "statement": "The number of functions, instructions, nodes and edges that validate_wasm goes through, plus the calls that its search for a cycle makes, is at most 8 times the number of functions and instructions of the program, plus one, whether or not the caller asks for the cycle.", "quantifier": "for all programs, with any number of functions and calls, and both values of return_cycles", "why_tests_cant": "It is about the worst case over all programs; the tests validate programs with at most three functions.", "anchors": ["crates/host/gas/src/validation.rs", "crates/host/gas/src/graph/sort.rs", "crates/host/program/src/visitor.rs"]}
{"id": "C144", "title": "Pricing a program takes time linear in its size", "statement": "Whenever ProgramPricing gives a program its prices, the number of functions, instructions, labels, blocks, nodes and edges it goes through is at most 40 times the number of functions, instructions and br_table labels of the program.", "quantifier": "for all programs that get prices, of any size, all price resolvers, and builds with and without overflow checks", "why_tests_cant": "It is about the worst case over all programs; the tests price a handful of small functions.", "anchors": ["crates/host/gas/src/pricing/mod.rs", "crates/host/gas/src/pricing/cfg.rs", "crates/host/gas/src/cfg/builder.rs", "crates/host/gas/src/cfg/mod.rs", "crates/host/gas/src/graph/weight.rs", "crates/host/gas/src/graph/sort.rs"]}
{"id": "C145", "title": "Decoding a message requests memory in proportion to its length", "statement": "The decoders of envelopes, contexts, calls, spawns and templates ask the allocator for at most eight bytes (or elements) per byte of the message, and at most a million more, whatever the message contains.", "quantifier": "for all byte strings of any length, all sets of sections of interest, and builds with and without overflow checks", "why_tests_cant": "The request depends on lengths written in the message; the tests decode what the encoders wrote, where the lengths are right.", "anchors": ["crates/host/codec/src/ext.rs", "crates/host/codec/src/codec.rs", "crates/host/codec/src/section/decode.rs", "crates/host/codec/src/section/sections/code.rs", "crates/host/codec/src/section/sections/data.rs", "crates/host/codec/src/template.rs"]}
{"id": "C146", "title": "A call succeeds only if its gas limit covers the host functions it calls", "statement": "If a call returns a success receipt, then the sum of the prices of all host functions that its execution called (in the start function, in svm_alloc and in the function itself) is at most the gas limit of its envelope.", "quantifier": "for all states, envelopes, call messages, engines and executions, and both build modes", "why_tests_cant": "The limit has to hold for every program; the tests call a few functions without any limit.", "anchors": ["crates/host/runtime/src/runtime/runtime.rs call", "crates/host/runtime/src/runtime/runtime.rs verify", "crates/host/runtime/src/runtime/runtime.rs compile_template", "crates/host/runtime/src/runtime/call.rs", "crates/host/gas/src/pricing/resolvers/v0.rs"]}
{"id": "C147", "title": "Arithmetic with amounts is exact or stops the template", "statement": "If a template calculates with amounts of coins (adding, subtracting and multiplying in any combination) and the calculation returns, then the result is the exact result over the integers.", "quantifier": "for all calculations of any depth, all amounts and both build modes", "why_tests_cant": "The tests add, subtract and multiply a few small numbers in a debug build; the wrong results need large amounts and a build without overflow checks, which is how the templates are built.", "anchors": ["crates/wasm/sdk-types/src/amount.rs Add", "crates/wasm/sdk-types/src/amount.rs Sub", "crates/wasm/sdk-types/src/amount.rs Mul", "crates/wasm/sdk-types/src/amount.rs From<i64>", "crates/wasm/sdk-std/src/ensure.rs ensure", "simple-coin-transfer-template/Cargo.toml overflow-checks"]}
{"id": "C148", "title": "Amounts, layers and addresses can be shown and the text shows the value", "statement": "Converting an amount, a layer or an address to a string never panics. The text of an amount is its decimal representation followed by ' coins', the text of a layer is its decimal representation between '[Layer ' and ']', and the text of an address is '0x' followed by two upper case hexadecimal digits for each byte. Different values have different texts.", "quantifier": "for all amounts, layers and addresses and both build modes", "why_tests_cant": "The tests show one amount, one layer and one address; which values need more room than the builder has is only seen for large ones.", "anchors": ["crates/wasm/sdk-types/src/amount.rs ToString", "crates/wasm/sdk-types/src/layer_id.rs ToString", "crates/wasm/sdk-types/src/blob.rs ToString", "crates/wasm/sdk-std/src/string/digit.rs HexDigit", "crates/wasm/sdk-std/src/string/builder.rs StringBuilder"]}
{"id": "C149", "title": "The database holds at most what was written", "statement": "After any history of operations on the storage, the rows of the database together with the pending changes are at most as many as the writes, and have at most as many bytes as were written (the same holds for every measure of a write). There is one layer for every commit that was not rewound and the initial one. A commit adds one row for every key changed in its layer.", "quantifier": "for all histories of writes, checkpoints, commits, rollbacks, rewinds and reads of any length, all iteration orders, and all measures of writes", "why_tests_cant": "The size of the database is not looked at by the tests, and it has to stay bounded for every history.", "anchors": ["crates/host/state/src/storage.rs upsert_by_hash", "crates/host/state/src/storage.rs checkpoint", "crates/host/state/src/storage.rs commit", "crates/host/state/src/storage.rs rewind", "crates/host/state/src/resources/schema.sql"]}
{"id": "C150", "title": "A read looks at each version of its key at most once", "statement": "The query by which the storage reads a key joins at most one row for each version of that key in the database.", "quantifier": "for all histories of operations of any length and all keys", "why_tests_cant": "The result is right whatever the join contains; the superfluous rows only show in databases with many layers.", "anchors": ["crates/host/state/src/storage.rs get_by_hash", "crates/host/state/src/storage.rs get_by_hash_historical", "crates/host/state/src/resources/schema.sql"]}
{"id": "C151", "title": "The host functions of the storage panic as documented", "statement": "get32, set32, get64, set64, store160 and load160 panic exactly if the variable does not exist, has the wrong number of bytes for the function, or cannot hold the value, as their comments say.", "quantifier": "for all reachable storages, layouts from templates with variables of at least one byte, functions, variables, values, memories with room for the operands and build modes", "why_tests_cant": "Each combination of function, width and value may go wrong; the tests use a few widths and values that fit.", "anchors": ["crates/host/runtime/src/vmcalls/storage.rs:5-75", "crates/host/state/src/account_storage.rs AccountStorage::get_var, AccountStorage::set_var_bytes"]}
{"id": "C152", "title": "A program with read access only changes nothing", "statement": "A program that runs with the access mode ImmutableOnly, which allows only read access, leaves the storage as it is.", "quantifier": "for all programs, host calls with all arguments, environments, memories, storages and build modes", "why_tests_cant": "No test runs with this mode; all sequences of host calls matter.", "anchors": ["crates/host/runtime/src/func_env.rs:133-144", "crates/host/runtime/src/func_env.rs:177-185", "crates/host/runtime/src/vmcalls/transfer.rs:19-54"]}
{"id": "C153", "title": "More rights change nothing for a program that gets by with fewer", "statement": "If a program returns or traps with some access mode, then with every mode that allows more it makes the same changes and has the same result, logs, returndata and touched accounts.", "quantifier": "for all programs, pairs of modes, environments, storages and build modes", "why_tests_cant": "All programs and all pairs of runs.", "anchors": ["crates/host/runtime/src/func_env.rs:133-144", "crates/host/runtime/src/func_env.rs:245-253", "crates/host/runtime/src/vmcalls"]}
{"id": "C154", "title": "An access to a variable touches exactly its segments", "statement": "A read of a variable reads each segment that overlaps the variable exactly once and nothing else; a write reads and then writes each of them exactly once. A variable of n bytes has at most (n + 30) / 32 + 1 segments, and a refused access touches nothing.", "quantifier": "for all reachable storages, layouts from templates, variables of at least one byte, offsets, buffers and build modes", "why_tests_cant": "Superfluous accesses do not change any result, and the number depends on offset and size, which are unbounded.", "anchors": ["crates/host/state/src/account_storage.rs AccountStorage::get_var, AccountStorage::set_var_bytes, var_segments"]}
{"id": "C155", "title": "Overwritten sections of a template take effect", "statement": "After set_core or set_noncore of a template with new sections, sections() of that template returns the new sections.", "quantifier": "for all reachable storages, templates that can be read, new sections of distinct kinds that can be stored, and build modes", "why_tests_cant": "No test calls set_core or set_noncore; which section wins depends on what both records hold, and templates that are deployed have all sections in both.", "anchors": ["crates/host/state/src/template_storage.rs TemplateStorage::set_core, TemplateStorage::set_noncore, read_sections", "crates/host/runtime/src/runtime/runtime.rs:602-615"]}
