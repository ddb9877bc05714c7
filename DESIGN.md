# A Lean 4 model of spacemeshos/svm

The Rust sources in `/repo` are read as text; nothing is built or run. The model is a set of total,
computable Lean functions; every definition carries a comment with the file and lines it models, and says
where it is simplified. The properties are listed in `properties.jsonl`, their status and the names of the
theorems in `MANIFEST.json`, wrong programs against which the theorems were tested in
`seeded/LOG.jsonl`.

## Trusted base

* Lean's kernel (4.33.0), and the part of Mathlib and Lean core the proofs use, all checked by the kernel.
* The axioms `propext`, `Quot.sound` and `Classical.choice` of Lean; no others. The table at the end lists
  the axioms of each theorem. There is no `sorry`, `admit`, `native_decide` or `bv_decide`, and no axiom of our own.
* The reading of the Rust code: that the model does what the code does. The parts below are modelled;
  whatever is not listed is not.
* The statements: each `Cxx_claim` and each theorem has to be compared with the English property.

## What is modelled

| Lean module (under `lean/Verif/`) | code modelled |
|---|---|
| `Prelude` | outcomes (`ok` / `err` / `panic`), byte lists, association lists |
| `Layout` | `crates/host/layout`: fixed layouts and their builder |
| `Codec/Basic`, `Messages`, `Sections`, `Receipts` | `crates/host/codec/src`: `codec.rs`, `ext.rs`, `template.rs`, `section/*`, `receipt/*` |
| `Storage/Model`, `GlobalState` | `crates/host/state/src/storage.rs` over SQLite tables, the lock of `global_state.rs` |
| `Account/Prog`, `Model`, `Reach` | keys of the global state, `account_storage.rs`, `template_storage.rs` |
| `Runtime/Model` | `crates/host/runtime/src`: `runtime.rs`, `func_env.rs`, `vmcalls/*`, `gas_tank.rs`, `price_cache.rs`, `call.rs`; hashes of addresses from `crates/host/types` |
| `Gas/Graph`, `Sort`, `Cycle`, `Weight`, `Range` | `crates/host/gas/src`: `graph/*`, `gas.rs` |
| `Wasm/Program`, `Exports` | `crates/host/program/src`, `crates/host/gas/src/validation.rs`, `call_graph/*` |
| `Wasm/Cfg`, `Pricing`, `Exec` | `crates/host/gas/src/cfg/*`, `pricing/*`; `Exec` is the specification of executions |
| `Abi/Model`, `Typed` | `crates/wasm/abi-layout`, `abi-encoder`, `abi-decoder` |
| `Sdk/Vec`, `Text` | `crates/wasm/sdk-std/src/vec.rs`, `string/*` |
| `Sdk/Storage`, `Access` | `crates/wasm/sdk-macros/src/struct/*`, `sdk-storage`, `sdk-storage-ffi`, the data section written by `crates/host/cli/src/subcmd_craft_deploy/meta.rs` |
| `Ffi/Handles`, `Api`, `Results` | `crates/host/runtime-ffi/src`: `c_api.rs`, `resource_tracker.rs`, `result.rs` |
| `Ffi/Buffer` | `crates/host/codec/src/api/wasm` |
| `Json.Model`, `Json.Messages`, `Json.Receipt` | JSON side of `crates/host/codec/src/api/json`: `inputdata.rs`, `call.rs`, `spawn.rs`, `receipt.rs`, `mod.rs`, `serde_types.rs`. JSON values are a tree; parsing and printing of JSON text (serde_json) is not modelled, numbers are integers or an opaque float. Each wrapper type (`HexBlob`, `AddressWrapper`, `EncodedOrDecoded`) is its parser. |
| `Runtime.Ledger` | no new code: `Tx`, `perform` put the four entry points of `Runtime` side by side |
| `Runtime.Node` | the public functions of `Runtime` side by side, with `commit`, `rewind`, `current_layer`, `has_uncommitted_changes` (`runtime.rs:485-487, 718-738`) |
| `Sdk.Endpoint` | `sdk-macros/src/function/endpoint.rs`, `svm_alloc` and `svm_verify` of `sdk-macros/src/template.rs`, `CallData`, `Decoder`, `From<Value>` and `Encoder` on the memory of the instance, run by `Runtime.Model` |
| `Sdk.Link` | `extern "C"` blocks of `sdk-host-ffi`, `sdk-storage-ffi`, `sdk-alloc`, `sdk-std/src/log.rs`; `wasmer_register` of `vmcalls/mod.rs`; Wasmer links a module if and only if every imported function is registered with the same namespace, name and type |
| `Sdk.Template` | sdk-macros: function/{attr,mod,ctor,endpoint,fundable,fundable_hook}.rs, struct/{mod,attr}.rs, template.rs, meta.rs (attributes, validation, metadata, which functions are generated; not their bodies) |
| `Sdk.Craft` | host/cli subcmd_craft_deploy/{mod,meta}.rs, sdk-macros json.rs as far as the order and content of exports and schema |
| `Runtime.Templates` | `init_genesis`, `remove_noncore`, `GenesisConfig::mainnet` |
| `Runtime.Priced` | `check_gas_for_func` with the real parser interface and pricing (`Exports::get`, resolver of version 0) |
| `Query.Render` | host/query: schema.rs, query.rs, render.rs (names and descriptions of variables not modelled) |
| `Sdk.MockStorage` | `wasm/sdk-storage-mock/src/lib.rs` |
| `Sdk.MockHost` | `wasm/sdk-host-mock/src/lib.rs`, `wasm/sdk-types/src/{blob,amount}.rs` (equality and hash of addresses, sums) |
| `Wasm.Machine` | a deterministic machine with fuel for structured code (Wasmer is not part of the repository: this is a specification of it, with the data instructions as parameters) |
| `Runtime.Machine` | an engine for `Runtime.Model` made of the machine of `Wasm.Machine` (Wasmer is not part of the repository) |
| `Json.Cli` | `host/cli/src/subcmd_tx.rs` |
| `Runtime.Rewind` | whole histories with `runtime.rs:485-487,718-730` (commit, rewind, current_layer) |
| `Runtime.Books` | `runtime.rs:490-505`; whole histories with `runtime.rs:507-551` |
| `Runtime.Receipt` | executions as lists of host calls, over `runtime.rs:117-300,803-899` |
| `Sdk.Call` | calls of endpoints from the message to the receipt, over `runtime.rs:117-271`, `endpoint.rs:10-157` |
| `Runtime.Validate` | `validate_deploy`, `validate_spawn`, `validate_call` of `runtime.rs:554-578` |
| `Sdk.Counter` | the template `crates/host/runtime-ffi/tests/wasm/counter/src/lib.rs` from its source to the receipts |
| `Sdk.Still` | no new code: programs of the SDK that keep what the runtime needs |
| `Runtime.Frame` | what other events leave of an account, over `runtime.rs` and `storage.rs:354-389` |
| `Runtime.History` | `GlobalState::layer_query_parameter_mut` (`global_state.rs:97-104,170-208`): the programs of `Account/Model` through a handle of an earlier layer |
| `Runtime.Threads` | schedules of any number of threads on one `GlobalState` (`Arc<Mutex<Storage>>`, `global_state.rs:16-21,164-208`; `resource_tracker.rs:19-27`, `c_api.rs:664-668`), one critical section per read or write |
| `Runtime.Races` | variables and layers under the schedules of `Runtime.Threads` (`account_storage.rs:239-335`, `storage.rs:264-387`) |
| `Wasm.Tool` | `svm-cli validate`: `host/cli/src/subcmd_validate.rs`, `gas/src/pricing/resolvers/example.rs`, `Display` of `gas/src/pricing/func_price.rs`; `wat::parse_str` is a parameter |
| `Runtime.Charges` | nothing new is modelled: gas in the receipts of `Runtime.Model`, host calls in the executions of `Wasm.Run` |
| `Runtime.Poison` | the functions of `Runtime` (`runtime.rs`) on the storage behind its mutex with the poison flag (`global_state.rs:164-168`), panics caught by the caller (`c_api.rs:670-689`) |
| `Storage.Faults` | `Storage::commit` and `rewind` (`storage.rs:253-301`, `354-377`) with a database statement that fails |
| `Ffi.Process` | the functions of `c_api.rs` with the runtimes behind the handles and the databases behind the runtimes; `GlobalState::new` (`global_state.rs:23-95`) on a database with any contents |
| `Sdk.Alloc` | the global allocator `StaticAlloc` (`sdk-alloc/src/lib.rs:33-87`) with the provided methods of the trait |
| `Wasm.Effort` | how many steps `validate_wasm` takes (`program/src/visitor.rs`, `gas/src/validation.rs`, `gas/src/graph/sort.rs`) |
| `Wasm.PriceEffort` | how many steps `ProgramPricing` takes (`gas/src/pricing/mod.rs`, `gas/src/pricing/cfg.rs`, `gas/src/cfg`, `gas/src/graph/weight.rs`) |
| `Codec.Memory` | how much memory the decoders ask for (`codec/src/ext.rs`, `codec/src/codec.rs`, `codec/src/section`, `codec/src/template.rs`) |
| `Runtime.CallGas` | the gas tank of calls and verifications (`runtime/src/runtime/runtime.rs`, `runtime/src/runtime/call.rs`) |
| `Sdk.Amount` | amounts of coins (`sdk-types/src/amount.rs`, `sdk-std/src/ensure.rs`) |
| `Sdk.Show` | texts of amounts, layers and addresses (`sdk-types/src/amount.rs`, `sdk-types/src/layer_id.rs`, `sdk-types/src/blob.rs`, `sdk-std/src/string/digit.rs`) |
| `Storage.Growth` | the size of the tables and the joins of the read queries (`state/src/storage.rs`) |
| `Sdk.Widths` | documented panics of the host functions of the storage (C151) |
| `Runtime.Modes` | access modes (`runtime/src/func_env.rs`, `runtime/src/vmcalls`) |
| `Account.Touches` | keys that accesses to variables touch (`state/src/account_storage.rs`) |
| `Runtime.Renew` | overwriting sections of templates (`state/src/template_storage.rs`) |

In each file the definitions of the code come first (`## Model`), then the independent specification
(`## Spec`), then the proofs with concrete cases that meet the hypotheses.

Not modelled: SQLite, Wasmer and parity-wasm themselves, tokio (threads are modelled as interleavings of critical sections, `Runtime.Threads`), logging, the file system,
JSON libraries, the argument parser of the CLI, procedural macro expansion except the numbering of storage
variables and the generated accessors, the hash function (a parameter).

## Modelling conventions and simplifications

* A Rust function that can panic returns `Outcome ε α = ok a | err e | panic` (or an `Option`, where stated).
* `u8` is `UInt8`; wider machine integers are `BitVec n`, or `Nat` with an explicit check at the place where
  Rust would wrap or panic. `chk : Bool` says whether the build has overflow checks and debug assertions;
  theorems quantify over it unless the claim depends on it.
* `HashMap`/`HashSet` are association lists; where Rust iterates over one, the iteration order is a parameter
  (an arbitrary permutation).
* Blake3 is a parameter `H`. Absence of collisions between the keys concerned is an explicit hypothesis of a
  theorem, where needed, never an axiom; `exists_noCollision` shows that it is satisfiable.
* SQLite is modelled as two tables (lists of rows) with the constraints of `schema.sql` (primary key, cascade).
  Each SQL statement is atomic and durable; a crash can happen between any two statements.
* Account and template code are programs (`Account.Prog`) of reads and writes on the global state; they run on
  the storage model (`out`, `after`) and, when no keys collide, on a map of keys (`eval`, `view`). The poisoning
  of the storage lock by a panic (C12) is not threaded through these programs.
* Execution of Wasm code on the host is a parameter: a guest is an arbitrary finite interaction with the host
  functions and its memory, ending in success or a trap (`Runtime.Model`). Guests that do not terminate are
  represented in `Wasm.Machine` and `Runtime.Machine` only, where guests are executed by a machine with fuel. The engine that compiles a code section, and the pricer, are parameters as well; the pricer is
  modelled separately in `Gas` and `Wasm`.
* The parser of Wasm binaries is a parameter: programs are lists of instructions. The calls that the CFG
  builder makes for an instruction list are collected as a list of commands before they run. In executions
  (`Wasm.Exec`) a call of an imported function is a single step. The overflow of the nesting depth (`u32`) is
  ignored.
* Tuples of the ABI are nested pairs.
* The JSON meta data between the macros and the CLI is passed unchanged.
* Accessors of storage structs are guests of the runtime model.
* In `Ffi` the operations of the tracker are atomic (they hold its mutex); pointers of arguments are the bytes
  they point to; pointers of results are blocks of an abstract allocator.

## Violations of properties by the code

For such a property the deliverable is a theorem stating the negation (`Cxx_claim_false` or a name that says what
happens), where possible a universal description of the wrong behaviour, and a theorem named `..._partial` with the
guard under which the claim holds. In the manifest these have the status "partial".

| id | what happens |
|---|---|
| C08 | The code violates the claim (read query does not join values to layers); negation proved for every hash function. Proved part: rows of complete layers are intact at every crash point and the cleanup statement restores all reads. |
| C09 | The code violates the claim: re-opening any database fails. Proved part: the failing open does not change the database; a new database opens. |
| C10 | The code violates the claim: the fingerprint is a function of the layer number only. |
| C12 | The code violates the claim: a panic under the lock poisons it for ever. |
| C21 | The code violates the claim: a transfer to oneself adds the amount. Proved for different accounts, for every outcome. |
| C22 | The code violates the claim: when the destination overflows, the source has been debited. Proved in all other cases. |
| C23 | The code violates the claim: the source is read from memory and not checked. Proved part: nobody else than that source loses money. |
| C26 | The code violates the claim: the runtime never rolls back, so the writes of a failed call are published by the next commit. Proved: always so for every failed call, and a rollback after the failure would restore every read. |
| C29 | The code violates the claim: verification never returns a success receipt. |
| C31 | The code violates the claim: the address depends on the template only, so the second account of a template replaces the first. Proved: no other account is overwritten. |
| C32 | The code violates the claim: the address depends on the code only. Proved: templates at other addresses are unchanged. |
| C33 | The code violates the claim: it panics without a code section, with 255 constructors and with 65535 variables. Proved for all other messages. |
| C36 | Holds for builds with overflow checks; in release builds the addition wraps silently. |
| C37 | The code violates the claim for gas limit 0 (decodes as no limit). Proved for all other envelopes, and the 60 byte length for all. |
| C40 | Envelopes with gas 0 and with no gas collide; all other messages are unambiguous and prefix free. |
| C42 | The code violates the claim: three exactly characterised panics. |
| C43 | The code violates the claim for layouts whose first id is not representable in the encoding; exact characterisation. |
| C45 | Receipts with gas Some(0) decode with gas None; all others are lossless for every set iteration order. |
| C46 | The code violates the claim: failed deploys lose their logs, long messages are cut or make the encoder panic. |
| C47 | The code violates the claim: ten instructions that convert or reinterpret floating point numbers as integers are missing from the list. Proved: those are the only ones. |
| C48 | Accepted programs have no loops, indirect calls or recursion. The converse fails only for calls of functions with an index above 65535; the exact condition is proved. |
| C50 | The code violates the claim: the report may start with functions that are not on the cycle, or be empty (debug builds panic). The exact behaviour is proved for every graph and every program, and the claim when every cycle reachable from the first candidate passes through it. |
| C52 | Holds in builds with overflow checks, and in every build when the prices are below 2^64; release builds wrap, so a program that costs 2^64 gets the price 0. |
| C53 | Proved for all graphs in builds with overflow checks, and in every build when path weights fit in 64 bits; release builds wrap otherwise. Also proved exactly when the computation panics on unreachable nodes. |
| C54 | The code violates the claim: a function in which both arms of a conditional return crashes the pricing, as do other kinds of dead code. Proved exactly which programs crash (in release builds; with overflow checks also when the sums do not fit in 64 bits). |
| C55 | The code violates the claim in release builds: a function that costs 2^64 gets the price 0. Exact in builds with overflow checks, and in every build when the prices are below 2^64. |
| C56 | The sequence of two ranges wraps in release builds; with overflow checks, or when the sums fit in 64 bits, both operations are sound and tight. |
| C58 | The code violates the claim: the decoder uses the marker byte of an array as the capacity of its vector, which is 7 for an array of eight, so reading any array of eight items panics. Every other sequence round trips. |
| C59 | The code violates the claim: byte_size of every array reads one item too many and panics. Exact for all other values; the bound by the maximum holds for all. |
| C60 | The code violates the claim: nested arrays and arrays of eight are encoded but make the decoder panic. Proved exactly which values are accepted and which come back. |
| C63 | Holds in builds with overflow checks, and for structs with less than 2^32 cells in every build. Missing: release builds wrap the ids of larger structs. |
| C64 | The code violates the claim: it returns the end of the region. The regions ending at the returned addresses are disjoint and inside the memory (below 4 GiB). |
| C67 | The code violates the claim; the exact cases in which it panics are proved. |
| C71 | The code violates the claim: exporting an imported function as svm_alloc crashes. Proved exactly when it crashes. |
| C73 | The code violates the documented bound: each kind is limited to 65535 separately. |
| C74 | Fails for arrays of exactly eight items only. |
| C75 | The code violates the claim: numbers with leading zero bytes are accepted, so every short integer has a second encoding. Proved that what is consumed is a prefix at least as long as the encoding of the value. |
| C76 | Holds when the CLI has overflow checks, and for structs of less than 4 GiB; release builds wrap the offsets otherwise. |
| C78 | The code violates the claim: static_alloc returns the end of the region it reserves, so after less than 20 bytes are allocated they overlap with the address. Proved for further reads and for allocations of 20 bytes and more. |
| C79 | The code violates the claim: a panic while a runtime is created poisons the mutex of the initialisation flag; later creations always fail. Proved when no creation has failed that way before. |
| C80 | The code violates the claim: no runtime is ever freed. |
| C81 | The code violates the claim: dropping a nonempty result also releases a null pointer, and unwrap releases the receipt it returns. Proved that the own buffer is released exactly once. |
| C82 | The code violates the claim: the address field is never written. All other fields are exact. |
| C83 | The code violates the claim for gas limit zero, which becomes no limit; proved for all other envelopes. |
| C84 | The code violates the claim: arrays of eight items and nested arrays make the decoder panic, empty arrays come back with the type null, which is refused when encoded again. Proved for all other items, with the exact outcome for each kind. |
| C85 | The code violates the claim: an item that does not have its declared type makes the encoder panic. Success is characterised exactly. |
| C86 | The code violates the claim for arrays that are empty or mix types; proved for all others. Which bytes can be shown is characterised exactly. |
| C87 | The code violates the claim: types or items in excess are dropped silently. Proved for input data given as objects with as many items as types and plain items. |
| C88 | The code violates the claim: bytes that are no spawn, and input data that cannot be shown, make the decoders panic. The outcome is characterised for all bytes. |
| C89 | The code violates the claim: gas of 2^63 or more is shown as a negative number, the greatest as the -1 of no gas. Proved for smaller gas, and for failures. |
| C90 | The code violates the claim: a log that is not UTF-8 makes the decoder panic, and zero gas is shown as -1. Proved in all other cases. |
| C91 | The code violates the claim: a program that transfers to the account it transfers from mints coins, and a spawn over an account with coins burns them. Proved, also for whole histories, when neither happens. |
| C92 | The code violates the claim: a spawn over an account sets its counter to zero. Proved that nothing else changes a counter (in particular none is ever advanced). |
| C93 | The code violates the claim: a spawn over the account takes its coins. Proved for all other transactions. |
| C95 | The code violates the claim: only calls and spawns make a checkpoint, so after a deployment, a creation of an account, a credit or a payment every commit and rewind is refused until a call or spawn succeeds. Proved for calls and spawns. |
| C96 | The code violates the claim: svm_static_alloc answers the end of a block, so the vector of an array starts inside the calldata if these are longer than the block, and its items replace arguments not yet read. Proved if the block of every array parameter is at least as large as the calldata. |
| C97 | The code violates the claim: an address argument that is less than 20 bytes before the buffer of the returndata is overwritten while it is copied; an endpoint that returns its last argument returns a wrong address if the arguments before it take 1 to 20 bytes. Proved for results whose addresses are apart from the buffer; for single addresses exactly. |
| C98 | The code violates the claim: no calldata for an endpoint with parameters, and calldata for which the memory has no room twice, crash the runtime. Proved for all other calldata if there is room for the vectors. |
| C99 | The code violates the claim: the runtime has no namespace sm, and svm_log has another type than the SDK imports, so a template that logs, transfers, or asks for the value, the balance, an address or the layer never runs. Proved exactly which templates link. |
| C100 | The code violates the claim: #[ctor] and #[fundable_hook] are accepted together, so that a payment can run a constructor. Proved exactly which attributes are accepted, and the claim for all other functions. |
| C101 | The code violates the claim: #[fundable(x)] may name any function. Proved exactly which function is called, the claim for functions that name none, and that a template with a fundable function cannot be linked by this runtime. |
| C102 | The code violates the claim: with 255 constructors, a longer name than 255 bytes, 65535 cells or a Wasm file of 4 GiB the CLI panics. Proved exactly when it does, and the claim for every message that is written. |
| C103 | The code violates the claim for every template with two constructors, since the metadata follow the order of a HashMap. Proved for templates with at most one. |
| C105 | The code violates the claim: a template without one of the three core sections or with a section that cannot be encoded makes the node panic at the start, and the layout of the main network comes back changed. Proved exactly when a node starts, and the claim for representable layouts. |
| C106 | The code violates the claim: the template has no constructors, so every spawn fails. |
| C107 | The code violates the claim: svm_alloc is not paid for, and in release builds the price of a constructor can wrap around. Proved for the constructor in builds with overflow checks, and in all builds for programs whose prices fit in 64 bits. The Wasm parser is a parameter. |
| C108 | The code violates the claim: validation does not look at the constructors, the gas mode, or whether the program can be priced. Proved exactly when the check panics. |
| C109 | The code violates the claim: integers are stored little endian and shown as big endian, so their bytes appear in the opposite order. Proved for flags, integers of one byte and addresses. No reader for accounts exists in the code; the one here returns the bytes of the variable. |
| C110 | The code violates the claim: a request for a balance panics, as do flags and integers of a wrong size. Proved exactly when a query panics, and the claim for all other schemas. |
| C112 | The code violates the claim: Address hashes its pointer but compares its bytes, so an equal address at another place in memory is not found unless the table happens to compare the two. Proved exactly for which pointers the balance is found, and the claim for programs that keep one pointer per address. |
| C113 | The code violates the claim: the mock pays addresses without an account, and in release builds sums that do not fit wrap around; the chain panics. Proved if both accounts exist and the sum fits, and in the other direction without a condition. |
| C114 | The code violates the claim: reset keeps the balances. Proved that it keeps nothing else, and that after a test that set a balance no reset gives a new mock. |
| C116 | The code violates the claim in release builds: a program of 17 functions gets the price 0, and the machine executes it to the end at a cost of 2^64. Proved in builds with overflow checks, and in every build when the prices are below 2^64. |
| C117 | The code violates the claim: deploy does not validate, so a template with a loop is accepted and a call of it never ends. Proved when every template that was brought in passes the validation that the node offers separately; the engine is any one that executes the code it is given. |
| C119 | The code violates the claim: the layer of the genesis is -1, which does not fit the unsigned number, so a new node panics until layer 0 is made. Proved exactly when it answers, and with which number. |
| C122 | The code violates the claim: an account can be created over one with coins, which are then gone (proved with the exact difference); a template that pays an account from itself makes coins, too. Proved for all histories without these two, where no call panics (a panic may stop a payment between its two writes). |
| C123 | The code violates the claim: what svm_alloc logs is dropped if svm_alloc returns (proved for every such call; shown if it traps). Proved in full for all other executions, for calls of the public call function and for constructors, with the existence and uniqueness of the execution. |
| C124 | The code violates the claim: an endpoint that returns an address it was given returns other bytes (results are written over by the encoder, as in C97; arrays as in C96). Proved for results without addresses and for arrays whose vectors are at least as large as the calldata. Bodies are arbitrary programs over the host functions with a memory budget. |
| C125 | The code violates the claim: a data section without a layout passes validate_deploy, and then the creation of any account of the template panics; with 255 constructors or 65535 variables the deployment panics. Proved exactly when it holds, that the decoder of templates demands the three sections, and that what the other validations cannot decode makes call, verify and spawn panic. |
| C128 | The code violates the claim: variables are read with None instead of the layer, so the current value is returned. Proved for all other reads, and exactly what variables return. |
| C129 | The code violates the claim: the record is read at the layer of the handle and written to the present, so spent coins come back. Proved exactly what is written, and the claim for handles that read the current record. |
| C131 | The code violates the claim: the lock is not held from the reads of the balances to the writes, so updates are lost and coins are made or lost. Proved for every state where two payments are possible; the claim is proved for payments on different accounts. |
| C132 | The code violates the claim: a segment is read and written back without the lock in between, so a write to another variable in the same 32 bytes is lost. Proved for every state and any two such variables; the claim is proved for variables that share no segment. |
| C133 | The code violates the claim for variables that reach over the border of a 32-byte segment: the reader takes the lock once per segment. Proved for every such variable, state and value; the claim is proved for smaller variables and for the getters of accounts. |
| C134 | The code violates the claim: a checkpoint and a commit of another client fit between the debit and the credit. Proved for every state where a payment is possible; proved instead: commits without checkpoints never publish anything of a running program. |
| C135 | The code violates the claim: the tool checks neither the exports svm_alloc and svm_verify nor loops and recursion. Proved exactly what is missing; what the runtime accepts is called valid. |
| C136 | The code violates the claim for templates that call an import outside of the price table: the tool panics where the runtime charges 1000. Proved for all of them; for the others the shown prices are those of the runtime. |
| C137 | The code violates the claim: no receipt of a call, verification or spawn says how much gas was used. For deployments it is proved. |
| C138 | Proved with overflow checks. Without them the code violates the claim: prices wrap around; a template that passes validation calls `svm_set64` 2^60 times in its constructor, and a spawn from it costs no more than its message. Proved for all programs whose prices are below 2^64. |
| C139 | The code violates the claim: a deploy of 255 constructors or of a layout of 65535 variables (any sender can send it), a rewind to a layer that does not exist and an account name of more than 255 bytes poison the mutex of the storage; afterwards every call panics, except deploys without enough gas. All other histories are answered as if the lock did not exist. |
| C140 | The code violates the claim: `commit` moves the pending changes out before its first statement and uses no transaction. A failure before the row of the layer is inserted loses the changes silently, and the repeated commit makes an empty layer with the same number and fingerprint; a failure after it leaves a half-written layer that is visible to reads and makes every later commit fail until a rewind. |
| C141 | The code violates the claim for the creation of a runtime: opening a file that another runtime of the process opened (or had opened) panics under the lock `INITIALIZED`, which makes every later creation of the process fail, on other databases too. |
| C142 | The code violates the claim: the host returns the end of the region it reserves, and the allocator of the SDK takes it for the start. An object smaller than the one before it is part of that one; of an object without room for it twice the last byte cannot be written; the first objects lie on the static data; alignments are ignored. |
| C143 | The code violates the claim when `return_cycles` is set: `recur_find_cycle` removes a function from `visited` when it has searched it without success, so it goes down every path of calls below a cycle, 2^n of them for n diamonds. The runtime does not set it. |
| C145 | The code violates the claim: `read_bytes` allocates the length it is asked for before it looks at the message, and the code section and skipped sections take that length from a `u32` of the message, so a message of 34 bytes that is rejected makes the decoder ask for up to 4 GiB. Other messages and templates that are decoded stay within 4 bytes per byte. |
| C146 | The code violates the claim: no gas check is made for calls and verifications (`compile_template` ignores `_gas_left`), so what a call does never depends on its gas limit; a call with gas limit 0 can call host functions any number of times. |
| C147 | The code violates the claim: `Add` and `Mul` of `Amount` have no guard (`Sub` has one), and the templates are built with `overflow-checks = false`, so a sum of amounts can be smaller than both of them. |
| C148 | The code violates the claim: `ToString` of `LayerId` reserves 20 + 6 bytes (the length of " coins", copied from `Amount`) for a text of up to 28 bytes, so it panics for layers from 10^18 on. |
| C150 | The code violates the claim: the `INNER JOIN` of the read queries lacks `layers.id = values.layer_id`, so a read joins every version of the key with every complete layer, which is quadratic in the number of layers for a key that changes in each layer. |
| C151 | The code violates the claim: `get32` silently drops the upper bytes of variables of 5 to 8 bytes, `set32` and `set64` silently drop the upper bytes of values that do not fit in the variable, and `store160` and `load160` accept variables of fewer than 20 bytes; all of these should panic according to the comments. |
| C152 | The code violates the claim: `svm_transfer` gets the storage from `storage()`, which asserts only that reading is allowed, so a program with the mode `ImmutableOnly` can move the coins of all accounts. |
| C155 | The code violates the claim: a deployment stores all sections in the record of the non-core sections too, and `read_sections` lets these win, so `set_core` of a deployed template replaces nothing. |

## Plan per property

| id | model | proof |
|---|---|---|
| C01 | Storage | case analysis on the three overlays, table invariant by induction over histories |
| C02 | Storage | simulation relation between tables and an abstract stack of maps, induction over histories |
| C03 | Storage | induction over the later history, rows with `layer_id <= L` are never changed |
| C04 | Storage | rows appended by later commits have larger layer ids; deletion removes exactly them; state equality |
| C05 | Storage | direct, state equality |
| C06 | Storage | direct |
| C07 | Storage | invariant: layer rows are -2..next-1, all complete |
| C08 | Storage | crash points as prefixes of the SQL statements of commit. Expected to FAIL: the join has no `values.layer_id = layers.id`. Prove a counterexample and a `_partial` |
| C09 | Storage | Expected to FAIL: `insert_layer(-2)` violates the primary key on every existing database. Prove that reopening always fails |
| C10 | Storage | Expected to FAIL: `checkpoint` updates a local copy. Prove that the fingerprint is a function of the number of the layer alone |
| C11 | Storage | permutation lemmas |
| C12 | GlobalState | mutex with poison flag. Expected to FAIL |
| C13 | Account | induction over the size list |
| C14 | Account | induction on the remaining size |
| C15, C16 | Account | byte-level view of the storage as a function of absolute positions; set updates a range, get reads a range |
| C17 | Account | injectivity of hex and decimal rendering, prefix/suffix reasoning on strings as char lists |
| C18 | Account | codec round trip of the two records + key distinctness |
| C19 | Runtime | little endian encode/decode + C15. Check `get32` which goes through the 64-bit read |
| C20-C22 | Runtime | direct on the account map, then lifted to storage; C21 and C22 expected to FAIL (self transfer, overflow after the debit) |
| C23 | Runtime | Expected to FAIL: source address comes from memory |
| C24, C25 | Runtime | induction over host call sequences |
| C26 | Runtime | Expected to FAIL: no rollback after a failed call; `_partial`: no layer is added |
| C27-C30 | Runtime | state machine over Storage |
| C29 | Runtime | Expected to FAIL: commit under `AccessDenied` panics |
| C31, C32 | Runtime | Expected to FAIL: address depends on the template address / code only |
| C33, C34 | Runtime | direct |
| C35, C36 | Runtime | induction over charges / case analysis |
| C37-C41 | Codec | parser/printer round-trip combinators; C37 fails for `gas_limit = Some(0)` |
| C42-C44 | Codec | sections; C42 and the data layout part of C43 expected to FAIL (gas mode, u16 sizes) |
| C45, C46 | Codec | receipts; C46 expected to FAIL for some receipts |
| C47 | Gas | opcode classification; expected to FAIL |
| C48-C51 | Gas | call graph, Kahn's algorithm, DFS; C50 expected to FAIL |
| C52-C55 | Gas | CFG builder vs structured semantics, longest path; C54, C55 expected to FAIL |
| C56 | Gas | arithmetic |
| C57 | Runtime | memo invariant; false when two programs share an address |
| C58-C60 | Abi | per-marker round trip, induction over sequences; C60 expected to FAIL |
| C61-C63 | Sdk | refinement to lists, digits, cumulative sums |
| C64 | Runtime | expected to FAIL: returns the end of the region |
| C65, C66 | Ffi | induction over operations |
| C67 | Account | direct: variables of size zero |
| C68, C69 | Runtime | frame lemma: programs write only keys of their own account, induction over guests |
| C70 | Runtime, Codec | codec round trip of the stored sections |
| C71-C73 | Wasm | case analysis on the exports and counts |
| C74, C75 | Abi | typed reader over the byte decoder; prefix reasoning |
| C76-C78 | Sdk | cumulative sums against the layout builder; accessors as guests on top of C15, C16, C64 |
| C79, C80 | Ffi | induction over sequences of calls |
| C81 | Ffi | direct on the abstract heap |
| C82, C83 | Ffi | evaluation of the account programs; codec round trips |
| C84–C86 | Json | induction over types and items on top of the ABI round trips (C58–C60) |
| C87, C88 | Json | codec round trips (C38, C39) and case analysis over the panics |
| C89, C90 | Json | injectivity of each field; receipt round trip (C45) |
| C91 - C93 | Runtime.Ledger | relation `Flow` between the balance records before and after a program, by induction over its host calls; sum over all holders; induction over the history of transactions |
| C94, C95 | Runtime.Node | simulation of two storages by one layered map; induction over the list of public calls; programs that write on every path |
| C96 | Sdk.Endpoint | induction over the parameters, with the memory below the end of the calldata unchanged as invariant; for the wrong behaviour, explicit arguments for every layout of values |
| C97 | Sdk.Endpoint | induction over the result type: the buffer holds the encoding so far, the rest of the memory is as before |
| C98 | Sdk.Endpoint | induction over the parameters, for arbitrary bytes |
| C99 | Sdk.Link | the imports of each SDK method compared with the registered functions |
| C100, C101 | Sdk.Template | inversion of the expansion; a list of kinds without repetition has at most four elements, then all cases; induction over the functions for the default hook |
| C102, C103 | Sdk.Craft | composition of C100, C76, C43 and C33; permutations of the exports |
| C104 | Runtime.Templates | invariant of all stored pairs, induction over histories |
| C105 | Runtime.Templates | invariant with a base layer, evaluation of genesis |
| C106 | Runtime.Templates | corollary of the mainnet case of C105 |
| C107 | Runtime.Priced | composition of C34, C52, C55 and C104 |
| C108 | Runtime.Priced | case analysis of the gas check, with C54 and C104 |
| C109 | Query.Render | read after write of C15/C77 composed with the renderer |
| C110 | Query.Render | case analysis of the renderer, induction on the requests |
| C111 | Sdk.MockStorage | refinement: a simulation between the hash map of the mock and the bytes of the chain, by induction over programs that may depend on what they read |
| C112 | Sdk.MockHost | the hash map as a list with an arbitrary comparison of pointers; induction over the list |
| C113 | Sdk.MockHost | the cases of the host call `svm_transfer` (C20) against the mock, with C112 for the two writes |
| C114 | Sdk.MockHost | induction over the calls before the reset |
| C115 | Wasm.Machine | refinement: every path of the fuelled machine is one of the executions of C51, by induction on the fuel; a path that ends for lack of fuel is at least as long as the fuel |
| C116 | Wasm.Machine | the same refinement, with C52 |
| C117 | Runtime.Machine | the invariant of C104 (every stored code was brought in) and C115: two engines that agree on those codes give the same node, by induction on the history |
| C118 | Json.Cli | the relation between items and values by induction on the type; the rest field by field, with C38 and C39 |
| C119 | Runtime.Rewind | every event is a program of writes, with or without a new layer; the number of the next layer by induction on the history |
| C120 | Runtime.Rewind | old rows are kept (C04) for every event, so the storage is restored; equal caches up to right prices (C104) by induction on what follows, and the refinement of C94 for the orders |
| C121 | Runtime.Books | unfolding, with the lemmas for reads and for balance records |
| C122 | Runtime.Books | invariant relating the books to the storage and to every older layer (which the later storage keeps, C04); flows of coins (C35) for the transactions |
| C123 | Runtime.Receipt | executions as a relation with the list of host calls, equivalent to the model of the runtime; induction over executions for what the environment records |
| C124 | Sdk.Call | composes the decoder of messages, the runtime, the calldata reader (C96) and the encoder of results (C97) along one execution; counterexample with an endpoint that returns its argument |
| C125 | Runtime.Validate | composes the decoder of templates, the checks of the program, the deployment (C33) and the creation of accounts; exact condition; counterexample with a data section without a layout |
| C126 | Runtime.Frame | invariant of histories, over the newest state and every layer from the given one on; the writes of each event (C68, C69) |
| C127 | Sdk.Counter | composition of C102 (the crafted message), C33 (deploy), C124 (calls and constructors), C126 (everything else leaves the account); induction over the events after the spawn |
| C128 | Runtime.History | programs run with the layer of the handle; old rows are kept by later histories (C03), so every key reads as after the commit; counterexample with one variable |
| C129 | Runtime.History | unfolding of replace; counterexample where an account that spent its coins gets them back by set_counter |
| C130 | Runtime.Threads | small-step semantics; invariant by induction over the schedule: what is left of each thread, run from here, ends as the whole thread run from the beginning |
| C131 | Runtime.Threads | footprint of a transfer and C130 for different accounts; an explicit schedule, for all states, for the lost update |
| C132 | Runtime.Races | footprint of a variable = its segments, then C130; an explicit schedule, for all states, for the lost write |
| C133 | Runtime.Races | programs of one read return what they return alone at that moment; an explicit schedule, for all states, for the torn read |
| C134 | Runtime.Races | schedule with `publish` between the two writes; induction over schedules with `commit_dirty` for commits alone |
| C135 | Wasm.Tool | exact conditions of both validations from C47, C48 and the exports |
| C136 | Wasm.Tool | the price function of the tool is below that of the runtime in the definedness order; equal if all called imports are listed |
| C137 | Runtime.Charges | all paths to a receipt |
| C138 | Runtime.Charges | an injection of the calls into the events of the execution, and C107; a program of sixteen functions, each calling the one before sixteen times, for release builds |
| C139 | Runtime.Poison | the functions of the runtime on the storage with the poison flag; a simulation for programs that do not panic with the guard held (`Prog.Calm`) |
| C140 | Storage.Faults | the statements of `commit` with one that fails; a simulation between the tables with a begun layer and the layered map with a begun snapshot |
| C141 | Ffi.Process | a process with handles, databases and runtimes; the invariant that every runtime has a database of its own; a relation between the process and the process without the other runtimes |
| C142 | Sdk.Alloc | the operations of `GlobalAlloc` over the memory and over objects without addresses; an invariant on the regions; the addresses of single allocations in every state |
| C143 | Wasm.Effort | step counts beside the model of the sort and the search, from the same recursive calls; the visited nodes and edges are a sublist of those asked for; induction over a chain of diamonds for the violation |
| C144 | Wasm.PriceEffort | step counts beside the models of the control flow graph, the path of maximal weight and the loop over the functions; an instruction adds at most its labels and two edges; draining a node empties its edges, so each edge is removed once |
| C145 | Codec.Memory | decoders that count the memory they ask for, with the same results as those of the model; a law that pays for each request with the bytes that are read afterwards |
| C146 | Runtime.CallGas | the call path once more, with the gas tank carried to where the code carries it; the results do not depend on it; a module that logs n times, by the theorems of C123 |
| C147 | Sdk.Amount | the operators on 64 bit vectors, terms of any depth evaluated by the template and over the integers; induction on terms |
| C148 | Sdk.Show | the three conversions over the strings and vectors of C61 and C62; how many digits a number has; when a push panics |
| C149 | Storage.Growth | weights of lists of writes; every step of a history adds at most the weight of its write; the invariant of C02 for the form of commits and rewinds |
| C150 | Storage.Growth | the join as the list of pairs of rows; its length is a product; selecting the greatest layer is not changed by repeated rows; histories that write a key in each layer |
| C151 | Sdk.Widths | the comments as a relation between layouts and calls; each function panics exactly above its largest width, and otherwise has the effect given by the bytes of the variable, from C15; one layout with one variable for each false comment |
| C152 | Runtime.Modes | the written keys of every host function in every mode, by cases; transfers with two modes side by side |
| C153 | Runtime.Modes | a relation between two programs that is kept by sequencing; each host function in two modes; induction over the program |
| C154 | Account.Touches | the sequence of accesses of a program; the indices of the segments as a range; induction over the loops |
| C155 | Runtime.Renew | the sections of a kind after merging two records; the records after a deployment |

## Theorems and axioms

Generated with `#print axioms`. P = `propext`, Q = `Quot.sound`, C = `Classical.choice`.

| property | theorem | axioms |
|---|---|---|
| C01 | `Svm.Storage.C01_read_after_write` | PQ |
| C01 | `Svm.Storage.C01_read_after_write_keys` | PQ |
| C02 | `Svm.Storage.C02_refines_layered_map` | CPQ |
| C03 | `Svm.Storage.C03_historical_reads_stable` | CPQ |
| C04 | `Svm.Storage.C04_rewind_restores` | CPQ |
| C04 | `Svm.Storage.C04_rewind_same_future` | CPQ |
| C05 | `Svm.Storage.C05_rollback_discards` | PQ |
| C05 | `Svm.Storage.C05_rollback_keeps_checkpoint` | PQ |
| C06 | `Svm.Storage.C06_dirty_refused` | PQ |
| C06 | `Svm.Storage.C06_flag_after_write` | PQ |
| C07 | `Svm.Storage.C07_commit_consecutive` | CPQ |
| C07 | `Svm.Storage.C07_numbers` | CPQ |
| C08 | `Svm.Storage.C08_crash_invisible_false` | PQ |
| C08 | `Svm.Storage.C08_crash_cleanup_partial` | CPQ |
| C09 | `Svm.Storage.C09_reopen_restores_false` | CPQ |
| C09 | `Svm.Storage.C09_reopen_always_fails` | CPQ |
| C09 | `Svm.Storage.C09_reopen_after_crash_fails` | CPQ |
| C09 | `Svm.Storage.C09_reopen_keeps_data_partial` | CPQ |
| C10 | `Svm.Storage.C10_fingerprint_depends_on_data_false` | PQ |
| C10 | `Svm.Storage.C10_fingerprint_is_constant` | CPQ |
| C10 | `Svm.Storage.C10_consecutive_fingerprints_differ_partial` | CPQ |
| C11 | `Svm.Storage.C11_order_independent` | CPQ |
| C12 | `Svm.Storage.GlobalState.C12_panic_leaves_usable_false` | PQ |
| C12 | `Svm.Storage.GlobalState.C12_poisoned_forever` | PQ |
| C12 | `Svm.Storage.GlobalState.C12_future_layer_poisons` | PQ |
| C12 | `Svm.Storage.GlobalState.C12_no_poison_without_panic_partial` | PQ |
| C12 | `Svm.Storage.GlobalState.C12_current_layer_after_genesis` | CPQ |
| C13 | `Svm.Layout.C13_layout_ranges` | PQ |
| C14 | `Svm.Account.C14_segments_cover` | CPQ |
| C15 | `Svm.Account.C15_read_after_write` | CPQ |
| C15 | `Svm.Account.C15_read_after_write_vec` | CPQ |
| C15 | `Svm.Account.load_layoutOk` | PQ |
| C15 | `Svm.Account.exists_noCollision` | CPQ |
| C16 | `Svm.Account.C16_isolation` | CPQ |
| C17 | `Svm.Account.C17_keys_injective` | PQ |
| C18 | `Svm.Account.C18_create` | CPQ |
| C18 | `Svm.Account.C18_create_ok_iff` | PQ |
| C18 | `Svm.Account.C18_createStub` | CPQ |
| C18 | `Svm.Account.C18_set_balance` | CPQ |
| C18 | `Svm.Account.C18_set_counter` | CPQ |
| C19 | `Svm.Runtime.C19_roundtrip32` | CPQ |
| C19 | `Svm.Runtime.C19_roundtrip64` | CPQ |
| C19 | `Svm.Runtime.C19_storage` | CPQ |
| C20 | `Svm.Runtime.C20_transfer_conserves` | CPQ |
| C20 | `Svm.Runtime.C20_host_transfer_conserves` | CPQ |
| C21 | `Svm.Runtime.C21_claim_false` | CPQ |
| C21 | `Svm.Runtime.C21_self_transfer_mints` | CPQ |
| C21 | `Svm.Runtime.C21_distinct_partial` | CPQ |
| C21 | `Svm.Runtime.C21_host_distinct_partial` | CPQ |
| C22 | `Svm.Runtime.C22_claim_false` | CPQ |
| C22 | `Svm.Runtime.C22_overflow_debits` | CPQ |
| C22 | `Svm.Runtime.C22_all_or_nothing_partial` | CPQ |
| C23 | `Svm.Runtime.C23_claim_false` | CPQ |
| C23 | `Svm.Runtime.C23_spends_any_account` | CPQ |
| C23 | `Svm.Runtime.C23_only_source_partial` | CPQ |
| C24 | `Svm.Runtime.C24_denied` | PQ |
| C24 | `Svm.Runtime.C24_denied_call` | PQ |
| C24 | `Svm.Runtime.C24_alloc` | CPQ |
| C25 | `Svm.Runtime.C25_call_receipt` | CPQ |
| C25 | `Svm.Runtime.C25_spawn_receipt` | CPQ |
| C25 | `Svm.Runtime.C25_touched` | PQ |
| C25 | `Svm.Runtime.C25_start` | P |
| C25 | `Svm.Runtime.C25_touched_exec` | CPQ |
| C26 | `Svm.Runtime.C26_claim_false` | CPQ |
| C26 | `Svm.Runtime.C26_published_later` | CPQ |
| C26 | `Svm.Runtime.C26_rollback_partial` | CPQ |
| C27 | `Svm.Runtime.C27_one_layer` | CPQ |
| C28 | `Svm.Runtime.C28_verify_pure` | CPQ |
| C29 | `Svm.Runtime.C29_claim_false` | CPQ |
| C29 | `Svm.Runtime.C29_never_succeeds` | CPQ |
| C29 | `Svm.Runtime.C29_return_panics` | CPQ |
| C29 | `Svm.Runtime.C29_typed_not_run` | CPQ |
| C29 | `Svm.Runtime.C29_failure_partial` | CPQ |
| C30 | `Svm.Runtime.C30_spawn_non_ctor` | CPQ |
| C30 | `Svm.Runtime.C30_call_ctor` | CPQ |
| C31 | `Svm.Runtime.C31_claim_false` | CPQ |
| C31 | `Svm.Runtime.C31_two_spawns` | CPQ |
| C31 | `Svm.Runtime.C31_same_address` | CPQ |
| C31 | `Svm.Runtime.C31_free_address_partial` | CPQ |
| C32 | `Svm.Runtime.C32_unchanged_partial` | CPQ |
| C32 | `Svm.Runtime.C32_claim_false` | CPQ |
| C32 | `Svm.Runtime.C32_two_deploys` | CPQ |
| C32 | `Svm.Runtime.C32_same_code` | CPQ |
| C32 | `Svm.Runtime.C32_other_addresses_partial` | PQ |
| C33 | `Svm.Runtime.C33_claim_false` | CPQ |
| C33 | `Svm.Runtime.C33_panics` | CPQ |
| C33 | `Svm.Runtime.C33_deploy_partial` | CPQ |
| C34 | `Svm.Runtime.C34_spawn_gas` | CPQ |
| C35 | `Svm.Runtime.C35_consume` | PQ |
| C35 | `Svm.Runtime.C35_empty_stays` | - |
| C36 | `Svm.Runtime.C36_release_false` | P |
| C36 | `Svm.Runtime.C36_checked_build` | PQ |
| C36 | `Svm.Runtime.C36_release_partial` | PQ |
| C37 | `Svm.Codec.C37_lossless_false` | CPQ |
| C37 | `Svm.Codec.C37_zero_gas_becomes_unlimited` | CPQ |
| C37 | `Svm.Codec.C37_envelope_lossless_partial` | CPQ |
| C38 | `Svm.Codec.C38_transaction_lossless` | CPQ |
| C39 | `Svm.Codec.C39_spawn_context_lossless` | CPQ |
| C40 | `Svm.Codec.C40_unambiguous_false` | P |
| C40 | `Svm.Codec.C40_unambiguous_partial` | CPQ |
| C41 | `Svm.Codec.C41_decode_untrusted` | CPQ |
| C42 | `Svm.Codec.C42_no_panic_false` | CPQ |
| C42 | `Svm.Codec.C42_schema_panics` | CPQ |
| C42 | `Svm.Codec.C42_code_panics_iff` | CPQ |
| C42 | `Svm.Codec.C42_layout_panics_iff` | CPQ |
| C42 | `Svm.Codec.C42_no_panic_partial` | P |
| C43 | `Svm.Codec.C43_lossless_false` | P |
| C43 | `Svm.Codec.C43_layout_lossless_iff` | CPQ |
| C43 | `Svm.Codec.C43_default_layout_changes` | CPQ |
| C43 | `Svm.Codec.C43_encodes_iff` | PQ |
| C43 | `Svm.Codec.C43_lossless_partial` | CPQ |
| C44 | `Svm.Codec.C44_selective_decode` | CPQ |
| C45 | `Svm.Codec.C45_lossless_false` | CPQ |
| C45 | `Svm.Codec.C45_lossless_partial` | CPQ |
| C45 | `Svm.Codec.C45_encodes_iff` | PQ |
| C46 | `Svm.Codec.C46_lossless_false` | CPQ |
| C46 | `Svm.Codec.C46_deploy_drops_logs` | CPQ |
| C46 | `Svm.Codec.C46_long_message_cut` | CPQ |
| C46 | `Svm.Codec.C46_long_message_panics` | P |
| C46 | `Svm.Codec.C46_encodes_iff` | PQ |
| C46 | `Svm.Codec.C46_lossless_partial` | CPQ |
| C47 | `Svm.Wasm.C47_claim_false` | CPQ |
| C47 | `Svm.Wasm.C47_no_floats_partial` | CPQ |
| C48 | `Svm.Wasm.C48_claim_false` | CPQ |
| C48 | `Svm.Wasm.C48_accepts_iff` | CPQ |
| C48 | `Svm.Wasm.C48_sound` | CPQ |
| C48 | `Svm.Wasm.C48_accepts_iff_partial` | CPQ |
| C49 | `Svm.Gas.C49_topological_sort` | CPQ |
| C49 | `Svm.Gas.C49_self_loop` | P |
| C50 | `Svm.Gas.C50_claim_false` | P |
| C50 | `Svm.Gas.C50_report` | CPQ |
| C50 | `Svm.Gas.C50_cycle_partial` | CPQ |
| C50 | `Svm.Wasm.C50_program` | CPQ |
| C51 | `Svm.Wasm.C51_terminates` | CPQ |
| C52 | `Svm.Wasm.C52_claim_false` | CPQ |
| C52 | `Svm.Wasm.C52_bounds_checked` | CPQ |
| C52 | `Svm.Wasm.C52_bounds_partial` | CPQ |
| C53 | `Svm.Gas.C53_claim_false` | PQ |
| C53 | `Svm.Gas.C53_max_path_checked` | CPQ |
| C53 | `Svm.Gas.C53_max_path_partial` | CPQ |
| C53 | `Svm.Gas.C53_succeeds_iff` | CPQ |
| C54 | `Svm.Wasm.C54_claim_false` | CPQ |
| C54 | `Svm.Wasm.C54_crashes` | CPQ |
| C54 | `Svm.Wasm.C54_release_iff` | CPQ |
| C54 | `Svm.Wasm.C54_succeeds_partial` | CPQ |
| C54 | `Svm.Wasm.clear_iff` | CPQ |
| C55 | `Svm.Wasm.C55_claim_false` | CPQ |
| C55 | `Svm.Wasm.C55_exact_checked` | CPQ |
| C55 | `Svm.Wasm.C55_exact_partial` | CPQ |
| C55 | `Svm.Wasm.prices_exist` | CPQ |
| C55 | `Svm.Wasm.prices_unique` | CPQ |
| C56 | `Svm.Gas.C56_claim_false` | P |
| C56 | `Svm.Gas.C56_release_wraps` | PQ |
| C56 | `Svm.Gas.C56_alternative` | CPQ |
| C56 | `Svm.Gas.C56_sequence_checked` | PQ |
| C56 | `Svm.Gas.C56_sequence_partial` | CPQ |
| C57 | `Svm.Runtime.C57_cached_prices` | PQ |
| C58 | `Svm.Abi.C58_claim_false` | CPQ |
| C58 | `Svm.Abi.C58_eight` | CPQ |
| C58 | `Svm.Abi.C58_roundtrip_partial` | CPQ |
| C59 | `Svm.Abi.C59_claim_false` | PQ |
| C59 | `Svm.Abi.C59_array_panics` | PQ |
| C59 | `Svm.Abi.C59_size_partial` | CPQ |
| C59 | `Svm.Abi.C59_max` | CPQ |
| C59 | `Svm.Abi.C59_encodes` | CPQ |
| C60 | `Svm.Abi.C60_claim_false` | CPQ |
| C60 | `Svm.Abi.C60_accepted` | CPQ |
| C60 | `Svm.Abi.C60_decodes_partial` | CPQ |
| C60 | `Svm.Abi.C60_nested` | CPQ |
| C61 | `Svm.Sdk.C61_list` | PQ |
| C61 | `Svm.Sdk.C61_raw_parts` | PQ |
| C61 | `Svm.Sdk.C61_into_iter` | PQ |
| C62 | `Svm.Sdk.C62_to_string` | CPQ |
| C62 | `Svm.Sdk.C62_unique` | CPQ |
| C62 | `Svm.Sdk.C62_push_str` | PQ |
| C63 | `Svm.Sdk.C63_claim_false` | P |
| C63 | `Svm.Sdk.C63_checked` | CPQ |
| C63 | `Svm.Sdk.C63_partial` | CPQ |
| C63 | `Svm.Sdk.C63_truncated` | PQ |
| C64 | `Svm.Runtime.C64_claim_false` | PQ |
| C64 | `Svm.Runtime.C64_overlap` | CPQ |
| C64 | `Svm.Runtime.C64_regions_partial` | CPQ |
| C65 | `Svm.Ffi.C65_accepted` | CPQ |
| C65 | `Svm.Ffi.C65_destroy` | CPQ |
| C65 | `Svm.Ffi.C65_once` | CPQ |
| C65 | `Svm.Ffi.C65_count` | CPQ |
| C66 | `Svm.Ffi.C66_result` | CPQ |
| C66 | `Svm.Ffi.C66_pointer` | CPQ |
| C66 | `Svm.Ffi.C66_argument` | CPQ |
| C66 | `Svm.Ffi.C66_call` | CPQ |
| C66 | `Svm.Ffi.C66_header` | CPQ |
| C67 | `Svm.Account.C67_claim_false` | CPQ |
| C67 | `Svm.Account.C67_zero_size_read` | CPQ |
| C67 | `Svm.Account.C67_zero_size_write` | CPQ |
| C68 | `Svm.Runtime.C68_call_isolation` | CPQ |
| C69 | `Svm.Runtime.C69_spawn_isolation` | CPQ |
| C70 | `Svm.Codec.C70_stored_sections` | CPQ |
| C71 | `Svm.Wasm.C71_claim_false` | CPQ |
| C71 | `Svm.Wasm.C71_panics_iff` | CPQ |
| C71 | `Svm.Wasm.C71_no_crash_partial` | CPQ |
| C72 | `Svm.Wasm.C72_required_exports` | CPQ |
| C73 | `Svm.Wasm.C73_claim_false` | CPQ |
| C73 | `Svm.Wasm.C73_any_count` | CPQ |
| C73 | `Svm.Wasm.C73_function_count_partial` | CPQ |
| C74 | `Svm.Abi.C74_claim_false` | CPQ |
| C74 | `Svm.Abi.C74_eight` | CPQ |
| C74 | `Svm.Abi.C74_roundtrip_partial` | CPQ |
| C74 | `Svm.Abi.C74_no_confusion` | CPQ |
| C75 | `Svm.Abi.C75_claim_false` | CPQ |
| C75 | `Svm.Abi.C75_padded` | CPQ |
| C75 | `Svm.Abi.C75_decode_partial` | CPQ |
| C75 | `Svm.Abi.C75_end` | P |
| C76 | `Svm.Sdk.C76_claim_false` | CPQ |
| C76 | `Svm.Sdk.C76_checked` | CPQ |
| C76 | `Svm.Sdk.C76_deployed_partial` | CPQ |
| C76 | `Svm.Sdk.C76_wraps` | CPQ |
| C77 | `Svm.Sdk.C77_roundtrip` | CPQ |
| C77 | `Svm.Sdk.C77_isolation` | CPQ |
| C77 | `Svm.Sdk.C77_out_of_range` | CPQ |
| C77 | `Svm.Sdk.C77_zero` | CPQ |
| C78 | `Svm.Sdk.C78_claim_false` | CPQ |
| C78 | `Svm.Sdk.C78_overwritten` | CPQ |
| C78 | `Svm.Sdk.C78_stays_partial` | CPQ |
| C79 | `Svm.Ffi.C79_claim_false` | CPQ |
| C79 | `Svm.Ffi.C79_disabled` | CPQ |
| C79 | `Svm.Ffi.C79_creates_partial` | CPQ |
| C80 | `Svm.Ffi.C80_claim_false` | CPQ |
| C80 | `Svm.Ffi.C80_leaks` | CPQ |
| C81 | `Svm.Ffi.C81_claim_false` | CPQ |
| C81 | `Svm.Ffi.C81_null` | CPQ |
| C81 | `Svm.Ffi.C81_unwrap` | CPQ |
| C81 | `Svm.Ffi.C81_drop_partial` | CPQ |
| C81 | `Svm.Ffi.C81_bytes` | PQ |
| C81 | `Svm.Ffi.C81_ok` | CPQ |
| C82 | `Svm.Ffi.C82_claim_false` | CPQ |
| C82 | `Svm.Ffi.C82_address` | PQ |
| C82 | `Svm.Ffi.C82_reports_partial` | PQ |
| C82 | `Svm.Ffi.C82_genesis` | CPQ |
| C83 | `Svm.Ffi.C83_claim_false` | CPQ |
| C83 | `Svm.Ffi.C83_zero_gas` | CPQ |
| C83 | `Svm.Ffi.C83_action_partial` | CPQ |
| C83 | `Svm.Ffi.C83_total` | PQ |
| C83 | `Svm.Ffi.C83_unknown` | P |
| C84 | `Svm.JsonApi.C84_claim_false` | PQ |
| C84 | `Svm.JsonApi.C84_decode` | CPQ |
| C84 | `Svm.JsonApi.C84_roundtrip_partial` | CPQ |
| C84 | `Svm.JsonApi.C84_empty` | CPQ |
| C85 | `Svm.JsonApi.C85_claim_false` | CPQ |
| C85 | `Svm.JsonApi.C85_encode_partial` | CPQ |
| C85 | `Svm.JsonApi.C85_panics` | CPQ |
| C86 | `Svm.JsonApi.C86_claim_false` | PQ |
| C86 | `Svm.JsonApi.C86_reencode_partial` | CPQ |
| C86 | `Svm.JsonApi.C86_shown` | CPQ |
| C86 | `Svm.JsonApi.C86_empty` | PQ |
| C87 | `Svm.JsonApi.C87_claim_false` | CPQ |
| C87 | `Svm.JsonApi.C87_roundtrip_partial` | CPQ |
| C87 | `Svm.JsonApi.C87_mismatch` | PQ |
| C88 | `Svm.JsonApi.C88_claim_false` | PQ |
| C88 | `Svm.JsonApi.C88_call_partial` | CPQ |
| C88 | `Svm.JsonApi.C88_spawn_partial` | CPQ |
| C88 | `Svm.JsonApi.C88_empty_array` | CPQ |
| C89 | `Svm.JsonApi.C89_claim_false` | PQ |
| C89 | `Svm.JsonApi.C89_gas` | PQ |
| C89 | `Svm.JsonApi.C89_faithful_partial` | PQ |
| C89 | `Svm.JsonApi.C89_failure` | PQ |
| C90 | `Svm.JsonApi.C90_claim_false` | CPQ |
| C90 | `Svm.JsonApi.C90_zero_gas` | CPQ |
| C90 | `Svm.JsonApi.C90_shown_partial` | CPQ |
| C90 | `Svm.JsonApi.C90_failure` | CPQ |
| C91 | `Svm.Runtime.C91_claim_false` | CPQ |
| C91 | `Svm.Runtime.C91_not_lost` | CPQ |
| C91 | `Svm.Runtime.C91_conserved_partial` | CPQ |
| C91 | `Svm.Runtime.C91_spawn_burns` | CPQ |
| C91 | `Svm.Runtime.C91_history_partial` | CPQ |
| C92 | `Svm.Runtime.C92_claim_false` | CPQ |
| C92 | `Svm.Runtime.C92_counters` | CPQ |
| C92 | `Svm.Runtime.C92_monotone_partial` | CPQ |
| C92 | `Svm.Runtime.C92_spawn_resets` | CPQ |
| C93 | `Svm.Runtime.C93_claim_false` | CPQ |
| C93 | `Svm.Runtime.C93_kept_partial` | CPQ |
| C94 | `Svm.Runtime.C94_deterministic` | CPQ |
| C95 | `Svm.Runtime.C95_claim_false` | CPQ |
| C95 | `Svm.Runtime.C95_stuck` | CPQ |
| C95 | `Svm.Runtime.C95_commit_partial` | CPQ |
| C96 | `Svm.Sdk.C96_claim_false` | CPQ |
| C96 | `Svm.Sdk.C96_spoiled` | CPQ |
| C96 | `Svm.Sdk.C96_overwritten` | CPQ |
| C96 | `Svm.Sdk.C96_args_partial` | CPQ |
| C97 | `Svm.Sdk.C97_claim_false` | CPQ |
| C97 | `Svm.Sdk.C97_overwritten` | CPQ |
| C97 | `Svm.Sdk.C97_echo_wrong` | CPQ |
| C97 | `Svm.Sdk.C97_echo_right` | CPQ |
| C97 | `Svm.Sdk.C97_address` | CPQ |
| C97 | `Svm.Sdk.C97_result_partial` | CPQ |
| C98 | `Svm.Sdk.C98_claim_false` | CPQ |
| C98 | `Svm.Sdk.C98_empty` | CPQ |
| C98 | `Svm.Sdk.C98_too_long` | CPQ |
| C98 | `Svm.Sdk.C98_safe_partial` | CPQ |
| C98 | `Svm.Sdk.C98_no_parameters_partial` | CPQ |
| C99 | `Svm.Sdk.C99_claim_false` | CPQ |
| C99 | `Svm.Sdk.C99_links` | CPQ |
| C99 | `Svm.Sdk.C99_fails` | CPQ |
| C99 | `Svm.Sdk.C99_instantiates_partial` | CPQ |
| C99 | `Svm.Sdk.C99_hosts` | CPQ |
| C100 | `Svm.Sdk.Macro.C100_claim_false` | CPQ |
| C100 | `Svm.Sdk.Macro.C100_attrs_iff` | CPQ |
| C100 | `Svm.Sdk.Macro.C100_roles_partial` | CPQ |
| C100 | `Svm.Sdk.Macro.C100_exported` | CPQ |
| C100 | `Svm.Sdk.Macro.C100_metadata` | CPQ |
| C101 | `Svm.Sdk.Macro.C101_claim_false` | CPQ |
| C101 | `Svm.Sdk.Macro.C101_hooks` | CPQ |
| C101 | `Svm.Sdk.Macro.C101_unnamed_partial` | CPQ |
| C101 | `Svm.Sdk.Macro.C101_unlinkable` | CPQ |
| C101 | `Svm.Sdk.Macro.C101_signatures` | CPQ |
| C101 | `Svm.Sdk.Macro.C101_asks` | CPQ |
| C102 | `Svm.Sdk.Macro.C102_claim_false` | CPQ |
| C102 | `Svm.Sdk.Macro.C102_crafts_iff` | CPQ |
| C102 | `Svm.Sdk.Macro.C102_faithful_partial` | CPQ |
| C102 | `Svm.Sdk.Macro.C102_schema` | CPQ |
| C102 | `Svm.Sdk.Macro.C102_deployed` | CPQ |
| C102 | `Svm.Sdk.Macro.C102_self_test` | CPQ |
| C102 | `Svm.Sdk.Macro.C102_self_test_sound` | P |
| C103 | `Svm.Sdk.Macro.C103_claim_false` | CPQ |
| C103 | `Svm.Sdk.Macro.C103_equal_iff` | CPQ |
| C103 | `Svm.Sdk.Macro.C103_differs` | CPQ |
| C103 | `Svm.Sdk.Macro.C103_reproducible_partial` | CPQ |
| C104 | `Svm.Runtime.C104_content_addressed` | CPQ |
| C104 | `Svm.Runtime.C104_one_code` | CPQ |
| C104 | `Svm.Runtime.C104_cached_prices` | CPQ |
| C104 | `Svm.Runtime.C104_mainnet` | P |
| C105 | `Svm.Runtime.C105_claim_false` | CPQ |
| C105 | `Svm.Runtime.C105_starts_iff` | CPQ |
| C105 | `Svm.Runtime.C105_loads_partial` | CPQ |
| C105 | `Svm.Runtime.C105_mainnet` | CPQ |
| C106 | `Svm.Runtime.C106_claim_false` | CPQ |
| C106 | `Svm.Runtime.C106_never_spawned` | CPQ |
| C107 | `Svm.Runtime.C107_claim_false` | CPQ |
| C107 | `Svm.Runtime.C107_checked_partial` | CPQ |
| C107 | `Svm.Runtime.C107_release_false` | CPQ |
| C107 | `Svm.Runtime.C107_fits_partial` | CPQ |
| C108 | `Svm.Runtime.C108_claim_false` | CPQ |
| C108 | `Svm.Runtime.C108_iff` | CPQ |
| C108 | `Svm.Runtime.C108_crashes` | CPQ |
| C108 | `Svm.Runtime.C108_release_iff` | CPQ |
| C109 | `Svm.Query.C109_claim_false` | CPQ |
| C109 | `Svm.Query.C109_swapped` | CPQ |
| C109 | `Svm.Query.C109_iff` | CPQ |
| C109 | `Svm.Query.C109_amount` | CPQ |
| C109 | `Svm.Query.C109_partial` | CPQ |
| C109 | `Svm.Query.C109_hex_injective` | PQ |
| C110 | `Svm.Query.C110_claim_false` | PQ |
| C110 | `Svm.Query.C110_iff` | CPQ |
| C110 | `Svm.Query.C110_answers_partial` | CPQ |
| C110 | `Svm.Query.C110_order` | PQ |
| C111 | `Svm.Sdk.C111_test_is_chain` | CPQ |
| C111 | `Svm.Sdk.C111_raw_differs` | CPQ |
| C112 | `Svm.Sdk.C112_claim_false` | CPQ |
| C112 | `Svm.Sdk.C112_same_pointer` | P |
| C112 | `Svm.Sdk.C112_lost` | P |
| C112 | `Svm.Sdk.C112_iff` | P |
| C112 | `Svm.Sdk.C112_interned_partial` | P |
| C113 | `Svm.Sdk.C113_claim_false` | CPQ |
| C113 | `Svm.Sdk.C113_chain_partial` | CPQ |
| C113 | `Svm.Sdk.C113_test_partial` | CPQ |
| C113 | `Svm.Sdk.C113_differs` | CPQ |
| C114 | `Svm.Sdk.C114_claim_false` | CPQ |
| C114 | `Svm.Sdk.C114_reset_partial` | - |
| C114 | `Svm.Sdk.C114_history` | P |
| C115 | `Svm.Wasm.C115_halts` | CPQ |
| C115 | `Svm.Wasm.machine_loops` | PQ |
| C116 | `Svm.Wasm.C116_claim_false` | CPQ |
| C116 | `Svm.Wasm.C116_free` | CPQ |
| C116 | `Svm.Wasm.C116_cost_checked` | CPQ |
| C116 | `Svm.Wasm.C116_cost_partial` | CPQ |
| C117 | `Svm.Runtime.C117_claim_false` | CPQ |
| C117 | `Svm.Runtime.loop_answer` | CPQ |
| C117 | `Svm.Runtime.C117_no_hang_partial` | CPQ |
| C117 | `Svm.Runtime.fuelOf_enough` | CPQ |
| C117 | `Svm.Runtime.run_congr` | CPQ |
| C118 | `Svm.JsonApi.C118_crafts` | CPQ |
| C118 | `Svm.JsonApi.C118_refuses` | CPQ |
| C118 | `Svm.JsonApi.C118_mismatch` | CPQ |
| C119 | `Svm.Runtime.C119_claim_false` | CPQ |
| C119 | `Svm.Runtime.C119_layers` | CPQ |
| C119 | `Svm.Runtime.C119_genesis` | CPQ |
| C120 | `Svm.Runtime.C120_rewind_undoes` | CPQ |
| C121 | `Svm.Runtime.C121_credits` | CPQ |
| C121 | `Svm.Runtime.C121_iff` | PQ |
| C122 | `Svm.Runtime.C122_claim_false` | CPQ |
| C122 | `Svm.Runtime.C122_replaces` | CPQ |
| C122 | `Svm.Runtime.C122_books_partial` | CPQ |
| C122 | `Svm.Runtime.Holds.unique` | CPQ |
| C123 | `Svm.Runtime.C123_claim_false` | CPQ |
| C123 | `Svm.Runtime.C123_dropped` | CPQ |
| C123 | `Svm.Runtime.C123_shows_partial` | CPQ |
| C123 | `Svm.Runtime.C123_call_partial` | CPQ |
| C123 | `Svm.Runtime.C123_spawn_partial` | CPQ |
| C123 | `Svm.Runtime.C123_executed` | CPQ |
| C124 | `Svm.Sdk.C124_claim_false` | CPQ |
| C124 | `Svm.Sdk.C124_answers_partial` | CPQ |
| C125 | `Svm.Runtime.C125_claim_false` | CPQ |
| C125 | `Svm.Runtime.C125_required` | PQ |
| C125 | `Svm.Runtime.C125_accepts` | CPQ |
| C125 | `Svm.Runtime.C125_usable_partial` | CPQ |
| C125 | `Svm.Runtime.C125_unvalidated` | CPQ |
| C125 | `Svm.Runtime.C125_refuses` | P |
| C125 | `Svm.Runtime.C125_deploy_refuses` | CPQ |
| C126 | `Svm.Runtime.C126_kept` | CPQ |
| C127 | `Svm.Sdk.C127_counter` | CPQ |
| C127 | `Svm.Sdk.C127_spawns` | CPQ |
| C128 | `Svm.Account.C128_records_partial` | CPQ |
| C128 | `Svm.Account.C128_variables_current` | PQ |
| C128 | `Svm.Account.C128_variables_partial` | PQ |
| C128 | `Svm.Account.C128_future_layer` | PQ |
| C128 | `Svm.Account.C128_wraps` | PQ |
| C128 | `Svm.Account.C128_claim_false` | CPQ |
| C129 | `Svm.Account.C129_writes_stale` | CPQ |
| C129 | `Svm.Account.C129_no_record` | PQ |
| C129 | `Svm.Account.C129_current_partial` | CPQ |
| C129 | `Svm.Account.C129_variables` | PQ |
| C129 | `Svm.Account.C129_claim_false` | CPQ |
| C129 | `Svm.Account.C129_coins_return` | CPQ |
| C130 | `Svm.Runtime.C130_apart` | CPQ |
| C130 | `Svm.Runtime.C130_any_order` | CPQ |
| C130 | `Svm.Runtime.C130_alone` | PQ |
| C131 | `Svm.Runtime.C131_partial` | CPQ |
| C131 | `Svm.Runtime.C131_lost_update` | CPQ |
| C131 | `Svm.Runtime.C131_claim_false` | CPQ |
| C132 | `Svm.Runtime.C132_partial` | CPQ |
| C132 | `Svm.Runtime.C132_lost_write` | CPQ |
| C132 | `Svm.Runtime.C132_claim_false` | CPQ |
| C133 | `Svm.Runtime.C133_one_read` | PQ |
| C133 | `Svm.Runtime.C133_getters` | - |
| C133 | `Svm.Runtime.C133_partial` | PQ |
| C133 | `Svm.Runtime.C133_small_partial` | PQ |
| C133 | `Svm.Runtime.C133_torn` | CPQ |
| C133 | `Svm.Runtime.C133_claim_false` | CPQ |
| C134 | `Svm.Runtime.C134_partial` | CPQ |
| C134 | `Svm.Runtime.C134_half` | CPQ |
| C134 | `Svm.Runtime.C134_claim_false` | CPQ |
| C135 | `Svm.Wasm.C135_claim_false` | CPQ |
| C135 | `Svm.Wasm.C135_says_valid` | CPQ |
| C135 | `Svm.Wasm.C135_missing` | CPQ |
| C135 | `Svm.Wasm.C135_accepted_partial` | CPQ |
| C135 | `Svm.Wasm.C135_reasons` | CPQ |
| C135 | `Svm.Wasm.C135_files` | CPQ |
| C136 | `Svm.Wasm.C136_claim_false` | CPQ |
| C136 | `Svm.Wasm.C136_shown` | CPQ |
| C136 | `Svm.Wasm.C136_crashes` | CPQ |
| C136 | `Svm.Wasm.C136_partial` | CPQ |
| C137 | `Svm.Runtime.C137_claim_false` | CPQ |
| C137 | `Svm.Runtime.C137_calls` | CPQ |
| C137 | `Svm.Runtime.C137_spawns` | CPQ |
| C137 | `Svm.Runtime.C137_deploys_partial` | PQ |
| C138 | `Svm.Runtime.C138_release_false` | CPQ |
| C138 | `Svm.Runtime.C138_flood` | CPQ |
| C138 | `Svm.Runtime.C138_checked` | CPQ |
| C138 | `Svm.Runtime.C138_fits_partial` | CPQ |
| C139 | `Svm.Runtime.C139_claim_false` | CPQ |
| C139 | `Svm.Runtime.C139_step` | CPQ |
| C139 | `Svm.Runtime.C139_poisons` | CPQ |
| C139 | `Svm.Runtime.C139_poisoned` | CPQ |
| C139 | `Svm.Runtime.C139_forever` | PQ |
| C139 | `Svm.Runtime.C139_dead` | CPQ |
| C139 | `Svm.Runtime.C139_by_message` | CPQ |
| C139 | `Svm.Runtime.C139_lock_partial` | CPQ |
| C140 | `Svm.Storage.C140_claim_false` | PQ |
| C140 | `Svm.Storage.C140_refines` | CPQ |
| C140 | `Svm.Storage.C140_lost` | CPQ |
| C140 | `Svm.Storage.C140_stuck` | CPQ |
| C140 | `Svm.Storage.C140_mixture` | CPQ |
| C140 | `Svm.Storage.C140_repair` | CPQ |
| C140 | `Svm.Storage.C140_layers` | CPQ |
| C140 | `Svm.Storage.C140_retry_partial` | CPQ |
| C141 | `Svm.Ffi.C141_claim_false` | CPQ |
| C141 | `Svm.Ffi.C141_same_file` | CPQ |
| C141 | `Svm.Ffi.C141_after_failure` | CPQ |
| C141 | `Svm.Ffi.C141_isolated_partial` | CPQ |
| C142 | `Svm.Sdk.C142_claim_false` | P |
| C142 | `Svm.Sdk.C142_alias` | PQ |
| C142 | `Svm.Sdk.C142_outside` | PQ |
| C142 | `Svm.Sdk.C142_aligned` | PQ |
| C142 | `Svm.Sdk.C142_data` | PQ |
| C142 | `Svm.Sdk.C142_growing_partial` | PQ |
| C143 | `Svm.Wasm.C143_claim_false` | CPQ |
| C143 | `Svm.Wasm.C143_exponential` | CPQ |
| C143 | `Svm.Wasm.C143_runtime` | CPQ |
| C143 | `Svm.Wasm.C143_linear_partial` | CPQ |
| C143 | `Svm.Wasm.C143_no_dead_ends_partial` | CPQ |
| C144 | `Svm.Wasm.C144_linear` | CPQ |
| C145 | `Svm.Codec.C145_claim_false` | CPQ |
| C145 | `Svm.Codec.C145_greedy` | CPQ |
| C145 | `Svm.Codec.C145_bound` | CPQ |
| C145 | `Svm.Codec.C145_messages_partial` | CPQ |
| C145 | `Svm.Codec.C145_accepted_partial` | CPQ |
| C146 | `Svm.Runtime.C146_claim_false` | CPQ |
| C146 | `Svm.Runtime.C146_blind` | CPQ |
| C146 | `Svm.Runtime.C146_unpaid` | CPQ |
| C147 | `Svm.Sdk.Amounts.C147_claim_false` | P |
| C147 | `Svm.Sdk.Amounts.C147_subtraction` | PQ |
| C147 | `Svm.Sdk.Amounts.C147_fits_partial` | CPQ |
| C147 | `Svm.Sdk.Amounts.C147_checked_partial` | CPQ |
| C147 | `Svm.Sdk.Amounts.C147_subtracts_partial` | PQ |
| C147 | `Svm.Sdk.Amounts.C147_modulo` | PQ |
| C147 | `Svm.Sdk.Amounts.C147_wraps` | PQ |
| C147 | `Svm.Sdk.Amounts.C147_never_stops` | P |
| C147 | `Svm.Sdk.Amounts.C147_negative` | PQ |
| C148 | `Svm.Sdk.C148_claim_false` | CPQ |
| C148 | `Svm.Sdk.C148_amount` | CPQ |
| C148 | `Svm.Sdk.C148_address` | CPQ |
| C148 | `Svm.Sdk.C148_layer_partial` | CPQ |
| C148 | `Svm.Sdk.C148_layer_panics` | CPQ |
| C148 | `Svm.Sdk.C148_distinct` | CPQ |
| C149 | `Svm.Storage.Growth.C149_rows` | CPQ |
| C149 | `Svm.Storage.Growth.C149_layers` | CPQ |
| C149 | `Svm.Storage.Growth.C149_commit` | CPQ |
| C150 | `Svm.Storage.Growth.C150_claim_false` | CPQ |
| C150 | `Svm.Storage.Growth.C150_selects` | CPQ |
| C150 | `Svm.Storage.Growth.C150_product` | CPQ |
| C150 | `Svm.Storage.Growth.C150_historical` | CPQ |
| C150 | `Svm.Storage.Growth.C150_square` | CPQ |
| C150 | `Svm.Storage.Growth.C150_bound_partial` | CPQ |
| C151 | `Svm.Sdk.Widths.C151_claim_false` | CPQ |
| C151 | `Svm.Sdk.Widths.C151_which` | CPQ |
| C151 | `Svm.Sdk.Widths.C151_refuses` | PQ |
| C151 | `Svm.Sdk.Widths.C151_accepts` | CPQ |
| C151 | `Svm.Sdk.Widths.C151_panics` | CPQ |
| C151 | `Svm.Sdk.Widths.C151_documented_partial` | CPQ |
| C152 | `Svm.Runtime.Modes.C152_claim_false` | CPQ |
| C152 | `Svm.Runtime.Modes.C152_transfer` | PQ |
| C152 | `Svm.Runtime.Modes.C152_balances_partial` | PQ |
| C152 | `Svm.Runtime.Modes.C152_partial` | PQ |
| C153 | `Svm.Runtime.Modes.C153_more_rights` | PQ |
| C154 | `Svm.Account.Touches.C154_segments` | CPQ |
| C154 | `Svm.Account.Touches.C154_read` | CPQ |
| C154 | `Svm.Account.Touches.C154_write` | CPQ |
| C154 | `Svm.Account.Touches.C154_refused` | PQ |
| C155 | `Svm.Runtime.Renew.C155_claim_false` | CPQ |
| C155 | `Svm.Runtime.Renew.C155_deployed` | CPQ |
| C155 | `Svm.Runtime.Renew.C155_core` | CPQ |
| C155 | `Svm.Runtime.Renew.C155_core_partial` | CPQ |
| C155 | `Svm.Runtime.Renew.C155_noncore_partial` | CPQ |
