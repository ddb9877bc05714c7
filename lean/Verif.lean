import Verif.Prelude
import Verif.Storage.Model
import Verif.Storage.Spec
import Verif.Storage.Lemmas
import Verif.Storage.Props
import Verif.Storage.GlobalState
import Verif.Storage.Props2
import Verif.Layout
import Verif.Codec.Basic
import Verif.Codec.Messages
import Verif.Codec.Props
import Verif.Codec.Sections
import Verif.Codec.Props2
import Verif.Codec.Receipts
import Verif.Codec.Props3
import Verif.Codec.Props4
import Verif.Account.Prog
import Verif.Account.Model
import Verif.Account.Lemmas
import Verif.Account.Reach
import Verif.Account.Lemmas2
import Verif.Account.Props
import Verif.Runtime.Model
import Verif.Runtime.Lemmas
import Verif.Runtime.Transfer
import Verif.Runtime.Demo
import Verif.Runtime.Host
import Verif.Runtime.GasProps
import Verif.Runtime.Exec
import Verif.Codec.Decoded
import Verif.Runtime.Isolation
import Verif.Runtime.Deploy
import Verif.Gas.Range
import Verif.Gas.Graph
import Verif.Gas.Sort
import Verif.Gas.Cycle
import Verif.Gas.Weight
import Verif.Wasm.Program
import Verif.Wasm.Valid
import Verif.Wasm.Exports
import Verif.Wasm.Exec
import Verif.Wasm.Cfg
import Verif.Wasm.Flow
import Verif.Wasm.Sim
import Verif.Wasm.Labels
import Verif.Wasm.Pricing
import Verif.Wasm.PriceLemmas
import Verif.Wasm.PriceFlow
import Verif.Wasm.Price
import Verif.Wasm.PriceProgram
import Verif.Wasm.PriceProps
import Verif.Gas.Release
import Verif.Wasm.Dead
import Verif.Wasm.Crash
import Verif.Abi.Model
import Verif.Abi.Lemmas
import Verif.Abi.Props
import Verif.Abi.Typed
import Verif.Abi.Decode
import Verif.Sdk.Vec
import Verif.Sdk.Alloc
import Verif.Sdk.Text
import Verif.Sdk.Storage
import Verif.Sdk.Access
import Verif.Ffi.Handles
import Verif.Ffi.Buffer
import Verif.Ffi.Api
import Verif.Ffi.Results
import Verif.Ffi.Process
import Verif.Json.Model
import Verif.Json.Lemmas
import Verif.Json.Encode
import Verif.Json.RoundTrip
import Verif.Json.Messages
import Verif.Json.Receipt
import Verif.Runtime.Ledger
import Verif.Runtime.Node
import Verif.Sdk.Endpoint
import Verif.Sdk.Link
import Verif.Sdk.Template
import Verif.Sdk.Craft
import Verif.Runtime.Templates
import Verif.Runtime.Priced
import Verif.Query.Render
import Verif.Sdk.MockStorage
import Verif.Sdk.MockHost
import Verif.Wasm.Machine
import Verif.Runtime.Machine
import Verif.Json.Cli
import Verif.Runtime.Rewind
import Verif.Runtime.Books
import Verif.Runtime.Receipt
import Verif.Sdk.Call
import Verif.Runtime.Validate
import Verif.Runtime.Frame
import Verif.Sdk.Still
import Verif.Sdk.Counter
import Verif.Runtime.History
import Verif.Runtime.Threads
import Verif.Runtime.Races
import Verif.Wasm.Tool
import Verif.Runtime.Charges
import Verif.Runtime.Poison
import Verif.Storage.Faults
import Verif.Wasm.Effort
import Verif.Wasm.PriceEffort
import Verif.Codec.Memory
import Verif.Runtime.CallGas
import Verif.Sdk.Amount
import Verif.Sdk.Show
import Verif.Storage.Growth
import Verif.Sdk.Widths
import Verif.Runtime.Modes
import Verif.Account.Touches
import Verif.Runtime.Renew
