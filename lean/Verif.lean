import Verif.Props.Frames
import Verif.Props.Fragment
import Verif.Props.U24
import Verif.Props.StreamId
import Verif.Props.Unbounded
import Verif.Props.Lookup
import Verif.Props.Mono
import Verif.Props.Msgpack
import Verif.Props.Operations
import Verif.Props.Registry
import Verif.Props.Uuid
import Verif.Props.Sections
import Verif.Props.Transform
import Verif.Props.Transport
import Verif.Model.Server
import Verif.Props.Server
import Verif.Model.Codegen
import Verif.Props.Codegen
import Verif.Props.Framing
import Verif.Props.GoTime
import Verif.Props.Handler
import Verif.Props.Peers
import Verif.Props.ProxyFlux
import Verif.Props.Wasm
import Verif.Props.WasmRecv
import Verif.Props.WasmPool
import Verif.Props.Mesh
import Verif.Props.Flux
import Verif.Props.FluxSlice
import Verif.Props.Flow
import Verif.Props.FlowRace
import Verif.Props.Scaffold
import Verif.Props.RustFrames
import Verif.Props.RustOperations
import Verif.Model.RustGuest
import Verif.Props.RustGuest
import Verif.Props.RustSocket
import Verif.Props.RustResponder
import Verif.Props.RustChannel
import Verif.Props.Caller
import Verif.Props.FluxLock
import Verif.Props.RustInterop
import Verif.Model.WasmDispatch
import Verif.Lemmas.WasmDispatch
import Verif.Spec.WasmDispatch
import Verif.Props.WasmDispatch
import Verif.Props.WasmCaller
import Verif.Model.WasmCalls
import Verif.Spec.WasmCalls
import Verif.Props.WasmCalls
import Verif.Spec.WasmStreams
import Verif.Props.WasmStreams
import Verif.Props.WasmFinish
import Verif.Props.WasmServe
import Verif.Props.UuidTime
import Verif.Props.MsgpackMap
import Verif.Props.RustRx
import Verif.Props.Start
import Verif.Props.CodegenDup
import Verif.Props.CodegenZero
import Verif.Model.RustExec
import Verif.Props.RustExec
import Verif.Model.Calls
import Verif.Props.Calls
import Verif.Model.Block
import Verif.Props.Block
import Verif.Spec.RustHost
import Verif.Model.RustHost
import Verif.Props.RustHost
import Verif.Spec.Leak
import Verif.Props.Leak
import Verif.Model.Await
import Verif.Props.Await
import Verif.Spec.RustCodegen
import Verif.Model.RustCodegen
import Verif.Props.RustCodegen
import Verif.Model.RustProject
import Verif.Spec.RustProject
import Verif.Props.RustProject
import Verif.Spec.RustWrappers
import Verif.Model.RustWrappers
import Verif.Props.RustWrappers
import Verif.Props.Interop
import Verif.Spec.Polite
import Verif.Props.Polite
import Verif.Props.PoliteFinish
import Verif.Model.Net
import Verif.Spec.Net
import Verif.Props.Net
import Verif.Model.RustPair
import Verif.Spec.RustPair
import Verif.Props.RustPair
import Verif.Model.Serve
import Verif.Props.Streamed
import Verif.Spec.GoFile
import Verif.Model.Imports
import Verif.Props.Imports
import Verif.Props.Channel
import Verif.Props.Demand
import Verif.Model.Components
import Verif.Spec.Components
import Verif.Props.Components
import Verif.Model.Mixed
import Verif.Spec.Mixed
import Verif.Lemmas.MixedRust
import Verif.Lemmas.MixedGo
import Verif.Props.Mixed
import Verif.Model.MeshCalls
import Verif.Spec.MeshCalls
import Verif.Props.MeshCalls
import Verif.Spec.MeshFinish
import Verif.Props.MeshFinish
import Verif.Model.MeshStreams
import Verif.Spec.MeshStreams
import Verif.Props.MeshStreams
import Verif.Spec.MeshDrain
import Verif.Lemmas.MeshDrain
import Verif.Lemmas.MeshWork
import Verif.Props.MeshDrain
import Verif.Spec.WasmInputs
import Verif.Props.WasmInputs
import Verif.Model.Customer
import Verif.Spec.Customer
import Verif.Props.Customer
import Verif.Model.Programs
import Verif.Model.Greeter
import Verif.Spec.Programs
import Verif.Props.Programs
import Verif.Props.Greeter
import Verif.Model.Paging
import Verif.Spec.Paging
import Verif.Props.Paging
import Verif.Spec.WasmOnce
import Verif.Props.WasmOnce
import Verif.Spec.WasmDrain
import Verif.Props.WasmDrain
import Verif.Model.Pager
import Verif.Spec.Pager
import Verif.Props.Pager
import Verif.Model.Wiring
import Verif.Spec.Wiring
import Verif.Props.Wiring
import Verif.Model.Maps
import Verif.Spec.Maps
import Verif.Props.Maps
import Verif.Model.SlicePager
import Verif.Props.SlicePager
import Verif.Model.Services
import Verif.Spec.Services
import Verif.Props.Services
import Verif.Model.Upper
import Verif.Spec.Upper
import Verif.Props.Upper
import Verif.Spec.RustFinish
import Verif.Props.RustFinish
import Verif.Spec.RustChannels
import Verif.Lemmas.RustChannels
import Verif.Props.RustChannels
import Verif.Model.OpsTool
import Verif.Spec.OpsTool
import Verif.Props.OpsTool
import Verif.Model.Invoke
import Verif.Spec.Invoke
import Verif.Props.Invoke
import Verif.Model.Reqres
import Verif.Spec.Reqres
import Verif.Props.Reqres
import Verif.Model.BusYaml
import Verif.Spec.BusYaml
import Verif.Props.BusYaml
import Verif.Model.RustWasi
import Verif.Spec.RustWasi
import Verif.Props.RustWasi
import Verif.Model.Joined
import Verif.Spec.Joined
import Verif.Props.Joined
import Verif.Spec.MixedFinish
import Verif.Props.MixedFinish
import Verif.Props.FrameSender
import Verif.Props.Linking
import Verif.Props.Twins
import Verif.Props.RustInputs
import Verif.Props.RustOutputs
import Verif.Props.RustClient
import Verif.Props.RustOnce
import Verif.Props.TypedReads
import Verif.Props.RustResults
import Verif.Props.GoRustCall
import Verif.Props.GoCall
import Verif.Props.RustCall
import Verif.Props.Generated
import Verif.Props.GeneratedWasm
import Verif.Props.RustGenerated
import Verif.Props.RustStreams
import Verif.Props.MixedGenerated
