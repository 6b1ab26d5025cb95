import Verif.Model.Generated
import Verif.Model.WasmCalls

/-!
# A WebAssembly host and its guest with generated code

The two ends of `WasmCalls`, where the handlers are the wrappers of operations of generated Go services (`Generated.Wrapper`).

Simplifications: those of `Generated`. What wrappers of streams and channels send is left open.
-/

namespace Iota.GeneratedWasm
open Iota.Go Iota.Msgpack Iota.Codegen Iota.Calls Iota.GoRustCall Iota.Registry Iota.WasmDispatch Iota.WasmCalls Iota.Generated
open Iota.Peers (Result)

/-- A handler that answers once answers what its wrapper makes of the data. /repo/go/transport/wasmrs/guest/guest.go:312-331,
/repo/go/transport/wasmrs/host/instance.go:447-464 -/
def permitted (env : Env) (lib : Lib) (format : Time → Bytes) (order : GV → GV) (fuel : Nat) (y : Sys Wrapper) : WasmCalls.Act → Bool
  | .answer e i r =>
    match (y.node e).jobs[i]? with
    | some x => fits (goAnswers env lib format fuel x.handler.op x.handler.impl order x.data) r
    | none => false
  | _ => true

/-- One step of the two programs, which have these handlers. -/
def step (env : Env) (lib : Lib) (format : Time → Bytes) (order : GV → GV) (fuel : Nat) (hs : End → Handlers Wrapper) (y : Sys Wrapper)
    (a : WasmCalls.Act) : Option (Sys Wrapper) :=
  if permitted env lib format order fuel y a then y.step hs a else none

end Iota.GeneratedWasm
