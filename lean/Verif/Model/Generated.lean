import Verif.Model.GoRustCall
import Verif.Model.Programs

/-!
# Two programs with generated code, joined by a connection

The handlers of `Programs` are the wrappers of operations of generated Go services (`GoRustCall.goAnswers`).

Simplifications:
* The implementations are functions of their arguments, as in `GoRustCall`.
* A wrapper that does not return, or panics, gives no answer.
-/

namespace Iota.Generated
open Iota.Go Iota.Msgpack Iota.Codegen Iota.Calls Iota.GoRustCall Iota.Registry Iota.Programs
open Iota.Peers (Result)
open Iota.StreamId (Side)

/-- An exported wrapper with its implementation. /repo/codegen/src/tinygo/wrappers_visitor.ts:174-184 -/
structure Wrapper where
  op : Operation
  impl : List GV → Res GV

/-- Is this the answer? A payload of a transform has no metadata (/repo/go/transform/transform.go); an error is answered with its text.
/repo/go/handler/handler.go:250-266 -/
def fits : Option (Res Bytes) → Result → Bool
  | some (.ok d), .value d' m => decide (d' = d ∧ m = [])
  | some (.err e), .failure msg => decide (msg = e.toUTF8.toList)
  | _, _ => false

/-- Two programs with these exports and imports. -/
def duo (env : Env) (lib : Lib) (format : Time → Bytes) (order : GV → GV) (fuel : Nat) (regs : Side → Reg Wrapper) : Duo Wrapper where
  regs := regs
  gives w data _ r := fits (goAnswers env lib format fuel w.op w.impl order data) r

end Iota.Generated
