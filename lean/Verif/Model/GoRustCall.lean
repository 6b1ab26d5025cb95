import Verif.Model.Calls
import Verif.Model.RustInputs
import Verif.Model.RustOnce

/-!
# The two sides of a call between generated code in Go and in Rust

What the wrapper of a service generated in Rust reads of a request, for the model of its execution (`RustOnce`), and the whole wrapper of
a service generated in Go.

Simplifications:
* The implementation in Go is a function of its arguments, or an error; what its Mono does before it has the result is in `Mono`.
* Maps in the result have one order (`order`) when the size is computed and another when they are written (`Codegen`).
-/

namespace Iota.GoRustCall
open Iota.Go Iota.Msgpack Iota.Codegen Iota.Calls Iota.RustInputs Iota.Spec.Msgpack

/-- What the wrapper in Rust reads of a request (`RustInputs.inputs`), with some error if it cannot be read.
/repo/codegen/src/rust/visitors/service-visitor.ts:134 -/
def readArgs (fuel : Nat) (op : Operation) (msg : Bytes) (data : Bytes) : Except Bytes (List Val) :=
  match inputs fuel (op.params.map (·.name)) data with
  | some vs => .ok vs
  | none => .error msg

/-- The answer to what the implementation in Go returned: `mono.Map` hands on an error and encodes a value (`Calls.encode`).
/repo/codegen/src/tinygo/wrappers_visitor.ts:272-324 -/
def respond (env : Env) (format : Time → Bytes) (op : Operation) (order : GV → GV) : Res GV → Option (Res Bytes)
  | .ok v => encode env format (serverResult op).2 (order v) v
  | .err e => some (.err e)
  | .panic => some .panic

/-- The wrapper in Go reads the arguments, or answers with an error, and calls the implementation.
/repo/codegen/src/tinygo/wrappers_visitor.ts:185-271 -/
def goAnswers (env : Env) (lib : Lib) (format : Time → Bytes) (fuel : Nat) (op : Operation) (impl : List GV → Res GV) (order : GV → GV)
    (data : Bytes) : Option (Res Bytes) :=
  match serverReceives env lib fuel op data with
  | some (.ok vs) => respond env format op order (impl vs)
  | some (.err e) => some (.err e)
  | some .panic => some .panic
  | none => none

end Iota.GoRustCall
