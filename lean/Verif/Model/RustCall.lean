import Verif.Model.RustClient
import Verif.Model.RustInputs
import Verif.Model.RustOnce

/-!
# The two sides of a call between generated code in Rust

What connects the models of a generated Rust client (`RustClient`), of what a generated Rust service reads (`RustInputs`) and of its wrapper
(`RustOnce`).

Simplifications:
* Arguments and results are MessagePack values; the serializer is a parameter, as in `RustClient`; the texts of errors are parameters.
-/

namespace Iota.RustCall
open Iota.Go Iota.Spec.Msgpack Iota.RustInputs Iota.RustClient

/-- `Inputs` of a client, as it is serialized: one entry for each parameter. /repo/codegen/src/rust/visitors/provider-visitor.ts:98-105, 130-133 -/
def entries : List Bytes → List Val → List (Val × Val)
  | n :: ns, v :: vs => (.str n, v) :: entries ns vs
  | _, _ => []

/-- `deserialize(&v.data)` in the wrapper. /repo/codegen/src/rust/visitors/service-visitor.ts:134 -/
def de (fuel : Nat) (params : List Bytes) (msg : Bytes) (data : Bytes) : Except Bytes (List Val) :=
  match inputs fuel params data with
  | some vs => .ok vs
  | none => .error msg

/-- `serialize(&output)` in the wrapper. /repo/codegen/src/rust/visitors/service-visitor.ts:137-140 -/
def wrap (ser : Val → Bytes) (msg : Bytes) (v : Val) : Except Bytes Bytes :=
  match serialize ser v with
  | some b => .ok b
  | none => .error msg

end Iota.RustCall
