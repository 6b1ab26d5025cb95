import Verif.Spec.Reader

/-!
# The arguments of a generated Rust service and the results of a generated Rust client

Model of what the wrapper of an operation of a generated Rust service makes of the data of a request: `deserialize(&v.data)` into
`struct Inputs` (`/repo/codegen/src/rust/visitors/service-visitor.ts`, `/repo/rust/crates/wasmrs-codec/src/messagepack.rs`), and of
what a function of a generated Rust client makes of the data of an answer: `deserialize::<Outputs>(&payload.data.unwrap())`
(`/repo/codegen/src/rust/visitors/provider-visitor.ts`).

Simplifications:
* The reader itself (`wasm_msgpack`) and the code that `derive(serde::Deserialize)` writes are in packages outside the repository. Taken is the
  convention of serde for MessagePack: the message is read as MessagePack; a struct is read from a map; a field is found by its name; entries of other names
  are ignored; a field that is missing, or there twice, is an error, except that a missing optional field is `None`. No operation
  here has an optional field that is missing, so this exception is left out. A struct can also be read from an array of its fields in
  order; no client sends one, so this is an error here.
* A field or a result is the MessagePack value found for it; what its type makes of it is left out. The type of no result is `()`,
  whose value is nil.
* An answer that came in a frame has data, if only the empty bytes (`/repo/rust/crates/wasmrs/src/frames/f_payload.rs:110-116`), so
  `unwrap` does not fail.
-/

namespace Iota.RustInputs
open Iota.Go Iota.Spec.Msgpack Iota.Spec.Reader

/-- Is this the name of the field? -/
def isName (n : Bytes) : Val → Bool
  | .str s => s == n
  | _ => false

/-- The value of a field, if there is exactly one. service-visitor.ts:241-257 -/
def field (entries : List (Val × Val)) (n : Bytes) : Option Val :=
  match entries.filter fun e => isName n e.1 with
  | [e] => some e.2
  | _ => none

/-- All fields, or an error if one has no value. -/
def fields (entries : List (Val × Val)) : List Bytes → Option (List Val)
  | [] => some []
  | n :: ns =>
    match field entries n, fields entries ns with
    | some v, some vs => some (v :: vs)
    | _, _ => none

/-- `deserialize::<Inputs>(&v.data)`: one field for each parameter, whether the operation is unary or not. service-visitor.ts:134,
241-257, messagepack.rs:26-36. `none` is an error. -/
def inputs (fuel : Nat) (params : List Bytes) (data : Bytes) : Option (List Val) :=
  match parse fuel data with
  | some (.map entries, _) => fields entries params
  | _ => none

/-- `deserialize::<Outputs>(&payload.data.unwrap())`, for the answer of a request and for each element of a stream.
provider-visitor.ts:121, 171, messagepack.rs:26-36. `none` is an error. -/
def output (fuel : Nat) (data : Bytes) : Option Val :=
  match parse fuel data with
  | some (v, _) => some v
  | none => none

end Iota.RustInputs
