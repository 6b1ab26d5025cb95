import Verif.Go.Basic
import Verif.Spec.Msgpack
import Verif.Model.Registry

/-!
# The functions of a generated Rust client

Model of the functions that `/repo/codegen/src/rust/visitors/provider-visitor.ts` generates for the operations of an interface, and of
`serialize` (`/repo/rust/crates/wasmrs-codec/src/messagepack.rs`), which they and the wrappers of
`/repo/codegen/src/rust/visitors/service-visitor.ts` call.

Simplifications:
* The serializer `wasm_msgpack::encode::serde::to_array` is in a package outside the repository. It is a parameter: the bytes it
  writes for a value if the buffer is large enough. If the buffer is too small it returns an error.
* The arguments are the MessagePack value of `Inputs`.
* What happens to a request that has been made is modelled elsewhere (`RustGuest`, `RustSocket`).
-/

namespace Iota.RustClient
open Iota.Go Iota.Spec.Msgpack Iota.Registry

/-- The buffer of `mp_serialize`. messagepack.rs:11 -/
def bufferSize : Nat := 1024 * 100

/-- `serialize`: the bytes that were written, or an error if they do not fit. messagepack.rs:7-14, 19-24 -/
def serialize (ser : Val → Bytes) (v : Val) : Option Bytes :=
  if (ser v).length ≤ bufferSize then some (ser v) else none

/-- What a call of a generated function does. -/
inductive Outcome where
  /-- a request of this kind is made on the host -/
  | asks (k : Kind) (metadata data : Bytes)
  /-- nothing is sent, the caller is given an error -/
  | fails
  /-- the module panics -/
  | panics
  deriving DecidableEq

/-- The metadata of a request: the index of the import and four zero bytes. provider-visitor.ts:39-43, 114-116, 164-166 -/
def metadata (index : Nat) : Bytes := beBytes 4 index ++ [0, 0, 0, 0]

/-- The function for an operation that answers once. provider-visitor.ts:111-124 -/
def callOnce (ser : Val → Bytes) (index : Nat) (inputs : Val) : Outcome :=
  match serialize ser inputs with
  | some bytes => .asks .rr (metadata index) bytes
  | none => .fails

/-- The function for an operation that answers with a stream. provider-visitor.ts:160-173 -/
def callStream (ser : Val → Bytes) (index : Nat) (inputs : Val) : Outcome :=
  match serialize ser inputs with
  | some bytes => .asks .rs (metadata index) bytes
  | none => .panics

/-- `convertOperation`: which of the two is generated. provider-visitor.ts:72-89 -/
def call (ser : Val → Bytes) (streamOut : Bool) (index : Nat) (inputs : Val) : Outcome :=
  if streamOut then callStream ser index inputs else callOnce ser index inputs

/-- What the wrapper of an operation that answers once answers, given what the implementation returned: data or an error.
service-visitor.ts:137-140 -/
def answer (ser : Val → Bytes) (result : Option Val) : Option Bytes :=
  match result with
  | some output => serialize ser output
  | none => none

end Iota.RustClient
