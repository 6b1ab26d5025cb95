import Verif.Model.RustCall
import Verif.Model.RustPair

/-!
# A Rust host and guest with generated code

Two sockets (`RustPair`), where the handler of an operation is the wrapper of a generated Rust service (`RustOnce`, `RustCall`).

Simplifications: those of `RustCall` and `RustPair`. What other handlers yield is left open.
-/

namespace Iota.RustGenerated
open Iota.Go Iota.Frames Iota.Rust Iota.RustOnce

/-- What a socket makes of the Mono of a wrapper: `Payload::new_data(None, Some(bytes))` has no metadata.
/repo/codegen/src/rust/visitors/service-visitor.ts:139, 145, /repo/rust/crates/wasmrs/src/socket.rs:170-188 -/
def yielded : Except Bytes Bytes → Yield
  | .ok b => .ok [] b
  | .error e => .err e

/-- The implementation of an operation: what it may return for arguments. -/
abbrev Impl (α β : Type) := α → Except Bytes β → Prop

/-- A run of the wrapper on one request: the request is all that arrives, the implementation returns what it may for the arguments it was
started with, and the Mono resolves to `a`. /repo/codegen/src/rust/visitors/service-visitor.ts:131-146 -/
structure Run {α β : Type} (de : Bytes → Except Bytes α) (ser : β → Except Bytes Bytes) (impl : Impl α β) (data : Bytes) (a : Except Bytes Bytes)
    (evs : List (Ev β)) (w : Once α) : Prop where
  runs : Once.start.run de ser evs = some w
  request : ∀ r, Ev.arrive r ∈ evs → r = .ok data
  returns : ∀ r, Ev.ret r ∈ evs → ∃ x ∈ w.acts, impl x r
  answer : w.answer = some a

/-- What a task yields first for a request with this data. -/
def Gives {α β : Type} (de : Bytes → Except Bytes α) (ser : β → Except Bytes Bytes) (impl : Impl α β) (data : Bytes) (y : Yield) : Prop :=
  ∃ a evs w, Run de ser impl data a evs w ∧ y = yielded a

end Iota.RustGenerated
