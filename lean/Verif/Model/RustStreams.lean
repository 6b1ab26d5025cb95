import Verif.Model.RustGenerated
import Verif.Model.RustWrappers
import Verif.Spec.RustWrappers

/-!
# A Rust host and guest with generated streams

Two sockets (`RustPair`), where the handler of an operation that answers with a stream is the wrapper of a generated Rust service
(`RustWrappers`).

Simplifications: those of `RustCall`, `RustPair` and `RustWrappers`. What other handlers yield is left open.
-/

namespace Iota.RustStreams
open Iota.Go Iota.Rust Iota.RustWrappers Iota.Spec.RustWrappers

/-- A run of the wrapper on one request: the implementation is started with the arguments that were read, and does what it may for them, or
the data could not be read and `inputs.await?` fails. /repo/codegen/src/rust/visitors/service-visitor.ts:50, 156-189 -/
structure Run {α β : Type} (de : Bytes → Except Bytes α) (ser : β → Except Bytes Bytes) (impl : α → List (StreamEv β) → Prop) (data : Bytes)
    (es : List (StreamEv β)) (w : StreamW β) : Prop where
  runs : StreamW.start.run ser es = some w
  code : (∃ x, de data = .ok x ∧ impl x es) ∨ (∃ e, de data = .error e ∧ ∀ ev ∈ es, ev = .fail e ∨ ev = .pump)

/-- What the socket is given of the stream that the wrapper returned; `out_tx` is dropped when the task of the wrapper ends.
service-visitor.ts:160-188, /repo/rust/crates/wasmrs/src/socket.rs:190-208 -/
def Gives {α β : Type} (de : Bytes → Except Bytes α) (ser : β → Except Bytes Bytes) (impl : α → List (StreamEv β) → Prop) (data : Bytes)
    (ys : List Yield) : Prop :=
  ∃ es w n, Run de ser impl data es w ∧ ys = (heard w.done w.out).take n

end Iota.RustStreams
