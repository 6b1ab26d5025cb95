import Verif.Model.Wiring
import Verif.Spec.Components

/-!
# What components that are wired to one another should do
-/

namespace Iota.Spec.Wiring
open Iota.Go Iota.Registry Iota.Components Iota.Spec.Components

/-- Metadata of a call of the operation with this index: four bytes with the index and at least four more. -/
def Names (metadata : Bytes) (op : UInt32) : Prop := ∃ rest : Bytes, metadata = be32 op ++ rest ∧ 4 ≤ rest.length

/-- The text that goes from component to component. -/
def through : List (Single Bytes) → Bytes → Bytes
  | [], v => v
  | c :: cs, v => through cs (c.value v)

/-- The port at the end of a chain. -/
def lastPort : Bytes → List (Single Bytes) → Bytes
  | p, [] => p
  | _, c :: cs => lastPort c.outPort cs

/-- No text on the way is longer than a string can be, and no name of a port. -/
def Fit : List (Single Bytes) → Bytes → Prop
  | [], _ => True
  | c :: cs, v => (c.value v).length < 2 ^ 31 ∧ c.inPort.length < 2 ^ 16 ∧ c.outPort.length < 2 ^ 16 ∧ Fit cs (c.value v)

/-- A result that is one text on this port, and then the end. -/
def Gives (port v : Bytes) (s : Sink) : Prop := ∃ md d, s = ⟨true, [.next md d, .complete]⟩ ∧ IsText port md d v

end Iota.Spec.Wiring
