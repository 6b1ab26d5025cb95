import Verif.Go.Basic

/-!
# Length-prefixed messages

A stream of messages, each preceded by its length in three bytes, most significant first.
-/

namespace Iota.Spec.Framing
open Go

/-- Message with its length in front. -/
def packet (m : Bytes) : Bytes := beBytes 3 m.length ++ m

/-- Messages one after the other. -/
def stream : List Bytes → Bytes
  | [] => []
  | m :: ms => packet m ++ stream ms

/-- A message that can be sent: not empty, length below 2^24. -/
def Sendable (m : Bytes) : Prop := 0 < m.length ∧ m.length < 2 ^ 24

/-- The beginning of a packet that has not arrived in full (possibly nothing at all). -/
def Unfinished (t : Bytes) : Prop := ∃ m more, Sendable m ∧ more ≠ [] ∧ t ++ more = packet m

end Iota.Spec.Framing
