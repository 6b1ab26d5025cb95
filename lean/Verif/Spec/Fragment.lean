import Verif.Spec.RSocket

/-!
# Fragmentation as RSocket defines it

A message is cut into frames; every frame but the last has the follow bit, the last one carries the
original complete/next bits, and the receiver concatenates metadata and data.
-/

namespace Iota.Spec.Fragment
open Go Frames

/-- What a receiver reassembles from continuation frames. -/
def joinMetadata (fs : List Payload) : Bytes := fs.flatMap (·.metadata)
def joinData (fs : List Payload) : Bytes := fs.flatMap (·.data)

/-- `fs` is a legal run of continuation frames on one stream, none larger than `max` bytes on the
wire, ended by a frame without the follow bit carrying `next` and `complete`. -/
structure Continuation (streamID : UInt32) (next complete : Bool) (max : Nat) (fs : List Payload) : Prop where
  fits : ∀ p ∈ fs, (RSocket.wire (.payload p)).length ≤ max
  nonempty : ∀ p ∈ fs, p.metadata.length + p.data.length > 0
  stream : ∀ p ∈ fs, p.streamID = streamID
  flags : ∃ init last, fs = init ++ [last] ∧
    (∀ p ∈ init, p.follows = true ∧ p.complete = false ∧ p.next = false) ∧
    last.follows = false ∧ last.complete = complete ∧ last.next = next

end Iota.Spec.Fragment
