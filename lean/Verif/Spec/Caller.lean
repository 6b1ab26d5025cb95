import Verif.Model.Frames

/-!
# Specification: what a caller is told

Written over the frames that arrive, without the tables of streams.
-/

namespace Iota.Spec.Caller
open Iota.Frames

/-- What a stream can be told. -/
inductive Sig where
  | next (data metadata : List UInt8)
  | complete
  | error (msg : List UInt8)
  deriving DecidableEq, Repr

/-- What a frame for a call tells the caller. An ERROR frame is an error and then the end, as `OnError` and
`OnComplete` are both called; CANCEL is the end. Other frames tell the caller nothing. -/
def meaning : Frame → List Sig
  | .payload v => (if v.next then [.next v.data v.metadata] else []) ++ if v.complete then [.complete] else []
  | .error v => [.error v.data, .complete]
  | .cancel _ => [.complete]
  | _ => []

/-- The frame is the last one of its stream. -/
def ends : Frame → Bool
  | .payload v => v.complete
  | .error _ => true
  | .cancel _ => true
  | _ => false

/-- The frame answers a call: PAYLOAD, ERROR or CANCEL. -/
def answers : Frame → Bool
  | .payload _ => true
  | .error _ => true
  | .cancel _ => true
  | _ => false

end Iota.Spec.Caller
