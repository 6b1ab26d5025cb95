import Verif.Model.RustWrappers

/-!
# Specification: what the reader of a stream is told

From the signals on a stream in order, and what was sent on it, without queues or tasks.
-/

namespace Iota.Spec.RustWrappers
open Iota.Go Iota.RustWrappers
open Iota.Rust (Yield)
open Iota.RustRx (Signal)

/-- What the socket is given by a handler's stream (`Yield`): its signals up to completion; if the stream was dropped
(`gone`), that is its end. -/
def heard (gone : Bool) : List (Signal Bytes Bytes) → List Yield
  | [] => if gone then [.done] else []
  | .ok b :: l => .ok [] b :: heard gone l
  | .err e :: l => .err e :: heard gone l
  | .complete :: _ => [.done]

/-- The signals before completion. -/
def upToEnd {α : Type} : List (Signal α Bytes) → List (Signal α Bytes)
  | [] => []
  | .complete :: _ => []
  | x :: l => x :: upToEnd l

/-- Whether completion is among them. -/
def completes {α : Type} (l : List (Signal α Bytes)) : Bool := l.any fun x => match x with | .complete => true | _ => false

/-- The message of a signal. -/
def message {α : Type} (ser : α → Except Bytes Bytes) : Signal α Bytes → Signal Bytes Bytes
  | .ok v => match ser v with | .ok b => .ok b | .error e => .err e
  | .err e => .err e
  | .complete => .complete

/-- What was sent by the implementation of a stream. -/
def streamSent {α : Type} : List (StreamEv α) → List (Signal α Bytes)
  | [] => []
  | .use (.send x) :: es => x :: streamSent es
  | _ :: es => streamSent es

/-- What was sent by the implementation of a channel. -/
def channelSent {α : Type} : List (ChannelEv α) → List (Signal α Bytes)
  | [] => []
  | .use (.send x) :: es => x :: channelSent es
  | _ :: es => channelSent es

/-- What arrived from the caller of a channel. -/
def channelArrived {α : Type} : List (ChannelEv α) → List (Signal Bytes Bytes)
  | [] => []
  | .arrive x :: es => x :: channelArrived es
  | _ :: es => channelArrived es

/-- The elements before the first signal that is not one. -/
def elements : List (Signal Bytes Bytes) → List Bytes
  | .ok b :: l => b :: elements l
  | _ => []

end Iota.Spec.RustWrappers
