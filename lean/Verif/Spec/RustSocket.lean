import Verif.Model.RustSocket

/-!
# What a caller may observe, and what a request is answered with

Independent of how a socket keeps its streams: from the frames that arrive on a stream, in order.
-/

namespace Iota.Spec.RustSocket
open Iota.Go Iota.Frames Iota.Rust

/-- The text of an error. -/
def text (data : Bytes) : Bytes := if data = [] then "Error frame with no data".toUTF8.toList else data

/-- What one frame means to whoever waits for a single result (`true`) or a stream: the results it brings, and whether it
is the last one that counts. -/
def meaning (single : Bool) : Frame → List Signal × Bool
  | .payload v => (if v.next then [.ok v.metadata v.data] else [], single || v.complete)
  | .error v => ([.err v.code (text v.data)], true)
  | .cancel _ => (if single then [.err 515 "Request cancelled".toUTF8.toList] else [], true)
  | _ => ([], false)

/-- What the frames of a stream mean together: the results, and whether the stream has ended. -/
def outcome (single : Bool) : List Frame → List Signal × Bool
  | [] => ([], false)
  | f :: fs =>
    if (meaning single f).2 then ((meaning single f).1, true)
    else ((meaning single f).1 ++ (outcome single fs).1, (outcome single fs).2)

/-- The frames that arrive for a stream. -/
def arrived (sid : UInt32) : List SockAct → List Frame
  | [] => []
  | .recv f :: as => if f.streamID = sid then f :: arrived sid as else arrived sid as
  | _ :: as => arrived sid as

/-- The number of calls made. -/
def drawn : List SockAct → Nat
  | [] => 0
  | .call _ _ _ :: as => drawn as + 1
  | _ :: as => drawn as

/-- A channel request with this id. -/
def opensChannel (sid : UInt32) : SockAct → Bool
  | .recv (.request v) => v.streamID = sid && v.frameType != tRequestFNF && v.frameType != tRequestResponse &&
      v.frameType != tRequestStream
  | _ => false

/-- Frames of a stream that carry its results: payloads and errors. -/
def isResult (sid : UInt32) : Frame → Bool
  | .payload v => v.streamID = sid
  | .error v => v.streamID = sid
  | _ => false

/-- What task `t` of the responder is given by the handler, in order. -/
def yields (t : Nat) : List SockAct → List Yield
  | [] => []
  | .task t' y :: as => if t' = t then y :: yields t as else yields t as
  | _ :: as => yields t as

/-- The answer to a request for a single result. -/
def answerOne (sid : UInt32) : List Yield → List Frame
  | .ok md d :: _ => [.payload ⟨sid, md, d, false, true, true⟩]
  | .err e :: _ => [.error ⟨sid, 513, e⟩]
  | _ => []

/-- The answer to a request without result: nothing, unless it fails. -/
def answerNone (sid : UInt32) : List Yield → List Frame
  | .err e :: _ => [.error ⟨sid, 513, e⟩]
  | _ => []

/-- The answer to a request for a stream: its elements, then completion. -/
def answerMany (sid : UInt32) : List Yield → List Frame
  | [] => []
  | .ok md d :: ys => .payload ⟨sid, md, d, false, false, true⟩ :: answerMany sid ys
  | .err e :: ys => .error ⟨sid, 513, e⟩ :: answerMany sid ys
  | .done :: _ => [.payload ⟨sid, [], [], false, true, false⟩]

/-- The answer to a request of any kind; the first thing a task for a stream does is to start its handler. -/
def answer (t : FrameType) (sid : UInt32) (ys : List Yield) : List Frame :=
  if t = tRequestFNF then answerNone sid ys
  else if t = tRequestResponse then answerOne sid ys
  else answerMany sid ys.tail

/-- A request or a demand frame. -/
def isRequesting : Frame → Bool
  | .request _ => true
  | .requestN _ => true
  | _ => false

/-- What RSocket allows as the answer to a stream request: elements, then at most one end, which is completion or an
error. -/
def wellFormed : List Frame → Bool
  | [] => true
  | .payload v :: fs => if v.complete then fs.isEmpty else v.next && wellFormed fs
  | .error _ :: fs => fs.isEmpty
  | _ :: _ => false

/-- An element of the stream a channel request sends. -/
def isElement (sid : UInt32) : Frame → Bool
  | .request v => v.streamID = sid
  | .payload v => v.streamID = sid && v.next
  | _ => false

/-- The demand told by frames. -/
def totalDemand : List Frame → Nat
  | [] => 0
  | .requestN v :: fs => v.n.toNat + totalDemand fs
  | _ :: fs => totalDemand fs

end Iota.Spec.RustSocket
