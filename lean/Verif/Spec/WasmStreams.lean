import Verif.Spec.WasmCalls

/-!
# Specification: what the subscribers of calls between a WebAssembly host and its guest are told

A run is kept together with what the handlers of both ends have sent so far, in order, and who sent it. What a subscriber is
told is compared with this list; nothing is said about streams, tables and queues.
-/

namespace Iota.Spec.WasmStreams
open Iota.Go Iota.Frames Iota.Registry Iota.WasmDispatch Iota.WasmCalls Iota.Spec.Caller
open Iota.Handler hiding Act
open Iota.Peers (answerFrame)

/-- A frame that was sent in answer to a request, with the work of the handler that sent it; there is none if the request was
refused. -/
abbrev Said (H : Type) := Option (WasmCalls.Job H) × Frame

/-- What is said by the ends in a step from `y` to `y'`. -/
def saysIn {H : Type} (y y' : WasmCalls.Sys H) : WasmCalls.Act → End → List (Said H)
  | .emit e i f, t => if t = e then (y.node e).jobs[i]?.toList.map fun x => (some x, f) else []
  | .answer e i r, t => if t = e then (y.node e).jobs[i]?.toList.map fun x => (some x, answerFrame x.id r) else []
  | .task e _ _, t => if t = e then (((y.node e).news (y'.node e).peer).filterMap sentOf).map fun f => (none, f) else []
  | _, _ => []

/-- The request of a stream or channel is sent when its result has been subscribed to (`/repo/go/proxy/flux.go:128-133`). -/
def InOrder {H : Type} (y : WasmCalls.Sys H) : WasmCalls.Act → Prop
  | .start e j _ => ((y.node e).obj j).isSome = true
  | _ => True

/-- Runs, with what was said. -/
inductive Told {H : Type} (hs : End → Handlers H) : WasmCalls.Sys H → (End → List (Said H)) → Prop
  | init : Told hs WasmCalls.Sys.init fun _ => []
  | step {y y' : WasmCalls.Sys H} {said : End → List (Said H)} (a : WasmCalls.Act) : Told hs y said → InOrder y a → y.step hs a = some y' →
      Told hs y' fun t => said t ++ saysIn y y' a t

/-- The frames under an id. -/
def under (id : UInt32) (fs : List Frame) : List Frame := fs.filter fun f => f.streamID = id

/-- What was said under an id. -/
def saidUnder {H : Type} (id : UInt32) (said : List (Said H)) : List Frame := under id (said.map (·.2))

/-- Nothing but demand is sent after the end. -/
def Tidy (fs : List Frame) : Prop := ∀ pre f post, fs = pre ++ f :: post → ends f = true → ∀ g ∈ post, answers g = false

/-- The signals a stream was told, in order. -/
def signals {H : Type} (o : Nat) (log : List (Ev H)) : List Sig := log.filterMap (Spec.WasmCalls.signal o)

/-- What was said comes from the handler for the call, or is the refusal of a call there is no handler for. -/
inductive Source {H : Type} (e : End) (hs : Handlers H) (c : WasmCalls.Call) : Said H → Prop
  | handler (x : WasmCalls.Job H) (f : Frame) : Spec.WasmCalls.Serves e hs c x → Source e hs c (some x, f)
  | refused (msg : Bytes) : Spec.WasmCalls.Unknown hs c → msg = Spec.WasmCalls.refusal c.metadata → Source e hs c (none, errorFrame c.id msg)

/-- The frames a flux sends to its caller. instance.go:517-535, guest.go:377-395 -/
def frameFor (id : UInt32) : Sig → Frame
  | .next d m => .payload ⟨id, m, d, false, false, true⟩
  | .complete => .payload ⟨id, [], [], false, true, false⟩
  | .error m => .error ⟨id, 0, m⟩

/-- What the subscriber of a call is told of a signal: an error is followed by the end. -/
def seen : Sig → List Sig
  | .error m => [.error m, .complete]
  | s => [s]

/-- Nothing comes after the end or an error. -/
def Proper (sigs : List Sig) : Prop := ∀ pre s post, sigs = pre ++ s :: post → (∀ d m, s ≠ .next d m) → post = []

end Iota.Spec.WasmStreams
