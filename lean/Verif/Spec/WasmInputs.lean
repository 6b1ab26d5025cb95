import Verif.Spec.WasmStreams

/-!
# Specification: what callers of streams and channels send to the handlers of the other end

A run between a WebAssembly host and its guest is kept together with what callers did for their streams and channels: with
which demand they began, and what they sent after that. Also kept is which handlers of streams and channels were started, and
which stream of the serving end was made for each. What the input of a handler is told, and what is requested of its result,
is compared with these lists.
-/

namespace Iota.Spec.WasmInputs
open Iota.Go Iota.Frames Iota.Registry Iota.WasmDispatch Iota.WasmCalls Iota.Spec.Caller Iota.Spec.WasmStreams
open Iota.Handler hiding Act

/-- What was done so far, for each end: the calls that were begun, by index, with their first demand; the frames sent for
such calls after their requests; the handlers of streams and channels that were started, each with its stream, by index. -/
structure Hist (H : Type) where
  asked : End → List (Nat × UInt32)
  fed : End → List Frame
  given : End → List (WasmCalls.Job H × Nat)

/-- Nothing was done. -/
def Hist.init {H : Type} : Hist H := ⟨fun _ => [], fun _ => [], fun _ => []⟩

/-- The call begun in a step. -/
def asksIn : WasmCalls.Act → End → List (Nat × UInt32)
  | .start e j n, t => if t = e then [(j, n)] else []
  | _, _ => []

/-- What is sent for a call in a step. -/
def feedsIn : WasmCalls.Act → End → List Frame
  | .own e _ f, t => if t = e then [f] else []
  | _, _ => []

/-- The handlers of streams and channels a dispatcher started between `p` and `p'`. Each has the stream that was made just
before it was called, `/repo/go/transport/wasmrs/host/instance.go:513-515`, `566-584`,
`/repo/go/transport/wasmrs/guest/guest.go:372-375`, `420-438`. -/
def started {H : Type} (p p' : WasmDispatch.Peer H) : List (WasmCalls.Job H × Nat) :=
  (((p'.log.drop p.log.length).filterMap jobOf).filter fun x => many x.kind).map fun x => (x, p.st.objs.length)

/-- The handlers of streams and channels started in a step. -/
def givesIn {H : Type} (y y' : WasmCalls.Sys H) : WasmCalls.Act → End → List (WasmCalls.Job H × Nat)
  | .task e _ _, t => if t = e then started (y.node e).peer (y'.node e).peer else []
  | _, _ => []

/-- What was done after another step. -/
def Hist.after {H : Type} (h : Hist H) (y y' : WasmCalls.Sys H) (a : WasmCalls.Act) : Hist H :=
  ⟨fun t => h.asked t ++ asksIn a t, fun t => h.fed t ++ feedsIn a t, fun t => h.given t ++ givesIn y y' a t⟩

/-- What a proxy does: the request is sent once, and everything else after it (`/repo/go/proxy/flux.go:75-117`). -/
def InTurn {H : Type} (h : Hist H) : WasmCalls.Act → Prop
  | .start e j _ => ∀ n, (j, n) ∉ h.asked e
  | .own e j _ => ∃ n, (j, n) ∈ h.asked e
  | _ => True

/-- Runs, with what was done. -/
inductive Fed {H : Type} (hs : End → Handlers H) : WasmCalls.Sys H → Hist H → Prop
  | init : Fed hs WasmCalls.Sys.init Hist.init
  | step {y y' : WasmCalls.Sys H} {h : Hist H} (a : WasmCalls.Act) : Fed hs y h → InTurn h a → y.step hs a = some y' →
      Fed hs y' (h.after y y' a)

/-- The handlers started for an id. -/
def givenFor {H : Type} (id : UInt32) (l : List (WasmCalls.Job H × Nat)) : List (WasmCalls.Job H × Nat) :=
  l.filter fun x => x.1.id = id

/-- The demand in a frame. -/
def demandOf : Frame → Option UInt32
  | .requestN v => some v.n
  | _ => none

/-- The demand for a stream in an event. -/
def requestIn {H : Type} (o : Nat) : Ev H → Option UInt32
  | .requested i n => if i = o then some n else none
  | _ => none

/-- What was requested of the result that belongs to a stream, in order. -/
def requestedOf {H : Type} (o : Nat) (log : List (Ev H)) : List UInt32 := log.filterMap (requestIn o)

/-- The demand for a stream in a piece of work. -/
def waitIn (o : Nat) : Task → Option UInt32
  | .request _ _ _ _ _ => none
  | .attach i n => if i = o then some n else none
  | .demand i n => if i = o then some n else none

/-- The demand for a stream that was taken up but not passed on yet. -/
def waitingOf (o : Nat) (ts : List Task) : List UInt32 := ts.filterMap (waitIn o)

end Iota.Spec.WasmInputs
