import Verif.Model.WasmDispatch
import Verif.Model.Peers

/-!
# Calls between a WebAssembly host and its guest

Model of `/repo/go/transport/wasmrs/host/caller.go` and `/repo/go/transport/wasmrs/guest/caller.go` on top of the
dispatchers of `Verif/Model/WasmDispatch.lean`. Both ends may make any number of calls of all four kinds, in any order and
at the same time; handlers answer at any time.

Simplifications, beyond those of `Verif/Model/WasmDispatch.lean`:

* A queue stands for encoding and for the transport through the memory of the guest. A frame is taken up from bytes that
  decode to it (`Act.recv`). Decoding marks every request but that of a channel as complete
  (`/repo/go/internal/frames/request_payload.go:32-69`); the queue holds the request of a stream with this mark.
* The result of a call is subscribed to at most once; a second subscription would send the request again.
* The proxy of a stream or channel call may send its request and any other frame for its stream at any time, and so may
  the handler of a stream or channel.
* The errors of `streamIDs.Next` are ignored by `getNextStreamID` and are not looked at here either; a counter for which
  `Next` does not return a value has no step.
-/

namespace Iota.WasmCalls
open Go Iota.Frames Iota.Registry Iota.Handler Iota.WasmDispatch
open Iota.StreamId (Side)
open Iota.Peers (Result requestFrame answerFrame isRequest)

/-- The other end. -/
def other : End → End
  | .host => .guest
  | .guest => .host

/-- Which ids an end draws: the host has `ServerStreamIDs` (`/repo/go/transport/wasmrs/host/instance.go:33`), the guest
`ClientStreamIDs` (`/repo/go/transport/wasmrs/guest/caller.go:18`). -/
def sideOf : End → Side
  | .host => .server
  | .guest => .client

/-- A call: what the caller passed, and the id drawn for it. host/caller.go:31-71, guest/caller.go:37-78 -/
structure Call where
  kind : Kind
  id : UInt32
  data : Bytes
  metadata : Bytes
  ctx : Ctx
  deriving DecidableEq, Repr

/-- A handler that was started for a request of the other end, with what it was given. -/
structure Job (H : Type) where
  kind : Kind
  handler : H
  id : UInt32
  data : Bytes
  metadata : Bytes
  deriving DecidableEq, Repr

/-- One end. `obj` tells the stream of a call, by index, once its result was subscribed to; `jobs` are the handlers that
were started (those of request-response until they answer), `made` what they answered. -/
structure Node (H : Type) where
  peer : WasmDispatch.Peer H
  counter : UInt64
  calls : List Call
  obj : Nat → Option Nat
  jobs : List (Job H)
  made : List (Job H × Result)

/-- A new end. -/
def Node.init {H : Type} : Node H := ⟨WasmDispatch.Peer.init, 0, [], fun _ => none, [], []⟩

/-- Both ends; `wire e` holds the frames sent by `e` that the other end has not taken up, oldest first. -/
structure Sys (H : Type) where
  node : End → Node H
  wire : End → List Frame

/-- A new instance. -/
def Sys.init {H : Type} : Sys H := ⟨fun _ => Node.init, fun _ => []⟩

/-- Replace one end, which sends some frames and may have taken up a frame. -/
def Sys.put {H : Type} (y : Sys H) (e : End) (n : Node H) (out : List Frame) (readOne : Bool) : Sys H :=
  { node := fun t => if t = e then n else y.node t
    wire := fun t => if t = e then y.wire t ++ out else if readOne then (y.wire t).tail else y.wire t }

/-- The handler started in an event. -/
def jobOf {H : Type} : Ev (H × Ctx) → Option (Job H)
  | .invoked k h id data md => some ⟨k, h.1, id, data, md⟩
  | _ => none

/-- The frame sent in an event. -/
def sentOf {H : Type} : Ev (H × Ctx) → Option Frame
  | .sent f => some f
  | _ => none

/-- What was recorded since `n`. -/
def Node.news {H : Type} (n : Node H) (p : WasmDispatch.Peer H) : List (Ev (H × Ctx)) := p.log.drop n.peer.log.length

/-- The dispatcher of an end went on to `p`: the handlers it started. -/
def Node.absorb {H : Type} (n : Node H) (p : WasmDispatch.Peer H) : Node H :=
  { n with peer := p, jobs := n.jobs ++ (n.news p).filterMap jobOf }

/-- `RequestResponse`, `FireAndForget`, `RequestStream`, `RequestChannel`: draw an id. Fire and forget sends its frame at
once. host/caller.go:31-76, guest/caller.go:37-83 -/
def Node.call {H : Type} (n : Node H) (e : End) (k : Kind) (data metadata : Bytes) (ctx : Ctx) :
    Option (Node H × List Frame) :=
  match StreamId.next (sideOf e) n.counter with
  | none => none
  | some (c, id, _) =>
    some ({ n with counter := c, calls := n.calls ++ [⟨k, id, data, metadata, ctx⟩] },
      if k = .fnf then [.request (requestFrame k id data metadata)] else [])

/-- What subscribing to the result of a call does to the dispatcher: register a stream. proxy/mono.go:66-68,
proxy/flux.go:128-130 -/
def openAct (c : Call) : Option WasmDispatch.Act :=
  match c.kind with
  | .rr => some (.openMono c.id c.ctx)
  | .fnf => none
  | .rs => some (.openFlux c.id false c.ctx)
  | .rc => some (.openFlux c.id true c.ctx)

/-- `Subscribe` on the result of a call: register the stream and, for request-response, send the request.
proxy/mono.go:66-72, proxy/flux.go:128-133 -/
def Node.subscribe {H : Type} (n : Node H) (e : End) (hs : Handlers H) (j : Nat) : Option (Node H × List Frame) :=
  match n.calls[j]?, n.obj j with
  | some c, none =>
    match openAct c with
    | none => none
    | some a =>
      match n.peer.step e hs a with
      | some (.ok p) =>
        some ({ n with peer := p, obj := fun i => if i = j then some n.peer.st.objs.length else n.obj i },
          if c.kind = .rr then [.request (requestFrame c.kind c.id c.data c.metadata)] else [])
      | _ => none
  | _, _ => none

/-- Is it a stream or a channel? -/
def many (k : Kind) : Bool := k = .rs || k = .rc

/-- The mono of a request-response handler resolves (once): its result is sent. instance.go:449-464, guest.go:315-331 -/
def Node.answer {H : Type} (n : Node H) (i : Nat) (r : Result) : Option (Node H × List Frame) :=
  match n.jobs[i]? with
  | none => none
  | some j =>
    if j.kind = .rr then
      some ({ n with jobs := n.jobs.eraseIdx i, made := n.made ++ [(j, r)] }, [answerFrame j.id r])
    else none

/-- What can happen next. -/
inductive Act where
  | call (e : End) (k : Kind) (data metadata : Bytes) (ctx : Ctx)
  | subscribe (e : End) (j : Nat)
  /-- the proxy of a stream or channel call sends its request, with some initial demand -/
  | start (e : End) (j : Nat) (n : UInt32)
  /-- the proxy of a stream or channel call sends another frame -/
  | own (e : End) (j : Nat) (f : Frame)
  /-- the next frame is taken up, from these bytes -/
  | recv (e : End) (data : Bytes)
  | task (e : End) (i : Nat) (live : Bool)
  | startIn (e : End) (i : Nat) (live : Bool)
  | openSink (e : End) (i : Nat)
  | answer (e : End) (i : Nat) (r : Result)
  /-- the handler of a stream or channel sends a frame -/
  | emit (e : End) (i : Nat) (f : Frame)

/-- The dispatcher of an end does something. -/
def Sys.does {H : Type} (hs : End → Handlers H) (y : Sys H) (e : End) (a : WasmDispatch.Act) (readOne : Bool) : Option (Sys H) :=
  match (y.node e).peer.step e (hs e) a with
  | some (.ok p) => some (y.put e ((y.node e).absorb p) (((y.node e).news p).filterMap sentOf) readOne)
  | _ => none

/-- One step; `none` if it is not possible (or crashes the process). -/
def Sys.step {H : Type} (hs : End → Handlers H) (y : Sys H) : Act → Option (Sys H)
  | .call e k d m ctx => ((y.node e).call e k d m ctx).map fun r => y.put e r.1 r.2 false
  | .subscribe e j => ((y.node e).subscribe e (hs e) j).map fun r => y.put e r.1 r.2 false
  | .start e j n => (y.node e).calls[j]?.bind fun c =>
      if many c.kind then
        some (y.put e (y.node e) [.request { requestFrame c.kind c.id c.data c.metadata with
          initialN := n, complete := c.kind = .rs }] false)
      else none
  | .own e j f => (y.node e).calls[j]?.bind fun c =>
      if many c.kind ∧ f.streamID = c.id ∧ isRequest f = false then some (y.put e (y.node e) [f] false) else none
  | .recv e data => (y.wire (other e)).head?.bind fun f =>
      if decodeFrame data = .ok f then y.does hs e (.recv data) true else none
  | .task e i live => y.does hs e (.task i live) false
  | .startIn e i live => y.does hs e (.startIn i live) false
  | .openSink e i => y.does hs e (.openSink i) false
  | .answer e i r => ((y.node e).answer i r).map fun x => y.put e x.1 x.2 false
  | .emit e i f => (y.node e).jobs[i]?.bind fun j =>
      if many j.kind ∧ f.streamID = j.id ∧ isRequest f = false then some (y.put e (y.node e) [f] false) else none

/-- Runs. -/
inductive Reach {H : Type} (hs : End → Handlers H) : Sys H → Prop
  | init : Reach hs Sys.init
  | step {y y' : Sys H} (a : Act) : Reach hs y → y.step hs a = some y' → Reach hs y'

end Iota.WasmCalls
