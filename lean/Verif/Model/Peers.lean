import Verif.Model.Handler
import Verif.Model.StreamId

/-!
# Two peers

A client and a server connected by two queues of frames, each running the code of
`/repo/go/handler/handler.go` and `caller.go` with the proxies of `/repo/go/proxy`. Any number of calls of
all four kinds may be made by both; requests are handled in goroutines that run in any order, handlers
answer at any time.

Simplifications, beyond those of `Verif/Model/Handler.lean`:

* A queue stands for encoding, transport and decoding (that a frame survives them unchanged is the
  subject of C02 and C36).
* When `HandleFrame` returns an error, the connection would end; here it goes on, so the runs of the
  code are among the runs of the model.
* The proxy of a stream or channel call may send any frame for its stream at any time, and so may the
  handler of a stream or channel.
-/

namespace Iota.Peers
open Go Iota.Frames Iota.Registry Iota.Handler
open Iota.StreamId (Side)

/-- How a request-response call ends. -/
inductive Result where
  | value (data metadata : Bytes)
  | failure (msg : Bytes)
  deriving DecidableEq, Repr

/-- A call made by a peer: the request frame of its proxy and the stream. caller.go:33-73 -/
structure Call where
  kind : Kind
  frame : RequestPayload
  obj : Nat
  deriving DecidableEq, Repr

/-- A handler at work for a request of the other peer. -/
structure Job where
  kind : Kind
  id : UInt32
  data : Bytes
  metadata : Bytes
  deriving DecidableEq, Repr

/-- What is recorded: a result delivered to a stream; a result produced for a request. -/
inductive Rec where
  | delivered (obj : Nat) (r : Result)
  | produced (id : UInt32) (data metadata : Bytes) (r : Result)
  deriving DecidableEq, Repr

/-- One peer. `counter` is `streamIDs` (handler.go:24). -/
structure Peer where
  st : State
  tasks : List Task
  counter : UInt64
  calls : List Call
  jobs : List Job
  log : List Rec

/-- A new handler. handler.go:58-69 -/
def Peer.init : Peer := ⟨State.init, [], 0, [], [], []⟩

/-- The other side. -/
def other : Side → Side
  | .server => .client
  | .client => .server

/-- Both peers; `wire s` holds the frames sent by `s` that the other peer has not read, oldest first. -/
structure Sys where
  peer : Side → Peer
  wire : Side → List Frame

/-- A new connection. -/
def Sys.init : Sys := ⟨fun _ => Peer.init, fun _ => []⟩

/-- Replace the peer of one side, which sends some frames and may have read a frame. -/
def Sys.put (y : Sys) (s : Side) (p : Peer) (out : List Frame) (readOne : Bool) : Sys :=
  { peer := fun t => if t = s then p else y.peer t
    wire := fun t => if t = s then y.wire t ++ out else if readOne then (y.wire t).tail else y.wire t }

/-- The frame type of a call. caller.go:35, 46, 57, 67 -/
def typeOf : Kind → FrameType
  | .rr => tRequestResponse
  | .fnf => tRequestFNF
  | .rs => tRequestStream
  | .rc => tRequestChannel

/-- The request frame of a call. caller.go:34-41, 45-52, 56-62, 66-72 -/
def requestFrame (k : Kind) (id : UInt32) (data metadata : Bytes) : RequestPayload :=
  match k with
  | .rr => ⟨tRequestResponse, id, metadata, data, false, true, 1⟩
  | .fnf => ⟨tRequestFNF, id, metadata, data, false, true, 1⟩
  | .rs => ⟨tRequestStream, id, metadata, data, false, false, 2147483647⟩
  | .rc => ⟨tRequestChannel, id, metadata, data, false, false, 2147483647⟩

/-- The stream of a call. -/
def streamOf : Kind → Obj
  | .rr => .mono
  | .fnf => .mono
  | .rs => .flux none
  | .rc => .flux (some false)

/-- `RequestResponse`, `FireAndForget`, `RequestStream`, `RequestChannel`: draw an id, make the proxy.
caller.go:33-73; a fire-and-forget call makes no proxy (here it has one that is never registered), and
sends its frame at once (here: with `subscribe`). -/
def Peer.call (p : Peer) (s : Side) (k : Kind) (data metadata : Bytes) : Option Peer :=
  match StreamId.next s p.counter with
  | none => none
  | some (c, id, _) =>
    some { p with
      counter := c
      st := { p.st with objs := p.st.objs ++ [streamOf k] }
      calls := p.calls ++ [⟨k, requestFrame k id data metadata, p.st.objs.length⟩] }

/-- `Subscribe` on the proxy of a call: register it and, for request-response, send the request.
proxy/mono.go:66-72, proxy/flux.go:128-133 -/
def Peer.subscribe (p : Peer) (c : Call) : Peer × List Frame :=
  match c.kind with
  | .rr => ({ p with st := registerStream p.st c.frame.streamID c.obj }, [.request c.frame])
  | .fnf => (p, [.request c.frame])
  | .rs => ({ p with st := registerStream p.st c.frame.streamID c.obj }, [])
  | .rc => ({ p with st := registerStream p.st c.frame.streamID c.obj }, [])

/-- The record of an event. -/
def recOf : Ev Unit → Option Rec
  | .next i d m => some (.delivered i (.value d m))
  | .error i m => some (.delivered i (.failure m))
  | _ => none

/-- A frame is read. transport.go:144-163 -/
def Peer.recv (p : Peer) (f : Frame) : Option Peer :=
  match handleFrame (H := Unit) p.st f with
  | .panic => none
  | .err _ => some p
  | .ok o => some { p with st := o.st, tasks := p.tasks ++ o.tasks, log := p.log ++ o.evs.filterMap recOf }

/-- The frames among events. -/
def sentOf : Ev Unit → Option Frame
  | .sent f => some f
  | _ => none

/-- What is recorded when a goroutine ran: refusing a request is a result. -/
def producedOf (data metadata : Bytes) : Ev Unit → Option Rec
  | .sent (.error f) => some (.produced f.streamID data metadata (.failure f.data))
  | _ => none

/-- The handler started by a goroutine. -/
def jobOf (metadata : Bytes) : Ev Unit → Option Job
  | .invoked k _ id data _ => some ⟨k, id, data, metadata⟩
  | _ => none

/-- The data and metadata a goroutine works on. -/
def contents : Task → Bytes × Bytes
  | .request _ _ d m _ => (d, m)
  | _ => ([], [])

/-- A goroutine runs. -/
def Peer.run (p : Peer) (reg : Reg Unit) (live : Bool) (i : Nat) : Option (Peer × List Frame) :=
  match p.tasks[i]? with
  | none => none
  | some t =>
    match runTask reg live p.st t with
    | .panic => none
    | .err _ => none
    | .ok o => some ({ p with
        st := o.st
        tasks := p.tasks.eraseIdx i ++ o.tasks
        jobs := p.jobs ++ o.evs.filterMap (jobOf (contents t).2)
        log := p.log ++ o.evs.filterMap (producedOf (contents t).1 (contents t).2) }, o.evs.filterMap sentOf)

/-- The frame a request-response handler's result leads to. handler.go:251-264 -/
def answerFrame (id : UInt32) : Result → Frame
  | .value d m => .payload ⟨id, m, d, false, true, true⟩
  | .failure e => .error ⟨id, 0, e⟩

/-- The mono of a request-response handler resolves (once). -/
def Peer.answer (p : Peer) (i : Nat) (r : Result) : Option (Peer × List Frame) :=
  match p.jobs[i]? with
  | none => none
  | some j =>
    if j.kind = .rr then
      some ({ p with jobs := p.jobs.eraseIdx i, log := p.log ++ [.produced j.id j.data j.metadata r] },
        [answerFrame j.id r])
    else none

/-- Is it a request frame? -/
def isRequest : Frame → Bool
  | .request _ => true
  | _ => false

/-- What can happen next. -/
inductive Act where
  | call (s : Side) (k : Kind) (data metadata : Bytes)
  | subscribe (s : Side) (j : Nat)
  /-- the proxy of a stream or channel call sends its request, with some initial demand -/
  | start (s : Side) (j : Nat) (n : UInt32)
  /-- the proxy of a stream or channel call sends another frame -/
  | own (s : Side) (j : Nat) (f : Frame)
  | recv (s : Side)
  | run (s : Side) (reg : Reg Unit) (live : Bool) (i : Nat)
  | answer (s : Side) (i : Nat) (r : Result)
  /-- the handler of a stream or channel sends a frame -/
  | emit (s : Side) (i : Nat) (f : Frame)

/-- One step; `none` if it is not possible (or crashes the process). -/
def Sys.step (y : Sys) : Act → Option Sys
  | .call s k d m => ((y.peer s).call s k d m).map fun p => y.put s p [] false
  | .subscribe s j => (y.peer s).calls[j]?.map fun c =>
      y.put s ((y.peer s).subscribe c).1 ((y.peer s).subscribe c).2 false
  | .start s j n => (y.peer s).calls[j]?.bind fun c =>
      if c.kind = .rs ∨ c.kind = .rc then
        some (y.put s (y.peer s) [.request { c.frame with initialN := n }] false)
      else none
  | .own s j f => (y.peer s).calls[j]?.bind fun c =>
      if (c.kind = .rs ∨ c.kind = .rc) ∧ f.streamID = c.frame.streamID ∧ isRequest f = false then
        some (y.put s (y.peer s) [f] false)
      else none
  | .recv s => (y.wire (other s)).head?.bind fun f =>
      ((y.peer s).recv f).map fun p => y.put s p [] true
  | .run s reg live i => ((y.peer s).run reg live i).map fun (p, out) => y.put s p out false
  | .answer s i r => ((y.peer s).answer i r).map fun (p, out) => y.put s p out false
  | .emit s i f => (y.peer s).jobs[i]?.bind fun j =>
      if (j.kind = .rs ∨ j.kind = .rc) ∧ f.streamID = j.id ∧ isRequest f = false then
        some (y.put s (y.peer s) [f] false)
      else none

/-- Runs. -/
inductive Reach : Sys → Prop
  | init : Reach Sys.init
  | step {y y' : Sys} (a : Act) : Reach y → y.step a = some y' → Reach y'

end Iota.Peers
