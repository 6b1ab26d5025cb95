import Verif.Model.Frames
import Verif.Model.Registry
import Verif.Spec.Lookup

/-!
# Frame dispatch

Model of `/repo/go/handler/handler.go` (`HandleFrame` and the handling of requests), `caller.go` beside it
and the two kinds of proxies of `/repo/go/proxy/mono.go` and `flux.go` as far as frames are concerned.

Conventions and simplifications:

* Streams are Go pointers. A pointer is a position in the list `objs` of all streams ever made; the list
  holds what decides whether a call on the stream panics.
* `proxy.Lookup` is represented by the list specification it refines (`lookup_refines` in
  `Verif/Props/Lookup.lean`): `Sticky`.
* `go f(...)` adds a `Task`; tasks run later, in any order. `handleRequestStream` and
  `handleRequestChannel` run user code between the registration of the stream and the assignment of
  `s.sub`; they are split into two tasks at that point.
* What user code and the streams do with the events delivered to them is not part of this model (see
  `Verif/Model/Mono.lean` for monos); events, handler invocations and frames sent are recorded.
* Contexts are left out. A frame sender never fails (the code ignores the error it returns).
-/

namespace Iota.Handler
open Go Iota.Frames Iota.Registry Iota.Spec.Lookup

/-- A stream: `streamMono` (proxy/mono.go:24-32), `streamFlux` (proxy/flux.go:31-42) or `requestStream`
(handler.go:679-685). For a `streamFlux`, `inp` tells whether `in` is nil, and if not whether it was
subscribed to. For a `requestStream`, `sub` and `sink` tell whether the fields are set. -/
inductive Obj where
  | mono
  | flux (inp : Option Bool)
  | resp (sub sink : Bool)
  deriving DecidableEq, Repr

/-- The streams of a connection. handler.go:29-30, with all streams ever made. -/
structure State where
  objs : List Obj
  guest : Sticky Nat
  host : Sticky Nat

/-- A new handler. handler.go:58-69 -/
def State.init : State := ⟨[], ⟨[], 0⟩, ⟨[], 0⟩⟩

/-- Work handed to a new goroutine, or the rest of it after user code returned. -/
inductive Task where
  /-- `handleRequestResponse` and its three siblings -/
  | request (k : Kind) (id : UInt32) (data metadata : Bytes) (n : UInt32)
  /-- the end of `handleRequestStream` and `handleRequestChannel`. handler.go:334-336, 397-399 -/
  | attach (obj : Nat) (n : UInt32)
  /-- `s.DoRequest(int(v.N))`. handler.go:158 -/
  | demand (obj : Nat) (n : UInt32)
  deriving DecidableEq, Repr

/-- What happens, as seen from outside: events delivered to a stream, handlers run (with the payload and
the id of the request), demand passed to the subscription of a stream, frames sent. -/
inductive Ev (H : Type) where
  | next (obj : Nat) (data metadata : Bytes)
  | complete (obj : Nat)
  | error (obj : Nat) (msg : Bytes)
  | invoked (k : Kind) (h : H) (id : UInt32) (data metadata : Bytes)
  | requested (obj : Nat) (n : UInt32)
  | sent (f : Frame)
  deriving DecidableEq, Repr

/-- Result of a piece of code. -/
structure Out (H : Type) where
  st : State
  tasks : List Task
  evs : List (Ev H)

/-! ## The tables -/

/-- `registerStream`. handler.go:79-85 -/
def registerStream (st : State) (id : UInt32) (obj : Nat) : State :=
  if id &&& 1 = 1 then { st with guest := st.guest.add id obj } else { st with host := st.host.add id obj }

/-- `removeStream`. handler.go:87-93 -/
def removeStream (st : State) (id : UInt32) : State :=
  if id &&& 1 = 1 then { st with guest := st.guest.remove id } else { st with host := st.host.remove id }

/-- `getStream`. handler.go:95-101 -/
def getStream (st : State) (id : UInt32) : Option Nat :=
  if id &&& 1 = 1 then st.guest.get id else st.host.get id

/-! ## Calls on a stream -/

/-- Does the stream panic in `OnNext`, `OnComplete` and `OnError`? A `requestStream` calls its sink
(handler.go:705-715), which is a nil interface until it is set. The proxies pass the event to their
processor (proxy/mono.go:42-52, proxy/flux.go:52-63). -/
def Obj.hasSink : Obj → Bool
  | .mono => true
  | .flux _ => true
  | .resp _ sink => sink

/-- `str.(DoRequest)`: does the type have a method `DoRequest`? handler.go:675-677, 701, proxy/flux.go:123.
`streamMono` and the processor embedded in it have none. -/
def Obj.isDoRequest : Obj → Bool
  | .mono => false
  | .flux _ => true
  | .resp _ _ => true

/-- Does `DoRequest` find a subscription? handler.go:701-703: `r.sub` is nil until it is assigned;
proxy/flux.go:123-126: `s.in` may be nil, and its subscription is a nil pointer until it is subscribed to. -/
def Obj.hasSub : Obj → Bool
  | .mono => false
  | .flux inp => inp == some true
  | .resp sub _ => sub

/-- A call of one of the three methods of `proxy.Stream` on the stream at `obj`. -/
def deliver {H : Type} (st : State) (obj : Nat) (e : Ev H) : Res (List (Ev H)) :=
  match st.objs[obj]? with
  | none => .panic
  | some o => if o.hasSink then .ok [e] else .panic

/-- `if b { str.On…() }`. handler.go:214-221 -/
def deliverIf {H : Type} (b : Bool) (st : State) (obj : Nat) (e : Ev H) : Res (List (Ev H)) :=
  if b then deliver st obj e else .ok []

/-! ## Incoming frames -/

/-- The kind of a request frame. handler.go:126-153 -/
def kindOf (t : FrameType) : Option Kind :=
  if t = tRequestResponse then some .rr
  else if t = tRequestFNF then some .fnf
  else if t = tRequestStream then some .rs
  else if t = tRequestChannel then some .rc
  else none

/-- The message of the error. handler.go:116 -/
def notFound : String := "stream ID %d not found"

/-- The type switch of `HandleFrame`. handler.go:122-228. `str` is the stream found under the id, if any
(it is nil for request frames); only `RequestN`, `Cancel`, `Payload` and `Error` frames use it. -/
def dispatch {H : Type} (st : State) (str : Option Nat) (f : Frame) : Res (Out H) :=
  match f with
  | .request v =>
    match kindOf v.frameType with
    | some k => .ok ⟨st, [.request k v.streamID v.data v.metadata v.initialN], []⟩
    | none => .ok ⟨st, [], []⟩
  | .requestN v =>
    match str with
    | none => .panic
    | some i =>
      match st.objs[i]? with
      | none => .panic
      | some o => if o.isDoRequest then .ok ⟨st, [.demand i v.n], []⟩ else .panic
  | .cancel v =>
    match str with
    | none => .panic
    | some i => do
      let e ← deliver st i (.complete i)
      return ⟨removeStream st v.streamID, [], e⟩
  | .payload v =>
    match str with
    | none => .panic
    | some i => do
      let e ← deliverIf v.next st i (.next i v.data v.metadata)
      let e' ← deliverIf v.complete st i (.complete i)
      return ⟨if v.complete then removeStream st v.streamID else st, [], e ++ e'⟩
  | .error v =>
    match str with
    | none => .panic
    | some i => do
      let e ← deliver st i (.error i v.data)
      let e' ← deliver st i (.complete i)
      return ⟨removeStream st v.streamID, [], e ++ e'⟩

/-- `HandleFrame`. handler.go:107-230 -/
def handleFrame {H : Type} (st : State) (f : Frame) : Res (Out H) :=
  if f.type ≥ tRequestN then
    match getStream st f.streamID with
    | none => if f.type ≠ tRequestN then .err notFound else .ok ⟨st, [], []⟩
    | some i => dispatch st (some i) f
  else dispatch st none f

/-! ## Requests -/

/-- The bytes of a string literal. -/
def lit (s : String) : Bytes := s.toUTF8.toList

/-- `&frames.Error{StreamID: streamID, Data: s}` -/
def errorFrame (id : UInt32) (data : Bytes) : Frame := .error ⟨id, 0, data⟩

/-- `metadata[8:]` for monos and fire and forget (handler.go:247, 284), all of it for streams and channels
(handler.go:306, 354). -/
def passedMetadata (k : Kind) (metadata : Bytes) : Bytes :=
  match k with
  | .rr => metadata.drop 8
  | .fnf => metadata.drop 8
  | .rs => metadata
  | .rc => metadata

/-- What comes after a handler was found: register a new stream (handler.go:286, 308, 356; not for request
response, 248) and run the handler; for streams and channels the rest follows. -/
def accept {H : Type} (st : State) (k : Kind) (h : H) (id : UInt32) (data metadata : Bytes) (n : UInt32) : Out H :=
  match k with
  | .rr => ⟨st, [], [.invoked k h id data (passedMetadata k metadata)]⟩
  | .fnf =>
    ⟨registerStream { st with objs := st.objs ++ [.resp false false] } id st.objs.length, [],
      [.invoked k h id data (passedMetadata k metadata)]⟩
  | .rs =>
    ⟨registerStream { st with objs := st.objs ++ [.resp false false] } id st.objs.length,
      [.attach st.objs.length n], [.invoked k h id data (passedMetadata k metadata)]⟩
  | .rc =>
    ⟨registerStream { st with objs := st.objs ++ [.resp false false] } id st.objs.length,
      [.attach st.objs.length n], [.invoked k h id data (passedMetadata k metadata)]⟩

/-- `handleRequestResponse` (handler.go:232-267), `handleFireAndForget` (269-289), `handleRequestStream`
(291-337), `handleRequestChannel` (339-400) up to the call of the handler; `checkMetadata` (649-659). -/
def handleRequest {H : Type} (reg : Reg H) (st : State) (k : Kind) (id : UInt32) (data metadata : Bytes)
    (n : UInt32) : Res (Out H) :=
  if metadata.length < 8 then .ok ⟨st, [], [.sent (errorFrame id (lit "Invalid metadata"))]⟩
  else do
    let operationID ← getU32 metadata
    match getHandler reg k operationID with
    | none => return ⟨st, [], [.sent (errorFrame id (lit "not_found"))]⟩
    | some h => return accept st k h id data metadata n

/-- A goroutine does its work. `live` tells, for the last part of a stream or channel, whether the flux the
handler returned has a subscription (`errorFlow.Subscription` returns nil, rx/flux/flux.go:63-65). -/
def runTask {H : Type} (reg : Reg H) (live : Bool) (st : State) : Task → Res (Out H)
  | .request k id data metadata n => handleRequest reg st k id data metadata n
  | .attach i n =>
    if live then
      .ok ⟨{ st with objs := st.objs.modify i fun o => match o with
        | .resp _ sink => .resp true sink
        | o => o }, [], [.requested i n]⟩
    else .panic
  | .demand i n =>
    match st.objs[i]? with
    | none => .panic
    | some o => if o.hasSub then .ok ⟨st, [], [.requested i n]⟩ else .panic

/-! ## Local calls -/

/-- `proxy.Mono` followed by `Subscribe`: a new stream is registered. proxy/mono.go:66-72 -/
def openMono (st : State) (id : UInt32) : State :=
  registerStream { st with objs := st.objs ++ [.mono] } id st.objs.length

/-- `proxy.Flux` followed by `Subscribe`. `hasIn` tells whether it is a channel. proxy/flux.go:128-133 -/
def openFlux (st : State) (id : UInt32) (hasIn : Bool) : State :=
  registerStream { st with objs := st.objs ++ [.flux (if hasIn then some false else none)] } id st.objs.length

/-- The first `Request` on a channel subscribes to `in`. proxy/flux.go:87-110. `live` tells whether `in` has
a subscription then (rx/flux/flux.go:63-65). -/
def startIn (st : State) (i : Nat) (live : Bool) : State :=
  { st with objs := st.objs.modify i fun o => match o with
    | .flux (some _) => .flux (some live)
    | o => o }

/-- A channel handler subscribes to the flux it was given: the sink is set. handler.go:357-358 -/
def openSink (st : State) (i : Nat) : State :=
  { st with objs := st.objs.modify i fun o => match o with
    | .resp sub _ => .resp sub true
    | o => o }

/-! ## A connection over time -/

/-- A connection: streams, goroutines that have not run yet, history (oldest first). -/
structure Conn (H : Type) where
  st : State
  tasks : List Task
  log : List (Ev H)

/-- A new connection. -/
def Conn.init {H : Type} : Conn H := ⟨State.init, [], []⟩

/-- What can happen next: a frame arrives (any frame, at any time), a goroutine runs, local code opens a
stream, subscribes to the input of a channel or is subscribed to. -/
inductive Act where
  | recv (f : Frame)
  | task (i : Nat) (live : Bool)
  | openMono (id : UInt32)
  | openFlux (id : UInt32) (hasIn : Bool)
  | startIn (i : Nat) (live : Bool)
  | openSink (i : Nat)

/-- Add what a piece of code did to the connection. -/
def Conn.after {H : Type} (c : Conn H) (o : Out H) : Conn H := ⟨o.st, c.tasks ++ o.tasks, c.log ++ o.evs⟩

/-- One step. `.err` is the error `HandleFrame` returns, which ends the connection
(`/repo/go/transport/rsocket/transport.go:152-157, 196-197`). -/
def Conn.step {H : Type} (reg : Reg H) (c : Conn H) : Act → Res (Conn H)
  | .recv f => do
    let o ← handleFrame c.st f
    return c.after o
  | .task i live =>
    match c.tasks[i]? with
    | none => .ok c
    | some t => do
      let o ← runTask reg live c.st t
      return { c with tasks := c.tasks.eraseIdx i }.after o
  | .openMono id => .ok { c with st := openMono c.st id }
  | .openFlux id hasIn => .ok { c with st := openFlux c.st id hasIn }
  | .startIn i live => .ok { c with st := startIn c.st i live }
  | .openSink i => .ok { c with st := openSink c.st i }

/-- A run. -/
def Conn.run {H : Type} (reg : Reg H) (c : Conn H) : List Act → Res (Conn H)
  | [] => .ok c
  | a :: as => do
    let c ← c.step reg a
    Conn.run reg c as

end Iota.Handler
