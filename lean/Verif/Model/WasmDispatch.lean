import Verif.Model.Handler

/-!
# Frame dispatch of a WebAssembly host and its guest

Model of `recvOne` and the handling of requests in `/repo/go/transport/wasmrs/host/instance.go`, and of `GuestSend` and
the handling of requests in `/repo/go/transport/wasmrs/guest/guest.go`. The two dispatchers are close to the one of
`handler.go` (`Verif/Model/Handler.lean`); streams, tables, tasks and events are those of that model. What differs:

* the frames arrive as bytes and are decoded here; a stream nobody knows is looked up before that;
* a frame for such a stream is dropped and is no error;
* a request whose flag `FOLLOWS` is set is put aside;
* the host starts a goroutine per request and per `RequestN` (`Task`, run later in any order); the guest is not
  concurrent: it takes up a frame when the work for the frames before it is done;
* the host runs a handler under the context of the parent stream named by the request, and keeps no stream for
  fire and forget; the guest tells the handler of the first two kinds which request it serves.

Conventions and simplifications: as in `Verif/Model/Handler.lean`. A context is an inductive type: only whose context it
is matters. A handler that runs is recorded with its context. Printed messages are left out. `Decode` never returns an
error (`Verif/Model/Frames.lean`), so that the branches for it are left out.
-/

namespace Iota.WasmDispatch
open Go Iota.Frames Iota.Registry Iota.Handler Iota.Spec.Lookup

/-- Which of the two dispatchers. -/
inductive End
  | host
  | guest
  deriving DecidableEq, Repr

/-- A `context.Context`: nil, `context.Background()`, one that local code made the call with, or one that carries the
request being served (`proxy.WithContext`, `/repo/go/proxy/stream.go:30-32`). -/
inductive Ctx
  | nil
  | background
  | caller (n : Nat)
  | serving (id : UInt32)
  deriving DecidableEq, Repr

/-- The handlers a peer knows, by kind and index: `get…Handler` of instance.go:613-667, `invoke.Get…Handler` in the guest
(`getSlot` and `getHandler` in `Verif/Model/Registry.lean`). -/
abbrev Handlers (H : Type) := Kind → UInt32 → Option H

/-- A peer. instance.go:27-53, guest.go:22-36. `ctxs` holds the context of each stream of `st.objs`, `stash` what was
put aside in `fragmentedPayloads`. -/
structure Peer (H : Type) where
  st : State
  ctxs : List Ctx
  stash : List RequestPayload
  tasks : List Task
  log : List (Ev (H × Ctx))

/-- A new peer. instance.go:64-102, guest.go:22-58 -/
def Peer.init {H : Type} : Peer H := ⟨State.init, [], [], [], []⟩

/-- Add what a piece of code did. -/
def Peer.after {H : Type} (p : Peer H) (o : Out (H × Ctx)) : Peer H :=
  { p with st := o.st, tasks := p.tasks ++ o.tasks, log := p.log ++ o.evs }

/-- Make a stream and register it. instance.go:110-120, guest.go:493-499, proxy/mono.go:66-68 -/
def Peer.register {H : Type} (p : Peer H) (o : Obj) (c : Ctx) (id : UInt32) : Peer H :=
  { p with st := registerStream { p.st with objs := p.st.objs ++ [o] } id p.st.objs.length, ctxs := p.ctxs ++ [c] }

/-! ## Incoming frames -/

/-- The cases of the switch for requests. instance.go:274-337, guest.go:141-203; `checkFollows`: instance.go:681-693,
guest.go:479-491. Other types below `RequestN` have no case. -/
def Peer.recvRequest {H : Type} (p : Peer H) (h : Header) (data : Bytes) : Res (Peer H) :=
  if isRequestType (Header.type h) then do
    let v ← RequestPayload.decode h data
    if v.follows then return { p with stash := p.stash ++ [v] }
    else p.after <$> dispatch p.st none (.request v)
  else return p

/-- The cases of the switch for a stream that was found. instance.go:339-423, guest.go:205-292. The cases themselves are
those of handler.go (`dispatch`). Types above `Error` have no case. -/
def Peer.recvStream {H : Type} (p : Peer H) (i : Nat) (h : Header) (data : Bytes) : Res (Peer H) :=
  if Header.type h = tRequestN then do
    let v ← RequestN.decode h data
    p.after <$> dispatch p.st (some i) (.requestN v)
  else if Header.type h = tCancel then p.after <$> dispatch p.st (some i) (.cancel ⟨Header.streamID h⟩)
  else if Header.type h = tPayload then do
    let v ← Payload.decode h data
    p.after <$> dispatch p.st (some i) (.payload v)
  else if Header.type h = tError then do
    let v ← Error.decode h data
    p.after <$> dispatch p.st (some i) (.error v)
  else return p

/-- `recvOne` (instance.go:254-425), one round of the loop of `GuestSend` (guest.go:121-293). -/
def Peer.recvOne {H : Type} (p : Peer H) (data : Bytes) : Res (Peer H) := do
  let h ← parseHeader data
  let data ← sliceFrom data headerLen
  if Header.type h ≥ tRequestN then
    match getStream p.st (Header.streamID h) with
    | none => return p
    | some i => p.recvStream i h data
  else p.recvRequest h data

/-! ## Requests -/

/-- The context a handler runs under in the host: that of the stream of the parent, if it is known.
instance.go:433-438, 473-478, 497-502, 550-555 -/
def Peer.parentCtx {H : Type} (p : Peer H) (parent : UInt32) : Ctx :=
  if parent ≠ 0 then
    match getStream p.st parent with
    | some i => (p.ctxs[i]?).getD .nil
    | none => .background
  else .background

/-- The context the handler gets. The guest tells the first two kinds which request they serve (guest.go:313-314,
350-352) and passes `context.Background()` (guest.go:107) to the others. -/
def Peer.handlerCtx {H : Type} (e : End) (p : Peer H) (k : Kind) (id parent : UInt32) : Ctx :=
  match e, k with
  | .host, _ => p.parentCtx parent
  | .guest, .rr => .serving id
  | .guest, .fnf => .serving id
  | .guest, .rs => .background
  | .guest, .rc => .background

/-- The metadata the handler gets: all of it in the host (instance.go:447, 487, 512, 565) and for streams and channels of
the guest (guest.go:371, 419), without the first eight bytes for the other two kinds of the guest (guest.go:312, 349). -/
def passed (e : End) (k : Kind) (metadata : Bytes) : Bytes :=
  match e, k with
  | .host, _ => metadata
  | .guest, .rr => metadata.drop 8
  | .guest, .fnf => metadata.drop 8
  | .guest, .rs => metadata
  | .guest, .rc => metadata

/-- The context a new stream keeps for a request of kind `k`, if one is made. A stream that serves a channel has none
(instance.go:566, guest.go:420). instance.go:513-514, guest.go:350-351, 372-373 -/
def kept (e : End) (k : Kind) (c : Ctx) : Option Ctx :=
  match e, k with
  | _, .rr => none
  | .host, .fnf => none
  | .guest, .fnf => some .background
  | .host, .rs => some c
  | .guest, .rs => some .background
  | _, .rc => some .nil

/-- The rest of the handling of a stream or channel, after the handler was run. instance.go:539-541, 608-610,
guest.go:399-401, 462-464 -/
def rest (k : Kind) (i : Nat) (n : UInt32) : List Task :=
  match k with
  | .rs => [.attach i n]
  | .rc => [.attach i n]
  | _ => []

/-- What comes after a handler was found. instance.go:447-464, 487-488, 512-515, 565-584; guest.go:312-331, 349-353,
371-375, 419-438 -/
def Peer.accept {H : Type} (e : End) (p : Peer H) (k : Kind) (h : H) (id : UInt32) (data metadata : Bytes) (n : UInt32)
    (parent : UInt32) : Peer H :=
  match kept e k (p.handlerCtx e k id parent) with
  | none => p.after ⟨p.st, [], [.invoked k (h, p.handlerCtx e k id parent) id data (passed e k metadata)]⟩
  | some c =>
    let p' := p.register (.resp false false) c id
    p'.after ⟨p'.st, rest k p.st.objs.length n,
      [.invoked k (h, p.handlerCtx e k id parent) id data (passed e k metadata)]⟩

/-- `handleRequestResponse` (instance.go:427-465, guest.go:297-332), `handleFireAndForget` (instance.go:467-489,
guest.go:334-354), `handleRequestStream` (instance.go:491-542, guest.go:356-402) and `handleRequestChannel`
(instance.go:544-611, guest.go:404-465); `checkMetadata`: instance.go:669-679, guest.go:467-477. -/
def Peer.handleRequest {H : Type} (e : End) (hs : Handlers H) (p : Peer H) (k : Kind) (id : UInt32) (data metadata : Bytes)
    (n : UInt32) : Res (Peer H) :=
  if metadata.length < 8 then .ok (p.after ⟨p.st, [], [.sent (errorFrame id (lit "Invalid metadata"))]⟩)
  else do
    let operationID ← getU32 metadata
    let parent ← getU32 (metadata.drop 4)
    match hs k operationID with
    | none => return p.after ⟨p.st, [], [.sent (errorFrame id (lit "not_found"))]⟩
    | some h => return p.accept e k h id data metadata n parent

/-- A piece of work is done: a goroutine of the host, the rest of a frame in the guest. `live` as in `runTask`. -/
def Peer.runTask {H : Type} (e : End) (hs : Handlers H) (live : Bool) (p : Peer H) : Task → Res (Peer H)
  | .request k id data metadata n => p.handleRequest e hs k id data metadata n
  | .attach i n => p.after <$> Handler.runTask ⟨fun _ => [], fun _ => [], fun _ => []⟩ live p.st (.attach i n)
  | .demand i n => p.after <$> Handler.runTask ⟨fun _ => [], fun _ => [], fun _ => []⟩ live p.st (.demand i n)

/-! ## A peer over time -/

/-- What can happen next. Local code makes calls with some context. -/
inductive Act where
  | recv (data : Bytes)
  | task (i : Nat) (live : Bool)
  | openMono (id : UInt32) (c : Ctx)
  | openFlux (id : UInt32) (hasIn : Bool) (c : Ctx)
  | startIn (i : Nat) (live : Bool)
  | openSink (i : Nat)

/-- May the next frame be taken up? The loop of the guest does the work for a frame before it turns to the next. -/
def Peer.ready {H : Type} (e : End) (p : Peer H) : Bool :=
  match e with
  | .host => true
  | .guest => p.tasks.isEmpty

/-- One step. `none`: it cannot happen now. -/
def Peer.step {H : Type} (e : End) (hs : Handlers H) (p : Peer H) : Act → Option (Res (Peer H))
  | .recv data => if p.ready e then some (p.recvOne data) else none
  | .task i live =>
    match p.tasks[i]? with
    | none => none
    | some t => some ({ p with tasks := p.tasks.eraseIdx i }.runTask e hs live t)
  | .openMono id c => some (.ok (p.register .mono c id))
  | .openFlux id hasIn c => some (.ok (p.register (.flux (if hasIn then some false else none)) c id))
  | .startIn i live => some (.ok { p with st := startIn p.st i live })
  | .openSink i => some (.ok { p with st := openSink p.st i })

/-- A run; a panic ends it. -/
def Peer.run {H : Type} (e : End) (hs : Handlers H) : Peer H → List Act → Option (Res (Peer H))
  | p, [] => some (.ok p)
  | p, a :: as =>
    match p.step e hs a with
    | none => none
    | some (.ok p') => Peer.run e hs p' as
    | some r => if as = [] then some r else none

/-! ## Calls made by a handler -/

/-- The metadata generated code gives a call: the index of the operation, then the id of the request the context belongs
to (`proxy.FromContext`, `/repo/go/proxy/stream.go:19-28`), or zero. A nil context panics.
`/repo/codegen/src/tinygo/invokers_visitor.ts:185-190`, e.g. `/repo/codegen/testdata/tinygo/expected/pkg/urlshortener/providers.go:47-52` -/
def callMetadata (op : UInt32) : Ctx → Res Bytes
  | .nil => .panic
  | .background => .ok (be32 op ++ be32 0)
  | .caller _ => .ok (be32 op ++ be32 0)
  | .serving id => .ok (be32 op ++ be32 id)

end Iota.WasmDispatch
