import Verif.Model.WasmCalls
import Verif.Spec.Polite
import Verif.Spec.Caller

/-!
# Specification: where calls between a WebAssembly host and its guest end up

Which handler is the one for a call, what it is given, which results a call may be told, and where a request and its answer
are. Only lists are looked at; nothing is said about streams and tables.
-/

namespace Iota.Spec.WasmCalls
open Iota.Go Iota.Frames Iota.Registry Iota.WasmDispatch Iota.WasmCalls Iota.Spec.Handler Iota.Spec.Caller
open Iota.Handler hiding Act
open Iota.Peers (Result)
open Iota.Spec.Polite (requests answers queued)

/-- The metadata a handler sees: a guest hides the first eight bytes from the handlers of single requests. -/
def shown (e : End) (k : Kind) (metadata : Bytes) : Bytes :=
  if e = .guest ∧ (k = .rr ∨ k = .fnf) then metadata.drop 8 else metadata

/-- `x` is the work of end `e`, which has the handlers `hs`, for the call `c`: the handler of the kind and index the call
names, with the data and metadata of the call. -/
structure Serves {H : Type} (e : End) (hs : Handlers H) (c : WasmCalls.Call) (x : WasmCalls.Job H) : Prop where
  kind : x.kind = c.kind
  id : x.id = c.id
  data : x.data = c.data
  metadata : x.metadata = shown e c.kind c.metadata
  handler : ∃ op : UInt32, opIndex c.metadata = some op.toNat ∧ hs c.kind op = some x.handler

/-- There is no handler for the call. -/
def Unknown {H : Type} (hs : Handlers H) (c : WasmCalls.Call) : Prop :=
  ∀ op : UInt32, opIndex c.metadata = some op.toNat → hs c.kind op = none

/-- What the caller of a call that is refused is told: too little metadata, or no such handler. -/
def refusal (metadata : Bytes) : Bytes := if metadata.length < 8 then lit "Invalid metadata" else lit "not_found"

/-- A result that the other end has for a call: its handler for the call produced it, or there is none. -/
inductive Answered {H : Type} (e : End) (hs : Handlers H) (made : List (WasmCalls.Job H × Result)) (c : WasmCalls.Call) :
    Result → Prop
  | handler (x : WasmCalls.Job H) (r : Result) : (x, r) ∈ made → Serves e hs c x → Answered e hs made c r
  | refused (msg : Bytes) : Unknown hs c → msg = refusal c.metadata → Answered e hs made c (.failure msg)

/-- The result in a signal. -/
def resultOf : Sig → Option Result
  | .next d m => some (.value d m)
  | .error m => some (.failure m)
  | .complete => none

/-- The signal of an event for a stream. -/
def signal {H : Type} (o : Nat) : Ev H → Option Sig
  | .next i d m => if i = o then some (.next d m) else none
  | .complete i => if i = o then some .complete else none
  | .error i m => if i = o then some (.error m) else none
  | _ => none

/-- The results a stream was told, in order. -/
def results {H : Type} (o : Nat) (log : List (Ev H)) : List Result := (log.filterMap (signal o)).filterMap resultOf

/-- The results the call at an index was told. None before it has a stream. -/
def toldCall {H : Type} (n : Node H) (j : Nat) : List Result :=
  match n.obj j with
  | none => []
  | some o => results o n.peer.log

/-- How many handlers were started for an id (and, for request-response, have not answered). -/
def handlers {H : Type} (id : UInt32) (js : List (WasmCalls.Job H)) : Nat := js.countP fun j => j.id == id

/-- Is it a frame sent for this id by the dispatcher? -/
def isRefusal {H : Type} (id : UInt32) : Ev H → Bool
  | .sent f => f.streamID == id
  | _ => false

/-- How many requests under an id were refused. -/
def refusals {H : Type} (id : UInt32) (log : List (Ev H)) : Nat := log.countP (isRefusal id)

/-- How much of the call at index `j` of `p` is on the way: requests on the wire and waiting to be handled, handlers at
work, answers on the wire. -/
def inFlight {H : Type} (q : Node H) (wp wq : List Frame) (c : WasmCalls.Call) : Nat :=
  requests c.id wp + queued c.id q.peer.tasks + handlers c.id q.jobs + answers c.id wq

/-- Neither end made more than `2^30` calls. -/
def Bounded {H : Type} (y : WasmCalls.Sys H) : Prop := ∀ e, (y.node e).calls.length ≤ 2 ^ 30

/-- Only request-response and fire and forget are used. -/
def Simple {H : Type} (y : WasmCalls.Sys H) : Prop := ∀ e, ∀ c ∈ (y.node e).calls, c.kind = .rr ∨ c.kind = .fnf

/-! ## Going on -/

/-- Something is done about what is under way, without new calls: a frame is taken up, a request is handled, a handler
resolves. -/
def Goes : WasmCalls.Act → Prop
  | .recv _ _ => True
  | .task _ _ _ => True
  | .answer _ _ _ => True
  | _ => False

/-- A result that fits into a frame. -/
def FitsResult : Result → Prop
  | .value d m => m.length < 2 ^ 24 ∧ m.length + d.length + 9 < 2 ^ 32
  | .failure m => m.length + 10 < 2 ^ 32

/-- What is passed fits into frames. -/
structure Small {H : Type} (y : WasmCalls.Sys H) : Prop where
  calls : ∀ e, ∀ c ∈ (y.node e).calls, c.metadata.length < 2 ^ 24 ∧ c.metadata.length + c.data.length + 13 < 2 ^ 32
  made : ∀ e x r, (x, r) ∈ (y.node e).made → FitsResult r

/-- A call is done with: a request-response call whose result is wanted was told exactly one; the handler of a fire and
forget call, if there is one, was started exactly once. -/
def Done {H : Type} (hs : End → Handlers H) (y : WasmCalls.Sys H) (e : End) (j : Nat) (c : WasmCalls.Call) : Prop :=
  match c.kind with
  | .rr => (y.node e).obj j ≠ none → ∃ r, toldCall (y.node e) j = [r] ∧ Answered (other e) (hs (other e)) (y.node (other e)).made c r
  | .fnf => ¬Unknown (hs (other e)) c → handlers c.id (y.node (other e)).jobs = 1
  | _ => True

end Iota.Spec.WasmCalls
