import Verif.Model.RustRx
import Verif.Model.RustSocket

/-!
# The wrappers the Rust code generator writes for streams and channels

Model of the functions that `/repo/codegen/src/rust/visitors/service-visitor.ts` writes around the implementation of an
operation that answers with a stream (lines 156-189) or that is a channel (lines 199-236).

Simplifications:
* The receiving end of each of the channels is used by one task only, so a channel is a queue and the number of its senders
  (`Model/RustRx.lean` has the general case); an empty channel without senders has ended (flux.rs:254-265).
* The implementation is any code: what it does with the senders it has, what it reads, and how it returns are events.
* `serialize` and `deserialize` (`/repo/rust/crates/wasmrs-codec/src/messagepack.rs:7-36`) are parameters; errors are texts.
* A task that runs is one event for each element it takes from a channel.
-/

namespace Iota.RustWrappers
open Iota.Go
open Iota.RustRx (Signal)

/-- A channel made by `Flux::new_channels` whose receiver is used by one task. flux.rs:156-167 -/
structure Chan (α : Type) where
  queue : List (Signal α Bytes)
  senders : Nat
  deriving DecidableEq, Repr

/-- What the receiver is given. -/
inductive Got (α : Type) where
  | item (v : α)
  | error (e : Bytes)
  | ended
  | pending
  deriving DecidableEq, Repr

/-- `next` and `recv`. flux.rs:254-265, receiver.rs:65-97 -/
def Chan.next {α : Type} (c : Chan α) : Got α × Chan α :=
  match c.queue with
  | .ok v :: q => (.item v, { c with queue := q })
  | .err e :: q => (.error e, { c with queue := q })
  | .complete :: q => (.ended, { c with queue := q })
  | [] => if c.senders = 0 then (.ended, c) else (.pending, c)

/-- What code with a sender does: `send`, `error` and `complete` (observer.rs:12-36), `clone` and dropping it. -/
inductive Use (α : Type) where
  | send (x : Signal α Bytes)
  | clone
  | drop
  deriving DecidableEq, Repr

/-- `kept` senders are not the implementation's to use up. `none`: there is no sender to do it with. -/
def Chan.use {α : Type} (c : Chan α) (kept : Nat) (u : Use α) : Option (Chan α) :=
  match u with
  | .send x => if 0 < c.senders then some { c with queue := c.queue ++ [x] } else none
  | .clone => if 0 < c.senders then some { c with senders := c.senders + 1 } else none
  | .drop => if kept < c.senders then some { c with senders := c.senders - 1 } else none

/-- How far the implementation is. -/
inductive Impl where
  | running
  | returned
  | failed (e : Bytes)
  deriving DecidableEq, Repr

/-! ## Operations that answer with a stream -/

/-- The task of the wrapper. `outs` is the channel whose sender the implementation gets, `kept` whether the value it
returned is a sender of it, `out` what was sent on `out_tx`, `done` whether the task has ended. -/
structure StreamW (α : Type) where
  impl : Impl
  outs : Chan α
  kept : Bool
  out : List (Signal Bytes Bytes)
  done : Bool
  deriving DecidableEq, Repr

/-- service-visitor.ts:160-168 -/
def StreamW.start {α : Type} : StreamW α := ⟨.running, ⟨[], 1⟩, false, [], false⟩

/-- What can happen.
* `use`: the implementation, or code it started, uses a sender.
* `ret k`: it returns `Ok`, with a sender of this channel (`k`) or another Flux; service-visitor.ts:46-47
* `fail e`: it returns an error, or the argument could not be read; service-visitor.ts:47 (`inputs.await?`)
* `pump`: the task of the wrapper goes on. -/
inductive StreamEv (α : Type) where
  | use (u : Use α)
  | ret (k : Bool)
  | fail (e : Bytes)
  | pump
  deriving DecidableEq, Repr

/-- The message of an element. service-visitor.ts:171-177, 214-226 -/
def convert {α : Type} (ser : α → Except Bytes Bytes) (v : α) : Signal Bytes Bytes :=
  match ser v with
  | .ok b => .ok b
  | .error e => .err e

/-- The loop after the implementation returned. service-visitor.ts:170-180; the value it returned is dropped when the `match`
ends. -/
def StreamW.forward {α : Type} (ser : α → Except Bytes Bytes) (w : StreamW α) : StreamW α :=
  match w.outs.next with
  | (.item v, c) => { w with outs := c, out := w.out ++ [convert ser v] }
  | (.error e, c) => { w with outs := c, out := w.out ++ [.err e] }
  | (.ended, c) => { w with outs := c, out := w.out ++ [.complete], done := true }
  | (.pending, _) => w

/-- `none`: this cannot happen now. -/
def StreamW.step {α : Type} (ser : α → Except Bytes Bytes) (w : StreamW α) : StreamEv α → Option (StreamW α)
  | .use u => (w.outs.use (if w.kept && !w.done then 1 else 0) u).map fun c => { w with outs := c }
  | .ret k =>
    if w.impl = .running ∧ (k = true → 0 < w.outs.senders) then some { w with impl := .returned, kept := k } else none
  | .fail e => if w.impl = .running then some { w with impl := .failed e } else none
  | .pump =>
    match w.impl with
    | .running => none
    | .returned => if w.done then none else some (w.forward ser)
    | .failed e => if w.done then none else some { w with out := w.out ++ [.err e], done := true }

def StreamW.run {α : Type} (ser : α → Except Bytes Bytes) : StreamW α → List (StreamEv α) → Option (StreamW α)
  | w, [] => some w
  | w, e :: es =>
    match w.step ser e with
    | none => none
    | some w' => w'.run ser es

/-! ## Channels -/

/-- The three tasks of the wrapper of a channel. `input` is the stream of the caller (the socket has one sender), `inputs`
what the implementation reads, `read` what it was given so far, `outs` the channel whose sender it gets, `out` what was sent
on `real_out_tx`; `inDone` and `outDone`: the tasks of lines 204-208 and 212-228 have ended and dropped their senders. -/
structure ChannelW (β α : Type) where
  impl : Impl
  input : Chan Bytes
  inDone : Bool
  inputs : Chan β
  read : List (Got β)
  outs : Chan α
  out : List (Signal Bytes Bytes)
  outDone : Bool
  deriving DecidableEq, Repr

/-- service-visitor.ts:199-236 -/
def ChannelW.start {β α : Type} : ChannelW β α := ⟨.running, ⟨[], 1⟩, false, ⟨[], 1⟩, [], ⟨[], 1⟩, [], false⟩

/-- What can happen: something arrives from the caller, or the socket drops the stream; the implementation reads, uses a
sender, returns or fails; one of the two tasks goes on. -/
inductive ChannelEv (α : Type) where
  | arrive (x : Signal Bytes Bytes)
  | hangup
  | read
  | use (u : Use α)
  | ret
  | fail (e : Bytes)
  | pumpIn
  | pumpOut
  deriving DecidableEq, Repr

/-- A round of the loop of lines 205-207: only an element goes on, everything else ends it. -/
def ChannelW.forwardIn {β α : Type} (de : Bytes → Except Bytes β) (w : ChannelW β α) : ChannelW β α :=
  match w.input.next with
  | (.item b, c) =>
    { w with
      input := c
      inputs := { w.inputs with queue := w.inputs.queue ++ [match de b with | .ok v => .ok v | .error e => .err e] } }
  | (.pending, _) => w
  | (_, c) => { w with input := c, inDone := true, inputs := { w.inputs with senders := w.inputs.senders - 1 } }

/-- A round of the loop of lines 213-227. -/
def ChannelW.forwardOut {β α : Type} (ser : α → Except Bytes Bytes) (w : ChannelW β α) : ChannelW β α :=
  match w.outs.next with
  | (.item v, c) => { w with outs := c, out := w.out ++ [convert ser v] }
  | (.error e, c) => { w with outs := c, out := w.out ++ [.err e] }
  | (.ended, c) => { w with outs := c, outDone := true }
  | (.pending, _) => w

/-- `none`: this cannot happen now. The value the implementation returns is dropped (line 231), so a return changes nothing
else; the senders it has are dropped by events. -/
def ChannelW.step {β α : Type} (de : Bytes → Except Bytes β) (ser : α → Except Bytes Bytes) (w : ChannelW β α) :
    ChannelEv α → Option (ChannelW β α)
  | .arrive x => (w.input.use 0 (.send x)).map fun c => { w with input := c }
  | .hangup => (w.input.use 0 .drop).map fun c => { w with input := c }
  | .read => some { w with inputs := w.inputs.next.2, read := w.read ++ [w.inputs.next.1] }
  | .use u => (w.outs.use 0 u).map fun c => { w with outs := c }
  | .ret => if w.impl = .running then some { w with impl := .returned } else none
  | .fail e => if w.impl = .running then some { w with impl := .failed e } else none
  | .pumpIn => if w.inDone then none else some (w.forwardIn de)
  | .pumpOut => if w.outDone then none else some (w.forwardOut ser)

def ChannelW.run {β α : Type} (de : Bytes → Except Bytes β) (ser : α → Except Bytes Bytes) :
    ChannelW β α → List (ChannelEv α) → Option (ChannelW β α)
  | w, [] => some w
  | w, e :: es =>
    match w.step de ser e with
    | none => none
    | some w' => w'.run de ser es

end Iota.RustWrappers
