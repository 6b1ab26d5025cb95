/-!
# Flux and Mono of the Rust crates

Model of `/repo/rust/crates/wasmrs-rx/src/flux.rs`, `flux/receiver.rs`, `flux/observer.rs`, `flux/ops/pipe.rs` and of the
channels and shared cells they use: `/repo/rust/crates/wasmrs-runtime/src/runtime.rs` and `runtime/native/mod.rs`.

A `Flux` is the sender of an unbounded channel together with a shared cell (`OptionalMut`) that may contain the
receiver; a `FluxReceiver` is only such a cell. Clones share the cell. To receive, the receiver is taken out of the cell and
put back afterwards.

Simplifications:
* One channel with all its handles; what makes a task run again (wakers) is not modelled.
* `tokio::sync::mpsc::unbounded_channel` is a queue: `send` fails when the receiver was dropped, receiving from an empty
  queue gives `None` when there is no sender left, and dropping the receiver drops what is in the queue.
* `poll_recv` is two steps (line 86 and lines 87-97 of receiver.rs) because other threads can run between them. A handle may
  be dropped between the two; Rust does not allow that.
* The field `complete` of `Flux` is never read and is left out.
-/

namespace Iota.RustRx

/-- `Signal`. /repo/rust/crates/wasmrs-rx/src/flux/signal.rs:5-16 -/
inductive Signal (α ε : Type) where
  | ok (v : α)
  | err (e : ε)
  | complete
  deriving DecidableEq, Repr

/-- A `Flux` (`tx`) or a `FluxReceiver`, with the number of its cell. flux.rs:128-136, receiver.rs:13-19 -/
structure Handle where
  tx : Bool
  cell : Nat
  deriving DecidableEq, Repr

/-- A future made by `recv` or a running call of `poll_recv`. -/
inductive Kind where
  | future
  | poll
  deriving DecidableEq, Repr

/-- A future or running poll: the cell it belongs to, and whether it has taken the receiver out of it. -/
structure Take where
  kind : Kind
  cell : Nat
  has : Bool
  deriving DecidableEq, Repr

/-- Where the receiver is. -/
inductive Rx where
  | cell (c : Nat)
  | held (j : Nat)
  | dropped
  deriving DecidableEq, Repr

/-- The channel and everything that refers to it. Handles and futures that were dropped are `none`. -/
structure State (α ε : Type) where
  queue : List (Signal α ε)
  rx : Rx
  cells : Nat
  handles : List (Option Handle)
  takes : List (Option Take)
  deriving DecidableEq, Repr

variable {α ε : Type}

/-- `Flux::new`. flux.rs:145-153 -/
def State.new : State α ε := ⟨[], .cell 0, 1, [some ⟨true, 0⟩], []⟩

/-- `Flux::new_channels`: the Flux is handle 0 and has an empty cell, the receiver is handle 1. flux.rs:156-167 -/
def State.newChannels : State α ε := ⟨[], .cell 1, 2, [some ⟨true, 0⟩, some ⟨false, 1⟩], []⟩

/-- The handle with this number, while it lives. -/
def State.handle (s : State α ε) (h : Nat) : Option Handle := (s.handles[h]?).join

/-- The future or running poll with this number. -/
def State.takeOf (s : State α ε) (j : Nat) : Option Take := (s.takes[j]?).join

/-- Whether something still refers to the cell (the count of the `Arc`). native/mod.rs:107 -/
def State.refers (s : State α ε) (c : Nat) : Bool :=
  s.handles.any (fun o => o.any fun h => h.cell == c) || s.takes.any (fun o => o.any fun t => t.cell == c)

/-- Whether there is a sender. -/
def State.hasSender (s : State α ε) : Bool := s.handles.any fun o => o.any fun h => h.tx

/-- The receiver is dropped, and with it what is in the queue. -/
def State.lose (s : State α ε) : State α ε := { s with rx := .dropped, queue := [] }

/-- A cell that nothing refers to is dropped together with the receiver in it. -/
def State.settle (s : State α ε) : State α ε :=
  match s.rx with
  | .cell c => if s.refers c then s else s.lose
  | _ => s

/-- What a call returns.
* `sent b`: `Ok(())` or `Err(SendFailed)`
* `item`, `error`, `ended`: `Some(Ok(v))`, `Some(Err(e))` or `None` was received
* `failed`: `Err(RecvFailed)` or `Err(ReceiverAlreadyGone)`
* `made n`: a handle or future with the number `n`
* `closed b`: the answer of `is_closed` or `is_complete` -/
inductive Out (α ε : Type) where
  | unit
  | sent (b : Bool)
  | pending
  | item (v : α)
  | error (e : ε)
  | ended
  | failed
  | made (n : Nat)
  | closed (b : Bool)
  deriving DecidableEq, Repr

/-- `signal_into_result` of a signal, and the same match in `poll_recv`. flux.rs:254-265, receiver.rs:90-95 -/
def Signal.out : Signal α ε → Out α ε
  | .ok v => .item v
  | .err e => .error e
  | .complete => .ended

/-- What can be done. -/
inductive Ev (α ε : Type) where
  /-- `send_signal` of a Flux, which `send`, `error`, `send_result` and `complete` call: flux.rs:218-220, 226-229,
  observer.rs:12-36 -/
  | send (h : Nat) (x : Signal α ε)
  /-- `clone`: flux.rs:197-203, receiver.rs:46-48 -/
  | clone (h : Nat)
  | drop (h : Nat)
  /-- `recv`: flux.rs:177-184, receiver.rs:65-82 -/
  | recv (h : Nat)
  /-- the future of `recv` is polled -/
  | pollFuture (j : Nat)
  /-- the future of `recv` is dropped before it is ready -/
  | dropFuture (j : Nat)
  /-- `poll_next` begins: flux.rs:249-251, receiver.rs:116-118 -/
  | poll (h : Nat)
  /-- `poll_next` ends -/
  | finish (j : Nat)
  /-- `take_rx`, `eject`: flux.rs:187-189, receiver.rs:102-106 -/
  | eject (h : Nat)
  /-- `is_closed`, `is_complete`: flux.rs:171-173, 222-224 -/
  | isClosed (h : Nat)
  deriving DecidableEq, Repr

/-- `send_signal`. flux.rs:218-220, runtime.rs:47-49 -/
def State.send (s : State α ε) (x : Signal α ε) : State α ε × Out α ε :=
  if s.rx = .dropped then (s, .sent false) else ({ s with queue := s.queue ++ [x] }, .sent true)

/-- `self.rx.take()` in `recv` and `poll_recv`. receiver.rs:70-71, 86, native/mod.rs:122-124 -/
def State.take (s : State α ε) (k : Kind) (d : Handle) : State α ε × Out α ε :=
  ({ s with
    takes := s.takes ++ [some ⟨k, d.cell, s.rx == .cell d.cell⟩],
    rx := if s.rx = .cell d.cell then .held s.takes.length else s.rx }, .made s.takes.length)

/-- The future is gone, or the poll has returned, and the receiver is back in its cell. receiver.rs:76, 89,
native/mod.rs:126-128 -/
def State.putBack (s : State α ε) (j : Nat) (t : Take) : State α ε :=
  { s with rx := .cell t.cell, takes := s.takes.set j none }.settle

/-- The rest of `recv` (receiver.rs:72-81) or `poll_recv` (receiver.rs:87-97). -/
def State.advance (s : State α ε) (j : Nat) (t : Take) : State α ε × Out α ε :=
  if t.has then
    match s.queue with
    | x :: q => ({ s with queue := q }.putBack j t, x.out)
    | [] =>
      if s.hasSender then
        match t.kind with
        | .future => (s, .pending)
        | .poll => (s.putBack j t, .pending)
      else (s.putBack j t, .ended)
  else
    ({ s with takes := s.takes.set j none }.settle, match t.kind with
      | .future => .failed
      | .poll => .ended)

/-- `eject`. receiver.rs:102-106 -/
def State.eject (s : State α ε) (d : Handle) : State α ε × Out α ε :=
  if s.rx = .cell d.cell then
    ({ s with cells := s.cells + 1, handles := s.handles ++ [some ⟨false, s.cells⟩], rx := .cell s.cells },
      .made s.handles.length)
  else (s, .failed)

/-- One step; `none` when it is not possible. -/
def State.step (s : State α ε) : Ev α ε → Option (State α ε × Out α ε)
  | .send h x => (s.handle h).bind fun d => if d.tx then some (s.send x) else none
  | .clone h => (s.handle h).map fun d =>
      ({ s with handles := s.handles ++ [some d] }, .made s.handles.length)
  | .drop h => (s.handle h).map fun _ => ({ s with handles := s.handles.set h none }.settle, .unit)
  | .recv h => (s.handle h).map fun d => s.take .future d
  | .poll h => (s.handle h).map fun d => s.take .poll d
  | .pollFuture j => (s.takeOf j).bind fun t => if t.kind = .future then some (s.advance j t) else none
  | .finish j => (s.takeOf j).bind fun t => if t.kind = .poll then some (s.advance j t) else none
  | .dropFuture j => (s.takeOf j).bind fun t =>
      if t.kind = .future then
        some (if t.has then ({ s with takes := s.takes.set j none }.lose, .unit)
          else ({ s with takes := s.takes.set j none }.settle, .unit))
      else none
  | .eject h => (s.handle h).map fun d => s.eject d
  | .isClosed h => (s.handle h).bind fun d => if d.tx then some (s, .closed (s.rx == .dropped)) else none

/-- What was done, with what was returned. -/
abbrev Trace (α ε : Type) := List (Ev α ε × Out α ε)

/-- Several steps, with what they returned. -/
def State.run : State α ε → List (Ev α ε) → Option (State α ε × Trace α ε)
  | s, [] => some (s, [])
  | s, e :: es => (s.step e).bind fun r => (r.1.run es).map fun q => (q.1, (e, r.2) :: q.2)

/-! ## Pipes -/

/-- `FluxPipe`: the handle of the source, and the Flux it is piped into. pipe.rs:12-21 -/
structure Pipe (α ε : Type) where
  source : State α ε
  handle : Nat
  target : State α ε
  deriving DecidableEq, Repr

/-- `poll_next` of a pipe polls the source (here both steps of it). pipe.rs:51-53 -/
def Pipe.poll (p : Pipe α ε) : Option (Pipe α ε × Out α ε) :=
  (p.source.run [.poll p.handle, .finish p.source.takes.length]).map fun r =>
    ({ p with source := r.1 }, (r.2.getLast?.map (·.2)).getD .unit)

/-! ## Mono -/

/-- `Mono`: nothing yet, a ready future, or a ready future that has been polled to its end (polling it again
panics). Monos made from other futures are not modelled. flux.rs:35-41 -/
inductive Mono (α ε : Type) where
  | empty
  | ready (r : Except ε α)
  | spent

/-- What a call does: it returns, pending or with a value, or panics. -/
inductive MonoOut (α ε : Type) where
  | unit
  | pending
  | value (r : Except ε α)
  | panic

/-- What can be done with a Mono. -/
inductive MonoEv (α ε : Type) where
  /-- `success` or `error` -/
  | push (r : Except ε α)
  | poll

/-- `success` and `error` (flux.rs:78-87), `poll` (flux.rs:115-123). -/
def Mono.step : Mono α ε → MonoEv α ε → Mono α ε × MonoOut α ε
  | .empty, .push r => (.ready r, .unit)
  | m, .push _ => (m, .panic)
  | .empty, .poll => (.empty, .pending)
  | .ready r, .poll => (.spent, .value r)
  | .spent, .poll => (.spent, .panic)

/-- Several calls, each with what it does. -/
def Mono.run : Mono α ε → List (MonoEv α ε) → Mono α ε × List (MonoEv α ε × MonoOut α ε)
  | m, [] => (m, [])
  | m, e :: es => (((m.step e).1.run es).1, (e, (m.step e).2) :: ((m.step e).1.run es).2)

end Iota.RustRx
