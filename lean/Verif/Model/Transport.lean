import Verif.Model.Unbounded

/-!
# The life of a connection

Model of `Start`, `loopReadBuffer` and `Close` in `/repo/go/transport/rsocket/transport.go`: a goroutine that reads frames
(the reader), one that handles them (the worker), the unbounded buffer between them (`Verif/Model/Unbounded.lean`, with
its mutex), and any number of goroutines that call `Close`.

Simplifications:
* A frame is a value of a type `F`. What `Read` returns is part of the step that takes it: a frame, the end of the
  stream, or an error. `Read` may take any time; a read that is under way when the connection is closed returns
  `io.EOF` (decoder.go:30-35) or an error, which is again up to the step.
* What `HandleFrame` returns is part of the step in which it returns.
* Errors are the fact that there is one.
-/

namespace Iota.Transport
open Iota.Unbounded (Hold)

/-- What a read returns. tcp_conn.go:39-95 -/
inductive ReadRes (F : Type) where
  | frame (f : F)
  | eof
  | err
  deriving DecidableEq, Repr

/-- What `Start` returns: nil, the error of the context, of the worker, of the read. -/
inductive Outcome where
  | nil
  | ctx
  | dispatch
  | read
  deriving DecidableEq, Repr

/-- Where the reader is. transport.go:174-213
* `top`: at the `select`, lines 196-201
* `reading`: in `Read`, line 202
* `put`: about to call `Put`, line 210; `inPut`: in it
* `dispose`: about to call `Dispose` (line 187), with what will be returned; `inDispose`: in it
* `wait`: at line 189
* `close`: in `p.Close()`, line 176
* `returned` -/
inductive Reader (F : Type) where
  | top
  | reading
  | put (f : F)
  | inPut
  | dispose (o : Outcome)
  | inDispose (o : Outcome)
  | wait (o : Outcome)
  | close (o : Outcome)
  | returned (o : Outcome)
  deriving DecidableEq, Repr

/-- Where the worker is. transport.go:153-171
* `recv`: at the `range`, line 158
* `handling`: in `HandleFrame`, line 159
* `offer`: at the `select` of lines 162-165
* `load`: about to call `Load`, line 167; `inLoad`: in it
* `done`: at line 155
* `ended` -/
inductive Worker (F : Type) where
  | recv
  | handling (f : F)
  | offer
  | load
  | inLoad
  | done
  | ended
  deriving DecidableEq, Repr

/-- A connection after `Start` was called: the buffer, the two goroutines, the channels `errChan` and `done` (lines
179-180, each of capacity one), whether the context is cancelled, whether `once` was used and how often the underlying
connection was closed. History: the frames read and the frames handled. -/
structure Conn (F : Type) where
  buf : Unbounded.State F
  reader : Reader F
  worker : Worker F
  errChan : Bool
  doneChan : Bool
  cancelled : Bool
  once : Bool
  closes : Nat
  read : List F
  handled : List F
  deriving DecidableEq, Repr

/-- `Start` up to the loop. transport.go:174-193 -/
def Conn.init (F : Type) : Conn F :=
  ⟨Unbounded.init F, .top, .recv, false, false, false, false, 0, [], []⟩

/-- What can happen next. -/
inductive Ev (F : Type) where
  /-- the context is cancelled -/
  | cancel
  /-- some goroutine calls `Close` -/
  | close
  /-- the reader goes on; when it is in `Read`, with this result -/
  | reader (r : ReadRes F)
  /-- the reader, at the `select` of line 196, takes the error of the worker although the context is cancelled as
  well (`select` chooses any ready case) -/
  | readerErr
  /-- the worker goes on; when it is in `HandleFrame`, with an error or none -/
  | worker (failed : Bool)
  /-- the goroutine that holds the mutex of the buffer does its next step -/
  | mutex
  deriving DecidableEq, Repr

variable {F : Type}

/-- `Close`. transport.go:129-134 -/
def Conn.doClose (c : Conn F) : Conn F :=
  if c.once then c else { c with once := true, closes := c.closes + 1 }

/-- The reader. transport.go:174-213 -/
def Conn.stepReader (c : Conn F) (r : ReadRes F) : Option (Conn F) :=
  match c.reader with
  | .top =>
    if c.cancelled then some { c with reader := .dispose .ctx }
    else if c.errChan then some { c with errChan := false, reader := .dispose .dispatch }
    else some { c with reader := .reading }
  | .reading =>
    match r with
    | .frame f => some { c with reader := .put f, read := c.read ++ [f] }
    | .eof => some { c with reader := .dispose .nil }
    | .err => some { c with reader := .dispose .read }
  | .put f => (Unbounded.step c.buf (.callPut f)).map fun b => { c with buf := b, reader := .inPut }
  | .inPut => none
  | .dispose o => (Unbounded.step c.buf .callDispose).map fun b => { c with buf := b, reader := .inDispose o }
  | .inDispose _ => none
  | .wait o => if c.doneChan then some { c with doneChan := false, reader := .close o } else none
  | .close o => some { c.doClose with reader := .returned o }
  | .returned _ => none

/-- The worker. transport.go:153-171. The `range` ends when the channel is closed and empty. -/
def Conn.stepWorker (c : Conn F) (failed : Bool) : Option (Conn F) :=
  match c.worker with
  | .recv =>
    match c.buf.chan with
    | f :: _ => (Unbounded.step c.buf .recv).map fun b => { c with buf := b, worker := .handling f }
    | [] => if c.buf.closed then some { c with worker := .done } else none
  | .handling f => some { c with handled := c.handled ++ [f], worker := if failed then .offer else .load }
  | .offer => some { c with errChan := true, worker := .load }
  | .load => (Unbounded.step c.buf .ownLoad).map fun b => { c with buf := b, worker := .inLoad }
  | .inLoad => none
  | .done => if c.doneChan then none else some { c with doneChan := true, worker := .ended }
  | .ended => none

/-- The reader when a call on the buffer returns. -/
def back : Reader F → Reader F
  | .inPut => .top
  | .inDispose o => .wait o
  | r => r

/-- The holder of the mutex goes on; with the mutex free again, its goroutine goes on after the call. -/
def Conn.stepMutex (c : Conn F) : Option (Conn F) :=
  match Unbounded.step c.buf .run with
  | none => none
  | some b =>
    match b.hold with
    | .none =>
      match c.buf.hold with
      | .load _ => some { c with buf := b, worker := .recv }
      | .loadSend _ => some { c with buf := b, worker := .recv }
      | .loadClose _ => some { c with buf := b, worker := .recv }
      | _ => some { c with buf := b, reader := back c.reader }
    | _ => some { c with buf := b }

/-- One step; `none` when it is not possible. -/
def Conn.step (c : Conn F) : Ev F → Option (Conn F)
  | .cancel => some { c with cancelled := true }
  | .close => some c.doClose
  | .reader r => c.stepReader r
  | .readerErr =>
    match c.reader with
    | .top => if c.errChan then some { c with errChan := false, reader := .dispose .dispatch } else none
    | _ => none
  | .worker failed => c.stepWorker failed
  | .mutex => c.stepMutex

def Conn.run : Conn F → List (Ev F) → Option (Conn F)
  | c, [] => some c
  | c, e :: es => (c.step e).bind fun c' => c'.run es

end Iota.Transport
