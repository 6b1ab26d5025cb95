import Verif.Model.Peers
import Verif.Spec.Handler

/-!
# Specification: two peers that make simple calls

Which runs of two peers are considered, and where a request and its answer are. Only lists are counted
here; nothing is said about streams and tables.
-/

namespace Iota.Spec.Polite
open Iota.Go Iota.Frames Iota.Registry Iota.Handler Iota.Peers Iota.Spec.Handler
open Iota.StreamId (Side)

/-- The metadata of a fire-and-forget request names an operation the registry has. -/
def Known (reg : Reg Unit) (metadata : Bytes) : Prop :=
  ∃ i, opIndex metadata = some i ∧ i < (reg.handlers .fnf).length

/-- Simple calls: request-response, and fire-and-forget of operations the other peer has; the result of a
call is subscribed to at most once; each peer has its handlers. -/
def Allowed (regs : Side → Reg Unit) (subs : Side → List Nat) : Peers.Act → Prop
  | .call s k _ m => k = .rr ∨ (k = .fnf ∧ Known (regs (other s)) m)
  | .subscribe s j => j ∉ subs s
  | .run s reg _ _ => reg = regs s
  | _ => True

/-- The calls whose result was subscribed to. -/
def note (subs : Side → List Nat) : Peers.Act → Side → List Nat
  | .subscribe s j => fun t => if t = s then subs t ++ [j] else subs t
  | _ => subs

/-- Runs of two peers that make simple calls. -/
inductive Polite (regs : Side → Reg Unit) : (Side → List Nat) → Sys → Prop
  | init : Polite regs (fun _ => []) Sys.init
  | step {subs : Side → List Nat} {y y' : Sys} (a : Peers.Act) : Polite regs subs y → Allowed regs subs a →
      y.step a = some y' → Polite regs (note subs a) y'

/-- How many requests under an id are on a wire. -/
def requests (id : UInt32) (w : List Frame) : Nat := w.countP fun f => isRequest f && f.streamID == id

/-- How many other frames under an id are on a wire. -/
def answers (id : UInt32) (w : List Frame) : Nat := w.countP fun f => !isRequest f && f.streamID == id

/-- Is it the goroutine of a request with this id? -/
def isTask (id : UInt32) : Task → Bool
  | .request _ i _ _ _ => i == id
  | _ => false

/-- How many requests under an id wait to be handled. -/
def queued (id : UInt32) (ts : List Task) : Nat := ts.countP (isTask id)

/-- How many handlers were started for an id and have not answered. -/
def handlers (id : UInt32) (js : List Job) : Nat := js.countP fun j => j.id == id

/-- Is it the delivery of a result to this stream? -/
def isResult (obj : Nat) : Rec → Bool
  | .delivered i _ => i == obj
  | _ => false

/-- How many results a stream was given. -/
def results (obj : Nat) (log : List Rec) : Nat := log.countP (isResult obj)

/-- A step that goes on with the calls that were made: a frame is read, a goroutine runs, a handler answers. -/
def Goes (regs : Side → Reg Unit) : Peers.Act → Prop
  | .recv _ => True
  | .run s reg _ _ => reg = regs s
  | .answer _ _ _ => True
  | _ => False

/-- A call is done with: a request-response call that was subscribed to was told exactly one result, which the
other peer produced for what was asked; the handler of a fire-and-forget call was started exactly once. -/
def Done (subs : Side → List Nat) (y : Sys) (s : Side) (j : Nat) (c : Peers.Call) : Prop :=
  j ∈ subs s →
    (c.kind = .rr → results c.obj (y.peer s).log = 1 ∧ ∃ r, .delivered c.obj r ∈ (y.peer s).log ∧
      .produced c.frame.streamID c.frame.data c.frame.metadata r ∈ (y.peer (other s)).log) ∧
    (c.kind = .fnf → handlers c.frame.streamID (y.peer (other s)).jobs = 1)

end Iota.Spec.Polite
