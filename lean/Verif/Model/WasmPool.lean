import Verif.Model.Framing

/-!
# Pooled receive buffers of the WebAssembly host

Model of the life of the `bytes.Buffer`s in `/repo/go/transport/wasmrs/host/instance.go`: `hostSend` takes a buffer
from `buffers` (a `sync.Pool`), `recvLoop` decodes the frame in it and puts it back, and the goroutine of a
request reads the metadata and data of the frame, which are slices of the buffer, when it runs.

A buffer is represented by the array it holds; `Reset` keeps the array, and a write that does not fit gets a new
one. `sync.Pool.Get` may return any buffer put back, or a new one.
-/

namespace Iota.WasmPool
open Go Frames Framing

/-- A buffer on `recvCh`: its array, the number of bytes, and (for reference) what was written. -/
structure Item where
  arr : Nat
  len : Nat
  bytes : Bytes
  deriving DecidableEq, Repr

/-- A goroutine of a request, with the frame as decoded. -/
structure Job where
  item : Item
  frame : Frame
  deriving DecidableEq, Repr

/-- Arrays ever allocated, buffers in the pool, `recvCh`, goroutines yet to run, and the frames acted upon so far,
each with the bytes the guest handed over. -/
structure Pool where
  arrays : List Bytes := []
  pool : List Nat := []
  queue : List Item := []
  jobs : List Job := []
  log : List (Bytes × Frame) := []
  deriving DecidableEq, Repr

/-- The present contents of the array of an item. -/
def Pool.contents (s : Pool) (it : Item) : Bytes := ((s.arrays[it.arr]?).getD []).take it.len

/-- `Write` to a buffer without room: a new array with room for `extra` more bytes. -/
def Pool.fresh (s : Pool) (p : Bytes) (extra : Nat) : Pool :=
  { s with
    arrays := s.arrays ++ [p ++ List.replicate extra 0]
    queue := s.queue ++ [⟨s.arrays.length, p.length, p⟩] }

/-- `Get`, `Reset`, `Write` and the send on `recvCh`. instance.go:238-241. `get` is the choice of the pool. -/
def Pool.push (s : Pool) (p : Bytes) (get : Option Nat) (extra : Nat) : Pool :=
  match get with
  | none => s.fresh p extra
  | some i =>
    match s.pool[i]? with
    | none => s.fresh p extra
    | some a =>
      if p.length ≤ ((s.arrays[a]?).getD []).length then
        { s with
          pool := s.pool.eraseIdx i
          arrays := s.arrays.set a (p ++ ((s.arrays[a]?).getD []).drop p.length)
          queue := s.queue ++ [⟨a, p.length, p⟩] }
      else { s with pool := s.pool.eraseIdx i }.fresh p extra

/-- `recvOne` on a decoded frame: requests are handled by a new goroutine. instance.go:272-340 -/
def Pool.act (s : Pool) (it : Item) : Frame → Pool
  | .request v => { s with jobs := s.jobs ++ [⟨it, .request v⟩] }
  | f => { s with log := s.log ++ [(it.bytes, f)] }

/-- `recvLoop`. instance.go:246-252. A frame that cannot be decoded crashes the process or is ignored. -/
def Pool.recv (s : Pool) : Res Pool :=
  match s.queue with
  | [] => .ok s
  | it :: q =>
    match decodeFrame (s.contents it) with
    | .ok f => .ok { (s.act it f) with queue := q, pool := s.pool ++ [it.arr] }
    | .err _ => .ok { s with queue := q, pool := s.pool ++ [it.arr] }
    | .panic => .panic

/-- The goroutine of a request runs; it sees what is now in the array. instance.go:290, 307, 324, 341 -/
def Pool.job (s : Pool) (i : Nat) : Pool :=
  match s.jobs[i]? with
  | none => s
  | some j => { s with jobs := s.jobs.eraseIdx i, log := s.log ++ [(j.item.bytes, seen j.frame (s.contents j.item))] }

inductive Act where
  | push (p : Bytes) (get : Option Nat) (extra : Nat)
  | recv
  | job (i : Nat)
  deriving DecidableEq, Repr

def Pool.step (s : Pool) : Act → Res Pool
  | .push p g e => .ok (s.push p g e)
  | .recv => s.recv
  | .job i => .ok (s.job i)

def Pool.run : Pool → List Act → Res Pool
  | s, [] => .ok s
  | s, a :: as => (s.step a).bind fun s' => s'.run as

end Iota.WasmPool
