import Verif.Model.Handler

/-!
# Where the frames of a handler go

Model of `SetFrameSender` in `/repo/go/handler/handler.go`, of its use in `NewTransport`
(`/repo/go/transport/rsocket/transport.go`), in `NewClient` (`init.go` beside it) and in `Listen` (`tcp_transport.go`), around
the model of the handler in `Verif/Model/Handler.lean`. Writing to a connection never fails here; the errors of the frame sender
are ignored by the handler anyway.
-/

namespace Iota.FrameSender
open Go Iota.Frames Iota.Registry Iota.Handler

/-- The field `sendFrame`: nil, `HandleFrame` of the handler itself, or `Send` of the transport of a connection. handler.go:23 -/
inductive Target where
  | unset
  | self
  | conn (i : Nat)
  deriving DecidableEq, Repr

/-- What is noted for the theorems: the field is set; the handler calls the function in it. -/
inductive Note where
  | set (t : Target)
  | sent (f : Frame)

/-- A handler, the frames written to the connections, and the notes. -/
structure End (H : Type) where
  c : Conn H
  target : Target
  wire : Nat → List Frame
  notes : List Note

/-- `handler.New`. handler.go:58-69 -/
def End.init {H : Type} : End H := ⟨Conn.init, .unset, fun _ => [], []⟩

/-- `SetFrameSender`. handler.go:71-73 -/
def setSender {H : Type} (e : End H) (t : Target) : End H := { e with target := t, notes := e.notes ++ [.set t] }

/-- The handler calls itself: `i.sendFrame(f)` when the field is `HandleFrame`. The error is ignored. handler.go:107-230 -/
def loop {H : Type} (e : End H) (f : Frame) : Res (End H) :=
  match handleFrame e.c.st f with
  | .ok o => .ok { e with c := e.c.after o }
  | .err _ => .ok e
  | .panic => .panic

/-- The call of the function in the field. Calling nil panics. transport.go:96-116 for a connection. -/
def call {H : Type} (e : End H) (f : Frame) : Res (End H) :=
  match e.target with
  | .unset => .panic
  | .self => loop e f
  | .conn i => .ok { e with wire := fun j => if j = i then e.wire j ++ [f] else e.wire j }

/-- `i.sendFrame(f)` and `i.SendFrame(f)`. handler.go:103-105 -/
def send {H : Type} (e : End H) (f : Frame) : Res (End H) := call { e with notes := e.notes ++ [.sent f] } f

/-- Some frames, one after the other. -/
def sendAll {H : Type} (e : End H) : List Frame → Res (End H)
  | [] => .ok e
  | f :: fs => do
    let e ← send e f
    sendAll e fs

/-- The frame that an event says is sent. -/
def frameOf {H : Type} : Ev H → Option Frame
  | .sent f => some f
  | _ => none

/-- What can happen next. -/
inductive Act where
  /-- `NewTransport` and `NewTCPClientTransport` are given the handler. transport.go:59-67, tcp_transport.go:160-162 -/
  | newTransport
  /-- `h.SetFrameSender` with the `Send` of a transport. init.go:33-35, tcp_transport.go:95-97 -/
  | attach (i : Nat)
  /-- a step of the handler; it may send frames -/
  | inside (a : Handler.Act)
  /-- a proxy, a handler or a subscriber makes the handler send a frame. caller.go:33-73, proxy/mono.go:66-72, handler.go:250-266, 312-332, 359-396 -/
  | send (f : Frame)

/-- One step. -/
def step {H : Type} (reg : Reg H) (e : End H) : Act → Res (End H)
  | .newTransport => .ok (setSender e .self)
  | .attach i => .ok (setSender e (.conn i))
  | .inside a => do
    let c ← e.c.step reg a
    sendAll { e with c := c } ((c.log.drop e.c.log.length).filterMap frameOf)
  | .send f => send e f

/-- A run. -/
def run {H : Type} (reg : Reg H) (e : End H) : List Act → Res (End H)
  | [] => .ok e
  | a :: as => do
    let e ← step reg e a
    run reg e as

/-- What `NewClient` (init.go:23-38) and `Listen` for a connection it accepted (tcp_transport.go:93-97) do with the handler. -/
def wired (i : Nat) : List Act := [.newTransport, .attach i]

end Iota.FrameSender
