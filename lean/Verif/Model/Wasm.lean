import Verif.Model.Frames

/-!
# Frames between a WebAssembly host and its guest

Model of `/repo/go/transport/wasmrs/host/instance.go` and `/repo/go/transport/wasmrs/guest/guest.go`: the two
shared buffers, the host's queues and its two loops.

Simplifications:
* The guest's memory is modelled as far as the two buffers go: `Memory().Read(sendPtr, sendSize)` gives a view
  of the send buffer, so writing to it writes to the guest's `guestBuffer` (guest.go:52), which has `sendSize`
  bytes (guest.go:48 with instance.go:85); nothing else writes to it. Reading it again after the memory grew
  (instance.go:166-171, 180-182) gives the same buffer.
* A guest call that traps ends with an error, which the host ignores (instance.go:178, 204).
* What the guest's handlers and the host's stream handlers send is a parameter (`Env`).
-/

namespace Iota.Wasm
open Go Frames

/-! ## The send buffer -/

/-- `sendSize`. instance.go:81 -/
def sendSize : Nat := 16 * 1024

/-- Capacity of both queues. instance.go:74-75 -/
def queueCap : Nat := 100

/-- `pos+3+byteCount >= i.sendSize` on `uint32`. instance.go:177 -/
def full (pos : Nat) (f : Frame) : Bool := u32len (pos + 3 + f.size) ≥ sendSize

/-- Length and frame are written at `pos`. instance.go:186-188. `copy` truncates, the slice expressions panic. -/
def encodeAt (mem : Bytes) (pos : Nat) (f : Frame) : Res Bytes := do
  let tail ← sliceFrom mem pos
  let tail := ((Cur.start tail).copy ((beBytes 4 f.size).drop 1)).buf
  let rest ← sliceFrom tail 3
  let enc ← f.encode rest
  return mem.take pos ++ (tail.take 3 ++ enc)

/-- The loop of `GuestSend`: the frames cut out of the buffer and whether the loop ended without a trap.
guest.go:106-122; `todo` is `endPos - curPos` (0 when `curPos` went past). A frame shorter than a header traps
(guest.go:121) before anything is done with it; decoding and acting on the frame is not part of this function. -/
def guestLoop : Nat → Nat → Bytes → List Bytes × Bool
  | 0, _, _ => ([], false)
  | _ + 1, 0, _ => ([], true)
  | fuel + 1, todo + 1, buf =>
    if buf.length < 3 then ([], false)
    else if buf.length < 3 + beNat (buf.take 3) then ([], false)
    else if beNat (buf.take 3) < headerLen then ([], false)
    else
      (((buf.drop 3).take (beNat (buf.take 3))) ::
          (guestLoop fuel (todo + 1 - (3 + beNat (buf.take 3))) (buf.drop (3 + beNat (buf.take 3)))).1,
        (guestLoop fuel (todo + 1 - (3 + beNat (buf.take 3))) (buf.drop (3 + beNat (buf.take 3)))).2)

/-- `GuestSend`. guest.go:106-295. Each round of the loop takes at least three bytes of the buffer. -/
def guestSend (mem : Bytes) (endPos : Nat) : List Bytes × Bool := guestLoop (mem.length + 1) endPos mem

/-! ## The two loops of the host -/

/-- What runs on top: `guest` gives the buffers the guest hands to the host (each is one element of `recvCh`)
during its latest call, from what it was sent in all calls so far; `react` the frames `recvOne` sends itself
(not from a new goroutine) for the latest buffer, from all buffers handled so far. -/
structure Env where
  guest : List (List Bytes × Bool) → List Bytes
  react : List Bytes → List Frame

/-- Where `sendLoop` is. instance.go:159-212 -/
inductive Sender where
  /-- at `range i.sendCh` -/
  | range
  /-- at the `select` -/
  | sel
  /-- in `write` -/
  | write (f : Frame)
  /-- in `sendFn.Call`, the guest has yet to send `outs`; then the frame is written, or the `select` is left -/
  | call (outs : List Bytes) (next : Option Frame)
  | done
  deriving DecidableEq, Repr

/-- Where `recvLoop` is. instance.go:246-252 -/
inductive Receiver where
  | range
  /-- in `recvOne`, with these frames yet to be sent -/
  | handle (fs : List Frame)
  | done
  deriving DecidableEq, Repr

/-- The instance: its two channels, the send buffer, the loops; and what the guest was sent, what `recvLoop`
handled and what was put on the send queue so far. -/
structure Host where
  sendQ : List Frame := []
  recvQ : List Bytes := []
  closed : Bool := false
  mem : Bytes := List.replicate sendSize 0
  pos : Nat := 0
  sender : Sender := .range
  receiver : Receiver := .range
  batches : List (List Bytes × Bool) := []
  handled : List Bytes := []
  sent : List Frame := []

/-- `NewInstance`. instance.go:64-102 -/
def Host.init : Host := {}

/-- `sendFn.Call(ctx, pos)`: the guest runs. instance.go:178, 204 -/
def Host.callGuest (env : Env) (h : Host) (next : Option Frame) : Host :=
  { h with
    batches := h.batches ++ [guestSend h.mem h.pos]
    sender := .call (env.guest (h.batches ++ [guestSend h.mem h.pos])) next }

/-- The end of `write`. instance.go:186-191 -/
def Host.put (h : Host) (f : Frame) : Res Host :=
  (encodeAt h.mem h.pos f).bind fun mem =>
    .ok { h with mem := mem, pos := u32len (h.pos + 3 + f.size), sender := .sel }

/-- `SendFrame`, as far as it can go on now. instance.go:135-149. A send on a closed channel panics. -/
def Host.sendFrame (h : Host) (f : Frame) : Option (Res Host) :=
  if h.closed then some .panic
  else if h.sendQ.length < queueCap then some (.ok { h with sendQ := h.sendQ ++ [f], sent := h.sent ++ [f] })
  else none

/-- One step of `sendLoop`; `none` when it has to wait. instance.go:159-212. The receive in the `select` gives
`nil` when the channel is closed and empty, and `write` calls a method of it. -/
def Host.sendStep (env : Env) (h : Host) : Option (Res Host) :=
  match h.sender with
  | .range =>
    match h.sendQ with
    | f :: q => some (.ok { h with sendQ := q, sender := .write f })
    | [] => if h.closed then some (.ok { h with sender := .done }) else none
  | .sel =>
    match h.sendQ with
    | f :: q => some (.ok { h with sendQ := q, sender := .write f })
    | [] =>
      if h.closed then some .panic
      else if h.pos > 0 then some (.ok (h.callGuest env none))
      else some (.ok { h with sender := .range })
  | .write f => if full h.pos f then some (.ok (h.callGuest env (some f))) else some (h.put f)
  | .call (o :: outs) next =>
    if h.closed then some .panic
    else if h.recvQ.length < queueCap then
      some (.ok { h with recvQ := h.recvQ ++ [o], sender := .call outs next })
    else none
  | .call [] (some f) => some (({ h with pos := 0 } : Host).put f)
  | .call [] none => some (.ok { h with pos := 0, sender := .range })
  | .done => none

/-- One step of `recvLoop`. instance.go:246-252 -/
def Host.recvStep (env : Env) (h : Host) : Option (Res Host) :=
  match h.receiver with
  | .range =>
    match h.recvQ with
    | o :: q =>
      some (.ok { h with recvQ := q, handled := h.handled ++ [o], receiver := .handle (env.react (h.handled ++ [o])) })
    | [] => if h.closed then some (.ok { h with receiver := .done }) else none
  | .handle (f :: fs) => (h.sendFrame f).map fun r => r.bind fun h => .ok { h with receiver := .handle fs }
  | .handle [] => some (.ok { h with receiver := .range })
  | .done => none

/-- What can happen: a goroutine sends a frame, the instance is closed, a loop goes on. -/
inductive Act where
  | send (f : Frame)
  | close
  | sender
  | receiver
  deriving DecidableEq, Repr

/-- `Close`. instance.go:104-108. Closing a closed channel panics. -/
def Host.close (h : Host) : Res Host := if h.closed then .panic else .ok { h with closed := true }

def Host.step (env : Env) (h : Host) : Act → Option (Res Host)
  | .send f => h.sendFrame f
  | .close => some h.close
  | .sender => h.sendStep env
  | .receiver => h.recvStep env

/-- A schedule; `none` if it contains a step that has to wait. -/
def Host.run (env : Env) : Host → List Act → Option (Res Host)
  | h, [] => some (.ok h)
  | h, a :: as =>
    match h.step env a with
    | none => none
    | some (.ok h') => h'.run env as
    | some (.err e) => some (.err e)
    | some .panic => some .panic

/-! ## The receive buffer -/

/-- `doSendFrame`: the host buffer afterwards and the argument of `hostSend`. guest.go:562-569 -/
def doSendFrame (hostBuffer : Bytes) (f : Frame) : Res (Bytes × Nat) := do
  let head ← sliceTo hostBuffer 3
  let rest ← sliceFrom hostBuffer 3
  let enc ← f.encode rest
  return (((Cur.start head).copy ((beBytes 4 f.size).drop 1)).buf ++ enc, u32len (f.size + 3))

/-- The loop of `hostSend`: the contents of the buffers put on `recvCh`, and whether it ended without a panic.
instance.go:233-243. `buf.Write(buffer)` writes all that is left, not only the frame. -/
def hostLoop : Nat → Bytes → List Bytes × Bool
  | 0, _ => ([], false)
  | fuel + 1, buffer =>
    if buffer.length = 0 then ([], true)
    else if buffer.length < 3 then ([], false)
    else if (buffer.drop 3).length < beNat (buffer.take 3) then ([buffer.drop 3], false)
    else
      (buffer.drop 3 :: (hostLoop fuel ((buffer.drop 3).drop (beNat (buffer.take 3)))).1,
        (hostLoop fuel ((buffer.drop 3).drop (beNat (buffer.take 3)))).2)

/-- `hostSend`. instance.go:230-244; `mem` is the guest's memory from `recvPtr`. -/
def hostSend (mem : Bytes) (recvPos : Nat) : List Bytes × Bool := hostLoop (mem.length + 1) (mem.take recvPos)

end Iota.Wasm
