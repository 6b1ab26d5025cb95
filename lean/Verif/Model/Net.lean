import Verif.Model.Peers
import Verif.Model.Framing

/-!
# Two peers and the bytes between them

The peers of `Verif/Model/Peers.lean`, connected not by queues of frames but by what `/repo/go/transport/rsocket` puts
between them: the buffered writer of the sender, the network, the scanner of the receiver
(`Verif/Model/Framing.lean`) and the unbounded buffer of frames that were read and not yet handled.

Simplifications:
* `Transport.Send` (transport.go:96-116) is one step: it is not interrupted by another `Send` on the same connection.
  Nothing in the code ensures this, see `concurrent_sends_refuted` in `Verif/Props/Framing.lean`.
* A frame keeps the contents it had when it was read. In the code its data and metadata are slices of the scanner's
  buffer, see `late_frame_corrupt_refuted` in the same file.
* A `Read` is one step, taken when the bytes of a whole frame have arrived. In the code it starts earlier and waits; how
  the bytes were cut does not matter (`chunking_irrelevant`).
* The unbounded buffer is a queue (`Verif/Model/Unbounded.lean` models it with its channel).
* The network delivers all bytes in order, in pieces of any size. The connection does not end. A call of `Read` that
  reports an error, or a frame that can not be encoded (the process crashes), is not a step.
-/

namespace Iota.Net
open Iota.Go Iota.Frames Iota.Peers Iota.Framing
open Iota.StreamId (Side)

/-- One direction of a connection: the writer of the sender, how many of the bytes that left it the network has handed
over, the scanner of the receiver, and the frames the receiver has read and not handled. tcp_conn.go:137-143,
transport.go:182-184 -/
structure Link where
  writer : Writer
  carried : Nat
  scanner : Scanner
  queue : List Frame

/-- A new connection. tcp_conn.go:137-143 -/
def Link.init : Link := ⟨⟨[], []⟩, 0, newDecoder ⟨[], [], false, .eof⟩, []⟩

/-- The bytes under way in the network. -/
def Link.underway (l : Link) : Bytes := l.writer.sent.drop l.carried

/-- `Send(f, true)` for some frames, one after the other; `none` if the process crashes. transport.go:96-116 with
tcp_transport.go:95-97 and init.go:33-35 -/
def Link.send (l : Link) (fs : List Frame) : Option Link :=
  match runOps l.writer (fs.flatMap fun f => sendOps f true) with
  | .ok w => some { l with writer := w }
  | _ => none

/-- The network hands over the next bytes. -/
def Link.carry (l : Link) (n : Nat) : Option Link :=
  if 0 < n ∧ n ≤ l.underway.length then
    some { l with
      carried := l.carried + n
      scanner := { l.scanner with rd := { l.scanner.rd with rem := l.scanner.rd.rem ++ l.underway.take n } } }
  else none

/-- The scanner before a `Read`; `evs` are the reads of the connection it needs. -/
def Link.about (l : Link) (evs : List Framing.Ev) : Scanner :=
  { l.scanner with rd := { l.scanner.rd with evs := evs } }

/-- `Read` returns a frame, which is put into the buffer. A connection that returns no bytes and no error a hundred times
is given up (bufio), which is not a step. transport.go:202-210 -/
def Link.read (l : Link) (evs : List Framing.Ev) : Option Link :=
  if evs.all fun e => decide (e.stalls ≤ maxEmptyReads) then
    match readFrame (l.about evs) with
    | (.ok (f, _), sc) => some { l with scanner := sc, queue := l.queue ++ [f] }
    | _ => none
  else none

/-- Both peers; `link s` leads from `s` to the other. -/
structure Net where
  peer : Side → Peer
  link : Side → Link

/-- A new connection. -/
def Net.init : Net := ⟨fun _ => Peer.init, fun _ => Link.init⟩

/-- Replace a direction. -/
def Net.set (n : Net) (s : Side) (l : Link) : Net := { n with link := fun t => if t = s then l else n.link t }

/-- The peers on their own: what they do next does not depend on what is under way. -/
def Net.alone (n : Net) : Sys := ⟨n.peer, fun _ => []⟩

/-- What can happen next. -/
inductive Act where
  /-- a peer does something, except handling a frame -/
  | peer (a : Peers.Act)
  /-- the network carries some bytes sent by `s` -/
  | carry (s : Side) (n : Nat)
  /-- the other peer of `s` reads a frame sent by `s` -/
  | read (s : Side) (evs : List Framing.Ev)
  /-- `s` handles a frame it has read -/
  | handle (s : Side)

/-- Is it the handling of a frame? -/
def isRecv : Peers.Act → Bool
  | .recv _ => true
  | _ => false

/-- The frames a peer sends in a step. -/
def Net.sends (n : Net) (a : Act) (s : Side) : List Frame :=
  match a with
  | .peer b =>
    match n.alone.step b with
    | some y => y.wire s
    | none => []
  | _ => []

/-- The worker handles the next frame. transport.go:158-159 -/
def Net.handle (n : Net) (s : Side) : Option Net :=
  match (n.link (other s)).queue with
  | [] => none
  | f :: fs => ((n.peer s).recv f).map fun p =>
      { (n.set (other s) { n.link (other s) with queue := fs }) with
        peer := fun t => if t = s then p else n.peer t }

/-- A peer does something and sends the frames this leads to. -/
def Net.act (n : Net) (a : Peers.Act) : Option Net :=
  match n.alone.step a with
  | none => none
  | some y =>
    match (n.link .client).send (y.wire .client), (n.link .server).send (y.wire .server) with
    | some c, some v => some ⟨y.peer, fun t => if t = .client then c else v⟩
    | _, _ => none

/-- One step; `none` if it is not possible, or crashes a process. -/
def Net.step (n : Net) : Act → Option Net
  | .peer a => if isRecv a then none else n.act a
  | .carry s k => ((n.link s).carry k).map (n.set s)
  | .read s evs => ((n.link s).read evs).map (n.set s)
  | .handle s => n.handle s

/-- What a step is, seen by the peers. -/
def seenAs : Act → Option Peers.Act
  | .peer a => some a
  | .handle s => some (.recv s)
  | _ => none

end Iota.Net
