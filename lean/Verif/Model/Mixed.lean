import Verif.Model.WasmCalls
import Verif.Model.RustSocket

/-!
# An instance with an end in Go and an end in Rust

The Go end is the host (`/repo/go/transport/wasmrs/host`) with a guest written in Rust, or the guest
(`/repo/go/transport/wasmrs/guest`) in a host written in Rust: `e` tells which. Its dispatcher and its callers are those of
`Verif/Model/WasmDispatch.lean` and `Verif/Model/WasmCalls.lean`; the Rust end is the `WasmSocket` of
`Verif/Model/RustSocket.lean`. Frames go over as bytes: each end encodes with its own codec, and the other end decodes with
its own (`Verif/Model/Frames.lean`, `Verif/Model/RustFrames.lean`).

Simplifications, beyond those of the four models:
* One encoded frame after the other arrives, in the order they were sent. How they are packed into the buffers of the guest
  is C90, C91 and C125.
* A step that crashes a process is not a step.
* What the Rust end answers to bytes that it cannot decode goes over on its own, in any order with respect to what its socket
  sends (a Rust guest sends it at once, `/repo/rust/crates/wasmrs-guest/src/guest.rs:179-182`).
-/

namespace Iota.Mixed
open Go Iota.Frames Iota.Registry Iota.Handler Iota.WasmDispatch Iota.WasmCalls Iota.Rust
open Iota.Peers (Result requestFrame isRequest)

/-- What the Go end puts on the wire for a frame: what `Encode` writes into the first `Size()` bytes of a buffer.
`/repo/go/transport/wasmrs/host/instance.go:166-193`, `/repo/go/transport/wasmrs/guest/guest.go:562-569` -/
def goBytes (f : Frame) : Bytes :=
  match f.encode (List.replicate f.size 0) with
  | .ok w => w
  | _ => []

/-- Both ends. `sent` are the frames the Go end has sent, of which the Rust end has taken `rustRead`; of those the Rust end
has sent (`rust.out`), the Go end has taken `goRead`; of those it sent because it could not decode something (`refused`), the Go
end has taken `refusedRead`. -/
structure Mixed (H : Type) where
  go : Node H
  sent : List Frame
  rust : Sock
  goRead : Nat
  rustRead : Nat
  refused : List Frame
  refusedRead : Nat

/-- A new instance. The Rust end is the guest when the Go end is the host.
`/repo/rust/crates/wasmrs-guest/src/guest.rs:48`, `/repo/rust/crates/wasmrs-host/src/host.rs:35` -/
def Mixed.init {H : Type} (e : End) : Mixed H := ⟨Node.init, [], Sock.init (decide (e = .host)), 0, 0, [], 0⟩

/-- What local code at the Go end can do, as in `WasmCalls.Act`. -/
inductive GoAct where
  | call (k : Kind) (data metadata : Bytes) (ctx : Ctx)
  | subscribe (j : Nat)
  | start (j : Nat) (n : UInt32)
  | own (j : Nat) (f : Frame)
  | task (i : Nat) (live : Bool)
  | startIn (i : Nat) (live : Bool)
  | openSink (i : Nat)
  | answer (i : Nat) (r : Result)
  | emit (i : Nat) (f : Frame)

/-- The dispatcher of the Go end does something, and may send frames. -/
def goDoes {H : Type} (e : End) (hs : Handlers H) (n : Node H) (a : WasmDispatch.Act) : Option (Node H × List Frame) :=
  match n.peer.step e hs a with
  | some (.ok p) => some (n.absorb p, (n.news p).filterMap sentOf)
  | _ => none

/-- A step of local code at the Go end, with the frames sent; see `WasmCalls.Sys.step`.
`/repo/go/transport/wasmrs/host/caller.go:31-76`, `/repo/go/transport/wasmrs/guest/caller.go:37-83` -/
def goStep {H : Type} (e : End) (hs : Handlers H) (n : Node H) : GoAct → Option (Node H × List Frame)
  | .call k d m ctx => n.call e k d m ctx
  | .subscribe j => n.subscribe e hs j
  | .start j x => n.calls[j]?.bind fun c =>
      if many c.kind then
        some (n, [.request { requestFrame c.kind c.id c.data c.metadata with initialN := x, complete := c.kind = .rs }])
      else none
  | .own j f => n.calls[j]?.bind fun c =>
      if many c.kind ∧ f.streamID = c.id ∧ isRequest f = false then some (n, [f]) else none
  | .task i live => goDoes e hs n (.task i live)
  | .startIn i live => goDoes e hs n (.startIn i live)
  | .openSink i => goDoes e hs n (.openSink i)
  | .answer i r => n.answer i r
  | .emit i f => n.jobs[i]?.bind fun j =>
      if many j.kind ∧ f.streamID = j.id ∧ isRequest f = false then some (n, [f]) else none

/-- Does a frame arrive? -/
def isRecv : SockAct → Bool
  | .recv _ => true
  | _ => false

/-- What can happen next: something at an end, or an end takes the next frame. -/
inductive Act where
  | go (a : GoAct)
  | rust (a : SockAct)
  | toGo
  | toRust
  | toGoRefused

/-- What happens at the Rust end, in the words of its socket, if anything does. socket.rs:122-168 -/
def Mixed.rustSees {H : Type} (m : Mixed H) : Act → Option SockAct
  | .rust a => if isRecv a then none else some a
  | .toRust =>
    match m.sent[m.rustRead]? with
    | none => none
    | some f =>
      match Rust.decode (goBytes f) with
      | .ok g => some (.recv g)
      | _ => none
  | _ => none

/-- What the Rust end answers to bytes that it cannot decode: a guest, an error for stream 0; a host, an error for the stream
of the frame. `/repo/rust/crates/wasmrs-guest/src/guest.rs:179-182`, `/repo/rust/crates/wasmrs-wasmtime/src/store.rs:35-38` -/
def complaint (e : End) (b : Bytes) (msg : String) : Frame :=
  match e with
  | .host => .error ⟨0, 0, Rust.lit "Could not decode frame data"⟩
  | .guest => .error ⟨streamId b, 0, Rust.lit msg⟩

/-- The Rust end takes the next frame and cannot decode it; its answer.
`/repo/rust/crates/wasmrs-guest/src/guest.rs:175-183`, `/repo/rust/crates/wasmrs-wasmtime/src/store.rs:29-40` -/
def Mixed.refuses {H : Type} (e : End) (m : Mixed H) : Act → Option Frame
  | .toRust =>
    match m.sent[m.rustRead]? with
    | none => none
    | some f =>
      match Rust.decode (goBytes f) with
      | .err x => some (complaint e (goBytes f) x)
      | _ => none
  | _ => none

/-- What happens at the Go end, with the frames sent. -/
def Mixed.goSees {H : Type} (e : End) (hs : Handlers H) (m : Mixed H) : Act → Option (Node H × List Frame)
  | .go a => goStep e hs m.go a
  | .toGo =>
    match m.rust.out[m.goRead]? with
    | none => none
    | some f => goDoes e hs m.go (.recv (Rust.encode f))
  | .toGoRefused =>
    match m.refused[m.refusedRead]? with
    | none => none
    | some f => goDoes e hs m.go (.recv (Rust.encode f))
  | _ => none

/-- Is it this? -/
def isToGo : Act → Bool
  | .toGo => true
  | _ => false

/-- Is it this? -/
def isToGoRefused : Act → Bool
  | .toGoRefused => true
  | _ => false

/-- One step; `none` if it is not possible or crashes a process. -/
def Mixed.step {H : Type} (e : End) (hs : Handlers H) (m : Mixed H) (a : Act) : Option (Mixed H) :=
  match m.rustSees a with
  | some b =>
    match m.rust.step b with
    | some (.ok s) => some { m with rust := s, rustRead := if isRecv b then m.rustRead + 1 else m.rustRead }
    | _ => none
  | none =>
    match m.refuses e a with
    | some r => some { m with rustRead := m.rustRead + 1, refused := m.refused ++ [r] }
    | none =>
      match m.goSees e hs a with
      | some (n, out) =>
        some { m with go := n, sent := m.sent ++ out, goRead := if isToGo a then m.goRead + 1 else m.goRead, refusedRead := if isToGoRefused a then m.refusedRead + 1 else m.refusedRead }
      | none => none

end Iota.Mixed
