import Verif.Model.RustOperations
import Verif.Model.RustSocket

/-!
# A Rust module and its host

Model of `/repo/rust/crates/wasmrs-guest/src/guest.rs` and `server.rs` (a WebAssembly module written in Rust) and of the
part of `/repo/rust/crates/wasmrs-wasmtime/src` that moves frames across the boundary (`memory.rs`,
`wasmrs_wasmtime.rs`, `engine_provider.rs`, `store.rs`).

Simplifications:
* The memory of the module is a byte string, the two buffers are ranges of it.
* `Vec::resize` gives `GUEST_BUFFER` and `HOST_BUFFER` the size asked for (guest.rs:120-136); the capacity of
  `HOST_BUFFER` is a parameter, at least its size. When a vector moves, the memory it had is not changed here (the allocator may
  use it).
* A handler is a value of a type `H`; running it is recorded. Logging is left out.
-/

namespace Iota.Rust
open Go Iota.Frames

/-! ## Operations of the module -/

/-- The number of an operation type. operations.rs:64-73 -/
def Method.number : Method → UInt8
  | .rr => 1
  | .fnf => 2
  | .rs => 3
  | .rc => 4

/-- The tables of handlers and the operation list. guest.rs:42-46 -/
structure Module (H : Type) where
  handlers : Method → List (Bytes × Bytes × H)
  ops : OpList

def Module.empty {H : Type} : Module H := ⟨fun _ => [], ⟨[], []⟩⟩

/-- `register_handler` and `add_export`. guest.rs:219-225, 282-330 -/
def Module.register {H : Type} (m : Module H) (k : Method) (ns op : Bytes) (h : H) : Module H :=
  { handlers := fun k' => if k' = k then m.handlers k ++ [(ns, op, h)] else m.handlers k'
    ops := addExport m.ops ⟨UInt32.ofNat (m.handlers k).length, k.number, ns, op⟩ }

/-- `add_import`. guest.rs:228-234 -/
def Module.addImport {H : Type} (m : Module H) (o : Op) : Module H := { m with ops := Rust.addImport m.ops o }

/-- What a module does while it starts. -/
inductive Setup (H : Type) where
  | register (k : Method) (ns op : Bytes) (h : H)
  | addImport (o : Op)

def Module.setup {H : Type} (m : Module H) : List (Setup H) → Module H
  | [] => m
  | .register k ns op h :: l => (m.register k ns op h).setup l
  | .addImport o :: l => (m.addImport o).setup l

/-- `get_process_handler`. server.rs:132-141 -/
def Module.handler {H : Type} (m : Module H) (k : Method) (index : UInt32) : Option H :=
  ((m.handlers k)[index.toNat]?).map fun x => x.2.2

/-- What becomes of a request: a handler gets the payload, or an error. -/
inductive Answer (H : Type) where
  | run (h : H) (index : UInt32) (data : Bytes)
  | error (msg : Bytes)
  deriving DecidableEq, Repr

/-- `fire_and_forget`, `request_response`, `request_stream` of `WasmServer` (server.rs:47-87) and the first payload of
`request_channel` (server.rs:94-107). A payload that comes from a frame always has metadata, which may be empty
(frames/mod.rs:278-283, request_payload.rs:119-126); `ParsedPayload::try_from` (guest.rs:103-108) parses it again. -/
def Module.serve {H : Type} (m : Module H) (k : Method) (metadata data : Bytes) : Res (Answer H) := do
  let index ← parseMetadata metadata
  match m.handler k index with
  | none => return .error (lit "No handler found")
  | some h => do
    let index' ← parseMetadata metadata
    return .run h index' data

/-- A later payload of a channel, on its way to the handler. server.rs:120-125 with guest.rs:103-108 -/
def channelElement (metadata data : Bytes) : Res (UInt32 × Bytes) := do
  let index ← parseMetadata metadata
  return (index, data)

/-! ## From the host to the module -/

/-- The loop of `read_frames`. guest.rs:204-209; `todo` is `read_until - position` (0 when the position is past it).
`none`: `Error::BufferRead`. -/
def readLoop : Nat → Nat → Bytes → Option (List Bytes)
  | 0, _, _ => none
  | _ + 1, 0, _ => some []
  | fuel + 1, todo + 1, buf =>
    match readFrame buf with
    | none => none
    | some x => (readLoop fuel (todo + 1 - (buf.length - x.2.length)) x.2).map fun l => x.1 :: l

/-- `read_frames`. guest.rs:198-212. Each round takes at least three bytes. -/
def readFrames (buf : Bytes) (readUntil : Nat) : Option (List Bytes) := readLoop (buf.length + 1) readUntil buf

/-- What the module does with frames: it hands them to its socket, or sends an error for stream 0. guest.rs:174-184.
The answers of `send_error_frame` (guest.rs:214-217) are collected apart from those of the socket. -/
def takeFrames : List Bytes → Sock × List Frame → Res (Sock × List Frame)
  | [], s => .ok s
  | b :: bs, s =>
    match decode b with
    | .ok f => do
      let s' ← s.1.processOnce f
      takeFrames bs (s', s.2)
    | .err _ => takeFrames bs (s.1, s.2 ++ [.error ⟨0, 0, lit "Could not decode frame data"⟩])
    | .panic => .panic

/-- `send_frame`. guest.rs:163-188, up to `exhaust_pool`, which runs the tasks (`Sock.runTask`). -/
def sendFrame (buf : Bytes) (readUntil : Nat) (s : Sock × List Frame) : Res (Sock × List Frame) :=
  match readFrames buf readUntil with
  | none => .ok (s.1, s.2 ++ [.error ⟨0, 0, lit "Could not read local buffer"⟩])
  | some l => takeFrames l s

/-- The size the Rust host believes the buffer of the module to have. wasmrs/src/socket/buffer.rs:12 (`update_size` is
never called). -/
def assumedSize : Nat := 4092

/-- The size it asks the module to give its buffers. engine_provider.rs:171-173 -/
def requestedSize : Nat := 1024

/-- `write_frame` of the Rust host, up to the call of the module: the memory afterwards and the argument.
engine_provider.rs:115-127, memory.rs:33-52. `start` is where the buffer of the module begins. -/
def hostWrite (mem : Bytes) (start : Nat) (f : Frame) : Res (Bytes × Nat) :=
  if (toU24 (UInt32.ofNat (encode f).length) ++ encode f).length ≤ assumedSize then
    .ok (mem.take start ++ (toU24 (UInt32.ofNat (encode f).length) ++ encode f) ++
      mem.drop (start + (toU24 (UInt32.ofNat (encode f).length) ++ encode f).length),
      (toU24 (UInt32.ofNat (encode f).length) ++ encode f).length)
  else .panic

/-! ## From the module to the host -/

/-- `send_host_frame` with one frame, up to the call of the host: the memory from the start of `HOST_BUFFER` afterwards,
and the argument. guest.rs:236-254. `cap` is the capacity of the vector; a write beyond it moves the vector. -/
def sendHostFrame (mem : Bytes) (cap : Nat) (payload : Bytes) : Bytes × Nat :=
  if payload.length > cap then (mem, 0)
  else if 3 + payload.length > cap then (mem, 3 + payload.length)
  else (toU24 (UInt32.ofNat payload.length) ++ payload ++ mem.drop (3 + payload.length), 3 + payload.length)

/-- The Rust host when the module calls `__wasmrs_send`: the bytes of the frame, or an error, which makes the call trap.
wasmrs_wasmtime.rs:55-62, memory.rs:21-31. Only one frame is read. -/
def hostRead (mem : Bytes) (readUntil : Nat) : Option Bytes := (readFrame (mem.take readUntil)).map (·.1)

/-- `do_host_send`. store.rs:29-40. The frames sent by the host in answer to unreadable ones are collected apart. -/
def hostTake (b : Bytes) (s : Sock × List Frame) : Res (Sock × List Frame) :=
  match decode b with
  | .ok f => do
    let s' ← s.1.processOnce f
    return (s', s.2)
  | .err e => .ok (s.1, s.2 ++ [.error ⟨streamId b, 0, lit e⟩])
  | .panic => .panic

end Iota.Rust
