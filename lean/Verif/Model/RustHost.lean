import Verif.Model.RustGuest
import Verif.Model.RustSocket
import Verif.Model.RustOperations

/-!
# The Rust host

Model of `/repo/rust/crates/wasmrs-host/src/host.rs` and `context.rs`, and of `engine_provider.rs`, `store.rs`,
`wasmrs_wasmtime.rs` and `memory.rs` in `/repo/rust/crates/wasmrs-wasmtime/src`: how a module is started, how its
operations are looked up, the task that writes frames to it, and what its calls of the host do. The socket is that of
`Model/RustSocket.lean`, with the responder of the host.

Simplifications:
* What the module does while one of its functions runs is a list of stores in its memory, of growth of it, and of calls
  of the functions of the host. These return nothing. Each time it is called with a frame the list is another one, chosen
  by the environment.
* wasmtime: an error returned by a function of the host, and a trap, end the call with an error; a panic in a function
  of the host goes on in the caller of the module. tokio: a panic in a task ends the task and drops what it owns. The
  locks are not poisoned by panics (parking_lot).
* `i32` arguments are natural numbers below 2^32 (the bit pattern). Arithmetic that overflows panics or leads to a
  range outside the memory, which panics too.
* A store outside of the memory of the module (memory.rs:42-50, unchecked) is undefined behaviour; a run ends there.
* Whether the module can be linked, and has functions of the right types, is given by Booleans; WASI, caching and the
  epochs of builder.rs are left out.
-/

namespace Iota.Rust.Host
open Go Iota.Frames Iota.Rust

/-- What a module does while it runs. -/
inductive Act where
  /-- store bytes in memory -/
  | write (ptr : Nat) (bs : Bytes)
  /-- `memory.grow` -/
  | grow (n : Nat)
  /-- `__init_buffers` -/
  | initBuffers (guest host : Nat)
  /-- `__op_list` -/
  | opList (ptr len : Nat)
  /-- `__send` -/
  | send (pos : Nat)
  /-- `__console_log` -/
  | log (ptr len : Nat)
  /-- anything that makes the function fail -/
  | trap
  deriving DecidableEq, Repr

/-- A module, with what its functions do when they are called for the first time. -/
structure Mod where
  /-- all imports are there, with the right types -/
  linkable : Bool
  /-- it exports `__wasmrs_send` -/
  hasSend : Bool
  /-- it exports its memory as "memory" -/
  hasMemory : Bool
  mem : Bytes
  /-- `_start` -/
  start : Option (List Act)
  /-- `__wasmrs_init` -/
  init : Option (List Act)
  /-- `__wasmrs_op_list_request` -/
  list : Option (List Act)
  deriving DecidableEq, Repr

/-- The context of a module: its memory, the store (store.rs:14-20), the socket, what was printed, and the task of
`spawn_writer` (host.rs:47-53): the frames it has handed over, whether it is there, whether it has written outside of the
memory. `heard` records the frames of the module that the socket has taken in. -/
structure Ctx where
  mem : Bytes
  guestStart : Nat
  hostStart : Nat
  ops : OpList
  sock : Sock
  printed : List Bytes
  handed : List Frame
  heard : List Frame
  alive : Bool
  wild : Bool
  deriving DecidableEq, Repr

/-- How a call of a function of the module ends. -/
inductive How where
  | done
  | trapped
  | panicked
  deriving DecidableEq, Repr

/-- `process_once` with the responder of the host, all methods of which are `todo!()` (host.rs:57-73). For
`fire_and_forget` and `request_response` it is called at once (socket.rs:178, 249); for the others by the task that is
spawned (socket.rs:198, 221). -/
def processHost (s : Sock) (f : Frame) : Res Sock :=
  match f with
  | .request v => if v.frameType = tRequestFNF ∨ v.frameType = tRequestResponse then .panic else s.processOnce f
  | _ => s.processOnce f

/-- `get_vec_from_memory`. memory.rs:6-14 -/
def Ctx.range (c : Ctx) (ptr len : Nat) : Option Bytes :=
  if ptr + len < 2 ^ 31 ∧ ptr + len ≤ c.mem.length then some ((c.mem.drop ptr).take len) else none

/-- What `read_frame` looks at. memory.rs:21-30, wasmrs_wasmtime.rs:55-62 -/
def Ctx.hostRange (c : Ctx) (len : Nat) : Option Bytes :=
  if len < 2 ^ 31 ∧ c.hostStart + len ≤ c.mem.length then some ((c.mem.drop c.hostStart).take len) else none

/-- `do_host_send`. store.rs:29-40 -/
def Ctx.hostSend (c : Ctx) (b : Bytes) : Ctx × How :=
  match decode b with
  | .ok f =>
    match processHost c.sock f with
    | .ok s => ({ c with sock := s, heard := c.heard ++ [f] }, .done)
    | .err _ => (c, .trapped)
    | .panic => (c, .panicked)
  | .err e => ({ c with sock := c.sock.send (.error ⟨streamId b, 0, lit e⟩) }, .done)
  | .panic => (c, .panicked)

/-- One thing a module does. `linker_send` (wasmrs_wasmtime.rs:42-69), `linker_init` (71-94), `linker_console_log`
(96-114), `linker_op_list` (116-137); `do_host_init`, `do_console_log`, `do_op_list` (store.rs:23-27, 42-56). -/
def Ctx.act (c : Ctx) : Act → Ctx × How
  | .write ptr bs =>
    if ptr + bs.length ≤ c.mem.length then
      ({ c with mem := c.mem.take ptr ++ bs ++ c.mem.drop (ptr + bs.length) }, .done)
    else (c, .trapped)
  | .grow n => ({ c with mem := c.mem ++ List.replicate n 0 }, .done)
  | .initBuffers g h =>
    if g < 2 ^ 31 ∧ h < 2 ^ 31 then ({ c with guestStart := g, hostStart := h }, .done) else (c, .panicked)
  | .opList ptr len =>
    match c.range ptr len with
    | none => (c, .panicked)
    | some b =>
      match decodeOps b with
      | .ok l => ({ c with ops := l }, .done)
      | .err _ => (c, .trapped)
      | .panic => (c, .panicked)
  | .send pos =>
    match c.hostRange pos with
    | none => (c, .panicked)
    | some b =>
      match readFrame b with
      | none => (c, .trapped)
      | some x => c.hostSend x.1
  | .log ptr len =>
    match c.range ptr len with
    | none => (c, .panicked)
    | some b => if isUtf8 b then ({ c with printed := c.printed ++ [b] }, .done) else (c, .panicked)
  | .trap => (c, .trapped)

/-- A function of the module runs. -/
def Ctx.run : Ctx → List Act → Ctx × How
  | c, [] => (c, .done)
  | c, a :: as =>
    match c.act a with
    | (c', .done) => c'.run as
    | r => r

/-- `_start`. engine_provider.rs:157-165 -/
def Ctx.runStart (c : Ctx) : Option (List Act) → Res Ctx
  | none => .ok c
  | some as =>
    match c.run as with
    | (c', .done) => .ok c'
    | (_, .trapped) => .err "InitFailed"
    | (_, .panicked) => .panic

/-- `__wasmrs_init`. engine_provider.rs:167-173 -/
def Ctx.runInit (c : Ctx) : Option (List Act) → Res Ctx
  | none => .err "InitFailed"
  | some as =>
    match c.run as with
    | (c', .done) => .ok c'
    | (_, .trapped) => .err "InitFailed"
    | (_, .panicked) => .panic

/-- `__wasmrs_op_list_request`, with an `unwrap`. engine_provider.rs:175-181 -/
def Ctx.runList (c : Ctx) : Option (List Act) → Res Ctx
  | none => .ok c
  | some as =>
    match c.run as with
    | (c', .done) => .ok c'
    | (_, .trapped) => .panic
    | (_, .panicked) => .panic

/-- The store of a new context. store.rs:74-90, wasmrs/src/socket/buffer.rs:9-16 -/
def Ctx.new (mem : Bytes) : Ctx := ⟨mem, 0, 0, ⟨[], []⟩, Sock.init false, [], [], [], true, false⟩

/-- `new_context`. host.rs:34-44, engine_provider.rs:70-80, 91-111, 156-183 -/
def newContext (m : Mod) : Res Ctx :=
  if m.linkable = false then .err "InitFailed"
  else if m.hasSend = false then .err "InitFailed"
  else if m.hasMemory = false then .panic
  else do
    let c ← (Ctx.new m.mem).runStart m.start
    let c ← c.runInit m.init
    c.runList m.list

/-- `get_export`. host.rs:100-102, context.rs:37-39, engine_provider.rs:134-140, store.rs:65-71 -/
def Ctx.getExport (c : Ctx) (ns op : Bytes) : Option UInt32 := getOp c.ops.exports ns op

/-- `get_import`. host.rs:95-97, context.rs:33-35, engine_provider.rs:142-148, store.rs:58-64 -/
def Ctx.getImport (c : Ctx) (ns op : Bytes) : Option UInt32 := getOp c.ops.imports ns op

/-! ## A context at work -/

/-- What can happen next: the writer takes a frame and the module does `as` with it; local code makes a call or drops
the receiving end of a channel; task `t` goes on. -/
inductive Step where
  | deliver (as : List Act)
  | call (m : Method) (metadata data : Bytes)
  | drop (i : Nat)
  | task (t : Nat) (y : Yield)
  deriving DecidableEq, Repr

/-- The writer with the next frame. host.rs:47-53, context.rs:24-31, engine_provider.rs:115-132: what the call of the
module returns is ignored; a panic ends the task. -/
def Ctx.deliver (c : Ctx) (f : Frame) (as : List Act) : Ctx :=
  match hostWrite c.mem c.guestStart f with
  | .ok (mem, n) =>
    if c.guestStart + n ≤ c.mem.length then
      match ({ c with mem := mem, handed := c.handed ++ [f] } : Ctx).run as with
      | (c', .panicked) => { c' with alive := false }
      | (c', _) => c'
    else { c with wild := true }
  | _ => { c with alive := false }

/-- A call of local code: the new state, and whether it panics. Without the writer the receiver of the frames is gone and
`send` panics (socket.rs:447-450), for `request_channel` later, in its task. (That the caller then drops the receiving
end is left out: nothing arrives any more.) -/
def Ctx.call (c : Ctx) (m : Method) (md d : Bytes) : Ctx × Bool :=
  if c.alive then ({ c with sock := c.sock.request m md d }, false)
  else ({ c with sock := { c.sock.request m md d with out := c.sock.out } }, decide (m ≠ .rc))

/-- A task goes on. Those of requests of the module end in the responder of the host (`todo!()`), which drops the
receiving end of a channel. Without the writer a task that sends something ends. -/
def Ctx.task (c : Ctx) (t : Nat) (y : Yield) (k : Task) : Option Ctx :=
  match k with
  | .rsStart _ _ _ => some { c with sock := { c.sock with tasks := c.sock.tasks.set t none } }
  | .rcStart _ i => some { c with sock := { c.sock with
      tasks := c.sock.tasks.set t none
      sinks := c.sock.sinks.modify i fun k => { k with live := false } } }
  | k =>
    match c.sock.runTask t y k with
    | none => none
    | some s =>
      if c.alive ∨ s.out = c.sock.out then some { c with sock := s }
      else some { c with sock := { s with out := c.sock.out, tasks := s.tasks.set t none } }

/-- One step, with whether local code panics; `none` when it is not possible now. -/
def Ctx.step (c : Ctx) : Step → Option (Ctx × Bool)
  | .deliver as =>
    if c.alive = false ∨ c.wild then none
    else
      match c.sock.out[c.handed.length]? with
      | none => none
      | some f => some (c.deliver f as, false)
  | .call m md d => if c.wild then none else some (c.call m md d)
  | .drop i =>
    if c.wild then none
    else some ({ c with sock := { c.sock with sinks := c.sock.sinks.modify i fun k => { k with live := false } } }, false)
  | .task t y =>
    if c.wild then none
    else
      match c.sock.tasks[t]? with
      | some (some k) => (c.task t y k).map fun c' => (c', false)
      | _ => none

/-- A run, with which of the steps panicked in local code. -/
def Ctx.steps : Ctx → List Step → Option (Ctx × List Bool)
  | c, [] => some (c, [])
  | c, a :: as =>
    match c.step a with
    | none => none
    | some (c', p) => (c'.steps as).map fun r => (r.1, p :: r.2)

end Iota.Rust.Host
