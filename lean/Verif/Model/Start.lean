import Verif.Model.Registry
import Verif.Model.Wasm

/-!
# How a module is started

Model of `New`, `Compile` and `Instantiate` in `/repo/go/transport/wasmrs/host/host.go` and of `NewInstance`, `setBuffers`
and `opList` in `instance.go` beside it, up to the point where the loops are started (`Verif/Model/Wasm.lean`).

Simplifications:
* What the module does while one of its functions runs is a list of stores in its memory and of calls of the
  functions that the host gives it. These return nothing, so the list does not depend on the host.
* wazero: `InstantiateModule` runs the start functions and fails when a module with the same name is there; a panic
  in a function of the host, and a trap, make `Call` return an error; `Memory.Read` gives nil when the range is not in
  memory; `ExportedFunction` gives nil when there is no such function.
* The arguments of `__wasmrs_init` (buffer sizes) are not looked at.
-/

namespace Iota.Start
open Iota.Go Iota.Operations Iota.Wasm

/-- What a module does while it runs. -/
inductive Act where
  /-- store bytes in memory -/
  | write (ptr : Nat) (bs : Bytes)
  /-- `__init_buffers` -/
  | initBuffers (sendPtr recvPtr : Nat)
  /-- `__op_list` -/
  | opList (ptr size : Nat)
  /-- `__send` -/
  | send (pos : Nat)
  /-- anything that makes the function fail -/
  | trap
  deriving DecidableEq, Repr

/-- A module: which functions it exports, its memory, and what its functions do. -/
structure Module where
  hasInit : Bool
  hasSend : Bool
  hasList : Bool
  mem : Bytes
  /-- `_start` and `wasmrs_init`, run by wazero -/
  start : List Act
  /-- `__wasmrs_init` -/
  init : List Act
  /-- `__wasmrs_op_list_request` -/
  list : List Act
  deriving DecidableEq, Repr

/-- The fields of `Instance` that matter while it starts, and the memory of its module. instance.go:24-53 -/
structure Inst where
  mem : Bytes
  sendPtr : Nat
  recvPtr : Nat
  ops : Table
  recvCh : List Bytes
  deriving DecidableEq, Repr

/-- How a call ends: with a value, with an error, never, or with a panic. -/
inductive Ret (α : Type) where
  | ok (a : α)
  | err
  | stuck
  | panic
  deriving DecidableEq, Repr

/-- `Memory.Read`, with nil for a range that is not in memory. -/
def memRead (mem : Bytes) (ptr size : Nat) : Bytes :=
  if ptr + size ≤ mem.length then (mem.drop ptr).take size else []

/-- `opList`: the error of `FromBytes` is dropped, and then its table is nil. instance.go:224-228 -/
def Inst.opList (i : Inst) (ptr size : Nat) : Ret Inst :=
  match fromBytes (memRead i.mem ptr size) with
  | .ok t => .ok { i with ops := t }
  | .err _ => .ok { i with ops := [] }
  | .panic => .err

/-- `hostSend` while nothing takes from `recvCh`, whose capacity is 100. instance.go:230-244, 77 -/
def Inst.hostSend (i : Inst) (pos : Nat) : Ret Inst :=
  if i.recvCh.length + (hostLoop (pos + 1) (memRead i.mem i.recvPtr pos)).1.length > queueCap then .stuck
  else if (hostLoop (pos + 1) (memRead i.mem i.recvPtr pos)).2 then
    .ok { i with recvCh := i.recvCh ++ (hostLoop (pos + 1) (memRead i.mem i.recvPtr pos)).1 }
  else .err

/-- One thing a module does, with the instance in the context (host.go:99-121). -/
def Inst.act (i : Inst) : Act → Ret Inst
  | .write ptr bs =>
    if ptr + bs.length ≤ i.mem.length then
      .ok { i with mem := i.mem.take ptr ++ bs ++ i.mem.drop (ptr + bs.length) }
    else .err
  | .initBuffers s r => .ok { i with sendPtr := s, recvPtr := r }
  | .opList ptr size => i.opList ptr size
  | .send pos => i.hostSend pos
  | .trap => .err

/-- A function of the module runs. -/
def Inst.run : Inst → List Act → Ret Inst
  | i, [] => .ok i
  | i, a :: as =>
    match i.act a with
    | .ok i' => i'.run as
    | r => r

/-- `NewInstance`. instance.go:64-102; a module without `__wasmrs_op_list_request` is not checked for (lines 92-93). -/
def newInstance (m : Module) (mem : Bytes) : Ret Inst :=
  if m.hasInit = false then .err
  else if m.hasSend = false then .err
  else
    match (⟨mem, 0, 0, [], []⟩ : Inst).run m.init with
    | .ok i => if m.hasList then i.run m.list else .panic
    | r => r

/-- The start functions: the context has no instance yet, so that a call of any function of the host panics in it
(host.go:103, 111, 119). -/
def runStart (mem : Bytes) : List Act → Option Bytes
  | [] => some mem
  | .write ptr bs :: as =>
    if ptr + bs.length ≤ mem.length then runStart (mem.take ptr ++ bs ++ mem.drop (ptr + bs.length)) as else none
  | _ :: _ => none

/-- A host: whether there is a module named "test" in its runtime. host.go:20-23 -/
structure Host where
  used : Bool
  deriving DecidableEq, Repr

/-- `New`. host.go:30-62 -/
def Host.new : Host := ⟨false⟩

/-- `Instantiate`. host.go:76-83. The name is the same for all modules (line 77), and nothing ever closes the module:
`Instance.Close` (instance.go:104-108) closes only the channels. -/
def Host.instantiate (h : Host) (m : Module) : Host × Ret Inst :=
  if h.used then (h, .err)
  else
    match runStart m.mem m.start with
    | none => (h, .err)
    | some mem => (⟨true⟩, newInstance m mem)

end Iota.Start
