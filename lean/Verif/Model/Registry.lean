import Verif.Model.Operations

/-!
# Registries

Exported and imported operations of a guest (`/repo/go/invoke/handlers.go`), the table it sends to the host
(`/repo/go/transport/wasmrs/guest/guest.go`), the handler tables of a connection
(`/repo/go/handler/handler.go`, `/repo/go/transport/wasmrs/host/instance.go`), live instances
(`/repo/go/invoke/instances.go`) and port messages (`/repo/go/invoke/portio.go`).
-/

namespace Iota.Registry
open Go Iota.Operations

/-- The four interaction kinds. -/
inductive Kind
  | rr
  | fnf
  | rs
  | rc
  deriving DecidableEq, Repr

/-- `RequestType`. operatons.go:22-27 -/
def Kind.code : Kind → UInt8
  | .rr => 1
  | .fnf => 2
  | .rs => 3
  | .rc => 4

/-- `HandlerInfo`. handlers.go:18-21 -/
structure Info where
  ns : Bytes
  op : Bytes
  deriving DecidableEq, Repr

/-- The package variables of handlers.go:35-52, one slice of each sort per kind. `H` stands for the type
of handlers. -/
structure Reg (H : Type) where
  handlers : Kind → List H
  infos : Kind → List Info
  imports : Kind → List Info

/-- All slices start empty. handlers.go:36-51 -/
def Reg.init {H : Type} : Reg H := ⟨fun _ => [], fun _ => [], fun _ => []⟩

/-- Assignment to the slice of one kind. -/
def upd {α : Type} (f : Kind → α) (k : Kind) (v : α) : Kind → α := fun k' => if k' = k then v else f k'

/-- `ExportRequestResponse` and its three siblings. handlers.go:71-74, 83-86, 95-98, 107-110 -/
def exportOp {H : Type} (r : Reg H) (k : Kind) (i : Info) (h : H) : Reg H :=
  { r with handlers := upd r.handlers k (r.handlers k ++ [h]), infos := upd r.infos k (r.infos k ++ [i]) }

/-- `GetRequestResponseHandler` and its three siblings. handlers.go:76-81, 88-93, 100-105, 112-117.
`none` is nil. -/
def getHandler {H : Type} (r : Reg H) (k : Kind) (operationID : UInt32) : Option H :=
  if operationID ≥ UInt32.ofNat (r.handlers k).length then none else (r.handlers k)[operationID.toNat]?

/-- The search loop of the import functions: position of the first equal entry. handlers.go:120-124 -/
def search (l : List Info) (x : Info) (i : Nat) : Option Nat :=
  match l with
  | [] => none
  | y :: l => if y.ns = x.ns ∧ y.op = x.op then some i else search l x (i + 1)

/-- `ImportRequestResponse` and its three siblings. handlers.go:119-128, 130-139, 141-150, 152-161 -/
def importOp {H : Type} (r : Reg H) (k : Kind) (x : Info) : UInt32 × Reg H :=
  match search (r.imports k) x 0 with
  | some i => (UInt32.ofNat i, r)
  | none => (UInt32.ofNat (r.imports k).length, { r with imports := upd r.imports k (r.imports k ++ [x]) })

/-- `convertOperations`. guest.go:91-103 -/
def convertOperations (l : List Info) (k : Kind) (dir : UInt8) : Table :=
  l.mapIdx fun i h => ⟨UInt32.ofNat i, k.code, dir, h.ns, h.op⟩

/-- The list built by `OperationList`. guest.go:63-84. `GetOperations` (handlers.go:54-69) returns the
slices; `Export` is 1 and `Import` is 2 (operatons.go:46-49). -/
def operationList {H : Type} (r : Reg H) : Table :=
  convertOperations (r.infos .rr) .rr 1 ++ convertOperations (r.infos .fnf) .fnf 1 ++
    convertOperations (r.infos .rs) .rs 1 ++ convertOperations (r.infos .rc) .rc 1 ++
    convertOperations (r.imports .rr) .rr 2 ++ convertOperations (r.imports .fnf) .fnf 2 ++
    convertOperations (r.imports .rs) .rs 2 ++ convertOperations (r.imports .rc) .rc 2

/-! ## Handler tables of a connection -/

/-- A slice of handlers; `none` is nil. handler.go:44-47 -/
abbrev Slots (H : Type) := List (Option H)

/-- The growing loop. handler.go:594-596: `for uint32(len(s)) < index+1 { s = append(s, nil) }`. The fuel
bounds the number of iterations. -/
def grow {H : Type} : Nat → Slots H → UInt32 → Slots H
  | 0, s, _ => s
  | n + 1, s, bound => if UInt32.ofNat s.length < bound then grow n (s ++ [none]) bound else s

/-- `SetRequestResponseHandler` and its three siblings. handler.go:593-598, 607-612, 621-626, 635-640 and
instance.go:613-618, 627-632, 641-646, 655-660. The loop makes at most `index + 1` iterations, as every
iteration makes the slice longer. -/
def setSlot {H : Type} (s : Slots H) (index : UInt32) (h : Option H) : Res (Slots H) :=
  if index.toNat < (grow (index + 1).toNat s (index + 1)).length then
    .ok ((grow (index + 1).toNat s (index + 1)).set index.toNat h)
  else .panic

/-- `getRequestResponseHandler` and its three siblings. handler.go:600-605, 614-619, 628-633, 642-647 and
instance.go:620-625, 634-639, 648-653, 662-667 -/
def getSlot {H : Type} (s : Slots H) (index : UInt32) : Option H :=
  if UInt32.ofNat s.length ≤ index then none else (s[index.toNat]?).join

/-! ## Live instances -/

/-- `LiveInstances`: the map from addresses of boxes to the contents of the box. instances.go:9-18. The
pointer is the key and the box it points to holds the instance; a live box never moves and its contents
never change, so the box is represented by its contents. -/
abbrev Live (T : Type) := UInt64 → Option T

/-- `NewLiveInstances`. instances.go:20-24 -/
def Live.new {T : Type} : Live T := fun _ => none

/-- `LiveInstances.Get`. instances.go:26-35 -/
def Live.lookup {T : Type} (m : Live T) (id : UInt64) : Option T := m id

/-- `LiveInstances.Put`. instances.go:37-44. `addr` is the address chosen by the memory allocator. -/
def Live.put {T : Type} (m : Live T) (addr : UInt64) (inst : T) : UInt64 × Live T :=
  (addr, fun a => if a = addr then some inst else m a)

/-- `LiveInstances.Remove`. instances.go:46-55 -/
def Live.remove {T : Type} (m : Live T) (id : UInt64) : Option T × Live T :=
  match m id with
  | some inst => (some inst, fun a => if a = id then none else m a)
  | none => (none, m)

/-! ## Port messages -/

/-- `PortIO`. portio.go:8-13 -/
structure PortIO where
  port : Bytes
  data : Bytes
  complete : Bool
  next : Bool
  deriving DecidableEq, Repr

/-- `FlagNext`. portio.go:74 -/
def flagNext : UInt8 := 1

/-- `FlagComplete`. portio.go:75. The expression of the preceding constant is repeated: the value is 1,
too. -/
def flagComplete : UInt8 := 1

/-- `Flags.Check`. portio.go:79-81 -/
def check (f flag : UInt8) : Bool := flag &&& f == flag

/-- `PortIO.Decode`. portio.go:15-33 -/
def PortIO.decode (data : Bytes) : Res PortIO := do
  let flags ← index data 0
  let data ← sliceFrom data 1
  let portLength ← getU16 data
  let data ← sliceFrom data 2
  let port ← sliceTo data portLength.toNat
  let data ← sliceFrom data portLength.toNat
  return ⟨port, data, check flags flagComplete, check flags flagNext⟩

/-- `PortIO.Encode`. portio.go:35-56. `payload[len(f.Port):]` cannot fail and the last `copy` fills the
buffer. -/
def PortIO.encode (f : PortIO) : Res Bytes := do
  let c := Cur.start (List.replicate (3 + f.port.length + f.data.length) 0)
  let c ← c.putAt 0 [(if f.complete then flagComplete else 0) ||| (if f.next then flagNext else 0)]
  let c ← c.adv 1
  let c ← c.putAt 0 (be16 (UInt16.ofNat f.port.length))
  let c ← c.adv 2
  let c ← (c.copy f.port).adv f.port.length
  return (c.copy f.data).buf

end Iota.Registry
