import Verif.Model.Registry

/-!
# The module mesh

Model of `/repo/go/transport/wasmrs/mesh/mesh.go`. Instances are numbered in the order they are created. Not
modelled: compiling and instantiating modules (mesh.go:139-155; a module that fails to load changes nothing), the
printed table (mesh.go:178-190, 231-234), and concurrent use (the mesh has no locks).

Simplification: the pointers in the two maps of exports are replaced by their contents; `ptr.Load` is called right
before the contents are used, and a pointer is only in the map after it has been stored to (mesh.go:199-208).
-/

namespace Iota.Mesh
open Iota.Go Iota.Operations Iota.Registry

/-- `destination`. mesh.go:29-32 -/
structure Dest where
  instance_ : Nat
  index : UInt32
  deriving DecidableEq, Repr

/-- `pending`. mesh.go:34-37 -/
structure Pending where
  instance_ : Nat
  oper : Operation
  deriving DecidableEq, Repr

/-- `Mesh` (mesh.go:22-27) and the handler tables of its instances (instance.go:48-51). `closing` lists the
instances that have been replaced and are closed five seconds later (mesh.go:157-164). -/
structure Mesh where
  instances : Bytes → Option Nat
  exports : Bytes → Option (Bytes → Option Dest)
  unsatisfied : List Pending
  tables : Nat → Kind → Slots Dest
  closing : List Nat

/-- `New`. mesh.go:48-60 -/
def Mesh.new : Mesh := ⟨fun _ => none, fun _ => none, [], fun _ _ => [], []⟩

/-- Assignment to a map. -/
def assign {K V : Type} [DecidableEq K] (m : K → V) (k : K) (v : V) : K → V := fun k' => if k' = k then v else m k'

/-- The first two lookups of `linkOperation` and of the calls. mesh.go:238-247, 63-72 -/
def Mesh.find (m : Mesh) (ns op : Bytes) : Option Dest :=
  match m.exports ns with
  | none => none
  | some f => f op

/-- The `switch` on `op.Type`. mesh.go:249-258 -/
def kindOf (t : UInt8) : Option Kind :=
  if t = 1 then some .rr else if t = 2 then some .fnf else if t = 3 then some .rs else if t = 4 then some .rc else none

/-- The call of `Set...Handler` on an instance. mesh.go:251, 253, 255, 257 -/
def Mesh.setHandler (m : Mesh) (inst : Nat) (k : Kind) (index : UInt32) (d : Dest) : Res Mesh :=
  match setSlot (m.tables inst k) index (some d) with
  | .ok s => .ok { m with tables := assign m.tables inst (upd (m.tables inst) k s) }
  | .err e => .err e
  | .panic => .panic

/-- `linkOperation`. mesh.go:237-261 -/
def Mesh.linkOperation (m : Mesh) (inst : Nat) (op : Operation) : Res (Bool × Mesh) :=
  match m.find op.ns op.op with
  | none => .ok (false, m)
  | some dest =>
    match kindOf op.type with
    | none => .ok (true, m)
    | some k =>
      match m.setHandler inst k op.index dest with
      | .ok m => .ok (true, m)
      | .err e => .err e
      | .panic => .panic

/-- The map of a namespace, made if there is none. mesh.go:194-198 -/
def Mesh.namespace_ (m : Mesh) (ns : Bytes) : Bytes → Option Dest :=
  match m.exports ns with
  | some f => f
  | none => fun _ => none

/-- An exported operation. mesh.go:193-209 -/
def Mesh.addExport (m : Mesh) (inst : Nat) (op : Operation) : Mesh :=
  { m with exports := assign m.exports op.ns (some (assign (m.namespace_ op.ns) op.op (some ⟨inst, op.index⟩))) }

/-- One round of the loop over the operations; the number counts exports. mesh.go:187-219. `Export` is 1 and
`Import` is 2. -/
def Mesh.linkOne (m : Mesh) (n : Nat) (inst : Nat) (op : Operation) : Res (Nat × Mesh) :=
  if op.direction = 1 then .ok (n + 1, m.addExport inst op)
  else if op.direction = 2 then
    match m.linkOperation inst op with
    | .ok (true, m) => .ok (n, m)
    | .ok (false, m) => .ok (n, { m with unsatisfied := m.unsatisfied ++ [⟨inst, op⟩] })
    | .err e => .err e
    | .panic => .panic
  else .ok (n, m)

/-- The loop over the operations. mesh.go:187-219 -/
def Mesh.linkAll (m : Mesh) (n : Nat) (inst : Nat) : Table → Res (Nat × Mesh)
  | [] => .ok (n, m)
  | op :: ops =>
    match m.linkOne n inst op with
    | .ok (n, m) => m.linkAll n inst ops
    | .err e => .err e
    | .panic => .panic

/-- The loop over the unsatisfied imports; gives those that stay so. mesh.go:221-229 -/
def Mesh.relink (m : Mesh) : List Pending → Res (List Pending × Mesh)
  | [] => .ok ([], m)
  | u :: us =>
    match m.linkOperation u.instance_ u.oper with
    | .ok (ok, m) =>
      match m.relink us with
      | .ok (filtered, m) => .ok (if ok then filtered else u :: filtered, m)
      | .err e => .err e
      | .panic => .panic
    | .err e => .err e
    | .panic => .panic

/-- `linkOperations`. mesh.go:176-235 -/
def Mesh.linkOperations (m : Mesh) (inst : Nat) (opers : Table) : Res Mesh :=
  match m.linkAll 0 inst opers with
  | .ok (numExported, m) =>
    if numExported > 0 ∧ m.unsatisfied.length > 0 then
      match m.relink m.unsatisfied with
      | .ok (filtered, m) => .ok { m with unsatisfied := filtered }
      | .err e => .err e
      | .panic => .panic
    else .ok m
  | .err e => .err e
  | .panic => .panic

/-- The previously loaded instance will be closed. mesh.go:157-164 -/
def Mesh.replaced (m : Mesh) (filename : Bytes) : List Nat :=
  match m.instances filename with
  | some i => m.closing ++ [i]
  | none => m.closing

/-- `LoadModule` once the module runs as instance `inst` with operations `opers`. mesh.go:157-174 -/
def Mesh.loadModule (m : Mesh) (filename : Bytes) (inst : Nat) (opers : Table) : Res Mesh :=
  ({ m with closing := m.replaced filename, instances := assign m.instances filename (some inst) } : Mesh).linkOperations
    inst opers

/-- Loading one module after the other. mesh.go:128-136 -/
def Mesh.loadModules (m : Mesh) (next : Nat) : List (Bytes × Table) → Res Mesh
  | [] => .ok m
  | (filename, opers) :: ls =>
    match m.loadModule filename next opers with
    | .ok m => m.loadModules (next + 1) ls
    | .err e => .err e
    | .panic => .panic

/-- Who answers a call that a module makes with one of its imports: the handler of the instance is the method of
a destination. mesh.go:251-257 with instance.go:620-625, 634-639, 648-653, 662-667 -/
def Mesh.moduleCall (m : Mesh) (inst : Nat) (k : Kind) (index : UInt32) : Option Dest :=
  getSlot (m.tables inst k) index

/-- Who answers `RequestResponse` and its siblings on the mesh. mesh.go:62-120 -/
def Mesh.call (m : Mesh) (ns op : Bytes) : Option Dest := m.find ns op

/-- Metadata is given the index of the destination. mesh.go:264-267, 272-275, 280-283, 288-291. `none` is nil;
`PutUint32` panics on less than four bytes. -/
def Dest.route (d : Dest) (md : Option Bytes) : Res (Option Bytes) :=
  match md with
  | none => .ok none
  | some md => if md.length < 4 then .panic else .ok (some (be32 d.index ++ md.drop 4))

end Iota.Mesh
