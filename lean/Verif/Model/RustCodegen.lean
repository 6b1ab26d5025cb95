import Verif.Model.RustGuest

/-!
# The Rust code generator

Model of `/repo/codegen/src/rust`: which constants, functions and registrations `DefaultVisitor`, `ServiceVisitor` and
`ProviderVisitor` write for a document, and what a module compiled from them registers and sends.

Simplifications:
* A document is its namespace and its interfaces in the order they are visited; types are left out, except whether they are
  streams, and so are `config`, comments and the types of messages.
* The functions that change the case of names come from other packages (`noCase`, `rustify`, `rustifyCaps`, imported by
  utils/mod.ts:1, default-visitor.ts:8 and service-visitor.ts:14); they are parameters.
* Of the rules of the Rust compiler these are modelled: two statics of one name are an error, so is the use of a name that is
  not defined, so are two wrappers of one name, and so is a literal that does not fit its type.
* The functions written by `super.visitInterface` for other interfaces (default-visitor.ts:115) are left out.
-/

namespace Iota.RustCodegen
open Go Iota.Rust

/-- The functions that change names. `const_`: `constantCase` (utils/mod.ts:29-34). -/
structure Cases where
  const_ : Bytes → Bytes
  rustify : Bytes → Bytes
  caps : Bytes → Bytes

/-- An operation: its name, which parameters are streams, and whether the result is. -/
structure Oper where
  name : Bytes
  params : List Bool
  streamOut : Bool
  deriving DecidableEq, Repr

/-- The annotation that decides what is generated. default-visitor.ts:103-117 -/
inductive Role where
  | service
  | provider
  | other
  deriving DecidableEq, Repr

structure Iface where
  name : Bytes
  role : Role
  ops : List Oper
  deriving DecidableEq, Repr

structure Doc where
  ns : Bytes
  ifaces : List Iface
  deriving DecidableEq, Repr

/-- `determineVariant`. utils/mod.ts:36-53; `none`: it throws. -/
def determineVariant (o : Oper) : Option Method :=
  if (o.params.filter fun b => b).length = 1 ∧ o.params.length = 1 ∧ o.streamOut = true then some .rc
  else if (o.params.filter fun b => b).length = 0 ∧ o.streamOut = true then some .rs
  else if (o.params.filter fun b => b).length = 0 ∧ o.streamOut = false then some .rr
  else none

/-- `Actions`. utils/mod.ts:63-66; each entry is the name of an interface and of an operation. -/
structure Actions where
  rr : List (Bytes × Bytes)
  rs : List (Bytes × Bytes)
  rc : List (Bytes × Bytes)
  deriving DecidableEq, Repr

def Actions.none : Actions := ⟨[], [], []⟩

/-- `push` on one of the lists. service-visitor.ts:101, provider-visitor.ts:66. There is no list for `fnf`. -/
def Actions.push (a : Actions) (k : Method) (x : Bytes × Bytes) : Actions :=
  match k with
  | .rr => { a with rr := a.rr ++ [x] }
  | .rs => { a with rs := a.rs ++ [x] }
  | .rc => { a with rc := a.rc ++ [x] }
  | .fnf => a

/-- `merge`. utils/mod.ts:68-78 -/
def Actions.merge (a b : Actions) : Actions := ⟨a.rr ++ b.rr, a.rs ++ b.rs, a.rc ++ b.rc⟩

/-- `num`. utils/mod.ts:80-84 -/
def Actions.num (a : Actions) : Nat := a.rr.length + a.rs.length + a.rc.length

/-- `${a}_${b}` -/
def under (a b : Bytes) : Bytes := a ++ lit "_" ++ b

/-- A generated function that calls an operation: which operation it was generated for, the constant it takes the index
from and the method of the host it calls. -/
structure Fn where
  iface : Bytes
  op : Bytes
  constant : Bytes
  method : Method
  deriving DecidableEq, Repr

/-- A wrapper: its component, its name, the operation whose `task` it runs, and its signature (the handler type it fits). -/
structure Wrapper where
  component : Bytes
  fn : Bytes
  iface : Bytes
  op : Bytes
  method : Method
  deriving DecidableEq, Repr

/-- The collections of the visitors over the operations of an interface: `visitOperation`, service-visitor.ts:85-104 and
provider-visitor.ts:56-69. -/
def visitOps (iface : Bytes) : List Oper → Actions → Option Actions
  | [], a => some a
  | o :: os, a =>
    match determineVariant o with
    | .none => .none
    | some k => visitOps iface os (a.push k (iface, o.name))

/-- The wrapper of an operation. service-visitor.ts:107-240; component and name: lines 33-35, 113-115 -/
def wrapperOf (c : Cases) (iface : Bytes) (o : Oper) : Option Wrapper :=
  (determineVariant o).map fun k => ⟨c.caps iface ++ lit "Component", c.rustify o.name ++ lit "_wrapper", iface, o.name, k⟩

/-- The constants of an interface. provider-visitor.ts:38-44 -/
def constants (c : Cases) (iface : Bytes) (index : Nat) : List Oper → List (Bytes × Nat)
  | [] => []
  | o :: os => (c.const_ (under (c.caps iface) o.name), index) :: constants c iface (index + 1) os

/-- The function for an operation. provider-visitor.ts:72-88: only the type of the result decides which of
`gen_request_stream` (line 139) and `gen_request_response` (line 90) writes it; the constants: lines 95-96 and 144-145. -/
def fnOf (c : Cases) (iface : Bytes) (o : Oper) : Fn :=
  ⟨iface, o.name, c.const_ (under iface (c.rustify o.name)), if o.streamOut = true then .rs else .rr⟩

/-- What has been generated. -/
structure Gen where
  exports : Actions
  imports : Actions
  statics : List (Bytes × Nat)
  fns : List Fn
  wrappers : List Wrapper
  deriving DecidableEq, Repr

def Gen.empty : Gen := ⟨.none, .none, [], [], []⟩

/-- `visitInterface`. default-visitor.ts:103-117 -/
def visitInterface (c : Cases) (g : Gen) (i : Iface) : Option Gen :=
  match i.role with
  | .service =>
    (visitOps i.name i.ops .none).map fun a =>
      { g with
        exports := g.exports.merge a
        wrappers := g.wrappers ++ i.ops.filterMap (wrapperOf c i.name) }
  | .provider =>
    (visitOps i.name i.ops .none).map fun a =>
      { g with
        imports := g.imports.merge a
        statics := g.statics ++ constants c i.name g.imports.num i.ops
        fns := g.fns ++ i.ops.map (fnOf c i.name) }
  | .other => some g

/-- The walk over all interfaces; `none`: the generator throws. -/
def visit (c : Cases) : List Iface → Gen → Option Gen
  | [], g => some g
  | i :: is, g =>
    match visitInterface c g i with
    | .none => .none
    | some g' => visit c is g'

def generate (c : Cases) (d : Doc) : Option Gen := visit c d.ifaces .empty

/-! ## The module -/

/-- The value of a static in the compiled module. -/
def Gen.static (g : Gen) (name : Bytes) : Option Nat := (g.statics.find? fun s => s.1 == name).map (·.2)

/-- `${ns}.${iface}` -/
def qualified (ns iface : Bytes) : Bytes := ns ++ lit "." ++ iface

/-- One call of `add_import`. default-visitor.ts:120-146; `none`: the constant is not defined. -/
def writeImport (c : Cases) (g : Gen) (ns : Bytes) (k : Method) (x : Bytes × Bytes) : Option (Setup Wrapper) :=
  (g.static (c.const_ (under x.1 x.2))).map fun n =>
    .addImport ⟨UInt32.ofNat n, k.number, qualified ns x.1, x.2⟩

/-- One call of `register_…`. default-visitor.ts:148-177; the wrapper is found by its path and has to fit the kind;
`none`: there is none. -/
def writeExport (c : Cases) (g : Gen) (ns : Bytes) (k : Method) (x : Bytes × Bytes) : Option (Setup Wrapper) :=
  (g.wrappers.find? fun w => w.component == c.caps (x.1 ++ lit "Component") && w.fn == c.rustify x.2 ++ lit "_wrapper" &&
    w.method == k).map fun w => .register k (qualified ns x.1) x.2 w

/-- All of them, or nothing if one is missing. -/
def allSome {α : Type} : List (Option α) → Option (List α)
  | [] => some []
  | .none :: _ => .none
  | some a :: l => (allSome l).map fun r => a :: r

/-- The three groups. default-visitor.ts:69-91 -/
def grouped {α : Type} (a : Actions) (f : Method → Bytes × Bytes → α) : List α :=
  a.rr.map (f .rr) ++ a.rs.map (f .rs) ++ a.rc.map (f .rc)

/-- What the module does while it starts: `init_exports`, then `init_imports`. default-visitor.ts:33-34, 93-100 -/
def Gen.startup (c : Cases) (ns : Bytes) (g : Gen) : Option (List (Setup Wrapper)) :=
  allSome (grouped g.exports (writeExport c g ns) ++ grouped g.imports (writeImport c g ns))

/-- The compiler accepts the definitions: names of statics and paths of wrappers are distinct, every constant fits, and
every constant that a function uses is defined. -/
def Gen.accepted (g : Gen) : Prop :=
  (g.statics.map (·.1)).Nodup ∧ (g.wrappers.map fun w => (w.component, w.fn)).Nodup ∧
  (∀ s ∈ g.statics, s.2 < 2 ^ 32) ∧ ∀ f ∈ g.fns, (g.static f.constant).isSome = true

instance (g : Gen) : Decidable g.accepted := by unfold Gen.accepted; infer_instance

/-- The module as it runs, or `none` if the document is rejected by the generator or what is generated by the compiler. -/
def compile (c : Cases) (d : Doc) : Option (Gen × Module Wrapper) :=
  match generate c d with
  | .none => .none
  | some g =>
    match g.startup c d.ns with
    | .none => .none
    | some l => if g.accepted then some (g, Module.empty.setup l) else .none

/-- What a generated function asks of the host: the method and the metadata. provider-visitor.ts:114-119, 164-169 -/
def Gen.request (g : Gen) (f : Fn) : Option (Method × Bytes) :=
  (g.static f.constant).map fun n => (f.method, be32 (UInt32.ofNat n) ++ [0, 0, 0, 0])

end Iota.RustCodegen
