import Verif.Model.RustCodegen

/-!
# The files of a generated Rust project

Model of `/repo/codegen/src/rust/plugin.ts` and of the files it has generated: `lib-boilerplate.ts`, `error-boilerplate.ts`,
`action-scaffold.ts`, and the part of `default-visitor.ts` and `visitors/service-visitor.ts` that declares modules and calls
the tasks. `Verif/Model/RustCodegen.lean` has the rest of these two.

Simplifications, beyond those of `Verif/Model/RustCodegen.lean`:
* Objects of JavaScript are lists of keys and values, each key once.
* The program that writes the files (`apex_cli`) is not in `/repo`: it visits the entries of `generates` in order, writes each,
  and leaves a file alone that exists if the entry says `ifNotExists`.
* Of a file is kept which modules it declares, which it uses, and the parameters and results of the functions `task`. What a
  user writes into a file of an action is not modelled, except that a file may have been there before.
* Of the rules of the Rust compiler these are modelled: two modules of one name in one place are an error, so is a module
  whose file is missing, so is a path to a module or function that is not there, and so is a call whose arguments or result are
  of other types.
-/

namespace Iota.RustProject
open Go Iota.Rust Iota.RustCodegen

/-! ## Files -/

/-- Types of the parameters and results of a `task`: a value, a stream to read from and a stream to write to. -/
inductive Pos where
  | value
  | receiver
  | flux
  deriving DecidableEq, Repr

/-- The parameters and the result of a function, or the arguments and the use of the result of a call. -/
structure Shape where
  args : List Pos
  result : Pos
  deriving DecidableEq, Repr

/-- The function that `action-scaffold.ts` writes. action-scaffold.ts:17-32 -/
def scaffoldShape (variant : Method) : Shape :=
  if variant = .rc then ⟨[.receiver, .flux], .flux⟩
  else if variant = .rs then ⟨[.value, .flux], .flux⟩
  else ⟨[.value], .value⟩

/-- The call of a task in the implementation of the trait. visitors/service-visitor.ts:46-55, with the results of lines 123-128,
148-154, 191-197; `none`: it throws. -/
def callShape : Method → Option Shape
  | .rr => some ⟨[.value], .value⟩
  | .rs => some ⟨[.value, .flux], .flux⟩
  | .rc => some ⟨[.receiver, .flux], .flux⟩
  | .fnf => none

/-- A call `crate::actions::${iface}::${action}::task(…)`, where `Inputs` and `Outputs` are those of the module
`${types}::${action}`. visitors/service-visitor.ts:43-57, 113-114 -/
structure TaskCall where
  iface : Bytes
  action : Bytes
  types : Bytes
  shape : Shape
  deriving DecidableEq, Repr

/-- `src/actions/mod.rs`: the modules of actions, the modules of types, those of providers, and the calls of tasks. -/
structure ActionsFile where
  mods : List (Bytes × List Bytes)
  typeMods : List (Bytes × List Bytes)
  providers : List (Bytes × List Bytes)
  calls : List TaskCall
  deriving DecidableEq, Repr

/-- A file of the project. -/
inductive File where
  /-- the scaffold of an action: it uses `crate::actions::${types}::${action}::*` and has a function `task` -/
  | task (types action : Bytes) (shape : Shape)
  | lib
  | error
  | actions (a : ActionsFile)
  /-- any other -/
  | hand (n : Nat)
  deriving DecidableEq, Repr

/-! ## The plugin -/

/-- What an entry of `generates` has written: a module of the generator with its `config`. -/
inductive Content where
  /-- plugin.ts:37-48 -/
  | scaffold (variant : Method) (iface action : Bytes)
  /-- plugin.ts:54-58 -/
  | lib
  /-- plugin.ts:60-64 -/
  | error
  /-- plugin.ts:66-79 -/
  | actions (modules : List (Bytes × List Bytes))
  /-- what was configured before -/
  | user (n : Nat)
  deriving DecidableEq, Repr

structure Entry where
  content : Content
  ifNotExists : Bool
  deriving DecidableEq, Repr

/-- `o[k] = v` -/
def assign {β : Type} : List (Bytes × β) → Bytes → β → List (Bytes × β)
  | [], k, v => [(k, v)]
  | (k', v') :: o, k, v => if k' = k then (k, v) :: o else (k', v') :: assign o k v

/-- `o[k].push(x)`; a missing key would be an error, but the plugin has assigned it before. plugin.ts:36 -/
def pushTo (o : List (Bytes × List Bytes)) (k x : Bytes) : List (Bytes × List Bytes) :=
  o.map fun p => if p.1 = k then (p.1, p.2 ++ [x]) else p

/-- `./src/actions/${rusty_iface}/${rusty_action}.rs`. plugin.ts:37 -/
def actionPath (i a : Bytes) : Bytes := lit "./src/actions/" ++ i ++ lit "/" ++ a ++ lit ".rs"

def libPath : Bytes := lit "./src/lib.rs"
def errorPath : Bytes := lit "./src/error.rs"
def modPath : Bytes := lit "./src/actions/mod.rs"

/-- `config.generates` and `modules`. plugin.ts:20, 28 -/
structure Config where
  generates : List (Bytes × Entry)
  modules : List (Bytes × List Bytes)
  deriving DecidableEq, Repr

/-- One operation of a service. plugin.ts:34-49; `none`: `determineVariant` throws. -/
def planOp (c : Cases) (i : Bytes) (s : Config) (o : Oper) : Option Config :=
  match determineVariant o with
  | none => none
  | some k =>
    some ⟨assign s.generates (actionPath i (c.rustify o.name)) ⟨.scaffold k i (c.rustify o.name), true⟩,
      pushTo s.modules i (c.rustify o.name)⟩

/-- All operations of a service. -/
def planOps (c : Cases) (i : Bytes) : List Oper → Config → Option Config
  | [], s => some s
  | o :: os, s =>
    match planOp c i s o with
    | none => none
    | some s' => planOps c i os s'

/-- One interface. plugin.ts:30-51 -/
def planIface (c : Cases) (s : Config) (i : Iface) : Option Config :=
  if i.role = .service then planOps c (c.rustify i.name) i.ops ⟨s.generates, assign s.modules (c.rustify i.name) []⟩
  else some s

/-- All interfaces. -/
def planIfaces (c : Cases) : List Iface → Config → Option Config
  | [], s => some s
  | i :: is, s =>
    match planIface c s i with
    | none => none
    | some s' => planIfaces c is s'

/-- The plugin: what is in `generates` after it. plugin.ts:16-82; `pre` is what the configuration had before. -/
def plan (c : Cases) (pre : List (Bytes × Entry)) (d : Doc) : Option (List (Bytes × Entry)) :=
  (planIfaces c d.ifaces ⟨pre, []⟩).map fun s =>
    assign (assign (assign s.generates libPath ⟨.lib, true⟩) errorPath ⟨.error, true⟩) modPath ⟨.actions s.modules, false⟩

/-! ## What is written -/

/-- `this.ops[operation.name] ||= …`: an operation of the same name is there already and stays.
visitors/service-visitor.ts:94-97 -/
def keepFirst (ops : List (Bytes × Method)) (n : Bytes) (k : Method) : List (Bytes × Method) :=
  if ops.any (fun p => p.1 == n) then ops else ops ++ [(n, k)]

/-- `ops` after all operations of a service. visitors/service-visitor.ts:85-104; `none`: `determineVariant` throws. -/
def details : List Oper → List (Bytes × Method) → Option (List (Bytes × Method))
  | [], l => some l
  | o :: os, l =>
    match determineVariant o with
    | none => none
    | some k => details os (keepFirst l o.name k)

/-- The call of one operation. visitors/service-visitor.ts:44-55 -/
def callOf (c : Cases) (iface : Bytes) (p : Bytes × Method) : Option TaskCall :=
  (callShape p.2).map fun s => ⟨c.rustify iface, c.rustify p.1, c.rustify iface ++ lit "_service", s⟩

/-- The modules of operations: `pub mod ${name}`, one for each. visitors/service-visitor.ts:99, 250-260,
visitors/provider-visitor.ts:126, 175 -/
def opMods (c : Cases) (i : Iface) : List Bytes := i.ops.map fun o => c.rustify o.name

/-- An interface. default-visitor.ts:103-117, visitors/service-visitor.ts:32-83, visitors/provider-visitor.ts:29-54 -/
def writeIface (c : Cases) (f : ActionsFile) (i : Iface) : Option ActionsFile :=
  match i.role with
  | .service =>
    match details i.ops [] with
    | none => none
    | some l =>
      (allSome (l.map (callOf c i.name))).map fun calls =>
        { f with
          typeMods := f.typeMods ++ [(c.rustify i.name ++ lit "_service", opMods c i)]
          calls := f.calls ++ calls }
  | .provider =>
    if i.ops.all fun o => (determineVariant o).isSome then
      some { f with providers := f.providers ++ [(c.rustify i.name, opMods c i)] }
    else none
  | .other => some f

def writeIfaces (c : Cases) : List Iface → ActionsFile → Option ActionsFile
  | [], f => some f
  | i :: is, f =>
    match writeIface c f i with
    | none => none
    | some f' => writeIfaces c is f'

/-- `DefaultVisitor` on a document. default-visitor.ts:50-61: the modules of the configuration come first. -/
def actionsFile (c : Cases) (modules : List (Bytes × List Bytes)) (d : Doc) : Option ActionsFile :=
  writeIfaces c d.ifaces ⟨modules, [], [], []⟩

/-- What an entry writes. action-scaffold.ts:7-33, lib-boilerplate.ts:5-13, error-boilerplate.ts:5-15 -/
def content (c : Cases) (d : Doc) : Content → Option File
  | .scaffold k i a => some (.task (i ++ lit "_service") a (scaffoldShape k))
  | .lib => some .lib
  | .error => some .error
  | .actions m => (actionsFile c m d).map .actions
  | .user n => some (.hand n)

/-- The files there are. -/
abbrev Disk := Bytes → Option File

/-- One entry is written. -/
def writeEntry (c : Cases) (d : Doc) (disk : Disk) (p : Bytes × Entry) : Option Disk :=
  if p.2.ifNotExists = true ∧ (disk p.1).isSome = true then some disk
  else (content c d p.2.content).map fun f => fun q => if q = p.1 then some f else disk q

/-- All entries are written. -/
def writeAll (c : Cases) (d : Doc) : List (Bytes × Entry) → Disk → Option Disk
  | [], disk => some disk
  | p :: ps, disk =>
    match writeEntry c d disk p with
    | none => none
    | some disk' => writeAll c d ps disk'

/-- The generator is run on a document. `none`: it throws. -/
def run (c : Cases) (pre : List (Bytes × Entry)) (d : Doc) (disk : Disk) : Option Disk :=
  match plan c pre d with
  | none => none
  | some es => writeAll c d es disk

/-! ## The compiler -/

/-- The modules that `src/actions/mod.rs` has at its top. -/
def ActionsFile.top (f : ActionsFile) : List Bytes := f.mods.map (·.1) ++ f.typeMods.map (·.1) ++ f.providers.map (·.1)

/-- Is the module `a` declared in the module `i` of this list? -/
def declares (l : List (Bytes × List Bytes)) (i a : Bytes) : Prop := ∃ as, (i, as) ∈ l ∧ a ∈ as

/-- The call finds a function and agrees with it. -/
def Fits (f : ActionsFile) (disk : Disk) (t : TaskCall) : Prop :=
  declares f.mods t.iface t.action ∧ declares f.typeMods t.types t.action ∧
    ((∃ n, disk (actionPath t.iface t.action) = some (.hand n)) ∨ disk (actionPath t.iface t.action) = some (.task t.types t.action t.shape))

/-- The compiler accepts the project, as far as the modules and the calls of tasks go. A file of an action that is not a scaffold
may fit. -/
structure Accepted (disk : Disk) : Prop where
  lib : (disk libPath).isSome = true
  error : (disk errorPath).isSome = true
  actions : ∃ f, disk modPath = some (.actions f) ∧ f.top.Nodup ∧ (∀ p ∈ f.mods ++ f.typeMods ++ f.providers, p.2.Nodup) ∧
    (∀ i a, declares f.mods i a → (disk (actionPath i a)).isSome = true) ∧
    (∀ i a ty b s, declares f.mods i a → disk (actionPath i a) = some (.task ty b s) → declares f.typeMods ty b) ∧
    ∀ t ∈ f.calls, Fits f disk t

end Iota.RustProject
