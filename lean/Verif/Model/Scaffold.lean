import Verif.Model.Imports

/-!
# Scaffolds of services and the main program

Model of what the TinyGo code generator writes for those who implement services
(`/repo/codegen/src/tinygo/scaffold_visitor.ts`), of the Go interfaces that the services are to implement
(`interface_visitor.ts`) and of the main program that puts both together (`main_visitor.ts`).

Simplifications: types in Go are reduced to the reactive wrappers around the types of definitions; names of methods are
those of operations. `noCode`, `isOneOfType`, `isService`, `hasServiceCode` and `InterfaceUsesVisitor` belong to a
dependency: they are taken to look at the annotations, at the operations with code of services, and at the annotation
`uses` of services. The dependency's visitor of interfaces leaves operations without code out, as in
`/repo/codegen/testdata/tinygo/expected/pkg/urlshortener/interfaces.go`, and writes the same parameters as the scaffold.
Of functions only the result is visited (what `isValid` does with their parameters depends on the dependency). Aliases
with an import of their own are left out. The code inside of methods is the one return statement.
-/

namespace Iota.Scaffold
open Iota.Codegen Iota.Calls Iota.Imports Iota.Spec.GoFile

/-- The packages of the file with the scaffold. -/
inductive Pkg where
  | context | errors | time | mono | flux | logger
  deriving DecidableEq

/-- Types of results: `struct{}`, values, `mono.Mono[...]`, `flux.Flux[...]`, and what the dependency writes for a
stream unless told otherwise. -/
inductive GoTy where
  | unit
  | value (t : T)
  | mono (t : GoTy)
  | flux (t : GoTy)
  | stream (t : GoTy)
  deriving DecidableEq

/-- A method of an interface or of an implementation. -/
structure Method where
  name : String
  params : List Param
  result : GoTy

/-- An interface with its annotations: their names, and the interfaces that it uses. -/
structure Iface where
  name : String
  roles : List String
  uses : List String
  ops : List Op

structure Namespace where
  ifaces : List Iface
  funcs : List Op

/-- The configuration of the generator: `types`, `names`, `logger`, `package`. -/
structure Config where
  types : List String
  names : List String
  logger : Bool
  package : Option String

/-- `isService`. -/
def Iface.service (i : Iface) : Bool := i.roles.contains "service"

/-- Operations with code. -/
def Iface.coded (i : Iface) : List Operation := (i.ops.filter fun o => !o.noCode).map (·.op)

/-- Is the scaffold written for the interface? scaffold_visitor.ts:100-105, 352-357 (`isValid`) -/
def Config.selects (cfg : Config) (i : Iface) : Bool := i.roles.any cfg.types.contains || cfg.names.contains i.name

/-! ## Interfaces and their implementations -/

/-- The type that is written for the result of an operation, without wrapper; for streams, `expandType` applies the
pattern. `set`: whether `setExpandStreamPattern` was called before, as the visitor of interfaces does.
interface_visitor.ts:27-30 -/
def expand (set : Bool) (op : Operation) : GoTy :=
  if op.streamOut then (if set then .flux (.value op.ret) else .stream (.value op.ret)) else .value op.ret

/-- `isVoid` of the type of an operation. -/
def isVoid (op : Operation) : Bool := !op.streamOut && decide (op.ret = .void)

/-- interface_visitor.ts:32-47 (`visitOperationReturn`): the type inside of the stream is expanded. -/
def interfaceMethod (op : Operation) : Method where
  name := op.name
  params := op.params
  result := if isVoid op then .mono .unit else if op.streamOut then .flux (.value op.ret) else .mono (.value op.ret)

/-- scaffold_visitor.ts:171-183 (`visitOperation`): the type of the operation is expanded. -/
def scaffoldMethod (set : Bool) (op : Operation) : Method where
  name := op.name
  params := op.params
  result := if isVoid op then .mono .unit else if op.streamOut then .flux (expand set op) else .mono (expand set op)

/-- The methods of the interface in Go. -/
def declaredMethods (i : Iface) : List Method := i.coded.map interfaceMethod

/-- The methods of `XImpl`. scaffold_visitor.ts:149-204 -/
def implMethods (cfg : Config) (set : Bool) (i : Iface) : List Method :=
  if cfg.selects i then i.coded.map (scaffoldMethod set) else []

/-! ## Construction -/

/-- An argument: the logger, or an interface that is used. -/
inductive Arg where
  | log
  | dep (name : String)
  deriving DecidableEq

/-- The parameters of `NewX`. scaffold_visitor.ts:123-135 -/
def constructor (cfg : Config) (i : Iface) : List Arg := (if cfg.logger then [.log] else []) ++ i.uses.map .dep

/-- The arguments that the main program passes. main_visitor.ts:66-78 -/
def construction (i : Iface) : List Arg := i.uses.map .dep

/-- The interfaces whose `NewX` the main program calls without arguments. main_visitor.ts:55-64 -/
def providers (ns : Namespace) : List String := (ns.ifaces.filter (·.service)).flatMap (·.uses)

/-- The interfaces that the main program registers. main_visitor.ts:80-102 -/
def registered (ns : Namespace) : List Iface := ns.ifaces.filter (·.service)

/-- The package of the scaffold. scaffold_visitor.ts:59 -/
def scaffoldPackage (cfg : Config) : String :=
  match cfg.package with
  | some p => if p = "" then "myapp" else p
  | none => "myapp"

/-- The package that the main program names. main_visitor.ts:53, 92 -/
def mainPackage (cfg : Config) : String :=
  match cfg.package with
  | some p => if p = "" then "module" else p
  | none => "module"

/-! ## Imports of the scaffold -/

/-- `hasServiceCode`. -/
def hasServiceCode (ns : Namespace) : Bool := ns.ifaces.any fun i => i.service && i.ops.any fun o => !o.noCode

/-- scaffold_visitor.ts:66-70 -/
def hasInterfaces (cfg : Config) (ns : Namespace) : Bool := ns.ifaces.any cfg.selects

/-- `checkType` of the type of a parameter or result: a datetime, also in lists, maps and optional values, but not
by an alias. scaffold_visitor.ts:284-349 -/
def typeImports (t : T) : List Pkg := if Imports.Pkg.time ∈ typeRefs t then [.time] else []

/-- The visit of an operation and its parameters. scaffold_visitor.ts:245-258, 275-282, 336-344 -/
def opImports (op : Operation) : List Pkg :=
  (if op.streamOut then [.flux] else [.mono]) ++ typeImports op.ret ++
  op.params.flatMap fun p => (if p.stream then [.flux] else []) ++ typeImports p.ty

/-- The visit of a function. scaffold_visitor.ts:240-243 -/
def funcImports (op : Operation) : List Pkg := if op.streamOut then [] else [.mono]

/-- What the visitor of imports collects. scaffold_visitor.ts:240-258 -/
def visited (cfg : Config) (ns : Namespace) : List Pkg :=
  (ns.funcs.flatMap fun f => funcImports f.op) ++
  (ns.ifaces.filter cfg.selects).flatMap fun i => i.ops.flatMap fun o => opImports o.op

/-- `addType`: once each. scaffold_visitor.ts:260-273 -/
def once : List Pkg → List Pkg
  | [] => []
  | p :: ps => p :: (once ps).filter (· ≠ p)

/-- The import section. scaffold_visitor.ts:74-87 -/
def imports (cfg : Config) (ns : Namespace) : List Pkg :=
  if hasInterfaces cfg ns then
    (if hasServiceCode ns then [.context] else []) ++ [.errors] ++ once (visited cfg ns) ++
    (if cfg.logger then [.logger] else [])
  else []

/-- Packages in the text of a type. -/
def valueRefs (t : T) : List Pkg := if Imports.Pkg.time ∈ typeRefs t then [.time] else []

def resultRefs : GoTy → List Pkg
  | .unit => []
  | .value t => valueRefs t
  | .mono t => .mono :: resultRefs t
  | .flux t => .flux :: resultRefs t
  | .stream t => resultRefs t

/-- A method: parameters, the type of the result, and the return statement. scaffold_visitor.ts:149-204 -/
def methodRefs (set : Bool) (op : Operation) : List Pkg :=
  [.context] ++ (op.params.flatMap fun p => (if p.stream then [.flux] else []) ++ valueRefs p.ty) ++
  resultRefs (scaffoldMethod set op).result ++ resultRefs (scaffoldMethod set op).result ++ [.errors]

/-- The type and its constructor. scaffold_visitor.ts:106-147 -/
def typeDeclRefs (cfg : Config) : List Pkg := if cfg.logger then [.logger, .logger] else []

/-- The file with the scaffold. -/
def scaffoldFile (cfg : Config) (set : Bool) (ns : Namespace) : File Pkg where
  imports := imports cfg ns
  uses := (ns.ifaces.filter cfg.selects).flatMap fun i => typeDeclRefs cfg ++ i.coded.flatMap (methodRefs set)

end Iota.Scaffold
