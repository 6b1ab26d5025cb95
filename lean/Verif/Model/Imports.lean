import Verif.Model.Calls
import Verif.Spec.GoFile

/-!
# Imports of generated Go files

Model of what the TinyGo code generator writes into the import sections of the files with the wrappers
(`/repo/codegen/src/tinygo/export_visitor.ts`) and with the importing functions (`import_visitor.ts`), and of
the packages that the code in these files names (`register_visitor.ts`, `wrappers_visitor.ts`,
`invokers_visitor.ts`).

Simplifications: code is reduced to the packages of its qualified names, in the order of writing. Aliases that
the configuration gives an import of their own are left out, and so is the order of the imports (they are
sorted). `isHandler`, `isProvider` and `noCode` belong to a dependency: they are taken to be true of the
annotations that the definitions carry (`isHandler` of `@service` and of others; the latter are the
definitions with `handler` and without `service`), and `noCode` to be false where there is no operation.
`expandType` of the dependency names `time` for a datetime, no package for types with a name, and applies the
pattern set with `setExpandStreamPattern` to streams. What else than `msgpack` the code of `msgpackRead`
names is not modelled.
-/

namespace Iota.Imports
open Iota.Codegen Iota.Calls Iota.Spec.GoFile

/-- The packages that generated files import. -/
inductive Pkg where
  | context | binary | time | invoke | payload | proxy | mono | flux | transform | msgpack
  deriving DecidableEq

def Rx.pkg : Rx → Pkg
  | .mono => .mono
  | .flux => .flux

/-- An operation or function with its annotations. -/
structure Op where
  op : Operation
  noCode : Bool

/-- An interface with its annotations. -/
structure Iface where
  handler : Bool
  service : Bool
  provider : Bool
  ops : List Op

/-- A function with its annotations. -/
structure Func where
  handler : Bool
  service : Bool
  provider : Bool
  fn : Op

structure Namespace where
  ifaces : List Iface
  funcs : List Func

/-- `Set.add` of JavaScript. -/
def add (s : List Pkg) (p : Pkg) : List Pkg := if p ∈ s then s else s ++ [p]

/-- Several of them. -/
def addAll (s : List Pkg) (ps : List Pkg) : List Pkg := ps.foldl add s

/-! ## Types -/

/-- Packages in the text of `expandType`. An alias is written as its name. -/
def tyRefs : Ty → List Pkg
  | .prim .time => [.time]
  | .prim _ => []
  | .cast _ => []
  | .named _ => []
  | .opt t => tyRefs t
  | .list t => tyRefs t
  | .map k t => (if k = .time then [.time] else []) ++ tyRefs t

/-- The same for the type of a parameter or result. -/
def typeRefs : T → List Pkg
  | .void => []
  | .prim p => tyRefs (.prim p)
  | .enum => []
  | .alias _ => []
  | .aliasObj _ => []
  | .obj _ => []
  | .list t => tyRefs t
  | .map k t => tyRefs (.map k t)
  | .opt t => tyRefs t

/-- Whether a visit of the type comes to a datetime; other than `expandType`, the visitors look into aliases.
import_visitor.ts:281-325 (`visitCheckType`) -/
def tyTime : Ty → Bool
  | .prim p => p = .time
  | .cast p => p = .time
  | .named _ => false
  | .opt t => tyTime t
  | .list t => tyTime t
  | .map k t => k = .time || tyTime t

/-- The same for the type of a parameter or result, without its stream. import_visitor.ts:281-325 -/
def typeTime : T → Bool
  | .void => false
  | .prim p => p = .time
  | .enum => false
  | .alias p => p = .time
  | .aliasObj _ => false
  | .obj _ => false
  | .list t => tyTime t
  | .map k t => tyTime (.map k t)
  | .opt t => tyTime t

/-! ## The file with the wrappers -/

/-- The elements of a stream parameter: `flux.Map(in, ...)`. wrappers_visitor.ts:123-170 -/
def serverInRefs : T → List Pkg
  | .prim _ => [.flux, .transform]
  | .enum => [.flux, .transform]
  | .alias _ => [.flux, .transform]
  | .aliasObj _ => [.flux, .payload, .transform]
  | t => [.flux, .transform] ++ typeRefs t

/-- Decoding the only parameter of a unary operation; a failure is returned with `Error` of the package `rx`.
wrappers_visitor.ts:185-247 -/
def serverUnaryRefs (rx : Pkg) : T → List Pkg
  | .enum => [.transform, rx, .payload]
  | .alias _ => [.transform, rx, .payload]
  | .aliasObj _ => [.transform, rx, .payload]
  | .obj _ => [.transform, rx, .payload]
  | .opt _ => [.msgpack, rx, .payload]
  | _ => [.msgpack, rx, .payload]

/-- Decoding all parameters but the stream. wrappers_visitor.ts:185-271 -/
def serverArgRefs (op : Operation) : List Pkg :=
  match op.unary, op.args with
  | true, p :: _ => serverUnaryRefs (Rx.pkg (package op)) p.ty
  | _, [] => []
  | false, _ :: _ => [.transform, Rx.pkg (package op), .payload]

/-- The return statement. wrappers_visitor.ts:272-324 -/
def serverResultRefs (op : Operation) : List Pkg :=
  match op.ret with
  | .void => [.mono, .transform]
  | .prim _ => [Rx.pkg (package op), .transform]
  | .alias _ => [Rx.pkg (package op), .transform]
  | .aliasObj _ => [Rx.pkg (package op), .payload, .transform]
  | .enum => [Rx.pkg (package op), .transform]
  | .list t => [.mono, .transform] ++ tyRefs t
  | .obj _ => [Rx.pkg (package op), .transform] ++ (if op.streamOut then [.flux] else [])
  | .map _ _ => []
  | .opt _ => []

/-- A wrapper. wrappers_visitor.ts:94-328 (`doHandler`) -/
def wrapperRefs (op : Operation) : List Pkg :=
  [.invoke, .context, .payload] ++ (if op.streamIn.isSome then [.flux, .payload] else []) ++
  [Rx.pkg (wrapped op), .payload] ++ serverArgRefs op ++
  (match op.streamIn with | some t => serverInRefs t | none => []) ++ serverResultRefs op

/-- The operations of interfaces that wrappers and registrations are written for.
wrappers_visitor.ts:53-58, register_visitor.ts:41-44 -/
def Iface.exported (i : Iface) : List Operation :=
  if i.handler then (i.ops.filter fun o => !o.noCode).map (·.op) else []

/-- All operations and functions that wrappers are written for. wrappers_visitor.ts:53-66 -/
def exported (ns : Namespace) : List Operation :=
  (ns.funcs.filter fun f => !f.provider).map (·.fn.op) ++ ns.ifaces.flatMap Iface.exported

/-- Imports for the result of an operation: `mono` if it is no stream, `flux` if it is one.
export_visitor.ts:64-81, 93-130 -/
def resultImports (op : Operation) : List Pkg := if op.streamOut then [.flux] else [.mono]

/-- Imports for the parameters of an operation: for unary ones, if they are streams.
export_visitor.ts:83-91, 107-112 -/
def serverParamImports (op : Operation) : List Pkg :=
  if op.unary then op.params.flatMap fun p => if p.stream then [.flux] else [] else []

/-- What the imports visitor adds for the operations and functions of a namespace. Functions are visited
whatever their annotations, but their parameters only if they are handlers. Operations without code are
visited as well. export_visitor.ts:61-91 -/
def serverImports (ns : Namespace) : List Pkg :=
  (ns.funcs.flatMap fun f => resultImports f.fn.op ++ (if f.handler then serverParamImports f.fn.op else [])) ++
  ns.ifaces.flatMap fun i =>
    if i.handler then i.ops.flatMap fun o => resultImports o.op ++ serverParamImports o.op else []

/-- The file with the wrappers: its fixed imports and those of the visitor; the code of `RegisterVisitor` and
`WrappersVisitor`. export_visitor.ts:33-59, register_visitor.ts:31-72, wrappers_visitor.ts:53-92 -/
def serverFile (ns : Namespace) : File Pkg where
  imports := [.context, .invoke, .payload] ++ addAll [] (serverImports ns) ++ [.transform]
  uses := (exported ns).flatMap (fun _ => [.invoke]) ++ (exported ns).flatMap wrapperRefs

/-! ## The file with the importing functions -/

/-- The type of the result in the signature. `mono.Void` is written for an operation without result; a stream of
nothing is a `Flux`. invokers_visitor.ts:61-76 (`visitOperationReturn`) -/
def resultTypeRefs (op : Operation) : List Pkg :=
  match op.ret with
  | .void => if op.streamOut then [.flux] else [.mono]
  | t => Rx.pkg (declared op) :: typeRefs t

/-- The signature. invokers_visitor.ts:55-59, 78-105 -/
def signatureRefs (op : Operation) : List Pkg :=
  [.context] ++ (op.params.flatMap fun p => (if p.stream then [.flux] else []) ++ typeRefs p.ty) ++
  resultTypeRefs op

/-- The type that `Error` is instantiated with. invokers_visitor.ts:110-112 -/
def returnTypeRefs (op : Operation) : List Pkg :=
  match returns op with
  | none => []
  | some t => typeRefs t

/-- Encoding the parameters. invokers_visitor.ts:114-181 -/
def clientArgRefs (op : Operation) : List Pkg :=
  match op.unary, op.args with
  | true, p :: _ =>
    match p.ty with
    | .enum => [.msgpack, Rx.pkg (package op)] ++ returnTypeRefs op
    | .obj _ => [.msgpack, Rx.pkg (package op)] ++ returnTypeRefs op
    | .prim _ => [.msgpack, Rx.pkg (package op)] ++ returnTypeRefs op
    | _ => []
  | _, [] => []
  | false, _ :: _ => [.msgpack, Rx.pkg (package op)] ++ returnTypeRefs op

/-- The stream parameter. invokers_visitor.ts:193-230 -/
def clientInRefs : T → List Pkg
  | .prim _ => [.flux, .transform]
  | .alias _ => [.flux, .transform]
  | .aliasObj _ => [.flux, .payload, .transform]
  | .enum => [.flux, .transform]
  | .obj _ => [.flux, .transform]
  | _ => [.flux]

/-- The return statement. invokers_visitor.ts:234-275 -/
def clientResultRefs (op : Operation) : List Pkg :=
  match returns op with
  | none => [.mono, .transform]
  | some .void => [.mono, .transform]
  | some (.alias _) => [Rx.pkg (package op), .transform]
  | some (.aliasObj _) => [Rx.pkg (package op), .payload, .transform]
  | some .enum => [Rx.pkg (package op), .transform]
  | some (.prim _) => [Rx.pkg (package op), .transform]
  | some (.list t) => [Rx.pkg (package op), .transform] ++ tyRefs t
  | some t => [Rx.pkg (package op), .transform] ++ typeRefs t

/-- An importing function. invokers_visitor.ts:78-276 (`doHandler`) -/
def invokerRefs (op : Operation) : List Pkg :=
  signatureRefs op ++ clientArgRefs op ++ [.proxy, .binary, .binary, .payload] ++
  (match op.streamIn with | some t => clientInRefs t | none => []) ++ clientResultRefs op

/-- The two kinds of this file differ in what they are written for: `ProviderVisitor` for providers,
`ImportVisitor` for handlers. -/
inductive Side where | provider | handler
  deriving DecidableEq

/-- The filter of a visitor for an interface; there is no operation, so `noCode` does not count.
import_visitor.ts:131-134, 173-175, 200-202 -/
def Side.takesIface (s : Side) (i : Iface) : Bool :=
  match s with
  | .provider => i.provider
  | .handler => i.handler

/-- The filter for an operation of an interface. import_visitor.ts:173-175, 200-202, 260-263 -/
def Side.takesOp (s : Side) (i : Iface) (o : Op) : Bool :=
  match s with
  | .provider => i.provider && !o.noCode
  | .handler => i.handler

/-- The filter for a function. import_visitor.ts:123-126, 173-175, 200-202, 256-258 -/
def Side.takesFunc (s : Side) (f : Func) : Bool :=
  match s with
  | .provider => f.provider && !f.fn.noCode
  | .handler => f.handler

/-- `hasAny`. import_visitor.ts:150-172, 184-199. The first looks for an interface none of whose operations is
without code. -/
def Side.hasAny (s : Side) (ns : Namespace) : Bool :=
  match s with
  | .provider => (ns.ifaces.any fun i => i.provider && i.ops.all fun o => !o.noCode) || ns.funcs.any (·.provider)
  | .handler => ns.ifaces.any (·.service) || ns.funcs.any (·.service)

/-- The operations and functions that importing functions are written for. All operations of an interface are
visited by `InvokersVisitor`. import_visitor.ts:123-143, invokers_visitor.ts:47-53 -/
def imported (s : Side) (ns : Namespace) : List Operation :=
  (ns.funcs.filter s.takesFunc).map (·.fn.op) ++
  (ns.ifaces.filter s.takesIface).flatMap fun i => i.ops.map (·.op)

/-- The operations and functions that the imports visitor looks at. import_visitor.ts:246-279 -/
def looked (s : Side) (ns : Namespace) : List Operation :=
  (ns.funcs.filter s.takesFunc).map (·.fn.op) ++
  ns.ifaces.flatMap fun i => (i.ops.filter (s.takesOp i)).map (·.op)

/-- Imports for an operation other than `time`: the package of the result, and `flux` if there is a stream
among the parameters of an operation that is not unary. import_visitor.ts:260-279, 301-306 -/
def clientOpImports (op : Operation) : List Pkg :=
  resultImports op ++ (if op.unary then [] else op.params.flatMap fun p => if p.stream then [.flux] else [])

/-- `time`, for the result and the parameters of an operation that is not unary. import_visitor.ts:260-289 -/
def clientOpTime (op : Operation) : List Pkg :=
  (if typeTime op.ret then [.time] else []) ++
  (if op.unary then [] else op.params.flatMap fun p => if typeTime p.ty then [.time] else [])

/-- `invoke.ImportX` of the functions and operations. import_visitor.ts:58-121, 223-238. `time` is in the
standard library and comes with other imports of that kind (`stdLibs`). -/
def clientFile (s : Side) (ns : Namespace) : File Pkg where
  imports :=
    if s.hasAny ns then
      [.context, .binary] ++ addAll [] ((looked s ns).flatMap clientOpTime) ++ [.invoke, .payload, .proxy] ++
      addAll [] ((looked s ns).flatMap clientOpImports) ++ [.transform, .msgpack]
    else [.invoke]
  uses := [.invoke, .invoke] ++
    (if s.hasAny ns then (ns.funcs.filter (·.provider)).flatMap (fun _ => [.invoke]) else []) ++
    ((ns.ifaces.filter s.takesIface).flatMap fun i => i.ops.flatMap fun _ => [.invoke]) ++
    (imported s ns).flatMap invokerRefs

end Iota.Imports
