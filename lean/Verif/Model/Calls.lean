import Verif.Model.Codegen
import Verif.Model.Transform

/-!
# Generated calls

Model of the parts of the TinyGo code generator that write the two ends of a call: the exported wrappers
(`/repo/codegen/src/tinygo/wrappers_visitor.ts`, `register_visitor.ts`) and the importing functions
(`invokers_visitor.ts`, `import_visitor.ts`, `utilities.ts`). Modelled is which functions of the libraries
`/repo/go/transform` and `/repo/go/msgpack` the generated code names and which value goes in and comes out,
and whether the Go compiler accepts it: whether the library has these functions, their types, and the types
of the Mono or Flux around the values.

Not modelled: the text around these names, `import` sections and annotations (`@nocode`, `@rename`, aliases
with an import of their own). The functions `isObject`, `isPrimitive`, `isVoid`, `expandType`, `mapParam`,
`returnShare`, `operationArgsType` and `msgpackRead` that the visitors import are in a dependency that is not
part of the repository; they are taken to do what their names say. Whether `isObject` is true of an
optional is not known, so optional results and optional unary parameters count as not written.
-/

namespace Iota.Calls
open Iota.Go Iota.Msgpack Iota.Codegen

/-! ## Definitions of operations -/

/-- Types of parameters and results, as the visitors tell them apart. -/
inductive T where
  | void
  | prim (p : Prim)
  | enum
  /-- an alias of a primitive type -/
  | alias (p : Prim)
  /-- an alias of a type or union -/
  | aliasObj (n : Nat)
  /-- a type or union -/
  | obj (n : Nat)
  | list (t : Ty)
  | map (k : Prim) (t : Ty)
  | opt (t : Ty)
  deriving DecidableEq

/-- The type as a field of a type. -/
def T.ty : T → Ty
  | .void => .prim .bool
  | .prim p => .prim p
  | .enum => .cast .i32
  | .alias p => .cast p
  | .aliasObj n => .named n
  | .obj n => .named n
  | .list t => .list t
  | .map k t => .map k t
  | .opt t => .opt t

/-- A parameter; `ident` is its name in Go. If `stream`, the parameter is a stream of values of type `ty`. -/
structure Param where
  name : Bytes
  ident : String
  stream : Bool
  ty : T

/-- An operation of an interface or a function. Its result is a `ret`, or a stream of them. -/
structure Operation where
  name : String
  unary : Bool
  params : List Param
  streamOut : Bool
  ret : T

/-- wrappers_visitor.ts:106-108, utilities.ts:44-51 -/
def Operation.streams (op : Operation) : List Param := op.params.filter fun p => p.stream

/-- wrappers_visitor.ts:109-111, utilities.ts:41-43 -/
def Operation.args (op : Operation) : List Param := op.params.filter fun p => !p.stream

/-- wrappers_visitor.ts:112, utilities.ts:52 -/
def Operation.streamIn (op : Operation) : Option T := op.streams.head?.map (·.ty)

/-! ## Kinds and names -/

inductive Style where | requestResponse | requestStream | requestChannel
  deriving DecidableEq

/-- The argument of `invoke.ExportX` of an operation of an interface. register_visitor.ts:52-59 -/
def registerStyle (op : Operation) : Style :=
  if op.streamIn.isSome || op.streamOut then
    if op.streamIn.isSome then .requestChannel else .requestStream
  else .requestResponse

/-- The type of the handler that a wrapper returns. wrappers_visitor.ts:101, 119-122, 175, 181 -/
def wrapperStyle (op : Operation) : Style :=
  if op.streamIn.isSome || op.streamOut then
    if op.streamIn.isSome then .requestChannel else .requestStream
  else .requestResponse

/-- The kind of call that an importing function makes. utilities.ts:40, 60-63 -/
def callStyle (op : Operation) : Style :=
  if op.streamIn.isSome || op.streamOut then
    if op.streamIn.isSome then .requestChannel else .requestStream
  else .requestResponse

/-- The name of an interface or, for functions, of the namespace.
register_visitor.ts:62, wrappers_visitor.ts:89, import_visitor.ts:112, 236 -/
def qualified (ns : String) : Option String → String
  | some iface => ns ++ "." ++ iface
  | none => ns

/-- `invoke.ExportX(a, b, ...)`: register_visitor.ts:61-63, wrappers_visitor.ts:87-91 -/
def serverExport (ns : String) (iface : Option String) (op : Operation) : Style × String × String :=
  (registerStyle op, qualified ns iface, op.name)

/-- `invoke.ImportX(a, b)`: import_visitor.ts:106-114, 229-238 -/
def clientImport (ns : String) (iface : Option String) (op : Operation) : Style × String × String :=
  (callStyle op, qualified ns iface, op.name)

/-! ## Values and payloads -/

/-- A piece of generated code that turns a value into a payload or a payload into a value. -/
inductive Step where
  /-- `transform.X.Encode`, `transform.X.Decode` -/
  | var (x : String)
  /-- `transform.X.Decode` followed by a conversion -/
  | varConv (x : String)
  /-- `transform.XEncode[T]`, `transform.XDecode[T]` -/
  | generic (x : String)
  /-- `transform.MsgPackEncode[T]`, `transform.CodecEncode`, `msgpack.ToBytes` and so on of a type -/
  | codec (n : Nat)
  /-- `transform.MsgPackEncode[X]` for an X that has no such methods -/
  | noCodec
  /-- `transform.SliceEncode[T]`, `transform.SliceDecode[T]` -/
  | slice (t : Ty)
  /-- `msgpack.XToBytes` -/
  | toBytes (x : String)
  /-- `msgpack.XToBytes` of a conversion -/
  | toBytesConv (x : String)
  /-- reading with `msgpackRead` -/
  | read (t : Ty)
  /-- nothing is written -/
  | absent
  deriving DecidableEq

/-- `PrimitiveName`, with a capital letter. -/
def capitalName : Prim → String
  | .str => "String" | .bool => "Bool" | .time => "Datetime" | .i8 => "I8" | .u8 => "U8" | .i16 => "I16"
  | .u16 => "U16" | .i32 => "I32" | .u32 => "U32" | .i64 => "I64" | .u64 => "U64" | .f32 => "F32"
  | .f64 => "F64" | .bytes => "Bytes"

/-- The name of the type in Go, with a capital letter. -/
def capitalGo : Prim → String
  | .str => "String" | .bool => "Bool" | .time => "Time.Time" | .i8 => "Int8" | .u8 => "Uint8" | .i16 => "Int16"
  | .u16 => "Uint16" | .i32 => "Int32" | .u32 => "Uint32" | .i64 => "Int64" | .u64 => "Uint64" | .f32 => "Float32"
  | .f64 => "Float64" | .bytes => "[]byte"

/-- `primitiveTransformers`, without `transform.`. constants.ts:17-32 -/
def transformer : Prim → String
  | .bool => "Bool" | .str => "String" | .time => "Time" | .i8 => "Int8" | .u8 => "Uint8" | .i16 => "Int16"
  | .u16 => "Uint16" | .i32 => "Int32" | .u32 => "Uint32" | .i64 => "Int64" | .u64 => "Uint64" | .f32 => "Float32"
  | .f64 => "Float64" | .bytes => "Bytes"

/-- The unary parameter in a wrapper. wrappers_visitor.ts:185-247. For an alias the Go name of its target is
used, for an alias of a type that is no transformer. -/
def serverArg : T → Step
  | .enum => .varConv "Int32"
  | .alias p => .varConv (capitalGo p)
  | .aliasObj _ => .absent
  | .obj n => .codec n
  | .opt _ => .absent
  | t => .read t.ty

/-- The unary parameter in an importing function. invokers_visitor.ts:114-162 -/
def clientArg : T → Step
  | .enum => .toBytesConv "I32"
  | .obj n => .codec n
  | .prim p => .toBytes (capitalName p)
  | _ => .absent

/-- The elements of the stream parameter in a wrapper. wrappers_visitor.ts:123-170 -/
def serverIn : T → Step
  | .prim p => .var (transformer p)
  | .enum => .generic "Int32"
  | .alias p => .generic (capitalName p)
  | .aliasObj n => .codec n
  | .obj n => .codec n
  | _ => .noCodec

/-- The elements of the stream parameter in an importing function. invokers_visitor.ts:193-230 -/
def clientIn : T → Step
  | .prim p => .var (capitalName p)
  | .alias p => .generic (capitalName p)
  | .aliasObj n => .codec n
  | .enum => .generic "Int32"
  | .obj n => .codec n
  | _ => .absent

inductive Rx where | mono | flux
  deriving DecidableEq

/-- `rxPackage`, `returnPackage`. wrappers_visitor.ts:105, utilities.ts:69 -/
def package (op : Operation) : Rx := if op.streamOut then .flux else .mono

/-- The last statement of a wrapper: `Map` of which package and with which function.
wrappers_visitor.ts:272-324. `MsgPackEncode` of a stream is instantiated with the type of the stream
(`operation.type`, wrappers_visitor.ts:317). -/
def serverResult (op : Operation) : Rx × Step :=
  match op.ret with
  | .void => (.mono, .var "Void")
  | .prim p => (package op, .var (transformer p))
  | .alias p => (package op, .generic (capitalName p))
  | .aliasObj n => (package op, .codec n)
  | .enum => (package op, .generic "Int32")
  | .list t => (.mono, .slice t)
  | .obj n => (package op, if op.streamOut then .noCodec else .codec n)
  | .map _ _ => (package op, .absent)
  | .opt _ => (package op, .absent)

/-- `returns`: of an operation with a stream parameter it is the type of the elements of the result, and
undefined if the result is no stream. utilities.ts:59-63 -/
def returns (op : Operation) : Option T :=
  if op.streamIn.isSome || op.streamOut then if op.streamOut then some op.ret else none
  else some op.ret

/-- The last statement of an importing function. invokers_visitor.ts:234-275 -/
def clientResult (op : Operation) : Rx × Step :=
  match returns op with
  | none => (.mono, .var "Void")
  | some .void => (.mono, .var "Void")
  | some (.alias p) => (package op, .generic (capitalName p))
  | some (.aliasObj n) => (package op, .codec n)
  | some .enum => (package op, .generic "Int32")
  | some (.prim p) => (package op, .var (transformer p))
  | some (.list t) => (package op, .slice t)
  | some (.obj n) => (package op, .codec n)
  | some (.map _ _) => (package op, .noCodec)
  | some (.opt _) => (package op, .absent)

/-! ## What the libraries have -/

/-- The variables of `/repo/go/transform/transform.go` of types of the definitions: lines 17, 49, 65, 81, 97, 129,
145, 161, 177, 193, 209, 225, 241, 257, 277. -/
def transforms : List (String × T) :=
  [("String", .prim .str), ("Int64", .prim .i64), ("Int32", .prim .i32), ("Int16", .prim .i16), ("Int8", .prim .i8),
   ("Uint64", .prim .u64), ("Uint32", .prim .u32), ("Uint16", .prim .u16), ("Uint8", .prim .u8),
   ("Float64", .prim .f64), ("Float32", .prim .f32), ("Bytes", .prim .bytes), ("Bool", .prim .bool),
   ("Time", .prim .time), ("Void", .void)]

/-- The generic functions of transform.go: lines 316-374. -/
def generics : List (String × Prim) := [("Int32", .i32), ("Int64", .i64), ("Uint64", .u64), ("String", .str)]

/-- The functions `XToBytes` of `/repo/go/msgpack/codec.go`: lines 41-171. -/
def toBytesFns : List (String × Prim) :=
  [("I8", .i8), ("I16", .i16), ("I32", .i32), ("I64", .i64), ("U8", .u8), ("U16", .u16), ("U32", .u32), ("U64", .u64),
   ("F32", .f32), ("F64", .f64), ("Bool", .bool), ("String", .str), ("Bytes", .bytes)]

/-- Whether the step exists and its value has this type. A generic function takes types whose underlying type
is the one in its name; `SliceEncode` takes elements that have the methods of a codec. -/
def accepts : Step → T → Bool
  | .var x, t => transforms.lookup x == some t
  | .varConv x, .enum => transforms.lookup x == some (.prim .i32)
  | .varConv x, .alias p => transforms.lookup x == some (.prim p)
  | .generic x, .enum => generics.lookup x == some .i32
  | .generic x, .alias p => generics.lookup x == some p
  | .codec n, .obj m => n == m
  | .codec n, .aliasObj m => n == m
  | .slice (.named n), .list (.named m) => n == m
  | .toBytes x, .prim p => toBytesFns.lookup x == some p
  | .toBytesConv x, .enum => toBytesFns.lookup x == some .i32
  | .read _, .void => false
  | .read t, t' => t'.ty == t
  | _, _ => false

/-- The Mono or Flux that a method of the service returns and an importing function is declared with.
interface_visitor.ts:31-46, invokers_visitor.ts:58-74 -/
def declared (op : Operation) : Rx := if op.streamOut then .flux else .mono

/-- What a wrapper is declared to return. wrappers_visitor.ts:102, 119-122 -/
def wrapped (op : Operation) : Rx := if op.streamIn.isSome || op.streamOut then .flux else .mono

/-- What the methods of `invoke.Caller` return (/repo/go/invoke/caller.go:11-21). -/
def Style.rx : Style → Rx
  | .requestResponse => .mono
  | _ => .flux

/-- Whether the compiler accepts a wrapper. More than one stream parameter makes the generator throw. The
handler is called with the stream as its last argument (wrappers_visitor.ts:248-254, 263-270). If there are parameters, a
failure to decode them is returned with `rxPackage.Error`. -/
def serverCompiles (op : Operation) : Bool :=
  decide (op.streams.length ≤ 1) &&
  ((op.args ++ op.streams).map (·.stream) == op.params.map (·.stream)) &&
  (op.args.isEmpty || package op == wrapped op) &&
  (if op.unary then op.args.head?.all fun p => accepts (serverArg p.ty) p.ty else true) &&
  (op.streamIn.all fun t => accepts (serverIn t) t) &&
  ((serverResult op).1 == declared op && (serverResult op).1 == wrapped op && accepts (serverResult op).2 op.ret)

/-- The names that an importing function declares or uses besides those of its parameters: the receiver, the
first argument, variables, packages. invokers_visitor.ts:82-105, 114-191, 229-275 -/
def reserved (receiver : String) (op : Operation) : List String :=
  [receiver, "ctx", "payloadData", "metadata", "stream", "ok", "proxy", "binary", "payload", "pl", "gCaller",
   "future", "transform"] ++
  (if op.args.isEmpty then [] else ["err", "msgpack"]) ++
  (if op.args.isEmpty || op.unary then [] else ["request"]) ++
  (match package op with | .mono => ["mono"] | .flux => ["flux"])

/-- Whether the name of a parameter stands in the way. `ok` and `payloadData` are assigned together with a new
variable, which is allowed if they have the right type. -/
def clash (receiver : String) (op : Operation) (p : Param) : Bool :=
  (reserved receiver op).contains p.ident &&
    !(!p.stream && (p.ident == "ok" && p.ty == .prim .bool || p.ident == "payloadData" && p.ty == .prim .bytes))

/-- Whether the compiler accepts an importing function. -/
def clientCompiles (receiver : String) (op : Operation) : Bool :=
  decide (op.streams.length ≤ 1) &&
  (op.params.all fun p => !clash receiver op p) &&
  (if op.unary then op.args.head?.all fun p => accepts (clientArg p.ty) p.ty else true) &&
  (op.streamIn.all fun t => accepts (clientIn t) t) &&
  ((clientResult op).1 == (callStyle op).rx && (clientResult op).1 == declared op &&
    accepts (clientResult op).2 op.ret)

/-! ## What the code does -/

/-- The type of the value of a step with a name. -/
def Step.type : Step → Option T
  | .var x | .varConv x => transforms.lookup x
  | .generic x => (generics.lookup x).map .prim
  | .toBytes x | .toBytesConv x => (toBytesFns.lookup x).map .prim
  | _ => none

/-- The payload made of a value. `format` is `value.Format(time.RFC3339Nano)`, which only `transform.Time` has
to do with. As in `Codegen.toBytes`, the value is visited twice. `none`: there is no such code. -/
def encode (env : Env) (format : Time → Bytes) (s : Step) (v v' : GV) : Option (Res Bytes) :=
  match s with
  | .codec n => some (Codegen.toBytes env (.named n) v v')
  | .slice t => some (Codegen.toBytes env (.list t) v v')
  | s =>
    match s.type, v' with
    | some .void, _ => some (.ok [])
    | some (.prim .time), .sc (.time t) => some (Msgpack.toBytes [.str (format t)])
    | some (.prim _), .sc x => some (Msgpack.toBytes [x.op])
    | _, _ => none

/-- The loop of `SliceDecode` (/repo/go/transform/transform.go:381-388): an error of `Decode` is ignored. The
element is then taken to be the zero value. -/
def sliceLoop (env : Env) (lib : Lib) (f : Nat) (t : Ty) : Nat → List GV → D → Option (Res GV)
  | 0, acc, _ => some (.ok (.list acc))
  | n + 1, acc, d =>
    match readTy env lib f t false (zero env env.length t) d with
    | none => none
    | some (.ok v, d') => sliceLoop env lib f t n (acc ++ [v]) d'
    | some (.err _, d') => sliceLoop env lib f t n (acc ++ [zero env env.length t]) d'
    | some (.panic, _) => some .panic

/-- The value made of a payload. -/
def decode (env : Env) (lib : Lib) (fuel : Nat) (s : Step) (bs : Bytes) : Option (Res GV) :=
  match s with
  | .codec n => fromBytes env lib fuel n bs
  | .slice t =>
    match Dec.arraySize (D.new bs) with
    | (.ok n, d) => sliceLoop env lib fuel t n [] d
    | (.err _, _) => some (.ok (.list []))
    | (.panic, _) => some .panic
  | .read t => (readTy env lib fuel t false (zero env env.length t) (D.new bs)).map (·.1)
  | s =>
    match s.type with
    | some .void => some (.ok .null)
    | some (.prim .time) => some (((Transform.time lib fun _ => []).decode bs).bind fun t => .ok (.sc (.time t)))
    | some (.prim p) => some ((readPrim lib p (D.new bs)).1.bind fun s => .ok (.sc s))
    | _ => none

/-- The type definitions with that of the arguments of an operation, if it has one.
/repo/codegen/src/tinygo/msgpack_visitor.ts:43-61 -/
def defs (env : Env) (op : Operation) : Env :=
  if op.args.isEmpty || op.unary then env
  else env ++ [.struct (op.args.map fun p => (p.name, p.ty.ty))]

/-- The data that an importing function sends for the arguments. invokers_visitor.ts:114-191 -/
def clientSends (env : Env) (format : Time → Bytes) (op : Operation) (vs vs' : List GV) : Option (Res Bytes) :=
  if op.args.isEmpty then some (.ok [])
  else if op.unary then
    match op.args, vs, vs' with
    | p :: _, v :: _, v' :: _ => encode env format (clientArg p.ty) v v'
    | _, _, _ => none
  else some (Codegen.toBytes (defs env op) (.named env.length) (.obj vs) (.obj vs'))

/-- The arguments with which a wrapper calls the handler. wrappers_visitor.ts:185-271 -/
def serverReceives (env : Env) (lib : Lib) (fuel : Nat) (op : Operation) (bs : Bytes) : Option (Res (List GV)) :=
  if op.args.isEmpty then some (.ok [])
  else if op.unary then
    match op.args with
    | p :: _ => (Calls.decode env lib fuel (serverArg p.ty) bs).map fun r => r.bind fun v => .ok [v]
    | [] => none
  else
    (fromBytes (defs env op) lib fuel env.length bs).map fun r => r.bind fun v =>
      match v with
      | .obj l => .ok l
      | _ => .err "no arguments"

end Iota.Calls
