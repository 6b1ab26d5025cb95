import Verif.Model.Msgpack

/-!
# Generated codecs

Model of the Go code that `/repo/codegen/src/tinygo` generates for the types and unions of an Apex
interface: `msgpack_encoder_visitor.ts`, `msgpack_decoder_visitor.ts`, `msgpack_helpers.ts` and
`msgpack_constants.ts`. The generator makes one `Encode` and one `Decode` method for each type; here both are
interpreters of the type definitions, written so that each case does what the generated text does.

Simplifications:
* Types are numbered and have a list of fields. Field names are their bytes.
* An alias of a primitive type and an enum are `cast`: the value is that of the primitive type (`int32` for
  an enum). Aliases with `parse` or `format` functions are not modelled.
* Keys of maps are values of primitive types.
* Generated code that the Go compiler rejects is not singled out. These are: a list directly in a list and a
  map directly in a map (the variables `nonNilItem`, `key` and `value` shadow themselves), an alias of `u8`
  (`convert.Numeric.Numerict8`), an alias of `datetime` (no conversion) and an optional alias of `bytes`.
* The result of a `Decode` that fails is only the error.
-/

namespace Iota.Codegen
open Iota.Go Iota.Msgpack

/-- The primitive types of msgpack_constants.ts:35-51; `ID` is `str`. -/
inductive Prim where
  | str | bool | time | i8 | u8 | i16 | u16 | i32 | u32 | i64 | u64 | f32 | f64 | bytes
  deriving DecidableEq, Repr

/-- The types of fields, as in the cases of msgpack_helpers.ts:129-286. -/
inductive Ty where
  | prim (p : Prim)
  /-- an enum or an alias of a primitive type -/
  | cast (p : Prim)
  /-- a type or a union -/
  | named (n : Nat)
  | list (t : Ty)
  | map (k : Prim) (t : Ty)
  | opt (t : Ty)
  deriving DecidableEq, Repr

/-- A type or a union. The fields of a union are its members, each optional
(`convertUnionToType`, msgpack_visitor.ts:97-107). -/
inductive Def where
  | struct (fs : List (Bytes × Ty))
  | union (fs : List (Bytes × Ty))
  deriving DecidableEq, Repr

def Def.fields : Def → List (Bytes × Ty)
  | .struct fs => fs
  | .union fs => fs

/-- The definitions of an interface. -/
abbrev Env := List Def

/-- The definition of a name; there is one for each name that is used. -/
def Env.get (env : Env) (n : Nat) : Def := (env[n]?).getD (.struct [])

/-- Values of primitive types. Signed and unsigned numbers of all widths are numbers. -/
inductive Sc where
  | str (s : Bytes)
  | bool (b : Bool)
  | time (t : Time)
  | int (v : Int)
  | uint (v : Nat)
  | f32 (bits : Nat)
  | f64 (bits : Nat)
  | bytes (b : Bytes)
  deriving DecidableEq

/-- Go values of these types. `null` is a nil pointer, slice or map. A pointer to a value is the value. -/
inductive GV where
  | null
  | sc (s : Sc)
  | list (l : List GV)
  /-- the entries in the order in which `range` visits them -/
  | map (l : List (Sc × GV))
  /-- the fields of a type or union in the order of its definition -/
  | obj (l : List GV)

instance : Inhabited GV := ⟨.null⟩

/-! ## Encode -/

/-- The call of the writer for a primitive value. msgpack_constants.ts:71-87 -/
def Sc.op : Sc → Op
  | .str s => .str s
  | .bool b => .bool b
  | .time t => .time t
  | .int v => .int v
  | .uint v => .uint v
  | .f32 b => .f32 b
  | .f64 b => .f64 b
  | .bytes b => .bytes b

/-- The type inside an optional. -/
def Ty.strip : Ty → Ty
  | .opt t => t
  | t => t

/-- What is written for a nil pointer, slice or map. `WriteNillableX` of nil (msgpack_helpers.ts:321-327,
342-348, 363), the check for nil (446-447) and `Encode` with a nil receiver
(msgpack_encoder_visitor.ts:26-29, 61-64) write nil; slices and maps have no such case (msgpack_helpers.ts:365-415,
430-444) and are written with their length, which is 0. -/
def writeNull : Ty → List Op
  | .list _ => [.arraySize 0]
  | .map _ _ => [.mapSize 0]
  | _ => [.nil]

mutual
/-- `msgpackWrite`: the calls made for a value of type `t`. msgpack_helpers.ts:299-467. With or without an
optional around the type the same is written. -/
def write (env : Env) : Ty → GV → List Op
  | t, .null => writeNull t.strip
  | _, .sc s => [s.op]
  | t, .list l =>
    match t.strip with
    | .list e => .arraySize (l.length % U32) :: writeList env e l
    | _ => []
  | t, .map l =>
    match t.strip with
    | .map _ e => .mapSize (l.length % U32) :: writeMap env e l
    | _ => []
  | t, .obj vs =>
    match t.strip with
    | .named n =>
      match env.get n with
      | .struct fs => .mapSize (fs.length % U32) :: writeFields env fs vs
      | .union fs => writeUnion env fs vs
    | _ => []

/-- The loop over a slice. msgpack_helpers.ts:401-413 -/
def writeList (env : Env) (e : Ty) : List GV → List Op
  | [] => []
  | v :: l => write env e v ++ writeList env e l

/-- The loop over a map. msgpack_helpers.ts:370-394 -/
def writeMap (env : Env) (e : Ty) : List (Sc × GV) → List Op
  | [] => []
  | (k, v) :: l => k.op :: (write env e v ++ writeMap env e l)

/-- `Encode` of a type: name and value of each field. msgpack_encoder_visitor.ts:34-46 -/
def writeFields (env : Env) : List (Bytes × Ty) → List GV → List Op
  | (n, t) :: fs, v :: vs => .str n :: (write env t v ++ writeFields env fs vs)
  | _, _ => []

/-- `Encode` of a union: name and value of the first member that is not nil.
msgpack_encoder_visitor.ts:68-92 -/
def writeUnion (env : Env) : List (Bytes × Ty) → List GV → List Op
  | _ :: fs, .null :: vs => writeUnion env fs vs
  | (n, t) :: _, v :: _ => .mapSize 1 :: .str n :: write env t v
  | _, _ => [.nil]
end

/-! ## Decode -/

/-- The method of the reader for a primitive type. msgpack_constants.ts:35-51 -/
def readPrim (lib : Lib) : Prim → Rd Sc
  | .str => Sc.str <$> Dec.str
  | .bool => Sc.bool <$> Dec.bool
  | .time => Sc.time <$> Dec.time lib
  | .i8 => Sc.int <$> Dec.intK 1
  | .u8 => Sc.uint <$> Dec.uintK 1
  | .i16 => Sc.int <$> Dec.intK 2
  | .u16 => Sc.uint <$> Dec.uintK 2
  | .i32 => Sc.int <$> Dec.intK 4
  | .u32 => Sc.uint <$> Dec.uintK 4
  | .i64 => Sc.int <$> Dec.int64
  | .u64 => Sc.uint <$> Dec.uint64
  | .f32 => Sc.f32 <$> Dec.f32 lib
  | .f64 => Sc.f64 <$> Dec.f64
  | .bytes => Sc.bytes <$> Dec.bytes

/-- A reading method that returns at once. -/
def lift {α : Type} (r : Rd α) : Dec.Run α := fun d => some (r d)

/-- `x, err := r(); if err != nil { return err }` -/
def thn {α β : Type} (r : Dec.Run α) (f : α → Dec.Run β) : Dec.Run β := fun d =>
  match r d with
  | none => none
  | some (.ok a, d') => f a d'
  | some (.err e, d') => some (.err e, d')
  | some (.panic, d') => some (.panic, d')

/-- A reading method that succeeds without reading. -/
def done {α : Type} (a : α) : Dec.Run α := fun d => some (.ok a, d)

/-- The pointer returned by `ReadNillableX` (msgpack_constants.ts:53-69). -/
def ptr : Option Sc → GV
  | none => .null
  | some s => .sc s

/-- `convert.NillableX[T](decoder.ReadNillableX())` (msgpack_helpers.ts:117-120, 153-156). The conversions
(/repo/go/msgpack/convert/convert.go:73-76, 82-85, 97-100) read through the pointer whatever the error is:
if it is nil they panic. -/
def castNillable (lib : Lib) (p : Prim) : Rd GV := fun d =>
  match Dec.nillable (readPrim lib p) d with
  | (.ok (some s), d') => (.ok (.sc s), d')
  | (_, d') => (.panic, d')

/-- Zero values of primitive types. The zero `time.Time` is the start of year 1. -/
def zeroPrim : Prim → Sc
  | .str => .str []
  | .bool => .bool false
  | .time => .time ⟨-62135596800, 0⟩
  | .f32 => .f32 0
  | .f64 => .f64 0
  | .bytes => .bytes []
  | .u8 | .u16 | .u32 | .u64 => .uint 0
  | _ => .int 0

/-- Zero values of Go types. A type contained in another one as a required field is part of its value, so Go
allows no cycles there and the first argument, a bound of the depth of such containment, is never used up
if it is the number of types. -/
def zero (env : Env) : Nat → Ty → GV
  | _, .prim p => .sc (zeroPrim p)
  | _, .cast p => .sc (zeroPrim p)
  | 0, .named _ => .null
  | f + 1, .named n => .obj ((env.get n).fields.map fun p => zero env f p.2)
  | _, _ => .null

/-- The fields of a new value of a type. -/
def zeros (env : Env) (fs : List (Bytes × Ty)) : List GV := fs.map fun p => zero env env.length p.2

/-- The fields of the receiver of `Decode`; the Go type says that there are as many as declared. -/
def fieldsOf (env : Env) (fs : List (Bytes × Ty)) : GV → List GV
  | .obj l => if l.length = fs.length then l else zeros env fs
  | _ => zeros env fs

/-- `m[key] = value` -/
def mapSet (l : List (Sc × GV)) (k : Sc) (v : GV) : List (Sc × GV) :=
  match l with
  | [] => [(k, v)]
  | (k', v') :: l => if k' = k then (k, v) :: l else (k', v') :: mapSet l k v

/-- `switch field`: the position of the field with this name. -/
def find (fs : List (Bytes × Ty)) (name : Bytes) : Option (Nat × Ty) :=
  match fs with
  | [] => none
  | (n, t) :: fs => if n = name then some (0, t) else (find fs name).map fun p => (p.1 + 1, p.2)

mutual
/-- `msgpackRead` for a type, not inside (`false`) or inside (`true`) an optional. msgpack_helpers.ts:55-287.
`old` is the value of the variable before. -/
def readTy (env : Env) (lib : Lib) : Nat → Ty → Bool → GV → Dec.Run GV
  | 0, _, _, _ => fun _ => none
  -- msgpack_helpers.ts:130-149
  | _ + 1, .prim p, false, _ => lift (GV.sc <$> readPrim lib p)
  | _ + 1, .prim p, true, _ => lift (ptr <$> Dec.nillable (readPrim lib p))
  -- msgpack_helpers.ts:102-128, 150-158
  | _ + 1, .cast p, false, _ => lift (GV.sc <$> readPrim lib p)
  | _ + 1, .cast p, true, _ => lift (castNillable lib p)
  -- `o.F.Decode(decoder)` for a type (msgpack_helpers.ts:88-93), `msgpack.Decode[T](decoder)` for a union
  -- (msgpack_helpers.ts:135, /repo/go/msgpack/decoder.go:906-913), which begins with a new value
  | f + 1, .named n, false, old =>
    match env.get n with
    | .struct fs => decode env lib f fs (fieldsOf env fs old)
    | .union fs => decode env lib f fs (zeros env fs)
  -- `msgpack.DecodeNillable[T](decoder)`: msgpack_helpers.ts:136-138, /repo/go/msgpack/decoder.go:915-926
  | f + 1, .named n, true, _ =>
    thn (lift Dec.isNextNil) fun b =>
      if b then done .null
      else decode env lib f (env.get n).fields (zeros env (env.get n).fields)
  -- msgpack_helpers.ts:213-254, 259-269
  | f + 1, .list t, _, _ => thn (lift Dec.arraySize) fun n => readList env lib f t n []
  -- msgpack_helpers.ts:159-212, 260-269
  | f + 1, .map k t, _, _ => thn (lift Dec.mapSize) fun n => readMap env lib f k t n []
  -- msgpack_helpers.ts:255-282
  | f + 1, .opt t, _, old => readTy env lib f t true old

/-- The loop over the elements of a list. `var nonNilItem T` is a new variable. msgpack_helpers.ts:231-252 -/
def readList (env : Env) (lib : Lib) : Nat → Ty → Nat → List GV → Dec.Run GV
  | 0, _, _, _ => fun _ => none
  | _ + 1, _, 0, acc => done (.list acc)
  | f + 1, t, n + 1, acc =>
    thn (readTy env lib f t false (zero env env.length t)) fun v => readList env lib f t n (acc ++ [v])

/-- The loop over the entries of a map. A value of a type is made by `msgpack.Decode`, so it is new.
msgpack_helpers.ts:177-210 -/
def readMap (env : Env) (lib : Lib) : Nat → Prim → Ty → Nat → List (Sc × GV) → Dec.Run GV
  | 0, _, _, _, _ => fun _ => none
  | _ + 1, _, _, 0, acc => done (.map acc)
  | f + 1, k, t, n + 1, acc =>
    thn (lift (readPrim lib k)) fun key =>
      thn (readTy env lib f t false (zero env env.length t)) fun v =>
        readMap env lib f k t n (mapSet acc key v)

/-- `Decode` of a type or union with the fields `fs` whose receiver has the values `cur`.
msgpack_decoder_visitor.ts:22-77 -/
def decode (env : Env) (lib : Lib) : Nat → List (Bytes × Ty) → List GV → Dec.Run GV
  | 0, _, _ => fun _ => none
  | f + 1, fs, cur => thn (lift Dec.mapSize) fun n => readFields env lib f fs n cur

/-- The loop of `Decode`: a field with a known name is read, others are skipped.
msgpack_decoder_visitor.ts:32-76 -/
def readFields (env : Env) (lib : Lib) : Nat → List (Bytes × Ty) → Nat → List GV → Dec.Run GV
  | 0, _, _, _ => fun _ => none
  | _ + 1, _, 0, cur => done (.obj cur)
  | f + 1, fs, n + 1, cur =>
    thn (lift Dec.str) fun name =>
      match find fs name with
      | none => thn (Dec.skip f) fun _ => readFields env lib f fs n cur
      | some (i, t) =>
        thn (readTy env lib f t false (cur[i]?.getD .null)) fun v =>
          readFields env lib f fs n (cur.set i v)
end

/-! ## Entry points -/

/-- `msgpack.ToBytes` (/repo/go/msgpack/codec.go:11-22) of a generated codec. `Encode` runs twice and
`range` visits the entries of maps in an order of its own each time: `v` is what the sizer sees, `v'` what
the encoder sees. Both calls of the generated `Encode` return nil. -/
def toBytes (env : Env) (t : Ty) (v v' : GV) : Res Bytes :=
  match withBuffer (Size.ops (write env t v)) (Enc.ops (write env t v')) with
  | .ok d => .ok d.buf
  | .err e => .err e
  | .panic => .panic

/-- `msgpack.Decode[T](&decoder)` (/repo/go/msgpack/decoder.go:906-913) of a generated codec. -/
def fromBytes (env : Env) (lib : Lib) (fuel n : Nat) (b : Bytes) : Option (Res GV) :=
  (readTy env lib fuel (.named n) false (zero env env.length (.named n)) (D.new b)).map (·.1)

end Iota.Codegen
