import Verif.Model.Codegen
import Verif.Spec.Msgpack

/-!
# Specification of generated codecs

Which values a type has, and what a reader with another version of the definitions makes of a value.
-/

namespace Iota.Spec.Codegen
open Iota.Go Iota.Msgpack Iota.Codegen Iota.Spec.Msgpack

/-- What values may contain; each flag stands for a known fault of the library or the generated code. -/
structure Allow where
  /-- absent optional enums and aliases (the decoder panics) -/
  nilCast : Bool
  /-- times that need 12 bytes (`Skip` rejects their header) -/
  longTime : Bool
  /-- byte strings of 255 bytes (the sizer counts one byte too many) -/
  odd : Bool

/-- Everything. -/
def Allow.all : Allow := ⟨true, true, true⟩

/-- `s` is a value of the primitive type. -/
def IsPrim (a : Allow) : Prim → Sc → Prop
  | .str, .str s => short s
  | .bool, .bool _ => True
  | .time, .time t => i64 t.sec ∧ t.nsec < 10 ^ 9 ∧ (a.longTime = true ∨ (0 ≤ t.sec ∧ t.sec < 2 ^ 34))
  | .i8, .int v => -2 ^ 7 ≤ v ∧ v < 2 ^ 7
  | .i16, .int v => -2 ^ 15 ≤ v ∧ v < 2 ^ 15
  | .i32, .int v => -2 ^ 31 ≤ v ∧ v < 2 ^ 31
  | .i64, .int v => -2 ^ 63 ≤ v ∧ v < 2 ^ 63
  | .u8, .uint v => v < 2 ^ 8
  | .u16, .uint v => v < 2 ^ 16
  | .u32, .uint v => v < 2 ^ 32
  | .u64, .uint v => v < 2 ^ 64
  | .f32, .f32 b => b < 2 ^ 32
  | .f64, .f64 b => b < 2 ^ 64
  | .bytes, .bytes b => short b ∧ (a.odd = true ∨ b.length ≠ 255)
  | _, _ => False

/-- Primitive types whose values Go compares as keys of maps like we do. -/
def IsKey : Prim → Prop
  | .time | .f32 | .f64 | .bytes => False
  | _ => True

/-- Types that are pointers if optional. -/
def Pointer : Ty → Prop
  | .prim _ => True
  | .named _ => True
  | _ => False

def Collection : Ty → Prop
  | .list _ => True
  | .map _ _ => True
  | _ => False

mutual
/-- `v` is a value of type `t`. -/
inductive Typed (env : Env) (a : Allow) : Ty → GV → Prop
  | prim {p s} (h : IsPrim a p s) : Typed env a (.prim p) (.sc s)
  | cast {p s} (h : IsPrim a p s) : Typed env a (.cast p) (.sc s)
  /-- a nil slice or map -/
  | nilColl {t} (h : Collection t) : Typed env a t .null
  | list {t l} (hl : short l) (h : TypedL env a t l) : Typed env a (.list t) (.list l)
  | map {k t l} (hl : short l) (hk : IsKey k) (hn : (l.map (·.1)).Nodup) (h : TypedM env a k t l) :
      Typed env a (.map k t) (.map l)
  | struct {n fs vs} (hd : env.get n = .struct fs) (h : TypedF env a fs vs) : Typed env a (.named n) (.obj vs)
  /-- exactly one member is present -/
  | union {n fs vs} (hd : env.get n = .union fs) (h : TypedU env a fs vs) : Typed env a (.named n) (.obj vs)
  | none {t} (h : Pointer t) : Typed env a (.opt t) .null
  | noneCast {p} (h : a.nilCast = true) : Typed env a (.opt (.cast p)) .null
  | some {t v} (ht : ∀ t', t ≠ .opt t') (h : Typed env a t v) : Typed env a (.opt t) v

inductive TypedL (env : Env) (a : Allow) : Ty → List GV → Prop
  | nil {t} : TypedL env a t []
  | cons {t v l} (hv : Typed env a t v) (hl : TypedL env a t l) : TypedL env a t (v :: l)

inductive TypedM (env : Env) (a : Allow) : Prim → Ty → List (Sc × GV) → Prop
  | nil {k t} : TypedM env a k t []
  | cons {k t s v l} (hk : IsPrim a k s) (hv : Typed env a t v) (hl : TypedM env a k t l) :
      TypedM env a k t ((s, v) :: l)

inductive TypedF (env : Env) (a : Allow) : List (Bytes × Ty) → List GV → Prop
  | nil : TypedF env a [] []
  | cons {n t fs v vs} (hv : Typed env a t v) (hl : TypedF env a fs vs) :
      TypedF env a ((n, t) :: fs) (v :: vs)

/-- One member after absent ones. -/
inductive TypedU (env : Env) (a : Allow) : List (Bytes × Ty) → List GV → Prop
  | here {n t fs v} (hv : Typed env a t v) (hn : v ≠ .null) :
      TypedU env a ((n, t) :: fs) (v :: fs.map fun _ => .null)
  | there {n t fs vs} (h : TypedU env a fs vs) : TypedU env a ((n, t) :: fs) (.null :: vs)
end

/-! ## Definitions -/

def names (fs : List (Bytes × Ty)) : List Bytes := fs.map (·.1)

/-- Fields have different names and the members of unions are optional. Lengths fit 32 bits. No type contains
itself as a required field, directly or through others. -/
structure WellFormed (env : Env) : Prop where
  nodup : ∀ n, (names (env.get n).fields).Nodup
  size : ∀ n, short (env.get n).fields
  name : ∀ n, ∀ s ∈ names (env.get n).fields, short s
  member : ∀ n fs, env.get n = .union fs → ∀ p ∈ fs, ∃ t, p.2 = .opt t
  acyclic : ∃ rank : Nat → Nat, (∀ n, n < env.length → rank n < env.length) ∧
    ∀ n s m, (s, .named m) ∈ (env.get n).fields → rank m < rank n

/-- `r` are the definitions of a reader and `w` those of a writer: a field that both know has the same type
in both, and a type is not a union in one and not in the other. Both may have fields of their own, in any
order. -/
def Compatible (w r : Env) : Prop :=
  ∀ n, (∀ s t t', (s, t) ∈ (w.get n).fields → (s, t') ∈ (r.get n).fields → t = t') ∧
    ((∃ fs, w.get n = .union fs) ↔ ∃ fs, r.get n = .union fs)

/-- The reader knows all fields of the writer. -/
def Knows (w r : Env) : Prop := ∀ n, ∀ s ∈ names (w.get n).fields, s ∈ names (r.get n).fields

/-- The fields `fs` of a reader, given the values of the fields in the message. -/
def fill (env : Env) (fs : List (Bytes × Ty)) (msg : List (Bytes × GV)) : List GV :=
  fs.map fun p => (msg.lookup p.1).getD (zero env env.length p.2)

mutual
/-- What a reader with the definitions `r` sees of the value `v` written with the definitions `w`: nil
slices and maps are empty ones, fields that it does not know are gone, fields that the writer does not know
have their zero values. -/
def adapt (w r : Env) : Ty → GV → GV
  | t, .null =>
    match t.strip with
    | .list _ => .list []
    | .map _ _ => .map []
    | _ => .null
  | _, .sc s => .sc s
  | t, .list l =>
    match t.strip with
    | .list e => .list (adaptL w r e l)
    | _ => .list l
  | t, .map l =>
    match t.strip with
    | .map _ e => .map (adaptM w r e l)
    | _ => .map l
  | t, .obj vs =>
    match t.strip with
    | .named n =>
      match w.get n with
      | .struct fs => .obj (fill r (r.get n).fields (adaptF w r fs vs))
      | .union fs => .obj (fill r (r.get n).fields (adaptU w r fs vs))
    | _ => .obj vs

def adaptL (w r : Env) (t : Ty) : List GV → List GV
  | [] => []
  | v :: l => adapt w r t v :: adaptL w r t l

def adaptM (w r : Env) (t : Ty) : List (Sc × GV) → List (Sc × GV)
  | [] => []
  | (k, v) :: l => (k, adapt w r t v) :: adaptM w r t l

def adaptF (w r : Env) : List (Bytes × Ty) → List GV → List (Bytes × GV)
  | (n, t) :: fs, v :: vs => (n, adapt w r t v) :: adaptF w r fs vs
  | _, _ => []

/-- Only the member that is present. -/
def adaptU (w r : Env) : List (Bytes × Ty) → List GV → List (Bytes × GV)
  | _ :: fs, .null :: vs => adaptU w r fs vs
  | (n, t) :: _, v :: _ => [(n, adapt w r t v)]
  | _, _ => []
end

mutual
/-- What a reader with the same definitions sees: the same value, but nil slices and maps have become empty
ones (except as absent members of a union). -/
def norm (env : Env) : Ty → GV → GV
  | t, .null =>
    match t.strip with
    | .list _ => .list []
    | .map _ _ => .map []
    | _ => .null
  | _, .sc s => .sc s
  | t, .list l =>
    match t.strip with
    | .list e => .list (normL env e l)
    | _ => .list l
  | t, .map l =>
    match t.strip with
    | .map _ e => .map (normM env e l)
    | _ => .map l
  | t, .obj vs =>
    match t.strip with
    | .named n =>
      match env.get n with
      | .struct fs => .obj (normF env fs vs)
      | .union fs => .obj (normU env fs vs)
    | _ => .obj vs

def normL (env : Env) (t : Ty) : List GV → List GV
  | [] => []
  | v :: l => norm env t v :: normL env t l

def normM (env : Env) (t : Ty) : List (Sc × GV) → List (Sc × GV)
  | [] => []
  | (k, v) :: l => (k, norm env t v) :: normM env t l

def normF (env : Env) : List (Bytes × Ty) → List GV → List GV
  | (_, t) :: fs, v :: vs => norm env t v :: normF env fs vs
  | _, _ => []

def normU (env : Env) : List (Bytes × Ty) → List GV → List GV
  | _ :: fs, .null :: vs => .null :: normU env fs vs
  | (_, t) :: fs, v :: vs => norm env t v :: normU env fs vs
  | _, _ => []
end

/-! ## Bytes -/

/-- The timestamp extension of MessagePack. -/
def stamp (t : Time) : Bytes :=
  if 0 ≤ t.sec ∧ t.sec < 2 ^ 34 then
    if t.nsec = 0 ∧ t.sec < 2 ^ 32 then beBytes 4 t.sec.toNat
    else beBytes 8 (t.nsec * 2 ^ 34 + t.sec.toNat)
  else beBytes 4 t.nsec ++ beBytes 8 (twos 8 t.sec)

def scVal : Sc → Val
  | .str s => .str s
  | .bool b => .bool b
  | .time t => .ext (-1) (stamp t)
  | .int v => .int v
  | .uint v => .int v
  | .f32 b => .f32 b
  | .f64 b => .f64 b
  | .bytes b => .bin b

mutual
/-- The MessagePack value that stands for a value: a type is the map from the names of its fields to their
values, a union the map with only the present member, nil is nil except for slices and maps. -/
def valOf (env : Env) : Ty → GV → Val
  | t, .null =>
    match t.strip with
    | .list _ => .arr []
    | .map _ _ => .map []
    | _ => .nil
  | _, .sc s => scVal s
  | t, .list l =>
    match t.strip with
    | .list e => .arr (valsOf env e l)
    | _ => .nil
  | t, .map l =>
    match t.strip with
    | .map _ e => .map (entriesOf env e l)
    | _ => .nil
  | t, .obj vs =>
    match t.strip with
    | .named n =>
      match env.get n with
      | .struct fs => .map (fieldsVal env fs vs)
      | .union fs => .map (memberVal env fs vs)
    | _ => .nil

def valsOf (env : Env) (t : Ty) : List GV → List Val
  | [] => []
  | v :: l => valOf env t v :: valsOf env t l

def entriesOf (env : Env) (t : Ty) : List (Sc × GV) → List (Val × Val)
  | [] => []
  | (k, v) :: l => (scVal k, valOf env t v) :: entriesOf env t l

def fieldsVal (env : Env) : List (Bytes × Ty) → List GV → List (Val × Val)
  | (n, t) :: fs, v :: vs => (.str n, valOf env t v) :: fieldsVal env fs vs
  | _, _ => []

def memberVal (env : Env) : List (Bytes × Ty) → List GV → List (Val × Val)
  | _ :: fs, .null :: vs => memberVal env fs vs
  | (n, t) :: _, v :: _ => [(.str n, valOf env t v)]
  | _, _ => []
end

/-! ## Types that can be read safely -/

/-- There is no optional enum or alias in the type. -/
def NoOptCast : Ty → Prop
  | .prim _ => True
  | .cast _ => True
  | .named _ => True
  | .list t => NoOptCast t
  | .map _ t => NoOptCast t
  | .opt (.cast _) => False
  | .opt t => NoOptCast t

/-- How often optional, list and map are nested in the type. -/
def nesting : Ty → Nat
  | .list t => nesting t + 1
  | .map _ t => nesting t + 1
  | .opt t => nesting t + 1
  | _ => 0

/-- There are no optional enums or aliases in the fields of any type. -/
def NoOptCasts (env : Env) : Prop := ∀ n, ∀ p ∈ (env.get n).fields, NoOptCast p.2

/-! ## Order of map entries -/

/-- The same value with the entries of maps, at any depth, visited in another order. -/
inductive Reorder : GV → GV → Prop
  | refl (v : GV) : Reorder v v
  | trans {u v w : GV} (h : Reorder u v) (h' : Reorder v w) : Reorder u w
  | map {l l' : List (Sc × GV)} (h : l.Perm l') : Reorder (.map l) (.map l')
  | inList {a b : List GV} {v v' : GV} (h : Reorder v v') : Reorder (.list (a ++ v :: b)) (.list (a ++ v' :: b))
  | inMap {a b : List (Sc × GV)} {k : Sc} {v v' : GV} (h : Reorder v v') :
      Reorder (.map (a ++ (k, v) :: b)) (.map (a ++ (k, v') :: b))
  | inObj {a b : List GV} {v v' : GV} (h : Reorder v v') : Reorder (.obj (a ++ v :: b)) (.obj (a ++ v' :: b))

end Iota.Spec.Codegen
