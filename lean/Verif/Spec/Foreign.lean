import Verif.Spec.Codegen

/-!
# Specification: what other writers may send for a value of a generated type

`Ser env t v bs` says that `bs` is a way to write the value `v` of the type `t` as MessagePack: any format that the MessagePack
specification has for each part of it, the fields of an object in any order, and fields that nobody knows. A field that is not written
has the zero value of its type.
-/

namespace Iota.Spec.Foreign
open Iota.Go Iota.Msgpack Iota.Codegen Iota.Spec.Msgpack Iota.Spec.Codegen

/-- The signed integer types. -/
def Signed : Prim → Prop
  | .i8 | .i16 | .i32 | .i64 => True
  | _ => False

/-- Written in one of the four formats for unsigned integers. -/
def UnsignedFormat (bs : Bytes) : Prop := ∃ j n, j < 4 ∧ n < 256 ^ 2 ^ j ∧ bs = num 0xcc j n

/-- The three timestamp formats of MessagePack. -/
inductive Timestamp : Time → Bytes → Prop
  | t32 {s : Nat} (h : s < 2 ^ 32) : Timestamp ⟨s, 0⟩ (0xd6 :: 0xff :: beBytes 4 s)
  | t64 {s n : Nat} (h : s < 2 ^ 34 ∧ n < 10 ^ 9) : Timestamp ⟨s, n⟩ (0xd7 :: 0xff :: beBytes 8 (n * 2 ^ 34 + s))
  | t96 {s : Int} {n : Nat} (h : i64 s ∧ n < 10 ^ 9) :
      Timestamp ⟨s, n⟩ (0xc7 :: 12 :: 0xff :: (beBytes 4 n ++ beBytes 8 (twos 8 s)))

/-- A value of a primitive type in any format of MessagePack, except signed integers in the formats for unsigned ones. -/
inductive SerPrim : Prim → Sc → Bytes → Prop
  | plain {p : Prim} {s : Sc} {bs : Bytes} (typed : IsPrim Allow.all p s) (noTime : p ≠ .time) (wire : Wire ExtHead (scVal s) bs)
      (format : Signed p → ¬ UnsignedFormat bs) : SerPrim p s bs
  | time {t : Time} {bs : Bytes} (h : Timestamp t bs) : SerPrim .time (.time t) bs

mutual
inductive Ser (env : Env) : Ty → GV → Bytes → Prop
  | prim {p : Prim} {s : Sc} {bs : Bytes} (h : SerPrim p s bs) : Ser env (.prim p) (.sc s) bs
  | cast {p : Prim} {s : Sc} {bs : Bytes} (h : SerPrim p s bs) : Ser env (.cast p) (.sc s) bs
  | list {t : Ty} {l : List GV} {h b : Bytes} (hh : ArrHead l.length h) (hb : SerL env t l b) :
      Ser env (.list t) (.list l) (h ++ b)
  | map {k : Prim} {t : Ty} {l : List (Sc × GV)} {h b : Bytes} (hh : MapHead l.length h) (hn : (l.map (·.1)).Nodup)
      (hb : SerM env k t l b) : Ser env (.map k t) (.map l) (h ++ b)
  /-- nil for a list is the empty list -/
  | nilList {t : Ty} : Ser env (.list t) (.list []) [0xc0]
  | nilMap {k : Prim} {t : Ty} : Ser env (.map k t) (.map []) [0xc0]
  /-- `m` are the fields that are written, of which there are `n` with those that nobody knows -/
  | obj {i n : Nat} {m : List (Bytes × GV)} {h b : Bytes} (hh : MapHead n h) (hn : (m.map (·.1)).Nodup)
      (hb : SerF env (env.get i).fields n m b) : Ser env (.named i) (.obj (fill env (env.get i).fields m)) (h ++ b)
  | none {t : Ty} (h : Pointer t) : Ser env (.opt t) .null [0xc0]
  | some {t : Ty} {v : GV} {bs : Bytes} (ht : ∀ t', t ≠ .opt t') (h : Ser env t v bs) : Ser env (.opt t) v bs

inductive SerL (env : Env) : Ty → List GV → Bytes → Prop
  | nil {t : Ty} : SerL env t [] []
  | cons {t : Ty} {v : GV} {l : List GV} {a b : Bytes} (hv : Ser env t v a) (hl : SerL env t l b) : SerL env t (v :: l) (a ++ b)

inductive SerM (env : Env) : Prim → Ty → List (Sc × GV) → Bytes → Prop
  | nil {k : Prim} {t : Ty} : SerM env k t [] []
  | cons {k : Prim} {t : Ty} {s : Sc} {v : GV} {l : List (Sc × GV)} {a b c : Bytes} (hk : SerPrim k s a) (hv : Ser env t v b)
      (hl : SerM env k t l c) : SerM env k t ((s, v) :: l) (a ++ (b ++ c))

inductive SerF (env : Env) : List (Bytes × Ty) → Nat → List (Bytes × GV) → Bytes → Prop
  | nil {fs : List (Bytes × Ty)} : SerF env fs 0 [] []
  | known {fs : List (Bytes × Ty)} {n : Nat} {s : Bytes} {t : Ty} {v : GV} {m : List (Bytes × GV)} {h b c : Bytes}
      (hs : (s, t) ∈ fs) (hh : StrHead s.length h) (hv : Ser env t v b) (hl : SerF env fs n m c) :
      SerF env fs (n + 1) ((s, v) :: m) ((h ++ s) ++ (b ++ c))
  /-- anything but an extension with a long header (C29) -/
  | unknown {fs : List (Bytes × Ty)} {n : Nat} {s : Bytes} {x : Val} {m : List (Bytes × GV)} {h b c : Bytes}
      (hs : s ∉ names fs) (hh : StrHead s.length h) (hv : Wire FixHead x b) (hl : SerF env fs n m c) :
      SerF env fs (n + 1) m ((h ++ s) ++ (b ++ c))
end

end Iota.Spec.Foreign
