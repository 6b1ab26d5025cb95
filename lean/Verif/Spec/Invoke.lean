import Verif.Model.Invoke
import Verif.Spec.Codegen

/-!
# What it means to call an operation with JSON arguments
-/

namespace Iota.Spec.Invoke
open Iota.Go Iota.Msgpack Iota.Codegen Iota.Spec.Codegen Iota.Spec.Msgpack Iota.Invoke

mutual
/-- The JSON value `j` stands for the Go value `v` of type `t`. -/
inductive Stands (env : Env) : Ty → J → GV → Prop
  | str {s : Bytes} : Stands env (.prim .str) (.str s) (.sc (.str s))
  | bool {b : Bool} : Stands env (.prim .bool) (.bool b) (.sc (.bool b))
  | f64 {n : UInt64} : Stands env (.prim .f64) (.num n) (.sc (.f64 n.toNat))
  | cast {p : Prim} {j : J} {v : GV} (h : Stands env (.prim p) j v) : Stands env (.cast p) j v
  | list {t : Ty} {l : List J} {vs : List GV} (h : StandsL env t l vs) : Stands env (.list t) (.arr l) (.list vs)
  | map {t : Ty} {l : List (Bytes × J)} {m : List (Sc × GV)} (hn : (l.map (·.1)).Nodup) (h : StandsM env t l m) :
      Stands env (.map .str t) (.obj l) (.map m)
  | fields {n : Nat} {args : List (Bytes × J)} {vs : List GV} (hn : (args.map (·.1)).Nodup)
      (h : StandsF env args (env.get n).fields vs) : Stands env (.named n) (.obj args) (.obj vs)
  | none {t : Ty} (h : Pointer t) : Stands env (.opt t) .null .null
  | some {t : Ty} {j : J} {v : GV} (ht : ∀ t', t ≠ .opt t') (h : Stands env t j v) : Stands env (.opt t) j v

/-- The elements of an array. -/
inductive StandsL (env : Env) : Ty → List J → List GV → Prop
  | nil {t : Ty} : StandsL env t [] []
  | cons {t : Ty} {j : J} {v : GV} {l : List J} {vs : List GV} (hv : Stands env t j v) (hl : StandsL env t l vs) :
      StandsL env t (j :: l) (v :: vs)

/-- The entries of an object that stands for a map. -/
inductive StandsM (env : Env) : Ty → List (Bytes × J) → List (Sc × GV) → Prop
  | nil {t : Ty} : StandsM env t [] []
  | cons {t : Ty} {k : Bytes} {j : J} {v : GV} {l : List (Bytes × J)} {m : List (Sc × GV)} (hv : Stands env t j v)
      (hl : StandsM env t l m) : StandsM env t ((k, j) :: l) ((.str k, v) :: m)

/-- The object `args` stands for the values of the fields: that of a field that it has is the one the object has, the
others have the zero value of their type. What else the object has does not matter. -/
inductive StandsF (env : Env) : List (Bytes × J) → List (Bytes × Ty) → List GV → Prop
  | nil {args : List (Bytes × J)} : StandsF env args [] []
  | given {args : List (Bytes × J)} {s : Bytes} {t : Ty} {j : J} {v : GV} {fs : List (Bytes × Ty)} {vs : List GV}
      (hs : (s, j) ∈ args) (hv : Stands env t j v) (h : StandsF env args fs vs) : StandsF env args ((s, t) :: fs) (v :: vs)
  | absent {args : List (Bytes × J)} {s : Bytes} {t : Ty} {fs : List (Bytes × Ty)} {vs : List GV}
      (hs : s ∉ args.map (·.1)) (h : StandsF env args fs vs) :
      StandsF env args ((s, t) :: fs) (zero env env.length t :: vs)
end

/-- The command reports an error to the user as one: it neither prints a result nor crashes. -/
def Reported : Outcome → Prop
  | .failed _ => True
  | _ => False

end Iota.Spec.Invoke
