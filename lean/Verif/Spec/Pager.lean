import Verif.Spec.Flux

/-!
# Specification: reading a list page by page
-/

namespace Iota.Spec.Pager
open Iota.Spec.Flux

variable {V E W : Type}

/-- What a reader gets of a list, and how it ends: whole pages until there is a value in one after which it wants nothing
more, and then it cancels; or all of the list and the end. -/
inductive Reads (page : Nat) (stop : V → Bool) : List V → List V → Iota.Flux.Signal → Prop
  | stops {xs} (h : page ≤ xs.length) (hs : ∃ v ∈ xs.take page, stop v = true) : Reads page stop xs (xs.take page) .cancel
  | more {xs got sig} (h : page ≤ xs.length) (hs : ∀ v ∈ xs.take page, stop v = false) (t : Reads page stop (xs.drop page) got sig) :
    Reads page stop xs (xs.take page ++ got) sig
  | ends {xs} (h : xs.length < page) : Reads page stop xs xs .complete

/-- The values among what was seen. -/
def values (l : List (Seen E W)) : List W :=
  l.filterMap fun x => match x with
    | .next w => some w
    | _ => none

/-- How many times the list went round: the first `k` of the endless repetition of `l`. -/
def around (l : List V) : Nat → List V
  | 0 => []
  | k + 1 => around l k ++ (l[k % l.length]?).toList

end Iota.Spec.Pager
