import Verif.Model.Paging

/-! # Specification: a stream that is asked for page by page -/

namespace Iota.Spec.Paging
open Iota.Paging

/-- The source has these elements and no more. -/
inductive Yields {σ α : Type} (next : Source σ α) : σ → List α → Prop
  | nil {s : σ} : next s = none → Yields next s []
  | cons {s s' : σ} {v : α} {vs : List α} : next s = some (v, s') → Yields next s' vs → Yields next s (v :: vs)

/-- Pages that can be asked for: not empty, and no larger than what fits into a 31-bit number, as the protocol has it. -/
def Fits (page : Nat → Nat) : Prop := ∀ k, 0 < page k ∧ page k < 2 ^ 31

/-- The elements of the first `k` pages. -/
def total (page : Nat → Nat) (k : Nat) : Nat := ((List.range k).map page).sum

/-- The numbers from `1` to `n`. -/
def upTo (n : Nat) : List UInt64 := (List.range n).map fun k => UInt64.ofNat (k + 1)

end Iota.Spec.Paging
