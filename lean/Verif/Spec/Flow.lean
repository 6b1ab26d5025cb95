import Verif.Model.Flow

/-! # Specification: the order of the steps of a flow, over its history (latest first) -/

namespace Iota.Spec.Flow
open Iota.Flow

def ranOf : Ev → Option Nat
  | .ran k => some k
  | _ => none

/-- The steps that were started, oldest first. -/
def runs (log : List Ev) : List Nat := (log.filterMap ranOf).reverse

/-- All operations awaited by step `k` have finished. -/
def allDone (k : Nat) (log : List Ev) : Prop := ∀ ts, Ev.group k ts ∈ log → ∀ t ∈ ts, Ev.finished t ∈ log

/-- Steps are started in order, once each, and only when the one before has returned what it awaits and all of that
has finished. -/
def Ordered : List Ev → Prop
  | [] => True
  | .ran k :: log => runs log = List.range k ∧ (∀ j, j + 1 = k → (∃ ts, Ev.group j ts ∈ log) ∧ allDone j log) ∧ Ordered log
  | _ :: log => Ordered log

end Iota.Spec.Flow
