import Verif.Model.Joined

/-!
# Specification: components joined by processors of single values
-/

namespace Iota.Spec.Joined
open Iota.Go Iota.Joined
variable {V E : Type}

/-- A string's bytes. -/
def bytes (s : String) : Bytes := s.toUTF8.toList

/-- What comes to the processor `i`, if `o` is pushed to the first one. -/
def comes (ss : List (Stage V E)) (o : Out V E) : Nat → Option (Out V E)
  | 0 => some o
  | i + 1 => (comes ss o i).bind fun x => (ss[i]?).bind fun s => s.on x

/-- The program joins everything, in any order: one value or error is pushed to the first processor, each processor is subscribed to
once, and functions are notified of any of them. -/
structure Joins (ss : List (Stage V E)) (o : Out V E) (as : List (Op V E)) : Prop where
  pushes : ∃ bs cs, as = bs ++ .push 0 o :: cs ∧ (∀ j x, .push j x ∉ bs) ∧ ∀ j x, .push j x ∉ cs
  subscribes : ∀ i, i < ss.length → ∃ bs cs, as = bs ++ .subscribe i :: cs ∧ .subscribe i ∉ bs ∧ .subscribe i ∉ cs

/-- What the subscriber of a processor was told. -/
def heard (i : Nat) : List (Ev V E) → List (Out V E)
  | [] => []
  | .told j o :: l => if j = i then o :: heard i l else heard i l
  | .notified _ _ _ :: l => heard i l

/-- With what a function was notified of a processor. -/
def calls (i k : Nat) : List (Ev V E) → List Bool
  | [] => []
  | .told _ _ :: l => calls i k l
  | .notified j k' b :: l => if j = i ∧ k' = k then b :: calls i k l else calls i k l

/-- How often the program asks that a function be notified of a processor. -/
def asks (i k : Nat) : List (Op V E) → Nat
  | [] => 0
  | .notify j k' :: l => (if j = i ∧ k' = k then 1 else 0) + asks i k l
  | .push _ _ :: l => asks i k l
  | .subscribe _ :: l => asks i k l

/-- What a subscriber is told of something that comes to its processor: all of it, unless it is an error and there is no `OnError`. -/
def hearing (s : Stage V E) : Out V E → List (Out V E)
  | .ok v => [.ok v]
  | .err e => if s.onError.isSome then [.err e] else []

/-- The signal that fits: `SignalError` (`true`) for an error, `SignalComplete` (`false`) for a value. -/
def fits : Out V E → Bool
  | .ok _ => false
  | .err _ => true

/-- What was printed by the program. -/
def printed (l : List (Ev Val Bytes)) : List Bytes :=
  (heard 3 l).filterMap fun o =>
    match o with
    | .ok (.text t) => some t
    | _ => none

/-- Is `done` closed, so that the program ends? -/
def over (l : List (Ev Val Bytes)) : Bool := !(calls 3 0 l).isEmpty

end Iota.Spec.Joined
