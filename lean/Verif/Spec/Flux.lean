import Verif.Model.Flux

/-!
# Specification: what the user of a flux may see

Stated over the history of calls and callbacks (latest event first) only.
-/

namespace Iota.Spec.Flux
open Iota.Flux

variable {V E W : Type}

/-- What a subscriber can see. -/
inductive Seen (E W : Type) where
  | next (w : W)
  | complete
  | error (e : E)
  deriving DecidableEq, Repr

def callOf (i : Nat) : Ev V E W → Option (Call V E)
  | .called j x => if j = i then some x else none
  | _ => none

def seenOf (i : Nat) : Ev V E W → Option (Seen E W)
  | .onNext j w => if j = i then some (.next w) else none
  | .onComplete j => if j = i then some .complete else none
  | .onError j e => if j = i then some (.error e) else none
  | _ => none

def finOf (i : Nat) : Ev V E W → Option Signal
  | .fin j s => if j = i then some s else none
  | _ => none

def askOf (i : Nat) : Ev V E W → Option Int
  | .asked j n => if j = i then some n else none
  | _ => none

/-- What was told to subscriber `i`, oldest first. -/
def calls (i : Nat) (log : List (Ev V E W)) : List (Call V E) := (log.filterMap (callOf i)).reverse

/-- What the callbacks of subscriber `i` saw, oldest first. -/
def seen (i : Nat) (log : List (Ev V E W)) : List (Seen E W) := (log.filterMap (seenOf i)).reverse

/-- The signals its finalizer was called with, oldest first. -/
def fins (i : Nat) (log : List (Ev V E W)) : List Signal := (log.filterMap (finOf i)).reverse

/-- The requests made for subscriber `i`, oldest first. -/
def asked (i : Nat) (log : List (Ev V E W)) : List Int := (log.filterMap (askOf i)).reverse

/-- Total demand; requests of less than one element ask for nothing. -/
def demand (i : Nat) (log : List (Ev V E W)) : Nat := ((asked i log).map Int.toNat).sum

/-- What a subscriber of a plain flux should see of what it is told: everything up to the first end. -/
def deliver : List (Call V E) → List (Seen E V)
  | [] => []
  | .next v :: r => .next v :: deliver r
  | .complete :: _ => [.complete]
  | .error e :: _ => [.error e]
  | .cancel :: _ => []

/-- What a subscriber of a mapped flux should see: transformed values up to the first end or failure. -/
def deliverMap (tx : V → Except E W) : List (Call V E) → List (Seen E W)
  | [] => []
  | .next v :: r =>
    match tx v with
    | .ok w => .next w :: deliverMap tx r
    | .error e => [.error e]
  | .complete :: _ => [.complete]
  | .error e :: _ => [.error e]
  | .cancel :: _ => []

/-- Values, then at most one end, then nothing. -/
def Grammar (l : List (Seen E W)) : Prop :=
  ∃ (vs : List W) (t : List (Seen E W)), l = vs.map .next ++ t ∧ (t = [] ∨ t = [.complete] ∨ ∃ e, t = [.error e])

/-- The subscriber has the callback for it. -/
def wanted (h : Handlers) : Seen E W → Bool
  | .next _ => h.onNext
  | .complete => h.onComplete
  | .error _ => h.onError

end Iota.Spec.Flux
