import Verif.Model.Mono

/-!
# Specification: what the user of a mono may see

Stated over the history of calls and callbacks (latest event first) only.
-/

namespace Iota.Spec.Mono
open Iota.Mono

variable {V E W : Type}

/-- Callbacks (and the end) of subscription `i`. -/
def ofSub (i : Nat) : Ev V E W → Bool
  | .onSuccess j _ => j = i
  | .onError j _ => j = i
  | .fin j _ => j = i
  | .done j _ => j = i
  | _ => false

/-- What subscription `i` saw so far, oldest first. -/
def history (i : Nat) : List (Ev V E W) → List (Ev V E W)
  | [] => []
  | e :: l => history i l ++ (if ofSub i e then [e] else [])

/-- The first signal raised for subscription `i`. -/
def firstOutcome (i : Nat) : List (Ev V E W) → Option (Outcome V E)
  | [] => none
  | e :: l =>
    match firstOutcome i l with
    | some o => some o
    | none =>
      match e with
      | .called j o => if j = i then some o else none
      | _ => none

/-- The signal reported for an outcome of the source. -/
def sigOf : Outcome V E → Signal
  | .success _ => .complete
  | .error _ => .error
  | .cancel => .cancel

/-- End of a subscription: finalizer, then notifications. -/
def tail (i : Nat) (h : Handlers) (s : Signal) : List (Ev V E W) :=
  (if h.onFinally then [.fin i s] else []) ++ [.done i s]

/-- Everything a subscription with handlers `h` should see when the source's first signal is `o` and
values go through `tx`. -/
def expected (tx : V → Except E W) (i : Nat) (h : Handlers) (o : Outcome V E) : List (Ev V E W) :=
  (match o with
    | .success v =>
      match tx v with
      | .ok w => if h.onSuccess then [.onSuccess i w] else []
      | .error e => if h.onError then [.onError i e] else []
    | .error e => if h.onError then [.onError i e] else []
    | .cancel => []) ++ tail i h (sigOf o)

/-- `Notify` stored function `k`. -/
def registered (k : Nat) : List (Ev V E W) → Bool
  | [] => false
  | .reg k' :: l => k' == k || registered k l
  | _ :: l => registered k l

/-- How often function `k` should have been called with signal `s`: once for every subscription that
ended with `s` after `k` was registered, and once if the mono had already finished when it was. -/
def owedCalls (k : Nat) (s : Signal) : List (Ev V E W) → Nat
  | [] => 0
  | .done _ s' :: l => (if s' = s ∧ registered k l then 1 else 0) + owedCalls k s l
  | .regNow k' s' :: l => (if k' = k ∧ s' = s then 1 else 0) + owedCalls k s l
  | _ :: l => owedCalls k s l

/-- How often function `k` was called with signal `s`. -/
def calls (k : Nat) (s : Signal) : List (Ev V E W) → Nat
  | [] => 0
  | .notified k' s' :: l => (if k' = k ∧ s' = s then 1 else 0) + calls k s l
  | _ :: l => calls k s l

end Iota.Spec.Mono
