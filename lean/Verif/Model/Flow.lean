/-!
# Flows

Model of `/repo/go/rx/flow/flow.go` and `rx/await/await.go`. A flow runs its steps, which are user code; each returns
the operations to await (`await.Group`). The library is a machine driven by user code, with the continuation of the
library code for each call of user code in progress, on any number of goroutines.

Simplifications: the values and the sinks are left out (`Next`, `Complete`, `Success`, flow.go:38-61, only forward to a
sink, or panic when the flow was built for the other kind); every awaited operation notifies each function it was given
once; `Steps` is called before the flow starts; data races on `completed` and `steps` are outside the model; steps
return normally.
-/

namespace Iota.Flow

/-- What happened: step `k` was called; it returned the operations `ts` to await; operation `t` has finished (and
calls `check`); step `k` failed; step `k` returned after `End`. -/
inductive Ev where
  | ran (k : Nat)
  | group (k : Nat) (ts : List Nat)
  | finished (t : Nat)
  | failed (k : Nat)
  | stopped (k : Nat)
  deriving DecidableEq, Repr

/-- What is left to do when user code returns. -/
inductive Frame where
  /-- the rest of `next` after the call of step `k`. flow.go:94-114 -/
  | afterStep (k : Nat)
  /-- the rest of the loop over the awaitables. flow.go:109-114 -/
  | regLoop (rest : List Nat)
  deriving DecidableEq, Repr

/-- `Flow[T]` (flow.go:11-19), with steps by number and the number of awaitables for the list of them; then the next
name for an operation, the operations that will call `check`, the calls of user code in progress with their goroutines,
whether the process crashed, and the history, latest first. -/
structure State where
  steps : List Nat
  ended : Bool
  completed : Nat
  awaitables : Nat
  fresh : Nat
  waiting : List Nat
  frames : List (Nat × Frame)
  crashed : Bool
  log : List Ev
  deriving DecidableEq, Repr

/-- `New` and `Steps`. flow.go:29-36 -/
def init (n : Nat) : State :=
  { steps := List.range n, ended := false, completed := 0, awaitables := 0, fresh := 0, waiting := [], frames := [],
    crashed := false, log := [] }

/-- `next`, up to the call of the step. flow.go:87-94 -/
def next (g : Nat) (s : State) : State :=
  match s.steps with
  | [] => s
  | k :: _ => { s with completed := 0, frames := (g, .afterStep k) :: s.frames, log := .ran k :: s.log }

/-- `check`. flow.go:117-122 -/
def check (g : Nat) (s : State) : State :=
  if s.awaitables ≤ s.completed + 1 then next g { s with completed := s.completed + 1 }
  else { s with completed := s.completed + 1 }

/-- `next` after the step returned: with an error or `m` operations to await. flow.go:94-109 -/
def afterStep (g k : Nat) (r : Option Nat) (s : State) : State :=
  match r with
  | none => { s with log := .failed k :: s.log }
  | some m =>
    if s.ended then { s with log := .stopped k :: s.log }
    else { s with awaitables := m, fresh := s.fresh + m,
                  frames := (g, .regLoop (List.range' s.fresh m)) :: s.frames,
                  log := .group k (List.range' s.fresh m) :: s.log }

/-- One round of the loop: `Notify(f.check)` calls `check` now, if the operation has finished, or later; after the
loop `f.steps = f.steps[1:]`, which panics when there are none. flow.go:109-114 -/
def regRound (g : Nat) (rest : List Nat) (now : Bool) (s : State) : State :=
  match rest with
  | t :: ts =>
    if now then check g { s with frames := (g, .regLoop ts) :: s.frames, log := .finished t :: s.log }
    else { s with frames := (g, .regLoop ts) :: s.frames, waiting := t :: s.waiting }
  | [] =>
    match s.steps with
    | [] => { s with crashed := true }
    | _ :: ks => { s with steps := ks }

/-- The innermost call in progress on goroutine `g`. -/
def pop (g : Nat) : List (Nat × Frame) → Option (Frame × List (Nat × Frame))
  | [] => none
  | (g', f) :: r =>
    if g' = g then some (f, r)
    else match pop g r with
      | none => none
      | some (f', r') => some (f', (g', f) :: r')

/-- What happens next: the mono or flux of the flow is subscribed to (flow.go:73-85), a step returns, user code calls
`End` (flow.go:24-27), the loop goes on, or an operation finishes. -/
inductive Action where
  | subscribe (g : Nat)
  | stepRet (g : Nat) (r : Option Nat)
  | finish (g : Nat) (t : Nat)
  | goOn (g : Nat) (now : Bool)
  | endFlow
  deriving DecidableEq, Repr

def step (s : State) (a : Action) : Option State :=
  if s.crashed then none
  else match a with
    | .subscribe g => some (next g s)
    | .stepRet g r =>
      match pop g s.frames with
      | some (.afterStep k, fs) => some (afterStep g k r { s with frames := fs })
      | _ => none
    | .goOn g now =>
      match pop g s.frames with
      | some (.regLoop rest, fs) => some (regRound g rest now { s with frames := fs })
      | _ => none
    | .finish g t =>
      if t ∈ s.waiting then some (check g { s with waiting := s.waiting.erase t, log := .finished t :: s.log }) else none
    | .endFlow => some { s with ended := true }

def run : State → List Action → Option State
  | s, [] => some s
  | s, a :: as =>
    match step s a with
    | none => none
    | some s => run s as

end Iota.Flow
