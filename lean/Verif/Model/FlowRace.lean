/-!
# A flow whose awaited operations finish at the same time

Model of `check` (`/repo/go/rx/flow/flow.go:117-122`) and of the beginning of `next` (87-94) when the operations that
a step awaits finish on different goroutines: proxies and monos call the functions they were given on whatever goroutine
ends them, and nothing guards `completed`. `Verif/Model/Flow.lean` takes each call of `check` as one step; here a call
is the reads and writes of memory that `f.completed++` and the comparison stand for.

Simplifications: reads and writes take effect one after the other (Go promises less for a race); the time from the
registration with the whole group to the return of the step that comes next; there is a next step. The compiler may
compare the number it has just written, or read it again: `reload`.
-/

namespace Iota.FlowRace

/-- Where the goroutine of an operation is: not finished; it has read `completed`; it has written it back; it has found
that all have finished and will call `next`; done. -/
inductive Phase where
  | idle
  | loaded (r : Nat)
  | stored (r : Nat)
  | calling
  | done
  deriving DecidableEq, Repr

/-- `completed`, the goroutines of the awaited operations, and how often the next step was started. -/
structure State where
  completed : Nat
  phases : List Phase
  started : Nat
  deriving DecidableEq, Repr

/-- `next` has registered with `n` operations. flow.go:92, 108-112 -/
def init (n : Nat) : State := ⟨0, List.replicate n .idle, 0⟩

/-- The number that is compared with `len(f.awaitables)`. flow.go:119 -/
def compared (reload : Bool) (completed r : Nat) : Nat := if reload then completed else r + 1

/-- The next read or write of a goroutine: `f.completed++` (flow.go:118), the comparison (119), `f.completed = 0` and the
call of the step (92-94). -/
def advance (reload : Bool) (s : State) (i : Nat) : Phase → State
  | .idle => { s with phases := s.phases.set i (.loaded s.completed) }
  | .loaded r => { s with completed := r + 1, phases := s.phases.set i (.stored r) }
  | .stored r =>
    { s with phases := s.phases.set i (if s.phases.length ≤ compared reload s.completed r then .calling else .done) }
  | .calling => { completed := 0, phases := s.phases.set i .done, started := s.started + 1 }
  | .done => s

/-- Goroutine `i` goes on. -/
def step (reload : Bool) (s : State) (i : Nat) : State :=
  match s.phases[i]? with
  | none => s
  | some p => advance reload s i p

/-- The goroutines in the order in which they go on. -/
def run (reload : Bool) (s : State) (is : List Nat) : State := is.foldl (step reload) s

end Iota.FlowRace
