/-!
# Stream id generators

Model of `/repo/go/internal/socket/stream_id.go`. `atomic.AddUint64` is one atomic step; the rest of
`Next` is local to the calling goroutine. A system of any number of goroutines calling `Next` on one
generator is the transition system `Step`.
-/

namespace Iota.StreamId

/-- The two generator types, `ServerStreamIDs` and `ClientStreamIDs`.
stream_id.go:18,30 -/
inductive Side where
  | server
  | client
  deriving DecidableEq, Repr

/-- `_maskStreamID`. stream_id.go:8 -/
def maskStreamID : UInt64 := 0x7FFFFFFF

/-- `_halfSeed`. stream_id.go:9 -/
def halfSeed : UInt64 := 0x40000000

/-- The value `v` computed from the seed. stream_id.go:23 (server), 35 (client). -/
def value : Side → UInt64 → UInt64
  | .server, seed => 2 * seed
  | .client, seed => 2 * (seed - 1) + 1

/-- What `Next` does with the seed it drew: `some` result returned, or `none` when it calls itself
again. stream_id.go:23-27 (server), 35-39 (client). -/
def finish (side : Side) (seed : UInt64) : Option (UInt32 × Bool) :=
  if value side seed ≠ 0 then
    some ((maskStreamID &&& value side seed).toUInt32, decide (seed ≤ halfSeed))
  else none

/-- Where a goroutine is: not in `Next`, about to do the atomic add, or holding the seed it drew. -/
inductive Pc where
  | idle
  | calling
  | drawn (seed : UInt64)
  deriving DecidableEq, Repr

/-- State of the generator and its callers. `out` lists the returned results, latest first, with the
goroutine that got them; `draws` counts the atomic adds done so far. -/
structure State where
  counter : UInt64
  pc : Nat → Pc
  draws : Nat
  out : List (Nat × UInt32 × Bool)

/-- A generator nobody has used yet (the zero value, as in `NewInstance`/`New`). -/
def init : State := { counter := 0, pc := fun _ => .idle, draws := 0, out := [] }

def setPc (s : State) (t : Nat) (p : Pc) : Nat → Pc := fun u => if u = t then p else s.pc u

/-- One step of goroutine `t`. -/
inductive Step (side : Side) : State → State → Prop
  /-- enter `Next` -/
  | call (s : State) (t : Nat) (h : s.pc t = .idle) :
      Step side s { s with pc := setPc s t .calling }
  /-- `atomic.AddUint64((*uint64)(p), 1)`. stream_id.go:22,34 -/
  | add (s : State) (t : Nat) (h : s.pc t = .calling) :
      Step side s { s with counter := s.counter + 1, draws := s.draws + 1,
                           pc := setPc s t (.drawn (s.counter + 1)) }
  /-- `return uint32(_maskStreamID & v), seed <= _halfSeed`. stream_id.go:24-25,36-37 -/
  | ret (s : State) (t : Nat) (seed : UInt64) (r : UInt32 × Bool)
      (h : s.pc t = .drawn seed) (hf : finish side seed = some r) :
      Step side s { s with pc := setPc s t .idle, out := (t, r) :: s.out }
  /-- `return p.Next()`. stream_id.go:27,39 -/
  | again (s : State) (t : Nat) (seed : UInt64)
      (h : s.pc t = .drawn seed) (hf : finish side seed = none) :
      Step side s { s with pc := setPc s t .calling }

/-- States reachable from a fresh generator under any scheduling of any number of goroutines. -/
inductive Reach (side : Side) : State → Prop
  | init : Reach side init
  | step {s s' : State} : Reach side s → Step side s s' → Reach side s'

/-- A single caller: `Next` on a generator holding `counter`, given the recursion in `Next` goes at
most one level deep. Returns the new counter. stream_id.go:20-28,32-40 -/
def next (side : Side) (counter : UInt64) : Option (UInt64 × UInt32 × Bool) :=
  match finish side (counter + 1) with
  | some r => some (counter + 1, r)
  | none =>
    match finish side (counter + 2) with
    | some r => some (counter + 2, r)
    | none => none

end Iota.StreamId
