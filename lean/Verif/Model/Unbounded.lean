/-!
# Unbounded buffer

Model of `/repo/go/internal/buffer/unbounded.go`. `Put`, `Load` and `Dispose` each run under the mutex;
inside the critical section every access that another goroutine could observe (the channel operations)
is its own step, so a receive can fall between any two of them. The reader uses the buffer as its
documentation asks (unbounded.go:99-100) and as `transport/rsocket` and `wasmrs/host` do: after each
received value it calls `Load` before it receives again. Any goroutine may call `Put`, `Load` and
`Dispose` at any time.
-/

namespace Iota.Unbounded

/-- Program counter of the goroutine holding the mutex. -/
inductive Hold (T : Type) where
  /-- mutex free -/
  | none
  /-- `Put(t)` at line 54 -/
  | put (t : T)
  /-- `Put(t)` at the `select`, line 62 -/
  | putSend (t : T)
  /-- `Put(t)` at line 69 -/
  | putAppend (t : T)
  /-- `Load` at line 79; the flag says whether this is the call the reader owes -/
  | load (owed : Bool)
  /-- `Load` at the `select`, line 80 -/
  | loadSend (owed : Bool)
  /-- `Load` at line 89 -/
  | loadClose (owed : Bool)
  /-- `Dispose` at line 108 -/
  | dispose
  /-- `Dispose` at line 110 -/
  | disposeClose
  deriving DecidableEq, Repr

/-- The buffer (`c`, `backlog`, `disposed`; unbounded.go:38-43) with its mutex, plus history.
`chan` is the content of the capacity-one channel and `closed` says whether it was closed. `owed` is
set while the reader still has to call `Load` for the value it received. `accepted` lists the values
for which `Put` returned `true`, in the order of the calls holding the mutex; `rejected` those for which
it returned `false`; `received` what the reader got. `panicked` records a send on the closed channel. -/
structure State (T : Type) where
  chan : List T
  closed : Bool
  backlog : List T
  disposed : Bool
  hold : Hold T
  owed : Bool
  accepted : List T
  rejected : List T
  received : List T
  panicked : Bool
  deriving DecidableEq, Repr

/-- `NewUnbounded`. unbounded.go:46-48 -/
def init (T : Type) : State T :=
  { chan := [], closed := false, backlog := [], disposed := false, hold := .none, owed := false,
    accepted := [], rejected := [], received := [], panicked := false }

/-- What can happen next. -/
inductive Event (T : Type) where
  /-- some goroutine enters `Put(t)` and takes the mutex -/
  | callPut (t : T)
  /-- some goroutine enters `Load` on its own account and takes the mutex -/
  | callLoad
  /-- the reader enters the `Load` it owes and takes the mutex -/
  | ownLoad
  /-- some goroutine enters `Dispose` and takes the mutex -/
  | callDispose
  /-- the goroutine holding the mutex does its next step -/
  | run
  /-- the reader receives a value from the channel -/
  | recv
  deriving DecidableEq, Repr

variable {T : Type}

/-- `b.c <- t` inside a `select` with `default`: a full channel takes the default case, a closed one
panics. The channel has capacity one (unbounded.go:47). -/
def trySend (s : State T) (t : T) (sent full : State T → State T) : State T :=
  if s.closed then { s with panicked := true, hold := .none }
  else if s.chan.length < 1 then sent { s with chan := s.chan ++ [t] }
  else full s

/-- The next step of the goroutine holding the mutex. -/
def runHold (s : State T) : Option (State T) :=
  match s.hold with
  | .none => .none
  -- unbounded.go:54-61
  | .put t =>
    if s.disposed then some { s with hold := .none, rejected := s.rejected ++ [t] }
    else match s.backlog with
      | [] => some { s with hold := .putSend t }
      | _ :: _ => some { s with hold := .putAppend t }
  -- unbounded.go:62-67
  | .putSend t =>
    some (trySend s t
      (fun s => { s with hold := .none, accepted := s.accepted ++ [t] })
      (fun s => { s with hold := .putAppend t }))
  -- unbounded.go:69-71
  | .putAppend t =>
    some { s with backlog := s.backlog ++ [t], hold := .none, accepted := s.accepted ++ [t] }
  -- unbounded.go:79,88
  | .load o =>
    match s.backlog with
    | _ :: _ => some { s with hold := .loadSend o }
    | [] =>
      if s.disposed then some { s with hold := .loadClose o }
      else some { s with hold := .none, owed := s.owed && !o }
  -- unbounded.go:80-87
  | .loadSend o =>
    match s.backlog with
    | t :: rest =>
      some (trySend s t
        (fun s => { s with backlog := rest, hold := .none, owed := s.owed && !o })
        (fun s => { s with hold := .none, owed := s.owed && !o }))
    | [] => none
  -- unbounded.go:89-90; closing twice panics inside `close`, which recovers (115-121)
  | .loadClose o => some { s with closed := true, hold := .none, owed := s.owed && !o }
  -- unbounded.go:108-109
  | .dispose =>
    match s.backlog with
    | [] => some { s with disposed := true, hold := .disposeClose }
    | _ :: _ => some { s with disposed := true, hold := .none }
  -- unbounded.go:110-112
  | .disposeClose => some { s with closed := true, hold := .none }

/-- Take the mutex. -/
def acquire (s : State T) (h : Hold T) : Option (State T) :=
  match s.hold with
  | .none => some { s with hold := h }
  | _ => none

/-- One step of the system; `none` when the event is not possible. -/
def step (s : State T) : Event T → Option (State T)
  | .callPut t => acquire s (.put t)
  | .callLoad => acquire s (.load false)
  | .ownLoad => if s.owed then acquire s (.load true) else none
  | .callDispose => acquire s .dispose
  | .run => runHold s
  | .recv =>
    if s.owed then none
    else match s.chan with
      | t :: rest => some { s with chan := rest, received := s.received ++ [t], owed := true }
      | [] => none

/-- Run a whole schedule. -/
def run : State T → List (Event T) → Option (State T)
  | s, [] => some s
  | s, e :: es => (step s e).bind fun s' => run s' es

end Iota.Unbounded
