/-!
# Mono

Model of `/repo/go/rx/mono/mono.go` and `processor.go`. The library code is a machine that is driven
by user code: every callback (`OnSuccess`, `OnError`, `Finally`, `Notify` functions and the source) is
arbitrary user code that may call back into the library any number of times before it returns. The
machine therefore keeps, for each callback in progress, the continuation of the library code that called
it. Any number of goroutines may drive the same mono.

Simplifications: the library code between two callbacks is one step (the fields are not protected by a
lock or atomics in the code, so data races on `closed` are outside the model); callbacks return
normally; `Async` (a no-op) is left out; `Block` is in `Model/Block.lean`.

One machine covers `Create`d monos and `Map` over them: `tx` is the transform of the mapper, for a plain
mono it is `.ok`.
-/

namespace Iota.Mono

/-- `rx.SignalType`. rx/rx.go:14-20 -/
inductive Signal where
  | complete
  | cancel
  | error
  deriving DecidableEq, Repr

/-- What a source (or `Cancel`) tells a subscriber. -/
inductive Outcome (V E : Type) where
  | success (v : V)
  | error (e : E)
  | cancel
  deriving DecidableEq, Repr

/-- Which of the callbacks of `Subscribe[T]` are not nil. mono.go:21-26 -/
structure Handlers where
  onSuccess : Bool
  onError : Bool
  onFinally : Bool
  deriving DecidableEq, Repr

/-- `subscriber[T]`. mono.go:144-155. `value` is `none` while it holds the zero value. -/
structure Sub (V E : Type) where
  closed : Bool
  value : Option V
  err : Option E
  signal : Signal
  h : Handlers
  deriving DecidableEq, Repr

/-- What happened, as seen by user code. `called i o` records that user code signalled `o` to
subscriber `i`; `done i s` that the notification loop of subscriber `i` started (mono.go:186); `reg k`
that `Notify` stored function `k`; `regNow k s` that `Notify` found the mono finished. -/
inductive Ev (V E W : Type) where
  | subscribed (i : Nat)
  | called (i : Nat) (o : Outcome V E)
  | onSuccess (i : Nat) (w : W)
  | onError (i : Nat) (e : E)
  | fin (i : Nat) (s : Signal)
  | done (i : Nat) (s : Signal)
  | reg (k : Nat)
  | regNow (k : Nat) (s : Signal)
  | notified (k : Nat) (s : Signal)
  deriving DecidableEq, Repr

/-- What the library does when the callback in progress returns. -/
inductive Frame where
  /-- after `doOnSuccess`/`doOnError`: `s.finally(signal)`. mono.go:166,178 -/
  | afterSig (i : Nat) (s : Signal)
  /-- after `doFinally`: the notification loop. mono.go:186 -/
  | afterFin (i : Nat) (s : Signal)
  /-- after a notification: the rest of the loop. mono.go:186-188 -/
  | loop (s : Signal) (rest : List Nat)
  /-- nothing left to do (the source, mono.go:116; an immediate notification, mono.go:130) -/
  | leaf
  deriving DecidableEq, Repr

/-- `mono[T]` (mono.go:101-105) with all subscribers it ever had, the callbacks in progress (each with
its goroutine, innermost first) and the history, latest first. -/
structure State (V E W : Type) where
  subs : List (Sub V E)
  current : Option Nat
  callbacks : List Nat
  nextFn : Nat
  pending : List (Nat × Frame)
  log : List (Ev V E W)
  deriving DecidableEq, Repr

variable {V E W : Type}

/-- `Create`. mono.go:95-99 -/
def init : State V E W :=
  { subs := [], current := none, callbacks := [], nextFn := 0, pending := [], log := [] }

/-- Call user code from goroutine `g`, to continue with `f`. -/
def push (s : State V E W) (g : Nat) (f : Frame) : State V E W :=
  { s with pending := (g, f) :: s.pending }

def emit (s : State V E W) (e : Ev V E W) : State V E W := { s with log := e :: s.log }

/-- `for _, fn := range s.m.callbacks { fn(signal) }` from some point on. mono.go:186-188 -/
def runLoop (g : Nat) (sig : Signal) (rest : List Nat) (s : State V E W) : State V E W :=
  match rest with
  | [] => s
  | k :: ks => push (emit s (.notified k sig)) g (.loop sig ks)

/-- Start of the loop: the slice is evaluated once. mono.go:186 -/
def startLoop (g i : Nat) (sig : Signal) (s : State V E W) : State V E W :=
  runLoop g sig s.callbacks (emit s (.done i sig))

def setSub (s : State V E W) (i : Nat) (f : Sub V E → Sub V E) : State V E W :=
  { s with subs := s.subs.modify i f }

/-- `finally`. mono.go:181-189 -/
def runFinally (g i : Nat) (sig : Signal) (h : Handlers) (s : State V E W) : State V E W :=
  if h.onFinally then push (emit (setSub s i fun b => { b with signal := sig }) (.fin i sig)) g (.afterFin i sig)
  else startLoop g i sig (setSub s i fun b => { b with signal := sig })

/-- Call `doOnSuccess` (mono.go:163-166); with a mapper in between this is the closure of
mono.go:213-224. -/
def callSuccess (tx : V → Except E W) (g i : Nat) (v : V) (h : Handlers) (s : State V E W) :
    State V E W :=
  match tx v with
  | .ok w =>
    if h.onSuccess then push (emit s (.onSuccess i w)) g (.afterSig i .complete)
    else runFinally g i .complete h s
  | .error e =>
    if h.onError then push (emit s (.onError i e)) g (.afterSig i .complete)
    else runFinally g i .complete h s

/-- Call `doOnError`. mono.go:175-178; a mapper passes the callback through (mono.go:225). -/
def callError (g i : Nat) (e : E) (h : Handlers) (s : State V E W) : State V E W :=
  if h.onError then push (emit s (.onError i e)) g (.afterSig i .error)
  else runFinally g i .error h s

/-- `Success` (mono.go:157-167), `Error` (169-179) and `Cancel` (191-197) of subscriber `i`. -/
def signal (tx : V → Except E W) (g i : Nat) (o : Outcome V E) (s : State V E W) :
    Option (State V E W) :=
  match s.subs[i]? with
  | none => none
  | some b =>
    if b.closed then some (emit s (.called i o))
    else match o with
      | .success v => some (callSuccess tx g i v b.h
          (setSub (emit s (.called i o)) i fun b => { b with value := some v, closed := true }))
      | .error e => some (callError g i e b.h
          (setSub (emit s (.called i o)) i fun b => { b with err := some e, closed := true }))
      | .cancel => some (runFinally g i .cancel b.h
          (setSub (emit s (.called i o)) i fun b => { b with closed := true }))

/-- The part of `Subscribe` before the source runs. mono.go:107-115 -/
def addSub (h : Handlers) (s : State V E W) : State V E W :=
  { s with subs := s.subs ++ [{ closed := false, value := none, err := none, signal := .complete, h := h }],
           current := some s.subs.length, log := .subscribed s.subs.length :: s.log }

/-- `Subscribe` of a mono whose source is user code. mono.go:107-118 -/
def subscribe (g : Nat) (h : Handlers) (s : State V E W) : State V E W :=
  push (addSub h s) g .leaf

/-- `Notify`. mono.go:123-135 -/
def notify (g : Nat) (s : State V E W) : State V E W :=
  match s.current.bind fun i => s.subs[i]? with
  | some b =>
    if b.closed then
      push (emit (emit { s with nextFn := s.nextFn + 1 } (.regNow s.nextFn b.signal))
        (.notified s.nextFn b.signal)) g .leaf
    else { s with nextFn := s.nextFn + 1, callbacks := s.callbacks ++ [s.nextFn],
                  log := .reg s.nextFn :: s.log }
  | none => { s with nextFn := s.nextFn + 1, callbacks := s.callbacks ++ [s.nextFn],
                     log := .reg s.nextFn :: s.log }

/-- The innermost callback in progress on goroutine `g`. -/
def pop (g : Nat) : List (Nat × Frame) → Option (Frame × List (Nat × Frame))
  | [] => none
  | (g', f) :: r =>
    if g' = g then some (f, r)
    else match pop g r with
      | none => none
      | some (f', r') => some (f', (g', f) :: r')

/-- The callback in progress on `g` returns and the library continues. -/
def resume (g : Nat) (s : State V E W) : Option (State V E W) :=
  match pop g s.pending with
  | none => none
  | some (f, r) =>
    match f with
    | .afterSig i sig =>
      match s.subs[i]? with
      | none => none
      | some b => some (runFinally g i sig b.h { s with pending := r })
    | .afterFin i sig => some (startLoop g i sig { s with pending := r })
    | .loop sig rest => some (runLoop g sig rest { s with pending := r })
    | .leaf => some { s with pending := r }

/-- What user code on goroutine `g` can do next. -/
inductive Action (V E : Type) where
  | subscribe (g : Nat) (h : Handlers)
  | notify (g : Nat)
  | signal (g : Nat) (i : Nat) (o : Outcome V E)
  | ret (g : Nat)
  deriving DecidableEq, Repr

def step (tx : V → Except E W) (s : State V E W) : Action V E → Option (State V E W)
  | .subscribe g h => some (subscribe g h s)
  | .notify g => some (notify g s)
  | .signal g i o => signal tx g i o s
  | .ret g => resume g s

def run (tx : V → Except E W) : State V E W → List (Action V E) → Option (State V E W)
  | s, [] => some s
  | s, a :: as => (step tx s a).bind fun s' => run tx s' as

/-- Result of `Get`: a panic, or the pair it returns (`none` for the zero value, `none` for nil). -/
inductive Got (W E : Type) where
  | panic
  | ret (v : Option W) (e : Option E)
  deriving DecidableEq, Repr

/-- `Get` of the mono (mono.go:137-142) seen through the mapper (mono.go:240-247). A subscriber that
was cancelled holds the zero value, to which the mapper applies the transform as well; `zero` is that
zero value. -/
def get (tx : V → Except E W) (zero : V) (s : State V E W) : Got W E :=
  match s.current.bind fun i => s.subs[i]? with
  | none => .panic
  | some b =>
    if b.closed then
      match b.err with
      | some e => .ret none (some e)
      | none =>
        match tx (b.value.getD zero) with
        | .ok w => .ret (some w) none
        | .error e => .ret none (some e)
    else .panic

/-! ## Monos that are finished from the start -/

/-- `justSingle.Subscribe`: the callbacks it runs. mono.go:73-78 -/
def justSubscribe (h : Handlers) (v : V) : List (Ev V E V) :=
  if h.onSuccess then [.onSuccess 0 v] else []

/-- `errorSingle.Subscribe`. mono.go:41-46 -/
def errorSubscribe (h : Handlers) (e : E) : List (Ev V E V) :=
  if h.onError then [.onError 0 e] else []

/-! ## Processor -/

/-- `ProcessorImpl`. processor.go:8-13 -/
structure Proc (V E : Type) where
  sink : Option Nat
  success : Option V
  err : Option E
  m : State V E V
  deriving DecidableEq, Repr

/-- `NewProcessor`. processor.go:15-27 -/
def Proc.init : Proc V E := { sink := none, success := none, err := none, m := Mono.init }

/-- Run a signal on the mono of the processor. -/
def Proc.forward (p : Proc V E) (g i : Nat) (o : Outcome V E) : Option (Proc V E) :=
  match signal .ok g i o p.m with
  | some m => some { p with m := m }
  | none => none

/-- `Subscribe` of the processor: the source of processor.go:17-24 runs at once. -/
def Proc.subscribe (p : Proc V E) (g : Nat) (h : Handlers) : Option (Proc V E) :=
  let i := p.m.subs.length
  let p' := { p with sink := some i, m := addSub h p.m }
  match p.success with
  | some v => p'.forward g i (.success v)
  | none =>
    match p.err with
    | some e => p'.forward g i (.error e)
    | none => some p'

/-- `Success`. processor.go:29-35 -/
def Proc.pushSuccess (p : Proc V E) (g : Nat) (v : V) : Option (Proc V E) :=
  match p.sink with
  | some i => p.forward g i (.success v)
  | none => some { p with success := some v }

/-- `Error`. processor.go:37-43 -/
def Proc.pushError (p : Proc V E) (g : Nat) (e : E) : Option (Proc V E) :=
  match p.sink with
  | some i => p.forward g i (.error e)
  | none => some { p with err := some e }

/-- What user code can do with a processor. -/
inductive PAction (V E : Type) where
  | subscribe (g : Nat) (h : Handlers)
  | notify (g : Nat)
  | pushSuccess (g : Nat) (v : V)
  | pushError (g : Nat) (e : E)
  | ret (g : Nat)
  deriving DecidableEq, Repr

def Proc.step (p : Proc V E) : PAction V E → Option (Proc V E)
  | .subscribe g h => p.subscribe g h
  | .notify g => some { p with m := Mono.notify g p.m }
  | .pushSuccess g v => p.pushSuccess g v
  | .pushError g e => p.pushError g e
  | .ret g =>
    match resume g p.m with
    | some m => some { p with m := m }
    | none => none

def Proc.run : Proc V E → List (PAction V E) → Option (Proc V E)
  | p, [] => some p
  | p, a :: as => (p.step a).bind fun p' => Proc.run p' as

end Iota.Mono
