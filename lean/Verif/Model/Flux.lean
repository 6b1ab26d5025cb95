/-!
# Flux

Model of `/repo/go/rx/flux/flux.go`, `flux_host.go`, `flux_webassembly.go`, `slice.go` and `response.go`. As for
monos, the library is a machine driven by user code: every callback (`OnNext`, `OnComplete`, `OnError`,
`OnRequest`, `Finally`, `Notify` functions, the source and the functions it gives to `OnSubscribe`) is arbitrary
user code that may call back into the library before it returns, on any number of goroutines. The machine keeps,
for each callback in progress, the continuation of the library code that called it.

Simplifications: the library code between two callbacks is one step, or several (then other goroutines may run in
between); data races are outside the model; callbacks return normally; `n`, an `int`, does not overflow; `Async` (a
no-op), and the methods `Close` and `errorFlow` (no state) are left out.

One machine covers `Create`d fluxes and `Map` over them: `tx` is the transform of the mapper, for a plain flux it is
`.ok`. `m.f.(closable[S])` (flux.go:231) never holds: neither `*flux`, `errorFlow`, `mapper` nor `*processor` has a
method `Close`.
-/

namespace Iota.Flux

/-- `rx.SignalType`. rx/rx.go:14-20 -/
inductive Signal where
  | complete
  | cancel
  | error
  deriving DecidableEq, Repr

/-- `rx.RequestMax`. rx/rx.go:8 -/
def requestMax : Int := 2147483647

/-- Where values come from: user code, `FromSlice` (slice.go:3-18), or a source that calls `sink.OnSubscribe` with
`SliceResponse` (response.go:3-17) as its `Request` function. -/
inductive Src where
  | user
  | slice
  | resp
  deriving DecidableEq, Repr

/-- How the flux was built: for the host (flux_host.go) or for WebAssembly (flux_webassembly.go), its source and
the transform of the mapper. -/
structure Cfg (V E W : Type) where
  host : Bool
  src : Src
  tx : V → Except E W

/-- What is told to a subscriber. -/
inductive Call (V E : Type) where
  | next (v : V)
  | complete
  | error (e : E)
  | cancel
  deriving DecidableEq, Repr

/-- Which of the callbacks of `Subscribe[T]` are not nil, and `NoRequest`. flux.go:17-24 -/
structure Handlers where
  onNext : Bool
  onComplete : Bool
  onError : Bool
  onRequest : Bool
  onFinally : Bool
  noRequest : Bool
  deriving DecidableEq, Repr

/-- `subscriber[T]`. flux.go:110-126. `hasRequest` and `hasCancel` tell which functions of `sub` are not nil. -/
structure Subscriber (E : Type) where
  closed : Bool
  n : Int
  err : Option E
  hasRequest : Bool
  hasCancel : Bool
  signal : Signal
  h : Handlers
  deriving DecidableEq, Repr

/-- What happened, as seen by user code. `called i c` records that subscriber `i` was told `c`; `asked i n` that
`Request(n)` was called on it; `request i n` and `cancelSrc i` that the functions of its source were called;
`done i s` that its notification loop started; `reg k` that `Notify` stored function `k`; `regNow k s` that it
found the flux finished. -/
inductive Ev (V E W : Type) where
  | subscribed (i : Nat)
  | called (i : Nat) (c : Call V E)
  | asked (i : Nat) (n : Int)
  | onNext (i : Nat) (w : W)
  | onComplete (i : Nat)
  | onError (i : Nat) (e : E)
  | onRequest (i : Nat)
  | request (i : Nat) (n : Int)
  | cancelSrc (i : Nat)
  | fin (i : Nat) (s : Signal)
  | done (i : Nat) (s : Signal)
  | reg (k : Nat)
  | regNow (k : Nat) (s : Signal)
  | notified (k : Nat) (s : Signal)
  deriving DecidableEq, Repr

/-- What the library does when the callback in progress returns. -/
inductive Frame where
  /-- after the source: `s.handleOnSubscribe()`. flux.go:91 -/
  | afterSource (i : Nat)
  /-- after `doOnNext`: `if s.n == 0 { s.handleOnSubscribe() }`. flux.go:136-138 -/
  | afterNext (i : Nat)
  /-- after `sub.OnError(err)` in the mapper: its finalizer. flux.go:237-239 -/
  | afterMapError (i : Nat)
  /-- after `doOnComplete`/`doOnError`: `s.finally(signal)`. flux.go:149,161 -/
  | afterSig (i : Nat) (s : Signal)
  /-- after `doFinally`: the notification loop. flux.go:169 -/
  | afterFin (i : Nat) (s : Signal)
  /-- after a notification: the rest of the loop. flux.go:169-171 -/
  | loop (s : Signal) (rest : List Nat)
  /-- after `s.sub.Cancel()`: the finalizer. flux.go:207-209 -/
  | afterCancel (i : Nat)
  /-- the loop of `FromSlice` with `n` rounds to go. slice.go:7-14 -/
  | sliceLoop (i : Nat) (n : Int)
  /-- the loop of `SliceResponse`. response.go:9-14 -/
  | respLoop (i : Nat) (num k : Int)
  /-- the deferred `s.mu.Unlock()`. flux_host.go:23 -/
  | unlock (i : Nat)
  /-- nothing left to do -/
  | leaf
  deriving DecidableEq, Repr

/-- `flux[T]` (flux.go:73-77) with all subscribers it ever had, the slice captured by the source, the goroutines
started by `doRequest` that have yet to run, the callbacks in progress (each with its goroutine, innermost first),
whether the process crashed, and the history, latest first. -/
structure State (V E W : Type) where
  subs : List (Subscriber E)
  current : Option Nat
  callbacks : List Nat
  nextFn : Nat
  values : List V
  spawned : List (Nat × Int)
  pending : List (Nat × Frame)
  crashed : Bool
  log : List (Ev V E W)
  deriving DecidableEq, Repr

variable {V E W : Type}

/-- `Create` and `FromSlice`. flux.go:67-71, slice.go:3-4 -/
def init (values : List V) : State V E W :=
  { subs := [], current := none, callbacks := [], nextFn := 0, values := values, spawned := [], pending := [],
    crashed := false, log := [] }

/-- Call user code from goroutine `g`, to continue with `f`. -/
def push (s : State V E W) (g : Nat) (f : Frame) : State V E W := { s with pending := (g, f) :: s.pending }

def emit (s : State V E W) (e : Ev V E W) : State V E W := { s with log := e :: s.log }

def setSub (s : State V E W) (i : Nat) (f : Subscriber E → Subscriber E) : State V E W := { s with subs := s.subs.modify i f }

def crash (s : State V E W) : State V E W := { s with crashed := true }

/-- The rest of `for _, fn := range s.f.callbacks { fn(signal) }`. flux.go:169-171 -/
def runLoop (g : Nat) (sig : Signal) (rest : List Nat) (s : State V E W) : State V E W :=
  match rest with
  | [] => s
  | k :: ks => push (emit s (.notified k sig)) g (.loop sig ks)

/-- Start of the loop: the slice is evaluated once. flux.go:169 -/
def startLoop (g i : Nat) (sig : Signal) (s : State V E W) : State V E W :=
  runLoop g sig s.callbacks (emit s (.done i sig))

/-- `finally`. flux.go:164-172 -/
def runFinally (g i : Nat) (sig : Signal) (h : Handlers) (s : State V E W) : State V E W :=
  if h.onFinally then push (emit (setSub s i fun b => { b with signal := sig }) (.fin i sig)) g (.afterFin i sig)
  else startLoop g i sig (setSub s i fun b => { b with signal := sig })

/-- The call of `s.sub.Request(n)`, to continue with `f`: user code, or one of the two loops, which start here.
flux_host.go:24, flux_webassembly.go:12, slice.go:6, response.go:4-8 -/
def callRequest (src : Src) (g i : Nat) (n : Int) (f : Frame) (s : State V E W) : State V E W :=
  match src with
  | .user => push (emit s (.request i n)) g f
  | .slice => push (push (emit s (.request i n)) g f) g (.sliceLoop i n)
  | .resp => push (push (emit s (.request i n)) g f) g
      (.respLoop i (if n < (s.values.length : Int) then n else s.values.length) 0)

/-- `doRequest`: a new goroutine (flux_host.go:19-25), or a call (flux_webassembly.go:11-13). A nil function
crashes. -/
def doRequest (c : Cfg V E W) (g i : Nat) (n : Int) (hasRequest : Bool) (s : State V E W) : State V E W :=
  if c.host then { s with spawned := s.spawned ++ [(i, n)] }
  else if hasRequest then callRequest c.src g i n .leaf s
  else crash s

/-- `Request`. flux.go:195-200 -/
def request (c : Cfg V E W) (g i : Nat) (n : Int) (s : State V E W) : State V E W :=
  match s.subs[i]? with
  | none => s
  | some b =>
    if b.hasRequest then doRequest c g i n true (setSub (emit s (.asked i n)) i fun b => { b with n := b.n + n })
    else setSub (emit s (.asked i n)) i fun b => { b with n := b.n + n }

/-- `handleOnSubscribe`. flux.go:184-193 -/
def handleOnSubscribe (c : Cfg V E W) (g i : Nat) (h : Handlers) (s : State V E W) : State V E W :=
  if h.noRequest then s
  else if h.onRequest then push (emit s (.onRequest i)) g .leaf
  else request c g i requestMax s

/-- The end of `Next`. flux.go:136-138 -/
def endNext (c : Cfg V E W) (g i : Nat) (s : State V E W) : State V E W :=
  match s.subs[i]? with
  | none => s
  | some b => if b.n = 0 then handleOnSubscribe c g i b.h s else s

/-- The finalizer call of the mapper. flux.go:237-239 -/
def mapFinally (c : Cfg V E W) (g i : Nat) (h : Handlers) (s : State V E W) : State V E W :=
  if h.onFinally then push (emit s (.fin i .error)) g (.afterNext i) else endNext c g i s

/-- Call `doOnNext` (flux.go:132-134); with a mapper in between this is the closure of flux.go:229-243. -/
def callNext (c : Cfg V E W) (g i : Nat) (v : V) (h : Handlers) (s : State V E W) : State V E W :=
  match c.tx v with
  | .ok w => if h.onNext then push (emit s (.onNext i w)) g (.afterNext i) else endNext c g i s
  | .error e => if h.onError then push (emit s (.onError i e)) g (.afterMapError i) else mapFinally c g i h s

/-- `Next` (flux.go:127-139), `Complete` (141-150), `Error` (152-162) and `Cancel` (202-210) of a subscriber. -/
def tell (c : Cfg V E W) (g i : Nat) (b : Subscriber E) (x : Call V E) (s : State V E W) : State V E W :=
  match x with
  | .next v =>
    if b.closed then emit s (.called i x)
    else callNext c g i v b.h (setSub (emit s (.called i x)) i fun b => { b with n := b.n - 1 })
  | .complete =>
    if b.closed then emit s (.called i x)
    else if b.h.onComplete then
      push (emit (setSub (emit s (.called i x)) i fun b => { b with closed := true }) (.onComplete i)) g
        (.afterSig i .complete)
    else runFinally g i .complete b.h (setSub (emit s (.called i x)) i fun b => { b with closed := true })
  | .error e =>
    if b.closed then emit s (.called i x)
    else if b.h.onError then
      push (emit (setSub (emit s (.called i x)) i fun b => { b with err := some e, closed := true }) (.onError i e)) g
        (.afterSig i .error)
    else runFinally g i .error b.h (setSub (emit s (.called i x)) i fun b => { b with err := some e, closed := true })
  | .cancel =>
    if b.hasCancel then
      push (emit (setSub (emit s (.called i x)) i fun b => { b with closed := true }) (.cancelSrc i)) g (.afterCancel i)
    else if b.h.onFinally then
      push (emit (setSub (emit s (.called i x)) i fun b => { b with closed := true }) (.fin i .cancel)) g .leaf
    else setSub (emit s (.called i x)) i fun b => { b with closed := true }

/-- `tell` by number. -/
def signal (c : Cfg V E W) (g i : Nat) (x : Call V E) (s : State V E W) : Option (State V E W) :=
  match s.subs[i]? with
  | none => none
  | some b => some (tell c g i b x s)

/-- `OnSubscribe`. flux.go:174-182 -/
def onSubscribe (c : Cfg V E W) (g i : Nat) (r k : Bool) (s : State V E W) : Option (State V E W) :=
  match s.subs[i]? with
  | none => none
  | some b =>
    if b.closed then some s
    else if b.n > 0 then
      some (doRequest c g i b.n r (setSub s i fun b => { b with hasRequest := r, hasCancel := k }))
    else some (setSub s i fun b => { b with hasRequest := r, hasCancel := k })

/-- The part of `Subscribe` before the source runs. flux.go:79-89. With `r` the source calls `OnSubscribe` with
just a `Request` function (slice.go:5). -/
def addSub (h : Handlers) (r : Bool) (s : State V E W) : State V E W :=
  { s with subs := s.subs ++ [{ closed := false, n := 0, err := none, hasRequest := r, hasCancel := false,
                                signal := .complete, h := h }],
           current := some s.subs.length, log := .subscribed s.subs.length :: s.log }

/-- `Subscribe`. flux.go:79-93 -/
def subscribe (c : Cfg V E W) (g : Nat) (h : Handlers) (s : State V E W) : State V E W :=
  match c.src with
  | .user => push (addSub h false s) g (.afterSource s.subs.length)
  | _ => handleOnSubscribe c g s.subs.length h (addSub h true s)

/-- `Notify`. flux.go:101-107 -/
def notify (g : Nat) (s : State V E W) : State V E W :=
  match s.current.bind fun i => s.subs[i]? with
  | some b =>
    if b.closed then
      push (emit (emit { s with nextFn := s.nextFn + 1 } (.regNow s.nextFn b.signal))
        (.notified s.nextFn b.signal)) g .leaf
    else { s with nextFn := s.nextFn + 1, callbacks := s.callbacks ++ [s.nextFn], log := .reg s.nextFn :: s.log }
  | none => { s with nextFn := s.nextFn + 1, callbacks := s.callbacks ++ [s.nextFn], log := .reg s.nextFn :: s.log }

/-- The innermost callback in progress on goroutine `g`. -/
def pop (g : Nat) : List (Nat × Frame) → Option (Frame × List (Nat × Frame))
  | [] => none
  | (g', f) :: r =>
    if g' = g then some (f, r)
    else match pop g r with
      | none => none
      | some (f', r') => some (f', (g', f) :: r')

/-- One round of the loop of `FromSlice`. slice.go:7-14 -/
def sliceRound (c : Cfg V E W) (g i : Nat) (n : Int) (b : Subscriber E) (s : State V E W) : State V E W :=
  match s.values with
  | [] => tell c g i b .complete s
  | v :: vs => if n > 0 then tell c g i b (.next v) (push { s with values := vs } g (.sliceLoop i (n - 1))) else s

/-- One round of the loop of `SliceResponse`; `slice` is read anew each time. response.go:9-14 -/
def respRound (c : Cfg V E W) (g i : Nat) (num k : Int) (b : Subscriber E) (s : State V E W) : State V E W :=
  if k < num then
    match s.values[k.toNat]? with
    | some v => tell c g i b (.next v) (push s g (.respLoop i num (k + 1)))
    | none => crash s
  else if 0 ≤ num ∧ num ≤ s.values.length then
    if (s.values.drop num.toNat).length = 0 then tell c g i b .complete { s with values := s.values.drop num.toNat }
    else { s with values := s.values.drop num.toNat }
  else crash s

/-- The library continues after a callback: `f` is what is left to do. -/
def proceed (c : Cfg V E W) (g : Nat) (f : Frame) (s : State V E W) : Option (State V E W) :=
  match f with
  | .afterSource i => s.subs[i]?.map fun b => handleOnSubscribe c g i b.h s
  | .afterNext i => some (endNext c g i s)
  | .afterMapError i => s.subs[i]?.map fun b => mapFinally c g i b.h s
  | .afterSig i sig => s.subs[i]?.map fun b => runFinally g i sig b.h s
  | .afterFin i sig => some (startLoop g i sig s)
  | .loop sig rest => some (runLoop g sig rest s)
  | .afterCancel i => s.subs[i]?.map fun b =>
      if b.h.onFinally then push (emit s (.fin i .cancel)) g .leaf else s
  | .sliceLoop i n => s.subs[i]?.map fun b => sliceRound c g i n b s
  | .respLoop i num k => s.subs[i]?.map fun b => respRound c g i num k b s
  | .unlock _ => some s
  | .leaf => some s

/-- The callback in progress on `g` returns. -/
def resume (c : Cfg V E W) (g : Nat) (s : State V E W) : Option (State V E W) :=
  match pop g s.pending with
  | none => none
  | some (f, r) => proceed c g f { s with pending := r }

/-- A goroutine of `doRequest` gets hold of the lock; `g` is its number. flux_host.go:20-24 -/
def start (c : Cfg V E W) (g j : Nat) (s : State V E W) : Option (State V E W) :=
  match s.spawned[j]? with
  | none => none
  | some (i, n) =>
    if s.pending.any (fun x => decide (x.2 = .unlock i)) || (pop g s.pending).isSome then none
    else match s.subs[i]? with
      | none => none
      | some b =>
        if b.hasRequest then some (callRequest c.src g i n (.unlock i) { s with spawned := s.spawned.eraseIdx j })
        else some (crash s)

/-- What user code on goroutine `g` can do next. The sink is only known to user code that is the source. -/
inductive Action (V E : Type) where
  | subscribe (g : Nat) (h : Handlers)
  | notify (g : Nat)
  | signal (g : Nat) (i : Nat) (x : Call V E)
  | onSubscribe (g : Nat) (i : Nat) (request cancel : Bool)
  | request (g : Nat) (i : Nat) (n : Int)
  | start (g : Nat) (j : Nat)
  | ret (g : Nat)
  deriving DecidableEq, Repr

/-- The call is open to anybody with the `Subscription`. -/
def Call.isCancel : Call V E → Bool
  | .cancel => true
  | _ => false

def step (c : Cfg V E W) (s : State V E W) (a : Action V E) : Option (State V E W) :=
  if s.crashed then none
  else match a with
    | .subscribe g h => some (subscribe c g h s)
    | .notify g => some (notify g s)
    | .signal g i x => if c.src = .user ∨ x.isCancel then signal c g i x s else none
    | .onSubscribe g i r k => if c.src = .user then onSubscribe c g i r k s else none
    | .request g i n => if i < s.subs.length then some (request c g i n s) else none
    | .start g j => start c g j s
    | .ret g => resume c g s

def run (c : Cfg V E W) : State V E W → List (Action V E) → Option (State V E W)
  | s, [] => some s
  | s, a :: as =>
    match step c s a with
    | none => none
    | some s => run c s as

end Iota.Flux
