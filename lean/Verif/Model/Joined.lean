import Verif.Go.Basic

/-!
# Components joined by processors of single values

Model of `/repo/go/transport/wasmrs/cmd/flow/main.go` on top of `/repo/go/rx/mono/processor.go` and `/repo/go/rx/mono/mono.go`: a
row of processors, each with a subscriber that pushes what it makes of the value, or of the error, to the next processor.

Simplifications: one goroutine; callbacks do nothing but push to the next processor, run to their end and do not panic; the
types of the values at the different processors are one type `V`. `Finally`, `OnRequest` and cancelling are not used.
-/

namespace Iota.Joined
open Iota.Go

/-- What is pushed to a processor: `Success(v)` or `Error(e)`. -/
inductive Out (V E : Type) where
  | ok (v : V)
  | err (e : E)
  deriving DecidableEq, Repr

/-- The subscriber of one processor: what `OnSuccess` pushes to the next processor, if anything, and the same for `OnError`, which
may be nil. -/
structure Stage (V E : Type) where
  onSuccess : V → Option (Out V E)
  onError : Option (E → Option (Out V E))

/-- What happens, as seen by user code: a callback of the subscriber of processor `i` is called; function `k` given to `Notify` of
processor `i` is called, with `SignalError` or `SignalComplete`. -/
inductive Ev (V E : Type) where
  | told (i : Nat) (o : Out V E)
  | notified (i k : Nat) (failed : Bool)
  deriving DecidableEq, Repr

/-- A processor (processor.go:8-13) with its mono (mono.go:101-105) and its latest subscriber (mono.go:144-155): `subscribed` is
`p.sink != nil`, which is `m.subscriber != nil`; `closed` and `failed` are the subscriber's `closed` and `signal`. -/
structure Node (V E : Type) where
  stage : Stage V E
  subscribed : Bool
  closed : Bool
  failed : Bool
  success : Option V
  err : Option E
  callbacks : List Nat

variable {V E : Type}

/-- `NewProcessor`. processor.go:15-27 -/
def Node.new (s : Stage V E) : Node V E := ⟨s, false, false, false, none, none, []⟩

/-- What is kept of a push when nobody has subscribed. processor.go:32-34, 40-42 -/
def Node.keep (n : Node V E) : Out V E → Node V E
  | .ok v => { n with success := some v }
  | .err e => { n with err := some e }

/-- What the callback for it pushes to the next processor. mono.go:163-165, 175-177 -/
def Stage.on (s : Stage V E) : Out V E → Option (Out V E)
  | .ok v => s.onSuccess v
  | .err e => s.onError.bind fun f => f e

/-- Is there a callback for it? mono.go:163, 175 -/
def Stage.hears (s : Stage V E) : Out V E → Bool
  | .ok _ => true
  | .err _ => s.onError.isSome

def Out.failed : Out V E → Bool
  | .ok _ => false
  | .err _ => true

/-- The callback, if there is one. -/
def tell (i : Nat) (s : Stage V E) (o : Out V E) : List (Ev V E) := if s.hears o then [.told i o] else []

/-- `for _, fn := range s.m.callbacks`. mono.go:186-188 -/
def notifyAll (i : Nat) (n : Node V E) (o : Out V E) : List (Ev V E) := n.callbacks.map fun k => .notified i k o.failed

/-- `s.closed = true` and `s.signal = signal`. mono.go:162, 174, 182 -/
def Node.shut (n : Node V E) (o : Out V E) : Node V E := { n with closed := true, failed := o.failed }

/-- `Success` or `Error` of the processor `i`, the first of the list. processor.go:29-43, mono.go:157-189 -/
def push : Nat → Out V E → List (Node V E) → List (Node V E) × List (Ev V E)
  | _, _, [] => ([], [])
  | i, o, n :: ns =>
    if n.subscribed then
      if n.closed then (n :: ns, [])
      else
        match n.stage.on o with
        | none => (n.shut o :: ns, tell i n.stage o ++ notifyAll i n o)
        | some o' =>
          (n.shut o :: (push (i + 1) o' ns).1, tell i n.stage o ++ (push (i + 1) o' ns).2 ++ notifyAll i n o)
    else (n.keep o :: ns, [])

/-- A new subscriber. mono.go:107-115, processor.go:18 -/
def Node.sub (n : Node V E) : Node V E := { n with subscribed := true, closed := false, failed := false }

/-- `Subscribe` of the first processor: what was kept is pushed at once. mono.go:107-118, processor.go:17-24 -/
def subscribe (i : Nat) (n : Node V E) (ns : List (Node V E)) : List (Node V E) × List (Ev V E) :=
  match n.success with
  | some v => push i (.ok v) (n.sub :: ns)
  | none =>
    match n.err with
    | some e => push i (.err e) (n.sub :: ns)
    | none => (n.sub :: ns, [])

/-- `Notify`. mono.go:123-135 -/
def notify (i k : Nat) (n : Node V E) : Node V E × List (Ev V E) :=
  if n.subscribed && n.closed then (n, [.notified i k n.failed])
  else ({ n with callbacks := n.callbacks ++ [k] }, [])

/-- What the program does: push to a processor, subscribe to it (by `Process` of a component, or directly), ask to be notified. -/
inductive Op (V E : Type) where
  | push (j : Nat) (o : Out V E)
  | subscribe (j : Nat)
  | notify (j k : Nat)
  deriving DecidableEq, Repr

/-- One of them; `i` is the number of the first processor of the list. -/
def act : Nat → Op V E → List (Node V E) → List (Node V E) × List (Ev V E)
  | _, _, [] => ([], [])
  | i, a, n :: ns =>
    match a with
    | .push j o => if j = i then push i o (n :: ns) else (n :: (act (i + 1) (.push j o) ns).1, (act (i + 1) (.push j o) ns).2)
    | .subscribe j => if j = i then subscribe i n ns else (n :: (act (i + 1) (.subscribe j) ns).1, (act (i + 1) (.subscribe j) ns).2)
    | .notify j k =>
      if j = i then ((notify i k n).1 :: ns, (notify i k n).2) else (n :: (act (i + 1) (.notify j k) ns).1, (act (i + 1) (.notify j k) ns).2)

/-- The processors and what has happened. -/
structure State (V E : Type) where
  nodes : List (Node V E)
  log : List (Ev V E)

def State.init (ss : List (Stage V E)) : State V E := ⟨ss.map Node.new, []⟩

def State.step (s : State V E) (a : Op V E) : State V E := ⟨(act 0 a s.nodes).1, s.log ++ (act 0 a s.nodes).2⟩

def State.run (s : State V E) : List (Op V E) → State V E
  | [] => s
  | a :: as => (s.step a).run as

/-! ## The program -/

/-- The values at the processors of the program: `concat.Strings` or a string. -/
inductive Val where
  | strings (l r : Bytes)
  | text (t : Bytes)
  deriving DecidableEq, Repr

/-- `Process` of `Concat`. /repo/go/transport/wasmrs/example/concat/concat.go:9-18 -/
def concat : Stage Val Bytes :=
  ⟨fun v => match v with
    | .strings l r => some (.ok (.text (l ++ [32] ++ r)))
    | .text _ => none, some fun e => some (.err e)⟩

/-- The subscriber of `concatOut`. cmd/flow/main.go:44-48 -/
def join : Stage Val Bytes := ⟨fun v => some (.ok v), none⟩

/-- `Process` of `Greeter`. /repo/go/transport/wasmrs/example/greeter/greeter.go:9-15 -/
def greeter : Stage Val Bytes :=
  ⟨fun v => match v with
    | .text t => some (.ok (.text ([72, 101, 108, 108, 111, 44, 32] ++ t)))
    | .strings _ _ => none, none⟩

/-- The subscriber of `greeterOut`, which prints. cmd/flow/main.go:50-54 -/
def printer : Stage Val Bytes := ⟨fun _ => none, none⟩

/-- `concatIn`, `concatOut`, `greaterIn`, `greeterOut`. cmd/flow/main.go:17-21 -/
def stages : List (Stage Val Bytes) := [concat, join, greeter, printer]

/-- `main`: what it pushes to `concatIn` is left open. Function 0 closes `done`. cmd/flow/main.go:31, 41, 44, 50, 56-58, 60-63 -/
def program (o : Out Val Bytes) : List (Op Val Bytes) := [.subscribe 0, .subscribe 2, .subscribe 1, .subscribe 3, .notify 3 0, .push 0 o]

end Iota.Joined
