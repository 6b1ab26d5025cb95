import Verif.Model.Block
import Verif.Model.Flux

/-!
# Awaiting an operation

`await.Awaitable` (rx/await/await.go:9-12) is what a step of a flow hands back: the flow calls `Async` and then `Notify`
(rx/flow/flow.go:110-113). Proxies subscribe to themselves in `Async` (proxy/mono.go:54-60, `Proxy.step`); everything
else has an empty `Async`.
-/

namespace Iota.Await

variable {V E W : Type}

/-- `Async` of a mono built by `Create`. mono.go:120-121 -/
def createdAsync (s : Mono.State V E W) : Mono.State V E W := s

/-- `Async` of a flux built by `Create`. flux.go:99 -/
def fluxAsync (s : Flux.State V E W) : Flux.State V E W := s

/-- What can happen to a created mono that code awaits. -/
inductive MAct (V E : Type) where
  | async
  | act (a : Mono.Action V E)

def MAct.step (tx : V → Except E W) (s : Mono.State V E W) : MAct V E → Option (Mono.State V E W)
  | .async => some (createdAsync s)
  | .act a => Mono.step tx s a

def runMono (tx : V → Except E W) : Mono.State V E W → List (MAct V E) → Option (Mono.State V E W)
  | s, [] => some s
  | s, a :: as => (a.step tx s).bind fun t => runMono tx t as

/-- What can happen to a created flux that code awaits. -/
inductive FAct (V E : Type) where
  | async
  | act (a : Flux.Action V E)

def FAct.step (c : Flux.Cfg V E W) (s : Flux.State V E W) : FAct V E → Option (Flux.State V E W)
  | .async => some (fluxAsync s)
  | .act a => Flux.step c s a

def runFlux (c : Flux.Cfg V E W) : Flux.State V E W → List (FAct V E) → Option (Flux.State V E W)
  | s, [] => some s
  | s, a :: as => (a.step c s).bind fun t => runFlux c t as

/-- `Async` and `Notify` of `Just`: the signal that the function gets at once. mono.go:88-93 -/
def justNotify (_ : V) : Mono.Signal := .complete

/-- `Async` and `Notify` of `mono.Error`. mono.go:58-63 -/
def errorNotify (_ : E) : Mono.Signal := .error

/-- `Get` of `Just`. mono.go:84-86 -/
def justGet (v : V) : Mono.Got V E := .ret (some v) none

/-- `Get` of `mono.Error`. mono.go:53-56 -/
def errorGet (e : E) : Mono.Got V E := .ret none (some e)

/-- `errorFlow.Subscribe`: the callbacks it runs. flux.go:44-49 -/
def errorFlowSubscribe (h : Flux.Handlers) (e : E) : List (Flux.Ev V E V) :=
  if h.onError then [.onError 0 e] else []

end Iota.Await
