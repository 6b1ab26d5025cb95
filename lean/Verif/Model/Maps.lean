import Verif.Go.Basic

/-!
# Publishers that are mapped several times

Model of `Map`, `mapper` and `Block` for arbitrary publishers: `/repo/go/rx/flux/flux.go:216-268`,
`/repo/go/rx/flux/flux_host.go:36-59`, `/repo/go/rx/mono/mono.go:199-247`, `/repo/go/rx/mono/mono_host.go:33-50`, and of
the publishers that have ended (`flux.Error`, `mono.Error`, `mono.Just`).

A publisher is what its methods do. `σ` stands for everything that can be changed by them: the variables of the program, those
of the publisher, and the world. A callback is a function that changes it; `none` is nil. `C` stands for what is handed to
`OnRequest`.

Simplifications: a publisher that calls its subscriber from another goroutine does so inside of `subscribe` here: what such a
goroutine does is part of the change of `σ` (everything that the mapped publisher does is done by the callbacks that are
handed to `Subscribe`, whoever calls them). `m.f.(closable[S])` (flux.go:236) never holds: no publisher has a method `Close`.
What `Subscribe` returns is the receiver itself and is left out. `Get` does not change anything.
-/

namespace Iota.Maps

/-- `rx.SignalType`. /repo/go/rx/rx.go:12-21 -/
inductive Signal where
  | complete
  | cancel
  | error
  deriving DecidableEq, Repr

variable {σ E C S D : Type}

/-- A call of a callback that may be nil. -/
def fire {α : Type} (f : Option (α → σ → σ)) (a : α) (s : σ) : σ :=
  match f with
  | some f => f a s
  | none => s

/-! ## Fluxes -/

/-- `flux.Subscribe`. flux.go:17-24 -/
structure FluxSub (σ E C D : Type) where
  onNext : Option (D → σ → σ)
  onComplete : Option (Unit → σ → σ)
  onError : Option (E → σ → σ)
  onRequest : Option (C → σ → σ)
  fin : Option (Signal → σ → σ)
  noRequest : Bool

/-- A flux. `subscription` is what `Subscription` returns. flux.go:7-13 -/
structure Flux (σ E C D : Type) where
  subscribe : FluxSub σ E C D → σ → σ
  async : σ → σ
  notify : (Signal → σ → σ) → σ → σ
  subscription : Option C

/-- The `OnNext` that a mapper subscribes with. flux.go:234-248 -/
def fluxNext (tx : S → Except E D) (sub : FluxSub σ E C D) (v : S) (s : σ) : σ :=
  match tx v with
  | .error e => fire sub.fin .error (fire sub.onError e s)
  | .ok d => fire sub.onNext d s

/-- What a mapper subscribes with. flux.go:233-254 -/
def fluxSub (tx : S → Except E D) (sub : FluxSub σ E C D) : FluxSub σ E C S :=
  { onNext := some (fluxNext tx sub), onComplete := sub.onComplete, onError := sub.onError, onRequest := sub.onRequest,
    fin := sub.fin, noRequest := sub.noRequest }

/-- `flux.Map`. flux.go:216-268 -/
def Flux.map (f : Flux σ E C S) (tx : S → Except E D) : Flux σ E C D :=
  { subscribe := fun sub => f.subscribe (fluxSub tx sub), async := f.async, notify := f.notify, subscription := f.subscription }

/-- `flux.Error`. flux.go:38-65 -/
def Flux.error (e : E) : Flux σ E C D :=
  { subscribe := fun sub s => fire sub.onError e s, async := id, notify := fun f => f .error, subscription := none }

/-- A flux that tells its subscriber some values and then ends, with an error or without: `sink.Next`, and `sink.Error` or `sink.Complete`.
flux.go:127-172 -/
def Flux.emits (vs : List D) (last : Option E) : Flux σ E C D :=
  { subscribe := fun sub s =>
      match last with
      | some e => fire sub.fin .error (fire sub.onError e (vs.foldl (fun s v => fire sub.onNext v s) s))
      | none => fire sub.fin .complete (fire sub.onComplete () (vs.foldl (fun s v => fire sub.onNext v s) s)),
    async := id, notify := fun f => f (if last.isSome then .error else .complete), subscription := none }

/-- The variables of `Block`: `err`, and how often `done` has been closed. flux_host.go:41-54 -/
structure Vars (E : Type) where
  err : Option E
  closes : Nat
  deriving DecidableEq, Repr

/-- A callback of the user, who does not see the variables of `Block`. -/
def lift {α : Type} (f : α → σ → σ) (a : α) (s : σ × Vars E) : σ × Vars E := (f a s.1, s.2)

/-- What `Block` subscribes with. flux_host.go:41-54 -/
def blockSub (sub : FluxSub σ E C D) : FluxSub (σ × Vars E) E C D :=
  { onNext := sub.onNext.map lift, onComplete := sub.onComplete.map lift,
    onError := some fun e s => (fire sub.onError e s.1, { s.2 with err := some e }), onRequest := sub.onRequest.map lift,
    fin := some fun sig s => (fire sub.fin sig s.1, { s.2 with closes := s.2.closes + 1 }), noRequest := sub.noRequest }

/-- What a `Block` that has subscribed has come to. -/
inductive Blocks (E : Type) where
  /-- `<-done` waits. -/
  | waits
  /-- It has returned. -/
  | returns (err : Option E)
  /-- `close` of a closed channel has panicked. -/
  | panics
  deriving DecidableEq, Repr

/-- flux_host.go:53, 57-58 -/
def Vars.result (v : Vars E) : Blocks E := if v.closes = 0 then .waits else if v.closes = 1 then .returns v.err else .panics

/-- `Block` of a publisher that does all its work inside of `Subscribe`. flux_host.go:40-59 -/
def Flux.block (f : Flux (σ × Vars E) E C D) (sub : FluxSub σ E C D) (s : σ) : σ × Blocks E :=
  ((f.subscribe (blockSub sub) (s, ⟨none, 0⟩)).1, (f.subscribe (blockSub sub) (s, ⟨none, 0⟩)).2.result)

/-! ## Monos -/

/-- `mono.Subscribe`. mono.go:21-26 -/
structure MonoSub (σ E C D : Type) where
  onSuccess : Option (D → σ → σ)
  onError : Option (E → σ → σ)
  onRequest : Option (C → σ → σ)
  fin : Option (Signal → σ → σ)

/-- A mono. mono.go:11-17. `get` is what `Get` returns when the program is in this state. -/
structure Mono (σ E C D : Type) where
  subscribe : MonoSub σ E C D → σ → σ
  async : σ → σ
  notify : (Signal → σ → σ) → σ → σ
  get : σ → Except E D

/-- The `OnSuccess` that a mapper subscribes with. mono.go:213-224 -/
def monoSuccess (tx : S → Except E D) (sub : MonoSub σ E C D) (v : S) (s : σ) : σ :=
  match tx v with
  | .error e => fire sub.onError e s
  | .ok d => fire sub.onSuccess d s

/-- What a mapper subscribes with. mono.go:212-228 -/
def monoSub (tx : S → Except E D) (sub : MonoSub σ E C D) : MonoSub σ E C S :=
  { onSuccess := some (monoSuccess tx sub), onError := sub.onError, onRequest := sub.onRequest, fin := sub.fin }

/-- `Get` of a mapper. mono.go:240-247 -/
def mapGet (tx : S → Except E D) : Except E S → Except E D
  | .error e => .error e
  | .ok v => tx v

/-- `mono.Map`. mono.go:199-247 -/
def Mono.map (m : Mono σ E C S) (tx : S → Except E D) : Mono σ E C D :=
  { subscribe := fun sub => m.subscribe (monoSub tx sub), async := m.async, notify := m.notify, get := fun s => mapGet tx (m.get s) }

/-- `mono.Just`. mono.go:65-93 -/
def Mono.just (v : D) : Mono σ E C D :=
  { subscribe := fun sub s => fire sub.onSuccess v s, async := id, notify := fun f => f .complete, get := fun _ => .ok v }

/-- `mono.Error`. mono.go:33-63 -/
def Mono.error (e : E) : Mono σ E C D :=
  { subscribe := fun sub s => fire sub.onError e s, async := id, notify := fun f => f .error, get := fun _ => .error e }

/-- The variables of `Block`: `ret` and `err`, of which one is set, and how often `done` has been closed.
mono_host.go:33-47 -/
structure MVars (E D : Type) where
  out : Option (Except E D)
  closes : Nat

/-- mono_host.go:48-49 -/
def MVars.result (v : MVars E D) : Option (Except E D) := if v.closes = 1 then v.out else none

/-- What `Block` of a mapper subscribes with. mono_host.go:36-45 -/
def monoBlockSub : MonoSub (MVars E D) E C D :=
  { onSuccess := some fun v s => ⟨some (.ok v), s.closes + 1⟩, onError := some fun e s => ⟨some (.error e), s.closes + 1⟩,
    onRequest := none, fin := none }

/-- `Block` of a mono that does all its work inside of `Subscribe`: `none` is that `<-done` waits or `close` panics.
mono_host.go:33-50 -/
def Mono.block (m : Mono (MVars E D) E C D) : Option (Except E D) := (m.subscribe monoBlockSub ⟨none, 0⟩).result

/-! ## Towers -/

/-- A value that goes through several transformations, each of which may fail. -/
inductive Txs (E : Type) : Type → Type → Type 1
  | one {S D : Type} (tx : S → Except E D) : Txs E S D
  | more {S T D : Type} (tx : S → Except E T) (rest : Txs E T D) : Txs E S D

/-- A flux that is mapped, and mapped again, and so on. -/
def Flux.maps {σ E C : Type} : {S D : Type} → Flux σ E C S → Txs E S D → Flux σ E C D
  | _, _, f, .one tx => f.map tx
  | _, _, f, .more tx rest => (f.map tx).maps rest

/-- A mono that is mapped, and mapped again, and so on. -/
def Mono.maps {σ E C : Type} : {S D : Type} → Mono σ E C S → Txs E S D → Mono σ E C D
  | _, _, m, .one tx => m.map tx
  | _, _, m, .more tx rest => (m.map tx).maps rest

end Iota.Maps
