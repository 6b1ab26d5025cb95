import Verif.Model.Mono
import Verif.Model.Flux

/-!
# Waiting for a mono or a flux

Model of `Block` in `/repo/go/rx/mono/mono_host.go`, `/repo/go/rx/flux/flux_host.go` and
`/repo/go/proxy/mono_host.go`, of the proxy of `/repo/go/proxy/mono.go` that a caller subscribes to, and of
`/repo/go/rx/flux/processor.go`. `Block` subscribes with callbacks of its own, from a new goroutine, and waits for the
channel `done` that they close. The callbacks run as the events of the machines of `Model/Mono.lean` and
`Model/Flux.lean` say, so what `Block` has got so far is a function of the history of its subscription.

Simplifications: the body of a callback of `Block` happens together with the call (the machine still lets other
goroutines run before the callback returns); `ret` and `err` are `none` while they hold their zero values; the user's
own `Finally` inside the one of `flux.Block` (flux_host.go:47-49) returns normally.
-/

namespace Iota.Block

/-- The channel `done`: closing it again panics, and so ends the process, since it happens on a goroutine that nobody
recovers. mono_host.go:15, flux_host.go:40 -/
inductive Done where
  | opened
  | closed
  | panicked
  deriving DecidableEq, Repr

/-- `close(done)`. -/
def Done.close : Done → Done
  | .opened => .closed
  | _ => .panicked

/-- The variables captured by the callbacks: the named results and `done`. -/
structure Vars (W E : Type) where
  ret : Option W
  err : Option E
  done : Done
  deriving DecidableEq, Repr

def Vars.new {W E : Type} : Vars W E := { ret := none, err := none, done := .opened }

/-- What a call of `Block` comes to: it waits, it returns, or the process ends. -/
inductive Out (W E : Type) where
  | waits
  | returns (v : Option W) (e : Option E)
  | panics
  deriving DecidableEq, Repr

/-- `<-done; return ret, err`. mono_host.go:29-30, 48-49; flux_host.go:55-56 -/
def Vars.out {W E : Type} (x : Vars W E) : Out W E :=
  match x.done with
  | .opened => .waits
  | .closed => .returns x.ret x.err
  | .panicked => .panics

variable {V E W : Type}

/-! ## Monos -/

/-- The callbacks that `Block` subscribes with. mono_host.go:17-26, 36-45; proxy/mono_host.go:18-27 -/
def monoHandlers : Mono.Handlers := ⟨true, true, false⟩

/-- What the callbacks of subscription `i` do at an event. mono_host.go:18-25, 37-44; proxy/mono_host.go:19-26 -/
def monoEvent (i : Nat) (x : Vars W E) : Mono.Ev V E W → Vars W E
  | .onSuccess j w => if j = i then { x with ret := some w, done := x.done.close } else x
  | .onError j e => if j = i then { x with err := some e, done := x.done.close } else x
  | _ => x

/-- The variables after the history `log` (latest event first). -/
def monoVars (i : Nat) (log : List (Mono.Ev V E W)) : Vars W E := log.foldr (fun e x => monoEvent i x e) Vars.new

/-- The shortcut at the start of `(*mono).Block`: the result, if there is one already; otherwise `Block` subscribes.
The `Block` of a mapper and of a proxy has no shortcut. mono_host.go:11-13, 33; proxy/mono_host.go:12-14 -/
def monoShortcut (s : Mono.State V E V) : Option (Out V E) :=
  match s.current.bind fun i => s.subs[i]? with
  | none => none
  | some b => if b.closed then some (.returns b.value b.err) else none

/-- `justSingle.Block` and `errorSingle.Block`. mono.go:80-82, 48-51 -/
def justBlock (v : V) : Out V E := .returns (some v) none
def errorBlock (e : E) : Out V E := .returns none (some e)

/-! ## Fluxes -/

/-- The callbacks that `Block` subscribes with, for those of the user. flux_host.go:39-52 -/
def fluxHandlers (h : Flux.Handlers) : Flux.Handlers := { h with onError := true, onFinally := true }

/-- What the callbacks of subscription `i` do at an event. flux_host.go:41-52 -/
def fluxEvent (i : Nat) (x : Vars Unit E) : Flux.Ev V E W → Vars Unit E
  | .onError j e => if j = i then { x with err := some e } else x
  | .fin j _ => if j = i then { x with done := x.done.close } else x
  | _ => x

/-- The variables after the history `log` (latest event first). -/
def fluxVars (i : Nat) (log : List (Flux.Ev V E W)) : Vars Unit E := log.foldr (fun e x => fluxEvent i x e) Vars.new

/-- The start of `(*flux).Block`, which reads a field of `f.subscriber`, a nil pointer until the first `Subscribe`; the
`Block` of a mapper has no such start. flux_host.go:28-34 -/
def fluxShortcut (s : Flux.State V E V) : Option (Out Unit E) :=
  match s.current.bind fun i => s.subs[i]? with
  | none => some .panics
  | some b => if b.closed then some (.returns none b.err) else none

/-! ## Proxies of calls -/

/-- `streamMono`: the processor, whether somebody subscribed, and how many times the request was sent and the stream
registered. proxy/mono.go:24-32 -/
structure Proxy (V E : Type) where
  p : Mono.Proc V E
  subscribed : Bool
  sent : Nat
  registered : Nat
  deriving DecidableEq, Repr

/-- `proxy.Mono`. proxy/mono.go:12-22 -/
def Proxy.new : Proxy V E := { p := Mono.Proc.init, subscribed := false, sent := 0, registered := 0 }

/-- `Subscribe`. proxy/mono.go:66-72 -/
def Proxy.subscribe (x : Proxy V E) (g : Nat) (h : Mono.Handlers) : Option (Proxy V E) :=
  match x.p.subscribe g h with
  | none => none
  | some p => some { p := p, subscribed := true, sent := x.sent + 1, registered := x.registered + 1 }

/-- What can happen to a proxy: its user subscribes, blocks (the goroutine of proxy/mono_host.go:17 runs), awaits it or
asks to be notified, the connection delivers the answer (proxy/mono.go:42-52), or a callback returns. -/
inductive Act (V E : Type) where
  | subscribe (g : Nat) (h : Mono.Handlers)
  | block (g : Nat)
  | async (g : Nat)
  | notify (g : Nat)
  | onNext (g : Nat) (v : V)
  | onComplete
  | onError (g : Nat) (e : E)
  | ret (g : Nat)
  deriving DecidableEq, Repr

/-- A step of the processor. -/
def Proxy.proc (x : Proxy V E) (a : Mono.PAction V E) : Option (Proxy V E) :=
  match x.p.step a with
  | none => none
  | some p => some { x with p := p }

/-- proxy/mono.go:42-72, proxy/mono_host.go:11-32 -/
def Proxy.step (x : Proxy V E) : Act V E → Option (Proxy V E)
  | .subscribe g h => x.subscribe g h
  | .block g => x.subscribe g monoHandlers
  | .async g => if x.subscribed then some x else x.subscribe g ⟨false, false, false⟩
  | .notify g => x.proc (.notify g)
  | .onNext g v => x.proc (.pushSuccess g v)
  | .onComplete => some x
  | .onError g e => x.proc (.pushError g e)
  | .ret g => x.proc (.ret g)

def Proxy.run : Proxy V E → List (Act V E) → Option (Proxy V E)
  | x, [] => some x
  | x, a :: as => (x.step a).bind fun y => Proxy.run y as

/-! ## Processors of fluxes -/

/-- `processor`: the sink, the functions kept for it (whether they are nil) and the flux. flux/processor.go:8-12 -/
structure FluxProc (V E : Type) where
  sink : Option Nat
  sub : Option (Bool × Bool)
  m : Flux.State V E V
  deriving DecidableEq, Repr

/-- `NewProcessor`. flux/processor.go:14-25 -/
def FluxProc.new : FluxProc V E := { sink := none, sub := none, m := Flux.init [] }

/-- The flux of a processor is a plain one. flux/processor.go:16 -/
def cfg (host : Bool) : Flux.Cfg V E V := ⟨host, .user, .ok⟩

/-- `Subscribe`: the source of flux/processor.go:16-22 runs at once and returns, then flux.go:91. -/
def FluxProc.subscribe (host : Bool) (x : FluxProc V E) (g : Nat) (h : Flux.Handlers) : Option (FluxProc V E) :=
  match x.sub with
  | some (r, k) =>
    match Flux.onSubscribe (cfg host) g x.m.subs.length r k (Flux.addSub h false x.m) with
    | none => none
    | some m => some { sink := some x.m.subs.length, sub := none,
                       m := Flux.handleOnSubscribe (cfg host) g x.m.subs.length h m }
  | none => some { sink := some x.m.subs.length, sub := none,
                   m := Flux.handleOnSubscribe (cfg host) g x.m.subs.length h (Flux.addSub h false x.m) }

/-- `Next`, `Complete` and `Error`. flux/processor.go:27-43 -/
def FluxProc.tell (host : Bool) (x : FluxProc V E) (g : Nat) (c : Flux.Call V E) : Option (FluxProc V E) :=
  match x.sink with
  | none => some x
  | some i =>
    match Flux.signal (cfg host) g i c x.m with
    | none => none
    | some m => some { x with m := m }

/-- `OnSubscribe`. flux/processor.go:45-51 -/
def FluxProc.onSubscribe (host : Bool) (x : FluxProc V E) (g : Nat) (r k : Bool) : Option (FluxProc V E) :=
  match x.sink with
  | none => some { x with sub := some (r, k) }
  | some i =>
    match Flux.onSubscribe (cfg host) g i r k x.m with
    | none => none
    | some m => some { x with m := m }

/-- What can happen to a processor: calls of its sink (no cancellation among them), subscriptions, and what a
subscriber and the goroutines of its flux do. -/
inductive FAct (V E : Type) where
  | subscribe (g : Nat) (h : Flux.Handlers)
  | next (g : Nat) (v : V)
  | complete (g : Nat)
  | error (g : Nat) (e : E)
  | onSubscribe (g : Nat) (r k : Bool)
  | notify (g : Nat)
  | request (g : Nat) (i : Nat) (n : Int)
  | cancel (g : Nat) (i : Nat)
  | start (g : Nat) (j : Nat)
  | ret (g : Nat)
  deriving DecidableEq, Repr

/-- A step of the flux. -/
def FluxProc.flux (host : Bool) (x : FluxProc V E) (a : Flux.Action V E) : Option (FluxProc V E) :=
  match Flux.step (cfg host) x.m a with
  | none => none
  | some m => some { x with m := m }

def FluxProc.step (host : Bool) (x : FluxProc V E) (a : FAct V E) : Option (FluxProc V E) :=
  if x.m.crashed then none
  else match a with
    | .subscribe g h => x.subscribe host g h
    | .next g v => x.tell host g (.next v)
    | .complete g => x.tell host g .complete
    | .error g e => x.tell host g (.error e)
    | .onSubscribe g r k => x.onSubscribe host g r k
    | .notify g => x.flux host (.notify g)
    | .request g i n => x.flux host (.request g i n)
    | .cancel g i => x.flux host (.signal g i .cancel)
    | .start g j => x.flux host (.start g j)
    | .ret g => x.flux host (.ret g)

def FluxProc.run (host : Bool) : FluxProc V E → List (FAct V E) → Option (FluxProc V E)
  | x, [] => some x
  | x, a :: as => (x.step host a).bind fun y => FluxProc.run host y as

end Iota.Block
