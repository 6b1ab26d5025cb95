import Verif.Model.WasmCalls
import Verif.Model.Mesh

/-!
# Calls between the modules of a mesh

Any number of instances, each a host and a guest as in `Verif/Model/WasmCalls.lean`. The handlers of a host are the methods of
destinations, put into its tables by `/repo/go/transport/wasmrs/mesh/mesh.go:237-261` (`Verif/Model/Mesh.lean`); those of a
guest are its own code. A handler of a host passes the call on to the instance of its destination
(`/repo/go/transport/wasmrs/mesh/mesh.go:263-293`), and what comes back is the result of the call
(`/repo/go/transport/wasmrs/host/instance.go:447-464`).

Simplifications, beyond those of the two models:
* The mesh is linked before the first call and stays as it is; no instance is closed. What loading does is C48, C49 and C66.
* What the handler of a stream or channel of a host sends is arbitrary here; see `Verif/Model/MeshStreams.lean`.
* The context a call is made with is arbitrary: it has no part in the routing.
* A handler passes a call on at any time after it was started, and the result of the new call is subscribed to at any time
  after that. In the code both follow at once, in the same goroutine, while other goroutines run.
-/

namespace Iota.MeshCalls
open Iota.Go Iota.Frames Iota.Registry Iota.Handler Iota.WasmDispatch Iota.WasmCalls Iota.Mesh
open Iota.Peers (Result)

/-- A handler: the method of a destination, or code of a guest. -/
inductive Hand (G : Type) where
  | relay (d : Dest)
  | code (g : G)
  deriving DecidableEq, Repr

/-- The handlers of both ends of instance `i`: those the mesh has set, and those of its guest.
mesh.go:249-258, `/repo/go/transport/wasmrs/host/instance.go:613-667` -/
def hands {G : Type} (m : Mesh) (gs : Nat → Handlers G) (i : Nat) : End → Handlers (Hand G)
  | .host => fun k op => (m.moduleCall i k op).map .relay
  | .guest => fun k op => (gs i k op).map .code

/-- A call that was passed on: the work of the host of `src`, and the call it made on the instance `dst`, by index. -/
structure Relay (G : Type) where
  src : Nat
  job : Job (Hand G)
  dst : Nat
  call : Nat
  deriving DecidableEq, Repr

/-- The instances of a mesh, and the calls passed on. -/
structure Net (G : Type) where
  sys : Nat → Sys (Hand G)
  relays : List (Relay G)

/-- Before any call. -/
def Net.init {G : Type} : Net G := ⟨fun _ => Sys.init, []⟩

/-- What can happen next. -/
inductive Act where
  /-- anything at an instance, but the handlers of a host do not answer by themselves -/
  | own (i : Nat) (a : WasmCalls.Act)
  /-- the handler that is work number `x` of the host of `i` passes the call on -/
  | pass (i x : Nat) (ctx : Ctx)
  /-- the result of a call that was passed on resolves the work number `x` it was made for -/
  | back (r x : Nat) (v : Result)

/-- Does a handler of a host answer? -/
def answersHost : WasmCalls.Act → Bool
  | .answer .host _ _ => true
  | _ => false

/-- Was this work passed on already? -/
def Net.passed {G : Type} (n : Net G) (i : Nat) (j : Job (Hand G)) : Bool :=
  n.relays.any fun r => decide (r.src = i) && decide (r.job.id = j.id)

/-- Was the subscriber of call `j` told the result? `/repo/go/proxy/mono.go:66-72` -/
def heard {G : Type} (n : Node (Hand G)) (j : Nat) (v : Result) : Bool :=
  match n.obj j with
  | none => false
  | some o => n.peer.log.any fun ev =>
    match ev, v with
    | .next i d m, .value d' m' => decide (i = o ∧ d = d' ∧ m = m')
    | .error i m, .failure m' => decide (i = o ∧ m = m')
    | _, _ => false

/-- An instance takes a step. -/
def Net.at_ {G : Type} (hs : Nat → End → Handlers (Hand G)) (n : Net G) (i : Nat) (a : WasmCalls.Act) (rs : List (Relay G)) : Option (Net G) :=
  ((n.sys i).step (hs i) a).map fun y => ⟨assign n.sys i y, rs⟩

/-- `destination.RequestResponse`, `FireAndForget`, `RequestStream`, `RequestChannel`: write the index into the metadata and make
the call. A payload of a host has metadata, so it is not nil. mesh.go:263-293 -/
def Net.forward {G : Type} (hs : Nat → End → Handlers (Hand G)) (n : Net G) (i : Nat) (j : Job (Hand G)) (d : Dest) (ctx : Ctx) :
    Res (Option (Net G)) :=
  match d.route (some j.metadata) with
  | .ok (some md) => .ok (n.at_ hs d.instance_ (.call .host j.kind j.data md ctx)
      (n.relays ++ [⟨i, j, d.instance_, ((n.sys d.instance_).node .host).calls.length⟩]))
  | .ok none => .ok none
  | .err e => .err e
  | .panic => .panic

/-- The destination of work, unless it was passed on. -/
def Net.target {G : Type} (n : Net G) (i x : Nat) : Option (Job (Hand G) × Dest) :=
  match ((n.sys i).node .host).jobs[x]? with
  | none => none
  | some j =>
    match j.handler with
    | .code _ => none
    | .relay d => if n.passed i j = false then some (j, d) else none

/-- One step; `none` if it is not possible or crashes the process. -/
def Net.step {G : Type} [DecidableEq G] (hs : Nat → End → Handlers (Hand G)) (n : Net G) : Act → Option (Net G)
  | .own i a => if answersHost a then none else n.at_ hs i a n.relays
  | .pass i x ctx =>
    match n.target i x with
    | none => none
    | some (j, d) =>
      match n.forward hs i j d ctx with
      | .ok r => r
      | _ => none
  | .back r x v =>
    match n.relays[r]? with
    | none => none
    | some ρ =>
      if ((n.sys ρ.src).node .host).jobs[x]? = some ρ.job ∧ heard ((n.sys ρ.dst).node .host) ρ.call v = true then
        n.at_ hs ρ.src (.answer .host x v) n.relays
      else none

/-- Runs. -/
inductive Reach {G : Type} [DecidableEq G] (hs : Nat → End → Handlers (Hand G)) : Net G → Prop
  | init : Reach hs Net.init
  | step {n n' : Net G} (a : Act) : Reach hs n → n.step hs a = some n' → Reach hs n'

end Iota.MeshCalls
