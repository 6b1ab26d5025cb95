import Verif.Model.MeshCalls

/-!
# Streams between the modules of a mesh

On top of `Verif/Model/MeshCalls.lean`: what a host sends for the stream of a module is what it is told by the stream it has
asked the instance of the destination for. `destination.RequestStream` returns the proxy of the call it makes
(`/repo/go/transport/wasmrs/mesh/mesh.go:279-285`), and `handleRequestStream` subscribes to it
(`/repo/go/transport/wasmrs/host/instance.go:512-539`); channels alike.

Simplifications, beyond those of `Verif/Model/MeshCalls.lean`:
* The callbacks of the subscriber run inside the handling of the frame that is received; here they run at any time after, in
  the same order.
* Demand and cancellation, the initial demand in a request, and what the inputs of channels send are arbitrary.
-/

namespace Iota.MeshStreams
open Iota.Go Iota.Frames Iota.Registry Iota.Handler Iota.WasmDispatch Iota.WasmCalls Iota.Mesh Iota.MeshCalls

/-- What the subscriber of stream `o` sends under `id`, given what the stream was told: a frame for each element, one for the end
and one for an error. After the end the subscriber is closed. instance.go:515-536, 577-598, `/repo/go/rx/flux/flux.go:119-154` -/
def relayed {H : Type} (id : UInt32) (o : Nat) : List (Ev H) → List Frame
  | [] => []
  | .next i d m :: l => if i = o then .payload ⟨id, m, d, false, false, true⟩ :: relayed id o l else relayed id o l
  | .complete i :: l => if i = o then [.payload ⟨id, [], [], false, true, false⟩] else relayed id o l
  | .error i m :: l => if i = o then [.error ⟨id, 0, m⟩] else relayed id o l
  | _ :: l => relayed id o l

/-- A mesh, and how many frames were sent for each call that was passed on, by index. -/
structure Net (G : Type) where
  net : MeshCalls.Net G
  sent : Nat → Nat

/-- Before any call. -/
def Net.init {G : Type} : Net G := ⟨MeshCalls.Net.init, fun _ => 0⟩

/-- What can happen next. -/
inductive Act where
  /-- anything in the mesh, but hosts do not speak by themselves -/
  | net (a : MeshCalls.Act)
  /-- the next signal of the call that was passed on as number `r` is sent for the work number `x` -/
  | relay (r x : Nat)

/-- Demand for the input of a channel, or its cancellation. instance.go:559-573 -/
def isDemand : Frame → Bool
  | .requestN _ => true
  | .cancel _ => true
  | _ => false

/-- May a host send this frame for its work by itself? It has demand for the inputs of channels only. -/
def Net.mayEmit {G : Type} (n : Net G) (i x : Nat) (f : Frame) : Bool :=
  match ((n.net.sys i).node .host).jobs[x]? with
  | none => false
  | some j => decide (j.kind = .rc) && isDemand f

/-- Is this not for the host to do by itself? -/
def Net.speaks {G : Type} (n : Net G) : MeshCalls.Act → Bool
  | .own i (.emit .host x f) => !n.mayEmit i x f
  | _ => false

/-- What is sent for a call that was passed on, so far. -/
def heardFrames {G : Type} (n : MeshCalls.Net G) (ρ : Relay G) : List Frame :=
  match ((n.sys ρ.dst).node .host).obj ρ.call with
  | none => []
  | some o => relayed ρ.job.id o ((n.sys ρ.dst).node .host).peer.log

/-- What an instance does in a step. -/
def Net.doing {G : Type} (n : Net G) : Act → Option (Nat × WasmCalls.Act)
  | .net (.own i a) => some (i, a)
  | .net (.pass i x ctx) =>
    match n.net.target i x with
    | none => none
    | some (j, d) =>
      match d.route (some j.metadata) with
      | .ok (some md) => some (d.instance_, .call .host j.kind j.data md ctx)
      | _ => none
  | .net (.back r x v) =>
    match n.net.relays[r]? with
    | none => none
    | some ρ => some (ρ.src, .answer .host x v)
  | .relay r x =>
    match n.net.relays[r]? with
    | none => none
    | some ρ =>
      match (heardFrames n.net ρ)[n.sent r]? with
      | none => none
      | some f => some (ρ.src, .emit .host x f)

/-- One step; `none` if it is not possible or crashes the process. -/
def Net.step {G : Type} [DecidableEq G] (hs : Nat → End → Handlers (Hand G)) (n : Net G) : Act → Option (Net G)
  | .net a => if n.speaks a then none else (n.net.step hs a).map fun m => { n with net := m }
  | .relay r x =>
    match n.net.relays[r]? with
    | none => none
    | some ρ =>
      if ((n.net.sys ρ.src).node .host).jobs[x]? = some ρ.job then
        match (heardFrames n.net ρ)[n.sent r]? with
        | none => none
        | some f => (n.net.at_ hs ρ.src (.emit .host x f) n.net.relays).map fun m => ⟨m, assign n.sent r (n.sent r + 1)⟩
      else none

end Iota.MeshStreams
