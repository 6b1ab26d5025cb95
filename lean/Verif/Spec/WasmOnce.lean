import Verif.Spec.WasmStreams

/-!
# Specification: the request of a stream is sent once

Runs in which the proxy of a stream or channel call sends its request once, as `first` of `/repo/go/proxy/flux.go:75-78` makes it do.
-/

namespace Iota.Spec.WasmOnce
open Iota.Go Iota.Frames Iota.Registry Iota.WasmDispatch Iota.WasmCalls Iota.Spec.WasmStreams
open Iota.Spec.Polite (requests queued)
open Iota.Spec.WasmCalls (handlers refusals)

/-- The call, by index, whose request an end sends in a step. -/
def startedIn : WasmCalls.Act → End → List Nat
  | .start e j _, t => if t = e then [j] else []
  | _, _ => []

/-- Runs, with what was said and with the calls whose requests were sent. -/
inductive Once {H : Type} (hs : End → Handlers H) : WasmCalls.Sys H → (End → List (Said H)) → (End → List Nat) → Prop
  | init : Once hs WasmCalls.Sys.init (fun _ => []) (fun _ => [])
  | step {y y' : WasmCalls.Sys H} {said : End → List (Said H)} {sent : End → List Nat} (a : WasmCalls.Act) : Once hs y said sent →
      InOrder y a → (∀ e, ∀ j ∈ startedIn a e, j ∉ sent e) → y.step hs a = some y' →
      Once hs y' (fun t => said t ++ saysIn y y' a t) (fun t => sent t ++ startedIn a t)

/-- Where requests of `e` with this id are: on the wire, waiting to be handled, with a handler that was started for them, or refused. -/
def placed {H : Type} (y : WasmCalls.Sys H) (e : End) (id : UInt32) : Nat :=
  requests id (y.wire e) + queued id (y.node (other e)).peer.tasks + handlers id (y.node (other e)).jobs +
    refusals id (y.node (other e)).peer.log

/-- Has a request of `e` with this id been handled? -/
def Handled {H : Type} (y : WasmCalls.Sys H) (e : End) (id : UInt32) : Prop :=
  requests id (y.wire e) = 0 ∧ queued id (y.node (other e)).peer.tasks = 0

end Iota.Spec.WasmOnce
