import Verif.Model.Services
import Verif.Spec.WasmOnce

/-!
# Specification: the runs of the example's host and guest
-/

namespace Iota.Spec.Services
open Iota.Go Iota.Registry Iota.WasmDispatch Iota.WasmCalls Iota.Services Iota.Spec.WasmStreams Iota.Spec.WasmOnce

/-- Runs of the two programs, with what was said and with the streams whose requests were sent. -/
inductive Runs (lib : Iota.Msgpack.Lib) (fuel : Nat) : Sys Code → (End → List (Said Code)) → (End → List Nat) → Prop
  | init : Runs lib fuel Sys.init (fun _ => []) (fun _ => [])
  | step {y y' : Sys Code} {said : End → List (Said Code)} {sent : End → List Nat} (a : WasmCalls.Act) : Runs lib fuel y said sent →
      InOrder y a → (∀ e, ∀ j ∈ startedIn a e, j ∉ sent e) → Services.step lib fuel y a = some y' →
      Runs lib fuel y' (fun t => said t ++ saysIn y y' a t) (fun t => sent t ++ startedIn a t)

/-- The call at index `j` of an end is this one. -/
def Makes (y : Sys Code) (e : End) (j : Nat) (q : Kind × Bytes × Bytes) (c : WasmCalls.Call) : Prop :=
  (y.node e).calls[j]? = some c ∧ (c.kind, c.data, c.metadata) = q

end Iota.Spec.Services
