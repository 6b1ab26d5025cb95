import Verif.Model.MeshStreams
import Verif.Spec.MeshCalls
import Verif.Spec.WasmStreams

/-!
# Specification: streams between the modules of a mesh

Runs are kept together with what was said at every instance, as in `Verif/Spec/WasmStreams.lean`. What the subscriber in a
module is told is compared with what the code of the destination has said.
-/

namespace Iota.Spec.MeshStreams
open Iota.Go Iota.Frames Iota.Registry Iota.WasmDispatch Iota.WasmCalls Iota.Mesh Iota.MeshCalls
open Iota.Spec.WasmStreams (Said saysIn InOrder saidUnder Tidy)
open Iota.Spec.MeshCalls (Linked onward)

/-- Runs, with what was said at every instance. -/
inductive Told {G : Type} [DecidableEq G] (hs : Nat → End → Handlers (Hand G)) :
    MeshStreams.Net G → (Nat → End → List (Said (Hand G))) → Prop
  | init : Told hs MeshStreams.Net.init fun _ _ => []
  | step {n n' : MeshStreams.Net G} {said : Nat → End → List (Said (Hand G))} (a : MeshStreams.Act) (i : Nat) (b : WasmCalls.Act) :
      Told hs n said → n.doing a = some (i, b) → InOrder (n.net.sys i) b → n.step hs a = some n' →
      Told hs n' fun k t => if k = i then said i t ++ saysIn (n.net.sys i) (n'.net.sys i) b t else said k t

/-- What was said for a call of the guest of instance `i` that has this id: its host refused it, or passed it on, and then it is
what the guest of the destination said for the call made there. -/
def spoken {G : Type} (n : MeshCalls.Net G) (said : Nat → End → List (Said (Hand G))) (i : Nat) (id : UInt32) : List (Said (Hand G)) :=
  (said i .host).filter (fun s => s.1.isNone && decide (s.2.streamID = id)) ++
  (onward n i id).flatMap fun ρ =>
    match ((n.sys ρ.dst).node .host).calls[ρ.call]? with
    | none => []
    | some c => (said ρ.dst .guest).filter fun s => decide (s.2.streamID = c.id)

/-- `x` is the code of the destination, run for the call: with its data, and its metadata in which the routing was replaced. -/
structure RunFor {G : Type} (gs : Nat → Handlers G) (d : Dest) (c : WasmCalls.Call) (x : Job (Hand G)) : Prop where
  kind : x.kind = c.kind
  data : x.data = c.data
  metadata : x.metadata = be32 d.index ++ c.metadata.drop 4
  handler : ∃ g, gs d.instance_ c.kind d.index = some g ∧ x.handler = .code g

/-- Who may speak for a stream or channel that a module calls: the code of the destination the call is linked to. If there is no
such code or no destination, the call is refused. -/
inductive Voice {G : Type} (m : Mesh) (gs : Nat → Handlers G) (i : Nat) (c : WasmCalls.Call) : Said (Hand G) → Prop
  | code (d : Dest) (x : Job (Hand G)) (f : Frame) : Linked m i c d → RunFor gs d c x → Voice m gs i c (some x, f)
  | missing (d : Dest) (id : UInt32) (msg : Bytes) : Linked m i c d → gs d.instance_ c.kind d.index = none →
      Voice m gs i c (none, Handler.errorFrame id msg)
  | unlinked (id : UInt32) (msg : Bytes) : (∀ d, ¬ Linked m i c d) → Voice m gs i c (none, Handler.errorFrame id msg)

/-- Nothing is on its way: no frame, and hosts have sent on all they heard. -/
structure Settled {G : Type} (n : MeshStreams.Net G) : Prop where
  wire : ∀ i e, (n.net.sys i).wire e = []
  sent : ∀ (r : Nat) (ρ : Relay G), n.net.relays[r]? = some ρ → many ρ.job.kind = true →
    n.sent r = (MeshStreams.heardFrames n.net ρ).length

/-- The code of the modules sends nothing but demand after the end, and a request is refused once. -/
structure AllTidy {G : Type} (n : MeshCalls.Net G) (said : Nat → End → List (Said (Hand G))) : Prop where
  code : ∀ i, ∀ c ∈ ((n.sys i).node .host).calls, Tidy (saidUnder c.id (said i .guest))
  refused : ∀ i, ∀ c ∈ ((n.sys i).node .guest).calls, Tidy (saidUnder c.id ((said i .host).filter fun s => s.1.isNone))

/-- The host of instance `i` has not cancelled the input of a channel under this id. -/
def Uncancelled {G : Type} (said : Nat → End → List (Said (Hand G))) (i : Nat) (id : UInt32) : Prop :=
  ∀ v : Cancel, Frame.cancel v ∈ saidUnder id (said i .host) → False

end Iota.Spec.MeshStreams
