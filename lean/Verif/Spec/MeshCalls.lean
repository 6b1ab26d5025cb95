import Verif.Model.MeshCalls
import Verif.Spec.WasmCalls

/-!
# Specification: calls between the modules of a mesh

Which code answers a call, what it is given, and which results the caller may be told.
-/

namespace Iota.Spec.MeshCalls
open Iota.Go Iota.Frames Iota.Registry Iota.WasmDispatch Iota.WasmCalls Iota.Mesh Iota.MeshCalls
open Iota.Spec.Handler (opIndex)
open Iota.Peers (Result)

/-- The destination the mesh has for a call of the guest of instance `i`: what its host has in its table under the index the
call names. -/
def Linked (m : Mesh) (i : Nat) (c : WasmCalls.Call) (d : Dest) : Prop :=
  ∃ op : UInt32, opIndex c.metadata = some op.toNat ∧ m.moduleCall i c.kind op = some d

/-- `x` is the code of the destination, run for the call: with its data, and its metadata without the eight bytes of the
routing. -/
structure RunFor {G : Type} (gs : Nat → Handlers G) (d : Dest) (c : WasmCalls.Call) (x : Job (Hand G)) : Prop where
  kind : x.kind = c.kind
  data : x.data = c.data
  metadata : x.metadata = c.metadata.drop 8
  handler : ∃ g, gs d.instance_ c.kind d.index = some g ∧ x.handler = .code g

/-- A result of a call of the guest of instance `i`: what the code of the destination gave; or a failure, if the call has no
destination, or the destination has no such code. -/
inductive Through {G : Type} (m : Mesh) (gs : Nat → Handlers G) (n : Net G) (i : Nat) (c : WasmCalls.Call) : Result → Prop
  | answered (d : Dest) (x : Job (Hand G)) (r : Result) : Linked m i c d → RunFor gs d c x →
      (x, r) ∈ ((n.sys d.instance_).node .guest).made → Through m gs n i c r
  | missing (d : Dest) : Linked m i c d → gs d.instance_ c.kind d.index = none →
      Through m gs n i c (.failure (Handler.lit "not_found"))
  | unlinked : (∀ d, ¬ Linked m i c d) → Through m gs n i c (.failure (Spec.WasmCalls.refusal c.metadata))

/-- No end of an instance made more than `2^30` calls. -/
def Bounded {G : Type} (n : Net G) : Prop := ∀ i, Spec.WasmCalls.Bounded (n.sys i)

/-- Nothing is under way: no frame, no work waiting to be done, no handler of request-response, and no work that is to be
passed on. -/
structure Idle {G : Type} (n : Net G) : Prop where
  wire : ∀ i e, (n.sys i).wire e = []
  tasks : ∀ i e, ((n.sys i).node e).peer.tasks = []
  jobs : ∀ i e, ∀ x ∈ ((n.sys i).node e).jobs, x.kind ≠ .rr
  passed : ∀ i, ∀ x ∈ ((n.sys i).node .host).jobs, x.kind = .fnf → n.passed i x = true

/-- The calls made for those of the guest of instance `i` under an id. -/
def onward {G : Type} (n : Net G) (i : Nat) (id : UInt32) : List (Relay G) :=
  n.relays.filter fun ρ => decide (ρ.src = i ∧ ρ.job.id = id)

end Iota.Spec.MeshCalls
