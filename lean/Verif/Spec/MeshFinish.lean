import Verif.Spec.MeshCalls

/-!
# Specification: calls between the modules of a mesh that go on until all are done with

What counts as going on, how much is to be done, and when a call of a module is done with.
-/

namespace Iota.Spec.MeshFinish
open Iota.Go Iota.Frames Iota.Registry Iota.WasmDispatch Iota.WasmCalls Iota.Mesh Iota.MeshCalls Iota.Spec.MeshCalls
open Iota.Spec.WasmCalls (toldCall handlers)
open Iota.Peers (Result isRequest)

/-- Something is done about what is under way, without new calls of modules: a frame is taken up, a request is handled, code of
a module resolves, a host passes a call on, subscribes to the result of what it passed on, or gives the result back. -/
def Goes {G : Type} (n : Net G) : MeshCalls.Act → Prop
  | .own _ (.recv _ _) => True
  | .own _ (.task _ _ _) => True
  | .own _ (.answer _ _ _) => True
  | .own i (.subscribe .host j) => ∃ ρ ∈ n.relays, ρ.dst = i ∧ ρ.call = j
  | .own _ _ => False
  | .pass _ _ _ => True
  | .back _ _ _ => True

/-- Going on for a number of steps. -/
inductive Onward {G : Type} [DecidableEq G] (hs : Nat → End → Handlers (Hand G)) : Nat → Net G → Net G → Prop
  | refl (n : Net G) : Onward hs 0 n n
  | step {k : Nat} {n n1 n' : Net G} (a : MeshCalls.Act) : Goes n a → n.step hs a = some n1 → Onward hs k n1 n' → Onward hs (k + 1) n n'

/-- Only request-response and fire and forget are used. -/
def Simple {G : Type} (n : Net G) : Prop := ∀ i, Spec.WasmCalls.Simple (n.sys i)

/-- What is passed fits into frames. -/
def Small {G : Type} (n : Net G) : Prop := ∀ i, Spec.WasmCalls.Small (n.sys i)

/-- The modules are the instances below `N`: calls are linked to them, and no other one did anything. -/
structure Within {G : Type} (N : Nat) (m : Mesh) (n : Net G) : Prop where
  linked : ∀ i k op d, m.moduleCall i k op = some d → d.instance_ < N
  new : ∀ i, N ≤ i → n.sys i = Sys.init

/-! ## How much is to be done -/

/-- The most steps that a request waiting at an end can lead to. -/
def taskWork : End → Nat
  | .host => 9
  | .guest => 3

/-- The most steps that a frame sent by an end can lead to. -/
def frameWork (e : End) (f : Frame) : Nat := if isRequest f then taskWork (other e) + 1 else 1

def wireWork (e : End) (l : List Frame) : Nat := (l.map (frameWork e)).sum

/-- The most steps that the requests and handlers of an end can lead to; `u` tells which handlers did not pass their call on. -/
def nodeWork {H : Type} (u : Job H → Bool) (e : End) (n : Node H) : Nat :=
  taskWork e * n.peer.tasks.length + 2 * n.jobs.countP (fun j => j.kind = .rr) + if e = .host then 6 * n.jobs.countP u else 0

def sysWork {H : Type} (u : Job H → Bool) (y : Sys H) : Nat :=
  nodeWork u .host (y.node .host) + nodeWork u .guest (y.node .guest) + wireWork .host (y.wire .host) + wireWork .guest (y.wire .guest)

def total (f : Nat → Nat) : Nat → Nat
  | 0 => 0
  | N + 1 => total f N + f N

/-- How many calls for a result were passed on and not subscribed to. -/
def unheard {G : Type} (n : Net G) : Nat :=
  n.relays.countP fun ρ => decide (ρ.job.kind = .rr) && (((n.sys ρ.dst).node .host).obj ρ.call).isNone

/-- The most steps that can be taken about what is under way. -/
def work {G : Type} (N : Nat) (n : Net G) : Nat := total (fun i => sysWork (fun j => !n.passed i j) (n.sys i)) N + 5 * unheard n

/-- No end makes more than `2^30` calls, even if everything under way led to more of them. -/
def Room {G : Type} (N : Nat) (n : Net G) : Prop := ∀ i e, ((n.sys i).node e).calls.length + work N n ≤ 2 ^ 30

/-- A call of the guest of instance `i` is done with. For a result, if it is wanted: told exactly one. To be forgotten, and
linked: passed on exactly once, and the code of the destination, if there is such code, was run exactly once. -/
def Done {G : Type} (m : Mesh) (gs : Nat → Handlers G) (n : Net G) (i j : Nat) (c : WasmCalls.Call) : Prop :=
  match c.kind with
  | .rr => ((n.sys i).node .guest).obj j ≠ none → ∃ r, toldCall ((n.sys i).node .guest) j = [r] ∧ Through m gs n i c r
  | .fnf => ∀ d, Linked m i c d → ∃ ρ c2, onward n i c.id = [ρ] ∧ ρ.dst = d.instance_ ∧
      ((n.sys d.instance_).node .host).calls[ρ.call]? = some c2 ∧
      (gs d.instance_ .fnf d.index ≠ none → handlers c2.id ((n.sys d.instance_).node .guest).jobs = 1 ∧
        ∃ x ∈ ((n.sys d.instance_).node .guest).jobs, x.id = c2.id ∧ RunFor gs d c x)
  | _ => True

end Iota.Spec.MeshFinish
