import Verif.Spec.MeshFinish
import Verif.Spec.MeshStreams
import Verif.Spec.WasmDrain

/-!
# Specification: streams between the modules of a mesh go on until everything has arrived

Runs of a mesh in which callers of streams only ask for more, what counts as going on, how much is to be done, and what is
there when nothing is under way any more.
-/

namespace Iota.Spec.MeshDrain
open Iota.Go Iota.Frames Iota.Registry Iota.WasmDispatch Iota.WasmCalls Iota.Mesh Iota.MeshCalls
open Iota.Spec.WasmCalls (FitsResult handlers refusal)
open Iota.Spec.WasmStreams (Said saysIn InOrder signals)
open Iota.Spec.WasmOnce (startedIn)
open Iota.Spec.WasmDrain (Mild)
open Iota.Spec.MeshCalls (Linked onward)
open Iota.Spec.MeshStreams (RunFor Voice spoken AllTidy)
open Iota.Spec.MeshFinish (total)
open Iota.Spec.Caller (meaning)

/-- What was said at every instance. -/
abbrev Words (G : Type) := Nat → End → List (Said (Hand G))

/-- The calls of every instance whose request was sent, by index. -/
abbrev Begun := Nat → End → List Nat

/-- What was said after a step of instance `i`. -/
def adds {G : Type} (said : Words G) (i : Nat) (new : End → List (Said (Hand G))) : Words G :=
  fun k t => if k = i then said i t ++ new t else said k t

/-- What was begun after a step of instance `i`. -/
def begins (begun : Begun) (i : Nat) (b : WasmCalls.Act) : Begun := fun k t => if k = i then begun i t ++ startedIn b t else begun k t

/-- Runs in which all that code and callers do is mild; what hosts pass on is not restricted. -/
inductive Mildly {G : Type} [DecidableEq G] (hs : Nat → End → Handlers (Hand G)) (ask : End → Prop) :
    MeshStreams.Net G → Words G → Begun → Prop
  | init : Mildly hs ask MeshStreams.Net.init (fun _ _ => []) (fun _ _ => [])
  | step {n n' : MeshStreams.Net G} {said : Words G} {begun : Begun} (a : MeshStreams.Act) (i : Nat) (b : WasmCalls.Act) :
      Mildly hs ask n said begun → n.doing a = some (i, b) → InOrder (n.net.sys i) b → (∀ e, ∀ j ∈ startedIn b e, j ∉ begun i e) →
      (∀ k c, a = .net (.own k c) → Mild ask c) → n.step hs a = some n' →
      Mildly hs ask n' (adds said i (saysIn (n.net.sys i) (n'.net.sys i) b)) (begins begun i b)

/-- Something is done about what is under way, without new calls of modules: a frame is taken up, a request is handled, code of
a module resolves, a host passes a call on, subscribes to what it passed on, sends the request for it, gives a result back, or
sends on a signal of a stream. -/
def Goes {G : Type} (n : MeshStreams.Net G) (begun : Begun) : MeshStreams.Act → Prop
  | .net (.own _ (.recv _ _)) => True
  | .net (.own _ (.task _ _ live)) => live = true
  | .net (.own _ (.answer _ _ r)) => FitsResult r
  | .net (.own i (.subscribe .host j)) => ∃ ρ ∈ n.net.relays, ρ.dst = i ∧ ρ.call = j
  | .net (.own i (.start .host j _)) => (∃ ρ ∈ n.net.relays, ρ.dst = i ∧ ρ.call = j) ∧
      (((n.net.sys i).node .host).obj j).isSome = true ∧ j ∉ begun i .host
  | .net (.own _ _) => False
  | .net (.pass _ _ _) => True
  | .net (.back _ _ _) => True
  | .relay _ _ => True

/-- Going on for a number of steps. -/
inductive Onward {G : Type} [DecidableEq G] (hs : Nat → End → Handlers (Hand G)) :
    Nat → MeshStreams.Net G → Words G → Begun → MeshStreams.Net G → Words G → Begun → Prop
  | done {n : MeshStreams.Net G} {said : Words G} {begun : Begun} : Onward hs 0 n said begun n said begun
  | go {k : Nat} {n n1 n' : MeshStreams.Net G} {said said' : Words G} {begun begun' : Begun} (a : MeshStreams.Act) (i : Nat) (b : WasmCalls.Act) :
      Goes n begun a → n.doing a = some (i, b) → n.step hs a = some n1 →
      Onward hs k n1 (adds said i (saysIn (n.net.sys i) (n1.net.sys i) b)) (begins begun i b) n' said' begun' →
      Onward hs (k + 1) n said begun n' said' begun'

/-! ## How much is to be done -/

/-- The most steps that a piece of work at an end can lead to. -/
def effort : End → Handler.Task → Nat
  | .host, .request _ _ _ _ _ => 14
  | .guest, .request _ _ _ _ _ => 7
  | _, _ => 1

/-- The most steps that a frame sent by an end can lead to. -/
def weight : End → Frame → Nat
  | .host, .request _ => 8
  | .guest, .request _ => 15
  | .host, .requestN _ => 2
  | .host, _ => 1
  | .guest, _ => 5

/-- The most steps that a handler that is to answer can lead to. -/
def duty : End → Nat
  | .host => 2
  | .guest => 6

def wireWork (e : End) (l : List Frame) : Nat := (l.map (weight e)).sum

/-- The most steps that the work and handlers of an end can lead to; `u` tells which handlers did not pass their call on. -/
def nodeWork {H : Type} (u : Job H → Bool) (e : End) (n : Node H) : Nat :=
  (n.peer.tasks.map (effort e)).sum + duty e * n.jobs.countP (fun j => j.kind = .rr) + if e = .host then 11 * n.jobs.countP u else 0

def sysWork {H : Type} (u : Job H → Bool) (y : Sys H) : Nat :=
  nodeWork u .host (y.node .host) + nodeWork u .guest (y.node .guest) + wireWork .host (y.wire .host) + wireWork .guest (y.wire .guest)

/-- The most steps that subscribing to a call that was passed on can lead to. -/
def hearing : Kind → Nat
  | .rr => 9
  | .fnf => 0
  | _ => 1

/-- The most steps that a call that was passed on can lead to: subscribing, the request of a stream, and sending on what was heard. -/
def relayWork {G : Type} (n : MeshStreams.Net G) (begun : Begun) (r : Nat) : Nat :=
  match n.net.relays[r]? with
  | none => 0
  | some ρ => (if (((n.net.sys ρ.dst).node .host).obj ρ.call).isNone then hearing ρ.job.kind else 0) +
      (if many ρ.job.kind = true ∧ ρ.call ∉ begun ρ.dst .host then 9 else 0) +
      2 * ((MeshStreams.heardFrames n.net ρ).length - n.sent r)

/-- The most steps that can be taken about what is under way. -/
def work {G : Type} (N : Nat) (n : MeshStreams.Net G) (begun : Begun) : Nat :=
  total (fun i => sysWork (fun j => !n.net.passed i j) (n.net.sys i)) N + total (relayWork n begun) n.net.relays.length

/-- No end makes more than `2^30` calls, even if everything under way led to more of them. -/
def Room {G : Type} (N : Nat) (n : MeshStreams.Net G) (begun : Begun) : Prop :=
  ∀ i e, ((n.net.sys i).node e).calls.length + work N n begun ≤ 2 ^ 30

/-- A call of the guest of instance `i` is done with. A stream or channel whose request was sent, and which is linked, was passed
on exactly once, and the code of the destination, if there is such code, was run exactly once; if it is not linked, its
subscriber was told so. Its subscriber was told everything that was said for it, by that code. -/
structure Drained {G : Type} (m : Mesh) (gs : Nat → Handlers G) (n : MeshStreams.Net G) (said : Words G) (begun : Begun) (i j : Nat)
    (c : WasmCalls.Call) : Prop where
  single : Spec.MeshFinish.Done m gs n.net i j c
  served : many c.kind = true → j ∈ begun i .guest → ∀ d, Linked m i c d → ∃ ρ c2, onward n.net i c.id = [ρ] ∧ ρ.dst = d.instance_ ∧
    ((n.net.sys d.instance_).node .host).calls[ρ.call]? = some c2 ∧
    (gs d.instance_ c.kind d.index ≠ none → handlers c2.id ((n.net.sys d.instance_).node .guest).jobs = 1 ∧
      ∃ x ∈ ((n.net.sys d.instance_).node .guest).jobs, x.id = c2.id ∧ RunFor gs d c x)
  refused : ∀ o, many c.kind = true → ((n.net.sys i).node .guest).obj j = some o → j ∈ begun i .guest → (∀ d, ¬ Linked m i c d) →
    signals o ((n.net.sys i).node .guest).peer.log = [.error (refusal c.metadata), .complete]
  told : ∀ o, many c.kind = true → ((n.net.sys i).node .guest).obj j = some o → AllTidy n.net said →
    signals o ((n.net.sys i).node .guest).peer.log = ((spoken n.net said i c.id).map (·.2)).flatMap meaning ∧
    ∀ s ∈ spoken n.net said i c.id, Voice m gs i c s

end Iota.Spec.MeshDrain
