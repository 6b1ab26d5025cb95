import Verif.Spec.Mixed
import Verif.Spec.RustFinish

/-!
# Specification: calls between an end in Go and an end in Rust go on until all are done with

Which runs are considered, what counts as going on, how much is to be done, and what it means that a call is done with.
-/

namespace Iota.Spec.MixedFinish
open Iota.Go Iota.Frames Iota.Registry Iota.WasmDispatch Iota.WasmCalls Iota.Rust Iota.Mixed Iota.Spec.Mixed
open Iota.Spec.RustSocket (yields)
open Iota.Spec.WasmCalls (toldCall)
open Iota.Spec.WasmCalls (handlers refusal)
open Iota.Spec.RustPair (asked runFor)
open Iota.Peers (Result isRequest)

/-- Nobody in Rust drops a result that it waits for. -/
def Undropped (R : List SockAct) : Prop := ∀ i, SockAct.drop i ∉ R

/-- Something is done about what is under way: a frame is taken up, a request is handled, or a handler gives its result. -/
def Goes : Iota.Mixed.Act → Prop
  | .toGo => True
  | .toRust => True
  | .toGoRefused => True
  | .go (.task _ _) => True
  | .go (.answer _ _) => True
  | .rust (.task _ _) => True
  | _ => False

/-- Going on for `n` steps. -/
inductive Onward {H : Type} (e : End) (hs : Handlers H) : Nat → Mixed H → List SockAct → Mixed H → List SockAct → Prop
  | refl (m : Mixed H) (R : List SockAct) : Onward e hs 0 m R m R
  | step {n : Nat} {m m1 m' : Mixed H} {R R' : List SockAct} (a : Iota.Mixed.Act) : Goes a → m.step e hs a = some m1 →
      Onward e hs n m1 (R ++ (m.rustSees a).toList) m' R' → Onward e hs (n + 1) m R m' R'

/-- The most steps that a frame on its way to the Go end can lead to. -/
def goFrameWork (f : Frame) : Nat := if isRequest f then 5 else 1

def goWireWork (l : List Frame) : Nat := (l.map goFrameWork).sum

/-- The same for what the Go end has to do. -/
def goWork {H : Type} (n : Node H) : Nat := 4 * n.peer.tasks.length + 3 * n.jobs.countP (fun j => j.kind = .rr)

/-- The most steps that can be taken about what is under way. A frame that the Rust end cannot decode leads to one more. -/
def work {H : Type} (m : Mixed H) : Nat :=
  goWork m.go + RustFinish.sockWork m.rust + RustFinish.wireWork (m.sent.drop m.rustRead) + goWireWork (m.rust.out.drop m.goRead) +
    (m.sent.drop m.rustRead).length + (m.refused.drop m.refusedRead).length

/-- Every call is done with. A call made in Go (a request-response call once it is subscribed to) ran one handler in Rust, and whoever waits
for its result was told what this handler gave, or its error. A call made in Rust started one handler in Go, if there is one for it, and
whoever waits for its result was told what this handler gave or, if there is none, an error; unless the handler failed with an error that is not
UTF-8: then it was told nothing. -/
structure Answered {H : Type} (e : End) (hs : Handlers H) (m : Mixed H) (R : List SockAct) : Prop where
  goRan : ∀ (j : Nat) (c : WasmCalls.Call), m.go.calls[j]? = some c → (c.kind = .fnf ∨ (m.go.obj j).isSome = true) →
    m.rust.runs.filter (runFor c.id) = [asked (methodOf c.kind) c.id c.metadata c.data]
  goTold : ∀ (j : Nat) (c : WasmCalls.Call), m.go.calls[j]? = some c → c.kind = .rr → (m.go.obj j).isSome = true →
    ∃ r, toldCall m.go j = [r] ∧ ∃ t rest y, Taken (decide (e = .host)) R c t rest ∧ (yields t rest).head? = some y ∧ toldGo y = some r
  rustRan : ∀ as bs x md d s1, R = as ++ .call x md d :: bs → (Sock.init (decide (e = .host))).run as = some (.ok s1) → ¬ Unknown hs x md →
    handlers s1.next m.go.jobs + handlers s1.next (m.go.made.map Prod.fst) = 1
  rustTold : ∀ as bs md d s1, R = as ++ .call .rr md d :: bs → (Sock.init (decide (e = .host))).run as = some (.ok s1) →
    ∃ k, m.rust.sinks[s1.sinks.length]? = some k ∧
      ((k.closed = true ∧ ∃ r, k.got = [toldRust r] ∧
        ((∃ j, (j, r) ∈ m.go.made ∧ Serves e hs .rr s1.next md d j) ∨ (Unknown hs .rr md ∧ r = .failure (refusal md)))) ∨
      (k.closed = false ∧ k.got = [] ∧ ∃ j x, (j, Result.failure x) ∈ m.go.made ∧ Serves e hs .rr s1.next md d j ∧ Rust.isUtf8 x = false))

end Iota.Spec.MixedFinish
