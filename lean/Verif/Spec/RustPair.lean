import Verif.Model.RustPair
import Verif.Spec.RustSocket

/-!
# Specification: calls between a host and a guest written in Rust

Only about what callers ask, what handlers are run with and yield, and what callers are told.
-/

namespace Iota.Spec.RustPair
open Iota.Go Iota.Frames Iota.Rust Iota.Spec.RustSocket

/-- Runs, with what happened at each end so far. -/
inductive Runs : Pair → (Bool → List SockAct) → Prop
  | init : Runs Pair.init (fun _ => [])
  | step {p p' : Pair} {H : Bool → List SockAct} {e : Bool} {b : SockAct} (a : PairAct) : Runs p H →
      p.seen a = some (e, b) → p.step a = some p' → Runs p' (fun x => if x = e then H x ++ [b] else H x)

/-- What a caller is told when the handler of a single result yields. -/
def toldOne : List Yield → List Signal × Bool
  | .ok md d :: _ => ([.ok md d], true)
  | .err e :: _ => ([.err 513 (text e)], true)
  | _ => ([], false)

/-- What a caller is told when a stream yields: its elements, up to its end or first failure. -/
def toldMany : List Yield → List Signal × Bool
  | [] => ([], false)
  | .ok md d :: ys => (.ok md d :: (toldMany ys).1, (toldMany ys).2)
  | .err e :: _ => ([.err 513 (text e)], true)
  | .done :: _ => ([], true)

/-- What the caller of a request-response or stream operation is told. The first thing the task of a stream does is to
start the handler. -/
def told (m : Method) (ys : List Yield) : List Signal × Bool :=
  if m = .rr then toldOne ys else toldMany ys.tail

/-- The run of a handler that a call asks for. -/
def asked (m : Method) (sid : UInt32) (metadata data : Bytes) : Invoked :=
  match m with
  | .fnf => .fnf sid metadata data
  | .rr => .rr sid metadata data
  | _ => .rs sid metadata data

/-- Is it a run for this call? -/
def runFor (sid : UInt32) : Invoked → Bool
  | .rr i _ _ => i = sid
  | .fnf i _ _ => i = sid
  | .rs i _ _ => i = sid
  | .rc i _ => i = sid

/-- Every frame was processed and no task is left. -/
def Settled (p : Pair) : Prop := ∀ e, p.read e = (p.sock (!e)).out.length ∧ ∀ t ∈ (p.sock e).tasks, t = none

/-- Neither end made more than `2^30 - 2` calls. -/
def Few (H : Bool → List SockAct) : Prop := ∀ e, drawn (H e) + 2 ≤ 2 ^ 30

end Iota.Spec.RustPair
