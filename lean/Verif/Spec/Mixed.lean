import Verif.Model.Mixed
import Verif.Spec.WasmCalls
import Verif.Spec.RustPair

/-!
# Specification: calls between an end in Go and an end in Rust

Only about what callers ask, what handlers are run with and give, and what callers are told.
-/

namespace Iota.Spec.Mixed
open Iota.Go Iota.Frames Iota.Registry Iota.WasmDispatch Iota.WasmCalls Iota.Rust Iota.Mixed
open Iota.Spec.Handler (opIndex)
open Iota.Spec.RustSocket (text drawn yields)
open Iota.Spec.WasmCalls (shown toldCall)
open Iota.Spec.RustPair (asked)
open Iota.Peers (Result)

/-- Runs, with what happened at the Rust end so far. -/
inductive Runs {H : Type} (e : End) (hs : Handlers H) : Mixed H → List SockAct → Prop
  | init : Runs e hs (Mixed.init e) []
  | step {m m' : Mixed H} {R : List SockAct} (a : Iota.Mixed.Act) : Runs e hs m R → m.step e hs a = some m' →
      Runs e hs m' (R ++ (m.rustSees a).toList)

/-- Handlers in Go report errors in UTF-8. -/
def Readable {H : Type} (m : Mixed H) : Prop := ∀ j x, (j, Result.failure x) ∈ m.go.made → Rust.isUtf8 x = true

/-- Calls for a single result or none. A Go guest gets no fire and forget calls: see `forgotten_call_crashes_refuted`; and its
handlers report errors in UTF-8: see `unreadable_error_fails_call_refuted`. -/
structure Single {H : Type} (e : End) (m : Mixed H) (R : List SockAct) : Prop where
  go : ∀ c ∈ m.go.calls, c.kind = .rr ∨ c.kind = .fnf
  rust : ∀ x md d, SockAct.call x md d ∈ R → x = .rr ∨ (x = .fnf ∧ e = .host)
  text : e = .guest → Readable m

/-- Ids have not been used up: fewer than `2^30 - 1` calls of each end. -/
structure Few {H : Type} (m : Mixed H) (R : List SockAct) : Prop where
  go : m.go.calls.length + 2 ≤ 2 ^ 30
  rust : drawn R + 2 ≤ 2 ^ 30

/-- What was sent fits into frames: metadata below `2^24` bytes, four gigabytes in all. -/
def Fits : Frame → Prop
  | .payload v => v.metadata.length < 2 ^ 24 ∧ v.metadata.length + v.data.length + 9 < 2 ^ 32
  | .error v => v.data.length + 10 < 2 ^ 32
  | .request v => v.metadata.length < 2 ^ 24 ∧ v.metadata.length + v.data.length + 13 < 2 ^ 32
  | _ => True

/-- All frames fit. -/
def Small {H : Type} (m : Mixed H) : Prop := (∀ f ∈ m.sent, Fits f) ∧ ∀ f ∈ m.rust.out, Fits f

/-- The methods of a Rust socket, in the words of Go. -/
def kindOf : Method → Kind
  | .fnf => .fnf
  | .rr => .rr
  | .rs => .rs
  | .rc => .rc

/-- And back. -/
def methodOf : Kind → Method
  | .fnf => .fnf
  | .rr => .rr
  | .rs => .rs
  | .rc => .rc

/-- What a Go caller is told when the handler in Rust yields. -/
def toldGo : Yield → Option Result
  | .ok md d => some (.value d md)
  | .err x => some (.failure x)
  | .done => none

/-- What a Rust caller is told when the handler in Go has a result. Go has no error codes. -/
def toldRust : Result → Signal
  | .value d md => .ok md d
  | .failure x => .err 0 (text x)

/-- The work of the Go end, which has the handlers `hs`, for a call of the Rust end under `sid`. -/
structure Serves {H : Type} (e : End) (hs : Handlers H) (x : Method) (sid : UInt32) (md d : Bytes) (j : Job H) : Prop where
  kind : j.kind = kindOf x
  id : j.id = sid
  data : j.data = d
  metadata : j.metadata = shown e (kindOf x) md
  handler : ∃ op : UInt32, opIndex md = some op.toNat ∧ hs (kindOf x) op = some j.handler

/-- The Go end has no handler for it. -/
def Unknown {H : Type} (hs : Handlers H) (x : Method) (md : Bytes) : Prop :=
  ∀ op : UInt32, opIndex md = some op.toNat → hs (kindOf x) op = none

/-- The Rust end took the request of the Go call `c` as its task number `t`; `rest` is what happened after. -/
def Taken (guest : Bool) (R : List SockAct) (c : WasmCalls.Call) (t : Nat) (rest : List SockAct) : Prop :=
  ∃ before v s, R = before ++ .recv (.request v) :: rest ∧ v.streamID = c.id ∧ (Sock.init guest).run before = some (.ok s) ∧
    t = s.tasks.length

/-- Everything sent was taken and all work is done. -/
structure Settled {H : Type} (m : Mixed H) : Prop where
  goRead : m.goRead = m.rust.out.length
  refusedRead : m.refusedRead = m.refused.length
  rustRead : m.rustRead = m.sent.length
  rust : ∀ t ∈ m.rust.tasks, t = none
  tasks : m.go.peer.tasks = []
  jobs : ∀ j ∈ m.go.jobs, j.kind ≠ .rr

end Iota.Spec.Mixed
