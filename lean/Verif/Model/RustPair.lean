import Verif.Model.RustSocket

/-!
# Two Rust sockets

A host and a guest written in Rust, each with a `WasmSocket` (`Verif/Model/RustSocket.lean`), as the tests in
`/repo/rust/crates/wasmrs/src/socket.rs:517-541` join them: what one sends is processed by the other, in order.

Simplifications:
* Frames take the place of their bytes (that bytes keep the frames is C68 and C69) and are processed in the order they
  were sent (that is C90, C91 and C125).
* A step that crashes a process is not a step.
-/

namespace Iota.Rust
open Iota.Go Iota.Frames

/-- A host (`false`) and a guest (`true`), with the number of frames each has processed of those the other has sent. -/
structure Pair where
  sock : Bool → Sock
  read : Bool → Nat

/-- Two new sockets. socket.rs:518-520 -/
def Pair.init : Pair := ⟨Sock.init, fun _ => 0⟩

/-- Replace the socket of an end. -/
def Pair.set (p : Pair) (e : Bool) (s : Sock) : Pair := { p with sock := fun x => if x = e then s else p.sock x }

/-- What can happen next: something at an end, or an end takes the next frame. -/
inductive PairAct where
  | own (e : Bool) (a : SockAct)
  | take (e : Bool)

/-- Does a frame arrive? -/
def isRecv : SockAct → Bool
  | .recv _ => true
  | _ => false

/-- What happens at an end, in the words of its socket; `none` if nothing can. -/
def Pair.seen (p : Pair) : PairAct → Option (Bool × SockAct)
  | .own e a => if isRecv a then none else some (e, a)
  | .take e => (p.sock (!e)).out[p.read e]?.map fun f => (e, .recv f)

/-- One step; `none` if it is not possible or crashes a process. socket.rs:527-538 -/
def Pair.step (p : Pair) (a : PairAct) : Option Pair :=
  match p.seen a with
  | none => none
  | some (e, b) =>
    match (p.sock e).step b with
    | some (.ok s) =>
      some { p.set e s with read := fun x => if x = e ∧ isRecv b then p.read x + 1 else p.read x }
    | _ => none

end Iota.Rust
