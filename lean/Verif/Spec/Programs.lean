import Verif.Model.Programs
import Verif.Spec.Net

/-!
# Specification: two programs joined by a connection

Which runs are considered, and which code should answer a call.
-/

namespace Iota.Spec.Programs
open Iota.Go Iota.Frames Iota.Registry Iota.Peers Iota.Net Iota.Programs
open Iota.Spec.Net
open Iota.StreamId (Side)

/-- Runs of two programs. -/
inductive Reach {H : Type} (d : Duo H) : Net → Prop
  | init : Reach d Net.init
  | step {n n' : Net} (a : Programs.Act) (b : Net.Act) : Reach d n → d.does n a = some b → Sane n b → n.step b = some n' → Reach d n'

/-- Runs of two programs that make simple calls, with the calls whose result was subscribed to. -/
inductive Simple {H : Type} (d : Duo H) : (Side → List Nat) → Net → Prop
  | init : Simple d (fun _ => []) Net.init
  | step {subs : Side → List Nat} {n n' : Net} (a : Programs.Act) (b : Net.Act) : Simple d subs n → d.does n a = some b → Sane n b →
      (∀ p, seenAs b = some p → Spec.Polite.Allowed (fun s => blank (d.regs s)) subs p) → n.step b = some n' → Simple d (noteAct subs b) n'

/-- Fewer operations than indices. -/
def Small {H : Type} (d : Duo H) : Prop := ∀ s k, ((d.regs s).handlers k).length < 2 ^ 32

/-- The result is what the handler gives for the call. -/
def Gave {H : Type} (d : Duo H) (c : Peers.Call) (h : H) (r : Result) : Prop :=
  d.gives h c.frame.data (c.frame.metadata.drop 8) r = true

end Iota.Spec.Programs
