import Verif.Model.Net
import Verif.Spec.Polite

/-!
# Specification: calls over a connection of bytes

Which runs are considered. What is claimed of them is stated with the words of `Verif/Spec/Polite.lean`, which only
speak about calls, handlers and results.
-/

namespace Iota.Spec.Net
open Iota.Go Iota.Frames Iota.Registry Iota.Peers Iota.Net Iota.Spec.Polite
open Iota.StreamId (Side)

/-- The bytes of data and metadata in a frame. -/
def bodyLen : Frame → Nat
  | .cancel _ => 0
  | .requestN _ => 0
  | .error f => f.data.length
  | .payload f => f.metadata.length + f.data.length
  | .request f => f.metadata.length + f.data.length

/-- No frame of four gigabytes is sent. -/
def Sane (n : Net) (a : Net.Act) : Prop := ∀ s, ∀ f ∈ n.sends a s, bodyLen f + 32 < 2 ^ 32

/-- Runs of two peers on a connection. -/
inductive Runs : Net → Prop
  | init : Runs Net.init
  | step {n n' : Net} (a : Net.Act) : Runs n → Sane n a → n.step a = some n' → Runs n'

/-- The calls whose result was subscribed to. -/
def noteAct (subs : Side → List Nat) (a : Net.Act) : Side → List Nat :=
  match seenAs a with
  | some b => note subs b
  | none => subs

/-- Runs of two peers that make simple calls. -/
inductive PoliteRuns (regs : Side → Reg Unit) : (Side → List Nat) → Net → Prop
  | init : PoliteRuns regs (fun _ => []) Net.init
  | step {subs : Side → List Nat} {n n' : Net} (a : Net.Act) : PoliteRuns regs subs n → Sane n a →
      (∀ b, seenAs a = some b → Allowed regs subs b) → n.step a = some n' → PoliteRuns regs (noteAct subs a) n'

/-- A step that goes on with the calls that were made. -/
def GoesOn (regs : Side → Reg Unit) : Net.Act → Prop
  | .peer a => Goes regs a
  | _ => True

/-- Going on for some steps. -/
inductive Onward (regs : Side → Reg Unit) : Net → Nat → Net → Prop
  | stay (n : Net) : Onward regs n 0 n
  | step {n n' n'' : Net} {k : Nat} (a : Net.Act) : Onward regs n k n' → GoesOn regs a → Sane n' a →
      n'.step a = some n'' → Onward regs n (k + 1) n''

/-- Neither peer made more than `2^30` calls. -/
def Few (n : Net) : Prop := ∀ s, (n.peer s).calls.length ≤ 2 ^ 30

end Iota.Spec.Net
