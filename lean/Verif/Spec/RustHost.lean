import Verif.Model.RustHost

/-!
# What a module may do to a Rust host

In terms of the memory of the module and of the arguments of its calls.
-/

namespace Iota.Spec.RustHost
open Go Iota.Frames Iota.Rust Iota.Rust.Host

/-- A part of memory. -/
def slice (mem : Bytes) (ptr len : Nat) : Bytes := (mem.drop ptr).take len

/-- Whether this hands over a table of operations. -/
def hands : Act → Bool
  | .opList _ _ => true
  | _ => false

/-- All a module does while it is started. -/
def functions (m : Mod) : List Act := m.start.getD [] ++ m.init.getD [] ++ m.list.getD []

/-- A frame that may be sent to the host: not a call without or with one result. -/
def servable : Frame → Prop
  | .request v => v.frameType ≠ tRequestFNF ∧ v.frameType ≠ tRequestResponse
  | _ => True

/-- What the host asks of a call of its functions: arguments that are positive numbers and stay inside of the memory,
text in UTF-8, tables and frames that its readers survive, and no calls. -/
def Polite (mem : Bytes) (hostStart : Nat) : Act → Prop
  | .initBuffers g h => g < 2 ^ 31 ∧ h < 2 ^ 31
  | .opList p n => p + n < 2 ^ 31 ∧ p + n ≤ mem.length ∧ decodeOps (slice mem p n) ≠ .panic
  | .send n => n < 2 ^ 31 ∧ hostStart + n ≤ mem.length ∧
      ∀ b r, readFrame (slice mem hostStart n) = some (b, r) → decode b ≠ .panic ∧ ∀ f, decode b = .ok f → servable f
  | .log p n => p + n < 2 ^ 31 ∧ p + n ≤ mem.length ∧ isUtf8 (slice mem p n) = true
  | _ => True

/-- What is an error for the module: a store outside of its memory, a frame without an end, a table that cannot be read,
or whatever else fails in the module. -/
def Failing (mem : Bytes) (hostStart : Nat) : Act → Prop
  | .write p bs => mem.length < p + bs.length
  | .opList p n => p + n < 2 ^ 31 ∧ p + n ≤ mem.length ∧ ∃ e, decodeOps (slice mem p n) = .err e
  | .send n => n < 2 ^ 31 ∧ hostStart + n ≤ mem.length ∧ readFrame (slice mem hostStart n) = none
  | .trap => True
  | _ => False

/-- A frame of a call that the host makes, or one that tells of a failure or of the end of interest. -/
def own (f : Frame) : Prop := f.streamID.toNat % 2 = 1 ∨ (∃ v, f = .error v) ∨ ∃ v, f = .cancel v

/-- The number of calls made. -/
def calls : List Step → Nat
  | [] => 0
  | .call _ _ _ :: ss => calls ss + 1
  | _ :: ss => calls ss

/-- Polite, and no request at all, not even for a stream. -/
def Quiet (mem : Bytes) (hostStart : Nat) (a : Act) : Prop :=
  Polite mem hostStart a ∧ ∀ n b r v, a = .send n → readFrame (slice mem hostStart n) = some (b, r) → decode b ≠ .ok (.request v)

/-- Everything a function does is quiet. -/
def QuietRun (c : Ctx) (as : List Act) : Prop :=
  ∀ xs a ys c', as = xs ++ a :: ys → c.run xs = (c', .done) → Quiet c'.mem c'.hostStart a

end Iota.Spec.RustHost
