import Verif.Model.RustWasi

/-!
# What a module is to see, and when it is to be stopped
-/

namespace Iota.Spec.RustWasi
open Iota.RustWasi

/-- All names of directories that have to be there. -/
def needed (p : Params) : List Str := p.preopenedDirs ++ p.mapDirs.map (·.2)

/-- What it sees: a directory under its own name, or under the name it is mapped to. -/
def sees (w : World) (p : Params) (guest : Str) (d : Nat) : Prop :=
  (guest ∈ p.preopenedDirs ∧ w.dir guest = some d) ∨ ∃ host, (guest, host) ∈ p.mapDirs ∧ w.dir host = some d

/-- The answers to the questions of `code`, all of it. -/
def answers (args : List Str) (env : List (Str × Str)) (dirs : List (Str × Nat)) : List Code → List Told
  | [] => []
  | .check _ :: cs => answers args env dirs cs
  | .args :: cs => .args args :: answers args env dirs cs
  | .env :: cs => .env env :: answers args env dirs cs
  | .dirs :: cs => .dirs dirs :: answers args env dirs cs

/-- The looks at the epoch. -/
def checks : List Code → List Nat
  | [] => []
  | .check now :: cs => now :: checks cs
  | _ :: cs => checks cs

/-- Code that begins at epoch `t` is to be stopped if the epoch is seen to be `limit` ticks later. -/
def late (t limit : Nat) (code : List Code) : Prop := ∃ now ∈ checks code, t + limit ≤ now

end Iota.Spec.RustWasi
