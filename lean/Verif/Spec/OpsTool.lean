import Verif.Spec.Sections

/-!
# Specification: the operation table in a WebAssembly binary

This file does not use the model.
-/

namespace Iota.Spec.OpsTool
open Go Iota.Spec.Sections

/-- The custom sections of a module, in order, but for those with the names of its functions. -/
def customs : List Section → List (Bytes × Bytes)
  | [] => []
  | .custom n d :: ss => if n = "name".toUTF8.toList then customs ss else (n, d) :: customs ss
  | .other _ _ :: ss => customs ss

/-- `bin` is a WebAssembly binary with these custom sections. -/
def Holds (valid : Bytes → Bool) (cs : List (Bytes × Bytes)) (bin : Bytes) : Prop :=
  ∃ ss, IsModule valid ss bin ∧ customs ss = cs

/-- The contents of the last custom section of the given name. -/
def last (name : Bytes) (cs : List (Bytes × Bytes)) : Option Bytes := ((cs.filter (fun c => c.1 = name)).getLast?).map (·.2)

/-- The contents of the first custom section of the given name. -/
def first (name : Bytes) (cs : List (Bytes × Bytes)) : Option Bytes := ((cs.filter (fun c => c.1 = name)).head?).map (·.2)

end Iota.Spec.OpsTool
