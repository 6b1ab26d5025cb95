import Verif.Go.Basic

/-!
# The operation table format

Magic `00 77 72 73`, version 1 (16 bits), number of operations (32 bits), then for each operation: type,
direction, index (32 bits), namespace and name, each preceded by its length in 16 bits, and a reserved
field, also preceded by its length. All numbers are big-endian. This file does not use the model.
-/

namespace Iota.Spec.Operations
open Go

/-- What one operation says. -/
structure Entry where
  type : UInt8
  direction : UInt8
  index : Nat
  ns : Bytes
  name : Bytes

/-- A byte string with its length. -/
def lenStr (s : Bytes) : Bytes := beBytes 2 s.length ++ s

/-- One operation with the contents of its reserved field. -/
def entry (e : Entry) (reserved : Bytes) : Bytes :=
  e.type :: e.direction :: beBytes 4 e.index ++ lenStr e.ns ++ lenStr e.name ++ lenStr reserved

def entries : List (Entry × Bytes) → Bytes
  | [] => []
  | x :: l => entry x.1 x.2 ++ entries l

/-- The format. -/
def table (l : List (Entry × Bytes)) : Bytes :=
  [0x00, 0x77, 0x72, 0x73] ++ beBytes 2 1 ++ beBytes 4 l.length ++ entries l

/-- The numbers fit. -/
def Entry.fits (e : Entry) : Prop := e.index < 2 ^ 32 ∧ e.ns.length < 2 ^ 16 ∧ e.name.length < 2 ^ 16

end Iota.Spec.Operations
