import Verif.Model.Operations

/-!
# Specification: imports and exports of loaded modules

A load history is the list of modules in loading order, each a list of operations; a module is known by its
position. No maps and no incremental linking.
-/

namespace Iota.Spec.Mesh
open Iota.Operations (Operation)

/-- The operations of one direction, each with the position of its module. -/
def operations (dir : UInt8) (base : Nat) : List (List Operation) → List (Nat × Operation)
  | [] => []
  | t :: ts => (t.filter (·.direction = dir)).map (fun o => (base, o)) ++ operations dir (base + 1) ts

def exports (h : List (List Operation)) : List (Nat × Operation) := operations 1 0 h

def imports (h : List (List Operation)) : List (Nat × Operation) := operations 2 0 h

/-- Same namespace and name. -/
def sameName (a b : Operation) : Bool := a.ns == b.ns && a.op == b.op

/-- Some loaded module exports an operation of this name. -/
def satisfied (h : List (List Operation)) (o : Operation) : Bool := (exports h).any fun e => sameName e.2 o

/-- The export of this name that was loaded last. -/
def newest (h : List (List Operation)) (ns op : List UInt8) : Option (Nat × Operation) :=
  ((exports h).filter fun e => e.2.ns == ns && e.2.op == op).getLast?

end Iota.Spec.Mesh
