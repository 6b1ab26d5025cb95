/-!
# Specification: stream tables

`live` is what a user expects of a table of streams. `Sticky` is what the code actually provides: a
list in order of registration whose first `stuck` entries can no longer be taken out.
-/

namespace Iota.Spec.Lookup

variable {S : Type}

/-- Operations on a table, seen from outside. -/
inductive Call (S : Type) where
  | register (id : UInt32) (s : S)
  | unregister (id : UInt32)

/-- What one call does to the list of streams a user expects to find. -/
def liveStep (acc : List (UInt32 × S)) : Call S → List (UInt32 × S)
  | .register id s => acc ++ [(id, s)]
  | .unregister id => acc.filter fun e => e.1 ≠ id

/-- The streams a user expects to find: those registered and not unregistered since, oldest first. -/
def live (cs : List (Call S)) : List (UInt32 × S) := cs.foldl liveStep []

/-- A list of registered streams, the first `stuck` of which stay for good. -/
structure Sticky (S : Type) where
  entries : List (UInt32 × S)
  stuck : Nat

/-- The oldest entry under an id. -/
def Sticky.get (t : Sticky S) (id : UInt32) : Option S :=
  (t.entries.find? fun e => e.1 = id).map (·.2)

/-- New entries go to the end; the first one is stuck at once. -/
def Sticky.add (t : Sticky S) (id : UInt32) (s : S) : Sticky S :=
  { entries := t.entries ++ [(id, s)], stuck := max t.stuck 1 }

/-- Taking out the oldest entry under an id. If that entry is stuck it stays and its successor becomes
stuck too. -/
def Sticky.remove (t : Sticky S) (id : UInt32) : Sticky S :=
  match t.entries.findIdx? fun e => e.1 = id with
  | none => t
  | some i =>
    if i < t.stuck then { t with stuck := min (max t.stuck (i + 2)) t.entries.length }
    else { t with entries := t.entries.eraseIdx i }

end Iota.Spec.Lookup
