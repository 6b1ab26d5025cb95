import Verif.Model.Handler

/-!
# Specification: what calls leave behind

The tables of streams of a connection, seen as a number of entries and as the ids they hold, and what of a run should
make entries come and go.
-/

namespace Iota.Spec.Leak
open Iota.Frames Iota.Handler

/-- Entries in the two tables. -/
def size (st : State) : Nat := st.guest.entries.length + st.host.entries.length

/-- Is there an entry under the id? -/
def held (st : State) (id : UInt32) : Prop := ∃ i, (id, i) ∈ st.guest.entries ∨ (id, i) ∈ st.host.entries

/-- Frames that tell that a call is over. -/
def ends : Frame → Bool
  | .cancel _ => true
  | .error _ => true
  | .payload v => v.complete
  | _ => false

/-- How many such frames arrive in a run. -/
def endings (acts : List Act) : Nat := acts.countP fun a => match a with
  | .recv f => ends f
  | _ => false

/-- How many calls local code makes in a run. -/
def opened (acts : List Act) : Nat := acts.countP fun a => match a with
  | .openMono _ => true
  | .openFlux _ _ => true
  | _ => false

/-- How many requests were given to handlers, those for one result left out. -/
def served {H : Type} (log : List (Ev H)) : Nat := log.countP fun e => match e with
  | .invoked k _ _ _ _ => decide (k ≠ .rr)
  | _ => false

end Iota.Spec.Leak
