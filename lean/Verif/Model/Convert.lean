import Verif.Model.Msgpack

/-!
# Conversions between decoded and declared types

Model of `/repo/go/msgpack/convert/convert.go`. A pointer is an `Option`; a call takes the two results of
the reader, a pointer and an error, as Go passes them on in `convert.NillableX(decoder.ReadNillableX())`.
-/

namespace Iota.Convert
open Iota.Go Iota.Msgpack

/-- The results `(*T, error)` of a function. -/
abbrev Ptr (α : Type) := Option α × Option String

/-- `NillableString`, `NillableBool`, `NillableNumeric`, where `conv` is the conversion `T(*value)`.
convert.go:73-76, 82-85, 97-100. Reading through a nil pointer panics. -/
def nillable {α β : Type} (conv : α → β) : Ptr α → Res (Ptr β)
  | (none, _) => .panic
  | (some v, e) => .ok (some (conv v), e)

/-- `NillableParse`. convert.go:29-40 -/
def nillableParse {α β : Type} (fn : α → Except String β) : Ptr α → Res (Ptr β)
  | (_, some e) => .ok (none, some e)
  | (none, none) => .ok (none, none)
  | (some v, none) =>
    match fn v with
    | .ok b => .ok (some b, none)
    | .error e => .ok (none, some e)

/-- What the caller of `ReadNillableX` gets: on an error the pointer is nil. decoder.go:45-55 and alike -/
def results {α : Type} : Res (Option α) → Res (Ptr α)
  | .ok v => .ok (v, none)
  | .err e => .ok (none, some e)
  | .panic => .panic

/-- `convert.NillableX(decoder.ReadNillableX())` -/
def readNillable {α β : Type} (conv : α → β) (r : Rd α) (d : D) : Res (Ptr β) :=
  match results (Dec.nillable r d).1 with
  | .ok p => nillable conv p
  | .err e => .err e
  | .panic => .panic

/-- `convert.NillableParse(fn)(decoder.ReadNillableX())` -/
def readParse {α β : Type} (fn : α → Except String β) (r : Rd α) (d : D) : Res (Ptr β) :=
  match results (Dec.nillable r d).1 with
  | .ok p => nillableParse fn p
  | .err e => .err e
  | .panic => .panic

end Iota.Convert
