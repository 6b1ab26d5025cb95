import Verif.Model.Registry

/-!
# Specification: what a request leads to

Written with arithmetic on the first four bytes of the metadata and a plain list of handlers per kind.
-/

namespace Iota.Spec.Handler
open Iota.Registry (Kind)

/-- What a responder does with a request. -/
inductive Reaction (H : Type) where
  | run (k : Kind) (h : H) (id : UInt32) (data : List UInt8)
  | refuse (id : UInt32)
  deriving DecidableEq, Repr

/-- The index in the metadata of a request: its first four bytes, most significant first. Metadata of less
than eight bytes has none. -/
def opIndex : List UInt8 → Option Nat
  | a :: b :: c :: d :: _ :: _ :: _ :: _ :: _ =>
    some (((a.toNat * 256 + b.toNat) * 256 + c.toNat) * 256 + d.toNat)
  | _ => none

/-- The reaction to a request, given the handlers of each kind. -/
def react {H : Type} (handlers : Kind → List H) (k : Kind) (id : UInt32) (data metadata : List UInt8) :
    Reaction H :=
  match opIndex metadata with
  | none => .refuse id
  | some i =>
    match (handlers k)[i]? with
    | none => .refuse id
    | some h => .run k h id data

end Iota.Spec.Handler
