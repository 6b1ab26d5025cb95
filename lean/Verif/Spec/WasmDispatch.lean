import Verif.Spec.Handler

/-!
# Specification: what a WebAssembly peer does with a request

As `Verif/Spec/Handler.lean`, but over any table of handlers.
-/

namespace Iota.Spec.WasmDispatch
open Iota.Registry (Kind)
open Iota.Spec.Handler

/-- The reaction to a request, given the handler at each index. -/
def reactTo {H : Type} (handlers : Kind → Nat → Option H) (k : Kind) (id : UInt32) (data metadata : List UInt8) :
    Reaction H :=
  match opIndex metadata with
  | none => .refuse id
  | some i =>
    match handlers k i with
    | none => .refuse id
    | some h => .run k h id data

/-- The stream id of the parent a request names: the second four bytes of its metadata. -/
def parentOf : List UInt8 → Nat
  | _ :: _ :: _ :: _ :: a :: b :: c :: d :: _ => ((a.toNat * 256 + b.toNat) * 256 + c.toNat) * 256 + d.toNat
  | _ => 0

end Iota.Spec.WasmDispatch
