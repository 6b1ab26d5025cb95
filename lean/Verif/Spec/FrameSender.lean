/-!
# Specification: what connections carry

This file does not use the model.
-/

namespace Iota.Spec.FrameSender

/-- What is done with one end: it is joined to a connection, or to none; it sends something. -/
inductive Note (F : Type) where
  | joined (i : Option Nat)
  | sent (f : F)

/-- What connection `i` carries, if the end is joined to `cur` at first. -/
def carried {F : Type} (i : Nat) (cur : Option Nat) : List (Note F) → List F
  | [] => []
  | .joined j :: ns => carried i j ns
  | .sent f :: ns => if cur = some i then f :: carried i cur ns else carried i cur ns

/-- All that is sent. -/
def everything {F : Type} : List (Note F) → List F
  | [] => []
  | .joined _ :: ns => everything ns
  | .sent f :: ns => f :: everything ns

end Iota.Spec.FrameSender
