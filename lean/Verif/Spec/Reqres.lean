import Verif.Model.Reqres
import Verif.Spec.RustWrappers

/-!
# What the example component answers
-/

namespace Iota.Spec.Reqres
open Iota.Go Iota.RustWrappers Iota.Reqres
open Iota.RustRx (Signal)

/-- The message of a string, or the error of `serialize`. -/
def said (ser : Str → Except Bytes Bytes) (s : Str) : Signal Bytes Bytes :=
  match ser s with
  | .ok b => .ok b
  | .error e => .err e

/-- The answer to an element of the input: the string in it reversed, or an error if there is none in it. -/
def reversed (txt : Bytes → Bytes) (de : Bytes → Except Bytes Str) (ser : Str → Except Bytes Bytes) (b : Bytes) : Signal Bytes Bytes :=
  match de b with
  | .ok s => said ser s.reverse
  | .error e => .err (txt e)

/-- What arrived from the caller. -/
def arrived : List RevEv → List (Signal Bytes Bytes)
  | [] => []
  | .arrive x :: es => x :: arrived es
  | _ :: es => arrived es

/-- What the implementation did, without what the task of the wrapper did. -/
def done : List (StreamEv Str) → List (StreamEv Str)
  | [] => []
  | .pump :: es => done es
  | e :: es => e :: done es

end Iota.Spec.Reqres
