import Verif.Model.Upper

/-!
# Specification: a channel that changes every string
-/

namespace Iota.Spec.Upper
open Iota.Go Iota.Upper

/-- What a caller that decodes strings sees of a frame: a value, the end, an error, or nothing for a demand. -/
inductive Seen where
  | value (s : Bytes)
  | complete
  | error (e : String)
  deriving DecidableEq, Repr

/-- Does the caller see this for that frame? -/
inductive Sees : Out → Seen → Prop
  | value (d s : Bytes) : Transform.string.decode d = .ok s → Sees (.next [] d) (.value s)
  | complete : Sees .complete .complete
  | error (e : String) : Sees (.error e) (.error e)

/-- Frames and what is seen, one by one. -/
inductive SeesAll : List Out → List Seen → Prop
  | nil : SeesAll [] []
  | cons {o : Out} {s : Seen} {os : List Out} {ss : List Seen} : Sees o s → SeesAll os ss → SeesAll (o :: os) (s :: ss)

/-- The frames that are not demands. -/
def results (l : List Out) : List Out := l.filter fun o => match o with | .ask _ => false | _ => true

/-- How much was asked for. -/
def asked : List Out → Nat
  | [] => 0
  | .ask n :: l => n + asked l
  | _ :: l => asked l

/-- The answer to the frames that come in: each string in upper case, up to the first that is none or the end. -/
def answer (up : Bytes → Bytes) : List In → List Seen
  | [] => []
  | .payload _ d true complete :: l =>
    match Transform.string.decode d with
    | .ok v => .value (up v) :: if complete then [.complete] else answer up l
    | .err e => [.error e]
    | .panic => []
  | .payload _ _ false complete :: l => if complete then [.complete] else answer up l
  | .error e :: _ => [.error e]
  | .cancel :: _ => [.complete]
  | .demand _ :: l => answer up l

/-- How many values come in before the end of the input. -/
def accepted : List In → Nat
  | [] => 0
  | .payload _ _ next complete :: l => (if next then 1 else 0) + if complete then 0 else accepted l
  | .error _ :: _ => 0
  | .cancel :: _ => 0
  | .demand _ :: l => accepted l

/-- Reading a value does not crash, and what is made of it is not too long. -/
def Fine (up : Bytes → Bytes) (l : List In) : Prop :=
  ∀ m d n c, .payload m d n c ∈ l → Transform.string.decode d ≠ .panic ∧ ∀ v, Transform.string.decode d = .ok v → (up v).length < 2 ^ 31

/-- Without the caller's demands. -/
def calm (l : List In) : List In := l.filter fun f => match f with | .demand _ => false | _ => true

end Iota.Spec.Upper
