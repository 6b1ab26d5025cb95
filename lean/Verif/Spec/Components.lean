import Verif.Model.Components

/-!
# What components with ports should do
-/

namespace Iota.Spec.Components
open Iota.Go Iota.Msgpack Iota.Registry Iota.Components

/-- The bytes of a string. -/
def text (s : String) : Bytes := s.toUTF8.toList

/-- Words that are not counted. -/
def stopWords : List Bytes := ["i", "the", "and", "to", "of", "a", "my", "in", "you", "is", "that"].map text

/-- `l` lists the frequencies of the words `ws`, compared in lower case: each word that is not a stop word is there
exactly once and with the number of times it occurs, and more frequent words come first. -/
structure Frequencies (lower : Bytes → Bytes) (ws : List Bytes) (l : List (Bytes × Nat)) : Prop where
  exactly : ∀ w n, (w, n) ∈ l ↔ w ∉ stopWords ∧ n = (ws.filter fun x => lower x = w).length ∧ 0 < n
  once : (l.map (·.1)).Nodup
  sorted : l.Pairwise fun a b => b.2 ≤ a.2

/-- What `range` and `sort.Sort` with `wordsHighestToLowest` promise: all entries, in some order that is sorted. -/
def Sorts (arrange : List (Bytes × Nat) → List (Bytes × Nat)) : Prop :=
  ∀ l, (arrange l).Perm l ∧ (arrange l).Pairwise fun a b => b.2 ≤ a.2

/-- The payload is a message for a port, which may be marked as its last one, with this count. -/
def IsCount (lib : Lib) (last : Bool) (md d : Bytes) (w : Bytes) (n : Nat) : Prop :=
  PortIO.decode md = .ok ⟨text "counts", [], last, true⟩ ∧
    ∃ f0, ∀ f, f0 ≤ f → Codegen.fromBytes wordCountEnv lib f 0 d = some (.ok (wordCount w n))

/-- The subscriber of the result was sent these counts, then that the port is complete, then the end. -/
inductive Shows (lib : Lib) : List Out → List (Bytes × Nat) → Prop
  | done {md n} (h : PortIO.decode md = .ok ⟨text "counts", [], true, n⟩) : Shows lib [.next md [], .complete] []
  | count {md d w n last out l} (h : IsCount lib last md d w n) (t : Shows lib out l) : Shows lib (.next md d :: out) ((w, n) :: l)

/-- A payload that a caller sends with a word that is not the last one. -/
def SendsWord (w : Bytes) (i : In) : Prop :=
  ∃ md d, PortIO.encode ⟨text "words", [], false, true⟩ = .ok md ∧ Transform.string.encode w = .ok d ∧ i = .next md d

/-- The first payload for a port and what it is read as. -/
def firstFor {α : Type} (port : Bytes) (parse : Bytes → Res α) : List In → Option (Res α)
  | [] => none
  | .complete :: _ => none
  | .error _ :: _ => none
  | .next md d :: l =>
    match PortIO.decode md with
    | .ok p => if p.port = port ∧ p.next = true then some (parse d) else firstFor port parse l
    | .err _ => firstFor port parse l
    | .panic => firstFor port parse l

/-- The payload is the last message for a port, with this text. -/
def IsText (port md d v : Bytes) : Prop :=
  PortIO.decode md = .ok ⟨port, [], true, true⟩ ∧ Transform.string.decode d = .ok v

end Iota.Spec.Components
