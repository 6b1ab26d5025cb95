import Verif.Model.BusYaml

/-!
# A reader for YAML, and what the configuration is to say

The reader knows block mappings with plain values, comments and empty lines; an entry of a list (`- key: value`) is read as a key
that begins with `- `, with what is indented below it. It refuses what it does not know.
-/

namespace Iota.Spec.BusYaml
open Iota.BusYaml

def lines : Str → List Str
  | [] => [[]]
  | c :: s =>
    if c = '\n' then [] :: lines s
    else
      match lines s with
      | l :: ls => (c :: l) :: ls
      | [] => [[c]]

/-- A key ends at the first `:` before a space or the end of the line. -/
def splitKey : Str → Option (Str × Str)
  | [] => none
  | c :: l =>
    if c = ':' ∧ (l = [] ∨ l.head? = some ' ') then some ([], l.drop 1) else (splitKey l).map fun p => (c :: p.1, p.2)

/-- Quotes around a key are not part of it. -/
def unquote (k : Str) : Str := if k.head? = some '\'' ∧ k.getLast? = some '\'' then k.tail.dropLast else k

/-- ` #` begins a comment. -/
def hasComment : Str → Bool
  | [] => false
  | c :: l => (c == ' ' && l.head? == some '#') || hasComment l

/-- Characters with a meaning of their own at the beginning of a value, and the space. -/
def indicators : List Char :=
  ['&', '*', '!', '|', '>', '%', '@', '`', '\'', '"', '[', ']', '{', '}', ',', '#', '?', '-', ' ']

/-- Values that mean what they say: they begin with no indicator, end with no space and contain no `: ` and no ` #`. -/
def plain (v : Str) : Bool :=
  (v.head?.all fun c => !indicators.contains c) && (v.getLast? != some ' ') && (splitKey v).isNone && !hasComment v

/-- A line: how far it is indented, its key and its value; nothing for a comment or an empty line. -/
def row (l : Str) : Option (List (Nat × Str × Str)) :=
  if (l.dropWhile (· == ' ')).head?.all (· == '#') then some []
  else
    match splitKey (l.dropWhile (· == ' ')) with
    | none => none
    | some p => if plain p.2 then some [((l.takeWhile (· == ' ')).length, unquote p.1, p.2)] else none

def rows : List Str → Option (List (Nat × Str × Str))
  | [] => some []
  | l :: ls =>
    match row l, rows ls with
    | some a, some b => some (a ++ b)
    | _, _ => none

abbrev Entry := List Str × Str

/-- Each key with those it is below of, outermost first. `st` are the keys above, innermost first. -/
def paths (st : List (Nat × Str)) : List (Nat × Str × Str) → List Entry
  | [] => []
  | (n, k, v) :: rs =>
    (((st.dropWhile fun x => decide (n ≤ x.1)).map (·.2)).reverse ++ [k], v) ::
      paths ((n, k) :: st.dropWhile fun x => decide (n ≤ x.1)) rs

/-- What a file says. -/
def says? (f : Str) : Option (List Entry) := (rows (lines f)).map (paths [])

/-! ## What it is to say -/

/-- The full name of an interface. -/
def full (n : Ns) (i : Iface) : Str := n.name ++ ['.'] ++ i.name

/-- The description of what is at `p`, if it has one. -/
def about (p : List Str) (desc : Str) : List Entry := if desc = [] then [] else [(p ++ ["name".toList], desc)]

/-- Something with steps to be filled in. -/
def task (p : List Str) (desc : Str) : List Entry := (p, []) :: about p desc ++ [(p ++ ["steps".toList], [])]

/-- A service has a task for each of its operations without code, and no other. -/
def serviceEntries (n : Ns) : List Entry :=
  (n.ifaces.filter (·.service)).flatMap fun i =>
    (["services".toList, full n i], []) ::
      (i.ops.filter (·.noCode)).flatMap fun o => task ["services".toList, full n i, o.name] o.desc

/-- An event is passed to the operation, and tried again as said by `retries`. -/
def route (p : List Str) (n : Ns) (i : Iface) (o : Oper) : List Entry :=
  [(p, "Send to route".toList), (p ++ ["uses".toList], "invoke".toList), (p ++ ["with".toList], []),
    (p ++ ["with".toList, "namespace".toList], full n i), (p ++ ["with".toList, "operation".toList], o.name),
    (p ++ ["with".toList, "input".toList], "input.data".toList), (p ++ ["retry".toList], "events".toList)]

def eventEntries (n : Ns) : List Entry :=
  (n.ifaces.filter (·.events)).flatMap fun i => i.ops.flatMap fun o =>
    task ["events".toList, (o.type.getD o.name)] o.desc ++
      route ["events".toList, (o.type.getD o.name), "steps".toList, "- name".toList] n i o

/-- A provider has a task for each of its operations. -/
def providerEntries (n : Ns) : List Entry :=
  (n.ifaces.filter (·.provider)).flatMap fun i =>
    (["providers".toList, full n i], []) :: i.ops.flatMap fun o => task ["providers".toList, full n i, o.name] o.desc

/-- Names: of letters, digits, `_`, `-` and `.`, not beginning with `-`. -/
def isName (s : Str) : Prop :=
  s ≠ [] ∧ s.head? ≠ some '-' ∧ ∀ c ∈ s, c.isAlphanum = true ∨ c = '_' ∨ c = '-' ∨ c = '.'

/-- A namespace whose names are names and whose descriptions are plain and of one line. -/
structure Tame (n : Ns) : Prop where
  ns : isName n.name
  ifaces : ∀ i ∈ n.ifaces, isName i.name
  ops : ∀ i ∈ n.ifaces, ∀ o ∈ i.ops, isName o.name
  types : ∀ i ∈ n.ifaces, ∀ o ∈ i.ops, ∀ t, o.type = some t → isName t
  descs : ∀ i ∈ n.ifaces, ∀ o ∈ i.ops, plain o.desc = true ∧ '\n' ∉ o.desc

end Iota.Spec.BusYaml
