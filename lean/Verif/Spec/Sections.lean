import Verif.Go.Basic

/-!
# WebAssembly binaries as sequences of sections

After the WebAssembly core specification, chapters 5.2.2 (LEB128) and 5.5 (modules). This file does not use the model.
-/

namespace Iota.Spec.Sections
open Go

/-- Unsigned LEB128, not necessarily the shortest form. -/
inductive Leb : Nat → Bytes → Prop
  | last {b : UInt8} (h : b.toNat < 128) : Leb b.toNat [b]
  | more {b : UInt8} {n : Nat} {bs : Bytes} (h : 128 ≤ b.toNat) (t : Leb n bs) : Leb (b.toNat - 128 + 128 * n) (b :: bs)

/-- `u32`: at most five bytes and less than 2^32. -/
def U32 (n : Nat) (bs : Bytes) : Prop := Leb n bs ∧ bs.length ≤ 5 ∧ n < 2 ^ 32

/-- A section. -/
inductive Section
  | custom (name data : Bytes)
  | other (id : UInt8) (content : Bytes)

/-- Binary form of a section; `valid` says which names are UTF-8. -/
inductive IsSection (valid : Bytes → Bool) : Section → Bytes → Prop
  | custom {name data ln ls : Bytes} (hn : U32 name.length ln) (hs : U32 (ln ++ name ++ data).length ls) (hv : valid name = true) :
      IsSection valid (.custom name data) (0 :: ls ++ (ln ++ name ++ data))
  | other {id : UInt8} {content ls : Bytes} (hid : id ≠ 0) (hs : U32 content.length ls) :
      IsSection valid (.other id content) (id :: ls ++ content)

/-- Binary form of a list of sections. -/
inductive IsSections (valid : Bytes → Bool) : List Section → Bytes → Prop
  | nil : IsSections valid [] []
  | cons {s : Section} {ss : List Section} {b bs : Bytes} (h : IsSection valid s b) (t : IsSections valid ss bs) :
      IsSections valid (s :: ss) (b ++ bs)

/-- Binary form of a module. -/
def IsModule (valid : Bytes → Bool) (ss : List Section) (bs : Bytes) : Prop :=
  ∃ body, bs = [0x00, 0x61, 0x73, 0x6d, 0x01, 0x00, 0x00, 0x00] ++ body ∧ IsSections valid ss body

/-- Contents of the last custom section of the given name. -/
def content (name : Bytes) : List Section → Option Bytes
  | [] => none
  | .custom n d :: ss => match content name ss with
    | some x => some x
    | none => if n = name then some d else none
  | .other _ _ :: ss => content name ss

/-- The module ends with a custom section without contents and with a name from the list. -/
def EmptyLast (wanted : List Bytes) (ss : List Section) : Prop :=
  ∃ init name, ss = init ++ [.custom name []] ∧ name ∈ wanted

end Iota.Spec.Sections
