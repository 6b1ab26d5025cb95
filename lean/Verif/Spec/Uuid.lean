import Verif.Go.Basic

/-!
# Text forms of UUIDs (RFC 4122)

This file does not use the model.
-/

namespace Iota.Spec.Uuid
open Go

/-- `c` is a hexadecimal digit of value `n`, in either letter case. -/
def Digit (n : Nat) (c : UInt8) : Prop :=
  (n < 10 ∧ c.toNat = 0x30 + n) ∨ (10 ≤ n ∧ n < 16 ∧ (c.toNat = 0x61 + (n - 10) ∨ c.toNat = 0x41 + (n - 10)))

/-- Two digits for every byte. -/
inductive Hex : Bytes → Bytes → Prop
  | nil : Hex [] []
  | cons {b c1 c2 : UInt8} {bs cs : Bytes} (h1 : Digit (b.toNat / 16) c1) (h2 : Digit (b.toNat % 16) c2)
      (h : Hex bs cs) : Hex (b :: bs) (c1 :: c2 :: cs)

/-- `xxxxxxxx-xxxx-xxxx-xxxx-xxxxxxxxxxxx` -/
def Plain (u s : Bytes) : Prop :=
  ∃ u1 u2 u3 u4 u5 s1 s2 s3 s4 s5 : Bytes,
    u = u1 ++ u2 ++ u3 ++ u4 ++ u5 ∧
    s = s1 ++ [0x2d] ++ s2 ++ [0x2d] ++ s3 ++ [0x2d] ++ s4 ++ [0x2d] ++ s5 ∧
    u1.length = 4 ∧ u2.length = 2 ∧ u3.length = 2 ∧ u4.length = 2 ∧ u5.length = 6 ∧
    Hex u1 s1 ∧ Hex u2 s2 ∧ Hex u3 s3 ∧ Hex u4 s4 ∧ Hex u5 s5

/-- `a` and `b` are the same up to letter case, `b` being in lower case. -/
def SameLetter (a b : UInt8) : Prop := a = b ∨ (0x61 ≤ b.toNat ∧ b.toNat ≤ 0x7a ∧ a.toNat + 0x20 = b.toNat)

/-- `urn:uuid:` in any letter case. -/
def UrnPrefix (p : Bytes) : Prop :=
  ∃ a b c d e f g h i : UInt8, p = [a, b, c, d, e, f, g, h, i] ∧
    SameLetter a 0x75 ∧ SameLetter b 0x72 ∧ SameLetter c 0x6e ∧ d = 0x3a ∧
    SameLetter e 0x75 ∧ SameLetter f 0x75 ∧ SameLetter g 0x69 ∧ SameLetter h 0x64 ∧ i = 0x3a

/-- The accepted forms; `l` and `r` are what encloses the form with braces. -/
inductive Form (l r : UInt8 → Prop) : Bytes → Bytes → Prop
  | plain {u s : Bytes} (h : Plain u s) : Form l r u s
  | urn {u p s : Bytes} (hp : UrnPrefix p) (h : Plain u s) : Form l r u (p ++ s)
  | braces {u s : Bytes} {a b : UInt8} (ha : l a) (hb : r b) (h : Plain u s) : Form l r u (a :: s ++ [b])
  | digits {u s : Bytes} (hl : u.length = 16) (h : Hex u s) : Form l r u s

/-- `u` is the version 4 UUID made from the 16 random bytes `r`: four bits of byte 6 say version 4, two bits of
byte 8 say RFC 4122, the other 122 bits are those of `r`. -/
def V4 (r u : Bytes) : Prop :=
  r.length = 16 ∧ u.length = 16 ∧
  (∀ i : Nat, i ≠ 6 → i ≠ 8 → u[i]? = r[i]?) ∧
  (∃ a b : UInt8, r[6]? = some a ∧ u[6]? = some b ∧ b.toNat = 4 * 16 + a.toNat % 16) ∧
  (∃ a b : UInt8, r[8]? = some a ∧ u[8]? = some b ∧ b.toNat = 2 * 64 + a.toNat % 64)

/-- How often a time in the list is not later than the one before it; `t` is the time before the first. -/
def regressions : Nat → List Nat → Nat
  | _, [] => 0
  | t, x :: xs => (if x ≤ t then 1 else 0) + regressions x xs

/-- A UUID of version 1 (RFC 4122, 4.1.2): the low 32 bits of the time, its next 16 bits, the version and the highest 12
bits, the variant and 14 bits of clock sequence, and the node. -/
def v1 (time seq : Nat) (node : Bytes) : Bytes :=
  beBytes 4 (time % 2 ^ 32) ++ beBytes 2 (time / 2 ^ 32 % 2 ^ 16) ++ beBytes 2 (1 * 2 ^ 12 + time / 2 ^ 48 % 2 ^ 12) ++
    beBytes 2 (2 * 2 ^ 14 + seq % 2 ^ 14) ++ node

end Iota.Spec.Uuid
