import Verif.Spec.Msgpack

/-!
# Specification: a reader of MessagePack

What the bytes of a message mean, as a function: the table of the MessagePack specification read from the first byte on. That it
agrees with `Wire` is proved in `Verif/Props/RustInputs.lean`.
-/

namespace Iota.Spec.Reader
open Iota.Go Iota.Spec.Msgpack

/-- What the first byte and the length after it announce. -/
inductive Hd where
  | val (v : Val) (rest : Bytes)
  | arr (n : Nat) (rest : Bytes)
  | map (n : Nat) (rest : Bytes)
  | bad

def chunk (k : Nat) (bs : Bytes) : Option (Bytes × Bytes) := if k ≤ bs.length then some (bs.take k, bs.drop k) else none

def number (k : Nat) (bs : Bytes) : Option (Nat × Bytes) := (chunk k bs).map fun x => (beNat x.1, x.2)

/-- A number of `k` bytes in two's complement. -/
def signed (k n : Nat) : Int := if n < 2 ^ (8 * k - 1) then (n : Int) else (n : Int) - 256 ^ k

/-- A number of `k` bytes. -/
def fixed (k : Nat) (g : Nat → Val) (bs : Bytes) : Hd :=
  match number k bs with
  | some x => .val (g x.1) x.2
  | none => .bad

/-- Data of `k` bytes. -/
def body (g : Bytes → Val) (k : Nat) (bs : Bytes) : Hd :=
  match chunk k bs with
  | some x => .val (g x.1) x.2
  | none => .bad

/-- A type and data of `k` bytes. -/
def extBody (k : Nat) : Bytes → Hd
  | t :: r => body (.ext (signed 1 t.toNat)) k r
  | [] => .bad

/-- A length of `k` bytes and what follows. -/
def sized (k : Nat) (g : Nat → Bytes → Hd) (bs : Bytes) : Hd :=
  match number k bs with
  | some x => g x.1 x.2
  | none => .bad

def headOf : Bytes → Hd
  | [] => .bad
  | c :: bs =>
    if c.toNat < 0x80 then .val (.int c.toNat) bs
    else if c.toNat < 0x90 then .map (c.toNat - 0x80) bs
    else if c.toNat < 0xa0 then .arr (c.toNat - 0x90) bs
    else if c.toNat < 0xc0 then body .str (c.toNat - 0xa0) bs
    else if c.toNat = 0xc0 then .val .nil bs
    else if c.toNat = 0xc1 then .bad
    else if c.toNat = 0xc2 then .val (.bool false) bs
    else if c.toNat = 0xc3 then .val (.bool true) bs
    else if c.toNat < 0xc7 then sized (2 ^ (c.toNat - 0xc4)) (body .bin) bs
    else if c.toNat < 0xca then sized (2 ^ (c.toNat - 0xc7)) extBody bs
    else if c.toNat = 0xca then fixed 4 .f32 bs
    else if c.toNat = 0xcb then fixed 8 .f64 bs
    else if c.toNat < 0xd0 then fixed (2 ^ (c.toNat - 0xcc)) (fun n => .int n) bs
    else if c.toNat < 0xd4 then fixed (2 ^ (c.toNat - 0xd0)) (fun n => .int (signed (2 ^ (c.toNat - 0xd0)) n)) bs
    else if c.toNat < 0xd9 then extBody (2 ^ (c.toNat - 0xd4)) bs
    else if c.toNat < 0xdc then sized (2 ^ (c.toNat - 0xd9)) (body .str) bs
    else if c.toNat = 0xdc then sized 2 .arr bs
    else if c.toNat = 0xdd then sized 4 .arr bs
    else if c.toNat = 0xde then sized 2 .map bs
    else if c.toNat = 0xdf then sized 4 .map bs
    else .val (.int ((c.toNat : Int) - 256)) bs

/-- `n` values. -/
def many (p : Bytes → Option (Val × Bytes)) : Nat → Bytes → Option (List Val × Bytes)
  | 0, bs => some ([], bs)
  | n + 1, bs =>
    match p bs with
    | none => none
    | some x => (many p n x.2).map fun y => (x.1 :: y.1, y.2)

def pairUp : List Val → List (Val × Val)
  | a :: b :: l => (a, b) :: pairUp l
  | _ => []

/-- The first value of a message, and what follows it; the number bounds the depth. -/
def parse : Nat → Bytes → Option (Val × Bytes)
  | 0, _ => none
  | f + 1, bs =>
    match headOf bs with
    | .val v r => some (v, r)
    | .arr n r => (many (parse f) n r).map fun x => (.arr x.1, x.2)
    | .map n r => (many (parse f) (2 * n) r).map fun x => (.map (pairUp x.1), x.2)
    | .bad => none

end Iota.Spec.Reader
