import Verif.Model.Msgpack

/-!
# Specification: the MessagePack format

`Wire ExtHead v bs` is the MessagePack specification (https://github.com/msgpack/msgpack/blob/master/spec.md):
`bs` is one of the allowed serializations of the value `v`. It does not mention the model, except for the
big-endian byte strings of `Verif.Go.Basic`.
-/

namespace Iota.Spec.Msgpack
open Iota.Go

/-- Values. Floats are their bits, strings their bytes; a map is its list of entries as serialized. -/
inductive Val where
  | nil
  | bool (b : Bool)
  | int (i : Int)
  | f32 (bits : Nat)
  | f64 (bits : Nat)
  | str (s : Bytes)
  | bin (b : Bytes)
  | arr (l : List Val)
  | map (l : List (Val × Val))
  | ext (tag : Int) (b : Bytes)

/-- `[c, c+1, c+2, c+3]` followed by a number of 1, 2, 4 or 8 bytes. -/
def num (c : UInt8) (j : Nat) (n : Nat) : Bytes := (c + UInt8.ofNat j) :: beBytes (2 ^ j) n

/-- Two's complement on `k` bytes. -/
def twos (k : Nat) (i : Int) : Nat := if i < 0 then (i + 256 ^ k).toNat else i.toNat

/-- Header of a string of `n` bytes. -/
inductive StrHead : Nat → Bytes → Prop
  | fix {n : Nat} (h : n < 32) : StrHead n [0xa0 + UInt8.ofNat n]
  | len {n j : Nat} (hj : j < 3) (h : n < 256 ^ 2 ^ j) : StrHead n (num 0xd9 j n)

/-- Header of a byte string of `n` bytes. -/
inductive BinHead : Nat → Bytes → Prop
  | len {n j : Nat} (hj : j < 3) (h : n < 256 ^ 2 ^ j) : BinHead n (num 0xc4 j n)

/-- Header of an array of `n` elements. -/
inductive ArrHead : Nat → Bytes → Prop
  | fix {n : Nat} (h : n < 16) : ArrHead n [0x90 + UInt8.ofNat n]
  | a16 {n : Nat} (h : n < 65536) : ArrHead n (0xdc :: beBytes 2 n)
  | a32 {n : Nat} (h : n < 4294967296) : ArrHead n (0xdd :: beBytes 4 n)

/-- Header of a map with `n` entries. -/
inductive MapHead : Nat → Bytes → Prop
  | fix {n : Nat} (h : n < 16) : MapHead n [0x80 + UInt8.ofNat n]
  | m16 {n : Nat} (h : n < 65536) : MapHead n (0xde :: beBytes 2 n)
  | m32 {n : Nat} (h : n < 4294967296) : MapHead n (0xdf :: beBytes 4 n)

/-- Header of an extension with `n` bytes of data, without the type byte. -/
inductive ExtHead : Nat → Bytes → Prop
  | fix {j : Nat} (hj : j < 5) : ExtHead (2 ^ j) [0xd4 + UInt8.ofNat j]
  | len {n j : Nat} (hj : j < 3) (h : n < 256 ^ 2 ^ j) : ExtHead n (num 0xc7 j n)

/-- The fixed-size extension headers with at least two bytes of data. -/
inductive FixHead : Nat → Bytes → Prop
  | fix {j : Nat} (hj : 0 < j ∧ j < 5) : FixHead (2 ^ j) [0xd4 + UInt8.ofNat j]

mutual
/-- The serializations of a value, where `E n h` says which headers `h` are allowed for extensions with
`n` bytes of data: all of them for `E = ExtHead`. -/
inductive Wire (E : Nat → Bytes → Prop) : Val → Bytes → Prop
  | nil : Wire E .nil [0xc0]
  | false : Wire E (.bool false) [0xc2]
  | true : Wire E (.bool true) [0xc3]
  | posfix {n : Nat} (h : n < 128) : Wire E (.int n) [UInt8.ofNat n]
  | negfix {n : Nat} (h : 1 ≤ n ∧ n ≤ 32) : Wire E (.int (-n)) [UInt8.ofNat (256 - n)]
  | uint {n j : Nat} (hj : j < 4) (h : n < 256 ^ 2 ^ j) : Wire E (.int n) (num 0xcc j n)
  | int {i : Int} {j : Nat} (hj : j < 4) (h : -2 ^ (8 * 2 ^ j - 1) ≤ i ∧ i < 2 ^ (8 * 2 ^ j - 1)) :
      Wire E (.int i) (num 0xd0 j (twos (2 ^ j) i))
  | f32 {n : Nat} (h : n < 2 ^ 32) : Wire E (.f32 n) (0xca :: beBytes 4 n)
  | f64 {n : Nat} (h : n < 2 ^ 64) : Wire E (.f64 n) (0xcb :: beBytes 8 n)
  | str {s h : Bytes} (hh : StrHead s.length h) : Wire E (.str s) (h ++ s)
  | bin {s h : Bytes} (hh : BinHead s.length h) : Wire E (.bin s) (h ++ s)
  | arr {l : List Val} {h b : Bytes} (hh : ArrHead l.length h) (hb : Wires E l b) : Wire E (.arr l) (h ++ b)
  | map {l : List (Val × Val)} {h b : Bytes} (hh : MapHead l.length h) (hb : WirePairs E l b) :
      Wire E (.map l) (h ++ b)
  | ext {tag : Int} {s h : Bytes} (hh : E s.length h) (ht : -128 ≤ tag ∧ tag < 128) :
      Wire E (.ext tag s) (h ++ (UInt8.ofNat (twos 1 tag) :: s))

inductive Wires (E : Nat → Bytes → Prop) : List Val → Bytes → Prop
  | nil : Wires E [] []
  | cons {v : Val} {l : List Val} {a b : Bytes} (hv : Wire E v a) (hl : Wires E l b) :
      Wires E (v :: l) (a ++ b)

inductive WirePairs (E : Nat → Bytes → Prop) : List (Val × Val) → Bytes → Prop
  | nil : WirePairs E [] []
  | cons {k v : Val} {l : List (Val × Val)} {a b c : Bytes} (hk : Wire E k a) (hv : Wire E v b)
      (hl : WirePairs E l c) : WirePairs E ((k, v) :: l) (a ++ (b ++ c))
end

/-! ## Reading and writing at a position

The two definitions that connect byte strings with the model. All buffers are shorter than 4 GiB. -/

open Iota.Msgpack

/-- The writer `w` writes exactly `bs` at the current position, wherever that is, and touches nothing
else. -/
def Writes (w : Wr) (bs : Bytes) : Prop :=
  ∀ pre old post : Bytes, old.length = bs.length → (pre ++ old ++ post).length < 2 ^ 32 →
    w ⟨pre ++ old ++ post, pre.length, false⟩ =
      .ok ⟨pre ++ bs ++ post, pre.length + bs.length, false⟩

/-- Reading with `r` at the start of `bs` gives `a` and consumes exactly `bs`, whatever precedes and
follows. -/
def Reads {α : Type} (r : Rd α) (bs : Bytes) (a : α) : Prop :=
  ∀ pre rest : Bytes, (pre ++ bs ++ rest).length < 2 ^ 32 →
    r ⟨pre ++ bs ++ rest, pre.length, false⟩ =
      (.ok a, ⟨pre ++ bs ++ rest, pre.length + bs.length, false⟩)

/-- The same for a method that calls itself: with enough steps it returns. -/
def ReadsRun {α : Type} (r : Nat → Dec.Run α) (bs : Bytes) (a : α) : Prop :=
  ∃ fuel, ∀ pre rest : Bytes, (pre ++ bs ++ rest).length < 2 ^ 32 →
    r fuel ⟨pre ++ bs ++ rest, pre.length, false⟩ =
      some (.ok a, ⟨pre ++ bs ++ rest, pre.length + bs.length, false⟩)

/-! ## What a Go value denotes -/

mutual
/-- The MessagePack value of a Go value. Codecs, times and types without encoding have none; they are
excluded by `Plain` and stand for an extension here. -/
def den : Any → Val
  | .nil => .nil
  | .codec _ => .ext 0 []
  | .int _ v => .int v
  | .uint _ v => .int v
  | .bool b => .bool b
  | .f32 b => .f32 b
  | .f64 b => .f64 b
  | .str s => .str s
  | .time _ => .ext 0 []
  | .bytes b => .bin b
  | .anys l => .arr (dens l)
  | .strs l => .arr (l.map .str)
  | .times _ => .ext 0 []
  | .bools l => .arr (l.map .bool)
  | .ints _ l => .arr (l.map .int)
  | .uints _ l => .arr (l.map fun (n : Nat) => .int n)
  | .mapSS l => .map (l.map fun p => (.str p.1, .str p.2))
  | .mapSA l => .map (denS l)
  | .mapIA _ l => .map (denI l)
  | .mapUA _ l => .map (denU l)
  | .mapAA l => .map (denA l)
  | .other => .ext 0 []

def dens : List Any → List Val
  | [] => []
  | v :: l => den v :: dens l

def denS : List (Bytes × Any) → List (Val × Val)
  | [] => []
  | (k, v) :: l => (.str k, den v) :: denS l

def denI : List (Int × Any) → List (Val × Val)
  | [] => []
  | (k, v) :: l => (.int k, den v) :: denI l

def denU : List (Nat × Any) → List (Val × Val)
  | [] => []
  | (k, v) :: l => (.int k, den v) :: denU l

def denA : List (Any × Any) → List (Val × Val)
  | [] => []
  | (k, v) :: l => (den k, den v) :: denA l
end

def i64 (v : Int) : Prop := -2 ^ 63 ≤ v ∧ v < 2 ^ 63
def u64 (v : Nat) : Prop := v < 2 ^ 64
def short {α : Type} (l : List α) : Prop := l.length < 2 ^ 32
/-- The length at which the sizer miscounts byte strings. -/
def not255 (b : Bytes) : Prop := b.length ≠ 255

mutual
/-- Go values without the cases in which sizer and encoder disagree: byte strings of exactly 255 bytes
and times. All numbers are in the range of their types. -/
def Sized : Any → Prop
  | .nil => True
  | .codec ops => SizedOps ops
  | .int _ v => i64 v
  | .uint _ v => u64 v
  | .bool _ => True
  | .f32 b => b < 2 ^ 32
  | .f64 b => b < 2 ^ 64
  | .str s => short s
  | .time _ => False
  | .bytes b => short b ∧ not255 b
  | .anys l => short l ∧ Sizeds l
  | .strs l => short l ∧ ∀ s ∈ l, short s
  | .times _ => False
  | .bools l => short l
  | .ints _ l => short l ∧ ∀ v ∈ l, i64 v
  | .uints _ l => short l ∧ ∀ v ∈ l, u64 v
  | .mapSS l => short l ∧ ∀ p ∈ l, short p.1 ∧ short p.2
  | .mapSA l => short l ∧ SizedS l
  | .mapIA _ l => short l ∧ SizedI l
  | .mapUA _ l => short l ∧ SizedU l
  | .mapAA l => short l ∧ SizedA l
  | .other => True

def Sizeds : List Any → Prop
  | [] => True
  | v :: l => Sized v ∧ Sizeds l

def SizedS : List (Bytes × Any) → Prop
  | [] => True
  | (k, v) :: l => short k ∧ Sized v ∧ SizedS l

def SizedI : List (Int × Any) → Prop
  | [] => True
  | (k, v) :: l => i64 k ∧ Sized v ∧ SizedI l

def SizedU : List (Nat × Any) → Prop
  | [] => True
  | (k, v) :: l => u64 k ∧ Sized v ∧ SizedU l

def SizedA : List (Any × Any) → Prop
  | [] => True
  | (k, v) :: l => Sized k ∧ Sized v ∧ SizedA l

def SizedOp : Op → Prop
  | .nil => True
  | .bool _ => True
  | .int v => i64 v
  | .uint v => u64 v
  | .f32 b => b < 2 ^ 32
  | .f64 b => b < 2 ^ 64
  | .str s => short s
  | .time t => i64 t.sec ∧ t.nsec < 10 ^ 9
  | .bytes b => short b ∧ not255 b
  | .arraySize n => n < 2 ^ 32
  | .mapSize n => n < 2 ^ 32
  | .any v => Sized v

def SizedOps : List Op → Prop
  | [] => True
  | o :: l => SizedOp o ∧ SizedOps l
end

mutual
/-- Go values that are plain data: no nil (see `any_nil_refuted`), codec, time or unsupported type
inside. -/
def Plain : Any → Prop
  | .nil => False
  | .codec _ => False
  | .time _ => False
  | .times _ => False
  | .other => False
  | .anys l => Plains l
  | .mapSA l => PlainS l
  | .mapIA _ l => PlainI l
  | .mapUA _ l => PlainU l
  | .mapAA l => PlainA l
  | _ => True

def Plains : List Any → Prop
  | [] => True
  | v :: l => Plain v ∧ Plains l

def PlainS : List (Bytes × Any) → Prop
  | [] => True
  | (_, v) :: l => Plain v ∧ PlainS l

def PlainI : List (Int × Any) → Prop
  | [] => True
  | (_, v) :: l => Plain v ∧ PlainI l

def PlainU : List (Nat × Any) → Prop
  | [] => True
  | (_, v) :: l => Plain v ∧ PlainU l

def PlainA : List (Any × Any) → Prop
  | [] => True
  | (k, v) :: l => Plain k ∧ Plain v ∧ PlainA l
end

/-- Values that a Go map can have as keys with the usual notion of equality. -/
def keyVal : Val → Prop
  | .nil => True
  | .bool _ => True
  | .int _ => True
  | .str _ => True
  | _ => False

mutual
/-- Values that Go's dynamic reader can represent: no extensions, map keys are scalars (not floats) and
pairwise distinct. -/
def Readable : Val → Prop
  | .ext _ _ => False
  | .arr l => Readables l
  | .map l => ReadableP l ∧ (l.map (·.1)).Nodup
  | _ => True

def Readables : List Val → Prop
  | [] => True
  | v :: l => Readable v ∧ Readables l

def ReadableP : List (Val × Val) → Prop
  | [] => True
  | (k, v) :: l => keyVal k ∧ Readable v ∧ ReadableP l
end

/-! ## Order of map entries -/

/-- `Reorder v v'`: the same value with the entries of maps, at any depth, visited in another order. -/
inductive Reorder : Any → Any → Prop
  | refl (v : Any) : Reorder v v
  | trans {u v w : Any} (h : Reorder u v) (h' : Reorder v w) : Reorder u w
  | mapSS {l l' : List (Bytes × Bytes)} (h : l.Perm l') : Reorder (.mapSS l) (.mapSS l')
  | mapSA {l l' : List (Bytes × Any)} (h : l.Perm l') : Reorder (.mapSA l) (.mapSA l')
  | mapIA {k : IntK} {l l' : List (Int × Any)} (h : l.Perm l') : Reorder (.mapIA k l) (.mapIA k l')
  | mapUA {k : UintK} {l l' : List (Nat × Any)} (h : l.Perm l') : Reorder (.mapUA k l) (.mapUA k l')
  | mapAA {l l' : List (Any × Any)} (h : l.Perm l') : Reorder (.mapAA l) (.mapAA l')
  | inAnys {a b : List Any} {v v' : Any} (h : Reorder v v') : Reorder (.anys (a ++ v :: b)) (.anys (a ++ v' :: b))
  | inSA {a b : List (Bytes × Any)} {k : Bytes} {v v' : Any} (h : Reorder v v') :
      Reorder (.mapSA (a ++ (k, v) :: b)) (.mapSA (a ++ (k, v') :: b))
  | inIA {i : IntK} {a b : List (Int × Any)} {k : Int} {v v' : Any} (h : Reorder v v') :
      Reorder (.mapIA i (a ++ (k, v) :: b)) (.mapIA i (a ++ (k, v') :: b))
  | inUA {i : UintK} {a b : List (Nat × Any)} {k : Nat} {v v' : Any} (h : Reorder v v') :
      Reorder (.mapUA i (a ++ (k, v) :: b)) (.mapUA i (a ++ (k, v') :: b))
  | inAA {a b : List (Any × Any)} {k v v' : Any} (h : Reorder v v') :
      Reorder (.mapAA (a ++ (k, v) :: b)) (.mapAA (a ++ (k, v') :: b))

/-! ## Integers on the wire -/

/-- The integer at the start of `bs`, if there is one, and the bytes after it. -/
def intAt : Bytes → Option (Int × Bytes)
  | [] => none
  | c :: r =>
    if c < 0x80 then some (c.toNat, r)
    else if 0xe0 ≤ c then some ((c.toNat : Int) - 256, r)
    else if 0xcc ≤ c ∧ c ≤ 0xcf then
      if r.length < 2 ^ (c - 0xcc).toNat then none
      else some (beNat (r.take (2 ^ (c - 0xcc).toNat)), r.drop (2 ^ (c - 0xcc).toNat))
    else if 0xd0 ≤ c ∧ c ≤ 0xd3 then
      if r.length < 2 ^ (c - 0xd0).toNat then none
      else
        some (if beNat (r.take (2 ^ (c - 0xd0).toNat)) < 256 ^ 2 ^ (c - 0xd0).toNat / 2
              then (beNat (r.take (2 ^ (c - 0xd0).toNat)) : Int)
              else beNat (r.take (2 ^ (c - 0xd0).toNat)) - 256 ^ 2 ^ (c - 0xd0).toNat,
          r.drop (2 ^ (c - 0xd0).toNat))
    else none

/-! ## Hostile input -/

/-- The decoder is inside its buffer, and the buffer leaves room in 32 bits for a read with a length of
at most 16 bits. -/
def InBuf (d : D) : Prop := d.off ≤ d.buf.length ∧ d.buf.length + 65536 ≤ 2 ^ 32

/-- No length that follows a 32-bit header anywhere in the buffer is so large that adding it to a position
overflows 32 bits. -/
def Tame (b : Bytes) : Prop :=
  ∀ (i : Nat) (c : UInt8), b[i]? = some c →
    (c = 0xdb ∨ c = 0xdd ∨ c = 0xc6 → beNat ((b.drop (i + 1)).take 4) + b.length < 2 ^ 32) ∧
    (c = 0xc9 → ∀ v r, intAt (b.drop (i + 1)) = some (v, r) → v + b.length < 2 ^ 32)

/-- First byte of a map. -/
def mapHdr (c : UInt8) : Prop := 0x80 ≤ c ∧ c ≤ 0x8f ∨ c = 0xde ∨ c = 0xdf

/-- First byte of a value that Go cannot use as a map key: array, map or byte string. -/
def sliceHdr (c : UInt8) : Prop := 0x80 ≤ c ∧ c ≤ 0x9f ∨ 0xc4 ≤ c ∧ c ≤ 0xc6 ∨ 0xdc ≤ c ∧ c ≤ 0xdf

/-- After the first byte of a map there is no byte that starts a value without hash. -/
def KeysTame (b : Bytes) : Prop :=
  ∀ (i j : Nat) (c e : UInt8), i < j → b[i]? = some c → b[j]? = some e → mapHdr c → ¬ sliceHdr e

/-- Widths of the integer readers. -/
inductive Width where
  | w8 | w16 | w32 | w64
  deriving DecidableEq, Repr

def Width.bytes : Width → Nat
  | .w8 => 1 | .w16 => 2 | .w32 => 4 | .w64 => 8

/-- The reading methods of `Decoder`. -/
inductive Call where
  | nextNil | bool | int (w : Width) | uint (w : Width) | f32 | f64 | str | bytes | time | arraySize
  | mapSize | any | skip
  | nilBool | nilInt (w : Width) | nilUint (w : Width) | nilF32 | nilF64 | nilStr | nilBytes | nilTime
  deriving DecidableEq, Repr

/-- Calls that read no length. -/
def Call.scalar : Call → Bool
  | .str | .bytes | .time | .any | .skip | .nilStr | .nilBytes | .nilTime => false
  | _ => true

/-- Calls that read one value without parts. -/
def Call.typed : Call → Bool
  | .any | .skip => false
  | _ => true

def rint : Width → Rd Int
  | .w64 => Dec.int64
  | w => Dec.intK w.bytes

def ruint : Width → Rd Nat
  | .w64 => Dec.uint64
  | w => Dec.uintK w.bytes

/-- A typed value as written by one writer method and read by one reader method. -/
inductive Item where
  | nil
  | bool (b : Bool)
  | int (w : Width) (v : Int)
  | uint (w : Width) (v : Nat)
  | f32 (bits : Nat)
  | f64 (bits : Nat)
  | str (s : Bytes)
  | bytes (b : Bytes)
  | time (t : Time)
  | arraySize (n : Nat)
  | mapSize (n : Nat)
  deriving DecidableEq, Repr

/-- The value is one of its type. -/
def Item.ok : Item → Prop
  | .nil => True
  | .bool _ => True
  | .int w v => -2 ^ (8 * w.bytes - 1) ≤ v ∧ v < 2 ^ (8 * w.bytes - 1)
  | .uint w v => v < 2 ^ (8 * w.bytes)
  | .f32 b => b < 2 ^ 32
  | .f64 b => b < 2 ^ 64
  | .str s => short s
  | .bytes b => short b
  | .time t => i64 t.sec ∧ t.nsec < 10 ^ 9
  | .arraySize n => n < 2 ^ 32
  | .mapSize n => n < 2 ^ 32

/-- The writer call. -/
def Item.op : Item → Op
  | .nil => .nil
  | .bool b => .bool b
  | .int _ v => .int v
  | .uint _ v => .uint v
  | .f32 b => .f32 b
  | .f64 b => .f64 b
  | .str s => .str s
  | .bytes b => .bytes b
  | .time t => .time t
  | .arraySize n => .arraySize n
  | .mapSize n => .mapSize n

/-- The reader call for an item of the same type; nil is read by `IsNextNil`. The result is the item
read. -/
def Item.read (lib : Lib) : Item → Rd (Option Item)
  | .nil => (fun b => if b then some .nil else none) <$> Dec.isNextNil
  | .bool _ => (fun b => some (.bool b)) <$> Dec.bool
  | .int w _ => (fun v => some (.int w v)) <$> rint w
  | .uint w _ => (fun v => some (.uint w v)) <$> ruint w
  | .f32 _ => (fun v => some (.f32 v)) <$> Dec.f32 lib
  | .f64 _ => (fun v => some (.f64 v)) <$> Dec.f64
  | .str _ => (fun v => some (.str v)) <$> Dec.str
  | .bytes _ => (fun v => some (.bytes v)) <$> Dec.bytes
  | .time _ => (fun v => some (.time v)) <$> Dec.time lib
  | .arraySize _ => (fun v => some (.arraySize v)) <$> Dec.arraySize
  | .mapSize _ => (fun v => some (.mapSize v)) <$> Dec.mapSize

/-- One reader call for each item, in order. -/
def readAll (lib : Lib) : List Item → Rd (List (Option Item))
  | [] => pure []
  | i :: l => do
    let x ← i.read lib
    let xs ← readAll lib l
    return x :: xs

/-- A reader of which only the error matters. -/
def drop {α : Type} (r : Rd α) : Dec.Run Unit := fun d => some (((fun _ => ()) <$> r) d)

/-- One call; `none` if it does not return within `fuel` steps. -/
def Call.exec (lib : Lib) (fuel : Nat) : Call → Dec.Run Unit
  | .nextNil => drop Dec.isNextNil
  | .bool => drop Dec.bool
  | .int w => drop (rint w)
  | .uint w => drop (ruint w)
  | .f32 => drop (Dec.f32 lib)
  | .f64 => drop Dec.f64
  | .str => drop Dec.str
  | .bytes => drop Dec.bytes
  | .time => drop (Dec.time lib)
  | .arraySize => drop Dec.arraySize
  | .mapSize => drop Dec.mapSize
  | .any => fun d => (Dec.any fuel d).map fun (r, d') =>
      (match r with | .ok _ => .ok () | .err e => .err e | .panic => .panic, d')
  | .skip => Dec.skip fuel
  | .nilBool => drop (Dec.nillable Dec.bool)
  | .nilInt w => drop (Dec.nillable (rint w))
  | .nilUint w => drop (Dec.nillable (ruint w))
  | .nilF32 => drop (Dec.nillable (Dec.f32 lib))
  | .nilF64 => drop (Dec.nillable Dec.f64)
  | .nilStr => drop (Dec.nillable Dec.str)
  | .nilBytes => drop (Dec.nillable Dec.bytes)
  | .nilTime => drop (Dec.nillable (Dec.time lib))

/-- The outcomes of a sequence of calls, errors ignored, and the final state. -/
def execAll (lib : Lib) (fuel : Nat) : List Call → D → Option (List (Res Unit) × D)
  | [], d => some ([], d)
  | c :: cs, d =>
    match c.exec lib fuel d with
    | none => none
    | some (r, d') => (execAll lib fuel cs d').map fun (rs, d'') => (r :: rs, d'')

end Iota.Spec.Msgpack
