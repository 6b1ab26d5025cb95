import Verif.Go.Basic

/-!
# MessagePack

Model of `/repo/go/msgpack`: `data_reader.go`, `encoder.go`, `sizer.go`, `decoder.go` and the entry points
of `codec.go`.

Simplifications: strings are their bytes; floats are their IEEE bits (moving bits through a Go float is
taken to preserve them); the conversion `float32(float64)` and `time.Parse` are parameters; a time is its
Unix second and nanosecond. A `Codec` value is the list of writer calls its `Encode` makes. A Go map is
the list of its entries in the order in which `range` visits them.
-/

namespace Iota.Msgpack
open Iota.Go

/-- 2^32, the modulus of `uint32`. -/
abbrev U32 : Nat := 4294967296

/-! ## DataReader -/

/-- `DataReader`. data_reader.go:11-15. `err` says whether `err != nil` (the only error is ErrRange). -/
structure D where
  buf : Bytes
  off : Nat
  err : Bool
  deriving DecidableEq, Repr

/-- `NewDataReader`. data_reader.go:17-21 -/
def D.new (b : Bytes) : D := { buf := b, off := 0, err := false }

/-- A reading method: result and new state. -/
def Rd (α : Type) := D → Res α × D

namespace Rd

def pure {α : Type} (a : α) : Rd α := fun d => (.ok a, d)

/-- `x, err := ...; if err != nil { return ..., err }` -/
def bind {α β : Type} (x : Rd α) (f : α → Rd β) : Rd β := fun d =>
  match x d with
  | (.ok a, d') => f a d'
  | (.err e, d') => (.err e, d')
  | (.panic, d') => (.panic, d')

/-- `return ..., ReadError{..}` -/
def fail {α : Type} (e : String) : Rd α := fun d => (.err e, d)

instance : Monad Rd where
  pure := Rd.pure
  bind := Rd.bind

end Rd

/-- The message of `ErrRange`. data_reader.go:9 -/
def rangeError : String := "range error"

/-- `checkBufferSize`. data_reader.go:239-249. All arithmetic is in `uint32`. -/
def check (n : Nat) : Rd Unit := fun d =>
  if d.err then (.err rangeError, d)
  else if (d.off + n) % U32 > d.buf.length % U32 then (.err rangeError, { d with err := true })
  else (.ok (), d)

/-- `d.buffer[d.byteOffset : d.byteOffset+n]` and `d.byteOffset += n`. data_reader.go:27-28 -/
def takeSlice (n : Nat) : Rd Bytes := fun d =>
  if d.off ≤ (d.off + n) % U32 ∧ (d.off + n) % U32 ≤ d.buf.length then
    (.ok ((d.buf.drop d.off).take ((d.off + n) % U32 - d.off)), { d with off := (d.off + n) % U32 })
  else (.panic, d)

/-- `GetBytes`. data_reader.go:23-30 -/
def getBytes (n : Nat) : Rd Bytes := do
  check n
  takeSlice n

/-- `binary.BigEndian.UintXX(d.buffer[d.byteOffset:])` of `k` bytes and `d.byteOffset += k`; for one byte
`d.buffer[d.byteOffset]`. data_reader.go:57-145 -/
def takeBE (k : Nat) : Rd Nat := fun d =>
  if d.off + k ≤ d.buf.length then
    (.ok (beNat ((d.buf.drop d.off).take k)), { d with off := (d.off + k) % U32 })
  else (.panic, d)

/-- `GetUint8`, `GetUint16`, `GetUint32`, `GetUint64` for `k` = 1, 2, 4, 8, and the bits of `GetFloat32`,
`GetFloat64`. data_reader.go:57-145 -/
def getU (k : Nat) : Rd Nat := do
  check k
  takeBE k

/-- Conversion of `k` bytes from unsigned to signed. -/
def toS (k : Nat) (n : Nat) : Int := if n < 2 ^ (8 * k - 1) then n else (n : Int) - 2 ^ (8 * k)

/-- Conversion of an integer to `k` bytes unsigned. -/
def toU (k : Nat) (v : Int) : Nat := (v % 2 ^ (8 * k)).toNat

/-- `GetInt8`, `GetInt16`, `GetInt32`, `GetInt64`. data_reader.go:75-109 -/
def getS (k : Nat) : Rd Int := do
  let n ← getU k
  return toS k n

/-- `d.buffer[d.byteOffset]`. data_reader.go:46 -/
def byteHere : Rd Nat := fun d =>
  match d.buf[d.off]? with
  | some b => (.ok b.toNat, d)
  | none => (.panic, d)

/-- `PeekUint8`. data_reader.go:42-47 -/
def peek : Rd Nat := do
  check 1
  byteHere

/-- `d.byteOffset += length`. data_reader.go:53 -/
def advance (n : Nat) : Rd Unit := fun d => (.ok (), { d with off := (d.off + n) % U32 })

/-- `Discard`. data_reader.go:49-55 -/
def discard (n : Nat) : Rd Unit := do
  check n
  advance n

/-- A call whose error is ignored: `d.reader.Discard(4)`. -/
def ignore (x : Rd Unit) : Rd Unit := fun d =>
  match x d with
  | (.panic, d') => (.panic, d')
  | (_, d') => (.ok (), d')

/-! ### Writing -/

/-- A writing method. All writers ignore the returned error; it stays in `err`. -/
def Wr := D → Res D

namespace Wr

def skip : Wr := fun d => .ok d

def seq (a b : Wr) : Wr := fun d => (a d).bind b

end Wr

/-- `PutUintXX(d.buffer[off:], v)` / `d.buffer[off] = v`, `d.byteOffset += k`. data_reader.go:147-237 -/
def setRaw (bs : Bytes) : Wr := fun d =>
  match check bs.length d with
  | (.ok _, d) =>
    if d.off + bs.length ≤ d.buf.length then
      .ok { d with buf := d.buf.take d.off ++ bs ++ d.buf.drop (d.off + bs.length),
                   off := (d.off + bs.length) % U32 }
    else .panic
  | (_, d) => .ok d

/-- `SetUint8`, ..., `SetUint64` for `k` = 1, 2, 4, 8. data_reader.go:203-237 -/
def setU (k : Nat) (v : Nat) : Wr := setRaw (beBytes k v)

/-- `SetInt8`, ..., `SetInt64`. data_reader.go:167-201 -/
def setS (k : Nat) (v : Int) : Wr := setRaw (beBytes k (toU k v))

/-- `SetBytes`: `copy` writes as much as fits. data_reader.go:32-40 -/
def setBytes (bs : Bytes) : Wr := fun d =>
  match check (bs.length % U32) d with
  | (.ok _, d) =>
    if d.off ≤ d.buf.length then
      .ok { d with buf := (d.buf.take d.off ++ bs ++ d.buf.drop (d.off + bs.length)).take d.buf.length,
                   off := (d.off + bs.length % U32) % U32 }
    else .panic
  | (_, d) => .ok d

/-! ## Values -/

inductive IntK where
  | int | i8 | i16 | i32 | i64
  deriving DecidableEq, Repr

inductive UintK where
  | uint | u8 | u16 | u32 | u64
  deriving DecidableEq, Repr

/-- `time.Time`: Unix seconds and nanoseconds. -/
structure Time where
  sec : Int
  nsec : Nat
  deriving DecidableEq, Repr

mutual
/-- Dynamic values (`any`), one constructor per family of cases of `WriteAny`. encoder.go:314-519,
sizer.go:278-491. `other` stands for every type without a case. `uints .u8` does not occur, `[]uint8` is
`[]byte`. -/
inductive Any where
  | nil
  | codec (ops : List Op)
  | int (k : IntK) (v : Int)
  | uint (k : UintK) (v : Nat)
  | bool (b : Bool)
  | f32 (bits : Nat)
  | f64 (bits : Nat)
  | str (s : Bytes)
  | time (t : Time)
  | bytes (b : Bytes)
  | anys (l : List Any)
  | strs (l : List Bytes)
  | times (l : List Time)
  | bools (l : List Bool)
  | ints (k : IntK) (l : List Int)
  | uints (k : UintK) (l : List Nat)
  | mapSS (l : List (Bytes × Bytes))
  | mapSA (l : List (Bytes × Any))
  | mapIA (k : IntK) (l : List (Int × Any))
  | mapUA (k : UintK) (l : List (Nat × Any))
  | mapAA (l : List (Any × Any))
  | other

/-- The methods of `Writer`. interfaces.go:46-80. `WriteInt8/16/32` all call `WriteInt64`
(encoder.go:39-72) and `WriteUint8/16/32` call `WriteUint64` (encoder.go:103-136), so `int` and `uint`
stand for all of them; a `WriteNillableX` is `nil` or the plain call. -/
inductive Op where
  | nil
  | bool (b : Bool)
  | int (v : Int)
  | uint (v : Nat)
  | f32 (bits : Nat)
  | f64 (bits : Nat)
  | str (s : Bytes)
  | time (t : Time)
  | bytes (b : Bytes)
  | arraySize (n : Nat)
  | mapSize (n : Nat)
  | any (v : Any)
end

instance : Inhabited Any := ⟨.nil⟩
instance : Inhabited Op := ⟨.nil⟩

/-! ## Encoder -/

namespace Enc

/-- `WriteNil`. encoder.go:19-21 -/
def nil : Wr := setU 1 0xc0

/-- `WriteBool`. encoder.go:23-29 -/
def bool (b : Bool) : Wr := if b then setU 1 0xc3 else setU 1 0xc2

/-- `WriteInt64`. encoder.go:75-93 -/
def int (v : Int) : Wr :=
  if v ≥ 0 ∧ v < 128 then setU 1 (toU 1 v)
  else if v < 0 ∧ v ≥ -32 then setU 1 (toU 1 v ||| 0xe0)
  else if v ≤ 127 ∧ v ≥ -128 then (setU 1 0xd0).seq (setS 1 v)
  else if v ≤ 32767 ∧ v ≥ -32768 then (setU 1 0xd1).seq (setS 2 v)
  else if v ≤ 2147483647 ∧ v ≥ -2147483648 then (setU 1 0xd2).seq (setS 4 v)
  else (setU 1 0xd3).seq (setS 8 v)

/-- `WriteUint64`. encoder.go:139-155 -/
def uint (v : Nat) : Wr :=
  if v < 128 then setU 1 v
  else if v ≤ 255 then (setU 1 0xcc).seq (setU 1 v)
  else if v ≤ 65535 then (setU 1 0xcd).seq (setU 2 v)
  else if v ≤ 4294967295 then (setU 1 0xce).seq (setU 4 v)
  else (setU 1 0xcf).seq (setU 8 v)

/-- `WriteFloat32`. encoder.go:165-168 -/
def f32 (bits : Nat) : Wr := (setU 1 0xca).seq (setU 4 bits)

/-- `WriteFloat64`. encoder.go:178-181 -/
def f64 (bits : Nat) : Wr := (setU 1 0xcb).seq (setU 8 bits)

/-- `writeStringLength`. encoder.go:191-204 -/
def strLen (n : Nat) : Wr :=
  if n < 32 then setU 1 (n ||| 0xa0)
  else if n ≤ 255 then (setU 1 0xd9).seq (setU 1 n)
  else if n ≤ 65535 then (setU 1 0xda).seq (setU 2 n)
  else (setU 1 0xdb).seq (setU 4 n)

/-- `WriteString`. encoder.go:206-210 -/
def str (s : Bytes) : Wr := (strLen (s.length % U32)).seq (setBytes s)

/-- `writeBinLength`. encoder.go:258-269 -/
def binLen (n : Nat) : Wr :=
  if n ≤ 255 then (setU 1 0xc4).seq (setU 1 n)
  else if n ≤ 65535 then (setU 1 0xc5).seq (setU 2 n)
  else (setU 1 0xc6).seq (setU 4 n)

/-- `WriteByteArray`. encoder.go:271-280 -/
def bytes (b : Bytes) : Wr :=
  if b.length % U32 = 0 then (setU 1 0xc4).seq (setU 1 0)
  else (binLen (b.length % U32)).seq (setBytes b)

/-- `WriteArraySize`. encoder.go:290-300 -/
def arraySize (n : Nat) : Wr :=
  if n < 16 then setU 1 (n ||| 0x90)
  else if n ≤ 65535 then (setU 1 0xdc).seq (setU 2 n)
  else (setU 1 0xdd).seq (setU 4 n)

/-- `WriteMapSize`. encoder.go:302-312 -/
def mapSize (n : Nat) : Wr :=
  if n < 16 then setU 1 (n ||| 0x80)
  else if n ≤ 65535 then (setU 1 0xde).seq (setU 2 n)
  else (setU 1 0xdf).seq (setU 4 n)

/-- `encodeTime`. encoder.go:236-256. `nsec << 34 | secs` is a sum as `secs < 2^34`; both are `uint64`. -/
def timeBytes (t : Time) : Bytes :=
  if toU 8 t.sec / 2 ^ 34 = 0 then
    if (t.nsec * 2 ^ 34 % 2 ^ 64 + toU 8 t.sec) / 2 ^ 32 = 0 then
      beBytes 4 (t.nsec * 2 ^ 34 % 2 ^ 64 + toU 8 t.sec)
    else beBytes 8 (t.nsec * 2 ^ 34 % 2 ^ 64 + toU 8 t.sec)
  else beBytes 4 t.nsec ++ beBytes 8 (toU 8 t.sec)

/-- `encodeExtLen`. encoder.go:521-541 -/
def extLen (n : Nat) : Wr :=
  if n = 1 then setU 1 0xd4
  else if n = 2 then setU 1 0xd5
  else if n = 4 then setU 1 0xd6
  else if n = 8 then setU 1 0xd7
  else if n = 16 then setU 1 0xd8
  else if n ≤ 255 then setBytes (0xc7 :: beBytes 1 n)
  else if n ≤ 65535 then setBytes (0xc8 :: beBytes 2 n)
  else setBytes (0xc9 :: beBytes 4 n)

/-- `WriteTime`. encoder.go:220-226 -/
def time (t : Time) : Wr :=
  (extLen (timeBytes t).length).seq ((setS 1 (-1)).seq (setBytes (timeBytes t)))

/-- `for _, v := range l { write(v) }` -/
def each {α : Type} (f : α → Wr) : List α → Wr
  | [] => Wr.skip
  | a :: l => (f a).seq (each f l)

mutual
/-- `WriteAny`. encoder.go:314-519. The test at 315-317 writes a nil and falls through to the switch. -/
def any : Any → Wr
  | .nil => nil.seq nil
  | .codec ops => Enc.ops ops
  | .int _ v => int v
  | .uint _ v => uint v
  | .bool b => bool b
  | .f32 b => f32 b
  | .f64 b => f64 b
  | .str s => str s
  | .time _ => Wr.skip
  | .bytes b => bytes b
  | .anys l => (arraySize (l.length % U32)).seq (anys l)
  | .strs l => (arraySize (l.length % U32)).seq (each str l)
  | .times _ => Wr.skip
  | .bools l => (arraySize (l.length % U32)).seq (each bool l)
  | .ints _ l => (arraySize (l.length % U32)).seq (each int l)
  | .uints _ l => (arraySize (l.length % U32)).seq (each uint l)
  | .mapSS l => (mapSize (l.length % U32)).seq (each (fun p => (str p.1).seq (str p.2)) l)
  | .mapSA l => (mapSize (l.length % U32)).seq (pairsS l)
  | .mapIA _ l => (mapSize (l.length % U32)).seq (pairsI l)
  | .mapUA _ l => (mapSize (l.length % U32)).seq (pairsU l)
  | .mapAA l => (mapSize (l.length % U32)).seq (pairsA l)
  | .other => Wr.skip

/-- The loop of encoder.go:356-358. -/
def anys : List Any → Wr
  | [] => Wr.skip
  | v :: l => (any v).seq (anys l)

/-- The loop of encoder.go:437-440. -/
def pairsS : List (Bytes × Any) → Wr
  | [] => Wr.skip
  | (k, v) :: l => (str k).seq ((any v).seq (pairsS l))

/-- The loops of encoder.go:444-475. -/
def pairsI : List (Int × Any) → Wr
  | [] => Wr.skip
  | (k, v) :: l => (int k).seq ((any v).seq (pairsI l))

/-- The loops of encoder.go:479-510. -/
def pairsU : List (Nat × Any) → Wr
  | [] => Wr.skip
  | (k, v) :: l => (uint k).seq ((any v).seq (pairsU l))

/-- The loop of encoder.go:514-517. -/
def pairsA : List (Any × Any) → Wr
  | [] => Wr.skip
  | (k, v) :: l => (any k).seq ((any v).seq (pairsA l))

/-- One call of a writer method. -/
def op : Op → Wr
  | .nil => nil
  | .bool b => bool b
  | .int v => int v
  | .uint v => uint v
  | .f32 b => f32 b
  | .f64 b => f64 b
  | .str s => str s
  | .time t => time t
  | .bytes b => bytes b
  | .arraySize n => arraySize n
  | .mapSize n => mapSize n
  | .any v => any v

/-- `Encode` of a codec: its calls one after the other. -/
def ops : List Op → Wr
  | [] => Wr.skip
  | o :: l => (op o).seq (ops l)
end

end Enc

/-! ## Sizer

The sizer only counts; `length` is a `uint32`. Every function gives the amount it adds. -/

namespace Size

/-- `WriteNil`. sizer.go:20-22 -/
def nil : Nat := 1

/-- `WriteBool`. sizer.go:95-97 -/
def bool (_ : Bool) : Nat := 1

/-- `writeStringLength`. sizer.go:39-49 -/
def strLen (n : Nat) : Nat :=
  if n < 32 then 1 else if n ≤ 255 then 2 else if n ≤ 65535 then 3 else 5

/-- `WriteString`. sizer.go:24-29 -/
def str (s : Bytes) : Nat := strLen (s.length % U32) + s.length % U32

/-- `encodeTime`. sizer.go:57-70 -/
def timeLen (t : Time) : Nat :=
  if toU 8 t.sec / 2 ^ 34 = 0 then
    if (t.nsec * 2 ^ 34 % 2 ^ 64 + toU 8 t.sec) / 2 ^ 32 = 0 then 4 else 8
  else 12

/-- `encodeExtLen`. sizer.go:72-85 -/
def extLen (l : Nat) : Nat :=
  if l = 1 ∨ l = 2 ∨ l = 4 ∨ l = 8 ∨ l = 16 then 1
  else if l ≤ 255 then 2 else if l ≤ 65535 then 3 else 5

/-- `WriteTime`. sizer.go:51-55 -/
def time (t : Time) : Nat := extLen (timeLen t) + (1 + timeLen t)

/-- `WriteArraySize`. sizer.go:107-115 -/
def arraySize (n : Nat) : Nat := if n < 16 then 1 else if n ≤ 65535 then 3 else 5

/-- `writeBinLength`. sizer.go:117-125 -/
def binLen (n : Nat) : Nat := if n < 255 then 1 else if n ≤ 65535 then 2 else 4

/-- `WriteByteArray`. sizer.go:127-135 -/
def bytes (b : Bytes) : Nat :=
  if b.length % U32 = 0 then 2 else binLen (b.length % U32) + (b.length % U32 + 1)

/-- `WriteMapSize`. sizer.go:145-153 -/
def mapSize (n : Nat) : Nat := if n < 16 then 1 else if n ≤ 65535 then 3 else 5

/-- `WriteInt64`. sizer.go:185-197 -/
def int (v : Int) : Nat :=
  if v ≥ -32 ∧ v < 128 then 1
  else if v < 128 ∧ v ≥ -128 then 2
  else if v < 32768 ∧ v ≥ -32768 then 3
  else if v < 2147483648 ∧ v ≥ -2147483648 then 5
  else 9

/-- `WriteUint64`. sizer.go:236-248 -/
def uint (v : Nat) : Nat :=
  if v < 128 then 1
  else if v < 256 then 2
  else if v < 65536 then 3
  else if v < 4294967296 then 5
  else 9

/-- `WriteFloat32`. sizer.go:257-259 -/
def f32 (_ : Nat) : Nat := 5

/-- `WriteFloat64`. sizer.go:267-269 -/
def f64 (_ : Nat) : Nat := 9

def each {α : Type} (f : α → Nat) : List α → Nat
  | [] => 0
  | a :: l => f a + each f l

mutual
/-- `WriteAny`. sizer.go:278-491 -/
def any : Any → Nat
  | .nil => nil + nil
  | .codec ops => Size.ops ops
  | .int _ v => int v
  | .uint _ v => uint v
  | .bool b => bool b
  | .f32 b => f32 b
  | .f64 b => f64 b
  | .str s => str s
  | .time t => time t
  | .bytes b => bytes b
  | .anys l => arraySize (l.length % U32) + anys l
  | .strs l => arraySize (l.length % U32) + each str l
  | .times l => arraySize (l.length % U32) + each time l
  | .bools l => arraySize (l.length % U32) + each bool l
  | .ints _ l => arraySize (l.length % U32) + each int l
  | .uints _ l => arraySize (l.length % U32) + each uint l
  | .mapSS l => mapSize (l.length % U32) + each (fun p => str p.1 + str p.2) l
  | .mapSA l => mapSize (l.length % U32) + pairsS l
  | .mapIA _ l => mapSize (l.length % U32) + pairsI l
  | .mapUA _ l => mapSize (l.length % U32) + pairsU l
  | .mapAA l => mapSize (l.length % U32) + pairsA l
  | .other => 0

/-- sizer.go:322-324 -/
def anys : List Any → Nat
  | [] => 0
  | v :: l => any v + anys l

/-- sizer.go:409-412 -/
def pairsS : List (Bytes × Any) → Nat
  | [] => 0
  | (k, v) :: l => str k + (any v + pairsS l)

/-- sizer.go:416-447 -/
def pairsI : List (Int × Any) → Nat
  | [] => 0
  | (k, v) :: l => int k + (any v + pairsI l)

/-- sizer.go:451-482 -/
def pairsU : List (Nat × Any) → Nat
  | [] => 0
  | (k, v) :: l => uint k + (any v + pairsU l)

/-- sizer.go:486-489 -/
def pairsA : List (Any × Any) → Nat
  | [] => 0
  | (k, v) :: l => any k + (any v + pairsA l)

/-- One call of a writer method. -/
def op : Op → Nat
  | .nil => nil
  | .bool b => bool b
  | .int v => int v
  | .uint v => uint v
  | .f32 b => f32 b
  | .f64 b => f64 b
  | .str s => str s
  | .time t => time t
  | .bytes b => bytes b
  | .arraySize n => arraySize n
  | .mapSize n => mapSize n
  | .any v => any v

def ops : List Op → Nat
  | [] => 0
  | o :: l => op o + ops l
end

end Size

/-! ## Entry points -/

/-- A new zeroed buffer and an encoder on it. -/
def withBuffer (size : Nat) (w : Wr) : Res D := w (D.new (List.replicate (size % U32) 0))

/-- `ToBytes` (codec.go:11-22) for a codec whose `Encode` makes the calls `ops` and returns nil, and
`I8ToBytes` .. `BytesToBytes` (codec.go:40-168), which make one call. Errors of the encoder are not
looked at. -/
def toBytes (ops : List Op) : Res Bytes :=
  match withBuffer (Size.ops ops) (Enc.ops ops) with
  | .ok d => .ok d.buf
  | .err e => .err e
  | .panic => .panic

/-- `AnyToBytes`. codec.go:25-38. `range` visits the entries of maps in an order of its own each time:
`v` is what the sizer sees, `v'` what the encoder sees. -/
def anyToBytes (v v' : Any) : Res Bytes :=
  match withBuffer (Size.any v) (Enc.any v') with
  | .ok d => if d.err then .err rangeError else .ok d.buf
  | .err e => .err e
  | .panic => .panic

/-! ## Decoder -/

/-- `isFixedInt`. decoder.go:931-933 -/
def isFixedInt (u : Nat) : Bool := u / 128 = 0
/-- `isNegativeFixedInt`. decoder.go:936-938 -/
def isNegativeFixedInt (u : Nat) : Bool := u / 32 * 32 = 0xe0
/-- `isFixedMap`. decoder.go:941-943 -/
def isFixedMap (u : Nat) : Bool := u / 16 * 16 = 0x80
/-- `isFixedArray`. decoder.go:946-948 -/
def isFixedArray (u : Nat) : Bool := u / 16 * 16 = 0x90
/-- `isFixedString`. decoder.go:951-953 -/
def isFixedString (u : Nat) : Bool := u / 32 * 32 = 0xa0
/-- `isString`. decoder.go:955-963 -/
def isString (u : Nat) : Bool :=
  isFixedString u || u = 0xd9 || u = 0xda || u = 0xdb || isFixedArray u || u = 0xdc || u = 0xdd

/-- The parts of the standard library that are not modelled here (`GoTime.parse` is `time.Parse`). -/
structure Lib where
  /-- `float32(v)` on bits -/
  narrow : Nat → Nat
  /-- `time.Parse(time.RFC3339Nano, s)` -/
  parseTime : Bytes → Option Time

namespace Dec

/-- `IsNextNil`. decoder.go:20-30 -/
def isNextNil : Rd Bool := do
  let p ← peek
  if p = 0xc0 then do
    ignore (discard 1)
    return true
  else return false

/-- `ReadNillableX` around `ReadX`. decoder.go:45-55 and alike -/
def nillable {α : Type} (r : Rd α) : Rd (Option α) := do
  let n ← isNextNil
  if n then return none
  else do
    let v ← r
    return some v

/-- `ReadBool`. decoder.go:32-43 -/
def bool : Rd Bool := do
  let p ← getU 1
  if p = 0xc3 then return true
  else if p = 0xc2 then return false
  else Rd.fail "bad value for bool"

/-- `ReadInt64`. decoder.go:138-163 -/
def int64 : Rd Int := do
  let p ← getU 1
  if isFixedInt p || isNegativeFixedInt p then return toS 1 p
  else if p = 0xd0 then getS 1
  else if p = 0xd1 then getS 2
  else if p = 0xd2 then getS 4
  else if p = 0xd3 then getS 8
  else Rd.fail "bad prefix for int64"

/-- `ReadInt8`, `ReadInt16`, `ReadInt32` for `k` = 1, 2, 4. decoder.go:57-124 -/
def intK (k : Nat) : Rd Int := do
  let v ← int64
  if v ≤ 2 ^ (8 * k - 1) - 1 ∧ v ≥ -2 ^ (8 * k - 1) then return v
  else Rd.fail "interger overflow"

/-- The signed cases of `ReadUint64`. decoder.go:285-308 -/
def nonNeg (k : Nat) : Rd Nat := do
  let v ← getS k
  if v < 0 then Rd.fail "bad prefix for uint"
  else return v.toNat

/-- `ReadUint64`. decoder.go:258-313 -/
def uint64 : Rd Nat := do
  let p ← getU 1
  if isFixedInt p then return p
  else if isNegativeFixedInt p then
    if toS 1 p < 0 then Rd.fail "bad prefix for uint" else return (toS 1 p).toNat
  else if p = 0xcc then getU 1
  else if p = 0xcd then getU 2
  else if p = 0xce then getU 4
  else if p = 0xcf then getU 8
  else if p = 0xd0 then nonNeg 1
  else if p = 0xd1 then nonNeg 2
  else if p = 0xd2 then nonNeg 4
  else if p = 0xd3 then nonNeg 8
  else Rd.fail "bad prefix for uint"

/-- `ReadUint8`, `ReadUint16`, `ReadUint32` for `k` = 1, 2, 4. decoder.go:177-244 -/
def uintK (k : Nat) : Rd Nat := do
  let v ← uint64
  if v ≤ 2 ^ (8 * k) - 1 then return v
  else Rd.fail "interger overflow"

/-- `ReadFloat32`. decoder.go:327-340 -/
def f32 (lib : Lib) : Rd Nat := do
  let p ← getU 1
  if p = 0xca then getU 4
  else if p = 0xcb then do
    let v ← getU 8
    return lib.narrow v
  else Rd.fail "bad prefix for float32"

/-- `ReadFloat64`. decoder.go:354-364 -/
def f64 : Rd Nat := do
  let p ← getU 1
  if p = 0xcb then getU 8
  else Rd.fail "bad prefix for float64"

/-- `readStringLength`. decoder.go:469-494 -/
def strLen : Rd Nat := do
  let p ← getU 1
  if isFixedString p then return p % 32
  else if isFixedArray p then return p % 16
  else if p = 0xd9 then getU 1
  else if p = 0xda ∨ p = 0xdc then getU 2
  else if p = 0xdb ∨ p = 0xdd then getU 4
  else Rd.fail "bad prefix for string length"

/-- `ReadString`. decoder.go:452-455, 496-505 -/
def str : Rd Bytes := do
  let n ← strLen
  getBytes n

/-- `readBinLength`. decoder.go:527-550 -/
def binLen : Rd Nat := do
  let p ← getU 1
  if isFixedArray p then return p % 16
  else if p = 0xc0 then return 0
  else if p = 0xc4 then getU 1
  else if p = 0xc5 then getU 2
  else if p = 0xc6 then getU 4
  else Rd.fail "bad prefix for binary length"

/-- `ReadByteArray`. decoder.go:507-517 -/
def bytes : Rd Bytes := do
  let n ← binLen
  getBytes n

/-- `ReadArraySize`. decoder.go:552-570 -/
def arraySize : Rd Nat := do
  let p ← getU 1
  if isFixedArray p then return p % 16
  else if p = 0xdc then getU 2
  else if p = 0xdd then getU 4
  else if p = 0xc0 then return 0
  else Rd.fail "bad prefix for array length"

/-- `ReadMapSize`. decoder.go:572-590 -/
def mapSize : Rd Nat := do
  let p ← getU 1
  if isFixedMap p then return p % 16
  else if p = 0xde then getU 2
  else if p = 0xdf then getU 4
  else if p = 0xc0 then return 0
  else Rd.fail "bad prefix for map length"

/-- `parseExtLen`. decoder.go:876-900 -/
def extLen (c : Nat) : Rd Nat :=
  if c = 0xd4 then return 1
  else if c = 0xd5 then return 2
  else if c = 0xd6 then return 4
  else if c = 0xd7 then return 8
  else if c = 0xd8 then return 16
  else if c = 0xc7 then uintK 1
  else if c = 0xc8 then uintK 2
  else if c = 0xc9 then uintK 4
  else Rd.fail "msgpack: invalid code decoding ext len"

/-- `time.Unix(sec, nsec)` for `0 ≤ nsec`: whole seconds in `nsec` are moved over, in `int64`. -/
def unix (sec : Int) (nsec : Nat) : Time :=
  { sec := toS 8 (toU 8 (sec + (nsec / 1000000000 : Nat))), nsec := nsec % 1000000000 }

/-- `decodeTime`. decoder.go:428-450 -/
def decodeTime (n : Nat) : Rd Time := do
  let b ← getBytes n
  if b.length = 4 then return unix (beNat b) 0
  else if b.length = 8 then return unix (beNat b % 2 ^ 34 : Nat) (beNat b / 2 ^ 34)
  else if b.length = 12 then return unix (toS 8 (beNat (b.drop 4))) (beNat (b.take 4))
  else Rd.fail "msgpack: invalid time ext len"

/-- The part of `ReadTime` after the peek, for a timestamp extension. decoder.go:391-413; `extHeader` is
854-866. `UTC()` changes only the location, which is not modelled. -/
def timeExt (p : Nat) : Rd Time := do
  ignore (discard 1)
  let n ← extLen p
  let id ← getU 1
  if toS 1 id ≠ -1 ∧ toS 1 id ≠ 13 then Rd.fail "msgpack: invalid time ext id"
  else decodeTime n

/-- `ReadTime`. decoder.go:378-414 -/
def time (lib : Lib) : Rd Time := do
  let p ← peek
  if isString p then do
    let s ← str
    match lib.parseTime s with
    | some t => return t
    | none => Rd.fail "parsing time"
  else timeExt p

/-- `getSize`: the number of objects that remain to be skipped. decoder.go:608-706 -/
def getSize : Rd Nat := do
  let p ← getU 1
  if isNegativeFixedInt p || isFixedInt p then return 0
  else if isFixedString p then do
    ignore (discard (p % 32))
    return 0
  else if isFixedArray p then return p % 16
  else if isFixedMap p then return 2 * (p % 16)
  else if p = 0xc0 ∨ p = 0xc3 ∨ p = 0xc2 then return 0
  else if p = 0xd9 ∨ p = 0xc4 then do
    let n ← getU 1
    discard n
    return 0
  else if p = 0xda ∨ p = 0xc5 then do
    let n ← getU 2
    discard n
    return 0
  else if p = 0xdb ∨ p = 0xc6 then do
    let n ← getU 4
    discard n
    return 0
  else if p = 0xca then do
    ignore (discard 4)
    return 0
  else if p = 0xcb then do
    ignore (discard 8)
    return 0
  else if p = 0xcc ∨ p = 0xd0 then do
    ignore (discard 1)
    return 0
  else if p = 0xcd ∨ p = 0xd1 then do
    ignore (discard 2)
    return 0
  else if p = 0xce ∨ p = 0xd2 then do
    ignore (discard 4)
    return 0
  else if p = 0xcf ∨ p = 0xd3 then do
    ignore (discard 8)
    return 0
  else if p = 0xd4 then do
    ignore (discard 1)
    return 0
  else if p = 0xd5 then do
    ignore (discard 3)
    return 0
  else if p = 0xd6 then do
    ignore (discard 5)
    return 0
  else if p = 0xd7 then do
    ignore (discard 9)
    return 0
  else if p = 0xd8 then do
    ignore (discard 17)
    return 0
  else if p = 0xdc then getU 2
  else if p = 0xdd then getU 4
  else if p = 0xde then do
    let n ← getU 2
    return 2 * n
  else if p = 0xdf then do
    let n ← getU 4
    return 2 * n % U32
  else Rd.fail "bad prefix"

/-- A method that may call itself without bound: `none` means that it has not returned within the given
number of nested and repeated calls. -/
def Run (α : Type) := D → Option (Res α × D)

mutual
/-- `Skip`. decoder.go:592-606 -/
def skip : Nat → Run Unit
  | 0, _ => none
  | fuel + 1, d =>
    match getSize d with
    | (.ok n, d') => skipN fuel n d'
    | (.err e, d') => some (.err e, d')
    | (.panic, d') => some (.panic, d')

/-- The loop of `Skip`. decoder.go:598-604 -/
def skipN : Nat → Nat → Run Unit
  | 0, _, _ => none
  | _ + 1, 0, d => some (.ok (), d)
  | fuel + 1, n + 1, d =>
    match skip fuel d with
    | some (.ok _, d') => skipN fuel n d'
    | r => r
end

/-- NaN test on the bits of a float with `m` mantissa bits and `e` exponent bits. -/
def isNaN (m e : Nat) (b : Nat) : Bool := b / 2 ^ m % 2 ^ e = 2 ^ e - 1 ∧ b % 2 ^ m ≠ 0

/-- `==` on floats, on the bits. -/
def floatEq (m e : Nat) (a b : Nat) : Bool :=
  !isNaN m e a && !isNaN m e b && (a = b || (a % 2 ^ (m + e) = 0 && b % 2 ^ (m + e) = 0))

/-- `==` on the keys of a `map[any]any` that `ReadAny` can produce: same dynamic type and equal values. -/
def keyEq : Any → Any → Bool
  | .nil, .nil => true
  | .bool a, .bool b => a = b
  | .int k a, .int k' b => k = k' && a = b
  | .uint k a, .uint k' b => k = k' && a = b
  | .f32 a, .f32 b => floatEq 23 8 a b
  | .f64 a, .f64 b => floatEq 52 11 a b
  | .str a, .str b => a = b
  | _, _ => false

/-- Values that cannot be map keys: hashing a slice or a map panics. -/
def unhashable : Any → Bool
  | .bytes _ => true
  | .anys _ => true
  | .mapAA _ => true
  | _ => false

/-- `m[key] = value` -/
def mapSet (m : List (Any × Any)) (k v : Any) : List (Any × Any) :=
  match m with
  | [] => [(k, v)]
  | (k', v') :: r => if keyEq k' k then (k', v) :: r else (k', v') :: mapSet r k v

/-- What `ReadAny` does after the header of a value: return it, or read `n` elements or entries. -/
inductive Step where
  | val (v : Any)
  | arr (n : Nat)
  | map (n : Nat)

/-- A value without parts. -/
def leaf {α : Type} (f : α → Any) (r : Rd α) : Rd Step := do
  let a ← r
  return .val (f a)

/-- An array header. -/
def arrN (r : Rd Nat) : Rd Step := do
  let n ← r
  return .arr n

/-- A map header. -/
def mapN (r : Rd Nat) : Rd Step := do
  let n ← r
  return .map n

/-- `ReadAny` up to the calls of `readArray` and `readMap`. decoder.go:708-826. On an error the Go code
returns a value beside the error; it is left out. So is the memory that `make` reserves for the declared
number of elements. -/
def anyHead : Rd Step := do
  let p ← getU 1
  if isFixedInt p || isNegativeFixedInt p then return .val (.int .i64 (toS 1 p))
  else if isFixedString p then leaf .str (getBytes (p % 32))
  else if isFixedArray p then return .arr (p % 16)
  else if isFixedMap p then return .map (p % 16)
  else if p = 0xc0 then return .val .nil
  else if p = 0xc3 then return .val (.bool true)
  else if p = 0xc2 then return .val (.bool false)
  else if p = 0xd0 then leaf (.int .i8) (getS 1)
  else if p = 0xd1 then leaf (.int .i16) (getS 2)
  else if p = 0xd2 then leaf (.int .i32) (getS 4)
  else if p = 0xd3 then leaf (.int .i64) (getS 8)
  else if p = 0xcc then leaf (.uint .u8) (getU 1)
  else if p = 0xcd then leaf (.uint .u16) (getU 2)
  else if p = 0xce then leaf (.uint .u32) (getU 4)
  else if p = 0xcf then leaf (.uint .u64) (getU 8)
  else if p = 0xca then leaf .f32 (getU 4)
  else if p = 0xcb then leaf .f64 (getU 8)
  else if p = 0xd9 then leaf .str (getU 1 >>= getBytes)
  else if p = 0xda then leaf .str (getU 2 >>= getBytes)
  else if p = 0xdb then leaf .str (getU 4 >>= getBytes)
  else if p = 0xdc then arrN (getU 2)
  else if p = 0xdd then arrN (getU 4)
  else if p = 0xde then mapN (getU 2)
  else if p = 0xdf then mapN (getU 4)
  else if p = 0xc4 then leaf .bytes (getU 1 >>= getBytes)
  else if p = 0xc5 then leaf .bytes (getU 2 >>= getBytes)
  else if p = 0xc6 then leaf .bytes (getU 4 >>= getBytes)
  else Rd.fail "bad value for bool"

mutual
/-- `ReadAny`. decoder.go:708-826 -/
def any : Nat → Run Any
  | 0, _ => none
  | fuel + 1, d =>
    match anyHead d with
    | (.ok (.val v), d') => some (.ok v, d')
    | (.ok (.arr n), d') => array fuel n [] d'
    | (.ok (.map n), d') => map fuel n [] d'
    | (.err e, d') => some (.err e, d')
    | (.panic, d') => some (.panic, d')

/-- `readArray`. decoder.go:828-837; `acc` is the part of the array filled so far, last first. -/
def array : Nat → Nat → List Any → Run Any
  | 0, _, _, _ => none
  | _ + 1, 0, acc, d => some (.ok (.anys acc.reverse), d)
  | fuel + 1, n + 1, acc, d =>
    match any fuel d with
    | some (.ok v, d') => array fuel n (v :: acc) d'
    | r => r

/-- `readMap`. decoder.go:839-852 -/
def map : Nat → Nat → List (Any × Any) → Run Any
  | 0, _, _, _ => none
  | _ + 1, 0, m, d => some (.ok (.mapAA m), d)
  | fuel + 1, n + 1, m, d =>
    match any fuel d with
    | some (.ok k, d1) =>
      match any fuel d1 with
      | some (.ok v, d2) => if unhashable k then some (.panic, d2) else map fuel n (mapSet m k v) d2
      | r => r
    | r => r
end

end Dec

end Iota.Msgpack
