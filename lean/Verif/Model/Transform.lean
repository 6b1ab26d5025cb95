import Verif.Model.Msgpack
import Verif.Model.Registry

/-!
# Transforms between values and payloads

Model of `/repo/go/transform/transform.go`. A payload made by `payload.New(buf)` is its data.
-/

namespace Iota.Transform
open Iota.Go Iota.Msgpack

/-- `Transform[T]`. transform.go:12-15 -/
structure Transform (α : Type) where
  decode : Bytes → Res α
  encode : α → Res Bytes

/-- The shape of all transforms of basic types: one writer call on sizer and encoder, one reader call. -/
def single {α : Type} (op : α → Op) (rd : Rd α) : Transform α :=
  ⟨fun raw => (rd (D.new raw)).1, fun v => toBytes [op v]⟩

/-- `String`, `StringDecode`, `StringEncode`. transform.go:17-31, 361-374 -/
def string : Transform Bytes := single .str Dec.str
/-- `Int` and `Int64`, `Int64Decode`, `Int64Encode`; `int` has 64 bits. transform.go:33-63, 331-344 -/
def int64 : Transform Int := single .int Dec.int64
/-- `Int32`, `Int32Decode`, `Int32Encode`. transform.go:65-79, 316-329 -/
def int32 : Transform Int := single .int (Dec.intK 4)
/-- `Int16`. transform.go:81-95 -/
def int16 : Transform Int := single .int (Dec.intK 2)
/-- `Int8`. transform.go:97-111 -/
def int8 : Transform Int := single .int (Dec.intK 1)
/-- `Uint` and `Uint64`, `Uint64Decode`, `Uint64Encode`. transform.go:113-143, 346-359 -/
def uint64 : Transform Nat := single .uint Dec.uint64
/-- `Uint32`. transform.go:145-159 -/
def uint32 : Transform Nat := single .uint (Dec.uintK 4)
/-- `Uint16`. transform.go:161-175 -/
def uint16 : Transform Nat := single .uint (Dec.uintK 2)
/-- `Uint8`. transform.go:177-191 -/
def uint8 : Transform Nat := single .uint (Dec.uintK 1)
/-- `Float64`, on bits. transform.go:193-207 -/
def float64 : Transform Nat := single .f64 Dec.f64
/-- `Float32`, on bits. transform.go:209-223 -/
def float32 (lib : Lib) : Transform Nat := single .f32 (Dec.f32 lib)
/-- `Bytes`. transform.go:225-239 -/
def bytes : Transform Bytes := single .bytes Dec.bytes
/-- `Bool`. transform.go:241-255 -/
def bool : Transform Bool := single .bool Dec.bool

/-- `Time`. transform.go:257-275. `format` is `value.Format(time.RFC3339Nano)`, modelled in
`GoTime`. -/
def time (lib : Lib) (format : Time → Bytes) : Transform Time :=
  ⟨fun raw => do
    let s ← (Dec.str (D.new raw)).1
    match lib.parseTime s with
    | some t => .ok t
    | none => .err "parse",
   fun t => toBytes [.str (format t)]⟩

/-- `Void`. transform.go:277-284 -/
def void : Transform Unit := ⟨fun _ => .ok (), fun _ => .ok []⟩

/-- A type with `msgpack.Codec`: the writer calls of `Encode` and the reader calls of `Decode`. -/
structure Codec (α : Type) where
  enc : α → List Op
  dec : Rd α

/-- `MsgPackDecode`, `MsgPackEncode`, `CodecDecode`, `CodecEncode`. transform.go:291-314 -/
def codec {α : Type} (c : Codec α) : Transform α :=
  ⟨fun raw => (c.dec (D.new raw)).1, fun v => toBytes (c.enc v)⟩

/-- The loop of `SliceDecode`. transform.go:381-388. Errors of `Decode` are ignored; the element is then
`zero`, while Go keeps the fields that were read before the error. -/
def sliceLoop {α : Type} (c : Codec α) (zero : α) : Nat → D → Res (List α)
  | 0, _ => .ok []
  | n + 1, d =>
    match c.dec d with
    | (.ok a, d) => (sliceLoop c zero n d).bind fun l => .ok (a :: l)
    | (.err _, d) => (sliceLoop c zero n d).bind fun l => .ok (zero :: l)
    | (.panic, _) => .panic

/-- `SliceDecode`, `SliceEncode`. transform.go:376-407. An error of `ReadArraySize` is ignored, the size is
then 0. -/
def slice {α : Type} (c : Codec α) (zero : α) : Transform (List α) :=
  ⟨fun raw =>
    match Dec.arraySize (D.new raw) with
    | (.ok n, d) => sliceLoop c zero n d
    | (.err _, _) => .ok []
    | (.panic, _) => .panic,
   fun l => toBytes (.arraySize (l.length % U32) :: l.flatMap c.enc)⟩

/-- `InterfaceEncode`. transform.go:409-419. The result is the payload and the new table. -/
def interfaceEncode {T : Type} (m : Registry.Live T) (addr : UInt64) (inst : T) : Res Bytes × Registry.Live T :=
  (toBytes [.uint (m.put addr inst).1.toNat], (m.put addr inst).2)

end Iota.Transform
