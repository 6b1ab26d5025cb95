import Verif.Go.Basic

/-!
# Custom sections of a WebAssembly binary

Model of `/repo/go/transport/wasmrs/customsections/customsections.go`. A `bytes.Reader` is the list of the bytes
that have not been read.
-/

namespace Iota.Sections
open Go

/-- `leb128.DecodeUint32` of `github.com/tetratelabs/wabin`, which is not part of the repository: an unsigned
LEB128 number of at most five bytes and less than 2^32. `i` bytes worth `acc` were read before. The result is the
number, the count of bytes and the rest. -/
def decodeUint32 (i acc : Nat) : Bytes → Res (Nat × Nat × Bytes)
  | [] => .err "EOF"
  | b :: bs =>
    if 5 ≤ i then .err "overflows a 32-bit integer"
    else if b.toNat < 128 then
      if i = 4 ∧ 16 ≤ b.toNat then .err "overflows a 32-bit integer"
      else .ok (acc + b.toNat * 128 ^ i, i + 1, bs)
    else decodeUint32 (i + 1) (acc + b.toNat % 128 * 128 ^ i) bs

/-- `io.ReadFull(r, buf)` with `len(buf) = n`. -/
def readFull (r : Bytes) (n : Nat) : Res (Bytes × Bytes) :=
  if n ≤ r.length then .ok (r.take n, r.drop n) else .err "unexpected EOF"

/-- `io.CopyN(io.Discard, r, n)`. -/
def copyN (r : Bytes) (n : Nat) : Res Bytes :=
  if n ≤ r.length then .ok (r.drop n) else .err "EOF"

/-- `decodeUTF8`. customsections.go:103-119. `valid` is `utf8.Valid`. -/
def decodeUTF8 (valid : Bytes → Bool) (r : Bytes) : Res (Bytes × Nat × Bytes) := do
  let (size, sizeOfSize, r) ← decodeUint32 0 0 r
  let (buf, r) ← readFull r size
  if valid buf then return (buf, (size + sizeOfSize) % 2 ^ 32, r) else .err "not valid UTF-8"

/-- `decodeCustomSection`. customsections.go:124-134. `bytes.Reader.Read` reports the end of the data if nothing is
left, even to a call that asks for nothing; it may fill only part of the buffer. -/
def decodeCustomSection (r : Bytes) (limit : Nat) : Res (Bytes × Bytes) :=
  if r = [] then .err "EOF"
  else .ok (r.take limit ++ List.replicate (limit - r.length) 0, r.drop limit)

/-- `map[string]*wasm.CustomSection` -/
abbrev Map := Bytes → Option Bytes

/-- `sections[name] = custom` -/
def Map.put (m : Map) (name data : Bytes) : Map := fun n => if n = name then some data else m n

/-- The switch of the loop body. customsections.go:56-86 -/
def body (valid : Bytes → Bool) (wanted : List Bytes) (m : Map) (id : UInt8) (size : Nat) (r : Bytes) : Res (Map × Bytes) :=
  if id = 0 then do
    let (name, nameSize, r) ← decodeUTF8 valid r
    if size < nameSize then .err "malformed custom section"
    else if name ∈ wanted then do
      let (data, r) ← decodeCustomSection r (size - nameSize)
      return (m.put name data, r)
    else do
      let r ← copyN r (size - nameSize)
      return (m, r)
  else do
    let r ← copyN r size
    return (m, r)

/-- The loop of `Read`. customsections.go:40-98. Every round reads a byte, so the length of the data bounds the
number of rounds. -/
def loop (valid : Bytes → Bool) (wanted : List Bytes) : Nat → Map → Bytes → Res Map
  | _, m, [] => .ok m
  | 0, _, _ => .err "unreachable"
  | fuel + 1, m, id :: r => do
    let (size, _, r) ← decodeUint32 0 0 r
    let (m, r') ← body valid wanted m id size r
    if size = r.length - r'.length then loop valid wanted fuel m r' else .err "invalid section length"

/-- `Read`. customsections.go:20-99 -/
def read (valid : Bytes → Bool) (data : Bytes) (wanted : List Bytes) : Res Map :=
  if data.take 4 ≠ [0x00, 0x61, 0x73, 0x6d] then .err "invalid magic number"
  else if (data.drop 4).take 4 ≠ [0x01, 0x00, 0x00, 0x00] then .err "invalid version header"
  else loop valid wanted data.length (fun _ => none) (data.drop 8)

end Iota.Sections
