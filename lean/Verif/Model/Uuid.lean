import Verif.Go.Basic

/-!
# UUIDs

Model of `/repo/go/types/uuid`. A `UUID` (uuid.go:20) is a list of 16 bytes.
-/

namespace Iota.Uuid
open Go

/-! ## Text form -/

/-- `xvalues`. util.go:19-36 -/
def xvalues : Bytes := [
  255, 255, 255, 255, 255, 255, 255, 255, 255, 255, 255, 255, 255, 255, 255, 255,
  255, 255, 255, 255, 255, 255, 255, 255, 255, 255, 255, 255, 255, 255, 255, 255,
  255, 255, 255, 255, 255, 255, 255, 255, 255, 255, 255, 255, 255, 255, 255, 255,
  0, 1, 2, 3, 4, 5, 6, 7, 8, 9, 255, 255, 255, 255, 255, 255,
  255, 10, 11, 12, 13, 14, 15, 255, 255, 255, 255, 255, 255, 255, 255, 255,
  255, 255, 255, 255, 255, 255, 255, 255, 255, 255, 255, 255, 255, 255, 255, 255,
  255, 10, 11, 12, 13, 14, 15, 255, 255, 255, 255, 255, 255, 255, 255, 255,
  255, 255, 255, 255, 255, 255, 255, 255, 255, 255, 255, 255, 255, 255, 255, 255,
  255, 255, 255, 255, 255, 255, 255, 255, 255, 255, 255, 255, 255, 255, 255, 255,
  255, 255, 255, 255, 255, 255, 255, 255, 255, 255, 255, 255, 255, 255, 255, 255,
  255, 255, 255, 255, 255, 255, 255, 255, 255, 255, 255, 255, 255, 255, 255, 255,
  255, 255, 255, 255, 255, 255, 255, 255, 255, 255, 255, 255, 255, 255, 255, 255,
  255, 255, 255, 255, 255, 255, 255, 255, 255, 255, 255, 255, 255, 255, 255, 255,
  255, 255, 255, 255, 255, 255, 255, 255, 255, 255, 255, 255, 255, 255, 255, 255,
  255, 255, 255, 255, 255, 255, 255, 255, 255, 255, 255, 255, 255, 255, 255, 255,
  255, 255, 255, 255, 255, 255, 255, 255, 255, 255, 255, 255, 255, 255, 255, 255]

/-- `xvalues[x]` -/
def xvalue (x : UInt8) : UInt8 := xvalues.getD x.toNat 255

/-- `xtob`. util.go:39-43. `none` stands for a false second result. -/
def xtob (x1 x2 : UInt8) : Option UInt8 :=
  if xvalue x1 ≠ 255 ∧ xvalue x2 ≠ 255 then some (xvalue x1 <<< 4 ||| xvalue x2) else none

/-- The loops over pairs of digits: `xtob(s[x], s[x+1])` for each position `x`. uuid.go:84-89, 99-110 -/
def digits (s : Bytes) : List Nat → Res Bytes
  | [] => .ok []
  | x :: xs => do
    let c1 ← index s x
    let c2 ← index s (x + 1)
    match xtob c1 c2 with
    | none => .err "invalid UUID format"
    | some b => do
      let bs ← digits s xs
      return b :: bs

/-- The positions of the digits in the standard form. uuid.go:99-104 -/
def positions : List Nat := [0, 2, 4, 6, 9, 11, 14, 16, 19, 21, 24, 26, 28, 30, 32, 34]

/-- The second half of `Parse`. uuid.go:94-111 -/
def parseStd (s : Bytes) : Res Bytes := do
  let c1 ← index s 8
  let c2 ← index s 13
  let c3 ← index s 18
  let c4 ← index s 23
  if c1 ≠ 0x2d ∨ c2 ≠ 0x2d ∨ c3 ≠ 0x2d ∨ c4 ≠ 0x2d then .err "invalid UUID format" else digits s positions

/-- `strings.ToLower` on one byte. Only ASCII letters are modelled; a string with other characters that
`ToLower` maps to letters has fewer characters than bytes, so its lower-case form is not nine ASCII
characters long and the comparison of uuid.go:72 fails for it as it does here. -/
def lower (c : UInt8) : UInt8 := if 0x41 ≤ c ∧ c ≤ 0x5a then c + 0x20 else c

/-- `"urn:uuid:"` -/
def urnPrefix : Bytes := [0x75, 0x72, 0x6e, 0x3a, 0x75, 0x75, 0x69, 0x64, 0x3a]

/-- `Parse`. uuid.go:64-112. The UUID returned beside an error is not modelled. -/
def parse (s : Bytes) : Res Bytes :=
  if s.length = 36 then parseStd s
  else if s.length = 36 + 9 then
    if (s.take 9).map lower ≠ urnPrefix then .err "invalid urn prefix" else parseStd (s.drop 9)
  else if s.length = 36 + 2 then parseStd (s.drop 1)
  else if s.length = 32 then digits s ((List.range 16).map (· * 2))
  else .err "invalid UUID length"

/-- `ParseBytes`. uuid.go:115-156 -/
def parseBytes (b : Bytes) : Res Bytes :=
  if b.length = 36 then parseStd b
  else if b.length = 36 + 9 then
    if (b.take 9).map lower ≠ urnPrefix then .err "invalid urn prefix" else parseStd (b.drop 9)
  else if b.length = 36 + 2 then parseStd (b.drop 1)
  else if b.length = 32 then digits b [0, 2, 4, 6, 8, 10, 12, 14, 16, 18, 20, 22, 24, 26, 28, 30]
  else .err "invalid UUID length"

/-- A lower-case hexadecimal digit of `hex.Encode`. -/
def hexDigit (n : UInt8) : UInt8 := if n < 10 then 0x30 + n else 0x57 + n

/-- What `hex.Encode` writes. -/
def hexEncode : Bytes → Bytes
  | [] => []
  | b :: bs => hexDigit (b >>> 4) :: hexDigit (b &&& 0x0f) :: hexEncode bs

/-- Overwrites part of a buffer. -/
def putBytes (dst : Bytes) (off : Nat) (bs : Bytes) : Bytes := dst.take off ++ bs ++ dst.drop (off + bs.length)

/-- `encodeHex`. uuid.go:200-210 -/
def encodeHex (dst : Bytes) (u : Bytes) : Bytes :=
  putBytes (putBytes (putBytes (putBytes (putBytes (putBytes (putBytes (putBytes (putBytes dst
    0 (hexEncode (u.take 4)))
    8 [0x2d])
    9 (hexEncode ((u.take 6).drop 4)))
    13 [0x2d])
    14 (hexEncode ((u.take 8).drop 6)))
    18 [0x2d])
    19 (hexEncode ((u.take 10).drop 8)))
    23 [0x2d])
    24 (hexEncode (u.drop 10))

/-- `UUID.String`, also `MarshalText`. uuid.go:185-189, marshal.go:13-17 -/
def toStr (u : Bytes) : Bytes := encodeHex (List.replicate 36 0) u

/-- `UUID.URN`. uuid.go:193-198 -/
def urn (u : Bytes) : Bytes := urnPrefix ++ encodeHex (List.replicate 36 0) u

/-- `UUID.MarshalBinary`. marshal.go:30-32 -/
def marshalBinary (u : Bytes) : Bytes := u

/-- `UUID.UnmarshalBinary` and `FromBytes`. marshal.go:35-41, uuid.go:170-173 -/
def unmarshalBinary (data : Bytes) : Res Bytes :=
  if data.length ≠ 16 then .err "invalid UUID" else .ok data

/-! ## Version and variant -/

/-- `Variant`. uuid.go:29-35 -/
inductive Variant
  | rfc4122
  | reserved
  | microsoft
  | future
  deriving DecidableEq, Repr

/-- `UUID.Variant`. uuid.go:213-224 -/
def variant (u : Bytes) : Variant :=
  if u.getD 8 0 &&& 0xc0 = 0x80 then .rfc4122
  else if u.getD 8 0 &&& 0xe0 = 0xc0 then .microsoft
  else if u.getD 8 0 &&& 0xe0 = 0xe0 then .future
  else .reserved

/-- `UUID.Version`. uuid.go:227-229 -/
def version (u : Bytes) : UInt8 := u.getD 6 0 >>> 4

/-- Setting version and variant. version4.go:53-54, 73-74 -/
def setBits (u : Bytes) : Bytes :=
  (u.set 6 ((u.getD 6 0 &&& 0x0f) ||| 0x40)).set 8 ((u.getD 8 0 &&& 0x3f) ||| 0x80)

/-! ## Random UUIDs

The random source is an infinite sequence of bytes of which a number has been consumed. A read either
succeeds or fails after some bytes. -/

/-- `io.ReadFull(rander, b)` with `len(b) = n` at position `p`. -/
def readFull (src : Nat → UInt8) (p n : Nat) : Bytes := (List.range n).map fun i => src (p + i)

/-- Package state: `poolEnabled`, `poolPos`, `pool` (uuid.go:39-45), and how far the source was read. -/
structure Gen where
  src : Nat → UInt8
  used : Nat
  enabled : Bool
  poolPos : Nat
  pool : Bytes

/-- Initial state. uuid.go:39-45 -/
def Gen.init (src : Nat → UInt8) : Gen := ⟨src, 0, false, 256, List.replicate 256 0⟩

/-- `NewRandomFromReader(rander)`. version4.go:47-56. `fail = some k`: the read fails after `k` bytes. -/
def newFromReader (g : Gen) (fail : Option Nat) : Res Bytes × Gen :=
  match fail with
  | some k => (.err "read", { g with used := g.used + k })
  | none => (.ok (setBits (readFull g.src g.used 16)), { g with used := g.used + 16 })

/-- The rest of `newRandomFromPool`. version4.go:69-75 -/
def takePool (g : Gen) : Res Bytes × Gen :=
  (.ok (setBits ((g.pool.drop g.poolPos).take 16)), { g with poolPos := g.poolPos + 16 })

/-- `newRandomFromPool`. version4.go:58-76. A failed read leaves the pool partly overwritten. -/
def newFromPool (g : Gen) (fail : Option Nat) : Res Bytes × Gen :=
  if g.poolPos = 256 then
    match fail with
    | some k => (.err "read", { g with used := g.used + k, pool := readFull g.src g.used k ++ g.pool.drop k })
    | none => takePool { g with used := g.used + 256, pool := readFull g.src g.used 256, poolPos := 0 }
  else takePool g

/-- `NewRandom`. version4.go:39-44 -/
def newRandom (g : Gen) (fail : Option Nat) : Res Bytes × Gen :=
  if g.enabled then newFromPool g fail else newFromReader g fail

/-- `EnableRandPool`. uuid.go:279-281 -/
def enable (g : Gen) : Gen := { g with enabled := true }

/-- `DisableRandPool`. uuid.go:289-294 -/
def disable (g : Gen) : Gen := { g with enabled := false, poolPos := 256 }

/-! ## Time and clock sequence -/

/-- `g1582ns100`. time.go:17-23 -/
def g1582ns100 : Nat := (2440587 - 2299160) * 86400 * 10000000

/-- `lasttime` and `clockSeq`. time.go:27-28 -/
structure Clock where
  lasttime : UInt64
  clockSeq : UInt16
  deriving DecidableEq, Repr

/-- `setClockSequence`. time.go:97-108. `rnd` are the two random bytes used if `seq` is -1. `seq & 0x3fff`
on the two's complement is the remainder modulo 2^14. -/
def setClockSequence (c : Clock) (seq : Int) (rnd : UInt8 × UInt8) : Clock :=
  let seq : Int := if seq = -1 then (rnd.1.toNat * 256 + rnd.2.toNat : Nat) else seq
  let new := UInt16.ofNat (seq % 0x4000).toNat ||| 0x8000
  ⟨if c.clockSeq ≠ new then 0 else c.lasttime, new⟩

/-- `uint64(t.UnixNano()/100) + g1582ns100`. time.go:58. Go's integer division rounds towards zero. -/
def stamp (nanos : Int) : UInt64 := UInt64.ofNat ((nanos.tdiv 100 + g1582ns100) % 2 ^ 64).toNat

/-- `getTime`. time.go:51-67. `nanos` is what the wall clock shows. -/
def getTime (c : Clock) (nanos : Int) (rnd : UInt8 × UInt8) : (UInt64 × UInt16) × Clock :=
  let c := if c.clockSeq = 0 then setClockSequence c (-1) rnd else c
  let now := stamp nanos
  let seq := if now ≤ c.lasttime then ((c.clockSeq + 1) &&& 0x3fff) ||| 0x8000 else c.clockSeq
  ((now, seq), ⟨now, seq⟩)

/-- `clockSequence`. time.go:82-87 -/
def clockSequence (c : Clock) (rnd : UInt8 × UInt8) : UInt16 × Clock :=
  let c := if c.clockSeq = 0 then setClockSequence c (-1) rnd else c
  (c.clockSeq &&& 0x3fff, c)

/-- An `int64` that was a `uint64`: `Time(now)`. time.go:66 -/
def toTime (now : UInt64) : Int := if now.toNat < 2 ^ 63 then (now.toNat : Int) else (now.toNat : Int) - 2 ^ 64

/-- The value of an integer expression as `int64`. -/
def int64 (x : Int) : Int := (x + 2 ^ 63) % 2 ^ 64 - 2 ^ 63

/-- `UnixTime`. time.go:35-40. Division and remainder round towards zero. -/
def unixTime (t : Int) : Int × Int :=
  ((int64 (t - g1582ns100)).tdiv 10000000, (int64 (t - g1582ns100)).tmod 10000000 * 100)

/-- `UUID.Time`. time.go:112-117. The value is below 2^60. -/
def timeOf (u : Bytes) : Nat :=
  beNat (u.take 4) ||| (beNat ((u.drop 4).take 2) <<< 32) ||| ((beNat ((u.drop 6).take 2) &&& 0xfff) <<< 48)

/-- `UUID.ClockSequence`. time.go:121-123 -/
def clockSequenceOf (u : Bytes) : Nat := beNat ((u.drop 8).take 2) &&& 0x3fff

end Iota.Uuid
