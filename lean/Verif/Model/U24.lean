import Verif.Go.Basic

/-! Model of `/repo/go/internal/u24/u24.go`. -/

namespace Iota.U24
open Go

/-- `MaxUint24`, u24.go:10 -/
def maxUint24 : Nat := 16777215

/-- `Uint24`, u24.go:28: an array of three bytes. -/
structure U24 where
  b0 : UInt8
  b1 : UInt8
  b2 : UInt8
  deriving DecidableEq, Repr

/-- `Uint24.Bytes` / `WriteTo`, u24.go:31-39 -/
def U24.bytes (p : U24) : Bytes := [p.b0, p.b1, p.b2]

/-- `Uint24.AsInt`, u24.go:42-44. The Go `int` result cannot overflow (at most 2^24-1). -/
def U24.asInt (p : U24) : Nat := (p.b0.toNat <<< 16) + (p.b1.toNat <<< 8) + p.b2.toNat

/-- The three bytes stored by `NewUint24`, u24.go:60-62 -/
def truncBytes (v : UInt32) : U24 :=
  ⟨(v >>> 16).toUInt8, (v >>> 8).toUInt8, v.toUInt8⟩

/-- `NewUint24`, u24.go:56-64. The Go function also returns the (truncated) bytes along with the
error; callers ignore them, so an error is just an error here. -/
def newUint24 (v : UInt32) : Res U24 :=
  if v.toNat > maxUint24 then .err "uint24 exceed max value" else .ok (truncBytes v)

/-- `MustNewUint24`, u24.go:47-53 -/
def mustNewUint24 (v : UInt32) : Res U24 :=
  match newUint24 v with
  | .ok n => .ok n
  | .err _ => .panic
  | .panic => .panic

/-- `NewUint24Bytes`, u24.go:67-70 -/
def newUint24Bytes : Bytes → Res U24
  | a :: b :: c :: _ => .ok ⟨a, b, c⟩
  | _ => .panic

/-- `ReadUint24ToInt`, u24.go:83-86 -/
def readUint24ToInt : Bytes → Res Nat
  | a :: b :: c :: _ => .ok ((a.toNat <<< 16) + (b.toNat <<< 8) + c.toNat)
  | _ => .panic

end Iota.U24
