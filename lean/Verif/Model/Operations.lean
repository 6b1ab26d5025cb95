import Verif.Go.Basic

/-!
# Operation tables

Model of `/repo/go/operations/operatons.go`.
-/

namespace Iota.Operations
open Go

/-- `Operation`. operatons.go:10-16. Go strings are byte strings; `RequestType` and `Direction` are
`uint8` (operatons.go:20, 44). -/
structure Operation where
  index : UInt32
  type : UInt8
  direction : UInt8
  ns : Bytes
  op : Bytes
  deriving DecidableEq, Repr

/-- `Table`. operatons.go:18 -/
abbrev Table := List Operation

/-- `Magic`. operatons.go:63 -/
def magic : Bytes := [0x00, 0x77, 0x72, 0x73]

/-- `b[lo:hi]`, checked against the length instead of the capacity. -/
def slice (b : Bytes) (lo hi : Nat) : Res Bytes :=
  if lo ≤ hi ∧ hi ≤ b.length then .ok ((b.take hi).drop lo) else .panic

/-- One iteration of the loop of `FromBytes`. operatons.go:82-101. Returns the operation and the rest
of the buffer. `2+reservedLen` is computed in `uint16`. -/
def readOp (buf : Bytes) : Res (Operation × Bytes) := do
  let opType ← index buf 0
  let dir ← index buf 1
  let id ← (slice buf 2 6 >>= getU32)
  let nsLen ← (slice buf 6 8 >>= getU16)
  let buf ← sliceFrom buf 8
  let ns ← sliceTo buf nsLen.toNat
  let buf ← sliceFrom buf nsLen.toNat
  let opLen ← (slice buf 0 2 >>= getU16)
  let buf ← sliceFrom buf 2
  let op ← sliceTo buf opLen.toNat
  let buf ← sliceFrom buf opLen.toNat
  let reservedLen ← getU16 buf
  let buf ← sliceFrom buf (2 + reservedLen).toNat
  return (⟨id, opType, dir, ns, op⟩, buf)

/-- The loop of `FromBytes`. operatons.go:81-102. The allocation of `numOps` slots (line 79) is not
modelled. -/
def readOps : Nat → Bytes → Res Table
  | 0, _ => .ok []
  | n + 1, buf => do
    let x ← readOp buf
    let t ← readOps n x.2
    return x.1 :: t

/-- `FromBytes`. operatons.go:66-105. `int` has 64 bits. -/
def fromBytes (buf : Bytes) : Res Table := do
  let m ← slice buf 0 4
  if m ≠ magic then .err "invalid magic number" else do
    let buf ← sliceFrom buf 4
    let version ← getU16 buf
    if version ≠ 1 then .err "Unknown operation table version" else do
      let buf ← sliceFrom buf 2
      let numOps ← getU32 buf
      let buf ← sliceFrom buf 4
      readOps numOps.toNat buf

/-- Size of the buffer of `ToBytes`, in `uint32`. operatons.go:108-111 -/
def size : Table → UInt32
  | [] => 10
  | o :: t => size t + UInt32.ofNat (12 + o.ns.length + o.op.length)

/-- One iteration of the loop of `ToBytes`. operatons.go:122-147 -/
def writeOp (c : Cur) (o : Operation) : Res Cur := do
  let c ← c.putAt 0 [o.type]
  let c ← c.putAt 1 [o.direction]
  let c ← c.putAt 2 (be32 o.index)
  let c ← c.adv 6
  let c ← c.putAt 0 (be16 (UInt16.ofNat o.ns.length))
  let c ← c.adv 2
  let c ← (c.copy o.ns).adv (UInt16.ofNat o.ns.length).toNat
  let c ← c.putAt 0 (be16 (UInt16.ofNat o.op.length))
  let c ← c.adv 2
  let c ← (c.copy o.op).adv (UInt16.ofNat o.op.length).toNat
  let c ← c.putAt 0 (be16 0)
  c.adv 2

/-- The loop of `ToBytes`. operatons.go:122-147 -/
def writeOps : Cur → Table → Res Cur
  | c, [] => .ok c
  | c, o :: t => do
    let c ← writeOp c o
    writeOps c t

/-- `Table.ToBytes`. operatons.go:107-150 -/
def toBytes (t : Table) : Res Bytes := do
  let c ← ((Cur.start (List.replicate (size t).toNat 0)).copy magic).adv 4
  let c ← c.putAt 0 (be16 1)
  let c ← c.adv 2
  let c ← c.putAt 0 (be32 (UInt32.ofNat t.length))
  let c ← c.adv 4
  let c ← writeOps c t
  return c.buf

end Iota.Operations
