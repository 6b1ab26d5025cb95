import Verif.Model.RustFrames

/-!
# The Rust operation list

Model of `/repo/rust/crates/wasmrs/src/operations.rs`. Rust strings are byte strings that are well-formed UTF-8; vectors
are lists. The lengths of names are cut to 16 bits as in the code.
-/

namespace Iota.Rust
open Go

/-- `Operation`, operations.rs:100-105. `OperationType` (operations.rs:41-50) is represented by its number
(operations.rs:64-73), which is between 1 and 4. -/
structure Op where
  index : UInt32
  kind : UInt8
  ns : Bytes
  op : Bytes
  deriving DecidableEq, Repr

/-- `OperationList`, operations.rs:109-112 -/
structure OpList where
  imports : List Op
  exports : List Op
  deriving DecidableEq, Repr

/-- `OperationList::get_op`, operations.rs:127-132 -/
def getOp (l : List Op) (ns op : Bytes) : Option UInt32 :=
  (l.find? fun o => o.ns == ns && o.op == op).map (·.index)

/-- `add_export`, operations.rs:135-143 with 156-169 -/
def addExport (l : OpList) (o : Op) : OpList := { l with exports := l.exports ++ [o] }

/-- `add_import`, operations.rs:146-154 with 156-169 -/
def addImport (l : OpList) (o : Op) : OpList := { l with imports := l.imports ++ [o] }

/-- `WASMRS_MAGIC`, operations.rs:37 -/
def opMagic : Bytes := [0x00, 0x77, 0x72, 0x73]

/-- `encode_op`, operations.rs:189-202 -/
def encodeOp (dir : UInt8) (o : Op) : Bytes :=
  [o.kind] ++ [dir] ++ be32 o.index ++ be16 (UInt16.ofNat o.ns.length) ++ o.ns ++ be16 (UInt16.ofNat o.op.length) ++ o.op ++
    be16 0

/-- `OperationList::encode`, operations.rs:173-187 -/
def encodeOps (l : OpList) : Bytes :=
  opMagic ++ be16 1 ++ be32 (UInt32.ofNat (l.imports.length + l.exports.length)) ++
    (l.exports.map (encodeOp 1)).flatten ++ (l.imports.map (encodeOp 2)).flatten

/-- One round of the loop of `decode_v1`, operations.rs:222-236. `OperationType::from` (operations.rs:52-62) panics on a
number outside 1 … 4. The reserved length is read (line 230) but the reserved bytes are not skipped. Returns the direction,
the operation and the rest of the buffer. -/
def decodeOp (buf : Bytes) : Res (UInt8 × Op × Bytes) := do
  let k ← splitTo buf 1
  let kind ← index k.1 0
  if 1 ≤ kind.toNat ∧ kind.toNat ≤ 4 then do
    let d ← splitTo k.2 1
    let dir ← index d.1 0
    let i ← splitTo d.2 4
    let idx ← fromU32 i.1
    let nl ← splitTo i.2 2
    let nsLen ← fromU16 nl.1
    let ns ← splitTo nl.2 nsLen.toNat
    if isUtf8 ns.1 then do
      let ol ← splitTo ns.2 2
      let opLen ← fromU16 ol.1
      let op ← splitTo ol.2 opLen.toNat
      if isUtf8 op.1 then do
        let rl ← splitTo op.2 2
        let _ ← fromU16 rl.1
        return (dir, ⟨idx, kind, ns.1, op.1⟩, rl.2)
      else .err "Utf8String"
    else .err "Utf8String"
  else .panic

/-- The loop of `decode_v1`, operations.rs:221-242 -/
def decodeLoop : Nat → Bytes → OpList → Res OpList
  | 0, _, l => .ok l
  | n + 1, buf, l => do
    let x ← decodeOp buf
    decodeLoop n x.2.2 (if x.1 = 1 then addExport l x.2.1 else addImport l x.2.1)

/-- `OperationList::decode`, operations.rs:205-215, and `decode_v1`, operations.rs:217-244 -/
def decodeOps (buf : Bytes) : Res OpList := do
  let m ← splitTo buf 4
  if m.1 ≠ opMagic then .err "Magic" else do
    let v ← splitTo m.2 2
    let version ← fromU16 v.1
    if version ≠ 1 then .err "Version" else do
      let n ← splitTo v.2 4
      let numOps ← fromU32 n.1
      decodeLoop numOps.toNat n.2 ⟨[], []⟩

end Iota.Rust
