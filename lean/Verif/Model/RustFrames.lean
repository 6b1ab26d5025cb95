import Verif.Go.Basic
import Verif.Model.Frames

/-!
# The Rust frame codec

Model of `/repo/rust/crates/wasmrs/src/frames` and `/repo/rust/crates/wasmrs/src/util.rs`. Paths below are relative to
`/repo/rust/crates/wasmrs/src`.

The Rust frame structs (`f_cancel.rs:9-12`, `f_error.rs:10-15`, `f_request_n.rs:10-14`, `f_payload.rs:11-24`,
`request_payload.rs:10-24`) have the same fields as the Go structs, so the record types of `Model/Frames.lean` are used
for both. The wrappers `RequestResponse(..)`, `RequestFnF(..)`, `RequestStream(..)` and `RequestChannel(..)` are
represented by the `frameType` field, which their constructors set and `check_type` checks. A Rust `String` is a byte
string that is well-formed UTF-8.
-/

namespace Iota.Rust
open Go Iota.Frames

/-- `String::from_utf8(..).is_ok()`, by Lean's own check. -/
def isUtf8 (b : Bytes) : Bool := (ByteArray.mk b.toArray).validateUTF8

/-- `Bytes::split_to(at)`: the first `at` bytes and the rest; panics when there are fewer. -/
def splitTo (b : Bytes) (at_ : Nat) : Res (Bytes × Bytes) :=
  if at_ ≤ b.length then .ok (b.take at_, b.drop at_) else .panic

/-- `from_u32_bytes`, util.rs:6-13 -/
def fromU32 (b : Bytes) : Res UInt32 := if b.length = 4 then .ok (UInt32.ofNat (beNat b)) else .panic

/-- `from_u16_bytes`, util.rs:16-23 -/
def fromU16 (b : Bytes) : Res UInt16 := if b.length = 2 then .ok (UInt16.ofNat (beNat b)) else .panic

/-- `from_u24_bytes`, util.rs:26-33 -/
def fromU24 (b : Bytes) : Res UInt32 := if b.length = 3 then .ok (UInt32.ofNat (beNat (0 :: b))) else .panic

/-- `to_u24_bytes`, util.rs:37-43 -/
def toU24 (n : UInt32) : Bytes := (be32 n).drop 1

/-! ## Flags and headers -/

/-- `FLAG_IGNORE` … `FLAG_METADATA`, frames/mod.rs:327-331 -/
def flagIgnore : UInt16 := (1 : UInt16) <<< 4
def flagNext : UInt16 := (1 : UInt16) <<< 5
def flagComplete : UInt16 := (1 : UInt16) <<< 6
def flagFollow : UInt16 := (1 : UInt16) <<< 7
def flagMetadata : UInt16 := (1 : UInt16) <<< 8

/-- `FrameHeader::new`, frames/header.rs:8-20. The frame type is one of the eight the crate builds. -/
def newHeader (streamID : UInt32) (t : FrameType) (flags : UInt16) : Bytes :=
  be32 streamID ++ be16 ((t.toUInt16 <<< 10) ||| flags)

/-- `FrameHeader::stream_id`, frames/header.rs:35-38. `h` has six bytes. -/
def streamId (h : Bytes) : UInt32 := UInt32.ofNat (beNat ((h.headD 0 &&& 0x7f) :: (h.drop 1).take 3))

/-- `FrameHeader::n`, frames/header.rs:40-42 -/
def word (h : Bytes) : UInt16 := UInt16.ofNat (beNat ((h.drop 4).take 2))

/-- `FrameHeader::frame_type`, frames/header.rs:44-47 with frames/mod.rs:105-128: `unwrap` panics on an index that is
not a frame type. -/
def frameType (h : Bytes) : Res FrameType :=
  if (h.getD 4 0 >>> 2).toNat ≤ 14 ∨ (h.getD 4 0 >>> 2) = 63 then .ok (h.getD 4 0 >>> 2) else .panic

/-- `FrameHeader::check`, frames/header.rs:49-51 -/
def check (h : Bytes) (flag : UInt16) : Bool := word h &&& flag == flag

/-! ## Encoding -/

/-- The metadata block and the data, frames/f_payload.rs:74-85 and frames/request_payload.rs:102-115 -/
def encodeBody (metadata data : Bytes) : Bytes :=
  if metadata.isEmpty then data else toU24 (UInt32.ofNat metadata.length) ++ metadata ++ data

/-- `PayloadFrame::get_flag`, frames/f_payload.rs:92-107 -/
def payloadFlags (f : Payload) : UInt16 :=
  (if f.metadata.isEmpty then 0 else flagMetadata) ||| (if f.complete then flagComplete else 0) |||
  (if f.next then flagNext else 0) ||| (if f.follows then flagFollow else 0)

/-- `RequestPayload::get_flags`, frames/request_payload.rs:45-54 -/
def requestFlags (f : RequestPayload) : UInt16 :=
  (if f.metadata.isEmpty then 0 else flagMetadata) |||
  (if f.complete && f.frameType == tRequestChannel then flagComplete else 0)

/-- `RequestPayload::is_multi`, frames/request_payload.rs:85-87 -/
def isMulti (t : FrameType) : Bool := t == tRequestChannel || t == tRequestStream

/-- `Frame::encode`, frames/mod.rs:424-435, with f_cancel.rs:33-39, f_error.rs:41-54, f_request_n.rs:38-46,
f_payload.rs:72-90, request_payload.rs:89-116. -/
def encode : Frame → Bytes
  | .cancel f => newHeader f.streamID tCancel 0
  | .error f => newHeader f.streamID tError 0 ++ be32 f.code ++ f.data
  | .requestN f => newHeader f.streamID tRequestN 0 ++ be32 f.n
  | .payload f => newHeader f.streamID tPayload (payloadFlags f) ++ encodeBody f.metadata f.data
  | .request f =>
    newHeader f.streamID f.frameType (requestFlags f) ++ (if isMulti f.frameType then be32 f.initialN else []) ++
      encodeBody f.metadata f.data

/-! ## Decoding -/

/-- The metadata block, frames/f_payload.rs:54-60 and frames/request_payload.rs:65-72. Returns metadata and data. -/
def decodeBody (hasMetadata : Bool) (buffer : Bytes) : Res (Bytes × Bytes) :=
  if hasMetadata then do
    let x ← splitTo buffer 3
    let n ← fromU24 x.1
    splitTo x.2 n.toNat
  else .ok ([], buffer)

/-- `PayloadFrame::decode_frame`, frames/f_payload.rs:51-70, after `check_type`. -/
def decodePayload (h buffer : Bytes) : Res Frame := do
  let x ← decodeBody (check h flagMetadata) buffer
  return .payload { streamID := streamId h, metadata := x.1, data := x.2, follows := check h flagFollow,
                    complete := check h flagComplete, next := check h flagNext }

/-- frames/request_payload.rs:59-63 -/
def decodeInitialN (t : FrameType) (buffer : Bytes) : Res (UInt32 × Bytes) :=
  if isMulti t then do
    let x ← splitTo buffer 4
    let n ← fromU32 x.1
    return (n, x.2)
  else .ok (0, buffer)

/-- `RequestPayload::decode`, frames/request_payload.rs:56-83 -/
def decodeRequest (h buffer : Bytes) : Res Frame := do
  let t ← frameType h
  let x ← decodeInitialN t buffer
  let y ← decodeBody (check h flagMetadata) x.2
  return .request { frameType := t, streamID := streamId h, metadata := y.1, data := y.2,
                    follows := check h flagFollow, complete := check h flagComplete, initialN := x.1 }

/-- `RequestN::decode_frame`, frames/f_request_n.rs:30-36 -/
def decodeRequestN (h buffer : Bytes) : Res Frame := do
  let x ← splitTo buffer 4
  let n ← fromU32 x.1
  return .requestN { streamID := streamId h, n := n }

/-- `ErrorFrame::decode_frame`, frames/f_error.rs:31-39; the text of `Error::StringConversion`: error.rs:31 -/
def decodeError (h buffer : Bytes) : Res Frame := do
  let x ← splitTo buffer 4
  let code ← fromU32 x.1
  if isUtf8 x.2 then return .error { streamID := streamId h, code := code, data := x.2 }
  else .err "Could not read string bytes"

/-- `Frame::_decode`, frames/mod.rs:398-420. `check_type` in each `decode_frame` repeats the test of the `match`. The
remaining types end in `todo!()` or `unreachable!()`, which panic. -/
def decodeAs (t : FrameType) (h buffer : Bytes) : Res Frame :=
  if t = tRequestResponse ∨ t = tRequestFNF ∨ t = tRequestStream ∨ t = tRequestChannel then decodeRequest h buffer
  else if t = tRequestN then decodeRequestN h buffer
  else if t = tCancel then .ok (.cancel { streamID := streamId h })
  else if t = tPayload then decodePayload h buffer
  else if t = tError then decodeError h buffer
  else .panic

/-- `Frame::decode`, frames/mod.rs:392-396 -/
def decode (bytes : Bytes) : Res Frame := do
  let x ← splitTo bytes 6
  let t ← frameType x.1
  decodeAs t x.1 x.2

/-! ## Constructors used by the socket -/

/-- `Frame::new_request_response` (kind 4), `new_request_fnf` (5), `new_request_stream` (6), `new_request_channel` (7),
frames/mod.rs:457-474 with frames/request_payload.rs:27-43. Only `new_request_channel` takes an initial demand; the
others pass 0. -/
def newRequest (t : FrameType) (streamID : UInt32) (metadata data : Bytes) (flags : UInt16) (initialN : UInt32) :
    Frame :=
  .request { frameType := t, streamID := streamID, metadata := metadata, data := data,
             follows := flags &&& flagFollow == flagFollow, complete := flags &&& flagComplete == flagComplete,
             initialN := if t = tRequestChannel then initialN else 0 }

/-- `Frame::new_payload`, frames/mod.rs:477-479 with frames/f_payload.rs:27-36 -/
def newPayload (streamID : UInt32) (metadata data : Bytes) (flags : UInt16) : Frame :=
  .payload { streamID := streamID, metadata := metadata, data := data,
             follows := flags &&& flagFollow == flagFollow, complete := flags &&& flagComplete == flagComplete,
             next := flags &&& flagNext == flagNext }

/-- `read_frame`, util.rs:46-54, on the bytes that will ever arrive: the frame and what is left, or `none` (the reader
fails with an I/O error). -/
def readFrame (s : Bytes) : Option (Bytes × Bytes) :=
  if 3 ≤ s.length then
    if beNat (0 :: s.take 3) ≤ (s.drop 3).length then
      some ((s.drop 3).take (beNat (0 :: s.take 3)), (s.drop 3).drop (beNat (0 :: s.take 3)))
    else none
  else none

/-! ## Call metadata -/

/-- `Metadata::encode`, frames/metadata.rs:13-22 -/
def encodeMetadata (index : UInt32) : Bytes := be32 index ++ [0, 0, 0, 0]

/-- `Payload::parse_metadata`, frames/mod.rs:299-307, on metadata that is present. -/
def parseMetadata (metadata : Bytes) : Res UInt32 := sliceTo metadata 4 >>= fromU32

end Iota.Rust
