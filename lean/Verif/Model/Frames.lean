import Verif.Go.Basic

/-! Model of `/repo/go/internal/frames` and of the frame dispatch in
`/repo/go/transport/rsocket/tcp_conn.go`. -/

namespace Iota.Frames
open Go

/-! ## Types and flags (types.go) -/

/-- `FrameType`, types.go:8-28 -/
abbrev FrameType := UInt8
def tRequestResponse : FrameType := 0x04
def tRequestFNF : FrameType := 0x05
def tRequestStream : FrameType := 0x06
def tRequestChannel : FrameType := 0x07
def tRequestN : FrameType := 0x08
def tCancel : FrameType := 0x09
def tPayload : FrameType := 0x0A
def tError : FrameType := 0x0B

/-- `FrameFlag`, types.go:70, constants types.go:94-104 (`1 << (5 + iota)`). -/
abbrev FrameFlag := UInt16
def flagNext : FrameFlag := (1 : UInt16) <<< 5
def flagComplete : FrameFlag := (1 : UInt16) <<< 6
def flagFollow : FrameFlag := (1 : UInt16) <<< 7
def flagMetadata : FrameFlag := (1 : UInt16) <<< 8
def flagIgnore : FrameFlag := (1 : UInt16) <<< 9

/-- `FrameFlag.Check`, types.go:107-109 -/
def FrameFlag.check (f flag : FrameFlag) : Bool := flag &&& f == flag

/-! ## Header (frame_header.go) -/

/-- `FrameHeaderLen`, frame_header.go:12 -/
def headerLen : Nat := 6

/-- `FrameHeader`, frame_header.go:18: an array of six bytes; `parseHeader` and `newHeader` only
produce lists of length six. -/
abbrev Header := Bytes

/-- `FrameHeader.n`, frame_header.go:75-77 -/
def Header.n (h : Header) : UInt16 := UInt16.ofNat (beNat ((h.drop 4).take 2))

/-- `FrameHeader.StreamID`, frame_header.go:56-58 -/
def Header.streamID (h : Header) : UInt32 := UInt32.ofNat (beNat (h.take 4)) &&& 0x7FFFFFFF

/-- `FrameHeader.Type`, frame_header.go:61-63 -/
def Header.type (h : Header) : FrameType := ((Header.n h &&& 0xFC00) >>> 10).toUInt8

/-- `FrameHeader.Flag`, frame_header.go:66-68 -/
def Header.flag (h : Header) : FrameFlag := Header.n h &&& 0x03FF

/-- The second header word, frame_header.go:83, 98 -/
def typeWord (t : FrameType) (fg : FrameFlag) : UInt16 := (t.toUInt16 <<< 10) ||| fg

/-- `NewFrameHeader`, frame_header.go:80-85 -/
def newHeader (streamID : UInt32) (t : FrameType) (fg : FrameFlag) : Header :=
  be32 streamID ++ be16 (typeWord t fg)

/-- `ResetFrameHeader`, frame_header.go:96-99, on the current slice of a walk through a buffer. -/
def resetHeader (c : Cur) (streamID : UInt32) (t : FrameType) (fg : FrameFlag) : Res Cur := do
  let c ← c.putAt 0 (be32 streamID)
  c.putAt 4 (be16 (typeWord t fg))

/-- `ParseFrameHeader`, frame_header.go:102-107 -/
def parseHeader (bs : Bytes) : Res Header :=
  if headerLen ≤ bs.length then .ok (bs.take headerLen) else .panic

/-! ## Frames -/

/-- cancel.go:5-7 -/
structure Cancel where
  streamID : UInt32
  deriving DecidableEq, Repr

/-- error.go:9-13. `Data` is a Go string, i.e. bytes. -/
structure Error where
  streamID : UInt32
  code : UInt32
  data : Bytes
  deriving DecidableEq, Repr

/-- request_n.go:9-12 -/
structure RequestN where
  streamID : UInt32
  n : UInt32
  deriving DecidableEq, Repr

/-- payload.go:9-16. `nil` and empty slices are identified (only `len` is ever inspected). -/
structure Payload where
  streamID : UInt32
  metadata : Bytes
  data : Bytes
  follows : Bool
  complete : Bool
  next : Bool
  deriving DecidableEq, Repr

/-- request_payload.go:14-22 -/
structure RequestPayload where
  frameType : FrameType
  streamID : UInt32
  metadata : Bytes
  data : Bytes
  follows : Bool
  complete : Bool
  initialN : UInt32
  deriving DecidableEq, Repr

/-- `frames.Frame` interface: the five implementations. -/
inductive Frame where
  | cancel (f : Cancel)
  | error (f : Error)
  | requestN (f : RequestN)
  | payload (f : Payload)
  | request (f : RequestPayload)
  deriving DecidableEq, Repr

/-- `GetStreamID` of each frame. -/
def Frame.streamID : Frame → UInt32
  | .cancel f => f.streamID
  | .error f => f.streamID
  | .requestN f => f.streamID
  | .payload f => f.streamID
  | .request f => f.streamID

/-- `Type` of each frame. -/
def Frame.type : Frame → FrameType
  | .cancel _ => tCancel
  | .error _ => tError
  | .requestN _ => tRequestN
  | .payload _ => tPayload
  | .request f => f.frameType

/-! ### Encoding -/

/-- Conversion of a length to `uint32`. -/
def u32len (n : Nat) : Nat := n % 4294967296

/-- cancel.go:25-27 -/
def Cancel.encode (f : Cancel) (buf : Bytes) : Res Bytes := do
  let c ← resetHeader (.start buf) f.streamID tCancel 0
  return c.buf

/-- error.go:36-43 -/
def Error.encode (f : Error) (buf : Bytes) : Res Bytes := do
  let c ← resetHeader (.start buf) f.streamID tError 0
  let c ← c.adv headerLen
  let c ← c.putAt 0 (be32 f.code)
  let c ← c.adv 4
  return (c.copy f.data).buf

/-- request_n.go:33-38 -/
def RequestN.encode (f : RequestN) (buf : Bytes) : Res Bytes := do
  let c ← resetHeader (.start buf) f.streamID tRequestN 0
  let c ← c.adv headerLen
  let c ← c.putAt 0 (be32 f.n)
  return c.buf

/-- The metadata block shared by payload.go:75-84 and request_payload.go:91-100:
3-byte length, metadata, then data. `payload[0:3]` panics when fewer than three bytes are left. -/
def encodeBody (c : Cur) (metadata data : Bytes) : Res Cur := do
  let mdLen := u32len metadata.length
  let c ← if mdLen > 0 then do
      let c ← c.putAt 0 ((beBytes 4 mdLen).drop 1)
      let c ← c.adv 3
      let c := c.copy metadata
      c.adv mdLen
    else pure c
  return c.copy data

/-- Flags computed in payload.go:58-70 -/
def Payload.flags (f : Payload) : FrameFlag :=
  (if f.follows then flagFollow else 0) ||| (if f.complete then flagComplete else 0) |||
  (if f.next then flagNext else 0) |||
  (if u32len f.metadata.length > 0 then flagMetadata else 0)

/-- payload.go:55-85 -/
def Payload.encode (f : Payload) (buf : Bytes) : Res Bytes := do
  let c ← resetHeader (.start buf) f.streamID tPayload f.flags
  let c ← c.adv headerLen
  let c ← encodeBody c f.metadata f.data
  return c.buf

/-- `f.FrameType == FrameTypeRequestStream || f.FrameType == FrameTypeRequestChannel` -/
def hasInitialN (t : FrameType) : Bool := t == tRequestStream || t == tRequestChannel

/-- Flags computed in request_payload.go:74-81. The follow bit is never set. -/
def RequestPayload.flags (f : RequestPayload) : FrameFlag :=
  (if f.frameType == tRequestChannel && f.complete then flagComplete else 0) |||
  (if u32len f.metadata.length > 0 then flagMetadata else 0)

/-- request_payload.go:86-89 -/
def encodeInitialN (c : Cur) (t : FrameType) (n : UInt32) : Res Cur :=
  if hasInitialN t then do
    let c ← c.putAt 0 (be32 n)
    c.adv 4
  else .ok c

/-- request_payload.go:71-101 -/
def RequestPayload.encode (f : RequestPayload) (buf : Bytes) : Res Bytes := do
  let c ← resetHeader (.start buf) f.streamID f.frameType f.flags
  let c ← c.adv headerLen
  let c ← encodeInitialN c f.frameType f.initialN
  let c ← encodeBody c f.metadata f.data
  return c.buf

/-- `Frame.Encode(buf)`; the result is the whole buffer after the call. -/
def Frame.encode : Frame → Bytes → Res Bytes
  | .cancel f => f.encode
  | .error f => f.encode
  | .requestN f => f.encode
  | .payload f => f.encode
  | .request f => f.encode

/-! ### Sizes -/

/-- payload.go:87-96; `uint32` arithmetic. -/
def Payload.size (f : Payload) : Nat :=
  u32len (headerLen + (f.metadata.length + f.data.length) +
    if u32len f.metadata.length > 0 then 3 else 0)

/-- request_payload.go:103-115 -/
def RequestPayload.size (f : RequestPayload) : Nat :=
  u32len (headerLen + (if hasInitialN f.frameType then 4 else 0) +
    (f.metadata.length + f.data.length) + if u32len f.metadata.length > 0 then 3 else 0)

/-- `Size` of each frame: cancel.go:29-31, error.go:45-47, request_n.go:40-42 and above. -/
def Frame.size : Frame → Nat
  | .cancel _ => headerLen
  | .error f => u32len (headerLen + 4 + f.data.length)
  | .requestN _ => headerLen + 4
  | .payload f => f.size
  | .request f => f.size

/-! ### Decoding -/

/-- The metadata block shared by payload.go:34-41 and request_payload.go:49-56. Returns metadata
and data. `payload[:mdLength]` may reach spare capacity of the buffer, but then
`payload[mdLength:]` panics in the next line, so the outcome is the same panic. -/
def decodeBody (hasMetadata : Bool) (payload : Bytes) : Res (Bytes × Bytes) :=
  if hasMetadata then do
    let lenBuf ← sliceTo payload 3
    let mdLength := beNat (0 :: lenBuf)
    let payload ← sliceFrom payload 3
    let metadata ← sliceTo payload mdLength
    let payload ← sliceFrom payload mdLength
    return (metadata, payload)
  else return ([], payload)

/-- payload.go:26-53 -/
def Payload.decode (h : Header) (payload : Bytes) : Res Payload := do
  let flags := Header.flag h
  let (metadata, data) ← decodeBody (FrameFlag.check flags flagMetadata) payload
  return { streamID := Header.streamID h, metadata := metadata, data := data,
           follows := FrameFlag.check flags flagFollow,
           complete := FrameFlag.check flags flagComplete,
           next := FrameFlag.check flags flagNext }

/-- request_payload.go:37-43: demand (1 if the kind carries none) and remaining bytes. -/
def decodeInitialN (t : FrameType) (payload : Bytes) : Res (UInt32 × Bytes) :=
  if hasInitialN t then do
    let n ← getU32 payload
    let payload ← sliceFrom payload 4
    return (n, payload)
  else .ok (1, payload)

/-- request_payload.go:32-69 -/
def RequestPayload.decode (h : Header) (payload : Bytes) : Res RequestPayload := do
  let t := Header.type h
  let flags := Header.flag h
  let (initialN, payload) ← decodeInitialN t payload
  let complete := if t == tRequestChannel then FrameFlag.check flags flagComplete else true
  let (metadata, data) ← decodeBody (FrameFlag.check flags flagMetadata) payload
  return { frameType := t, streamID := Header.streamID h, metadata := metadata, data := data,
           follows := FrameFlag.check flags flagFollow, complete := complete,
           initialN := initialN }

/-- error.go:23-34 -/
def Error.decode (h : Header) (payload : Bytes) : Res Error := do
  let code ← getU32 payload
  let data ← sliceFrom payload 4
  return { streamID := Header.streamID h, code := code, data := data }

/-- request_n.go:22-31 -/
def RequestN.decode (h : Header) (payload : Bytes) : Res RequestN := do
  let n ← getU32 payload
  return { streamID := Header.streamID h, n := n }

/-- cancel.go:17-23 -/
def Cancel.decode (h : Header) (_ : Bytes) : Res Cancel :=
  .ok { streamID := Header.streamID h }

/-- The `case` of tcp_conn.go:56-57 -/
def isRequestType (t : FrameType) : Bool :=
  t == tRequestResponse || t == tRequestFNF || t == tRequestStream || t == tRequestChannel

/-- Dispatch on the frame type: tcp_conn.go:49-94 (after the raw frame has been read);
host/instance.go:254 ff and guest/guest.go:106 ff use the same switch. -/
def decodeFrame (raw : Bytes) : Res Frame := do
  let header ← parseHeader raw
  let buffer ← sliceFrom raw headerLen
  let t := Header.type header
  if isRequestType t then
    return .request (← RequestPayload.decode header buffer)
  else if t == tRequestN then return .requestN (← RequestN.decode header buffer)
  else if t == tCancel then return .cancel (← Cancel.decode header buffer)
  else if t == tPayload then return .payload (← Payload.decode header buffer)
  else if t == tError then return .error (← Error.decode header buffer)
  else .err "unknown frame"

/-! ### Fragmentation -/

/-- `a - b` in `uint32`, for `a, b < 2^32`. -/
def sub32 (a b : Nat) : Nat := (a + 4294967296 - b) % 4294967296

/-- One iteration of the loop in `splitPayloads`, util.go:18-58. `none` is the `break`; otherwise
the emitted frame with the remaining metadata and data. No slice expression in it can panic. -/
def splitStep (streamID : UInt32) (next complete : Bool) (max : Nat) (metadata data : Bytes) :
    Option (Payload × Bytes × Bytes) :=
  let lenMd := u32len metadata.length
  let lenData := u32len data.length
  if u32len (lenMd + lenData) = 0 then none
  else
    let nonData := headerLen + if lenMd > 0 then 3 else 0
    let space := sub32 max nonData
    let follows : Bool := u32len (nonData + lenMd + lenData) > max
    let mk (m d : Bytes) : Payload :=
      { streamID := streamID, metadata := m, data := d, follows := follows,
        complete := !follows && complete, next := !follows && next }
    if lenMd > space then
      some (mk (metadata.take space) [], metadata.drop space, data)
    else if lenData > sub32 space lenMd then
      let dataSpace := min (sub32 space lenMd) lenData
      some (mk metadata (data.take dataSpace), [], data.drop dataSpace)
    else
      some (mk metadata data, [], [])

/-- `splitPayloads`, util.go:17-61, with a bound on the number of iterations; `none` means the loop
is still running after `fuel` iterations. -/
def splitPayloads (streamID : UInt32) (next complete : Bool) (max : Nat) :
    (fuel : Nat) → (metadata data : Bytes) → Option (List Payload)
  | 0, _, _ => none
  | fuel + 1, metadata, data =>
    match splitStep streamID next complete max metadata data with
    | none => some []
    | some (p, md, d) => (splitPayloads streamID next complete max fuel md d).map (p :: ·)

/-- payload.go:98-105; `some []` is Go's `nil` (no fragmentation needed). -/
def Payload.fragment (f : Payload) (max fuel : Nat) : Option (List Payload) :=
  if f.size ≤ max then some []
  else splitPayloads f.streamID f.next f.complete max fuel f.metadata f.data

/-- First frame and remaining (metadata, data) computed in request_payload.go:123-161. -/
def RequestPayload.firstFragment (f : RequestPayload) (max : Nat) :
    Res (RequestPayload × Bytes × Bytes) :=
  let nonData := headerLen + if hasInitialN f.frameType then 4 else 0
  let maxMD := sub32 (sub32 max nonData) 3
  let lenMd := u32len f.metadata.length
  let mk (m d : Bytes) : RequestPayload :=
    { frameType := f.frameType, streamID := f.streamID, metadata := m, data := d,
      follows := true, complete := false, initialN := f.initialN }
  if lenMd ≥ maxMD then
    .ok (mk (f.metadata.take maxMD) [], f.metadata.drop maxMD, f.data)
  else do
    let diff := sub32 f.size max
    let dataOff := sub32 (u32len f.data.length) diff
    let dataFrag ← sliceTo f.data dataOff
    let data ← sliceFrom f.data dataOff
    -- `metadata` keeps its full contents here (request_payload.go:147-161)
    return (mk f.metadata dataFrag, f.metadata, data)

/-- request_payload.go:117-166. `ok none`: loop still running after `fuel` iterations;
`ok (some none)`: no fragmentation needed. -/
def RequestPayload.fragment (f : RequestPayload) (max fuel : Nat) :
    Res (Option (Option (RequestPayload × List Payload))) :=
  if f.size ≤ max then .ok (some none)
  else do
    let (first, metadata, data) ← f.firstFragment max
    return (splitPayloads f.streamID true f.complete max fuel metadata data).map
      (fun ps => some (first, ps))

end Iota.Frames
