import Verif.Go.Basic
import Verif.Model.Frames

/-!
# RSocket wire format

The byte layout of each frame kind as given in the RSocket protocol document
(<https://rsocket.io/about/protocol>), written with plain arithmetic, without any of the encoder's
helpers. Only the frame record types are shared with the model.
-/

namespace Iota.Spec.RSocket
open Go Frames

/-- Value of a flag bit. -/
def bit (b : Bool) (v : Nat) : Nat := if b then v else 0

/-- 31-bit stream id (the top bit is zero), 6-bit type, 10-bit flags. -/
def header (streamID type flags : Nat) : Bytes := beBytes 4 streamID ++ beBytes 2 (type * 1024 + flags)

/-- Optional metadata with 24-bit length, then data. -/
def body (metadata data : Bytes) : Bytes :=
  if metadata = [] then data else beBytes 3 metadata.length ++ metadata ++ data

def hasMd (metadata : Bytes) : Bool := !metadata.isEmpty

/-- Initial request count of REQUEST_STREAM (6) and REQUEST_CHANNEL (7). -/
def initialN (type n : Nat) : Bytes := if type = 6 ∨ type = 7 then beBytes 4 n else []

/-- Wire image of a frame. Flag bits: metadata 256, follows 128, complete 64, next 32. -/
def wire : Frame → Bytes
  | .cancel f => header f.streamID.toNat 9 0
  | .requestN f => header f.streamID.toNat 8 0 ++ beBytes 4 f.n.toNat
  | .error f => header f.streamID.toNat 11 0 ++ beBytes 4 f.code.toNat ++ f.data
  | .payload f =>
    header f.streamID.toNat 10
      (bit (hasMd f.metadata) 256 + bit f.follows 128 + bit f.complete 64 + bit f.next 32) ++
      body f.metadata f.data
  | .request f =>
    header f.streamID.toNat f.frameType.toNat
      (bit (hasMd f.metadata) 256 + bit f.follows 128 +
        bit (f.complete && f.frameType.toNat == 7) 64) ++
      initialN f.frameType.toNat f.initialN.toNat ++ body f.metadata f.data

end Iota.Spec.RSocket
