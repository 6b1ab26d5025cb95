import Verif.Model.Block
import Verif.Model.Handler

/-!
# Serving a stream and feeding its caller

Model of the closures that join the library of fluxes with frames: on the responding side the subscriber of
`handleRequestStream` and `handleRequestChannel` (`/repo/go/handler/handler.go`), on the calling side the methods by
which `streamFlux` (`/repo/go/proxy/flux.go`) hands what arrives to its processor. The subscriber of the input of a
channel (proxy/flux.go:86-108) consists of the same closures as the one of a response.

A frame given to `sendFrame` is taken as sent; what the connection does with it is the subject of the models of
framing and transport. `msg` is `err.Error()`.
-/

namespace Iota.Serve
open Go

/-- A payload: data and metadata. -/
abbrev Pay := Bytes × Bytes

/-- The callbacks of the subscriber: values and ends are handled, there is neither `OnRequest` nor `Finally`, and
`NoRequest` is set. handler.go:311-333, 370-392, proxy/flux.go:86-108 -/
def serve : Flux.Handlers :=
  { onNext := true, onComplete := true, onError := true, onRequest := false, onFinally := false, noRequest := true }

/-- The frame a callback of subscriber `i` sends. handler.go:312-331, 371-390, proxy/flux.go:87-106 -/
def sendOf {V E : Type} (msg : E → Bytes) (id : UInt32) (i : Nat) : Flux.Ev V E Pay → Option Frames.Frame
  | .onNext j p => if j = i then some (.payload ⟨id, p.2, p.1, false, false, true⟩) else none
  | .onComplete j => if j = i then some (.payload ⟨id, [], [], false, true, false⟩) else none
  | .onError j e => if j = i then some (.error ⟨id, 0, msg e⟩) else none
  | _ => none

/-- The frames subscriber `i` has sent, oldest first; the history is kept latest first. -/
def sent {V E : Type} (msg : E → Bytes) (id : UInt32) (i : Nat) (log : List (Flux.Ev V E Pay)) : List Frames.Frame :=
  (log.filterMap (sendOf msg id i)).reverse

/-- What `streamFlux`, the stream at position `i` of a connection, makes of what it is told: `OnNext`, `OnComplete` and
`OnError` call the method of its processor. proxy/flux.go:51-62 -/
def fed {H : Type} (i : Nat) : Handler.Ev H → Option (Flux.Call Pay Bytes)
  | .next j d m => if j = i then some (.next (d, m)) else none
  | .complete j => if j = i then some .complete else none
  | .error j m => if j = i then some (.error m) else none
  | _ => none

end Iota.Serve
