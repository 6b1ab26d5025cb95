import Verif.Model.Transform

/-!
# A channel that changes every string

Model of the operation `Uppercase` of the example's guest from the frames that come in for a request to the frames that are sent:
`/repo/go/transport/wasmrs/cmd/guest/main.go:95-113`, its wrapper `/repo/go/transport/wasmrs/example/uppercase.go:42-47`,
`handleRequestChannel` and the handling of frames in `/repo/go/transport/wasmrs/guest/guest.go`, and the two fluxes and two mappers
between them (`/repo/go/rx/flux/flux.go`).

The input `in` of the handler is a flux (guest.go:422-437) whose subscriber, made by the mapper with `String.Decode`, has the callbacks of
main.go:97-111. These tell the subscriber of the flux made in main.go:96, whose callbacks are those of the mapper with
`String.Encode` around those of guest.go:439-461.

Simplifications:
* `strings.ToUpper` is a parameter.
* The payload of the request itself is handed to the handler, which does not look at it (uppercase.go:43-44), and is left out.
* The guest is not called while it sends a frame.
* How many values the caller has asked for is an unbounded integer.
-/

namespace Iota.Upper
open Iota.Go

/-- A frame for the stream of the request. -/
inductive In where
  | payload (metadata data : Bytes) (next complete : Bool)
  | error (e : String)
  | cancel
  | demand (n : Nat)
  deriving DecidableEq, Repr

/-- A frame that is sent. -/
inductive Out where
  | ask (n : Nat)
  | next (metadata data : Bytes)
  | complete
  | error (e : String)
  deriving DecidableEq, Repr

/-- `here`: is the stream registered? `inClosed`, `inN`: the subscriber of the input. `outClosed`, `outN`: the subscriber of the result.
`crashed`: the guest has panicked. -/
structure Chan where
  here : Bool
  inClosed : Bool
  inN : Nat
  outClosed : Bool
  outN : Int
  crashed : Bool
  sent : List Out
  deriving DecidableEq, Repr

/-- `OnRequest` of the input: `s.Request(2)`, which sends a frame. main.go:108-110, flux.go:195-200, guest.go:425-430 -/
def Chan.ask (c : Chan) : Chan := { c with inN := c.inN + 2, sent := c.sent ++ [.ask 2] }

/-- `OnNext` of the mapper of the result, for what `String.Encode` gives. flux.go:234-248, guest.go:440-447, 454-459 -/
def Chan.pass (c : Chan) : Res Bytes → Chan
  | .ok d => { c with sent := c.sent ++ [.next [] d] }
  | .err e => { c with sent := c.sent ++ [.error e] }
  | .panic => { c with crashed := true }

/-- `sink.Next(strings.ToUpper(value))`. main.go:98-100, flux.go:127-139. The subscriber asks for nothing (guest.go:460). -/
def Chan.outNext (up : Bytes → Bytes) (c : Chan) (v : Bytes) : Chan :=
  if c.outClosed then c else { c with outN := c.outN - 1 }.pass (Transform.string.encode (up v))

/-- `sink.Complete()`. main.go:101-104, flux.go:141-150, guest.go:448-453 -/
def Chan.outComplete (c : Chan) : Chan := if c.outClosed then c else { c with outClosed := true, sent := c.sent ++ [.complete] }

/-- `sink.Error(err)`. main.go:105-107, flux.go:152-162, guest.go:454-459 -/
def Chan.outError (c : Chan) (e : String) : Chan := if c.outClosed then c else { c with outClosed := true, sent := c.sent ++ [.error e] }

/-- `OnNext` of the mapper of the input, for what `String.Decode` gives. flux.go:234-248 -/
def Chan.take (up : Bytes → Bytes) (c : Chan) : Res Bytes → Chan
  | .ok v => c.outNext up v
  | .err e => c.outError e
  | .panic => { c with crashed := true }

/-- The end of `Next` of the input: ask for more if nothing is left of what was asked for. flux.go:136-138, 184-193 -/
def Chan.more (c : Chan) : Chan := if c.crashed then c else if c.inN = 0 then c.ask else c

/-- `Next` of the input. guest.go:601-603, flux.go:127-139 -/
def Chan.inNext (up : Bytes → Bytes) (c : Chan) (data : Bytes) : Chan :=
  if c.inClosed then c else ({ c with inN := c.inN - 1 }.take up (Transform.string.decode data)).more

/-- `Complete` of the input. guest.go:605-607, flux.go:141-150 -/
def Chan.inComplete (c : Chan) : Chan := if c.inClosed then c else { c with inClosed := true }.outComplete

/-- `Error` of the input. guest.go:609-611, flux.go:152-162 -/
def Chan.inError (c : Chan) (e : String) : Chan := if c.inClosed then c else { c with inClosed := true }.outError e

/-- `removeStream`. -/
def Chan.gone (c : Chan) : Chan := { c with here := false }

/-- The end of a payload. guest.go:280-283 -/
def Chan.finish (c : Chan) (complete : Bool) : Chan := if c.crashed || !complete then c else c.inComplete.gone

/-- A frame of a registered stream. guest.go:205-294 -/
def Chan.handle (up : Bytes → Bytes) (c : Chan) : In → Chan
  | .payload _ data next complete => (if next then c.inNext up data else c).finish complete
  | .error e => ((c.inError e).inComplete).gone
  | .cancel => c.inComplete.gone
  | .demand n => { c with outN := c.outN + n }

/-- A frame. One for a stream that is not registered is dropped. guest.go:124-135 -/
def Chan.frame (up : Bytes → Bytes) (c : Chan) (f : In) : Chan := if c.crashed || !c.here then c else c.handle up f

/-- `handleRequestChannel`: the input is subscribed to, which asks for two, and the caller's first demand is noted. guest.go:405-466,
flux.go:80-94, 173-200 -/
def start (initialN : Nat) : Chan :=
  { ({ here := true, inClosed := false, inN := 0, outClosed := false, outN := 0, crashed := false, sent := [] } : Chan).ask with outN := initialN }

/-- Frames one after the other. -/
def Chan.run (up : Bytes → Bytes) : Chan → List In → Chan
  | c, [] => c
  | c, f :: fs => Chan.run up (c.frame up f) fs

end Iota.Upper
