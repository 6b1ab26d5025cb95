import Verif.Model.Frames

/-!
# Demand of a remote stream

Model of `streamFlux` in `/repo/go/proxy/flux.go`: the frames the proxy of a stream or channel call sends for
the demand and the cancellation of its local subscriber. `Request` is only called by the subscriber of the
embedded processor, which serialises the calls with its lock (`/repo/go/rx/flux/flux_host.go`), so the calls
form a sequence. What the input of a channel sends is left out: it is subscribed to by the first `Request`,
without demand.
-/

namespace Iota.ProxyFlux
open Go Iota.Frames

/-- `uint32(n)` for a Go `int`. -/
def toU32 (n : Int) : UInt32 := UInt32.ofNat (n % 4294967296).toNat

/-- The fields of `streamFlux` that matter, and the frames sent, oldest first. flux.go:31-42 -/
structure State where
  request : RequestPayload
  first : Bool
  complete : Bool
  sent : List Frame

/-- `Flux`. flux.go:12-28 -/
def State.new (request : RequestPayload) : State := ⟨request, true, false, []⟩

/-- What happens to the proxy: its subscriber asks for `n` elements or cancels; the remote side completes. -/
inductive Op where
  | request (n : Int)
  | cancel
  | complete
  deriving DecidableEq, Repr

/-- `Request`. flux.go:76-116 -/
def State.doRequest (s : State) (n : Int) : State :=
  if s.complete then s
  else if s.first then
    { s with
      request := { s.request with initialN := toU32 n }
      first := false
      sent := s.sent ++ [.request { s.request with initialN := toU32 n }] }
  else { s with sent := s.sent ++ [.requestN ⟨s.request.streamID, toU32 n⟩] }

/-- `Request`, `Cancel` (flux.go:117-121) and `OnComplete` (flux.go:56-59). -/
def State.step (s : State) : Op → State
  | .request n => s.doRequest n
  | .cancel => { s with sent := s.sent ++ [.cancel ⟨s.request.streamID⟩] }
  | .complete => { s with complete := true }

/-- A life of the proxy. -/
def State.run (s : State) (ops : List Op) : State := ops.foldl State.step s

end Iota.ProxyFlux
