import Verif.Model.Pager

/-!
# A slice read one page after the other

The first program of `/repo/go/transport/wasmrs/test.go`, on top of the machine of `Model/Flux`: a subscriber whose
`OnRequest` asks for a page, or cancels once it has seen a value it wants nothing more after (as in `Model/Pager`). The
source is the one of `FromSlice` (/repo/go/rx/flux/slice.go:3-18), which test.go:13-30 spells out.

Simplifications: the subscriber is one of the flux itself; that `Map` with a function that cannot fail (test.go:34-36) changes
nothing but the values is proved in `Props/Maps`. Printing and sleeping (test.go:18,23) are outside the model. The subscriber
of test.go never cancels; that of the model may.
-/

namespace Iota.SlicePager
open Iota.Flux Iota.Pager

variable {V E : Type}

/-- The flux on a host (flux_host.go) or in WebAssembly (flux_webassembly.go), with the source of `FromSlice`.
/repo/go/rx/flux/slice.go:3-18, /repo/go/transport/wasmrs/test.go:13-30 -/
def src (host : Bool) : Cfg V E V := ⟨host, .slice, .ok⟩

/-- `Subscribe`. /repo/go/transport/wasmrs/test.go:36-48 -/
def begin (host onComplete onError : Bool) (xs : List V) : State V E V :=
  subscribe (src host) 0 (reader onComplete onError) (init xs)

/-- The reader of the program: two values at a time, until the end. /repo/go/transport/wasmrs/test.go:32,41-43 -/
def pairs : Reader Nat := ⟨2, fun _ => false⟩

end Iota.SlicePager
