import Verif.Spec.RustPair

/-!
# Specification: channels between a host and a guest written in Rust

Only about what the input of a channel call yields, what its handler yields, and what the two are told.
-/

namespace Iota.Spec.RustChannels
open Iota.Go Iota.Frames Iota.Rust Iota.Spec.RustSocket Iota.Spec.RustPair

/-- What the input of a channel call gave: the second time that its task goes on it only learns how many more elements
the handler asks for. -/
def given (ys : List Yield) : List Yield := ys.take 1 ++ ys.drop 2

/-- What the handler of a channel is told when its input gives: the elements, up to its end or first failure. Of a failure
it is told only that there was one. -/
def toldInput : List Yield → List Signal × Bool
  | [] => ([], false)
  | .ok md d :: ys => (.ok md d :: (toldInput ys).1, (toldInput ys).2)
  | .err _ :: _ => ([.err 513 "REQUEST_CHANNEL failed".toUTF8.toList], true)
  | .done :: _ => ([], true)

end Iota.Spec.RustChannels
