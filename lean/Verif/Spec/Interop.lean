import Verif.Model.Frames

/-!
# The same frame in two languages

When two peers written in different languages mean the same frame: every field that the RSocket frame kind carries on the
wire is the same. A request carries its initial demand only if it asks for several results (kinds 6 and 7), and the
completion mark only if it is a channel (kind 7). Only the frame record types are shared with the models.
-/

namespace Iota.Spec.Interop
open Frames

def Same : Frame → Frame → Prop
  | .request f, .request g =>
    f.frameType = g.frameType ∧ f.streamID = g.streamID ∧ f.metadata = g.metadata ∧ f.data = g.data ∧
    f.follows = g.follows ∧ (f.frameType.toNat = 7 → f.complete = g.complete) ∧
    (f.frameType.toNat = 6 ∨ f.frameType.toNat = 7 → f.initialN = g.initialN)
  | .request _, _ => False
  | f, g => f = g

end Iota.Spec.Interop
