import Verif.Model.Maps

/-!
# What a publisher that is mapped several times should do
-/

namespace Iota.Spec.Maps
open Iota.Maps

/-- All transformations in order; the first one that fails decides. -/
def composed {E : Type} : {S D : Type} → Txs E S D → S → Except E D
  | _, _, .one tx, v => tx v
  | _, _, .more tx rest, v =>
    match tx v with
    | .ok t => composed rest t
    | .error e => .error e

end Iota.Spec.Maps
