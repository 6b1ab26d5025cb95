import Verif.Model.Customer
import Verif.Spec.MeshCalls
import Verif.Spec.Components

/-!
# Specification: the modules of the mesh example
-/

namespace Iota.Spec.Customer
open Iota.Go Iota.Registry Iota.WasmDispatch Iota.WasmCalls Iota.Mesh Iota.MeshCalls Iota.Customer
open Iota.Spec.Handler (opIndex)
open Iota.Spec.Components (text)
open Iota.Peers (Result)

/-- The code that the import of the guest of `i` with this index is linked to. -/
def LinkedTo (c : Cfg) (i : Nat) (index : UInt32) (g : Code) : Prop :=
  ∃ d, c.mesh.moduleCall i .rr index = some d ∧ c.code d.instance_ .rr d.index = some g

/-- The import of the guest of `i` with this index is linked to nothing. -/
def Missing (c : Cfg) (i : Nat) (index : UInt32) : Prop := c.mesh.moduleCall i .rr index = none

/-- A request-response call of the host of `i` for the flow, with this customer. -/
structure Asks (c : Cfg) (w : World) (i j : Nat) (data : Bytes) : Prop where
  call : ∃ call, ((w.net.sys i).node .host).calls[j]? = some call ∧ call.kind = .rr ∧ call.data = data ∧
    ∃ op : UInt32, opIndex call.metadata = some op.toNat ∧ c.code i .rr op = some .newCustomer

/-- A success with this text. -/
def Says (r : Result) (s : Bytes) : Prop := ∃ d, r = .value d [] ∧ Transform.string.decode d = .ok s

end Iota.Spec.Customer
