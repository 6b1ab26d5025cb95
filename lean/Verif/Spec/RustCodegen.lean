import Verif.Model.RustCodegen

/-!
# Specification: what a document says

The operations a document declares, read off directly, and what the functions that change names have to satisfy.
-/

namespace Iota.Spec.RustCodegen
open Iota.RustCodegen Iota.Rust Go

/-- The operations of the interfaces of one role, each with the name of its interface. -/
def declared (r : Role) (is : List Iface) : List (Bytes × Oper) :=
  (is.filter (·.role = r)).flatMap fun i => i.ops.map fun o => (i.name, o)

/-- The kind of request an operation has by its shape: a stream in and out, only out, or none. -/
def kindOf (o : Oper) : Option Rust.Method :=
  match o.params, o.streamOut with
  | [true], true => some .rc
  | ps, out => if ps.all (fun b => !b) then (if out then some .rs else some .rr) else none

/-- On the names of this document the three ways to write a constant agree, and so do the two for a component. -/
structure Agrees (c : Cases) (d : Doc) : Prop where
  caps : ∀ x ∈ declared .provider d.ifaces, c.const_ (under (c.caps x.1) x.2.name) = c.const_ (under x.1 x.2.name)
  snake : ∀ x ∈ declared .provider d.ifaces, c.const_ (under x.1 (c.rustify x.2.name)) = c.const_ (under x.1 x.2.name)
  component : ∀ x ∈ declared .service d.ifaces, c.caps (x.1 ++ lit "Component") = c.caps x.1 ++ lit "Component"

end Iota.Spec.RustCodegen
