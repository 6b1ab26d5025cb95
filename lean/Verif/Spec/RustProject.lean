import Verif.Model.RustProject
import Verif.Spec.RustCodegen

/-!
# Specification: the files of a Rust project

Which names a document gives to modules and files, read off directly.
-/

namespace Iota.Spec.RustProject
open Iota.RustCodegen Iota.Rust Iota.RustProject Go Iota.Spec.RustCodegen

/-- The interfaces of one role. -/
def of (r : Role) (d : Doc) : List Iface := d.ifaces.filter fun i => decide (i.role = r)

/-- The names of modules that a document needs in one place: one for the actions of each service, one for the types of each
service and one for each provider. -/
def topNames (c : Cases) (d : Doc) : List Bytes :=
  ((of .service d).map fun i => c.rustify i.name) ++ ((of .service d).map fun i => c.rustify i.name ++ lit "_service") ++
    (of .provider d).map fun i => c.rustify i.name

/-- The names of modules are different where they have to be. -/
structure Apart (c : Cases) (d : Doc) : Prop where
  top : (topNames c d).Nodup
  ops : ∀ i ∈ d.ifaces, i.role ≠ .other → (i.ops.map fun o => c.rustify o.name).Nodup

/-- The names of modules are parts of paths: there is no slash in them. -/
def Plain (c : Cases) : Prop := ∀ b, (47 : UInt8) ∉ c.rustify b

/-- Each operation of a service or provider has a kind. -/
def Kinds (d : Doc) : Prop := ∀ i ∈ d.ifaces, i.role ≠ .other → ∀ o ∈ i.ops, kindOf o ≠ none

/-- How a task of an operation of this kind is written and called. -/
def taskOf : Method → Shape
  | .rc => ⟨[.receiver, .flux], .flux⟩
  | .rs => ⟨[.value, .flux], .flux⟩
  | _ => ⟨[.value], .value⟩

/-- The file of an operation. -/
def fileOf (c : Cases) (i : Iface) (o : Oper) : Bytes := actionPath (c.rustify i.name) (c.rustify o.name)

/-- No file of an action is there. -/
def Fresh (disk : Disk) : Prop := ∀ i a, disk (actionPath i a) = none

end Iota.Spec.RustProject
