import Verif.Model.RustCodegen
import Verif.Model.Registry

/-!
# One document, two languages

Model of what a module that the TinyGo generator produces from a document registers and imports while it starts:
`/repo/codegen/src/tinygo/main_visitor.ts`, `register_visitor.ts`, `import_visitor.ts`, `utilities.ts`. Documents are those of
`Verif/Model/RustCodegen.lean`, so that the modules of both generators can be compared.

Simplifications:
* A handler is known by the names of its interface and its operation; what it does is in `Verif/Model/Calls.lean`.
* Which interfaces `isHandler`, `isService` and `isProvider` hold of is decided in a package outside the repository
  (register_visitor.ts:18-23, main_visitor.ts:22, import_visitor.ts:36); taken are those annotated as `service` and `provider`.
* Which providers `main` creates, and in which order, is decided there too (`UsesVisitor`, main_visitor.ts:20-30): any list.
* `getOperationParts` throws if two parameters are streams (utilities.ts:54-58); this is left out, since then nothing is generated
  in Rust either.
* Functions of a namespace, `@nocode` and `@rename` are left out.
-/

namespace Iota.Twins
open Iota.Go Iota.Rust Iota.RustCodegen Iota.Registry

/-- `rxStyle`. register_visitor.ts:52-59 -/
def rxStyle (o : Oper) : Kind :=
  if o.params.any (fun b => b) || o.streamOut then
    if o.params.any (fun b => b) then .rc else .rs
  else .rr

/-- `parts.type`. utilities.ts:44-63 -/
def partsType (o : Oper) : Kind :=
  if o.params.any (fun b => b) || o.streamOut then
    if o.params.any (fun b => b) then .rc else .rs
  else .rr

/-- `invoke.Export…("ns.iface", "op", …)`. register_visitor.ts:61-63 -/
def registerOp (ns iface : Bytes) (r : Reg (Bytes × Bytes)) (o : Oper) : Reg (Bytes × Bytes) :=
  exportOp r (rxStyle o) ⟨ns ++ lit "." ++ iface, o.name⟩ (iface, o.name)

/-- `Register…(svc)`. register_visitor.ts:31-72 -/
def registerIface (ns : Bytes) (r : Reg (Bytes × Bytes)) (i : Iface) : Reg (Bytes × Bytes) :=
  i.ops.foldl (registerOp ns i.name) r

/-- "Register services". main_visitor.ts:80-83, 87-104 -/
def registerAll (ns : Bytes) (r : Reg (Bytes × Bytes)) (is : List Iface) : Reg (Bytes × Bytes) :=
  is.foldl (fun r i => if i.role = .service then registerIface ns r i else r) r

/-- `op…: invoke.Import…("ns.iface", "op")`. import_visitor.ts:230-238 -/
def importOne (ns iface : Bytes) (r : Reg (Bytes × Bytes)) (o : Oper) : Reg (Bytes × Bytes) :=
  (importOp r (partsType o) ⟨ns ++ lit "." ++ iface, o.name⟩).2

/-- `New…()` of a provider. import_visitor.ts:223-244 -/
def newProvider (ns : Bytes) (r : Reg (Bytes × Bytes)) (i : Iface) : Reg (Bytes × Bytes) :=
  i.ops.foldl (importOne ns i.name) r

/-- What `main` has registered: "Create providers", then "Register services". main_visitor.ts:49-84 -/
def goMain (d : Doc) (deps : List Iface) : Reg (Bytes × Bytes) :=
  registerAll d.ns (deps.foldl (newProvider d.ns) Reg.init) d.ifaces

end Iota.Twins
