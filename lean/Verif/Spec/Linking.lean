/-!
# Specification: modules, hosts and the functions they call in each other

WebAssembly types of functions, and what a module asks of its host and the host of a module. This file does not use the model.
-/

namespace Iota.Spec.Linking

inductive ValType where
  | i32
  | i64
  | f32
  | f64
  deriving DecidableEq, Repr

structure FuncType where
  params : List ValType
  results : List ValType
  deriving DecidableEq, Repr

/-- A binary: the functions it imports (module, name, type), the functions it exports, whether it exports its memory under the usual
name. -/
structure Binary where
  imports : List (String × String × FuncType)
  exports : List (String × FuncType)
  memory : Bool
  deriving DecidableEq, Repr

/-- The type of the function that is exported under a name. Names of exports are different from one another. -/
def Binary.export (b : Binary) (n : String) : Option FuncType := (b.exports.find? fun e => e.1 = n).map (·.2)

/-- `n` values of 32 bits and no result. -/
def words (n : Nat) : FuncType := ⟨List.replicate n .i32, []⟩

/-- The functions of the protocol that a module imports from the module "wasmrs". -/
def asks : List (String × FuncType) := [("__init_buffers", words 2), ("__op_list", words 2), ("__send", words 1)]

/-- The module imports the functions of the protocol with these types, some of them more than once or not at all, and otherwise only
what `others` allows. -/
def AsksFor (others : String → String → FuncType → Prop) (b : Binary) : Prop :=
  ∀ i ∈ b.imports, (i.1 = "wasmrs" ∧ (i.2.1, i.2.2) ∈ asks) ∨ others i.1 i.2.1 i.2.2

/-- The module exports the functions of the protocol with these parameters, with `res` as the results of the first. -/
structure Offers (res : List ValType) (b : Binary) : Prop where
  init : b.export "__wasmrs_init" = some ⟨[.i32, .i32, .i32], res⟩
  list : b.export "__wasmrs_op_list_request" = some (words 0)
  send : b.export "__wasmrs_send" = some (words 1)
  memory : b.memory = true

end Iota.Spec.Linking
