import Verif.Model.Sections
import Verif.Model.Operations

/-!
# The program wasmrs-ops

Model of `/repo/go/transport/wasmrs/cmd/wasmrs-ops/main.go`. `log.Panicln` ends the program; what it has printed until
then is left out. The library `github.com/tetratelabs/wabin`, which is not part of the repository, is a parameter.
-/

namespace Iota.OpsTool
open Go Iota.Operations

/-- `wasm.Module` of wabin: the custom sections it keeps as such, in order, and everything else. -/
structure Module (α : Type) where
  rest : α
  custom : List (Bytes × Bytes)
  deriving DecidableEq, Repr

/-- `binary.DecodeModule` and `binary.EncodeModule` of wabin. -/
structure Wabin (α : Type) where
  decode : Bytes → Res (Module α)
  encode : Module α → Bytes

/-- `WASMRS_SECTION_NAME`. main.go:18 -/
def opsName : Bytes := "wasmrs_ops".toUTF8.toList

/-- What is printed: the name of a section, a table, or that a section was added. -/
inductive Line where
  | name (n : Bytes)
  | table (t : Table)
  | added
  deriving DecidableEq, Repr

/-- The loop over the sections that were found; there is at most one, as one name was asked for. main.go:36-43 -/
def shown (found : Sections.Map) : Res (List Line) :=
  match found opsName with
  | none => .ok []
  | some data => do
    let t ← fromBytes data
    return [.name opsName, .table t]

/-- main.go:59-72: the module is started and asked for its operations (`ops`, 99-114), and written with one more section. -/
def add {α : Type} (w : Wabin α) (ops : Bytes → Res Table) (bin : Bytes) (m : Module α) (out : List Line) :
    Res (List Line × Option Bytes) := do
  let t ← ops bin
  let data ← toBytes t
  return (out ++ [.added, .table t], some (w.encode { m with custom := m.custom ++ [(opsName, data)] }))

/-- `main`, given the contents of the file: what is printed, and what is written to the file, if anything.
main.go:20-81, with `printOperationTable` (83-97). -/
def main {α : Type} (valid : Bytes → Bool) (w : Wabin α) (ops : Bytes → Res Table) (bin : Bytes) : Res (List Line × Option Bytes) := do
  let found ← Sections.read valid bin [opsName]
  let out ← shown found
  let m ← w.decode bin
  match m.custom.find? (fun c => c.1 = opsName) with
  | none => add w ops bin m out
  | some c => do
    let t ← fromBytes c.2
    return (out ++ [.table t], none)

end Iota.OpsTool
