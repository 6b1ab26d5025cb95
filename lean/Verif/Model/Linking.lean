import Verif.Spec.Linking

/-!
# Which modules a host can start, as far as the types of functions go

Model of `New`, `Instantiate` and `instantiateWasmrs` in `/repo/go/transport/wasmrs/host/host.go`, of `NewInstance` in `instance.go`
beside it, of `/repo/rust/crates/wasmrs-wasmtime/src/engine_provider.rs` and `wasmrs_wasmtime.rs` beside it, with the names in
`/repo/rust/crates/wasmrs-host/src/protocol.rs`; and of the types of the functions in `/repo/go/transport/wasmrs/guest` and
`/repo/rust/crates/wasmrs-guest/src`. What the functions do when they are called is modelled in `Verif/Model/Start.lean` and
`Verif/Model/RustHost.lean`; here they return.

The runtimes are not part of the repository. wazero and wasmtime link a module only if each import is there with the same type.
`Call` of wazero wants as many arguments as there are parameters, and gives all results; `get_typed_func` of wasmtime wants the very
same type. TinyGo and Rust give `uint32`, `uintptr`, `bool`, `u32` and `usize` the type i32.
-/

namespace Iota.Linking
open Iota.Spec.Linking

/-- How the start of a module ends: as an instance, with an error, or with a panic of the host. -/
inductive Outcome where
  | started
  | link
  | noInit
  | noSend
  | failed
  | panic
  deriving DecidableEq, Repr

/-- The functions of a host, by module and name. -/
abbrev Provided := String → String → Option FuncType

/-- Every import is there with its type. -/
def links (p : Provided) (b : Binary) : Bool := b.imports.all fun i => p i.1 i.2.1 = some i.2.2

/-! ## The Go host -/

/-- `instantiateWasmrs`. host.go:85-97 -/
def goWasmrs (n : String) : Option FuncType :=
  if n = "__init_buffers" then some ⟨[.i32, .i32], []⟩
  else if n = "__op_list" then some ⟨[.i32, .i32], []⟩
  else if n = "__send" then some ⟨[.i32], []⟩
  else none

/-- The modules of the runtime: "wasmrs", and `others` for WASI and "env" (host.go:43-53). -/
def goProvides (others : Provided) : Provided := fun m n => if m = "wasmrs" then goWasmrs n else others m n

/-- `Call` with `n` arguments: does wazero call the function? -/
def callable (t : FuncType) (n : Nat) : Bool := t.params.length = n

/-- The start functions of the configuration: those that are exported are called without arguments. host.go:34-35 -/
def goStarts (b : Binary) : List String → Bool
  | [] => true
  | n :: ns =>
    match b.export n with
    | none => goStarts b ns
    | some t => callable t 0 && goStarts b ns

/-- `NewInstance` after the checks. instance.go:86-97. A missing list of operations is a call of nil. -/
def goCalls (b : Binary) (init : FuncType) : Outcome :=
  if callable init 3 = false then .failed
  else
    match b.export "__wasmrs_op_list_request" with
    | none => .panic
    | some t => if callable t 0 then .started else .failed

/-- `NewInstance`. instance.go:64-102 -/
def goInstance (b : Binary) : Outcome :=
  match b.export "__wasmrs_init" with
  | none => .noInit
  | some init =>
    match b.export "__wasmrs_send" with
    | none => .noSend
    | some _ => goCalls b init

/-- `Instantiate`. host.go:76-83 -/
def goStart (others : Provided) (b : Binary) : Outcome :=
  if links (goProvides others) b = false then .link
  else if goStarts b ["_start", "wasmrs_init"] = false then .failed
  else goInstance b

/-- Is a frame handed over? The error of the call is dropped. instance.go:179, 204 -/
def goSends (b : Binary) : Bool :=
  match b.export "__wasmrs_send" with
  | none => false
  | some t => callable t 1

/-! ## The Rust host -/

/-- `add_to_linker` with `linker_send`, `linker_init`, `linker_console_log` and `linker_op_list`. wasmrs_wasmtime.rs:9-137,
protocol.rs:7-16, 43-52 -/
def rustWasmrs (n : String) : Option FuncType :=
  if n = "__init_buffers" then some ⟨[.i32, .i32], []⟩
  else if n = "__send" then some ⟨[.i32], []⟩
  else if n = "__console_log" then some ⟨[.i32, .i32], []⟩
  else if n = "__op_list" then some ⟨[.i32, .i32], []⟩
  else none

/-- The linker: "wasmrs" (lib.rs:91 of wasmrs-host), and `others` for WASI. engine_provider.rs:55-56, 96-97 -/
def rustProvides (others : Provided) : Provided := fun m n => if m = "wasmrs" then rustWasmrs n else others m n

/-- `get_typed_func`. -/
def typedFunc (b : Binary) (n : String) (t : FuncType) : Bool := b.export n = some t

/-- `init`: `_start` and the list of operations are called if they have the right type; `__wasmrs_init` has to have it.
engine_provider.rs:156-183 -/
def rustInit (b : Binary) : Outcome :=
  if typedFunc b "__wasmrs_init" ⟨[.i32, .i32, .i32], []⟩ then .started else .noInit

/-- `WasmtimeCallContext::new`, then `init`. engine_provider.rs:91-111, host.rs:34-44 of wasmrs-host -/
def rustStart (others : Provided) (b : Binary) : Outcome :=
  if links (rustProvides others) b = false then .link
  else if typedFunc b "__wasmrs_send" ⟨[.i32], []⟩ = false then .noSend
  else if b.memory = false then .panic
  else rustInit b

/-- Are the operations asked for? engine_provider.rs:175-181 -/
def rustLists (b : Binary) : Bool := typedFunc b "__wasmrs_op_list_request" ⟨[], []⟩

/-! ## The guest libraries -/

/-- imports_webassembly.go:6-16 -/
def goImports : List (String × String × FuncType) :=
  [("wasmrs", "__init_buffers", ⟨[.i32, .i32], []⟩), ("wasmrs", "__op_list", ⟨[.i32, .i32], []⟩), ("wasmrs", "__send", ⟨[.i32], []⟩)]

/-- `Init`, which gives a `bool`, `OperationList` and `GuestSend`. guest.go:45-54, 62-89, 105-106 -/
def goExports : List (String × FuncType) :=
  [("__wasmrs_init", ⟨[.i32, .i32, .i32], [.i32]⟩), ("__wasmrs_op_list_request", ⟨[], []⟩), ("__wasmrs_send", ⟨[.i32], []⟩)]

/-- imports.rs:1-9 -/
def rustImports : List (String × String × FuncType) :=
  [("wasmrs", "__init_buffers", ⟨[.i32, .i32], []⟩), ("wasmrs", "__send", ⟨[.i32], []⟩), ("wasmrs", "__op_list", ⟨[.i32, .i32], []⟩)]

/-- exports.rs:3-13; `__wasmrs_init` is in the generated code: `/repo/codegen/src/rust/default-visitor.ts:27-36`. -/
def rustExports : List (String × FuncType) :=
  [("__wasmrs_op_list_request", ⟨[], []⟩), ("__wasmrs_send", ⟨[.i32], []⟩), ("__wasmrs_init", ⟨[.i32, .i32, .i32], []⟩)]

/-- A program with one of the libraries: its other imports, its other exports, and its memory. -/
def program (imports : List (String × String × FuncType)) (exports : List (String × FuncType))
    (moreImports : List (String × String × FuncType)) (moreExports : List (String × FuncType)) : Binary :=
  ⟨moreImports ++ imports, exports ++ moreExports, true⟩

end Iota.Linking
