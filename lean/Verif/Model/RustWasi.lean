/-!
# What a module started by the Rust host can see, and for how long it may run

Model of `/repo/rust/crates/wasmrs-wasmtime/src/wasi.rs`, `builder.rs` and of what `engine_provider.rs` and `store.rs` make of WASI
parameters and deadlines.

Simplifications:
* wasmtime is a parameter or modelled by what its documentation says. The code of a module is what it asks of WASI, and the points
  at which the engine looks at the epoch (entries of functions and heads of loops); there it stops the module if interruption is
  on and the epoch has reached the deadline of the store, which is 0 until somebody sets it.
* The file system tells which directories can be opened. Cloning an open directory does not fail.
* The size limits of wasmtime for arguments and variables are parameters.
* The file descriptors that are inherited, the cache and profiling are left out.
-/

namespace Iota.RustWasi

abbrev Str := List Char

/-- `WasiParams`. wasmrs-host/src/wasi.rs:4-13 -/
structure Params where
  argv : List Str
  mapDirs : List (Str × Str)
  envVars : List (Str × Str)
  preopenedDirs : List Str
  deriving DecidableEq, Repr

/-- `WasiParams::new`. wasmrs-host/src/wasi.rs:17-29 -/
def Params.new (argv : List Str) (mapDirs envVars : List (Str × Str)) (preopenedDirs : List Str) : Params :=
  ⟨argv, mapDirs, envVars, preopenedDirs⟩

/-- What is around: directories by their names, and what wasmtime accepts. -/
structure World where
  dir : Str → Option Nat
  argsOk : List Str → Bool
  envOk : List (Str × Str) → Bool

/-- What WASI tells a module. -/
structure Ctx where
  args : List Str
  env : List (Str × Str)
  preopens : List (Str × Nat)
  deriving DecidableEq, Repr

/-- How something ends. -/
inductive Out (α : Type) where
  | ok (a : α)
  | error
  | panic
  deriving DecidableEq, Repr

/-- The directories of one list: the name for the module, and where it is. `none`: `?` returns. -/
def openAll (w : World) : List (Str × Str) → Option (List (Str × Nat))
  | [] => some []
  | (guest, host) :: l =>
    match w.dir host with
    | none => none
    | some d => (openAll w l).map fun r => (guest, d) :: r

/-- `compute_preopen_dirs`. wasi.rs:24-40 -/
def preopen (w : World) (dirs : List Str) (mapDirs : List (Str × Str)) : Option (List (Str × Nat)) :=
  match openAll w (dirs.map fun d => (d, d)) with
  | none => none
  | some a => (openAll w mapDirs).map fun b => a ++ b

/-- `init_ctx`. wasi.rs:8-22 -/
def initCtx (w : World) (pre : List (Str × Nat)) (argv : List Str) (env : List (Str × Str)) : Out Ctx :=
  if w.argsOk argv = false then .error
  else if w.envOk env = false then .error
  else .ok ⟨argv, env, pre⟩

/-- `init_wasi`, with its `unwrap`. wasi.rs:62-69 -/
def initWasi (w : World) (p : Params) : Out Ctx :=
  match preopen w p.preopenedDirs p.mapDirs with
  | none => .panic
  | some pre => initCtx w pre p.argv p.envVars

/-- What is known of an engine: whether it looks at the epoch. -/
structure Engine where
  interrupts : Bool
  deriving DecidableEq, Repr

/-- `WasmtimeBuilder`. builder.rs:9-16. `deadlines` are those for starting and for calls. -/
structure Builder where
  engine : Option Engine
  wasi : Option Params
  deadlines : Option (Nat × Nat)
  deriving DecidableEq, Repr

/-- `WasmtimeBuilder::new`. builder.rs:22-27 -/
def Builder.new : Builder := ⟨none, none, none⟩

/-- `engine`. builder.rs:36-39 -/
def Builder.withEngine (b : Builder) (e : Engine) : Builder := { b with engine := some e }

/-- `wasi_params`. builder.rs:42-45 -/
def Builder.withWasi (b : Builder) (p : Params) : Builder := { b with wasi := some p }

/-- `enable_epoch_interruptions`. builder.rs:77-83 -/
def Builder.withDeadlines (b : Builder) (init func : Nat) : Builder := { b with deadlines := some (init, func) }

/-- `WasmtimeEngineProvider`. engine_provider.rs:16-22 -/
structure Provider where
  engine : Engine
  wasi : Option Params
  deadlines : Option (Nat × Nat)
  deriving DecidableEq, Repr

/-- `build`. builder.rs:86-122, engine_provider.rs:53-67 -/
def Builder.build (b : Builder) : Provider :=
  match b.engine with
  | some e => ⟨e, b.wasi, b.deadlines⟩
  | none => ⟨⟨b.deadlines.isSome⟩, b.wasi, b.deadlines⟩

/-- The store of a context: `deadline` is the epoch at which its module is stopped. -/
structure Store where
  wasi : Ctx
  deadline : Nat
  deriving DecidableEq, Repr

/-- `WasiParams::default`. wasmrs-host/src/wasi.rs:2 -/
def Params.default : Params := ⟨[], [], [], []⟩

/-- `new_store`. store.rs:74-92. Nothing sets the deadline. -/
def newStore (w : World) (p : Provider) : Out Store :=
  match initWasi w (p.wasi.getD Params.default) with
  | .ok c => .ok ⟨c, 0⟩
  | .error => .error
  | .panic => .panic

/-- A piece of code of a module: a look at the epoch, which is `now`, or a question to WASI. -/
inductive Code where
  | check (now : Nat)
  | args
  | env
  | dirs
  deriving DecidableEq, Repr

/-- What it was told. -/
inductive Told where
  | args (l : List Str)
  | env (l : List (Str × Str))
  | dirs (l : List (Str × Nat))
  deriving DecidableEq, Repr

/-- How code ends. -/
inductive End where
  | returned
  | stopped
  deriving DecidableEq, Repr

/-- Running. -/
def run (e : Engine) (s : Store) : List Code → List Told × End
  | [] => ([], .returned)
  | .check now :: cs => if e.interrupts = true ∧ s.deadline ≤ now then ([], .stopped) else run e s cs
  | .args :: cs => (.args s.wasi.args :: (run e s cs).1, (run e s cs).2)
  | .env :: cs => (.env s.wasi.env :: (run e s cs).1, (run e s cs).2)
  | .dirs :: cs => (.dirs s.wasi.preopens :: (run e s cs).1, (run e s cs).2)

/-- A context: the store, and the code that runs when the module starts and for each call. `new_context`,
engine_provider.rs:70-80, 114-132, 156-183 -/
def begin (w : World) (p : Provider) (code : List Code) : Out (List Told × End) :=
  match newStore w p with
  | .ok s => .ok (run p.engine s code)
  | .error => .error
  | .panic => .panic

end Iota.RustWasi
