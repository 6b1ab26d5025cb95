/-!
# Tasks of a module written in Rust

Model of `/repo/rust/crates/wasmrs-runtime/src/runtime/wasm/mod.rs` (`spawn`, `exhaust_pool`) and of the calls of a module
that use it: `send_frame` in `/repo/rust/crates/wasmrs-guest/src/guest.rs`.

A task is a program of a type `P` over the memory `M` of the module; what polling it does is a parameter. A poll can change
the memory, spawn tasks, wake tasks, call the host, which may call `__wasmrs_send` again before it returns, and panic.

Simplifications:
* `futures_executor::LocalPool` is a dependency. It is modelled from its documentation: spawned tasks wait in a list of
  incoming tasks, which join the others when none of these is ready or before (`early`); tasks that were woken or have
  joined are polled in this order; a task that is woken while it waits to be polled is polled once;
  `run_until_stalled` returns when no task is ready, and panics when it is called while it runs.
* A panic in a WebAssembly module is a trap: the call of the host ends with an error and the memory stays as it is at that
  moment. Nothing is unwound.
* `spawn` of a pool that exists never fails (`spawn_local` fails only when the pool was dropped; mod.rs:29, 35).
-/

namespace Iota.RustExec

/-- What a piece of the module does. -/
inductive Act (P M : Type) where
  /-- changes memory -/
  | set (f : M → M)
  /-- `spawn`. mod.rs:19-41 -/
  | spawn (p : P)
  /-- wakes the task with this number -/
  | wake (i : Nat)
  /-- calls the host, which calls `__wasmrs_send`, which does this before `exhaust_pool` -/
  | enter (as : List (Act P M))
  /-- panics -/
  | panic

/-- What happened. -/
inductive Ev where
  | spawned (i : Nat)
  | woken (i : Nat)
  | began (i : Nat)
  /-- a poll returned; the task has ended or will be polled again -/
  | ended (i : Nat) (done : Bool)
  | crashed
  deriving DecidableEq, Repr

/-- The programs: what polling a task does, and what is left of it, `none` when it has ended. The second parameter says
when incoming tasks join although others are ready. -/
structure Prog (P M : Type) where
  poll : P → M → List (Act P M) × Option P
  early : List Ev → Bool

/-- `IS_RUNNING` (mod.rs:16), the flag of `LocalPool` that it runs, the tasks of the pool with their numbers, those that are
ready, those that are incoming, the number of tasks spawned so far, the memory and what has happened. -/
structure St (P M : Type) where
  running : Bool
  inside : Bool
  tasks : List (Nat × P)
  ready : List Nat
  incoming : List (Nat × P)
  next : Nat
  mem : M
  log : List Ev

variable {P M : Type}

/-- mod.rs:13-17 -/
def St.new (m : M) : St P M := ⟨false, false, [], [], [], 0, m, []⟩

/-- Incoming tasks join the pool, ready. -/
def St.join (s : St P M) : St P M :=
  { s with tasks := s.tasks ++ s.incoming, ready := s.ready ++ s.incoming.map (·.1), incoming := [] }

/-- A waker is called: `i` becomes ready unless it is or has ended. While a task is polled it is not in `tasks` (`current`). -/
def St.wake (s : St P M) (current : List Nat) (i : Nat) : St P M :=
  if (s.tasks.any (fun t => t.1 == i) || current.contains i) && !s.ready.contains i
  then { s with ready := s.ready ++ [i], log := s.log ++ [.woken i] }
  else { s with log := s.log ++ [.woken i] }

mutual

/-- Does these things; `current` are the tasks being polled. `none`: it never ends; otherwise the state afterwards and whether
all was done without a panic. -/
def acts (g : Prog P M) : Nat → List Nat → St P M → List (Act P M) → Option (St P M × Bool)
  | 0, _, _, _ => none
  | _ + 1, _, s, [] => some (s, true)
  | n + 1, cur, s, a :: as =>
    match a with
    | .set f => acts g n cur { s with mem := f s.mem } as
    | .spawn p =>
      acts g n cur { s with incoming := s.incoming ++ [(s.next, p)], next := s.next + 1, log := s.log ++ [.spawned s.next] } as
    | .wake i => acts g n cur (s.wake cur i) as
    | .enter bs =>
      match acts g n cur s bs with
      | none => none
      | some (s', false) => some (s', false)
      | some (s', true) =>
        match exhaustPool g n cur s' with
        | none => none
        | some (s'', false) => some (s'', false)
        | some (s'', true) => acts g n cur s'' as
    | .panic => some ({ s with log := s.log ++ [.crashed] }, false)

/-- `exhaust_pool`. mod.rs:51-61 -/
def exhaustPool (g : Prog P M) : Nat → List Nat → St P M → Option (St P M × Bool)
  | 0, _, _ => none
  | n + 1, cur, s =>
    if s.running then some (s, true)
    else
      match runUntilStalled g n cur { s with running := true } with
      | none => none
      | some (s', false) => some (s', false)
      | some (s', true) => some ({ s' with running := false }, true)

/-- `run_until_stalled`. -/
def runUntilStalled (g : Prog P M) : Nat → List Nat → St P M → Option (St P M × Bool)
  | 0, _, _ => none
  | n + 1, cur, s =>
    if s.inside then some ({ s with log := s.log ++ [.crashed] }, false)
    else
      match loop g n cur { s with inside := true } with
      | none => none
      | some (s', false) => some (s', false)
      | some (s', true) => some ({ s' with inside := false }, true)

/-- Polls tasks until none is ready. -/
def loop (g : Prog P M) : Nat → List Nat → St P M → Option (St P M × Bool)
  | 0, _, _ => none
  | n + 1, cur, s =>
    match (if s.ready.isEmpty || g.early s.log then s.join else s) with
    | s =>
      match s.ready with
      | [] => some (s, true)
      | i :: r =>
        match s.tasks.find? (fun t => t.1 == i) with
        | none => loop g n cur { s with ready := r }
        | some (_, p) =>
          match acts g n (i :: cur)
              { s with ready := r, tasks := s.tasks.filter (fun t => t.1 != i), log := s.log ++ [.began i] } (g.poll p s.mem).1 with
          | none => none
          | some (s', false) => some (s', false)
          | some (s', true) =>
            match (g.poll p s.mem).2 with
            | none => loop g n cur { s' with ready := s'.ready.filter (fun j => j != i), log := s'.log ++ [.ended i true] }
            | some p' => loop g n cur { s' with tasks := s'.tasks ++ [(i, p')], log := s'.log ++ [.ended i false] }

end

/-- A call of the host. -/
inductive Call (P M : Type) where
  /-- `__wasmrs_send`, which does this with the frames and then runs the pool. guest.rs:163-188 -/
  | send (as : List (Act P M))
  /-- another function, or `__wasmrs_send` with a buffer that cannot be read: the pool is not run. guest.rs:112-160, 166-169 -/
  | other (as : List (Act P M))

/-- A call of the host: the state afterwards and whether it returned (`false`: it trapped). -/
def St.call (g : Prog P M) (n : Nat) (s : St P M) : Call P M → Option (St P M × Bool)
  | .send as =>
    match acts g n [] s as with
    | none => none
    | some (s', false) => some (s', false)
    | some (s', true) => exhaustPool g n [] s'
  | .other as => acts g n [] s as

/-- Several calls, one after the other; a call that trapped does not keep the host from making the next. -/
def St.calls (g : Prog P M) (n : Nat) : St P M → List (Call P M) → Option (St P M)
  | s, [] => some s
  | s, c :: cs =>
    match s.call g n c with
    | none => none
    | some (s', _) => s'.calls g n cs

end Iota.RustExec
