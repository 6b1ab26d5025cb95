import Verif.Go.Basic

/-!
# The wrapper the Rust code generator writes for an operation that answers once

Model of the function that `/repo/codegen/src/rust/visitors/service-visitor.ts` writes around the implementation of an operation that
answers once (lines 131-146), and of the method of the component it calls (line 48).

Simplifications:
* `runtime::oneshot` is a place for one value; a value cannot be put there once the receiver is gone.
* The action is any code; it is started with the arguments, and that it returns is an event.
* `serialize` and `deserialize` (`/repo/rust/crates/wasmrs-codec/src/messagepack.rs:7-36`) are parameters; errors are texts.
* The executor (`RustExec`) polls the task; a poll that finds nothing ready changes nothing and is not an event.
-/

namespace Iota.RustOnce
open Iota.Go

/-- How far the spawned task is. -/
inductive Phase where
  /-- at `inputs.await?` -/
  | waiting
  /-- in the action -/
  | acting
  /-- the task has ended, or panicked -/
  | done
  deriving DecidableEq

structure Once (α : Type) where
  /-- what the Mono with the request has resolved to -/
  input : Option (Except Bytes Bytes)
  phase : Phase
  /-- the arguments with which the action was started, each time -/
  acts : List α
  /-- the value in the oneshot -/
  sent : Option (Except Bytes Bytes)
  /-- the Mono that the wrapper returned, and so the receiver, still exists -/
  kept : Bool
  /-- what that Mono has resolved to -/
  answer : Option (Except Bytes Bytes)
  panicked : Bool

/-- The wrapper has returned its Mono. service-visitor.ts:131-146 -/
def Once.start {α : Type} : Once α := ⟨none, .waiting, [], none, true, none, false⟩

inductive Ev (β : Type) where
  /-- the Mono with the request resolves -/
  | arrive (r : Except Bytes Bytes)
  /-- the task is polled while it waits for a request that is there -/
  | poll
  /-- the action returns -/
  | ret (r : Except Bytes β)
  /-- the Mono that the wrapper returned is polled and resolves -/
  | take
  /-- it is dropped -/
  | drop

/-- `tx.send(output).unwrap()`. service-visitor.ts:141 -/
def Once.send {α : Type} (w : Once α) (a : Except Bytes Bytes) : Once α :=
  if w.kept then { w with phase := .done, sent := some a } else { w with phase := .done, panicked := true }

/-- The Mono with the arguments. service-visitor.ts:134 -/
def arguments {α : Type} (de : Bytes → Except Bytes α) : Except Bytes Bytes → Except Bytes α
  | .ok data => de data
  | .error e => .error e

/-- The payload of the answer. service-visitor.ts:137-140 -/
def payload {β : Type} (ser : β → Except Bytes Bytes) : Except Bytes β → Except Bytes Bytes
  | .ok output => ser output
  | .error e => .error e

/-- One event. `none`: it cannot happen now. -/
def Once.step {α β : Type} (de : Bytes → Except Bytes α) (ser : β → Except Bytes Bytes) (w : Once α) : Ev β → Option (Once α)
  | .arrive r =>
    match w.input with
    | none => some { w with input := some r }
    | some _ => none
  -- service-visitor.ts:48, 134-136
  | .poll =>
    match w.phase, w.input with
    | .waiting, some r =>
      match arguments de r with
      | .ok x => some { w with phase := .acting, acts := w.acts ++ [x] }
      | .error e => some (w.send (.error e))
    | _, _ => none
  -- service-visitor.ts:137-141
  | .ret r =>
    match w.phase with
    | .acting => some (w.send (payload ser r))
    | _ => none
  -- service-visitor.ts:145
  | .take =>
    match w.kept, w.sent, w.answer with
    | true, some a, none => some { w with answer := some a }
    | _, _, _ => none
  | .drop => if w.kept then some { w with kept := false } else none

def Once.run {α β : Type} (de : Bytes → Except Bytes α) (ser : β → Except Bytes Bytes) : Once α → List (Ev β) → Option (Once α)
  | w, [] => some w
  | w, e :: es =>
    match w.step de ser e with
    | some w' => w'.run de ser es
    | none => none

end Iota.RustOnce
