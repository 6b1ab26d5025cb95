import Verif.Model.RustWrappers

/-!
# The example component in Rust and the program that calls it

Model of the operations of `/repo/rust/wasm/reqres-component/src/actions` and of `/repo/rust/bins/request/src/main.rs`.

Simplifications:
* A Rust `String` is the list of its characters; the arguments `Inputs` of an operation are its one field.
* The generated wrappers (actions/mod.rs:76-146) are those of `Model/RustWrappers.lean`.
* What is between the wrapper and the program, the two sockets, is left out here (C175, C180).
* `serialize`, `deserialize` and the text of an error are parameters.
-/

namespace Iota.Reqres
open Iota.Go Iota.RustWrappers
open Iota.RustRx (Signal)

abbrev Str := List Char

/-- `test` and `echo`: the wrapper (actions/mod.rs:44-75) answers with what the task makes of the argument. -/
def answer {β : Type} (task : β → Str) (de : Bytes → Except Bytes β) (ser : Str → Except Bytes Bytes) (data : Bytes) : Except Bytes Bytes :=
  match de data with
  | .ok v => ser (task v)
  | .error e => .error e

/-- `task` of `test`; it does not look at its argument. test/test.rs:3-5 -/
def test (_ : Unit) : Str := ['t', 'e', 's', 't']

/-- `task` of `echo`. test/echo.rs:3-5 -/
def echo (message : Str) : Str := message

/-- `task` of `chars`. test/chars.rs:3-12. The Flux is returned, so it is not dropped. -/
def chars (s : Str) : List (StreamEv Str) :=
  s.map (fun c => .use (.send (.ok [c]))) ++ [.use (.send .complete), .ret true]

/-- Where the task of `reverse` is. test/reverse.rs:3-17 -/
inductive Phase where
  /-- before `input.next().await`, line 7 -/
  | reading
  /-- before `send` or `error`, lines 10 and 12 -/
  | sending (x : Signal Str Bytes)
  /-- before `complete`, line 15 -/
  | completing
  /-- before the end, line 16 -/
  | returning
  /-- the wrapper drops the result, which is the Flux. actions/mod.rs:141-143 -/
  | dropping
  | gone
  deriving DecidableEq, Repr

/-- What the task does with what it reads. test/reverse.rs:7-14. `txt` is `application_error(e.to_string())`. -/
def react (txt : Bytes → Bytes) : Got Str → Phase
  | .item s => .sending (.ok s.reverse)
  | .error e => .sending (.err (txt e))
  | .ended => .completing
  | .pending => .reading

/-- The wrapper of the channel with the task. -/
structure Rev where
  w : ChannelW Str Str
  phase : Phase
  deriving DecidableEq, Repr

def Rev.start : Rev := ⟨.start, .reading⟩

/-- What can happen: something arrives from the caller, or its stream is dropped; one of the three tasks goes on. -/
inductive RevEv where
  | arrive (x : Signal Bytes Bytes)
  | hangup
  | pumpIn
  | pumpOut
  | task
  deriving DecidableEq, Repr

/-- The next step of the task. test/reverse.rs:7-16, actions/mod.rs:141-143 -/
def Rev.task (txt : Bytes → Bytes) (de : Bytes → Except Bytes Str) (ser : Str → Except Bytes Bytes) (r : Rev) : Option Rev :=
  match r.phase with
  | .reading => (r.w.step de ser .read).map fun w => ⟨w, react txt r.w.inputs.next.1⟩
  | .sending x => (r.w.step de ser (.use (.send x))).map fun w => ⟨w, .reading⟩
  | .completing => (r.w.step de ser (.use (.send .complete))).map fun w => ⟨w, .returning⟩
  | .returning => (r.w.step de ser .ret).map fun w => ⟨w, .dropping⟩
  | .dropping => (r.w.step de ser (.use .drop)).map fun w => ⟨w, .gone⟩
  | .gone => none

/-- `none`: this cannot happen now. -/
def Rev.step (txt : Bytes → Bytes) (de : Bytes → Except Bytes Str) (ser : Str → Except Bytes Bytes) (r : Rev) : RevEv → Option Rev
  | .arrive x => (r.w.step de ser (.arrive x)).map fun w => { r with w := w }
  | .hangup => (r.w.step de ser .hangup).map fun w => { r with w := w }
  | .pumpIn => (r.w.step de ser .pumpIn).map fun w => { r with w := w }
  | .pumpOut => (r.w.step de ser .pumpOut).map fun w => { r with w := w }
  | .task => r.task txt de ser

def Rev.run (txt : Bytes → Bytes) (de : Bytes → Except Bytes Str) (ser : Str → Except Bytes Bytes) : Rev → List RevEv → Option Rev
  | r, [] => some r
  | r, e :: es =>
    match r.step txt de ser e with
    | none => none
    | some r' => r'.run txt de ser es

/-! ## The program -/

/-- What the program prints. -/
inductive Line where
  | text (s : Str)
  | error (e : Bytes)
  deriving DecidableEq, Repr

/-- What it has printed when it ends, and whether it ends well. -/
structure Shown where
  lines : List Line
  ok : Bool
  deriving DecidableEq, Repr

/-- The loop over a response. main.rs:61-65, 81-85: it goes on while there are elements. `unwrap` of a message that is not a
string ends the program (83), or the task (63), whose failure is that of the program (73). -/
def listen (dec : Bytes → Except Bytes Str) : List (Signal Bytes Bytes) → Shown
  | .ok b :: l =>
    match dec b with
    | .ok s => ⟨.text s :: (listen dec l).lines, (listen dec l).ok⟩
    | .error _ => ⟨[], false⟩
  | _ => ⟨[], true⟩

/-- A single response. main.rs:87-97 -/
def single (dec : Bytes → Except Bytes Str) : Except Bytes Bytes → Shown
  | .ok b =>
    match dec b with
    | .ok s => ⟨[.text s], true⟩
    | .error _ => ⟨[], false⟩
  | .error e => ⟨[.error e], true⟩

/-- What the program sends for the lines of its input, with `--channel`. main.rs:67-71. Each is sent as a string. -/
def typed (ser : Str → Except Bytes Bytes) (lines : List Str) : List (Except Bytes Bytes) := lines.map ser

end Iota.Reqres
