import Verif.Model.Net

/-!
# Two programs joined by a connection

Two programs, each with the operations it has exported and imported (`/repo/go/invoke/handlers.go`), that make calls over
the connection of `Verif/Model/Net.lean`. Here a request-response handler answers with what its code gives.

Simplifications, beyond those of `Verif/Model/Net.lean`:
* All operations are exported and imported before the connection is made (as `/repo/go/example/greeter/client/main.go:14-16`
  does; `/repo/go/example/greeter/server/main.go:22` imports afterwards, which changes no handler).
* What the code of a handler may answer is a parameter.
-/

namespace Iota.Programs
open Iota.Go Iota.Frames Iota.Registry Iota.Peers Iota.Net
open Iota.StreamId (Side)

/-- The operations of a program, without their code. -/
def blank {H : Type} (r : Reg H) : Reg Unit := ⟨fun k => (r.handlers k).map fun _ => (), r.infos, r.imports⟩

/-- The handler of a request: the first four bytes of its metadata are the index. `/repo/go/handler/handler.go:233-245`,
649-659, `/repo/go/invoke/handlers.go:76-81` -/
def handlerFor {H : Type} (r : Reg H) (k : Kind) (metadata : Bytes) : Option H :=
  if metadata.length < 8 then none
  else
    match getU32 metadata with
    | .ok op => getHandler r k op
    | _ => none

/-- Two programs: what they export and import, and whether a handler, given data and metadata, may answer so. -/
structure Duo (H : Type) where
  regs : Side → Reg H
  gives : H → Bytes → Bytes → Result → Bool

/-- May the handler of this request answer so? handler.go:246-264 -/
def Duo.may {H : Type} (d : Duo H) (s : Side) (j : Job) (r : Result) : Bool :=
  match handlerFor (d.regs s) j.kind j.metadata with
  | some h => d.gives h j.data (j.metadata.drop 8) r
  | none => false

/-- What can happen next. -/
inductive Act where
  /-- anything but what follows -/
  | net (a : Net.Act)
  /-- a goroutine runs -/
  | run (s : Side) (live : Bool) (i : Nat)
  /-- a request-response handler answers -/
  | answer (s : Side) (i : Nat) (r : Result)

/-- Is it one of the last two? -/
def isWork : Net.Act → Bool
  | .peer (.run _ _ _ _) => true
  | .peer (.answer _ _ _) => true
  | _ => false

/-- May the handler at this place answer so? -/
def Duo.mayAt {H : Type} (d : Duo H) (n : Net) (s : Side) (i : Nat) (r : Result) : Bool :=
  match (n.peer s).jobs[i]? with
  | some j => d.may s j r
  | none => false

/-- What is done with the connection. -/
def Duo.does {H : Type} (d : Duo H) (n : Net) : Act → Option Net.Act
  | .net a => if isWork a then none else some a
  | .run s live i => some (.peer (.run s (blank (d.regs s)) live i))
  | .answer s i r => if d.mayAt n s i r then some (.peer (.answer s i r)) else none

/-- The metadata of a call of an import: its index, and four bytes that stay zero.
`/repo/go/example/greeter/greeter.go:103-104` -/
def importMd (index : UInt32) : Bytes := be32 index ++ [0, 0, 0, 0]

end Iota.Programs
