import Verif.Model.Flux
import Verif.Model.Components

/-!
# A subscriber that asks for one page after the other

The program of `/repo/go/transport/wasmrs/cmd/wordfrequncy/main.go`, on top of the machine of `Model/Flux`: a subscriber
whose `OnRequest` asks for a page, or cancels once it has seen a value it wants nothing more after. The source answers with
`SliceResponse` (/repo/go/rx/flux/response.go:3-17).

Simplifications: `counts` is a processor whose source calls `OnSubscribe` only when all words are there
(wordfrequency/wordfrequency.go:26-28). In the model the function is there from the start: the request made before is held
by `subscriber.n` (flux.go:195-200) and passed on by `OnSubscribe` (flux.go:174-182), to the same effect. The words are
given: opening, scanning and trimming of the file (main.go:66-87) are outside the model, and so is printing.
-/

namespace Iota.Pager
open Iota.Flux Iota.Go

/-- How the subscriber reads: the size of a page, and after which values it wants no more. main.go:37-57 -/
structure Reader (V : Type) where
  page : Nat
  stop : V → Bool

variable {V E : Type}

/-- `OnNext` got a value and set `cancel`. main.go:38-43 -/
def halts (r : Reader V) : Ev V E V → Bool
  | .onNext _ v => r.stop v
  | _ => false

/-- Whether the variable `cancel` is set. main.go:36-43 -/
def flagged (r : Reader V) (log : List (Ev V E V)) : Bool := log.any (halts r)

/-- The call of `OnRequest` is the last thing that happened. -/
def asking : List (Ev V E V) → Bool
  | .onRequest _ :: _ => true
  | _ => false

/-- Goroutine `g` is in `OnRequest`, which has yet to act. -/
def inRequest (g : Nat) (s : State V E V) : Bool :=
  asking s.log && match s.pending with
    | (g', _) :: _ => g' == g
    | [] => false

/-- What the program does: in `OnRequest` it cancels if `cancel` is set, and asks for a page otherwise (main.go:50-56); its
other callbacks just return. Which goroutine runs next is left open. -/
def acts (r : Reader V) (s : State V E V) : Action V E → Bool
  | .request g i n => inRequest g s && i == 0 && n == (r.page : Int) && !flagged r s.log
  | .signal g i .cancel => inRequest g s && i == 0 && flagged r s.log
  | .ret g => !inRequest g s
  | .start _ _ => true
  | _ => false

/-- One step of the program. -/
def step (r : Reader V) (c : Cfg V E V) (s : State V E V) (a : Action V E) : Option (State V E V) :=
  if acts r s a then Flux.step c s a else none

def run (r : Reader V) (c : Cfg V E V) : State V E V → List (Action V E) → Option (State V E V)
  | s, [] => some s
  | s, a :: as =>
    match step r c s a with
    | none => none
    | some s => run r c s as

/-- The flux on a host (flux_host.go) or in WebAssembly (flux_webassembly.go), with a source that answers with
`SliceResponse`. -/
def cfg (host : Bool) : Cfg V E V := ⟨host, .resp, .ok⟩

/-- The subscriber has `OnNext`, `OnRequest` and `Finally`; it may have the other callbacks too. main.go:37-57 -/
def reader (onComplete onError : Bool) : Handlers := ⟨true, onComplete, onError, true, true, false⟩

/-- `counts.Subscribe`. main.go:37 -/
def begin (host onComplete onError : Bool) (xs : List V) : State V E V :=
  subscribe (cfg host) 0 (reader onComplete onError) (init xs)

/-- The reader of the program: a hundred words at a time, until there is one with fewer than a thousand occurrences.
main.go:39-42,54 -/
def frequent : Reader (Bytes × Nat) := ⟨100, fun p => decide (p.2 < 1000)⟩

/-- What `OnNext` prints. main.go:38-46 -/
def prints (p : Bytes × Nat) : Bool := !frequent.stop p

/-- The component when all `words` were given: the slice it answers with. wordfrequency/wordfrequency.go:11-31 -/
def counted (lower : Bytes → Bytes) (arrange : List (Bytes × Nat) → List (Bytes × Nat)) (ws : List Bytes) : List (Bytes × Nat) :=
  arrange (ws.foldl (fun c w => c.next lower w) Components.Comp.init).counts

end Iota.Pager
