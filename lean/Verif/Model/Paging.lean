import Verif.Go.Basic

/-!
# A stream that is asked for page by page

Model of a stream call whose subscriber asks for some elements when it subscribes and, whenever it has got what it asked
for, for some more (`OnRequest: func(s rx.Subscription) { s.Request(2) }`,
`/repo/go/transport/wasmrs/cmd/guest/main.go:42-44`), served by a source that sends elements as they are asked for:
`CountToN` (`/repo/go/transport/wasmrs/cmd/host/main.go:59-80`) or `FromSlice` (`/repo/go/rx/flux/slice.go:3-18`).

What happens in between: the subscriber (`/repo/go/rx/flux/flux.go:110-200`), the proxy of the call
(`/repo/go/proxy/flux.go:50-112`), the dispatcher that serves it (`/repo/go/transport/wasmrs/host/instance.go:491-542`,
339-350, 717-723) and the subscriber of the source. Everything that a goroutine does is a step of its own, in any order.

Simplifications:
* The transport is a queue in each direction; C157 and C160 say that frames of a call arrive in the order in which they were sent.
* The call is found and has a handler; its result is subscribed to once and nobody cancels.
* In a WebAssembly build `doRequest` is a call and not a goroutine (`/repo/go/rx/flux/flux_webassembly.go:11-13`), and a guest
  does not start goroutines for requests: there the steps come in an order that is one of those allowed here.
-/

namespace Iota.Paging

/-- A source: the next element and what is left, if there is one. -/
abbrev Source (σ α : Type) := σ → Option (α × σ)

/-- `FromSlice`: what is left of the values. slice.go:7-10 -/
def fromSlice {α : Type} : Source (List α) α
  | [] => none
  | v :: vs => some (v, vs)

/-- `CountToN`: the variable `i`. cmd/host/main.go:64 -/
def countTo (to_ : UInt64) : Source UInt64 UInt64 := fun i => if i ≤ to_ then some (i, i + 1) else none

/-- A frame of the caller: the request of the stream with its initial demand, or `RequestN`. proxy/flux.go:75-78, 107-110 -/
inductive Up where
  | request (n : UInt32)
  | more (n : UInt32)
  deriving DecidableEq, Repr

/-- How far the request has come: not here yet; the handler was called and `s.sub` is nil; `s.sub` is set.
instance.go:513-541 -/
inductive Stage where
  | idle
  | called (n : UInt32)
  | serving
  deriving DecidableEq, Repr

/-- The caller: how often it has asked, `n`, what it was told, `closed`, the goroutines of `doRequest` (flux_host.go:19-25), and
`first` and `complete` of the proxy. Then the frames on their way, and the side that serves: the goroutines of
`DoRequest` (instance.go:349-350) and of `doRequest`, the loop of the source with the rounds it has to go, the source, and
`closed` of its subscriber. Last the frames on their way back; `none` ends the stream. -/
structure State (σ α : Type) where
  pages : Nat
  n : Int
  got : List α
  ended : Bool
  spawned : List Nat
  first : Bool
  complete : Bool
  up : List Up
  stage : Stage
  tasks : List UInt32
  waiting : List Nat
  loop : Option Nat
  src : σ
  closed : Bool
  down : List (Option α)
  crashed : Bool
  deriving DecidableEq, Repr

variable {σ α : Type}

/-- The call was made and not subscribed to. proxy/flux.go:12-28 -/
def init (src : σ) : State σ α :=
  { pages := 0, n := 0, got := [], ended := false, spawned := [], first := true, complete := false, up := [], stage := .idle, tasks := [],
    waiting := [], loop := none, src := src, closed := false, down := [], crashed := false }

/-- `handleOnSubscribe`: `OnRequest` asks for a page, with `Request` (flux.go:184-200). `page k` is the size of page `k`. -/
def ask (page : Nat → Nat) (s : State σ α) : State σ α :=
  { s with pages := s.pages + 1, n := s.n + page s.pages, spawned := s.spawned ++ [page s.pages] }

/-- `Request` of the proxy. proxy/flux.go:71-112 -/
def request (n : Nat) (s : State σ α) : State σ α :=
  if s.complete then s
  else if s.first then { s with first := false, up := s.up ++ [.request (UInt32.ofNat n)] }
  else { s with up := s.up ++ [.more (UInt32.ofNat n)] }

/-- A frame of the caller is taken up: a request calls the handler (instance.go:491-515), a `RequestN` starts a goroutine
(349-350) if the stream is known (264-272). -/
def takeUp (f : Up) (s : State σ α) : State σ α :=
  match f with
  | .request n => { s with stage := .called n }
  | .more n =>
    match s.stage with
    | .idle => s
    | _ => { s with tasks := s.tasks ++ [n] }

/-- `DoRequest`: `r.sub` must not be nil. instance.go:721-723, flux.go:195-200 -/
def demand (n : UInt32) (s : State σ α) : State σ α :=
  match s.stage with
  | .serving => { s with waiting := s.waiting ++ [n.toNat] }
  | _ => { s with crashed := true }

/-- The end of the loop of a source: `Complete` if nothing is left. cmd/host/main.go:71-74, slice.go:12-14, flux.go:141-150,
instance.go:525-530 -/
def endLoop (next : Source σ α) (s : State σ α) : State σ α :=
  match next s.src with
  | some _ => { s with loop := none }
  | none => if s.closed then { s with loop := none } else { s with loop := none, closed := true, down := s.down ++ [none] }

/-- A round of the loop, with `m` rounds to go: `Next` sends a frame. The demand of the subscriber is looked at by nobody (`NoRequest`).
cmd/host/main.go:64-70, slice.go:7-11, flux.go:127-139, instance.go:517-524 -/
def round (next : Source σ α) (m : Nat) (s : State σ α) : State σ α :=
  match m, next s.src with
  | m + 1, some (v, src) =>
    if s.closed then { s with src := src, loop := some m } else { s with src := src, loop := some m, down := s.down ++ [some v] }
  | _, _ => endLoop next s

/-- `Next` of the subscriber of the call. flux.go:127-139 -/
def onNext (page : Nat → Nat) (v : α) (s : State σ α) : State σ α :=
  if s.ended then s
  else if s.n - 1 = 0 then ask page { s with n := s.n - 1, got := s.got ++ [v] }
  else { s with n := s.n - 1, got := s.got ++ [v] }

/-- A frame for the caller is taken up. proxy/flux.go:50-57, flux.go:141-150 -/
def takeDown (page : Nat → Nat) (f : Option α) (s : State σ α) : State σ α :=
  match f with
  | some v => onNext page v s
  | none => { s with ended := true }

/-- What can happen next; `k` tells which goroutine goes on. -/
inductive Act where
  | subscribe
  /-- a goroutine of `doRequest` of the caller gets the lock -/
  | send (k : Nat)
  | recvUp
  /-- `s.sub = sub; s.Request(int(initialN))`. instance.go:539-541 -/
  | attach
  | task (k : Nat)
  /-- a goroutine of `doRequest` gets the lock and calls the source. flux_host.go:19-25 -/
  | run (k : Nat)
  | round
  | recvDown
  /-- `s.complete = true`, after `s.Processor.Complete()`. proxy/flux.go:54-57 -/
  | mark
  deriving DecidableEq, Repr

/-- One step; `none` if it is not possible. -/
def step (next : Source σ α) (page : Nat → Nat) (s : State σ α) : Act → Option (State σ α)
  | .subscribe => if s.pages = 0 then some (ask page s) else none
  | .send k =>
    match s.spawned[k]? with
    | none => none
    | some n => some (request n { s with spawned := s.spawned.eraseIdx k })
  | .recvUp =>
    match s.up with
    | [] => none
    | f :: fs => some (takeUp f { s with up := fs })
  | .attach =>
    match s.stage with
    | .called n => some { s with stage := .serving, waiting := s.waiting ++ [n.toNat] }
    | _ => none
  | .task k =>
    match s.tasks[k]? with
    | none => none
    | some n => some (demand n { s with tasks := s.tasks.eraseIdx k })
  | .run k =>
    match s.loop, s.waiting[k]? with
    | none, some n => some { s with loop := some n, waiting := s.waiting.eraseIdx k }
    | _, _ => none
  | .round =>
    match s.loop with
    | none => none
    | some m => some (round next m s)
  | .recvDown =>
    match s.down with
    | [] => none
    | f :: fs => some (takeDown page f { s with down := fs })
  | .mark => if s.ended && !s.complete then some { s with complete := true } else none

/-- A run. -/
def run (next : Source σ α) (page : Nat → Nat) : State σ α → List Act → Option (State σ α)
  | s, [] => some s
  | s, a :: as =>
    match step next page s a with
    | none => none
    | some s' => run next page s' as

end Iota.Paging
