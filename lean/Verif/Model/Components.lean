import Verif.Model.Codegen
import Verif.Model.Transform

/-!
# Components with ports

Model of the components under `/repo/go/transport/wasmrs/example`: `wordfrequency/generated.go` and
`wordfrequency/wordfrequency.go`, `concat/generated.go` and `concat/concat.go`, `greeter/generated.go` and
`greeter/greeter.go`, as they run in WebAssembly, where everything happens on one thread
(`/repo/go/rx/flux/flux_webassembly.go:11-13`: `doRequest` calls the source at once).

Simplifications:
* Strings are their bytes. `strings.ToLower` is a parameter, and so is the order in which `range` visits a map
  together with what `sort.Sort` makes of it (`arrange`).
* Processors (`/repo/go/rx/flux/processor.go`, `/repo/go/rx/mono/processor.go`) are subscribed before anything is
  pushed: the outputs by the handler, the inputs by `Process`. So each is its subscriber: the flag `closed` and the
  callbacks (`/repo/go/rx/flux/flux.go:127-172`, `/repo/go/rx/mono/mono.go:157-189`).
* The consumer of the result does not cancel.
* `WordCount` and `Strings` have the `Encode` and `Decode` that the generator writes for these fields
  (wordfrequency/generated.go:121-165, concat/generated.go:103-147), so they are those of `Codegen`.
-/

namespace Iota.Components
open Iota.Go Iota.Msgpack Iota.Registry

/-- What happens to the input `in` of a handler. `next` is a payload. -/
inductive In where
  | next (metadata data : Bytes)
  | complete
  | error (e : String)
  deriving DecidableEq, Repr

/-- What the handler's result tells its subscriber. -/
inductive Out where
  | next (metadata data : Bytes)
  | complete
  | error (e : String)
  deriving DecidableEq, Repr

/-- `sink`, the subscriber of the handler's result, and what it has been told. /repo/go/rx/flux/flux.go:108-125 -/
structure Sink where
  closed : Bool
  out : List Out
  deriving DecidableEq, Repr

/-- A new subscriber. /repo/go/rx/flux/flux.go:80-94 -/
def Sink.new : Sink := ⟨false, []⟩

/-- `Next`. /repo/go/rx/flux/flux.go:127-139 -/
def Sink.next (s : Sink) (metadata data : Bytes) : Sink :=
  if s.closed then s else { s with out := s.out ++ [.next metadata data] }

/-- `Complete`. /repo/go/rx/flux/flux.go:141-150 -/
def Sink.complete (s : Sink) : Sink := if s.closed then s else ⟨true, s.out ++ [.complete]⟩

/-- `Error`. /repo/go/rx/flux/flux.go:152-162 -/
def Sink.error (s : Sink) (e : String) : Sink := if s.closed then s else ⟨true, s.out ++ [.error e]⟩

/-! ## Counting words -/

/-- `WordCount`. wordfrequency/generated.go:121-124. The names are `word` and `count`. -/
def wordCountEnv : Codegen.Env :=
  [.struct [([119, 111, 114, 100], .prim .str), ([99, 111, 117, 110, 116], .prim .u64)]]

/-- A `WordCount` as a value. -/
def wordCount (w : Bytes) (n : Nat) : Codegen.GV := .obj [.sc (.str w), .sc (.uint n)]

/-- `ignoredWords`: i, the, and, to, of, a, my, in, you, is, that. wordfrequency/wordfrequency.go:59-71 -/
def ignoredWords : List Bytes :=
  [[105], [116, 104, 101], [97, 110, 100], [116, 111], [111, 102], [97], [109, 121], [105, 110], [121, 111, 117],
   [105, 115], [116, 104, 97, 116]]

/-- `counts[word] = counts[word] + 1` on a map of `uint64`. wordfrequency/wordfrequency.go:19 -/
def bump : List (Bytes × Nat) → Bytes → List (Bytes × Nat)
  | [], w => [(w, 1)]
  | (k, n) :: m, w => if k = w then (k, (n + 1) % 2 ^ 64) :: m else (k, n) :: bump m w

/-- The component: the map and whether `words` has ended. wordfrequency/wordfrequency.go:11-31 -/
structure Comp where
  counts : List (Bytes × Nat)
  closed : Bool
  deriving DecidableEq, Repr

/-- `Process` has made an empty map and subscribed. wordfrequency/wordfrequency.go:11-14 -/
def Comp.init : Comp := ⟨[], false⟩

/-- What the component pushes to its output `counts`. -/
inductive Push where
  | next (w : Bytes) (n : Nat)
  | complete
  deriving DecidableEq, Repr

/-- `words.Next`: `OnNext`. wordfrequency/wordfrequency.go:15-21 -/
def Comp.next (lower : Bytes → Bytes) (c : Comp) (word : Bytes) : Comp :=
  if c.closed then c
  else if lower word ∈ ignoredWords then c
  else { c with counts := bump c.counts (lower word) }

/-- The function made by `SliceResponse`, called with `n`. /repo/go/rx/flux/response.go:3-17. What remains of the
slice if it has more than `n` elements is not modelled: `n` is 2^31-1. -/
def sliceResponse (n : Nat) (l : List (Bytes × Nat)) : List Push :=
  (l.take n).map (fun p => Push.next p.1 p.2) ++ (if l.drop n = [] then [.complete] else [])

/-- `rx.RequestMax`, the demand of the handler for `counts`. /repo/go/rx/rx.go:8, /repo/go/rx/flux/flux.go:184-193 -/
def requestMax : Nat := 2 ^ 31 - 1

/-- `words.Complete`: `OnComplete`. wordfrequency/wordfrequency.go:22-29, 33-44. `Counts.OnSubscribe` calls the
source at once, as its subscriber has demanded (/repo/go/rx/flux/flux.go:173-182). -/
def Comp.complete (arrange : List (Bytes × Nat) → List (Bytes × Nat)) (c : Comp) : Comp × List Push :=
  if c.closed then (c, [])
  else ({ c with closed := true }, sliceResponse requestMax (arrange c.counts))

/-- A call of `words`. -/
inductive Word where
  | next (w : Bytes)
  | complete
  deriving DecidableEq, Repr

/-- The calls of `words` one after the other, and what is pushed to `counts`. -/
def Comp.run (lower : Bytes → Bytes) (arrange : List (Bytes × Nat) → List (Bytes × Nat)) : Comp → List Word → Comp × List Push
  | c, [] => (c, [])
  | c, .next w :: l => Comp.run lower arrange (c.next lower w) l
  | c, .complete :: l =>
    ((Comp.run lower arrange (c.complete arrange).1 l).1, (c.complete arrange).2 ++ (Comp.run lower arrange (c.complete arrange).1 l).2)

/-- The port `words`. wordfrequency/generated.go:100 -/
def wordsPort : Bytes := [119, 111, 114, 100, 115]
/-- The port `counts`. wordfrequency/generated.go:61, 69 -/
def countsPort : Bytes := [99, 111, 117, 110, 116, 115]

/-- The handler's variables: the component, the subscriber of `counts`, `finalized`, `sink`, and whether `in` has
ended. wordfrequency/generated.go:37-50 -/
structure Freq where
  comp : Comp
  countsClosed : Bool
  finalized : Nat
  sink : Sink
  inClosed : Bool
  deriving DecidableEq, Repr

/-- The handler has subscribed to everything. wordfrequency/generated.go:36-87 -/
def Freq.init : Freq := ⟨Comp.init, false, 0, Sink.new, false⟩

/-- `final`. wordfrequency/generated.go:42-49 -/
def Freq.final (s : Freq) : Freq :=
  if s.finalized + 1 = 1 then { s with finalized := s.finalized + 1, sink := s.sink.complete }
  else { s with finalized := s.finalized + 1 }

/-- The subscriber of `counts`. wordfrequency/generated.go:53-76 -/
def Freq.push (s : Freq) (p : Push) : Res Freq :=
  if s.countsClosed then .ok s
  else match p with
    | .next w n =>
      (Codegen.toBytes wordCountEnv (.named 0) (wordCount w n) (wordCount w n)).bind fun d =>
        (PortIO.encode ⟨countsPort, [], false, true⟩).bind fun md => .ok { s with sink := s.sink.next md d }
    | .complete =>
      (PortIO.encode ⟨countsPort, [], true, false⟩).bind fun md =>
        .ok (Freq.final { s with countsClosed := true, sink := s.sink.next md [] })

/-- The pushes of the component one after the other. -/
def Freq.pushes : Freq → List Push → Res Freq
  | s, [] => .ok s
  | s, p :: l => (s.push p).bind fun s' => Freq.pushes s' l

/-- `words.Complete()`. wordfrequency/generated.go:109-111, 114-116 -/
def Freq.wordsComplete (arrange : List (Bytes × Nat) → List (Bytes × Nat)) (s : Freq) : Res Freq :=
  Freq.pushes { s with comp := (s.comp.complete arrange).1 } (s.comp.complete arrange).2

/-- The rest of the case `words` after `if port.Next`. wordfrequency/generated.go:109-111 -/
def Freq.afterWord (arrange : List (Bytes × Nat) → List (Bytes × Nat)) (complete : Bool) (s : Freq) : Res Freq :=
  if complete then s.wordsComplete arrange else .ok s

/-- The case `words`. wordfrequency/generated.go:100-111 -/
def Freq.onWords (lower : Bytes → Bytes) (arrange : List (Bytes × Nat) → List (Bytes × Nat)) (s : Freq) (port : PortIO)
    (data : Bytes) : Res Freq :=
  if port.next then
    match Transform.string.decode data with
    | .ok w => Freq.afterWord arrange port.complete { s with comp := s.comp.next lower w }
    | .err e => .ok { s with sink := s.sink.error e }
    | .panic => .panic
  else Freq.afterWord arrange port.complete s

/-- The subscriber of `in`. wordfrequency/generated.go:91-117. There is no `OnError`. -/
def Freq.step (lower : Bytes → Bytes) (arrange : List (Bytes × Nat) → List (Bytes × Nat)) (s : Freq) (i : In) : Res Freq :=
  if s.inClosed then .ok s
  else match i with
    | .next md d =>
      match PortIO.decode md with
      | .ok port => if port.port = wordsPort then s.onWords lower arrange port d else .ok s
      | .err e => .ok { s with sink := s.sink.error e }
      | .panic => .panic
    | .complete => Freq.wordsComplete arrange { s with inClosed := true }
    | .error _ => .ok { s with inClosed := true }

/-- Everything that happens to `in`. -/
def Freq.run (lower : Bytes → Bytes) (arrange : List (Bytes × Nat) → List (Bytes × Nat)) : Freq → List In → Res Freq
  | s, [] => .ok s
  | s, i :: l => (s.step lower arrange i).bind fun s' => Freq.run lower arrange s' l

/-! ## Components that make one value of one value -/

/-- What distinguishes these components: the ports, how the payload is read and what is made of it. -/
structure Single (α : Type) where
  inPort : Bytes
  outPort : Bytes
  parse : Bytes → Res α
  value : α → Bytes

/-- The handler's variables: whether the monos of input and output have their value, `finalized`, `sink`, and whether `in`
has ended. concat/generated.go:37-47, greeter/generated.go:36-46 -/
structure SState where
  inputClosed : Bool
  outputClosed : Bool
  finalized : Nat
  sink : Sink
  inClosed : Bool
  deriving DecidableEq, Repr

/-- The handler has subscribed to everything. concat/generated.go:37-75, greeter/generated.go:36-74 -/
def SState.init : SState := ⟨false, false, 0, Sink.new, false⟩

/-- `final`. concat/generated.go:41-47, greeter/generated.go:40-46 -/
def SState.final (s : SState) : SState :=
  if s.finalized + 1 = 1 then { s with finalized := s.finalized + 1, sink := s.sink.complete }
  else { s with finalized := s.finalized + 1 }

/-- The output's `OnSuccess`. concat/generated.go:50-63, greeter/generated.go:49-62 -/
def SState.forward {α : Type} (c : Single α) (s : SState) (v : Bytes) : Res SState :=
  match Transform.string.encode v with
  | .ok d => (PortIO.encode ⟨c.outPort, [], true, true⟩).bind fun md => .ok { s with sink := s.sink.next md d }
  | .err e => .ok { s with sink := s.sink.error e }
  | .panic => .panic

/-- The output's `Success` with the callbacks of the handler. concat/generated.go:49-65, greeter/generated.go:48-64 -/
def SState.output {α : Type} (c : Single α) (s : SState) (v : Bytes) : Res SState :=
  if s.outputClosed then .ok s
  else (SState.forward c { s with outputClosed := true } v).bind fun s' => .ok s'.final

/-- The input's `Success` with the callback of `Process`. concat/concat.go:10-13, greeter/greeter.go:10-14 -/
def SState.input {α : Type} (c : Single α) (s : SState) (a : α) : Res SState :=
  if s.inputClosed then .ok s else SState.output c { s with inputClosed := true } (c.value a)

/-- The case of the input port. concat/generated.go:86-96, greeter/generated.go:85-94 -/
def SState.onPort {α : Type} (c : Single α) (s : SState) (port : PortIO) (data : Bytes) : Res SState :=
  if port.next then
    match c.parse data with
    | .ok a => s.input c a
    | .err e => .ok { s with sink := s.sink.error e }
    | .panic => .panic
  else .ok s

/-- The subscriber of `in`. concat/generated.go:77-99, greeter/generated.go:76-97. There is neither `OnComplete` nor
`OnError`. -/
def SState.step {α : Type} (c : Single α) (s : SState) (i : In) : Res SState :=
  if s.inClosed then .ok s
  else match i with
    | .next md d =>
      match PortIO.decode md with
      | .ok port => if port.port = c.inPort then s.onPort c port d else .ok s
      | .err e => .ok { s with sink := s.sink.error e }
      | .panic => .panic
    | .complete => .ok { s with inClosed := true }
    | .error _ => .ok { s with inClosed := true }

/-- Everything that happens to `in`. -/
def SState.run {α : Type} (c : Single α) : SState → List In → Res SState
  | s, [] => .ok s
  | s, i :: l => (s.step c i).bind fun s' => SState.run c s' l

/-- `Strings`. concat/generated.go:103-106. The names are `left` and `right`. -/
def stringsEnv : Codegen.Env :=
  [.struct [([108, 101, 102, 116], .prim .str), ([114, 105, 103, 104, 116], .prim .str)]]

/-- A `Strings` as a value. -/
def stringsValue (l r : Bytes) : Codegen.GV := .obj [.sc (.str l), .sc (.str r)]

/-- The fields of a `Strings`. -/
def asStrings : Codegen.GV → Bytes × Bytes
  | .obj [.sc (.str l), .sc (.str r)] => (l, r)
  | _ => ([], [])

/-- `transform.CodecDecode(p, &s)`. concat/generated.go:88-90, /repo/go/transform/transform.go:302-305. `fuel` bounds the
depth of nested values that are skipped. -/
def parseStrings (lib : Lib) (fuel : Nat) (data : Bytes) : Res (Bytes × Bytes) :=
  match Codegen.fromBytes stringsEnv lib fuel 0 data with
  | some (.ok v) => .ok (asStrings v)
  | some (.err e) => .err e
  | some .panic => .panic
  | none => .panic

/-- `Concat`: the ports `strings` and `value`; `value.Left + " " + value.Right`. concat/concat.go:9-18,
concat/generated.go:56-60, 86 -/
def concat (lib : Lib) (fuel : Nat) : Single (Bytes × Bytes) :=
  ⟨[115, 116, 114, 105, 110, 103, 115], [118, 97, 108, 117, 101], parseStrings lib fuel, fun p => p.1 ++ [32] ++ p.2⟩

/-- `Greeter`: the ports `name` and `message`; `"Hello, " + value`. greeter/greeter.go:9-15, greeter/generated.go:55-59,
85 -/
def greeter : Single Bytes :=
  ⟨[110, 97, 109, 101], [109, 101, 115, 115, 97, 103, 101], Transform.string.decode, fun v => [72, 101, 108, 108, 111, 44, 32] ++ v⟩

end Iota.Components
