import Verif.Model.Components

/-!
# Components wired to one another by a host

Model of `/repo/go/transport/wasmrs/cmd/fbp/host/main.go` and `/repo/go/transport/wasmrs/cmd/fbp/guest/main.go`: a guest
that exports three components, and a host that calls one of them and sends what comes out of it on to another.

Simplifications:
* A handler is the function from everything that happens to its input to everything that its result tells
  (`Verif/Model/Components.lean`); that what is pushed at one end arrives in order at the other end is not modelled here.
* The host's `inGreeting` is a processor: values pushed before the other end has asked for its input have no subscriber
  and are dropped (`/repo/go/rx/flux/processor.go:27-31`). `lost` is how many of the first values these are.
* Of the variables of the host only what is printed and whether `done` has been closed is kept.
-/

namespace Iota.Wiring
open Iota.Go Iota.Msgpack Iota.Registry Iota.Components

/-- An exported operation: what happens to its input, and its result. -/
abbrev Handler := List In → Res Sink

/-- `concatHandler` and `greeterHandler`. /repo/go/transport/wasmrs/example/concat/generated.go:36-101,
/repo/go/transport/wasmrs/example/greeter/generated.go:35-99 -/
def single {α : Type} (c : Single α) : Handler := fun ins => (SState.init.run c ins).bind fun s => .ok s.sink

/-- `wordFrequencyHandler`. /repo/go/transport/wasmrs/example/wordfrequency/generated.go:35-119 -/
def frequency (lower : Bytes → Bytes) (arrange : List (Bytes × Nat) → List (Bytes × Nat)) : Handler := fun ins =>
  (Freq.init.run lower arrange ins).bind fun s => .ok s.sink

/-- The namespace and the name of `Concat`. concat/generated.go:15, 33 -/
def concatName : Info := ⟨[99, 111, 110, 99, 97, 116], [67, 111, 110, 99, 97, 116]⟩
/-- The namespace and the name of `Greeter`. greeter/generated.go:14, 32 -/
def greeterName : Info := ⟨[103, 114, 101, 101, 116, 101, 114], [71, 114, 101, 101, 116, 101, 114]⟩
/-- The namespace and the name of `WordFrequency`. wordfrequency/generated.go:14, 32 -/
def frequencyName : Info :=
  ⟨[119, 111, 114, 100, 102, 114, 101, 113, 117, 101, 110, 99, 121], [87, 111, 114, 100, 70, 114, 101, 113, 117, 101, 110, 99, 121]⟩

/-- `main` of the guest. cmd/fbp/guest/main.go:11-15 -/
def guestMain (lib : Lib) (fuel : Nat) (lower : Bytes → Bytes) (arrange : List (Bytes × Nat) → List (Bytes × Nat)) : Reg Handler :=
  exportOp (exportOp (exportOp Reg.init .rc concatName (single (concat lib fuel)))
    .rc greeterName (single greeter)) .rc frequencyName (frequency lower arrange)

/-- `RequestChannel` with this metadata, answered by `handleRequestChannel` of the guest.
/repo/go/transport/wasmrs/guest/guest.go:404-418, 467-477 -/
def call (reg : Reg Handler) (metadata : Bytes) (ins : List In) : Res Sink :=
  if metadata.length < 8 then .ok ⟨true, [.error "Invalid metadata"]⟩
  else (getU32 metadata).bind fun op =>
    match getHandler reg .rc op with
    | none => .ok ⟨true, [.error "not_found"]⟩
    | some h => h ins

/-- The subscriber of a component's result that sends what comes from one port to a port of the next component.
cmd/fbp/host/main.go:32-46. It has neither `OnComplete` nor `OnError`. -/
def relay (outPort inPort : Bytes) : Out → Res (List In)
  | .next md d =>
    match PortIO.decode md with
    | .ok p => if p.port = outPort then (PortIO.encode { p with port := inPort }).bind fun m => .ok [.next m d] else .ok []
    | .err _ => .ok []
    | .panic => .panic
  | .complete => .ok []
  | .error _ => .ok []

/-- Everything that is sent on. -/
def relays (outPort inPort : Bytes) : List Out → Res (List In)
  | [] => .ok []
  | o :: l => (relay outPort inPort o).bind fun x => (relays outPort inPort l).bind fun y => .ok (x ++ y)

/-- The subscriber that prints the texts from one port. cmd/fbp/host/main.go:49-63 -/
def print (port : Bytes) : Out → Res (List Bytes)
  | .next md d =>
    match PortIO.decode md with
    | .ok p =>
      if p.port = port then
        match Transform.string.decode d with
        | .ok v => .ok [v]
        | .err _ => .ok []
        | .panic => .panic
      else .ok []
    | .err _ => .ok []
    | .panic => .panic
  | .complete => .ok []
  | .error _ => .ok []

/-- Everything that is printed. -/
def prints (port : Bytes) : List Out → Res (List Bytes)
  | [] => .ok []
  | o :: l => (print port o).bind fun x => (prints port l).bind fun y => .ok (x ++ y)

/-- What is seen of the host: the lines it prints, and whether `done` is closed, so that it ends. -/
structure Seen where
  lines : List Bytes
  done : Bool
  deriving DecidableEq, Repr

/-- The ports. cmd/fbp/host/main.go:40, 42, 56, 79 -/
def valuePort : Bytes := [118, 97, 108, 117, 101]
def namePort : Bytes := [110, 97, 109, 101]
def messagePort : Bytes := [109, 101, 115, 115, 97, 103, 101]
def stringsPort : Bytes := [115, 116, 114, 105, 110, 103, 115]

/-- The rest of `main` of the host after the first component has answered: the second call, with what is sent on to it, and
its subscriber. cmd/fbp/host/main.go:30-69, 92-98. `Finally` comes after the end of the result. -/
def second (reg : Reg Handler) (metadata : Bytes) (lost : Nat) (first : Sink) : Res Seen :=
  (relays valuePort namePort first.out).bind fun ins => (call reg metadata (ins.drop lost)).bind fun s =>
    (prints messagePort s.out).bind fun ls => .ok ⟨ls, s.closed⟩

/-- `main` of the host for the strings `l` and `r`, with the metadata of the two calls. cmd/fbp/host/main.go:17-98 -/
def hostMain (reg : Reg Handler) (metadata1 metadata2 : Bytes) (lost : Nat) (l r : Bytes) : Res Seen :=
  (Codegen.toBytes stringsEnv (.named 0) (stringsValue l r) (stringsValue l r)).bind fun d =>
    (PortIO.encode ⟨stringsPort, [], true, true⟩).bind fun md =>
      (call reg metadata1 [.next md d, .complete]).bind fun s => second reg metadata2 lost s

/-- `var metadata [8]byte`. cmd/fbp/host/main.go:83, 93 -/
def zeros : Bytes := List.replicate 8 0

/-- A chain of components that make a text of a text, each fed with what comes out of the port of the one before it by
`relay`, starting from a result `s` with the port `port`. -/
def chain : Bytes → Sink → List (Single Bytes) → Res Sink
  | _, s, [] => .ok s
  | port, s, c :: cs => (relays port c.inPort s.out).bind fun ins => (single c ins).bind fun t => chain c.outPort t cs

end Iota.Wiring
