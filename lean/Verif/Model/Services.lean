import Verif.Model.WasmCalls
import Verif.Model.Greeter

/-!
# The host and the guest of the example

Model of `/repo/go/transport/wasmrs/cmd/host/main.go` and `/repo/go/transport/wasmrs/cmd/guest/main.go` (and
`/repo/go/transport/wasmrs/cmd/greeter/main.go`, a guest with less), with the clients and wrappers of
`/repo/go/transport/wasmrs/example`: `greeting.go`, `counter.go`, `uppercase.go`; on top of `Verif/Model/WasmCalls.lean`.

The host registers its two handlers with `invoke.Export…` (counter.go:84, uppercase.go:37-38), which is where a guest looks for
handlers (`/repo/go/transport/wasmrs/guest/guest.go:362`); an `Instance` looks for them in its own slices
(`/repo/go/transport/wasmrs/host/instance.go:648-653`), which only `Set…Handler` fills, and the program calls none of these.

Simplifications:
* Each end may make any calls, any number of times, at any time.
* When the handler `SayHello` answers is left open: cmd/greeter answers at once, cmd/guest when its four streams have ended
  (cmd/guest/main.go:41-92).
* The message of an error that a handler answers with is not looked at.
* `GreetingRequest` and `CounterRequest` have the `Encode` and `Decode` that the generator writes for these fields
  (greeting.go:51-90, counter.go:43-79), so they are those of `Codegen`. `Encode` with nil does not come up.
-/

namespace Iota.Services
open Iota.Go Iota.Registry Iota.WasmDispatch Iota.WasmCalls
open Iota.Msgpack (Lib)
open Iota.Peers (Result)

/-- The operation `greeting`, `sayHello`. greeting.go:23, 97 -/
def greetOp : Info := ⟨[103, 114, 101, 101, 116, 105, 110, 103], [115, 97, 121, 72, 101, 108, 108, 111]⟩

/-- The operation `host`, `counter`: of the counter, and of the service that makes upper case. counter.go:22, 84, uppercase.go:21, 38 -/
def counterOp : Info := ⟨[104, 111, 115, 116], [99, 111, 117, 110, 116, 101, 114]⟩

/-- `CounterRequest`. counter.go:43-45. The name is `to`. -/
def counterEnv : Codegen.Env := [.struct [([116, 111], .prim .u64)]]

/-- A `CounterRequest` as a value. -/
def counterValue (n : Nat) : Codegen.GV := .obj [.sc (.uint n)]

/-- `msgpack.ToBytes(&request)`. counter.go:27-30 -/
def counterData (n : Nat) : Res Bytes := Codegen.toBytes counterEnv (.named 0) (counterValue n) (counterValue n)

/-- The field of a `CounterRequest`. -/
def asCounter : Codegen.GV → Nat
  | .obj [.sc (.uint n)] => n
  | _ => 0

/-- `request.Decode(&decoder)`; `request.To`. counter.go:89-95 -/
def parseCounter (lib : Lib) (fuel : Nat) (data : Bytes) : Res Nat :=
  match Codegen.fromBytes counterEnv lib fuel 0 data with
  | some (.ok v) => .ok (asCounter v)
  | some (.err e) => .err e
  | some .panic => .panic
  | none => .panic

/-- The code of the handlers. -/
inductive Code where
  | sayHello
  | uppercase
  | countToN
  deriving DecidableEq, Repr

/-- What the guest imports and exports. cmd/guest/main.go:17-25, counter.go:22, uppercase.go:21, 37-38, greeting.go:97 -/
def guestReg : Reg Code :=
  exportOp (exportOp (importOp (importOp Reg.init .rs counterOp).2 .rc counterOp).2 .rr greetOp .sayHello) .rc counterOp .uppercase

/-- What the host imports and exports. cmd/host/main.go:38-42, greeting.go:23, counter.go:84, uppercase.go:37-38 -/
def hostReg : Reg Code :=
  exportOp (exportOp (importOp Reg.init .rr greetOp).2 .rs counterOp .countToN) .rc counterOp .uppercase

/-- The slices of handlers of the host's instance: nothing sets any. /repo/go/transport/wasmrs/host/instance.go:48-51, 64-102 -/
def hostSlots : Kind → Slots Code := fun _ => []

/-- The handlers each end finds. /repo/go/transport/wasmrs/host/instance.go:620-625, 634-639, 648-653, 662-667,
/repo/go/transport/wasmrs/guest/guest.go:303, 340, 362, 410 -/
def hands : End → Handlers Code
  | .host => fun k i => getSlot (hostSlots k) i
  | .guest => getHandler guestReg

/-- `opSayHello`. greeting.go:20-25 -/
def opSayHello : UInt32 := (importOp (Reg.init : Reg Code) .rr greetOp).1
/-- `opCountToN`. counter.go:19-24 -/
def opCountToN : UInt32 := (importOp (Reg.init : Reg Code) .rs counterOp).1
/-- `opUppercase`. uppercase.go:18-23 -/
def opUppercase : UInt32 := (importOp (importOp (Reg.init : Reg Code) .rs counterOp).2 .rc counterOp).1

/-- `g.SayHello(firstName, lastName)` sends this. greeting.go:27-39 -/
def sayHelloCall (f l : Bytes) : Res (Kind × Bytes × Bytes) :=
  (Greeter.requestData f l).bind fun d => .ok (.rr, d, Programs.importMd opSayHello)

/-- `g.CountToN(to)` sends this. counter.go:26-41 -/
def countToNCall (n : Nat) : Res (Kind × Bytes × Bytes) :=
  (counterData n).bind fun d => .ok (.rs, d, Programs.importMd opCountToN)

/-- `ucase.Uppercase(in)` sends this. uppercase.go:25-31 -/
def uppercaseCall : Kind × Bytes × Bytes := (.rc, [], Programs.importMd opUppercase)

/-- `g.Uppercase(in)` sends this. greeting.go:43-47 -/
def greetingUppercaseCall : Kind × Bytes × Bytes := (.rc, [], [])

/-- May a request-response handler answer so? cmd/guest/main.go:91, cmd/greeter/main.go:18, greeting.go:102-113. The payload made by
`transform.String.Encode` has no metadata. -/
def gives (lib : Lib) (fuel : Nat) : Code → Bytes → Result → Bool
  | .sayHello, data, r => Greeter.fits (Greeter.sayHello lib fuel data) r
  | _, _, _ => true

/-- Only what the code of the handlers gives is answered. -/
def permitted (lib : Lib) (fuel : Nat) (y : Sys Code) : WasmCalls.Act → Bool
  | .answer e i r =>
    match (y.node e).jobs[i]? with
    | some x => gives lib fuel x.handler x.data r
    | none => false
  | _ => true

/-- One step of the two programs. -/
def step (lib : Lib) (fuel : Nat) (y : Sys Code) (a : WasmCalls.Act) : Option (Sys Code) :=
  if permitted lib fuel y a then y.step hands a else none

/-- What `SayHello(...).Block()` of the host returns for a result. greeting.go:40, cmd/host/main.go:45 -/
def shown : Result → Res Bytes
  | .value d _ => Transform.string.decode d
  | .failure _ => .err "failed"

end Iota.Services
