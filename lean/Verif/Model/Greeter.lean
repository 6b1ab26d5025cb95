import Verif.Model.Programs
import Verif.Model.Components

/-!
# The greeter example

Model of `/repo/go/example/greeter`: a program that listens and, on every connection, calls `sayHello` of the program that has
connected (server/main.go), and the program that connects and serves it (client/main.go), on top of
`Verif/Model/Programs.lean`.

Simplifications:
* The listening program may make any other calls too, at any time and any number of `sayHello` calls.
* The message of an error is not looked at: a handler that fails may answer with any.
* `GreetingRequest` has the `Encode` and `Decode` that the generator writes for these fields (greeter.go:23-62), so they are those
  of `Codegen`. `Encode` with nil does not come up.
-/

namespace Iota.Greeter
open Iota.Go Iota.Registry Iota.Programs
open Iota.Msgpack (Lib)
open Iota.Peers (Result)
open Iota.StreamId (Side)

/-- `GreetingRequest`. greeter.go:18-21. The names are `firstName` and `lastName`. -/
def requestEnv : Codegen.Env :=
  [.struct [([102, 105, 114, 115, 116, 78, 97, 109, 101], .prim .str), ([108, 97, 115, 116, 78, 97, 109, 101], .prim .str)]]

/-- A `GreetingRequest` as a value. -/
def requestValue (f l : Bytes) : Codegen.GV := .obj [.sc (.str f), .sc (.str l)]

/-- `msgpack.ToBytes(&request)`. greeter.go:95-102 -/
def requestData (f l : Bytes) : Res Bytes := Codegen.toBytes requestEnv (.named 0) (requestValue f l) (requestValue f l)

/-- `request.Decode(&decoder)`. greeter.go:70-74 -/
def parseRequest (lib : Lib) (fuel : Nat) (data : Bytes) : Res (Bytes × Bytes) :=
  match Codegen.fromBytes requestEnv lib fuel 0 data with
  | some (.ok v) => .ok (Components.asStrings v)
  | some (.err e) => .err e
  | some .panic => .panic
  | none => .panic

/-- `SayHello` and its wrapper. client/main.go:24-27, greeter.go:68-79 -/
def sayHello (lib : Lib) (fuel : Nat) (data : Bytes) : Res Bytes :=
  (parseRequest lib fuel data).bind fun p => Transform.string.encode ([72, 101, 108, 108, 111, 44, 32] ++ p.1 ++ [32] ++ p.2)

/-- May a handler that has come to this answer so? The payloads have no metadata. greeter.go:73, 77, client/main.go:26 -/
def fits : Res Bytes → Result → Bool
  | .ok d, .value d' m => decide (d = d' ∧ m = [])
  | .err _, .failure _ => true
  | _, _ => false

/-- The operation, `greeting` and `sayHello`. greeter.go:65, 89 -/
def op : Info := ⟨[103, 114, 101, 101, 116, 105, 110, 103], [115, 97, 121, 72, 101, 108, 108, 111]⟩

/-- The programs: the one that connects exports the operation, the one that listens imports it. client/main.go:14, greeter.go:64-66,
server/main.go:22, greeter.go:86-91 -/
def duo (lib : Lib) (fuel : Nat) : Duo Unit where
  regs s := match s with
    | .client => exportOp Reg.init .rr op ()
    | .server => (importOp Reg.init .rr op).2
  gives _ data _ r := fits (sayHello lib fuel data) r

/-- `opSayHello`. greeter.go:89 -/
def opSayHello : UInt32 := (importOp (Reg.init : Reg Unit) .rr op).1

/-- What `SayHello(...).Block()` of the listening program returns for a result. greeter.go:106-107 -/
def shown : Result → Res Bytes
  | .value d _ => Transform.string.decode d
  | .failure _ => .err "failed"

end Iota.Greeter
