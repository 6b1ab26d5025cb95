import Verif.Model.MeshCalls
import Verif.Model.Components

/-!
# The modules of the mesh example

Model of `/repo/go/transport/wasmrs/mesh/modules`: `concat`, `greeting` and `customer`, on top of
`Verif/Model/MeshCalls.lean`. The operation of the module `customer` is a flow of three steps (customer/cmd/main.go:22-40):
it calls `concat`, calls `sayHello` with what came back, and answers with what came back then.

Simplifications, beyond those of `Verif/Model/MeshCalls.lean`:
* A step of the flow runs at any time after what it waits for has come (`/repo/go/rx/flow/flow.go:87-122`), and once; the
  calls of this flow are never resolved while the step that makes them runs, so what C22 says of such steps does not
  come up. The call of a step is subscribed to at any time after (`Async`, `/repo/go/proxy/mono.go:54-60`).
* The messages of errors are not looked at: a handler that fails may answer with any.
* The guests may make other calls and have other handlers, which answer anything.
* `Strings`, `GreetingRequest` and `Customer` have the `Encode` and `Decode` that the generator writes for these fields
  (concat/types.go:12-52, greeting/types.go:11-47, customer/types.go:12-52), so they are those of `Codegen`. `Encode`
  with nil does not come up.
-/

namespace Iota.Customer
open Iota.Go Iota.Frames Iota.Registry Iota.WasmDispatch Iota.WasmCalls Iota.Mesh Iota.MeshCalls Iota.Operations
open Iota.Components (stringsEnv stringsValue parseStrings)
open Iota.Msgpack (Lib)
open Iota.Peers (Result)

/-- The handlers of guests: those of the three modules, and others. -/
inductive Code where
  | concat
  | sayHello
  | newCustomer
  | other (n : Nat)
  deriving DecidableEq, Repr

/-! ## The values -/

/-- `GreetingRequest`. greeting/types.go:7-9. The name is `name`. -/
def greetingEnv : Codegen.Env := [.struct [([110, 97, 109, 101], .prim .str)]]

/-- A `GreetingRequest` as a value. -/
def greetingValue (n : Bytes) : Codegen.GV := .obj [.sc (.str n)]

/-- The field of a `GreetingRequest`. -/
def asGreeting : Codegen.GV → Bytes
  | .obj [.sc (.str n)] => n
  | _ => []

/-- `Customer`. customer/types.go:7-10. The names are `firstName` and `lastName`. -/
def customerEnv : Codegen.Env :=
  [.struct [([102, 105, 114, 115, 116, 78, 97, 109, 101], .prim .str), ([108, 97, 115, 116, 78, 97, 109, 101], .prim .str)]]

/-- A `Customer` as a value. -/
def customerValue (f l : Bytes) : Codegen.GV := .obj [.sc (.str f), .sc (.str l)]

/-- The value that `Decode` has made, read as `f` says. -/
def parsed {α : Type} (f : Codegen.GV → α) : Option (Res Codegen.GV) → Res α
  | some (.ok v) => .ok (f v)
  | some (.err e) => .err e
  | some .panic => .panic
  | none => .panic

/-- `request.Decode(&decoder)`. greeting/export.go:21-25 -/
def parseGreeting (lib : Lib) (fuel : Nat) (data : Bytes) : Res Bytes := parsed asGreeting (Codegen.fromBytes greetingEnv lib fuel 0 data)

/-- `request.Decode(&decoder)`. customer/export.go:21-25 -/
def parseCustomer (lib : Lib) (fuel : Nat) (data : Bytes) : Res (Bytes × Bytes) :=
  parsed Components.asStrings (Codegen.fromBytes customerEnv lib fuel 0 data)

/-! ## The operations of the modules -/

/-- The text as bytes. -/
def txt (s : String) : Bytes := s.toUTF8.toList

/-- The module `concat`. concat/cmd/main.go:12-14, concat/export.go:15-17 -/
def concatModule : Reg Code := exportOp Reg.init .rr ⟨txt "concat.v1", txt "concat"⟩ .concat

/-- The module `greeting`. greeting/cmd/main.go:12-14, greeting/export.go:15-17 -/
def greetingModule : Reg Code := exportOp Reg.init .rr ⟨txt "greeting.v1", txt "sayHello"⟩ .sayHello

/-- The imports of the module `customer`, and their indices. customer/cmd/main.go:17-18, concat/import.go:20-23,
greeting/import.go:20-23 -/
def opConcat : UInt32 × Reg Code := importOp Reg.init .rr ⟨txt "concat.v1", txt "concat"⟩
def opSayHello : UInt32 × Reg Code := importOp opConcat.2 .rr ⟨txt "greeting.v1", txt "sayHello"⟩

/-- The module `customer`. customer/cmd/main.go:16-20, customer/export.go:15-17 -/
def customerModule : Reg Code := exportOp opSayHello.2 .rr ⟨txt "flow.v1", txt "flow"⟩ .newCustomer

/-- The handlers of a guest. `/repo/go/invoke/handlers.go:97-102` -/
def handlersOf (r : Reg Code) : Handlers Code := fun k op => getHandler r k op

/-! ## The handlers -/

/-- `Concat` and its wrapper. concat/cmd/main.go:16-18, concat/export.go:19-30 -/
def concat (lib : Lib) (fuel : Nat) (data : Bytes) : Res Bytes :=
  (parseStrings lib fuel data).bind fun p => Transform.string.encode (p.1 ++ [32] ++ p.2)

/-- `SayHello` and its wrapper. greeting/cmd/main.go:16-18, greeting/export.go:19-30 -/
def sayHello (lib : Lib) (fuel : Nat) (data : Bytes) : Res Bytes :=
  (parseGreeting lib fuel data).bind fun n => Transform.string.encode ([72, 101, 108, 108, 111, 44, 32] ++ n)

/-- May a handler that has come to this answer so? The payloads of these handlers have no metadata. -/
def fits : Res Bytes → Result → Bool
  | .ok d, .value d' m => decide (d = d' ∧ m = [])
  | .err _, .failure _ => true
  | _, _ => false

/-- The metadata of a call of an import: its index, and four bytes that stay zero. concat/import.go:34-35,
greeting/import.go:33-34 -/
def importMd (index : UInt32) : Bytes := be32 index ++ [0, 0, 0, 0]

/-- What `concat.Concat` sends. concat/import.go:26-33 -/
def concatData (f l : Bytes) : Res Bytes := Codegen.toBytes stringsEnv (.named 0) (stringsValue f l) (stringsValue f l)

/-- What `greeting.SayHello` sends. greeting/import.go:26-32 -/
def sayHelloData (n : Bytes) : Res Bytes := Codegen.toBytes greetingEnv (.named 0) (greetingValue n) (greetingValue n)

/-- `v, _ := m.Get()` of a call whose result is decoded as a string: the error is thrown away, and with it the value is empty.
customer/cmd/main.go:33, 37, concat/import.go:38, greeting/import.go:37, `/repo/go/rx/mono/mono.go:240-247` -/
def got : Result → Res Bytes
  | .failure _ => .ok []
  | .value d _ =>
    match Transform.string.decode d with
    | .ok s => .ok s
    | .err _ => .ok []
    | .panic => .panic

/-! ## Flows -/

/-- A flow under way: the work it is for, the call of its first step, and that of its second, by index. -/
structure Flow where
  inst : Nat
  job : Job (Hand Code)
  first : Nat
  second : Option Nat
  deriving DecidableEq, Repr

/-- The mesh and the flows. -/
structure World where
  net : Net Code
  flows : List Flow

/-- Before any call. -/
def World.init : World := ⟨Net.init, []⟩

/-- The links of the mesh and the handlers of the guests, and what decoding needs. -/
structure Cfg where
  mesh : Mesh
  code : Nat → Handlers Code
  lib : Lib
  fuel : Nat

/-- The guest of instance `i`. -/
def World.guest (w : World) (i : Nat) : Node (Hand Code) := (w.net.sys i).node .guest

/-- What can happen next. -/
inductive Act where
  | net (a : MeshCalls.Act)
  /-- the first step of the flow that is work number `x` of the guest of `i` -/
  | begin_ (i x : Nat) (ctx : Ctx)
  /-- the second step of a flow, after this result -/
  | greet (f : Nat) (r : Result) (ctx : Ctx)
  /-- the last step of a flow, after this result: work number `x` is answered so -/
  | finish (f x : Nat) (r v : Result)

/-- `messageMono.Get()` and `f.Success(message)`, with the wrapper: the answer of a flow whose second call had this result.
customer/cmd/main.go:37-38, customer/export.go:28 -/
def finished (r : Result) : Res Bytes := (got r).bind fun s => Transform.string.encode s

/-- May the handler of this work answer so? One that has begun a flow answers when the flow ends. customer/export.go:21-29 -/
def mayAnswer (c : Cfg) (j : Job (Hand Code)) (v : Result) : Bool :=
  match j.handler with
  | .code .concat => fits (Customer.concat c.lib c.fuel j.data) v
  | .code .sayHello => fits (Customer.sayHello c.lib c.fuel j.data) v
  | .code .newCustomer =>
    match parseCustomer c.lib c.fuel j.data with
    | .err e => fits (.err e) v
    | _ => false
  | _ => true

/-- Is it a step that the code of the guests allows? -/
def World.allows (c : Cfg) (w : World) : MeshCalls.Act → Bool
  | .own i (.answer .guest x v) =>
    match (w.guest i).jobs[x]? with
    | some j => mayAnswer c j v
    | none => false
  | _ => true

/-- A guest makes a request-response call. -/
def World.call (c : Cfg) (w : World) (i : Nat) (data : Res Bytes) (op : UInt32) (ctx : Ctx) (fs : List Flow) : Option World :=
  match data with
  | .ok d => (w.net.step (hands c.mesh c.code) (.own i (.call .guest .rr d (importMd op) ctx))).map fun n => ⟨n, fs⟩
  | _ => none

/-- Has the flow of this work begun? -/
def World.begun (w : World) (i : Nat) (j : Job (Hand Code)) : Bool := w.flows.any fun f => decide (f.inst = i ∧ f.job.id = j.id)

/-- The work of a flow that has not begun, with the names it was given. -/
def World.fresh (c : Cfg) (w : World) (i x : Nat) : Option (Job (Hand Code) × Bytes × Bytes) :=
  match (w.guest i).jobs[x]? with
  | none => none
  | some j =>
    if j.handler = .code .newCustomer ∧ j.kind = .rr ∧ w.begun i j = false then
      match parseCustomer c.lib c.fuel j.data with
      | .ok p => some (j, p.1, p.2)
      | _ => none
    else none

/-- One step; `none` if it is not possible or crashes the process. customer/cmd/main.go:29-38 -/
def World.step (c : Cfg) (w : World) : Act → Option World
  | .net a => if w.allows c a then (w.net.step (hands c.mesh c.code) a).map fun n => ⟨n, w.flows⟩ else none
  | .begin_ i x ctx =>
    match w.fresh c i x with
    | none => none
    | some (j, first, last) =>
      w.call c i (concatData first last) opConcat.1 ctx (w.flows ++ [⟨i, j, (w.guest i).calls.length, none⟩])
  | .greet k r ctx =>
    match w.flows[k]? with
    | none => none
    | some f =>
      if f.second = none ∧ heard (w.guest f.inst) f.first r = true then
        w.call c f.inst ((got r).bind sayHelloData) opSayHello.1 ctx
          (w.flows.set k { f with second := some (w.guest f.inst).calls.length })
      else none
  | .finish k x r v =>
    match w.flows[k]? with
    | none => none
    | some f =>
      match f.second with
      | none => none
      | some q =>
        if heard (w.guest f.inst) q r = true ∧ (w.guest f.inst).jobs[x]? = some f.job ∧ fits (finished r) v = true then
          (w.net.step (hands c.mesh c.code) (.own f.inst (.answer .guest x v))).map fun n => ⟨n, w.flows⟩
        else none

/-- Runs. -/
inductive Reach (c : Cfg) : World → Prop
  | init : Reach c World.init
  | step {w w' : World} (a : Act) : Reach c w → w.step c a = some w' → Reach c w'

end Iota.Customer
