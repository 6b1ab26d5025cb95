/-!
# The generated configuration of the bus

Model of `/repo/codegen/src/bus/bus_visitor.ts`, which writes the file that tells NanoBus what to do for the services, events and
providers of a namespace.

Simplifications:
* Text is a list of characters; what is written is given line by line.
* The visitor of the dependency calls `visitInterface` and then `visitOperation` for each operation, for the interfaces of the
  namespace in some order, which is that of the list; `isService`, `isEvents`, `isProvider` and `noCode`, which look at annotations,
  are fields. No description is the empty one (both are false in TypeScript).
* `snake` is `snakeCase` with `replaceAll` and `replace` around it (lines 189-191); it is only used in a comment.
-/

namespace Iota.BusYaml

abbrev Str := List Char

/-- An operation: `type` is the value of the annotation of this name. -/
structure Oper where
  name : Str
  desc : Str
  noCode : Bool
  type : Option Str
  deriving DecidableEq, Repr

structure Iface where
  name : Str
  service : Bool
  events : Bool
  provider : Bool
  ops : List Oper
  deriving DecidableEq, Repr

structure Ns where
  name : Str
  ifaces : List Iface
  deriving DecidableEq, Repr

/-- A line with spaces before it. -/
def ln (n : Nat) (s : Str) : Str := List.replicate n ' ' ++ s

/-- The template between the two uses of the name. bus_visitor.ts:31-51 -/
def headA : List Str :=
  [ln 2 ("version: 0.0.1".toList),
    ln 2 ("environment: local".toList),
    [],
    ln 0 ("transports:".toList),
    ln 2 ("rest:".toList),
    ln 4 ("uses: rest".toList),
    ln 4 ("with:".toList),
    ln 6 ("address: :8080".toList),
    ln 6 ("documentation:".toList),
    ln 8 ("swaggerUI: true".toList),
    ln 8 ("postman: true".toList),
    ln 8 ("restClient: true".toList),
    ln 2 ("httprpc:".toList),
    ln 4 ("uses: httprpc".toList),
    ln 4 ("with:".toList),
    ln 6 ("address: :9090".toList),
    [],
    ln 0 ("compute:".toList),
    ln 2 ("- uses: wasmrs".toList),
    ln 4 ("with:".toList)]

/-- The template after them. bus_visitor.ts:52-99 -/
def headB : List Str :=
  [[],
    ln 0 ("specs:".toList),
    ln 2 ("- uses: apex".toList),
    ln 4 ("with:".toList),
    ln 6 ("filename: apex.aidl".toList),
    [],
    ln 0 ("# json, msgpack, and xml are built-in codecs.".toList),
    ln 0 ("# Configure others here.".toList),
    ln 0 ("codecs:".toList),
    ln 2 ("# avro:".toList),
    ln 2 ("#   type: confluentavro".toList),
    ln 2 ("#   with:".toList),
    ln 2 ("#     schemaRegistryURLs:".toList),
    ln 2 ("#       - http://localhost:8081".toList),
    [],
    ln 0 ("inputBindings:".toList),
    ln 2 ("# - binding: twitter".toList),
    ln 2 ("#   codec: json".toList),
    ln 2 ("#   function: handleTweet".toList),
    [],
    ln 0 ("subscriptions:".toList),
    ln 2 ("# - pubsub: pubsub".toList),
    ln 2 ("#   topic: mytopic".toList),
    ln 2 ("#   codec: json".toList),
    [],
    ln 0 ("resiliency:".toList),
    ln 2 ("retries:".toList),
    ln 4 ("events:".toList),
    ln 6 ("policy: constant".toList),
    ln 6 ("duration: 3s".toList),
    [],
    ln 4 ("# database:".toList),
    ln 4 ("#   policy: constant".toList),
    ln 4 ("#   duration: 3s".toList),
    ln 4 ("#".toList),
    ln 4 ("# publish:".toList),
    ln 4 ("#   policy: constant".toList),
    ln 4 ("#   duration: 3s".toList),
    [],
    ln 2 ("circuitBreakers:".toList),
    ln 4 ("# database:".toList),
    ln 4 ("#   policy: constant".toList),
    ln 4 ("#   duration: 3s".toList),
    ln 4 ("#".toList),
    ln 4 ("# publish:".toList),
    ln 4 ("#   maxRequests: 2".toList),
    ln 4 ("#   timeout: 30s".toList),
    []]

/-- `visitNamespaceBefore`, up to the services. bus_visitor.ts:27-100 -/
def head (app : Str) : List Str :=
  [ln 0 ("application:".toList), ln 2 ("id: ".toList ++ app)] ++ headA ++
    [ln 6 ("filename: build/".toList ++ app ++ ".wasm".toList)] ++ headB ++ [ln 0 ("services:".toList)]

/-- `if (oper.description)` with the line it writes. bus_visitor.ts:134-136, 158-160, 193-195 -/
def described (indent : Nat) (pre desc : Str) : List Str :=
  if desc = [] then [] else [ln indent (pre ++ "name: ".toList ++ desc)]

/-- The key of an interface. bus_visitor.ts:121, 179 -/
def ifaceLine (ns : Str) (i : Iface) : Str := ln 2 ("'".toList ++ ns ++ ".".toList ++ i.name ++ "':".toList)

/-- `ServicesVisitor.visitOperation`. bus_visitor.ts:124-138 -/
def serviceOp (o : Oper) : List Str :=
  if o.noCode then [ln 4 (o.name ++ ":".toList)] ++ described 6 [] o.desc ++ [ln 6 ("steps:".toList), []]
  else [ln 4 ("# ".toList ++ o.name ++ ":".toList)] ++ described 4 "#   ".toList o.desc ++ [ln 4 ("#   steps:".toList), []]

/-- `ServicesVisitor`. bus_visitor.ts:114-139 -/
def services (n : Ns) : List Str :=
  n.ifaces.flatMap fun i => if i.service then ifaceLine n.name i :: i.ops.flatMap serviceOp else []

/-- What an event is called. bus_visitor.ts:152-156 -/
def eventKey (o : Oper) : Str := o.type.getD o.name

/-- `EventsVisitor.visitOperation`. bus_visitor.ts:146-169 -/
def eventOp (ns iface : Str) (o : Oper) : List Str :=
  [ln 4 (eventKey o ++ ":".toList)] ++ described 6 [] o.desc ++
    [ln 6 ("steps:".toList),
    ln 8 ("- name: Send to route".toList),
    ln 10 ("uses: invoke".toList),
    ln 10 ("with:".toList),
    ln 12 ("namespace: ".toList ++ ns ++ ".".toList ++ iface),
    ln 12 ("operation: ".toList ++ o.name),
    ln 12 ("input: input.data".toList),
    ln 10 ("retry: events".toList),
    []]

/-- `EventsVisitor`. bus_visitor.ts:145-170 -/
def events (n : Ns) : List Str :=
  n.ifaces.flatMap fun i => if i.events then i.ops.flatMap (eventOp n.name i.name) else []

/-- Operations that look as if they publish. bus_visitor.ts:197-205 -/
def publishes (name : Str) : Bool :=
  "send".toList.isPrefixOf name || "raise".toList.isPrefixOf name || "Created".toList.isSuffixOf name ||
    "Updated".toList.isSuffixOf name || "Deleted".toList.isSuffixOf name || "Moved".toList.isSuffixOf name ||
    "Notification".toList.isSuffixOf name

/-- Operations that look as if they read. bus_visitor.ts:220-224 -/
def reads (name : Str) : Bool :=
  "get".toList.isPrefixOf name || "load".toList.isPrefixOf name || "fetch".toList.isPrefixOf name

/-- bus_visitor.ts:206-219 -/
def publishHint (snake : Str → Str) (o : Oper) : List Str :=
  [ln 8 ("# - name: Publish event".toList),
    ln 8 ("#   uses: '@dapr/publish_message'".toList),
    ln 8 ("#   with:".toList),
    ln 8 ("#     resource: pubsub".toList),
    ln 8 ("#     topic: mytopic".toList),
    ln 8 ("#     codec: cloudevents+json".toList),
    ln 8 ("#     key: input.id".toList),
    ln 8 ("#     data: |".toList),
    ln 8 ("#       {".toList),
    ln 8 ("#         \"type\": \"".toList ++ snake o.name ++ "\",".toList),
    ln 8 ("#         \"data\": input".toList),
    ln 8 ("#       }".toList),
    ln 8 ("#   retry: publish".toList),
    ln 8 ("#   circuitBreaker: publish".toList)]

/-- bus_visitor.ts:225-231 -/
def readHint : List Str :=
  [ln 8 ("# - name: Get state".toList),
    ln 8 ("#   uses: '@dapr/get_state'".toList),
    ln 8 ("#   with:".toList),
    ln 8 ("#     resource: statestore".toList),
    ln 8 ("#     key: input.id".toList),
    ln 8 ("#   retry: database".toList),
    ln 8 ("#   circuitBreaker: database".toList)]

/-- bus_visitor.ts:233-240 -/
def saveHint : List Str :=
  [ln 8 ("# - name: Save state".toList),
    ln 8 ("#   uses: '@dapr/set_state'".toList),
    ln 8 ("#   with:".toList),
    ln 8 ("#     resource: statestore".toList),
    ln 8 ("#     items:".toList),
    ln 8 ("#       - key: input.id".toList),
    ln 8 ("#   retry: database".toList),
    ln 8 ("#   circuitBreaker: database".toList)]

/-- The comment that says how it could be done. bus_visitor.ts:197-241 -/
def hint (snake : Str → Str) (o : Oper) : List Str :=
  if publishes o.name then publishHint snake o else if reads o.name then readHint else saveHint

/-- `ProvidersVisitor.visitOperation`. bus_visitor.ts:182-242 -/
def providerOp (snake : Str → Str) (o : Oper) : List Str :=
  [ln 4 (o.name ++ ":".toList)] ++ described 6 [] o.desc ++ [ln 6 ("steps:".toList)] ++ hint snake o ++ [[]]

/-- `ProvidersVisitor`. bus_visitor.ts:172-243 -/
def providers (snake : Str → Str) (n : Ns) : List Str :=
  n.ifaces.flatMap fun i => if i.provider then ifaceLine n.name i :: i.ops.flatMap (providerOp snake) else []

/-- Everything that is written. bus_visitor.ts:27-111 -/
def written (snake : Str → Str) (app : Str) (n : Ns) : List Str :=
  head app ++ services n ++ [[], "events:".toList] ++ events n ++ [[], "providers:".toList] ++ providers snake n

/-- The file. -/
def file (snake : Str → Str) (app : Str) (n : Ns) : Str := (written snake app n).flatMap fun l => l ++ ['\n']

end Iota.BusYaml
