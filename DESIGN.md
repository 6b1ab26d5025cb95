# Formal model of nanobus/iota in Lean 4

The Go sources under `/repo/go`, the frame codec, operation tables and socket of the Rust crates, and parts of what the
code generator emits are modelled function by function in Lean 4 under `lean/Verif/`. Properties are listed in
`properties.jsonl`, their proof status in `MANIFEST.json`, mutation experiments in `seeded/LOG.jsonl`.

## Layout

* `Verif/Go/*`        Go primitives: result type with panics, byte slices, big-endian integers.
* `Verif/Model/*`     the model. Every definition cites the file and lines it models.
* `Verif/Spec/*`      small specifications that do not mention the model.
* `Verif/Lemmas/*`    helper lemmas.
* `Verif/Props/*`     property theorems, with an `example` meeting the hypotheses next to each.

## Conventions

* Go panics are values: `Res.panic`. Go errors are values: `Res.err`. A theorem that says a call
  returns `Res.ok` therefore also says it does not panic. Rust panics (`unwrap`, `todo!`, `split_to`) likewise.
* `[]byte` is `List UInt8`; writes into a caller's buffer are modelled by a cursor that keeps
  the whole buffer (written part and rest), so overruns and stray writes are visible.
* Machine integers wrap as in Go (`UInt8/16/32/64`, or `Nat` with an explicit `% 2^k`).
* Goroutines and Rust tasks are explicit small steps; a theorem about a schedule quantifies over every list of steps.
* When the code violates the stated property the violation is proved (theorem suffix `_refuted`)
  with a concrete witness, and the part which does hold is proved as `_partial`.
* A property is `proved` in the manifest only if the theorems cover its statement as given in `properties.jsonl`.

## Trusted base

* Lean's kernel. Axioms: at most `propext`, `Classical.choice`, `Quot.sound`; the list for every theorem is at the end
  of this file. No axiom is added; no `sorry`, `native_decide` or `bv_decide`.
* The correspondence between source text and model, made by reading; nothing is extracted mechanically.
* Go standard library: `encoding/binary.BigEndian`, `bufio.Scanner`, `bufio.Writer`, maps, channels,
  `sync/atomic`, `sync.Mutex`, `time` are modelled from their documentation; Rust: `bytes::Bytes`, tokio's `oneshot` and
  `mpsc` channels, `parking_lot`/`RwLock` maps, `String::from_utf8` likewise.
* Memory exhaustion, stack overflow, garbage collection, timing and `context` cancellation are not modelled. Data races
  inside a step of a machine are not modelled; what a step is, is said in each model.

## Plan per property

| Id | Model | Proof |
|----|-------|-------|
| C01 | header build/parse on bytes, UInt16 shifts and masks | round trip for all values |
| C02 | Encode/Decode of all frame kinds | round trip; request frames lose the follow bit (refuted + partial) |
| C03 | Encode into a cursor over the caller's buffer | exact prefix overwrite |
| C04 | Decode with panics | refuted by short input; exact panic-free condition as partial |
| C05 | splitPayloads as a fuelled loop with UInt32 arithmetic | invariant by induction on remaining bytes |
| C06 | RequestPayload.Fragment | refuted (metadata duplicated); partial for the other cases |
| C07 | u24 | direct |
| C08 | counter with atomic add, any schedule | injectivity modulo 2^31 |
| C09 | same | client proved; server refuted at draw 2^30 |
| C10, C11 | channel + backlog + disposed state machine | invariants over every run, refinement to a queue |
| C12, C13 | heap of nodes with prev/next pointers | invariant over every history; C13 refuted + partial |
| C14-C16, C21 | mono subscriber with re-entrant callbacks, processor, map | induction on signal trees |
| C17-C20 | flux subscriber, slice source, map | invariants over event lists; C18, C20 refuted + partial |
| C22 | flow step machine | invariant; refuted for synchronous completion |
| C23-C30 | msgpack writer, sizer, reader, any, skip, time | round trips by case split and structural induction |
| C31 | table codec | round trip by induction on the table |
| C32, C33 | export/import registries | invariants over histories |
| C34, C55 | maps / growing slices | refinement to a finite map |
| C35 | PortIO codec | refuted (both flags have value 1) + partial |
| C36, C37 | scanner + doSplit over chunk lists | simulation against a pure parser; C37 refuted for data-with-EOF |
| C38 | write steps of concurrent senders | refuted by a schedule; partial for serialised sends |
| C39-C41 | HandleFrame as a transition function with panics | case analysis; C41 refuted + partial |
| C42 | requester, responder and two FIFO wires as one system | invariant over every run |
| C43 | streamFlux state machine | invariant |
| C44, C45 | batch writer and GuestSend parser, hostSend | round trip over all batchings; C45 refuted for batches |
| C46, C47 | send/recv loop machines | refuted by schedules + partial |
| C48, C49 | mesh link state | invariant; C49 refuted for module-to-module calls |
| C50-C53 | uuid text, bits, pool, clock | round trips and invariants |
| C54 | section reader | induction on sections; refuted for an empty section at end of file |
| C56 | nillable readers, convert | refuted for convert + partial |
| C57 | transforms over the msgpack model | from C23-C30 |
| C58 | operation table reader with panics | accepted tables are of the format; refuted for truncated tables |
| C59 | scanner buffer as a store the frames point into | refuted by a run; partial while the buffer is not moved |
| C60-C63 | handler.go requests, responders and demand | case analysis and invariants; each refuted by a run, partial for the rest |
| C64, C65 | host buffers and buffer pool as stores | refuted by runs; partial by invariants on ownership |
| C66, C67 | mesh linking and routing | from the linking invariant; refuted + partial |
| C68-C70 | Rust frame codec and operation tables | equality of the two codecs on all inputs, with the exceptions refuted |
| C71-C76 | Rust socket as a machine of frames, calls, tasks and drops | invariants over every run; exceptions refuted |
| C77 | handler.go requester side over every history | refinement to the frames of one stream |
| C78 | transforms on truncated encodings | from the msgpack reader; refuted for slices |
| C79 | request goroutines of a flux | mutual exclusion invariant; refuted without the lock |
| C80 | id sources of both languages | parity; refuted for mixed ends |
| C81-C84 | recvOne/GuestSend over bytes, requests, contexts | invariants over every run of either end |
| C85 | uuid time conversion, field layout | integer arithmetic |
| C86 | map reader with repeated keys | induction on the entries |
| C87 | Start, loopReadBuffer, Unbounded | invariant: read = handled ++ being handled ++ channel ++ backlog ++ being put |
| C88 | Start, Close | invariant, progress, measure once the loop is left; two refutations |
| C89 | request handling of host and guest | invariant over every run after the request is taken up |
| C90 | readFrames, sendFrame, hostWrite (Rust) | characterisation of read_frame; induction over the batch; refinement of the Go reader; two refutations |
| C91 | sendHostFrame, hostRead, hostSend | case analysis on the size; two refutations |
| C92 | register, serve (Rust) | invariant over registrations, then composition with the encoders of metadata and lists |
| C93 | serve, channelElement (Rust) | exact condition for a panic; refutation |
| C94 | Listen, Close, putTransport | invariant, stopped states and a measure of what Listen has left; two refutations over all continuations |
| C95 | Listen, putTransport | invariant; refutation for any number of connections |
| C96 | generated Encode, Decode; ToBytes | mutual induction over typed values; refutation |
| C97 | generated Encode, Decode with two versions | mutual induction over typed values, against a function that adapts values to another version; refutation |
| C98 | generated Encode | mutual induction, against the grammar of MessagePack |
| C99 | generated Encode of unions | induction over members |
| C100 | generated Decode, Skip | induction over steps with a bound by the bytes left; refutation |
| C101 | generated Decode | mutual induction over typed values (reads all or fails); refutation |
| C102 | Flux, FluxReceiver, their channel (Rust) | invariant about where the receiver is; conservation of values by every step; draining |
| C103 | poll_recv, recv, complete (Rust) | exact result of an undisturbed poll; two refutations |
| C104 | recv (Rust) | invariant of a kept handle; refutation |
| C105 | Mono (Rust) | refinement of a specification by the history of calls |
| C106 | FluxPipe (Rust) | induction over polls; refutation for all pipes |
| C107 | NewInstance, opList, OperationList | composition of C32 with the start of a module for all start behaviours; refutation |
| C108 | Instantiate, NewInstance, host functions | induction over what the module does, bound on the number of frames by bytes; two refutations |
| C109 | hostSend while nothing receives | induction over the frames; refutation |
| C110 | Instantiate | induction over the modules; refutation for all modules |
| C111 | generated Decode | induction over the entries of a message with repetitions; refutation |
| C112 | generated wrappers and importing functions | case analysis over steps and types on top of the round trip of codecs (C96) and transforms (C57) |
| C113 | generated wrappers and importing functions | equivalence with a list of good types; refutations for families of operations |
| C114 | generated wrappers and importing functions | independence by congruence; refutation |
| C115 | spawn, exhaust_pool, send_frame | invariant relating the event log to the lists of the pool, induction over fuel; refutation |
| C116 | exhaust_pool | once the flag is stuck nothing is polled, induction over the later calls; refutation for all programs |
| C117 | Block of mono, mapper, Just, Error | what Block holds is a function of the history; invariant of C14 gives its value; refutation |
| C118 | Block of flux and mapper | number of closes of the channel computed from the calls, induction over runs; refutations |
| C119 | streamMono | simulation by the processor of C16, counting; refutations for all runs |
| C120 | flux processor | refinement into runs of the flux machine with a user source; refutation |
| C121 | Rust host: start, operation table, lookups | a start succeeds iff all functions run to their end; composition with the round trips of C70; invariant over runs |
| C122 | new_context, functions of the linker | exact condition of a crash, from the decision of each call of the host; refutations |
| C123 | responder and writer of the Rust host | invariant over all runs: tasks and frames a host can have; absorbing state; refutations for all runs |
| C124 | writer of the Rust host | invariant for quiet modules over all runs; refutations |
| C125 | writer, socket and callers of the Rust host | prefix invariant; simulation by the observation of C72 |
| C126 | stream tables of a Go connection over whole runs | counting invariant; refutation for all runs; removal lemma |
| C127 | `Async`/`Notify`/`Get` of proxies, created and finished monos and fluxes | invariant over runs of the proxy; refutation for all runs |
| C128 | `Finally` of created and finished monos and fluxes | from C14; refutation for all handlers |
| C129 | exports of a module from the Rust generator | visitor invariant; composition with C92 |
| C130 | imports and calling functions of a module from the Rust generator | visitor invariant; composition with C48/C49; refutation for all documents |
| C131 | stream wrapper from the Rust generator | prefix invariant over runs; termination by length of the queue; refutations for all runs |
| C132 | channel wrapper from the Rust generator | two prefix invariants over runs; refutations for all runs |
| C133 | arguments from a Rust client to a Go service | reading loop by induction on the fields, for any serialization; refutations for all values |
| C134 | two connected handlers | invariant over runs of both peers: every answer on a wire belongs to an open call; refutation for all runs |
| C135 | two connected handlers | the places of a request and its answer are counted: the sum is one for every subscribed call |
| C136 | a stream from the handler's source to the caller's subscriber | composition of C17, C20, C36, C77 and C120 with the closures that join them |
| C137 | import sections of generated Go files | membership of every package in imports and in uses is characterised; the two are compared |
| C138 | the input of a channel from the caller's source to the handler's subscriber | the stream of a request followed through the tables, composed with C17, C20, C36 |
| C139 | demand from the caller's subscriber to the serving flux | conservation: demand passed on and demand under way, as a permutation of what frames brought |
| C140 | a channel after one direction has ended | conservation from the end on; refuted for all runs |
| C141 | times as text: calendar, `Format`, `Parse` | round trip with exact condition, refuted outside of it; the calendar against day-by-day rules |
| C142 | the counter of a flow under concurrent ends | invariant over all interleavings of reads and writes; refuted for all group sizes |
| C143 | scaffolds, interfaces and main program of the TinyGo generator | decision logic with exact condition over all definitions, refuted outside of it |
| C144 | calls of a WebAssembly host and its guest | invariant over all runs of both ends together: where each request and answer is, counted by id |
| C145 | the same, going on without new calls | measure that every step makes smaller, and progress: a step is possible until all is done |
| C146 | simple calls over a connection, going on without new calls | measure that every step makes smaller, and progress on the invariant of C134/C135 |
| C147 | simple calls over a connection of bytes | simulation: the bytes of a direction are the frames of a queue (invariant over writer, network, scanner and buffer), then C42, C134, C135, C146; measure over bytes, frames and work |
| C148 | calls between a Rust host and a Rust guest reach one handler each and are told what it yields | invariant of both ends (ids, tasks, tables, counts), composed with C72 and C74; empty channels refuted for all runs |
| C149 | the word counting component | map against a count of occurrences, by induction over the words; the handler's result decoded and compared; refuted for all streams of more than one word |
| C150 | components that make one value of one value | the first payload for the port decides, by induction over the input; silent ends refuted |
| C151 | single-result calls between a Go end and a Rust end | invariant over all runs of both ends: counts of requests, tasks, handlers and results under an id; what each end takes is what the other sent up to the fields a codec drops |
| C152 | calls of all kinds between a Go end and a Rust end | follows from C151 for single results; three concrete runs refute the rest |
| C153 | single-result calls between the modules of a mesh | every instance is a run of C144, so its theorems apply twice, to the caller and to the destination; an invariant ties the work of a host to the call made for it |
| C154 | customer flow of the mesh example | invariant over runs of the mesh with flows, on top of C153; loading in all orders; refuted for missing modules |
| C155 | two programs with their exports and imports on a connection of bytes | invariant: every result produced comes from the handler in the place the metadata names; refuted by a run with another order of declarations |
| C156 | the greeter example on a connection of bytes | C155, C147 and the codec of generated types |
| C157 | streams between a WebAssembly host and its guest | runs with a history of what was sent; invariant: what was taken off the wire under an id followed by what is on it is what was said under it |
| C158 | streams between the modules of a mesh | C157 at both instances; invariant: what a host has said for a stream is a first part of what it was told; algebra of frames and signals |
| C159 | input of channels of a guest | runs with a history of what callers sent and which handlers started; invariant over the phases of a call (on its way, waiting, refused, served) |
| C160 | demand for streams and channels of a guest | the same invariant; the demand of the history is what was requested, what waits and what is on its way; end of input refuted |
| C161 | input and demand at a host | the same invariant with a lost first part; early frames refuted |
| C162 | a stream that is asked for page by page | invariant with a weight over goroutines, proxy, dispatcher and source; a stuck state has told everything; `CountToN(2^64-1)` refuted |
| C163 | one source for every stream | invariant: a request is in one place; what is said is said by a handler that is there or counted as a refusal |
| C164 | streams come to rest, with everything told | invariant about tables, tasks and wires for callers that only ask for more; a weight falls with every step; a crash of the host on early demand refutes the rest |
| C165 | files, modules and tasks of a generated Rust project | folds of assignments read as sets of entries; exact condition for the project to be accepted; idempotence; clashing names and stale scaffolds refuted |
| C166 | calls between modules of a mesh finish | a weight over all instances and passed-on calls falls with every step; a case analysis finds a step unless nothing is under way |
| C167 | a list read page by page on a host | eleven phases of the flux machine, an invariant over all schedules with a falling weight; the result is a relation shown to be unique |
| C168 | the word frequency program | C167 with the counts of C149; reading a sorted list until a value is too small misses nothing |
| C169 | the same in WebAssembly | short lists; for every other list the first page is sent without end, for every run |
| C170 | components wired to one another by a host | induction on the chain with the round trips of port messages and strings; the example program is computed for all strings |
| C171 | publishers mapped several times | publishers as functions on an arbitrary state; equality of all methods, by induction on the number of transformations |
| C172 | A slice read page by page, on a host and in WebAssembly | Phases with a decreasing measure: goroutines under a lock (`Phase`), nested calls (`Nest`) |
| C173 | the example host and guest | invariant over the runs of two instances (C153, C163) with the codecs of the generated types; which handlers each end finds is computed |
| C174 | the guest's Uppercase channel, frames to frames | induction on the frames with the state of the input and of the result; the demand is shown to be erasable |
| C175 | calls between Rust ends finish | a weight over tasks, queues and frames on their way that falls with every step, and an invariant that every waiting input has demand, or demand on its way |
| C176 | components joined by mono processors, in any order | an invariant along the row of processors, kept by pushing, subscribing and asking to be notified |
| C177 | calls between Go and Rust ends finish | a weight over tasks, handlers and frames on their way that falls with every step; what is left when none is possible |
| C178 | errors of Go handlers at Rust callers | the Rust end hears what was sent less the frames it cannot decode; for those the sink stays as it was (all runs); one run in which a Go guest's own call is told the complaint |
| C179 | streams between modules of a mesh finish | each instance of a mesh runs as one host and guest do (what a host sends on is as mild as what it heard); a weight over all instances and relays falls with every step; a case analysis finds a step unless nothing is under way |
| C180 | channels between Rust ends, both halves | observers of one stream id over all runs: frames sent for it are those of the input, the sinks of both ends follow them; the handler by counting requests, starting tasks and runs; two runs with dropped halves |
| C181 | wasmrs-ops | refinement: the run of the program on any file, by the theorems on sections (C54) and tables (C31) |
| C182 | `wasmrs invoke`: JSON arguments to MessagePack to the generated decoder, and the outcomes of the command | every JSON value that stands for a value of the type (a relation between types, JSON and Go values) is read as this value by the generated decoder, by induction on the relation with the loop over the keys in any order; the negation for integer arguments, unknown operations and failures |
| C183 | the Rust example component and the program `request` | each task as a machine joined to the wrapper it runs in (C131, C132); every run of it is one of the wrapper, with an invariant on what was read and sent; the end by a decreasing measure |
| C184 | the generated configuration of the bus | round trip through text: a reader for lines, keys, values and indentation, and induction over interfaces and operations with the stack of keys above |
| C185 | WASI parameters and deadlines of the Rust host | decision logic over all parameters, file systems and modules; induction over the code of the module |
| C186 | the frame sender of a handler | invariant over all runs of the handler model: what each connection carries is the specification of the notes; refutations for all runs |
| C187 | linking of modules and hosts | decision logic: both hosts and both libraries against one table of the protocol, for all further imports and exports; the refutation for all Go programs |
| C188 | The modules of the two generators publish the same exports with the same indices, which lead to the same operations | equality of the two tables by induction over the document, both registries as folds; refutation for operations that only one generator takes |
| C189 | a Rust service reads what a Go client wrote | round trip: a reference reader agrees with the wire relation by mutual induction; the refutations for all values |
| C190 | a Rust client reads what a Go service answered | round trip over all types, by the wire relation and the reference reader of C189; the refutations for all times and all operations without result |
| C191 | calls of a generated Rust client | decision logic for every serializer; lower bound for the length of any serialization by mutual induction |
| C192 | wrapper of a generated Rust operation that answers once | invariant over all runs of its events, with progress |
| C193 | readers for values serialized by others | mutual induction over a specification of all serializations (Spec/Foreign), with case analysis over the formats of MessagePack |
| C194 | results of Rust services in Go clients | from C193, case analysis over the types of results, induction for slices |
| C195 | calls between generated Go and Rust code | composition of C189, C192 and C194, and of C193 and C190 |
| C196 | calls between generated Go code | composition of the parts of C112 over the model of the whole wrapper |
| C197 | calls between generated Rust code | composition of C191 and C192, with induction for the fields of the arguments |
| C198 | generated Go programs over a connection | composition of C196, C155 and C147 |
| C199 | generated Go code in a WebAssembly host and guest | composition of C196, C144 and C32, with an invariant for the results of handlers |
| C200 | generated Rust code in a host and guest | composition of C197 and C148 |
| C201 | generated streams in a Rust host and guest | composition of C191, C131 and C148, with inductions for what is heard of a stream |
| C202 | a generated Go client and a generated Rust service in a module | composition of C195 and C151 |

## What is modelled

By source file; functions of a file that are not named are either trivial accessors or listed under "Not modelled".

* `go/internal/frames`: headers, flags, `Size`/`Encode`/`Decode` of all frames, `Fragment`, `splitPayloads`
  (`Model/Frames`). Not: `String` methods, `WriteTo`.
* `go/internal/u24`, `go/internal/socket/stream_id.go`, `go/internal/buffer/unbounded.go` (`Model/U24`, `StreamId`,
  `Unbounded`).
* `go/proxy`: stream table (`Model/Lookup`), `streamFlux` demand (`ProxyFlux`), `streamMono`/`streamFlux` as seen from the
  dispatcher (`Handler`, `Peers`), contexts (`WasmDispatch`).
* `go/rx`: mono, mono processor, map (`Model/Mono`); flux, slice source, map, request lock (`Model/Flux`); flow
  (`Model/Flow`).
* `go/msgpack`: encoder, sizer, decoder, dynamic values, skip, times, nillable readers (`Model/Msgpack`); `convert`
  nillable conversions (`Model/Convert`). Not: `unsafe.go` (strings and bytes are the same list).
* `go/transform` (`Model/Transform`); for `Time` also `time.Format` and `time.Parse` with the layout RFC3339Nano
  (`Model/GoTime`, from the documentation and the functions of Go 1.19; locations are offsets).
* `go/operations`, `go/invoke` (`Model/Operations`, `Model/Registry`).
* `go/types/uuid`: text, version 4, pool, clock, times (`Model/Uuid`).
* `go/transport/rsocket`: `decoder.go`, `tcp_conn.go` and sending in `transport.go` (`Model/Framing`); `Start`, `loopReadBuffer` and
  `Close` in `transport.go` (`Model/Transport`); the server in `tcp_transport.go` (`Model/Server`).
* `go/handler`: `HandleFrame`, request goroutines, registration, callers (`Model/Handler`, `Peers`).
* `go/transport/wasmrs/host`, `guest`: batching, `hostSend`, loops, closing (`Model/Wasm`), buffer pool (`WasmPool`),
  dispatch of frames and requests, contexts (`WasmDispatch`).
* `go/transport/wasmrs/mesh`: linking and routing (`Model/Mesh`); `customsections` (`Model/Sections`).
* `rust/crates/wasmrs/src`: `frames/*`, `util.rs` (`Model/RustFrames`), `operations.rs` (`RustOperations`), `socket.rs` with
  the maps of `wasmrs-runtime` it uses (`RustSocket`).
* `rust/crates/wasmrs-guest/src/{guest,server}.rs` and the memory access of `rust/crates/wasmrs-wasmtime/src` (`RustGuest`).
* `rust/crates/wasmrs-rx/src/flux.rs`, `flux/*.rs`, `flux/ops/pipe.rs` over the channels and cells of `wasmrs-runtime` (`Model/RustRx`); wakers and the executors are not modelled.
* `codegen/src/tinygo/msgpack_*.ts`: the codecs that it generates, as interpreters of type definitions (`Model/Codegen`).
* `go/transport/wasmrs/host/host.go`: `Instantiate` and the functions given to modules, and `instance.go`: `NewInstance`, `opList` (`Model/Start`); a module is what its functions do to memory and to the host, wazero itself is not modelled.
* `codegen/src/tinygo/wrappers_visitor.ts`, `register_visitor.ts`, `invokers_visitor.ts`, `import_visitor.ts`, `utilities.ts`: which library functions the generated calls use for which types, whether Go accepts them, and what they do to values (`Model/Calls`); text, import sections and annotations are not modelled, helpers from the dependency `@apexlang/codegen` are assumed.
* `rust/crates/wasmrs-runtime/src/runtime/wasm/mod.rs`: `spawn` and `exhaust_pool` with calls back from the host and traps (`Model/RustExec`); `LocalPool` of the futures crate is modelled from its documentation.
* `go/rx`, `go/proxy`: `Block`, the results of calls, flux processors (`Model/Block`). `await.All` returns its arguments without waiting for any; there is nothing to prove about it.
* `rust/crates/wasmrs-host/src/{host,context}.rs`, `rust/crates/wasmrs-wasmtime/src/{engine_provider,store,wasmrs_wasmtime,memory}.rs`: start, lookups, the writer, the functions given to modules (`Model/RustHost`); a module is what its functions do to memory and to the host, wasmtime, WASI and caching are not modelled.
* `Model/Await`: `Async` and `Notify` of everything that can be awaited (go/rx/mono/mono.go, go/rx/flux/flux.go, go/proxy/mono.go). Mapped results of calls are not composed.
* `codegen/src/rust/{default-visitor,utils/mod}.ts`, `codegen/src/rust/visitors/*.ts`: which registrations, imports, constants and functions are written for a document (`Model/RustCodegen`) and what the wrappers of streams and channels do (`Model/RustWrappers`). Of the Rust compiler only what can go wrong with names is modelled: duplicate constants and functions, undefined constants. The functions of apex that change the case of names are parameters. Types and the serde library are not modelled.
* `codegen/src/rust/visitors/provider-visitor.ts`: the shape of the message for the arguments (`Props/Interop`): any standard serialization of a map from parameter names to values. That the serializer writes structs as maps is an assumption, the package is not in the repository.
* `go/handler/handler.go`: the subscriber of streams and channels, `go/proxy/flux.go`: what is handed to the processor (`Model/Serve`). That the frames of one stream go out in the order in which they are sent is the subject of the models of transports.
* `codegen/src/tinygo/export_visitor.ts`, `import_visitor.ts` and the packages named by the code of `wrappers_visitor.ts` and `invokers_visitor.ts`: `Model/Imports.lean` (C137). Not modelled: aliases with an import of their own, the order of imports, what `msgpackRead` names besides `msgpack`.
* `go/rx/flow` at the level of single reads and writes of `completed` (`Model/FlowRace`): `check` and the start of `next`, any number of goroutines, reads and writes one after the other.
* `codegen/src/tinygo`: scaffold, interface and main visitors (`Model/Scaffold`): result types, constructors, packages, imports. Not: indentation, comments, the names that the dependency derives.
* `go/transport/wasmrs/host/caller.go`, `guest/caller.go` and both dispatchers together (`Model/WasmCalls`): ids, calls, subscribing, handlers and their answers. A queue stands for the buffers in the memory of the guest (these are `Model/Wasm`).
* `go/transport/rsocket` together with `go/handler` (`Model/Net`): two peers joined by writers, a network that carries bytes in pieces, scanners and queues of read frames. `Send` is one step, a connection does not end, frames keep their contents.
* `/repo/rust/crates/wasmrs/src/socket.rs:517-541` two sockets joined by their frames (`Model/RustPair`), on top of `Model/RustSocket`. Frames are processed in the order they are sent, one at a time; a step that panics is not a step.
* `go/transport/wasmrs/example/{wordfrequency,concat,greeter}`: `Model/Components`, complete, on one thread; `strings.ToLower` and the order of `range` and `sort.Sort` are parameters. Not modelled: the clients and wrappers in `example/*.go`, which are those of `Model/Codegen`.
* A Go end and a Rust end joined by their bytes (`Model/Mixed`), on top of `Model/WasmDispatch`, `Model/WasmCalls` and `Model/RustSocket` with both codecs. Frames are taken in the order they are sent; how they are packed into buffers is not part of it; bytes that the Rust end cannot decode are taken and answered with the error frame the Rust guest or host sends then (`complaint`), which the Go end takes on its own account.
* The instances of a mesh with the calls their hosts pass on (`Model/MeshCalls`), on top of `Model/Mesh` and `Model/WasmCalls`. The links do not change during a run; streams and channels are not passed on.
* The example modules `concat`, `greeting` and `customer` in a mesh (`Model/Customer`), with the flow of the last as a machine of three steps on top of `Model/MeshCalls`.
* `Verif/Model/Programs.lean`: which handler of a program answers over a connection (`handler/handler.go:232-264`, `invoke/handlers.go`,
  `handler/caller.go:17-31`); `Verif/Model/Greeter.lean`: `example/greeter` (all of greeter.go, `SayHello` of client/main.go, the calls of
  server/main.go; not opening and accepting connections, and printing).
* `Model/MeshStreams.lean`: `go/transport/wasmrs/mesh/mesh.go:279-293` with the subscribers of `go/transport/wasmrs/host/instance.go:512-539, 574-602`.
* `Model/Paging.lean`: `CountToN` of `go/transport/wasmrs/cmd/host/main.go:59-80` and `FromSlice` (`go/rx/flux/slice.go:3-18`) behind a dispatcher
  (`host/instance.go:491-542, 717-723`) and a proxy (`proxy/flux.go:50-112`), for a subscriber that asks page by page.
* C163 is about `Model/WasmCalls.lean` (C145–C161) again, for runs in which the proxy of each stream sends its request once (`go/proxy/flux.go:75-78`).
  Two goroutines that call `Request` of one stream at the same time for the first time are not modelled.
* `codegen/src/rust/{plugin,action-scaffold,lib-boilerplate,error-boilerplate}.ts`: which files a project has, which modules they declare and use, and how tasks are written and called (`Model/RustProject`). The texts themselves, `mod-include.ts` (unused) and what users write into the files are not.
* `go/transport/wasmrs/cmd/wordfrequncy/main.go`: the subscriber that asks page by page and cancels (`Model/Pager`), over
  `SliceResponse` of `go/rx/flux/response.go` in the flux machine. Not modelled: reading and splitting the file, printing.
* `go/transport/wasmrs/cmd/fbp/{host,guest}/main.go` (`Model/Wiring`): what the host sends on and prints, and which component each call reaches.
  Loading the module and the transport are not modelled here.
* `mapper` and `Block` of `go/rx/{flux,mono}` once more, for arbitrary publishers (`Model/Maps`): a publisher is what its methods do to an arbitrary state.
* `Model/SlicePager`: the first program of `go/transport/wasmrs/test.go`, a subscriber that reads `FromSlice` page by page, on a host and in WebAssembly. Its printing and sleeping are outside the model.
* `Model/Services`: `cmd/host`, `cmd/guest`, `cmd/greeter` and the clients and wrappers in `example/{greeting,counter,uppercase}.go`, on top of `Model/WasmCalls`. Loading the module, printing and sleeping are outside the model.
* `Model/Upper`: the handler `Uppercase` of `cmd/guest`, its wrapper, `handleRequestChannel` and the handling of frames of one stream in a guest. The guest is not called while it sends.
* `Model/Joined`: `cmd/flow`, with processors and monos as used by it (one goroutine; callbacks push to the next processor). Printing and waiting for `done` are read off the log.
* `Model/OpsTool`: the program `cmd/wasmrs-ops`. The library wabin (decoding and encoding of modules) and the instance that is asked for its operations are parameters.
* `Model/Invoke.lean`: `InvokeCmd.Run` (commands/invoke.go) from the parsed JSON to the value printed. Not modelled: `encoding/json`; `vmihailenco/msgpack` is modelled as writing the shortest heads and 9 bytes for every float, its reader is a parameter; the mesh is the function from names to operations, its delivery is the subject of other properties.
* `Model/Reqres.lean`: the operations of `rust/wasm/reqres-component` and what `rust/bins/request` prints. `serialize`, `deserialize` are parameters; arguments of the command line and reading of files are not modelled.
* `Model/BusYaml.lean`: `codegen/src/bus/bus_visitor.ts`, the text it writes, character by character. The predicates on annotations (a dependency) are fields of interfaces and operations; `snakeCase` is a parameter. The reader in `Spec/BusYaml.lean` is a part of YAML: block mappings with plain values, comments, entries of lists as keys.
* `Model/RustWasi.lean`: `wasi.rs`, `builder.rs` and the store of `wasmrs-wasmtime`. wasmtime is not modelled beyond what it tells a module and the rule when it stops one; its rule that a new store has the deadline 0 is from its documentation.
* `Model/FrameSender.lean`: `SetFrameSender` and the three places that call it, around `Model/Handler.lean`. A frame that the handler sends to itself is handled at once, as in the code.
* `Model/Linking.lean`: which functions hosts and guest libraries in Go and Rust export and call, with their types. wazero and wasmtime are modelled by their rules for linking and calling. The models of a Go end and a Rust end (C151, C152, C177, C178) that have the Go end in the guest describe what would happen if `__wasmrs_init` had the type the Rust host looks for.
* `Verif/Model/Twins.lean`: what a module generated in Go registers and imports while it starts (`codegen/src/tinygo/main_visitor.ts`, `register_visitor.ts`, `import_visitor.ts`), for the documents of `RustCodegen`. Not modelled: functions of a namespace, `@nocode`, `@rename`, and `isHandler`, `isProvider` and `UsesVisitor`, which are outside the repository.
* `Verif/Model/RustInputs.lean`: `deserialize::<Inputs>` in a generated Rust service (`service-visitor.ts:134, 241-257`, `messagepack.rs:26-36`) and `deserialize::<Outputs>` in a generated Rust client (`provider-visitor.ts:121, 171`), up to the values of the fields and of the result. `Verif/Spec/Reader.lean` is a reader for all of MessagePack, which `parse_wire` proves to agree with the format of `Spec/Msgpack.lean`. serde and wasm_msgpack are taken to follow the MessagePack convention of serde.
* `Verif/Model/RustClient.lean`: the functions that `provider-visitor.ts` generates, up to the request they make, and `serialize` (`messagepack.rs:7-24`) with its buffer; the serializer `wasm_msgpack` is a parameter.
* `Verif/Model/RustOnce.lean`: the wrapper that `service-visitor.ts:131-146` writes for an operation that answers once, as a machine over the events request, poll, return, take and drop; serializers are parameters.
* `Verif/Model/GoRustCall.lean`: the whole wrapper of an operation of a generated Go service as a function (`wrappers_visitor.ts:185-324`), and what the wrapper of a Rust service reads of a request.
* `Verif/Model/RustCall.lean`: what connects the models of a generated Rust client and service: `Inputs` as it is serialized (`provider-visitor.ts:98-105, 130-133`) and the two calls of the codec in the wrapper (`service-visitor.ts:134, 137-140`).
* `Verif/Model/Generated.lean`: two programs (`Programs`) whose handlers are the wrappers of generated Go services (`wrappers_visitor.ts:174-324`, `handler.go:246-267`).
* `Verif/Model/GeneratedWasm.lean`: a WebAssembly host and its guest (`WasmCalls`) whose handlers are the wrappers of generated Go services (`guest.go:312-331`, `instance.go:447-464`).
* `Verif/Model/RustGenerated.lean`: a Rust host and guest (`RustPair`) where the handler of an operation is the wrapper of a generated Rust service (`service-visitor.ts:131-146`, `socket.rs:170-188`).
* `Verif/Model/RustStreams.lean`: the same for operations that answer with a stream (`service-visitor.ts:50, 156-189`, `socket.rs:190-208`).

## Where the code disagrees with its properties

Each is proved with a concrete witness by the theorems ending in `_refuted`; the manifest names them per property. In short:

* Frames: a request loses its FOLLOWS flag (C02); decoding short input panics (C04, C82); fragmenting a request repeats
  metadata (C06); fragments are not put together (C62, C81).
* Ids: the server side issues stream id zero and repeats ids after 2^30 calls (C09, C42); a Rust end in a Go host uses
  the ids of the other end (C80).
* Streams: removing the oldest stream leaves it in the table (C13); frames for unknown streams end the connection (C40);
  several frames crash the peer (C41, C82), among them demand for a request-response or fire-and-forget stream and
  cancelling a stream.
* Demand: truncated to 32 bits (C43), lost or fatal before the handler has returned (C63), refused by Rust (C76).
* rx: a finalizer runs again on every later cancellation (C18); a failing transform does not end a stream (C20); flows
  repeat or skip steps when an operation is already finished (C22); a second subscriber of a slice source gets the rest
  (C19).
* msgpack: sizes of byte strings of 255 and 65535 bytes (C24); lengths near 2^32 and slices as map keys crash (C27);
  skipping a 12-byte time fails (C29); conversions of nil crash (C56); decoding a slice loses errors (C78).
* Registries: port flags are mixed up (C35); index 2^32-1 (C55); truncated operation tables crash the host (C58); an
  import may be linked to an export of another kind (C66); calls between modules go to a replaced instance (C49).
* Transport: complete frames buffered at the end of stream are dropped (C37); concurrent sends interleave (C38); queued
  frames alias the read buffer (C59), as do requests from a guest (C65); frames too large for the shared buffers are
  lost, corrupted or fatal (C64); closing while sending crashes (C46); the host loops can deadlock (C47); a cancelled
  context or a failed frame is noticed only when the peer sends again, and an error of the last frame is lost (C88); a
  server closed too early listens for ever (C94) and none forgets its connections (C95).
* Rust: ends of dropped calls crash the socket (C73); a failing stream is answered with completion after the error (C74);
  Rust and Go read error texts, unknown types and some defaults differently (C69).
* Rust modules: the host asks for buffers of 1024 bytes and assumes 4092 (C90); frames that do not fit are lost or replaced
  by the previous one (C91); metadata of less than four bytes crashes (C93). Not stated as a theorem: the Rust host's
  server side is `todo!()`, so any request of a module to a Rust host panics.
* Generated codecs: an absent or malformed optional enum or alias crashes the decoder (C96, C100); an unknown field with a
  12-byte time makes a message unreadable (C97); a message cut short in an unknown field is accepted (C101). Not stated as
  theorems: the generated code for lists in lists, maps in maps, aliases of `u8`, `bytes` (optional) and `datetime` does
  not compile (`msgpack_helpers.ts:177-252`, `msgpack_constants.ts`).
* Rust `Flux`: dropping a pending `recv` (timeout, `select`) drops the receiver, with all that waits (C104); a poll during another receive reports the end of the stream, and `complete` closes nothing (C103); `pipe` never sends to the Flux it is given (C106).
* Starting modules: without `__wasmrs_op_list_request` the host panics, and more than 100 frames sent meanwhile block it for ever (C108); an unreadable table counts as an empty one (C107); all modules get the same name, so that a host can start only one (C110).
* Generated decoders merge repeated fields whose type has fields (C111).
* Generated calls do not compile for streams of objects, stream parameters without a stream result, unary aliases, lists, maps and times, streams of numbers into an operation, and results that are maps or lists of anything but types (C113); nor with parameters named like variables of the generated code, e.g. `stream` (C114).
* Rust modules: a panic during a poll leaves `IS_RUNNING` set, so that no task is ever polled again (C116); frames queued while a module starts wait for the first `__wasmrs_send` (C115).
* Waiting: `Block` on a cancelled Mono hangs (C117); `Block` on a Flux without subscription dereferences nil, and closes its channel twice after a refused element or a late cancellation (C118); results of calls send their request for every use, and only the last use is answered (C119); flux processors lose what is pushed before the subscription (C120).
* Rust host: modules without an exported memory, a trap or an unreadable table while operations are listed, log messages that are not UTF-8 and addresses from 2^31 on crash it (C122); it has no responder, and a call of a module for one result stops the task that hands over frames, after which every local call panics (C123); the same happens after an error for a call that local code has given up, and after a frame of more than 4089 bytes (C124); traps of a module are not reported to those who wait (C125).
* C126: the responder of a Go connection never calls `removeStream` for the streams it ends itself; in every run the tables keep one entry per served call that no received frame ended, and a connection that only serves finite streams grows by one entry per call (`served_stay_refuted`, `table_grows_refuted`).
* C127: `Async` of monos and fluxes built by `Create` (flows among them) is empty, so a flow that awaits one that nobody subscribed to stops there for ever (`await_created_refuted`, `await_flux_refuted`).
* C128: `Just`, `mono.Error` and `flux.Error` never call `Finally` (`finished_finally_refuted`).
* C130: the function that the Rust generator writes for a channel calls `request_stream` (`generated_channel_refuted`), and constants are made of interface and operation joined by `_`, so `A_B`.`c` and `A`.`B_c` clash (`joined_names_refuted`).
* C131: the wrapper of a Rust stream reads the outputs only after the implementation returned; a failed implementation loses what it sent; returning the given Flux without completing it keeps the stream open for ever (`stream_wrapper_early_refuted`, `stream_wrapper_failure_refuted`, `stream_wrapper_open_refuted`).
* C132: `while let Ok(Some(Ok(payload)))` takes an error of the caller for the end of its stream, and the result of the implementation of a channel is dropped (`channel_input_failure_refuted`, `channel_failure_refuted`).
* C133: the Rust generator ignores that an operation is unary; a Go handler of a unary operation called from Rust gets a value whose fields are all zero, without an error, or refuses the call (`unary_object_refuted`, `unary_prim_refuted`).
* C134: a fire-and-forget call of an unknown operation is answered with an ERROR frame, although no stream is registered
  for it at the caller; `HandleFrame` of the caller returns an error and its connection ends with all calls on it.
* C135: subscribing twice to the result of a request-response call sends the request twice under one id.
* C136: after a failed transform of `flux.Map` the handler's stream goes on; the PAYLOAD after the ERROR ends the connection of the caller (`map_failure_ends_connection_refuted`).
* C137: `export_visitor.ts` never imports `msgpack`, although wrappers of unary operations with a primitive, list or map parameter use it. `import_visitor.ts` always imports `msgpack`, although it is unused if no function has arguments (`interface Clock @provider { now(): datetime }` is refused by the compiler). `ProviderVisitor` counts an interface with a `@nocode` operation as nothing to import but writes its functions; `ImportVisitor` does the same for handlers that are no services. A service all of whose operations are `@nocode` gets a file with unused imports.
* C138: PAYLOAD, ERROR or CANCEL for the input of a channel that arrives before the goroutine of the request has registered the stream ends the connection; before the handler has subscribed to its input, the nil sink panics (`early_input_refuted`). An input with its end at hand, such as a failed flux, does that.
* C140: `HandleFrame` forgets the stream of a channel when one direction ends. REQUEST_N for the other direction is then dropped without a word, so that it stalls, and CANCEL ends the connection (`half_close_refuted`).
* C141/C57: times of years before 0 or after 9999 are encoded and cannot be decoded; times in locations whose offset has
  seconds (local mean time) are shifted by these seconds without an error; `StringToTimePtr` returns a pointer with an error.
* C142: `check` increments `completed` without a lock or atomic; two operations that end at the same time can leave the flow standing still for ever (`stall_refuted`) or start the next step several times (`again_refuted`).
* C143: the scaffold declares `flux.Flux[flux.Flux[T]]` where the interface has `flux.Flux[T]` (`stream_refuted`); the main program does not pass the logger (`logger_refuted`); the default packages differ (`package_refuted`); `errors` and `mono` can be imported for nothing (`no_code_refuted`, `function_refuted`).
* C144: a host that cancels a stream crashes its guest, seen over whole runs (`cancelled_stream_crashes_refuted`).
* C148: a Rust channel call whose input ends before its first element sends COMPLETE without REQUEST_CHANNEL: the peer ignores it and the caller waits for ever (`rust_empty_channel_refuted`).
* C149: `WordFrequency` counts only the first word it is sent, since `FlagNext` and `FlagComplete` are both 1 (`only_first_word_refuted`); an error of its input is dropped (`failed_input_refuted`).
* C150: `Concat` and `Greeter` never end if their input ends without a value (`silent_refuted`); a payload with less than three bytes of metadata crashes every component (`short_metadata_refuted`).
* C152: both ends of an instance of a Go and a Rust program draw the same stream ids, and Go keeps served streams and own calls in one table. A Go host that serves a stream of its Rust guest crashes when its own call of the same number is answered (`stream_and_call_crash_refuted`); a Go guest crashes likewise after a fire and forget call of its Rust host (`forgotten_call_crashes_refuted`); cancelling a stream in Go ends a call of the Rust end (`cancelled_stream_ends_call_refuted`).
* C154: the flow of the customer module throws away the errors of the calls it awaits (customer/cmd/main.go:33, 37). In a mesh without `concat` it answers `Hello, ` as a success, and without `sayHello` an empty text.
* C155: over a connection, the id of an import is its place among the imports of the calling program, and it is used as a place among the
  exports of the other program; nothing compares names. A program that imports only the second operation of another calls the first one
  (`wrong_operation_refuted`).
* C157: CANCEL has two meanings. The handler of a channel sends it to cancel its input, and the caller takes it for the end of the results (`cancelled_input_refuted`).
* C160: a stream has one entry in the table for both directions. When the input of a channel ends, the entry is removed, and demand for the
  results that comes later is dropped: the results stall (`demand_after_input_refuted`).
* C161: a host reads on while the goroutine of a request has not registered its stream, and drops frames for it: elements and the end of the
  input, and demand, sent right after the request are lost (`early_input_lost_refuted`). `Request(1)` twice is enough.
* C162: `CountToN` with 2^64-1 never ends: `i <= to` holds for every `i`, which wraps around (`counter_never_ends_refuted`).
* C164: `Instance.recvOne` answers a REQUEST_N frame of the guest with `go s.DoRequest` (host/instance.go:348-349); `s.sub` is assigned only after the handler returned and was subscribed to (539-540), so that a goroutine that runs in between calls a method of a nil interface and crashes the host.
* C165: a service `x_service` beside a service `x` makes the Rust generator declare two modules of one name (`service_suffix_refuted`). Files of actions are only written once, so that an operation that becomes a stream leaves a project that cannot be built until the user deletes or edits its file (`stale_scaffold_refuted`).
* C169: `SliceResponse` (`go/rx/flux/response.go`) drops a page only after the loop that sends it. In WebAssembly the subscriber's
  request for the next page is served inside the last `OnNext` of that loop, so the same page is sent again, without end
  (`pages_again_refuted`). On a host the request waits for the lock and all is well (C167).
* C170: both calls of the flow based example carry eight zeros as metadata, so both reach `Concat`; the greeting is never printed and the host
  waits forever (`wired_refuted`).
* C171: `flux.Map(flux.Error(err), f).Block(sub)` waits forever (`block_error_refuted`), because `errorFlow.Subscribe` does not call `Finally`.
* C173: `example.RegisterCounter` and `RegisterUppercase` on the host have no effect, because an instance looks for handlers only in its own slices; all streams of the
  guest to the host are refused (`guest_streams_fail`). `greeting.Uppercase` sends no metadata and is refused too (`host_uppercase_fails`).
* C174: the results of the `Uppercase` channel are sent without regard to the demand of the caller (`demand_ignored_refuted`); a string whose length is given as
  nearly 2^32 crashes the guest (`long_string_refuted`).
* C175: a Rust channel whose input begins with an error is never requested; its input waits for ever and the caller is told nothing (`rust_error_channel_refuted`).
* C178: an error of a Go handler that is not UTF-8 is refused by the Rust codec; the caller in Rust waits for ever (`unreadable_error_never_told_refuted`), and a Rust host replies with an error under the id of the frame, which fails a call the Go guest made itself under that number (`unreadable_error_fails_call_refuted`).
* C180: dropping either half of a Rust channel ends the other half as if it were complete (`rust_channel_output_dropped_refuted`, `rust_channel_input_dropped_refuted`), and the error of a failing input is not passed on, only that it failed.
* C181: `wasmrs-ops` writes a section that lists other operations when a name has 2^16 bytes or more (`long_name_added_refuted`).
* C182: `wasmrs invoke` cannot call an operation with an integer argument. `json.Unmarshal` makes a `float64` of every number, the MessagePack library writes it as a float, and `ReadInt*`/`ReadUint*` of the generated decoder refuse it (`integers_refuted`). An unknown operation (`unknown_reported_refuted`) or one that fails (`failure_reported_refuted`) makes the command panic.
* C183: the program `request` shows a failing stream as one that ended well (`request_failure_refuted`), and cannot talk to `reverse`, because it sends strings where structures are read (`request_reverse_refuted`).
* C184: `BusVisitor` writes descriptions without quotes: one of several lines, or with a colon before a space, gives a file that is no YAML (`multiline_refuted`, `colon_refuted`). Events of the same name in two interfaces give the same key (`events_collide_refuted`).
* C185: the Rust host panics when a directory of the WASI parameters is not there (`directory_refuted`), and never uses the deadlines of `enable_epoch_interruptions` (`deadlines_stop_refuted`, `deadlines_ignored_refuted`).
* C186: `NewTransport` makes the handler send its frames to itself (`own_transport_refuted`, `own_answer_refuted`); `NewClient` and `Listen` repair this by a second `SetFrameSender`.
* C187: no Go module starts on the Rust host, which wants `__wasmrs_init` without a result (engine_provider.rs:167-170), while the Go guest library returns a `bool` (guest.go:46) (`go_on_rust_refuted`).
* C188: an operation that takes a stream and another parameter, or a stream without answering with one, makes the Rust generator throw for the whole document; the Go generator exports it as a channel (`refused_refuted`).
* C189: a generated Rust service reads the parameters from a map also if the operation is unary or has no parameters; a generated Go client then sends the argument alone or no data. Every such call fails (`unary_object_refuted`, `unary_prim_refuted`, `no_args_refuted`).
* C190: a generated Go service answers a time as text, a generated Rust client expects a timestamp (`time_result_refuted`). A Go service answers a call without result with no data, which a Rust client reads as MessagePack (`void_result_refuted`).
* C191: `mp_serialize` writes to a buffer of 100 KiB. Larger arguments make a generated Rust client fail, or panic if the operation answers with a stream (`unreachable!()`); larger results become errors (`large_call_refuted`, `large_stream_refuted`, `answer_size`).
* C193: the readers of signed integers refuse the formats for unsigned ones (decoder.go:138-163), which other MessagePack writers use for values that are not negative (`signed_refuted`).
* C194: a generated Go client expects a time result as text and refuses the timestamp that a Rust service answers with (`time_result_refuted`).

## Not modelled

wazero, wasmtime and the WebAssembly runtime; TLS, sockets and files; the other generators in `codegen` and aliases with `parse` functions;
command-line programs and examples (`go/example`, `go/transport/wasmrs/cmd`, `rust/bins`); `String`/`fmt` methods and logging;
error values beyond the fact that they are errors (where a message matters it is kept); the crate `wasmrs-codec` (serde);
`builder.rs`, `wasi.rs` and caching in `wasmrs-wasmtime`.

## Axioms of each theorem

As printed by `#print axioms` for every theorem named in `MANIFEST.json` (prefix `Iota.Props.` left out).

### No axioms

* `Await`: `await_finished`
* `Block`: `just_block`
* `Fragment`: `request_fragment_duplicates_metadata_refuted`
* `Invoke`: `invoke_prints`
* `Msgpack`: `bytes_panic_refuted`
* `Paging`: `fromSlice_yields`
* `Registry`: `stale_handle_witness`, `largest_index_refuted`
* `RustExec`: `other_call_refuted`
* `Transform`: `void_inverse`

### `Classical.choice`, `Quot.sound`, `propext`

* `Await`: `await_result_partial`, `created_finally_partial`
* `Block`: `mono_block`, `mono_block_again`, `mono_block_final`, `block_cancelled_refuted`, `flux_block`, `flux_block_partial`, `flux_block_again`, `flux_block_panics_refuted`, `proxy_requests`, `proxy_once_partial`, `proxy_answer_partial`, `proxy_block`, `proxy_again_refuted`, `proxy_overtaken_refuted`, `fluxProc_refines`, `fluxProc_heard`, `fluxProc_sees`, `fluxProc_functions`, `fluxProc_one_partial`, `fluxProc_lost_refuted`
* `BusYaml`: `bus_says_partial`, `multiline_refuted`, `colon_refuted`, `events_collide_refuted`
* `Caller`: `caller_sees_partial`
* `Calls`: `same_operation`, `args_arrive_partial`, `result_arrives_partial`, `element_arrives_partial`, `compiles_iff_partial`, `names_partial`, `names_refuted`
* `Channel`: `channel_input_partial`
* `Codegen`: `decode_safe_partial`, `truncated_rejected_partial`, `codec_round_trip_partial`, `evolution_partial`, `codec_wire`, `union_round_trip_partial`
* `CodegenDup`: `repeated_keys_last`, `repeated_fields_last_partial`
* `CodegenZero`: `missing_fields_zero_partial`
* `Components`: `few_words_partial`, `only_first_word_refuted`, `single_answers_partial`, `concat_joins`, `greeter_greets`
* `Customer`: `customers_greeted_partial`, `missing_concat_refuted`, `missing_greeting_refuted`
* `Demand`: `demand_end_to_end_partial`, `demand_kept_partial`, `half_close_partial`, `half_close_refuted`
* `Flow`: `flow_ordered_partial`, `flow_complete_partial`, `flow_no_crash_partial`
* `FlowRace`: `once_partial`, `at_most_once_partial`
* `Flux`: `flux_delivers`, `flux_grammar`, `finalizer_once_partial`, `finalizer_per_cancel`, `map_flux_partial`, `map_flux_first_failure_partial`
* `FluxLock`: `request_alone_partial`
* `FluxSlice`: `slice_prefix_partial`, `slice_delivers_partial`
* `Fragment`: `payload_fragment`, `request_fragment_partial`, `request_fragment_reassembles_partial`
* `Frames`: `header_roundtrip`, `header_parse_range`, `frame_roundtrip_partial`, `frame_roundtrip_exact`, `decode_wire`, `decode_panics_iff_short_partial`
* `Framing`: `framing_roundtrip`, `chunking_irrelevant`, `oversize_panics`, `complete_frames_delivered_partial`, `delivered_is_prefix`, `serialised_sends_partial`, `concurrent_sends_refuted`, `frames_stay_intact_partial`, `late_frame_corrupt_refuted`
* `Generated`: `generated_call_partial`, `answer_told`
* `GeneratedWasm`: `generated_wasm_call_partial`, `advertised_wasm_call_partial`
* `GoCall`: `go_call_partial`
* `GoRustCall`: `whole_call_partial`, `started_with_request`, `whole_call_go_partial`, `whole_call_go_error`
* `GoTime`: `times_kept`, `time_result_arrives_partial`, `text_kept_partial`, `read_text_partial`, `relay`, `calendar`, `far_refuted`, `seconds_refuted`, `time_inverse_partial`, `time_inverse_refuted`
* `Greeter`: `greeter_greets_partial`
* `Handler`: `every_request_answered_once`, `frame_acts_on_own_stream`, `handle_panics_iff`, `recv_panics_iff`, `rr_only_never_crashes_partial`, `live_stream_starts_partial`
* `Interop`: `inputs_arrive_partial`, `unary_object_refuted`
* `Invoke`: `invoke_runs_partial`, `failure_reported_refuted`, `integers_refuted`
* `Joined`: `joined_any_order`, `flow_greets`, `program_greets`, `flow_loses_errors`
* `Leak`: `served_stay_refuted`, `table_grows_refuted`, `ended_gone_partial`
* `Lookup`: `lookup_refines`, `never_misrouted`, `registered_found`, `ideal_while_oldest_stays_partial`
* `Maps`: `block_values`
* `Mesh`: `linking_complete_partial`, `linking_order_partial`, `mesh_calls_newest`, `module_calls_newest_partial`, `link_same_kind_partial`, `mesh_routes_partial`
* `MeshCalls`: `module_calls_get_own_results`, `passed_on_once`, `module_calls_get_results`, `module_calls_run`, `passing_on_works`
* `MeshDrain`: `mesh_streams_never_crash_partial`, `mesh_streams_finish`, `mesh_streams_can_finish`
* `MeshFinish`: `mesh_calls_finish`, `mesh_calls_can_finish`, `loaded_within`
* `MeshStreams`: `module_stream_arrives`
* `Mixed`: `go_requests_handled`, `go_callers_told`, `go_calls_settle`, `rust_requests_handled`, `rust_callers_told`, `go_never_crashes`, `calls_keep_apart_partial`, `stream_and_call_crash_refuted`, `forgotten_call_crashes_refuted`, `cancelled_stream_ends_call_refuted`, `readable_error_told_partial`, `unreadable_error_never_told_refuted`, `unreadable_error_fails_call_refuted`
* `MixedFinish`: `mixed_calls_finish_partial`, `mixed_calls_can_finish_partial`, `rust_end_never_crashes`
* `MixedGenerated`: `mixed_call_partial`
* `Mono`: `mono_first_signal_decides`, `mono_at_most_once`, `mono_finalizer_last`, `mono_get`, `notify_exactly_once`, `notify_signal`, `notify_late_partial`, `processor_delivers`, `processor_first_partial`, `map_mono_partial`
* `Msgpack`: `item_round_trip`, `items_round_trip`, `sizes_exact_partial`, `any_sizes_exact_partial`, `any_round_trip_partial`, `any_round_trip_in_context_partial`, `int_not_truncated`, `uint_not_truncated`, `scalars_safe_partial`, `typed_calls_safe_partial`, `calls_safe_partial`, `any_returns_partial`, `truncated_reported`, `any_truncated_reported`, `skip_exact_partial`, `skip_any_partial`, `skip_item_partial`, `time_round_trip`, `optional_round_trip_partial`
* `MsgpackMap`: `repeated_keys_last`
* `Net`: `tcp_results_own_partial`, `tcp_frames_handled_partial`, `tcp_calls_once_partial`, `tcp_calls_finish_partial`, `tcp_calls_can_finish_partial`
* `Operations`: `fromBytes_format`, `table_round_trip`, `reserved_overflow_refuted`
* `OpsTool`: `table_added_partial`, `table_kept`, `long_name_added_refuted`
* `Pager`: `pages_in_order`, `pages_read`, `pages_finish`, `reads_unique`, `frequent_words`, `reads_frequent`, `short_read_partial`, `pages_again_refuted`
* `Paging`: `paged_in_order`, `paged_demand`, `paged_ends`, `paged_all`, `counter_paged`
* `Peers`: `responses_reach_own_callers_partial`, `calls_distinct`, `responses_misrouted_refuted`
* `Polite`: `simple_calls_keep_connection_partial`, `refused_fire_and_forget_ends_connection_refuted`, `calls_answered_once_partial`, `fire_and_forget_runs_once_partial`
* `PoliteFinish`: `socket_calls_finish`, `socket_calls_can_finish`
* `Programs`: `call_runs_place`, `imported_operation_partial`
* `ProxyFlux`: `remote_demand_partial`
* `Registry`: `advertised_index_reaches_handler`, `advertised_index_unique`, `live_until_removed`, `port_round_trip_partial`, `port_round_trip_equal_flags_partial`
* `Reqres`: `chars_streams`, `chars_ends`, `reverse_answers`, `reverse_ends`, `request_echo_test`, `request_chars`, `request_reverse_refuted`
* `RustCall`: `rust_call`
* `RustChannel`: `channel_demand`, `channel_demand_used_partial`
* `RustChannels`: `rust_channel_runs`, `rust_channel_output_partial`, `rust_channel_input_partial`
* `RustClient`: `call_made_partial`, `answer_size`
* `RustCodegen`: `generated_exports`, `generated_imports_partial`, `generated_call_reaches_partial`, `generated_channel_refuted`, `joined_names_refuted`
* `RustExec`: `no_work_left_partial`, `polls_orderly`, `no_crash`, `crash_stops_refuted`, `crash_outside_partial`
* `RustFinish`: `rust_never_crashes`, `rust_calls_finish_partial`, `rust_calls_can_finish_partial`
* `RustFrames`: `same_reading_partial`, `go_to_rust_partial`, `rust_to_go_partial`, `isUtf8_string`, `error_text_refuted`, `unknown_type_refuted`, `request_defaults_refuted`
* `RustGenerated`: `rust_generated_call`
* `RustGuest`: `readFrame_iff`, `rust_guest_reads`, `rust_guest_takes`, `rust_host_write_partial`, `rust_host_overrun_refuted`, `rust_guest_sends_partial`, `rust_guest_stale_refuted`, `rust_call_reaches`, `rust_exports_to_go`, `parse_metadata`, `rust_metadata_to_go`, `rust_serve_partial`, `rust_request_crash_refuted`
* `RustHost`: `table_last`, `table_none`, `rust_module_ops`, `ops_stay`, `go_module_ops_partial`, `start_panics_iff_partial`, `start_refused`, `memory_refuted`, `list_trap_refuted`, `list_unreadable_refuted`, `start_call_refuted`, `pointer_refuted`, `log_refuted`, `host_never_answers_refuted`, `request_kills_refuted`, `dead_forever_refuted`, `goes_on_partial`, `goes_on_started_partial`, `large_frame_refuted`, `given_up_refuted`, `handed_in_order`, `next_handed_partial`, `host_caller_partial`, `never_told_refuted`
* `RustInputs`: `go_args_read_partial`, `unary_object_refuted`, `unary_prim_refuted`, `wire_unique`, `parse_wire`
* `RustInterop`: `rust_ids_disjoint_partial`, `mixed_ids_refuted`
* `RustOperations`: `rust_to_go_partial`, `go_to_rust_partial`, `rust_round_trip`, `rust_reads_version_1`, `reserved_refuted`, `kind_refuted`, `name_refuted`
* `RustOutputs`: `go_result_read_partial`, `time_result_refuted`
* `RustPair`: `rust_requests_handled`, `rust_callers_told`, `rust_calls_settle`, `rust_empty_channel_refuted`
* `RustProject`: `runs_iff`, `calls_own_file`, `run_again`, `stale_scaffold_refuted`
* `RustResponder`: `answers_partial`
* `RustResults`: `foreign_result_partial`
* `RustRx`: `rx_order`, `rx_nothing_lost`, `rx_delivers_partial`, `end_reported_partial`, `end_after_senders_partial`, `own_sender`, `give_up_partial`, `pipe_source_partial`
* `RustSocket`: `caller_outcome_partial`, `no_crash_partial`
* `RustStreams`: `rust_generated_stream`, `wrapper_told`
* `RustWrappers`: `stream_wrapper_partial`, `stream_wrapper_ends_partial`, `stream_wrapper_early_refuted`, `stream_wrapper_failure_refuted`, `stream_wrapper_open_refuted`, `channel_outputs_partial`, `channel_inputs_partial`, `channel_outputs_end_partial`, `channel_inputs_end_partial`, `channel_input_failure_refuted`, `channel_failure_refuted`
* `Scaffold`: `fits_partial`, `logger_refuted`, `package_refuted`
* `Sections`: `sections_read_sound`
* `Server`: `close_stops_partial`, `early_close_refuted`, `late_connection_refuted`, `accepted_served_partial`, `never_forgotten_refuted`
* `Services`: `host_is_greeted`, `count_request`, `guest_streams_fail`, `host_uppercase_fails`
* `SlicePager`: `pages_in_order`, `pages_read`, `pages_finish`, `all_pairs`
* `Start`: `start_operations_partial`, `many_frames_refuted`, `start_frames_partial`
* `StreamId`: `ids_unique`, `ids_parity`, `sides_disjoint`, `next_first_loop`, `next_steps`, `client_never_zero`, `never_zero_partial`, `server_zero_refuted`
* `Streamed`: `stream_end_to_end_partial`, `stream_over_frames`
* `Transform`: `string_inverse`, `bytes_inverse`, `int_inverse`, `uint_inverse`, `float_inverse`, `slice_inverse`, `interface_inverse`, `string_cut_partial`, `bytes_cut_partial`, `int_cut_partial`, `uint_cut_partial`, `float_cut_partial`
* `Transport`: `frames_handled`, `closed_once`, `never_stuck`, `stops_partial`
* `Twins`: `twin_exports_partial`, `twin_handlers_partial`, `twin_imports_partial`, `twin_tables_partial`, `rust_calls_go_partial`, `kind_style`
* `TypedReads`: `foreign_read_partial`, `foreign_inputs_partial`, `typed_reads_partial`, `timestamp_reads`, `understood_prim`, `all_serializable`
* `U24`: `u24_roundtrip`
* `Unbounded`: `fifo`, `reader_drains`, `no_accept_after_dispose`, `never_sends_on_closed`, `closed_means_drained`, `reader_never_stuck`
* `Upper`: `strings_changed_partial`, `asks_two_by_two`
* `Uuid`: `parse_forms`, `text_round_trip`, `parse_exact_partial`, `braces_not_checked_refuted`, `blocks_successive`, `readings_distinct`, `readings_pairwise_distinct`, `readings_wrap_witness`
* `UuidTime`: `set_sequence`, `stamp_exact`, `unix_time_round_trip`, `v1_fields`
* `Wasm`: `guest_receives_sent`, `sent_in_order`, `open_never_panics`, `close_crashes_iff`, `close_unused_safe_partial`
* `WasmCaller`: `recv_panics_iff`, `stray_ignored_partial`, `guest_demand_partial`, `parent_context_partial`, `nested_context_partial`, `caller_sees`
* `WasmCalls`: `calls_get_own_results`, `calls_get_results`, `handlers_run_for_calls`, `simple_calls_never_crash`
* `WasmDispatch`: `requests_handled_once_partial`, `guest_in_order_partial`
* `WasmDrain`: `streams_never_crash_partial`, `streams_finish`, `streams_can_finish`, `fine_step`
* `WasmFinish`: `calls_finish`, `calls_can_finish`
* `WasmInputs`: `channel_input_arrives`, `handler_input_sees`, `stream_handler_started`, `demand_arrives_partial`, `host_input_partial`
* `WasmOnce`: `stream_served_once`, `refused_stream`, `once_placed`, `placed_step`, `heard_told`
* `WasmRecv`: `guest_frame_delivered_partial`, `hostSend_several`, `two_frames_refuted`, `too_large_lost_refuted`, `too_large_corrupt_refuted`
* `WasmServe`: `served_demand_partial`
* `WasmStreams`: `stream_arrives`, `subscriber_sees`
* `Wiring`: `chain_through`, `sent_on_in_order`, `wired_partial`, `wired_refuted`, `wired_lost_refuted`

### `Quot.sound`, `propext`

* `Await`: `await_created_refuted`, `await_flux_refuted`
* `Caller`: `late_frames_refuted`
* `Calls`: `collect_refuted`, `result_refuted`
* `Channel`: `early_input_refuted`
* `Codegen`: `nesting_bound`, `decode_panic_refuted`, `truncated_unknown_refuted`, `optional_enum_refuted`, `evolution_long_time_refuted`, `union_empty`
* `CodegenDup`: `repeated_struct_refuted`
* `Components`: `words_counted`, `failed_input_refuted`, `short_metadata_refuted`, `silent_refuted`, `short_metadata_refuted'`
* `Customer`: `modules_linked`
* `Flow`: `flow_again_refuted`, `flow_skips_refuted`, `flow_crash_refuted`, `flow_stall_refuted`
* `FlowRace`: `stall_refuted`, `again_refuted`
* `FrameSender`: `frames_carried`, `client_frames_partial`, `client_step`, `own_transport_refuted`, `second_transport_refuted`, `unset_crashes_refuted`, `own_handler_refuted`, `own_answer_refuted`
* `Frames`: `request_follow_lost_refuted`, `encode_is_rsocket`, `encode_exact`, `decode_never_panics_refuted`
* `Framing`: `eof_with_data_refuted`
* `GeneratedWasm`: `made_fits`
* `Handler`: `request_dispatched`, `request_frame_starts_task`, `unknown_stream_changes_nothing`, `own_stream_decides`, `unknown_stream_ends_connection_refuted`, `cancel_stream_crashes_refuted`, `request_n_mono_crashes_refuted`, `early_request_n_crashes_refuted`, `fire_and_forget_crashes_refuted`, `request_n_flux_crashes_refuted`, `handler_metadata_partial`, `handler_metadata_refuted`, `failed_stream_crashes_refuted`, `whole_payload_delivered_partial`, `fragments_dropped_refuted`
* `Imports`: `server_file_imports_partial`, `client_file_imports_partial`, `msgpack_not_imported_refuted`, `nothing_exported_refuted`, `no_arguments_refuted`, `written_unfound_refuted`
* `Interop`: `unary_prim_refuted`
* `Joined`: `second_subscriber`
* `Leak`: `nothing_kept`
* `Linking`: `protocol_starts_on_go`, `protocol_starts_on_rust`, `started_on_rust`, `programs_start_partial`, `go_on_rust_refuted`, `log_on_go_refuted`, `no_list_panics_refuted`
* `Maps`: `flux_maps`, `mono_maps`, `flux_map_ok`, `mono_map_ok`, `just_maps`, `error_maps`, `flux_error_maps`, `block_error_refuted`, `notify_maps_refuted`
* `Mesh`: `route_panics_iff`
* `Msgpack`: `sizes_exact_refuted`, `skip_diverges_refuted`, `convert_some_partial`, `convert_nil_refuted`, `parse_nil`, `parse_some`, `parse_bad`
* `Operations`: `toBytes_format`, `accepted_is_format_partial`
* `Pager`: `counted_words`
* `Paging`: `counter_counts`, `counter_never_ends_refuted`
* `Polite`: `second_subscription_sends_again_refuted`
* `Programs`: `wrong_operation_refuted`
* `ProxyFlux`: `early_demand_lost_refuted`, `request_first_refuted`, `demand_reaches_flux_partial`
* `Registry`: `import_ids`, `live_instances`, `removed_is_gone`, `port_flags_refuted`, `handler_table_partial`
* `RustChannels`: `rust_channel_output_dropped_refuted`, `rust_channel_input_dropped_refuted`
* `RustClient`: `large_call_refuted`, `large_stream_refuted`, `weight_le`
* `RustExec`: `over_stays`
* `RustFinish`: `rust_error_channel_refuted`
* `RustFrames`: `same_bytes`
* `RustGuest`: `rust_guest_reads_as_go`, `rust_host_too_large_refuted`, `rust_exports`, `rust_channel_crash_refuted`, `parse_metadata_panics`
* `RustHost`: `export_found`, `import_found`
* `RustInterop`: `mixed_call_lost_refuted`
* `RustOnce`: `once_wrapper_safe`, `once_wrapper_live`, `once_dropped`
* `RustOperations`: `lookup_first`
* `RustProject`: `builds_iff`, `files_declared`, `actions_kept`, `service_suffix_refuted`
* `RustResponder`: `failing_stream_refuted`, `demand_refuted`
* `RustResults`: `time_result_refuted`
* `RustRx`: `mono_once`, `pipe_target_refuted`
* `RustSocket`: `ids_unique_partial`, `ids_repeat_refuted`, `zero_id_refuted`, `stolen_refuted`, `fragments_refuted`, `process_crashes_iff`, `crash_refuted`
* `RustStreams`: `heard_all`
* `RustWasi`: `wasi_told_partial`, `wasi_refused`, `directory_refuted`
* `Scaffold`: `imports_partial`, `stream_refuted`, `no_code_refuted`, `function_refuted`
* `Sections`: `sections_read_partial`
* `Server`: `cancel_stops`, `close_again`
* `Start`: `unknown_table_refuted`, `start_returns_partial`, `start_calls_host`
* `Streamed`: `map_failure_ends_connection_refuted`
* `Transform`: `bool_inverse`, `codec_inverse`, `bool_cut_partial`, `codec_cut_partial`
* `Transport`: `leaves_loop`, `read_leaves`, `end_waits_for_peer_refuted`
* `Twins`: `refused_refuted`, `rxStyle_calls`
* `TypedReads`: `signed_refuted`, `signed_writable`
* `U24`: `u24_read_range`
* `Uuid`: `text_lower_case`, `random_layout`, `v4_bits`, `blocks_disjoint`
* `Wasm`: `close_while_sending_refuted`, `send_after_close_refuted`, `loops_go_on_partial`, `loops_come_to_rest_partial`, `loops_deadlock_refuted`
* `WasmCaller`: `short_crashes_refuted`, `demand_for_mono_refuted`, `cancel_crashes_refuted`, `early_demand_refuted`, `demand_after_fnf_refuted`, `stream_context_refuted`, `stream_context_lost_refuted`
* `WasmCalls`: `cancelled_stream_crashes_refuted`
* `WasmDispatch`: `follows_lost_refuted`
* `WasmDrain`: `guest_demand_crashes_refuted`, `goes_down`
* `WasmInputs`: `demand_after_input_refuted`, `early_input_lost_refuted`
* `WasmPool`: `other_frames_intact_partial`, `requests_intact_partial`, `request_overwritten_refuted`
* `WasmRecv`: `buffers_handled_in_order`, `large_metadata_crashes_refuted`
* `WasmStreams`: `cancelled_input_refuted`

### `propext`

* `Await`: `finished_finally_refuted`
* `Block`: `flux_block_fresh_refuted`
* `Calls`: `object_stream_refuted`, `unary_refuted`, `number_stream_refuted`
* `Codegen`: `union_first_member`
* `Flux`: `finalizer_twice_refuted`, `map_flux_failure_refuted`
* `FluxLock`: `request_nested_refuted`
* `FluxSlice`: `slice_second_refuted`
* `Fragment`: `payload_fragment_diverges`
* `GoCall`: `unread_call`
* `GoTime`: `pointer_refuted`
* `Invoke`: `input_reported_partial`, `unknown_reported_refuted`
* `Lookup`: `reused_id_refuted`, `removed_gone_refuted`
* `Mesh`: `linking_odd_imports_refuted`, `module_calls_old_refuted`, `link_other_kind_refuted`, `mesh_short_metadata_refuted`
* `Mono`: `just_error_once`, `notify_inside_onError_refuted`, `processor_first_refuted`, `map_mono_signal_refuted`
* `Msgpack`: `any_time_refuted`, `any_round_trip_refuted`, `key_panic_refuted`, `skip_truncated_refuted`, `range_errors_stick`, `skip_time_refuted`, `convert_error_refuted`, `parse_error`
* `Operations`: `truncated_table_panics_refuted`
* `ProxyFlux`: `large_demand_refuted`
* `Reqres`: `request_single`, `request_prints_partial`, `request_failure_refuted`
* `RustGuest`: `rust_guest_drops_refuted`
* `RustInputs`: `no_args_refuted`, `inputs_all`
* `RustOutputs`: `void_result_refuted`
* `RustResponder`: `answer_wellFormed_partial`
* `RustResults`: `void_result`
* `RustRx`: `end_while_waiting_refuted`, `values_after_end_refuted`, `give_up_refuted`
* `RustWasi`: `deadlines_stop_refuted`, `deadlines_ignored_refuted`
* `Sections`: `empty_last_refuted`
* `Start`: `missing_function_err`, `no_list_refuted`, `first_module_partial`, `second_module_refuted`
* `Transform`: `slice_errors_lost_refuted`
* `Transport`: `error_lost_refuted`
* `TypedReads`: `ser_wire`
* `Upper`: `demand_ignored_refuted`, `long_string_refuted`
