{"id": "C01", "title": "Frame header round trip", "statement": "A frame header built from a stream id below 2^31, a 6-bit frame type and a 10-bit flag word occupies exactly six bytes and, parsed back from the front of any longer buffer, yields the same stream id, type and flags; a parsed stream id never has its top bit set.", "quantifier": "for all stream ids, frame types, flag words and trailing bytes", "why_tests_cant": "there are 2^47 headers; tests only exercise one or two of them", "anchors": ["go/internal/frames/frame_header.go: NewFrameHeader, ResetFrameHeader, ParseFrameHeader, StreamID, Type, Flag", "go/internal/frames/types.go"]}
{"id": "C02", "title": "Frame codec round trip", "statement": "Encoding any frame (CANCEL, REQUEST_N, ERROR, PAYLOAD, REQUEST_RESPONSE, REQUEST_FNF, REQUEST_STREAM, REQUEST_CHANNEL) and decoding the bytes gives back every field the sender set: stream id, code, message, demand, metadata, data, follows, complete, next and initial demand.", "quantifier": "for all frames whose stream id is below 2^31 and whose metadata is shorter than 2^24 bytes", "why_tests_cant": "fields are unbounded byte strings and independent flags; round trip must hold for all combinations", "anchors": ["go/internal/frames/payload.go: Payload.Encode, Payload.Decode", "go/internal/frames/request_payload.go: RequestPayload.Encode, Decode", "go/internal/frames/cancel.go", "go/internal/frames/error.go", "go/internal/frames/request_n.go"]}
{"id": "C03", "title": "Frame size is exact", "statement": "The advertised size of a frame is exactly the number of bytes its encoder fills: encoding into any buffer at least that long succeeds, overwrites exactly that prefix and leaves every later byte of the buffer untouched, so frames can be packed back to back.", "quantifier": "for all frames and all destination buffers of sufficient length", "why_tests_cant": "out-of-bounds or off-by-one writes only show up for particular lengths and buffer contents", "anchors": ["go/internal/frames/payload.go: Size, Encode", "go/internal/frames/request_payload.go: Size, Encode", "go/internal/frames/error.go: Size, Encode", "go/internal/frames/cancel.go", "go/internal/frames/request_n.go"]}
{"id": "C04", "title": "Decoding received bytes never crashes", "statement": "Handing arbitrary received bytes to the frame decoder yields a frame or an error, never a process-killing panic.", "quantifier": "for all byte strings", "why_tests_cant": "crashing inputs are specific truncated or mis-declared byte strings that a test suite must guess", "anchors": ["go/internal/frames/payload.go: Payload.Decode", "go/internal/frames/request_payload.go: RequestPayload.Decode", "go/internal/frames/error.go: Decode", "go/internal/frames/util.go: readString", "go/internal/u24/u24.go: ReadUint24ToInt", "go/transport/rsocket/tcp_conn.go: Read"]}
{"id": "C05", "title": "Payload fragmentation reassembles", "statement": "Splitting a payload frame for a maximum frame size gives frames that each fit the maximum, carry the stream id, have the follow bit on all but the last, carry next/complete only on the last, and whose metadata and data concatenate to the original; splitting always terminates.", "quantifier": "for all payloads and all maximum sizes of at least 10 bytes", "why_tests_cant": "correctness depends on the exact relation of metadata length, data length and frame limit; unbounded number of fragments", "anchors": ["go/internal/frames/payload.go: Payload.Fragment", "go/internal/frames/util.go: splitPayloads"]}
{"id": "C06", "title": "Request fragmentation reassembles", "statement": "Splitting a request frame for a maximum frame size gives a first request frame plus continuation payload frames that each fit the maximum and whose metadata and data concatenate to exactly the original metadata and data.", "quantifier": "for all requests and all maximum sizes large enough for the request header", "why_tests_cant": "the branch taken depends on unbounded lengths; the only test covers metadata larger than a frame", "anchors": ["go/internal/frames/request_payload.go: RequestPayload.Fragment", "go/internal/frames/util.go: splitPayloads"]}
{"id": "C07", "title": "24-bit length field", "statement": "A length is written to a 3-byte field and read back unchanged exactly when it lies in 0..16777215; every other value is refused with an error, and every 3-byte field reads as a value in that range.", "quantifier": "for all integers and all byte triples", "why_tests_cant": "needs every boundary and every value", "anchors": ["go/internal/u24/u24.go: NewUint24, MustNewUint24, AsInt, ReadUint24ToInt"]}
{"id": "C08", "title": "Stream ids are unique under concurrency", "statement": "Stream ids drawn from one side of a connection are pairwise distinct for the first 2^30 draws no matter how concurrent callers interleave, client ids are odd, server ids are even, so the two sides never collide.", "quantifier": "for all numbers of callers, all interleavings and all pairs of draws below 2^30", "why_tests_cant": "a billion draws and all schedules cannot be enumerated", "anchors": ["go/internal/socket/stream_id.go: clientStreamIDs.Next, serverStreamIDs.Next", "go/handler/caller.go: getNextStreamID"]}
{"id": "C09", "title": "Stream id zero is never issued", "statement": "Neither side ever issues stream id 0, which the protocol reserves for the connection.", "quantifier": "for all draw counts (including after wrap-around)", "why_tests_cant": "the failing draw is the 2^30-th one", "anchors": ["go/internal/socket/stream_id.go: clientStreamIDs.Next, serverStreamIDs.Next"]}
{"id": "C10", "title": "Unbounded buffer is FIFO and loses nothing", "statement": "A consumer that loads after each receive gets exactly the values accepted by Put, in the order accepted, each once, under every interleaving of producers, consumer and disposal; nothing is dropped, duplicated or reordered.", "quantifier": "for all interleavings of Put, Load, receive and Dispose of any length", "why_tests_cant": "the interleavings of producers and consumer are unbounded", "anchors": ["go/internal/buffer/unbounded.go: Put, Load, Get, Dispose", "go/transport/rsocket/transport.go: loopReadBuffer"]}
{"id": "C11", "title": "Unbounded buffer shutdown", "statement": "After Dispose no further value is accepted, values accepted earlier remain receivable, the channel closes once (and only after) they are drained, no operation ever sends on the closed channel, and a consumer never blocks while a value is waiting.", "quantifier": "for all interleavings and any number of Dispose calls", "why_tests_cant": "send-on-closed-channel and lost-wakeup bugs need one specific schedule", "anchors": ["go/internal/buffer/unbounded.go: Dispose, Load, close, Put"]}
{"id": "C12", "title": "Registered streams stay reachable and frames are never misrouted", "statement": "A stream that was registered and not removed is found by its id, and a lookup by id only ever returns a stream registered under exactly that id.", "quantifier": "for all histories of registrations and removals in which no id is registered twice (ids are unique by C08)", "why_tests_cant": "pointer updates in a linked list depend on the history; unbounded number of histories", "anchors": ["go/proxy/lookup.go: Add, Remove, Get, find"]}
{"id": "C13", "title": "Removed streams are gone", "statement": "After a stream is removed, looking its id up finds nothing (until it is registered again).", "quantifier": "for all histories of registrations and removals", "why_tests_cant": "which nodes survive depends on the order of earlier removals", "anchors": ["go/proxy/lookup.go: Remove", "go/handler/handler.go: removeStream"]}
{"id": "C14", "title": "Mono signals at most one outcome", "statement": "A subscriber of a mono sees at most one of success and error, and its finalizer runs at most once and always after that signal, no matter how often or in which order the source signals, including signals raised from inside the callbacks.", "quantifier": "for all sequences (and nestings) of source signals", "why_tests_cant": "sources can signal arbitrarily often and re-entrantly", "anchors": ["go/rx/mono/mono.go: subscriber.Success, subscriber.Error, finally"]}
{"id": "C15", "title": "Mono completion notifications", "statement": "Every notification callback registered on a mono, before or after it finishes, runs exactly once per completed subscription and receives the signal with which the mono finished.", "quantifier": "for all interleavings of registration, success and error", "why_tests_cant": "registration may race with completion in unboundedly many ways", "anchors": ["go/rx/mono/mono.go: Notify, finally"]}
{"id": "C16", "title": "Processor caches its outcome", "statement": "A value or error pushed into a mono processor before anybody subscribes is delivered to the subscriber on subscription, one pushed afterwards is delivered at once, and the subscriber sees the first outcome pushed.", "quantifier": "for all sequences of pushes and subscriptions", "why_tests_cant": "push/subscribe orders are unbounded", "anchors": ["go/rx/mono/processor.go: NewProcessor, Success, Error"]}
{"id": "C17", "title": "Flux signals respect the reactive-streams grammar", "statement": "A flux subscriber sees a (possibly empty) sequence of values followed by at most one of complete or error, and nothing after it, whatever the source does; values arrive in emission order without loss before the terminal signal.", "quantifier": "for all sequences of source signals, requests and cancellations", "why_tests_cant": "sources can emit anything in any order for unbounded time", "anchors": ["go/rx/flux/flux.go: subscriber.Next, Complete, Error, Cancel"]}
{"id": "C18", "title": "Flux finalizer runs exactly once", "statement": "The finalizer of a flux subscription runs exactly once, with the signal that ended it (complete, error or cancel).", "quantifier": "for all sequences of source signals and cancellations", "why_tests_cant": "needs all orders of complete / error / cancel", "anchors": ["go/rx/flux/flux.go: finally, Cancel"]}
{"id": "C19", "title": "Slice source honours demand", "statement": "A flux over a slice delivers the elements in order, never more than the total demand, delivers everything once demand suffices, and completes exactly once, right after the last element.", "quantifier": "for all slices and all sequences of demands", "why_tests_cant": "demand sequences are unbounded", "anchors": ["go/rx/flux/slice.go: FromSlice", "go/rx/flux/flux.go: OnSubscribe, Request, handleOnSubscribe"]}
{"id": "C20", "title": "Mapping a flux", "statement": "Mapping a flux delivers exactly the transformed values in order and the source's terminal signal; if the transform fails the subscriber sees that error once and nothing afterwards, and its finalizer runs once.", "quantifier": "for all sources, transforms and failure positions", "why_tests_cant": "the failure may occur at any element of an unbounded stream", "anchors": ["go/rx/flux/flux.go: Map, mapper.Subscribe"]}
{"id": "C21", "title": "Mapping a mono", "statement": "Mapping a mono delivers the transformed value, or the source's error, or the transform's error, exactly once, and the finalizer reports the same kind of outcome.", "quantifier": "for all source outcomes and transforms", "why_tests_cant": "quantifies over all transforms", "anchors": ["go/rx/mono/mono.go: Map, mapper.Subscribe, mapper.Get"]}
{"id": "C22", "title": "Flow steps run in order, once each", "statement": "A flow runs its steps in order, each exactly once, and starts a step only after every operation awaited by the previous step has finished.", "quantifier": "for all step lists, all awaited groups and all orders in which awaited operations finish, including ones already finished", "why_tests_cant": "completion orders are unbounded; synchronous completion is one special schedule", "anchors": ["go/rx/flow/flow.go: next, check, Steps"]}
{"id": "C23", "title": "MessagePack typed values round trip", "statement": "Any integer, unsigned integer, boolean, string, byte string, float, nil, array header or map header written by the encoder is read back by the matching reader as the same value, consuming exactly the bytes written, whatever follows them.", "quantifier": "for all values of every supported type and all following bytes", "why_tests_cant": "2^64 integers, all lengths and every following byte string", "anchors": ["go/msgpack/encoder.go", "go/msgpack/decoder.go", "go/msgpack/data_reader.go", "go/msgpack/format.go"]}
{"id": "C24", "title": "MessagePack sizes are exact", "statement": "The size pre-computed for a value equals the number of bytes the encoder writes for it, so the output buffer is neither too short (panic) nor padded with stray bytes.", "quantifier": "for all values and sequences of values", "why_tests_cant": "off-by-one errors sit at particular length boundaries", "anchors": ["go/msgpack/sizer.go", "go/msgpack/encoder.go", "go/msgpack/codec.go: ToBytes, AnyToBytes"]}
{"id": "C25", "title": "MessagePack dynamic values round trip", "statement": "A dynamically typed value (nested arrays and string-keyed maps of nil, booleans, numbers, strings and byte strings) written by the encoder and read back dynamically denotes the same value.", "quantifier": "for all dynamic values of any nesting depth and size", "why_tests_cant": "values are unboundedly nested", "anchors": ["go/msgpack/encoder.go: WriteAny, WriteAnySlice, WriteAnyMap", "go/msgpack/decoder.go: ReadAny"]}
{"id": "C26", "title": "MessagePack integers are never silently truncated", "statement": "Reading into a narrower integer type either yields exactly the encoded mathematical value or reports an error.", "quantifier": "for all byte strings and all target widths", "why_tests_cant": "needs all encodings times all widths", "anchors": ["go/msgpack/decoder.go: ReadInt8..ReadInt64, ReadUint8..ReadUint64"]}
{"id": "C27", "title": "MessagePack decoding of hostile input is memory safe", "statement": "Reading any value from any received bytes never crashes the process and never reads outside the buffer; truncated input is reported as an error.", "quantifier": "for all byte strings shorter than 4 GiB and all sequences of read calls", "why_tests_cant": "the crashing inputs carry specific 32-bit lengths", "anchors": ["go/msgpack/data_reader.go: checkBufferSize, GetBytes, Discard", "go/msgpack/decoder.go"]}
{"id": "C28", "title": "MessagePack errors are sticky", "statement": "Once a read fails because input ran out, every later read on the same decoder fails as well and the position no longer changes, so a caller that checks only at the end cannot mistake garbage for data.", "quantifier": "for all byte strings and all sequences of later reads", "why_tests_cant": "all continuations after an error", "anchors": ["go/msgpack/data_reader.go: checkBufferSize", "go/msgpack/decoder.go"]}
{"id": "C29", "title": "MessagePack skip consumes exactly one value", "statement": "Skipping an encoded value advances the decoder to exactly the first byte after that value, for every value the encoder can produce.", "quantifier": "for all encoder-produced values and following bytes", "why_tests_cant": "values are unboundedly nested; each format has its own size rule", "anchors": ["go/msgpack/decoder.go: Skip, getSize"]}
{"id": "C30", "title": "MessagePack timestamps round trip", "statement": "Every time value survives encoding and decoding to the nanosecond.", "quantifier": "for all seconds in the 64-bit range and all nanoseconds below 10^9", "why_tests_cant": "three wire formats selected by 64-bit boundaries", "anchors": ["go/msgpack/encoder.go: WriteTime, encodeTime", "go/msgpack/decoder.go: ReadTime, decodeTime"]}
{"id": "C31", "title": "Operation table round trip", "statement": "The operation table exported by a guest is read by the host as the same list of operations: type, direction, index, namespace and name.", "quantifier": "for all tables whose names are shorter than 2^16 bytes", "why_tests_cant": "tables are unbounded lists of variable-length records", "anchors": ["go/operations/operatons.go: Table.ToBytes, FromBytes"]}
{"id": "C32", "title": "Advertised index reaches the exported handler", "statement": "The index advertised for an exported (namespace, operation) of a given kind, used in a request, reaches the handler registered under that name and kind and no other.", "quantifier": "for all export histories and all exported operations", "why_tests_cant": "unbounded registration histories", "anchors": ["go/transport/wasmrs/guest/guest.go: OperationList, convertOperations, handleRequestResponse", "go/invoke/handlers.go: Export*, Get*Handler"]}
{"id": "C33", "title": "Import ids are stable and distinct", "statement": "Importing the same (namespace, operation) of a kind twice yields the same id, importing different ones yields different ids, and ids count up from zero without gaps.", "quantifier": "for all import histories", "why_tests_cant": "unbounded histories", "anchors": ["go/invoke/handlers.go: ImportRequestResponse, ImportFireAndForget, ImportRequestStream, ImportRequestChannel"]}
{"id": "C34", "title": "Live instance table", "statement": "An instance handed out by the instance table is returned for its key until it is removed, is not returned afterwards, and operations on one key never affect another.", "quantifier": "for all histories of put, get and remove", "why_tests_cant": "unbounded histories", "anchors": ["go/invoke/instances.go: LiveInstances.Put, Get, Remove"]}
{"id": "C35", "title": "Port messages round trip", "statement": "A port message keeps its port, flags (next, complete), and data across encoding and decoding.", "quantifier": "for all ports shorter than 2^16 bytes, all flags and all data", "why_tests_cant": "all flag combinations and lengths", "anchors": ["go/invoke/portio.go: PortIO.Encode, PortIO.Decode"]}
{"id": "C36", "title": "Stream framing is independent of chunking", "statement": "Frames written to a TCP connection are received as the same frames in the same order however the byte stream is cut into reads.", "quantifier": "for all lists of non-empty frames below 2^24 bytes and all chunkings of the stream", "why_tests_cant": "chunkings are exponentially many", "anchors": ["go/transport/rsocket/decoder.go: doSplit, Read", "go/transport/rsocket/tcp_conn.go: Write, Read"]}
{"id": "C37", "title": "No frame is lost at end of stream", "statement": "When the peer closes after writing complete frames, every complete frame is delivered and a trailing partial frame is never delivered as a frame.", "quantifier": "for all byte streams, all chunkings, and all legal ways for a reader to report end of stream", "why_tests_cant": "depends on how the last chunk coincides with end of file", "anchors": ["go/transport/rsocket/decoder.go: doSplit, Read"]}
{"id": "C38", "title": "Concurrent sends do not corrupt the stream", "statement": "When several goroutines send frames on one connection the receiver still sees exactly those frames, each intact.", "quantifier": "for all interleavings of concurrent sends", "why_tests_cant": "interleavings are unbounded", "anchors": ["go/transport/rsocket/tcp_conn.go: Write", "go/transport/rsocket/transport.go: Send"]}
{"id": "C39", "title": "Requests are dispatched to the indexed handler", "statement": "An incoming request whose metadata is at least eight bytes reaches exactly the handler registered at the index in its first four bytes, with its data; shorter metadata or an unregistered index produces one error frame for that stream and runs no handler.", "quantifier": "for all request frames and handler tables", "why_tests_cant": "all metadata contents, indices and tables", "anchors": ["go/handler/handler.go: HandleFrame, handleRequestResponse, handleFireAndForget, handleRequestStream, handleRequestChannel, checkMetadata"]}
{"id": "C40", "title": "Frames act only on their own stream", "statement": "A PAYLOAD, ERROR, CANCEL or REQUEST_N frame affects only the stream named by its id; a frame for an unknown stream changes nothing.", "quantifier": "for all frames and all sets of open streams", "why_tests_cant": "all stream sets and histories", "anchors": ["go/handler/handler.go: HandleFrame, getStream"]}
{"id": "C41", "title": "Protocol frames cannot crash the peer", "statement": "Any decodable frame sent by the peer at any time (for instance CANCEL of a running request-stream, or REQUEST_N for a request-response) is handled without crashing the process.", "quantifier": "for all frame sequences", "why_tests_cant": "the crashing frame is legal and depends on the stream's kind", "anchors": ["go/handler/handler.go: HandleFrame, requestStream.OnComplete, OnNext, DoRequest", "go/proxy/flux.go: DoRequest", "go/proxy/mono.go"]}
{"id": "C42", "title": "Responses reach their own callers", "statement": "With any number of concurrent request-response calls on a connection, a caller's mono is only ever resolved with the outcome the responder produced for that caller's request.", "quantifier": "for all numbers of calls and all interleavings of requests and responses", "why_tests_cant": "all interleavings of unboundedly many calls", "anchors": ["go/handler/caller.go: RequestResponse", "go/handler/handler.go: HandleFrame, handleRequestResponse", "go/proxy/mono.go", "go/proxy/lookup.go"]}
{"id": "C43", "title": "Remote demand equals local demand", "statement": "The demand a remote stream's peer is told (initial demand plus later REQUEST_N frames) is the demand requested by the local subscriber; the request frame is sent once and first.", "quantifier": "for all sequences of local requests and cancellation", "why_tests_cant": "unbounded request sequences", "anchors": ["go/proxy/flux.go: streamFlux.Subscribe, Request, Cancel"]}
{"id": "C44", "title": "Host to guest batching preserves frames", "statement": "Frames queued for a guest are received by it as the same frames in the same order, whatever the batching.", "quantifier": "for all frame lists (each fitting the send buffer) and all batch boundaries", "why_tests_cant": "batch boundaries depend on the scheduler", "anchors": ["go/transport/wasmrs/host/instance.go: sendLoop", "go/transport/wasmrs/guest/guest.go: GuestSend"]}
{"id": "C45", "title": "Guest to host delivery preserves frames", "statement": "Frames a guest places in the host buffer are received by the host as the same frames in the same order.", "quantifier": "for all non-empty lists of frames in one buffer", "why_tests_cant": "buffers with several frames are never exercised by tests", "anchors": ["go/transport/wasmrs/guest/guest.go: doSendFrame", "go/transport/wasmrs/host/instance.go: hostSend, recvLoop"]}
{"id": "C46", "title": "Closing an instance is safe", "statement": "Closing a guest instance never crashes the host, whatever the send loop is doing.", "quantifier": "for all schedules of close and send", "why_tests_cant": "the crash needs a close between two channel operations", "anchors": ["go/transport/wasmrs/host/instance.go: Close, sendLoop, SendFrame"]}
{"id": "C47", "title": "Host loops cannot deadlock", "statement": "The host's send loop and receive loop never end up waiting for each other.", "quantifier": "for all schedules and all queue occupancies", "why_tests_cant": "deadlock needs two full 100-slot queues at the same time", "anchors": ["go/transport/wasmrs/host/instance.go: sendLoop, recvLoop, hostSend, SendFrame"]}
{"id": "C48", "title": "Mesh linking is complete and order independent", "statement": "Once a set of modules has been loaded, every import for which some loaded module exports the same (namespace, operation) is linked, and the rest are exactly the reported unsatisfied imports, whatever the loading order.", "quantifier": "for all module sets and all loading orders", "why_tests_cant": "factorially many orders, unbounded module sets", "anchors": ["go/transport/wasmrs/mesh/mesh.go: linkOperations, linkOperation"]}
{"id": "C49", "title": "Mesh calls reach the newest export", "statement": "After a module exporting an operation is reloaded, calls to this operation (from the mesh or from another module) go to the newly loaded instance.", "quantifier": "for all load histories", "why_tests_cant": "unbounded load histories", "anchors": ["go/transport/wasmrs/mesh/mesh.go: linkOperations, linkOperation, RequestResponse"]}
{"id": "C50", "title": "UUID text round trip", "statement": "Formatting a UUID and parsing it gives the same UUID in every accepted form (plain, URN, braces, 32 hex digits, either letter case), and parsing accepts only strings of those forms.", "quantifier": "for all 2^128 UUIDs and all strings", "why_tests_cant": "2^128 values", "anchors": ["go/types/uuid/uuid.go: Parse, ParseBytes, String, URN, encodeHex", "go/types/uuid/util.go: xtob"]}
{"id": "C51", "title": "Random UUID layout", "statement": "Every generated random UUID has version 4 and the RFC 4122 variant, and keeps all remaining 122 random bits.", "quantifier": "for all random inputs", "why_tests_cant": "2^128 random inputs", "anchors": ["go/types/uuid/version4.go: NewRandomFromReader, newRandomFromPool", "go/types/uuid/uuid.go: Version, Variant"]}
{"id": "C52", "title": "Random pool bytes are used once", "statement": "With pooling enabled, successive UUIDs are built from successive, non-overlapping 16-byte blocks of the random source; no random byte is used twice.", "quantifier": "for all numbers of generated UUIDs", "why_tests_cant": "unbounded number of calls", "anchors": ["go/types/uuid/version4.go: newRandomFromPool"]}
{"id": "C53", "title": "Timestamps with clock sequence never repeat", "statement": "Successive (time, clock sequence) readings are pairwise distinct even if the wall clock stalls or jumps backwards, as long as fewer than 2^14 such events occur.", "quantifier": "for all clock behaviours and all numbers of readings", "why_tests_cant": "clock histories are unbounded", "anchors": ["go/types/uuid/time.go: getTime, setClockSequence"]}
{"id": "C54", "title": "Custom sections are extracted faithfully", "statement": "Given a well-formed WebAssembly binary, reading custom sections returns for each wanted name the contents of the section of this name, and nothing else.", "quantifier": "for all well-formed sequences of sections and all wanted names", "why_tests_cant": "section lists and contents are unbounded", "anchors": ["go/transport/wasmrs/customsections/customsections.go: Read, decodeCustomSection, decodeUTF8"]}
{"id": "C55", "title": "Handler tables", "statement": "Registering a handler at an index makes exactly that index resolve to it; other indices keep their handlers or stay unregistered.", "quantifier": "for all registration histories and all 32-bit indices", "why_tests_cant": "unbounded histories and 2^32 indices", "anchors": ["go/handler/handler.go: SetRequestResponseHandler, getRequestResponseHandler and the FNF/stream/channel variants", "go/transport/wasmrs/host/instance.go: Set*Handler, get*Handler"]}
{"id": "C56", "title": "Optional values decode to absence", "statement": "An optional field encoded as nil decodes to an absent value and any other encoded value decodes to that value.", "quantifier": "for all optional values of every numeric, string and boolean type", "why_tests_cant": "all values of all types", "anchors": ["go/msgpack/convert/convert.go", "go/msgpack/decoder.go: ReadNillable*"]}
{"id": "C57", "title": "Transforms are inverse pairs", "statement": "Encoding a value to a payload with one of the built-in transforms and decoding it gives back the value.", "quantifier": "for all values of each built-in transform type", "why_tests_cant": "all values of all types", "anchors": ["go/transform/transform.go: String, Int64, Uint64, Bool, Bytes, Time, Any and the other Encode/Decode pairs"]}
{"id": "C58", "title": "Only well-formed operation tables are accepted", "statement": "The host accepts only well-formed operation tables, returns exactly the operations they describe, and rejects anything else with an error without crashing.", "quantifier": "for all byte strings a guest may hand to the host as its operation table", "why_tests_cant": "hostile and truncated tables of any length", "anchors": ["go/operations/operatons.go: FromBytes"]}
{"id": "C59", "title": "A received frame keeps its contents until it is handled", "statement": "A frame read from a connection and queued for its handler still has the metadata and data it arrived with when the handler gets to it, however much more is read meanwhile.", "quantifier": "for all byte streams, all chunkings and every number of frames read before the handler runs", "why_tests_cant": "the corruption needs a particular alignment of later reads with the read buffer, and a slow handler", "anchors": ["go/transport/rsocket/decoder.go: Read", "go/transport/rsocket/transport.go: Start", "go/internal/frames/payload.go: Decode", "go/internal/frames/request_payload.go: Decode"]}
{"id": "C60", "title": "Handlers of every kind get the same metadata", "statement": "A request handler is given the metadata the caller passed, after the eight bytes that route the request, whatever the kind of the request.", "quantifier": "for all requests of all four kinds, all metadata and all registrations", "why_tests_cant": "needs all kinds of request with metadata of every length", "anchors": ["go/handler/handler.go: handleRequestResponse, handleFireAndForget, handleRequestStream, handleRequestChannel"]}
{"id": "C61", "title": "A stream handler may fail", "statement": "A handler of a stream or channel request may report failure by returning a failed flux; the caller is told the error and nothing crashes.", "quantifier": "for all requests, handlers and states of the connection", "why_tests_cant": "handlers in tests succeed", "anchors": ["go/handler/handler.go: handleRequestStream, handleRequestChannel, requestStreamResponder", "go/rx/flux/flux.go: Error, errorFlow"]}
{"id": "C62", "title": "Payloads sent in fragments arrive whole", "statement": "A payload that its sender splits into fragments is delivered to its stream once, with all its data and metadata.", "quantifier": "for all payloads, fragment sizes and states of the connection", "why_tests_cant": "every payload length and fragment size", "anchors": ["go/handler/handler.go: HandleFrame", "go/internal/frames/payload.go: Fragment"]}
{"id": "C63", "title": "Demand told to a responder is not lost", "statement": "All demand a requester sends for a stream, initial and additional, reaches the flux the handler returned.", "quantifier": "for all sequences of demand frames and all interleavings with the handler", "why_tests_cant": "depends on frames arriving between the start of a handler and its return", "anchors": ["go/handler/handler.go: HandleFrame, handleRequestStream, requestStreamResponder.DoRequest"]}
{"id": "C64", "title": "A frame too large for the shared buffers is refused", "statement": "A frame too large for the 16 KiB buffer it has to pass through is refused with an error to its sender; it neither crashes the host nor is lost or corrupted.", "quantifier": "for all frames, sizes and positions in the buffer", "why_tests_cant": "needs frames around and beyond the buffer size in both directions", "anchors": ["go/transport/wasmrs/host/instance.go: sendLoop, hostSend", "go/transport/wasmrs/guest/guest.go: doSendFrame"]}
{"id": "C65", "title": "A request from a guest keeps its contents until its handler runs", "statement": "A frame a guest hands to the host is acted upon with the metadata and data it was handed over with, even when its handler runs in a goroutine of its own and more frames arrive first.", "quantifier": "for all sequences of frames, all interleavings of handlers and all choices of the buffer pool", "why_tests_cant": "depends on the buffer pool handing out one particular buffer before a goroutine has run", "anchors": ["go/transport/wasmrs/host/instance.go: hostSend, recvLoop, recvOne"]}
{"id": "C66", "title": "An import is linked to an export of its own kind", "statement": "A call that a module makes with an import of some kind and name is answered by an exported operation of the same kind and name.", "quantifier": "for all module sets, loading orders and operation tables", "why_tests_cant": "needs modules that use one name for operations of two kinds", "anchors": ["go/transport/wasmrs/mesh/mesh.go: linkOperations, linkOperation"]}
{"id": "C67", "title": "A call through the mesh is routed to the exported operation", "statement": "A call made on the mesh or by a module through the mesh arrives at the exporting instance with the index of the exported operation, and with the rest of its metadata unchanged.", "quantifier": "for all destinations and all metadata", "why_tests_cant": "needs metadata of every length", "anchors": ["go/transport/wasmrs/mesh/mesh.go: destination.RequestResponse, FireAndForget, RequestStream, RequestChannel"]}
{"id": "C68", "title": "Go and Rust peers send the same bytes", "statement": "For one frame, the Go library and the Rust library put exactly the same bytes on the wire.", "quantifier": "for all frames of all kinds with legal ids and lengths", "why_tests_cant": "no test compares the two implementations, and there are unboundedly many frames", "anchors": ["rust/crates/wasmrs/src/frames: encode", "go/internal/frames: Encode"]}
{"id": "C69", "title": "Go and Rust peers read the same frame", "statement": "From one byte string, the Go library and the Rust library read the same frame, or both report that it is none; so a frame sent by either is received unchanged by the other.", "quantifier": "for all byte strings and all frames", "why_tests_cant": "every byte string, also hostile ones, through two implementations", "anchors": ["rust/crates/wasmrs/src/frames: decode", "go/transport/rsocket/tcp_conn.go:36-96"]}
{"id": "C70", "title": "Go and Rust modules understand each other's operation tables", "statement": "An operation table written by a Rust module is read by a Go host with the same entries, and the other way round.", "quantifier": "for all tables of operations", "why_tests_cant": "no test reads in one language what the other wrote", "anchors": ["rust/crates/wasmrs/src/operations.rs: encode, decode", "go/operations/operatons.go:66-150"]}
{"id": "C71", "title": "Calls of a Rust socket have their own stream ids", "statement": "Each call made through a Rust socket has its own stream id, which is not zero and which the peer never uses for a call of its own.", "quantifier": "for all runs of a socket: any calls, frames and tasks in any order", "why_tests_cant": "needs every interleaving, and more calls than a test can make", "anchors": ["rust/crates/wasmrs/src/socket.rs: next_stream_id, fire_and_forget, request_response, request_stream, request_channel"]}
{"id": "C72", "title": "A Rust caller sees what the peer sent for its call", "statement": "Whoever made a call through a Rust socket receives exactly the results the frames for its stream carry, in order, up to the first frame that ends the stream, whatever happens on other streams.", "quantifier": "for all runs of a socket and all frames, in any order", "why_tests_cant": "needs every interleaving of frames, calls and tasks", "anchors": ["rust/crates/wasmrs/src/socket.rs: on_payload, on_error, on_cancel, process_once"]}
{"id": "C73", "title": "Frames cannot crash a Rust socket", "statement": "A Rust socket handles any frame at any time without panicking.", "quantifier": "for all states of a socket and all frames", "why_tests_cant": "needs callers that lose interest before the frame arrives", "anchors": ["rust/crates/wasmrs/src/socket.rs: process_once, on_cancel, on_error"]}
{"id": "C74", "title": "A Rust socket answers a request with what its handler yields", "statement": "The payload and error frames sent for a request are what its handler yields, in order and in the form RSocket prescribes: one payload, or elements followed by a single end.", "quantifier": "for all requests, all handlers and all runs of the socket around them", "why_tests_cant": "needs every interleaving with other streams and handlers that fail half-way", "anchors": ["rust/crates/wasmrs/src/socket.rs: on_request_response, on_request_stream, on_request_channel, on_request_fnf"]}
{"id": "C75", "title": "A Rust channel call sends no more than was asked for", "statement": "A channel call made through a Rust socket sends, after the element its request carries, at most as many elements as the peer asked for.", "quantifier": "for all sources of elements, all demand and all runs of the socket around them with fewer than 2^31 calls before and after, if the peer makes no request under the id of the call", "why_tests_cant": "needs every interleaving of demand and elements", "anchors": ["rust/crates/wasmrs/src/socket.rs: request_channel, on_request_n"]}
{"id": "C76", "title": "Demand told to a Rust socket lets elements through", "statement": "Demand that a peer tells a Rust socket for a stream lets that many elements of the stream through.", "quantifier": "for all streams, all demand and all runs of the socket around them", "why_tests_cant": "needs every interleaving of demand and elements", "anchors": ["rust/crates/wasmrs/src/socket.rs: on_request_n, request_channel, on_request_stream"]}
{"id": "C77", "title": "A caller sees what the peer sent for its call", "statement": "Whoever made a call through the Go handler is told exactly what the payload, error and cancel frames for its stream mean, in order, up to the first frame that ends the stream, whatever happens on other streams.", "quantifier": "for all executions of a connection, all calls and all frames", "why_tests_cant": "needs every interleaving of frames, local calls, requests of the peer and goroutines", "anchors": ["go/handler/handler.go: HandleFrame, registerStream, removeStream, getStream", "go/proxy/mono.go:66-72", "go/proxy/flux.go:129-134"]}
{"id": "C78", "title": "A payload that was cut off is reported by the transforms", "statement": "Decoding a payload made by one of the built-in transforms and then cut off anywhere before its end reports an error instead of yielding a value nobody sent.", "quantifier": "for all transforms, all values and all places to cut", "why_tests_cant": "needs every length of every value", "anchors": ["go/transform/transform.go: StringDecode, MsgPackDecode, SliceDecode"]}
{"id": "C79", "title": "The request function of a source runs once at a time", "statement": "The Request function a flux source gave to OnSubscribe is never called for a subscriber while an earlier call for that subscriber is still running, so a source needs no lock of its own.", "quantifier": "for all sources, all subscribers and all schedules of goroutines", "why_tests_cant": "needs every interleaving of goroutines started by Request", "anchors": ["go/rx/flux/flux_host.go: doRequest", "go/rx/flux/flux_webassembly.go: doRequest", "go/rx/flux/flux.go: Request"]}
{"id": "C80", "title": "The two ends of a connection never choose the same stream id", "statement": "A call made at one end of a connection never gets the stream id of a call made at the other end, so that frames about the two calls cannot be confused.", "quantifier": "for all executions, all calls, both language implementations at either end", "why_tests_cant": "needs call counts no test reaches, and all pairings of implementations", "anchors": ["go/internal/socket/stream_id.go: ClientStreamIDs, ServerStreamIDs", "rust/crates/wasmrs/src/socket.rs: next_stream_id", "rust/crates/wasmrs-guest/src/guest.rs", "rust/crates/wasmrs-host/src/host.rs"]}
{"id": "C81", "title": "A WebAssembly host or guest handles every request exactly once, by the operation it names", "statement": "Over any sequence of bytes received, scheduling of the work they cause and local calls, the handlers a WebAssembly host or guest has run and the error frames it has sent for requests, together with the requests it still has to work on, are exactly those demanded by the requests received: each is given to the handler registered under the kind and index it names, with its data, or refused if there is none; none is lost, doubled or run by another operation. A guest does so in the order of arrival.", "quantifier": "all tables of handlers, all byte strings as received frames, all interleavings of goroutines and local calls, both ends", "why_tests_cant": "Handling is spread over goroutines that run in any order; a test sees a few schedules of a few requests, not that the multiset of reactions is right for all.", "anchors": ["go/transport/wasmrs/host/instance.go:254-667", "go/transport/wasmrs/guest/guest.go:100-491"]}
{"id": "C82", "title": "Bytes from the other end of a WebAssembly boundary cannot crash a host or guest", "statement": "Whatever bytes a guest sends its host, or a host its guest, receiving them never panics; frames for streams that were never opened change nothing, and demand for a stream being served reaches it.", "quantifier": "all reachable states of either end, all byte strings", "why_tests_cant": "The crashing inputs depend on the state of the streams; a test would have to try every frame against every reachable table of streams.", "anchors": ["go/transport/wasmrs/host/instance.go:254-425", "go/transport/wasmrs/guest/guest.go:121-293", "go/internal/frames/"]}
{"id": "C83", "title": "A call made while serving a call runs under the context of the first one", "statement": "When local code of a host calls an operation of its guest under a context, and the handler of that operation makes a call through generated code, the host runs the operation so called under the context local code gave, as long as the first call is open.", "quantifier": "all reachable states of the host in which the call is open, all contexts, ids, operations and requests", "why_tests_cant": "The context is found through a stream id carried in metadata across two dispatchers and tables that change concurrently; tests exercise single nested calls without others in flight.", "anchors": ["go/transport/wasmrs/host/instance.go:427-611", "go/transport/wasmrs/guest/guest.go:297-354", "codegen/src/tinygo/invokers_visitor.ts:185-190", "go/proxy/stream.go:19-30"]}
{"id": "C84", "title": "A caller in a WebAssembly host or guest is told exactly what the other end sends for its call", "statement": "While a call is open, its stream is told exactly the elements, errors and ends the frames with its id contain, in order, whatever other frames, calls and goroutines come in between; bytes that are a PAYLOAD, ERROR or CANCEL frame for it are handled without panic.", "quantifier": "all executions in which the id was not used before, all byte strings received, all interleavings, both ends", "why_tests_cant": "Other streams, served requests and removed entries share the tables; a test cannot cover all interleavings of frames for other ids.", "anchors": ["go/transport/wasmrs/host/instance.go:254-425", "go/transport/wasmrs/guest/guest.go:121-293", "go/proxy/mono.go:42-72", "go/proxy/flux.go:52-63"]}
{"id": "C85", "title": "Times of UUIDs convert to and from Unix time", "statement": "A time read from the clock is the time since 15 October 1582 in units of 100 ns, and converting it with UnixTime gives back the Unix time of the clock up to 100 ns, before as after 1970; the time and the clock sequence put into a version 1 UUID are read back by Time and ClockSequence.", "quantifier": "all clock readings that fit 64-bit nanoseconds, all states of the generator, all 60-bit times and 14-bit sequences", "why_tests_cant": "Wrap-around of unsigned time and the signs of remainders differ before 1970 and near the ends of the range; sampled times miss them.", "anchors": ["go/types/uuid/time.go:35-40", "go/types/uuid/time.go:51-67", "go/types/uuid/time.go:112-123"]}
{"id": "C86", "title": "A MessagePack map that repeats a key keeps the last value", "statement": "Reading a dynamic value that is a map with string keys, in which keys may occur more than once, gives a map with every key once, whose value is the last one given for it, whatever surrounds it.", "quantifier": "all lists of entries with readable values, all valid encodings of them, all surrounding bytes", "why_tests_cant": "No encoder of the project writes a repeated key, so round-trip tests never produce one.", "anchors": ["go/msgpack/decoder.go:708-835", "go/msgpack/decoder.go:839-852"]}
{"id": "C87", "title": "Every frame a connection delivers is handled before Start returns", "statement": "Frames read from a connection are given to the handler one at a time, in the order they were read, none twice; when Start returns, for whatever reason, every frame read has been handled.", "quantifier": "all sequences of reads, results of the handler, cancellations, calls of Close and interleavings of the reader, the worker and the buffer between them", "why_tests_cant": "Whether the last frames are drained depends on where the worker is when the reader disposes of the buffer; tests see only one schedule.", "anchors": ["go/transport/rsocket/transport.go:153-213", "go/internal/buffer/unbounded.go:34-102"]}
{"id": "C88", "title": "A connection ends when told to and is closed exactly once", "statement": "When its context is cancelled, a frame cannot be handled, or the peer closes the connection or sends something unreadable, Start returns, with the error that ended it; the underlying connection is closed once however many goroutines call Close, and never before Start or Close says so.", "quantifier": "all reachable states of the reader, worker and buffer, all further events", "why_tests_cant": "Deadlocks between disposing of the buffer, draining it and waiting for the worker occur in few of the interleavings.", "anchors": ["go/transport/rsocket/transport.go:129-134", "go/transport/rsocket/transport.go:153-213"]}
{"id": "C89", "title": "Demand told to a WebAssembly host or guest reaches the source", "statement": "When a host or guest serves a stream or channel, the initial demand of the request and every further demand the caller sends, until the stream ends, is passed to the source the handler returned.", "quantifier": "all ends, handlers, requests, demands and further events in any order", "why_tests_cant": "Demand races with the goroutine that runs the handler, so that tests see only schedules in which it arrives late.", "anchors": ["go/transport/wasmrs/host/instance.go:339-357", "go/transport/wasmrs/host/instance.go:491-611", "go/transport/wasmrs/guest/guest.go:205-223", "go/transport/wasmrs/guest/guest.go:356-465"]}
{"id": "C90", "title": "A module written in Rust reads exactly the frames its host writes", "statement": "Frames a host writes one after the other into the buffer of a Rust module are handed to the module's socket: the same frames, in order, each once, whatever else the buffer holds; and a host writes nothing outside the buffer the module gave it.", "quantifier": "all lists of legal frames with UTF-8 error texts, all contents of the memory, all states of the socket, hosts written in Go and in Rust", "why_tests_cant": "Batches arise when a host queues frames while the module runs; frame lengths near the size of the buffer are not exercised.", "anchors": ["rust/crates/wasmrs-guest/src/guest.rs:163-212", "rust/crates/wasmrs-wasmtime/src/memory.rs:33-52", "rust/crates/wasmrs-wasmtime/src/engine_provider.rs:115-173", "rust/crates/wasmrs/src/util.rs:46-54"]}
{"id": "C91", "title": "What a module written in Rust sends reaches its host", "statement": "Every frame a Rust module sends is read by its host, in Go or in Rust, as exactly that frame.", "quantifier": "all frames, all sizes of the buffer, all contents of the memory", "why_tests_cant": "The behaviour changes when a frame is within three bytes of the size of the buffer or larger; tests send small frames.", "anchors": ["rust/crates/wasmrs-guest/src/guest.rs:236-254", "rust/crates/wasmrs-wasmtime/src/memory.rs:21-31", "go/transport/wasmrs/host/instance.go:230-244"]}
{"id": "C92", "title": "The index a Rust module advertises runs the handler registered under the name", "statement": "A Rust module's operation list has one export for each registered handler, of its kind and names; a request of that kind with the advertised index, made by a Go or a Rust caller, runs that handler with the request's data, and a request with an unknown index is answered with an error.", "quantifier": "all sequences of registrations and imports of all kinds, all names (also repeated ones), all requests", "why_tests_cant": "Indexes are counted per kind while the list is common to all kinds; tests register one or two operations.", "anchors": ["rust/crates/wasmrs-guest/src/guest.rs:219-330", "rust/crates/wasmrs-guest/src/server.rs:40-141", "rust/crates/wasmrs/src/frames/metadata.rs:13-22", "rust/crates/wasmrs/src/frames/mod.rs:299-307"]}
{"id": "C93", "title": "No request crashes a Rust module", "statement": "Whatever metadata and data a request or an element of a channel has, a Rust module runs a handler or answers with an error; it does not panic.", "quantifier": "all modules, kinds of requests, metadata and data", "why_tests_cant": "Callers in the project always add metadata of eight bytes to requests, so tests never send less.", "anchors": ["rust/crates/wasmrs-guest/src/server.rs:40-141", "rust/crates/wasmrs-guest/src/guest.rs:103-108", "rust/crates/wasmrs/src/frames/mod.rs:299-307"]}
{"id": "C94", "title": "Closing a server stops it", "statement": "Once Close was called on a server, or its context has ended, it listens no more: the listener is closed, all connections it accepted are closed, no further one is served, and Listen returns.", "quantifier": "all interleavings of Listen, calls of Close, the end of the context, connections arriving and ending", "why_tests_cant": "Close races with Listen before the listener is there and with connections that are just being accepted; tests close an idle server.", "anchors": ["go/transport/rsocket/tcp_transport.go:32-109", "go/transport/rsocket/tcp_transport.go:117-131"]}
{"id": "C95", "title": "A server serves every connection it accepts and forgets those that ended", "statement": "Until it is closed, a server starts a transport for every connection it accepts; of a connection that has ended nothing is kept.", "quantifier": "all numbers and orders of connections arriving and ending", "why_tests_cant": "Keeping ended connections only shows as growing memory in a server that runs for long.", "anchors": ["go/transport/rsocket/tcp_transport.go:79-131"]}
{"id": "C96", "title": "Generated codecs read back what they wrote", "statement": "For every interface definition, ToBytes of a value of a generated type or union succeeds and Decode of the result returns the same value; nil slices and maps may come back empty. The order in which maps are visited does not matter.", "quantifier": "all sets of type definitions (mutually recursive types, optional fields, lists, maps, enums, aliases, unions) and all values of them", "why_tests_cant": "Tests exercise a few generated types; the code is generated anew for each interface.", "anchors": ["codegen/src/tinygo/msgpack_encoder_visitor.ts:21-93", "codegen/src/tinygo/msgpack_decoder_visitor.ts:18-78", "codegen/src/tinygo/msgpack_helpers.ts:55-467", "go/msgpack/codec.go:11-22"]}
{"id": "C97", "title": "Interfaces can evolve", "statement": "A message written by a program generated from one version of an interface is read by one generated from another version in which fields were added, removed or reordered: common fields keep their values, fields missing from the message are zero, unknown fields are passed over, at any depth.", "quantifier": "all pairs of definitions that give common fields the same type, and all values", "why_tests_cant": "Compatibility involves two versions of generated code; tests have one.", "anchors": ["codegen/src/tinygo/msgpack_decoder_visitor.ts:18-78", "codegen/src/tinygo/msgpack_helpers.ts:55-287", "go/msgpack/decoder.go:592-706"]}
{"id": "C98", "title": "Generated codecs write standard MessagePack", "statement": "ToBytes makes a MessagePack map from field names to values, for a union the map with its present member only, with enums as integers, times as the timestamp extension and nil for absent optional fields; nothing follows it but zero bytes if the value contains a byte string of 255 bytes.", "quantifier": "all sets of type definitions and all values of them", "why_tests_cant": "That other implementations can read every value is not visible to tests that use the same library for reading.", "anchors": ["codegen/src/tinygo/msgpack_encoder_visitor.ts:21-93", "codegen/src/tinygo/msgpack_helpers.ts:299-467", "go/msgpack/codec.go:11-22"]}
{"id": "C99", "title": "A union carries its first member", "statement": "A union with several members set is written as the first of them, which is the only one that comes back; one without members comes back without members.", "quantifier": "all unions and values", "why_tests_cant": "The Go type allows any combination of members; tests set one.", "anchors": ["codegen/src/tinygo/msgpack_encoder_visitor.ts:55-93", "codegen/src/tinygo/msgpack_decoder_visitor.ts:18-78"]}
{"id": "C100", "title": "Generated decoders survive any input", "statement": "Decode of a generated type returns a value or an error on every input, after work proportional to its size; it never panics or runs on.", "quantifier": "all sets of type definitions and all byte sequences", "why_tests_cant": "Hostile messages are unlimited in number; tests use well-formed ones.", "anchors": ["codegen/src/tinygo/msgpack_decoder_visitor.ts:18-78", "codegen/src/tinygo/msgpack_helpers.ts:55-287", "go/msgpack/convert/convert.go:73-100"]}
{"id": "C101", "title": "Generated decoders reject messages cut short", "statement": "A proper prefix of a message is never accepted by Decode: it returns an error.", "quantifier": "all sets of type definitions, values and lengths", "why_tests_cant": "Tests decode whole messages.", "anchors": ["codegen/src/tinygo/msgpack_decoder_visitor.ts:18-78", "go/msgpack/decoder.go:592-706", "go/msgpack/data_reader.go:239-249"]}
{"id": "C102", "title": "A Rust Flux delivers every value once and in order", "statement": "However a Flux of the wasmrs-rx crate is cloned, read (recv, poll_next), its receiver taken, its handles dropped: the values received are, in order and without repetition, those whose send returned Ok, and a reader that goes on reading gets all of them.", "quantifier": "all sequences of calls on a Flux made by new or new_channels, its clones, receivers and pending futures; all values", "why_tests_cant": "the receiver moves between shared cells and futures; which call sees it depends on the interleaving", "anchors": ["rust/crates/wasmrs-rx/src/flux.rs", "rust/crates/wasmrs-rx/src/flux/receiver.rs"]}
{"id": "C103", "title": "A Rust Flux ends when it is completed", "statement": "A reader of a Flux is told that the stream has ended (None) only after complete was called or all senders are gone, and gets nothing after that.", "quantifier": "all sequences of calls on a Flux, its clones and receivers", "why_tests_cant": "needs overlapping reads and sends after the end", "anchors": ["rust/crates/wasmrs-rx/src/flux.rs:218-229", "rust/crates/wasmrs-rx/src/flux/receiver.rs:65-99"]}
{"id": "C104", "title": "Waiting on a Rust Flux can be given up", "statement": "A reader that stops waiting for the next value (drops the future of recv, or polls no more) loses no value, and the Flux can be used on.", "quantifier": "all sequences of calls on a Flux in which a reader stops waiting", "why_tests_cant": "dropping a pending future is what timeouts and select do; the tests never do it", "anchors": ["rust/crates/wasmrs-rx/src/flux/receiver.rs:65-82"]}
{"id": "C105", "title": "A Rust Mono resolves once", "statement": "A Mono to which values are pushed resolves to the first of them, at the first poll after it; it is pending before, and a second push or a poll after it resolved panics rather than change the value.", "quantifier": "all sequences of success, error and poll on a Mono made by new", "why_tests_cant": "all interleavings of pushes and polls", "anchors": ["rust/crates/wasmrs-rx/src/flux.rs:78-123"]}
{"id": "C106", "title": "A pipe passes the values on to the Flux it is piped into", "statement": "flux.pipe(into) makes the values of the source arrive at the Flux given, in order.", "quantifier": "all sources, all numbers of polls", "why_tests_cant": "the only test reads the pipe itself and never looks at the Flux it is piped into", "anchors": ["rust/crates/wasmrs-rx/src/flux/ops/pipe.rs", "rust/crates/wasmrs-rx/src/flux/observable.rs:13-16"]}
{"id": "C107", "title": "An instance has the operations of its module", "statement": "After a module has been started, Operations() of the instance lists exactly what the module exported, each under an index that leads to the handler exported under that name and kind; a module whose table cannot be read is not started.", "quantifier": "all histories of exports and imports of the module, all things it does before it is asked for its operations, all memory contents", "why_tests_cant": "all histories and memory contents, and tables of versions that do not exist yet", "anchors": ["go/transport/wasmrs/host/instance.go:224-228", "go/transport/wasmrs/guest/guest.go:62-103", "go/operations/operatons.go:66-150"]}
{"id": "C108", "title": "Starting a module gives an instance or an error", "statement": "Instantiate returns an instance or an error for every module, whatever it exports and whatever its functions do.", "quantifier": "all modules: exports, memory, stores and calls of host functions in all their start functions", "why_tests_cant": "all behaviours of untrusted modules", "anchors": ["go/transport/wasmrs/host/instance.go:64-102", "go/transport/wasmrs/host/host.go:76-121"]}
{"id": "C109", "title": "Frames sent while a module starts are kept", "statement": "The frames a module sends from its start functions are handled after the start, all of them, in the order they were sent.", "quantifier": "all lists of frames sent during initialisation and while operations are listed", "why_tests_cant": "needs modules that send while they start, in any number", "anchors": ["go/transport/wasmrs/host/instance.go:74-98, 230-252"]}
{"id": "C110", "title": "A host can run several modules", "statement": "A host starts each module it is given, and starts them again, independently of the modules it started before.", "quantifier": "all sequences of modules", "why_tests_cant": "the tests and the programs start one module per host", "anchors": ["go/transport/wasmrs/host/host.go:20-83", "go/transport/wasmrs/host/instance.go:104-108"]}
{"id": "C111", "title": "The last of repeated entries counts", "statement": "If a message has a map key or a field more than once, the generated decoder gives the map or field the value of its last occurrence, as if the earlier ones were not there.", "quantifier": "all type definitions, all lists of entries or fields with repetitions", "why_tests_cant": "the tests decode only what the encoder wrote, which repeats nothing", "anchors": ["codegen/src/tinygo/msgpack_helpers.ts:159-212", "codegen/src/tinygo/msgpack_decoder_visitor.ts:22-77"]}
{"id": "C112", "title": "Both ends of a generated call agree", "statement": "If the generated wrapper and the generated importing function of an operation both compile, they name the same operation of the same kind, the handler gets the arguments and stream elements the caller gave, and the caller gets the results the handler gave, except that nil slices and maps have become empty ones.", "quantifier": "all operations, all type definitions, all values", "why_tests_cant": "the tests have no generated code of both ends, and the operations are unbounded", "anchors": ["codegen/src/tinygo/wrappers_visitor.ts:80-330", "codegen/src/tinygo/utilities.ts:17-79", "codegen/src/tinygo/register_visitor.ts:40-70", "codegen/src/tinygo/import_visitor.ts:95-245", "go/transform/transform.go"]}
{"id": "C113", "title": "Generated calls compile", "statement": "For every operation that the interface language can express, the generated wrapper and importing function compile against the Go libraries.", "quantifier": "all operations", "why_tests_cant": "needs every combination of kinds and types of parameters and results", "anchors": ["codegen/src/tinygo/wrappers_visitor.ts:80-330", "codegen/src/tinygo/utilities.ts:17-79", "go/transform/transform.go"]}
{"id": "C114", "title": "Names of parameters do not matter", "statement": "Renaming the parameters of an operation does not change whether the generated code compiles.", "quantifier": "all operations, all names", "why_tests_cant": "the names are unbounded", "anchors": ["codegen/src/tinygo/utilities.ts:17-79", "codegen/src/tinygo/wrappers_visitor.ts:80-330"]}
{"id": "C115", "title": "A Rust module leaves no work undone", "statement": "When a call of __wasmrs_send returns, every task of the module that was spawned, or woken since its last poll, has been polled; tasks are polled only then, one at a time, never after their end, also when the host calls the module back while a task calls the host.", "quantifier": "all programs of tasks, all histories of calls of the host", "why_tests_cant": "needs every interleaving of spawning, waking and calling back", "anchors": ["rust/crates/wasmrs-runtime/src/runtime/wasm/mod.rs:13-61", "rust/crates/wasmrs-guest/src/guest.rs:163-196"]}
{"id": "C116", "title": "A Rust module survives a panic", "statement": "After a task of a module has panicked, so that a call trapped, the tasks of later requests are still run.", "quantifier": "all programs of tasks, all histories of calls of the host", "why_tests_cant": "the tests have no task that panics", "anchors": ["rust/crates/wasmrs-runtime/src/runtime/wasm/mod.rs:43-61"]}
{"id": "C117", "title": "Block on a Mono returns its outcome", "statement": "A call of Block on a Mono waits until the Mono succeeds or fails, and then returns the value or the error (for a mapped Mono: the mapped value, or the error of the mapping). Calling Block again gives the same result without running the source again.", "quantifier": "all sources, transforms, other subscribers and interleavings of goroutines, any number of calls of Block", "why_tests_cant": "tests block on a Mono that succeeds at once, from one goroutine", "anchors": ["go/rx/mono/mono_host.go:10-50", "go/rx/mono/mono.go:48-82"]}
{"id": "C118", "title": "Block on a Flux waits for its end", "statement": "A call of Block on a Flux hands all elements to the callbacks of the caller, waits for the end of the stream, and returns nil or the error that ended it; it never panics. Calling it again after the end returns the same result.", "quantifier": "all sources, callbacks, transforms and interleavings, at every point of the life of a Flux", "why_tests_cant": "tests block on streams that complete, once, after Subscribe has been called", "anchors": ["go/rx/flux/flux_host.go:28-59", "go/rx/flux/flux.go:57-61"]}
{"id": "C119", "title": "The result of a call sends the request once", "statement": "However often and in whichever ways the Mono returned by RequestResponse is used (Subscribe, Block, Async, Notify), the request is sent once, and each use is given the answer.", "quantifier": "all sequences of uses and answers, all interleavings", "why_tests_cant": "tests use each result exactly once", "anchors": ["go/proxy/mono.go:57-77", "go/proxy/mono_host.go:11-33", "go/rx/mono/processor.go:1-43"]}
{"id": "C120", "title": "A Flux processor loses nothing", "statement": "What is pushed into a processor reaches its subscribers: all elements, in order, and the end, for each subscriber from the first push on.", "quantifier": "all interleavings of pushes and subscriptions, any number of subscribers", "why_tests_cant": "the processor has no tests; its callers subscribe before they push", "anchors": ["go/rx/flux/processor.go:1-51"]}
{"id": "C121", "title": "A Rust host knows the operations of a module", "statement": "After a module is started, get_export and get_import of the Rust host find exactly the operations of the table that the module handed over last, each under its name with its index; a module that hands over none has none. Nothing but the module changes this later.", "quantifier": "all modules, whatever their start functions do, and all later runs", "why_tests_cant": "the tests of the Rust host start one module", "anchors": ["rust/crates/wasmrs-host/src/host.rs:34-45", "rust/crates/wasmrs-wasmtime/src/store.rs:46-71", "rust/crates/wasmrs-wasmtime/src/engine_provider.rs:134-183"]}
{"id": "C122", "title": "Starting a module never crashes the Rust host", "statement": "Whatever a module exports and does while it is started, new_context of the Rust host returns a context or an error.", "quantifier": "all modules, memories and behaviours of the start functions", "why_tests_cant": "tests start modules that behave", "anchors": ["rust/crates/wasmrs-wasmtime/src/engine_provider.rs:91-111", "rust/crates/wasmrs-wasmtime/src/engine_provider.rs:156-183", "rust/crates/wasmrs-wasmtime/src/wasmrs_wasmtime.rs:42-137", "rust/crates/wasmrs-wasmtime/src/memory.rs:6-30"]}
{"id": "C123", "title": "A module's calls of the Rust host are answered", "statement": "A module that calls an operation of the Rust host, of any of the four kinds, gets a result, an end or an error for it, and the host goes on working.", "quantifier": "all modules, all runs", "why_tests_cant": "no module of the tests calls the host", "anchors": ["rust/crates/wasmrs-host/src/host.rs:55-73", "rust/crates/wasmrs/src/socket.rs:170-256"]}
{"id": "C124", "title": "Nothing a module does stops the Rust host", "statement": "Whatever a module does with the frames it is handed, including traps, large answers and errors for calls nobody waits for any more, the host hands over further frames, and further calls of local code do not crash it.", "quantifier": "all modules, all runs, all interleavings with local code that calls and gives up waiting", "why_tests_cant": "tests end after the first failure", "anchors": ["rust/crates/wasmrs-host/src/host.rs:47-53", "rust/crates/wasmrs-wasmtime/src/engine_provider.rs:115-132", "rust/crates/wasmrs/src/socket.rs:326-360"]}
{"id": "C125", "title": "The Rust host hands over frames in order and callers get what the module sends", "statement": "The frames that the socket of the Rust host sends reach the module in that order, each once; and local code that calls a module gets exactly the results that the frames of the module on its stream bring, in order, and learns of the end, be it a failure of the module.", "quantifier": "all modules, all runs, all calls", "why_tests_cant": "tests make one call at a time", "anchors": ["rust/crates/wasmrs-host/src/host.rs:47-53", "rust/crates/wasmrs-wasmtime/src/engine_provider.rs:115-132", "rust/crates/wasmrs-wasmtime/src/store.rs:29-40"]}
{"id": "C126", "title": "An ended call leaves nothing behind on a connection", "statement": "When a call that a Go connection makes or serves has ended, by the answer, the last element, an error or a cancellation, the connection keeps no entry for its stream, so that a connection that lives long does not grow with the number of calls it carried.", "quantifier": "all operation tables, all sequences of frames and local calls, all interleavings of the tasks", "why_tests_cant": "a leak of one entry per call shows only after very many calls, and tests look at answers, not at the tables", "anchors": ["go/handler/handler.go:79-93", "go/handler/handler.go:214-228", "go/handler/handler.go:232-400", "go/proxy/mono.go:66-72", "go/proxy/flux.go:128-133"]}
{"id": "C127", "title": "An awaited operation runs and reports back", "statement": "When code awaits an operation (Async, then Notify, as the steps of a flow do), the operation is started, every function handed to Notify is called exactly once when the operation has ended, with the signal of its outcome, and Get then returns that outcome.", "quantifier": "all operations, all numbers of functions handed over before, while and after the operation ends, all interleavings", "why_tests_cant": "tests await operations that somebody else has already started", "anchors": ["go/rx/await/await.go:9-12", "go/rx/flow/flow.go:110-113", "go/proxy/mono.go:54-72", "go/rx/mono/mono.go:120-142", "go/rx/flux/flux.go:99-107"]}
{"id": "C128", "title": "Finally is called once when an operation has ended", "statement": "The Finally handler that a subscriber hands over is called exactly once, after the operation has told its outcome, for every kind of mono and flux that the library offers.", "quantifier": "all kinds of monos and fluxes, all handlers, all outcomes", "why_tests_cant": "a handler that is not called leaves no trace", "anchors": ["go/rx/mono/mono.go:41-46", "go/rx/mono/mono.go:73-78", "go/rx/mono/mono.go:157-197", "go/rx/flux/flux.go:44-49"]}
{"id": "C129", "title": "A generated Rust module serves the operations of its services", "statement": "The module that the Rust generator produces from a document exports exactly one operation for each operation declared in the document's services, under the document's namespace, the interface's name and the operation's name, with the kind that follows from its parameters and result; and a request made with the index advertised for it runs the wrapper of that operation and no other.", "quantifier": "all documents whose generated code compiles, all numbers and kinds of operations and interfaces, all request bytes", "why_tests_cant": "the repository has one example document; a permutation of the groups would go unnoticed in it", "anchors": ["codegen/src/rust/visitors/service-visitor.ts:1-262", "codegen/src/rust/visitors/base.ts:1-59", "codegen/src/rust/default-visitor.ts:1-177", "codegen/src/rust/utils/mod.ts:1-85"]}
{"id": "C130", "title": "A generated Rust client calls the operation it is named after", "statement": "The module advertises one import for each operation declared in the document's providers, under its names and with its kind, and the function generated for it makes a request of this kind with the index of this import, so that a host reaches the operation of this name whenever some module exports it. Documents whose operations have different names produce modules that can be built.", "quantifier": "all documents, all operations, all sets of other modules and load orders", "why_tests_cant": "tests load one module with one import", "anchors": ["codegen/src/rust/visitors/provider-visitor.ts:1-186", "codegen/src/rust/default-visitor.ts:1-177", "go/transport/wasmrs/mesh/mesh.go:1-200"]}
{"id": "C131", "title": "The wrapper of a generated Rust stream passes on what the implementation sends", "statement": "What the implementation of a stream operation sends is passed to the caller as soon as it is sent, in order, each element as its serialized form, an element that cannot be serialized as an error; the stream ends when the implementation completes it or drops its senders; if the implementation fails, the caller hears what was sent before and then the error.", "quantifier": "all sequences of sends, clones and drops, all interleavings of implementation and wrapper, all serializers", "why_tests_cant": "tests use implementations that send everything and complete at once", "anchors": ["codegen/src/rust/visitors/service-visitor.ts:156-236"]}
{"id": "C132", "title": "The wrapper of a generated Rust channel connects caller and implementation", "statement": "What the implementation of a channel sends reaches the caller in order, what the caller sends reaches the implementation in order, decoded, each direction ends when its sender ends it, and an error on either side is told to the other.", "quantifier": "all sequences on both directions, all interleavings, all serializers and deserializers", "why_tests_cant": "no test runs a channel whose caller fails", "anchors": ["codegen/src/rust/visitors/service-visitor.ts:156-236"]}
{"id": "C133", "title": "A Rust client and a Go service generated from one document agree on the arguments", "statement": "If a module generated in Rust calls an operation of a service generated in Go from the same document, the handler of the service is called with the arguments that the caller gave.", "quantifier": "all documents, all operations, all argument values, all standard serializations of them", "why_tests_cant": "the two generators are tested separately and only against themselves", "anchors": ["codegen/src/rust/visitors/provider-visitor.ts:90-186", "codegen/src/tinygo/wrappers_visitor.ts:185-271", "codegen/src/tinygo/msgpack_visitor.ts:43-61"]}
{"id": "C134", "title": "Calls do not end the connection they are made on", "statement": "If both ends of a connection use this library, no call that local code makes through it — of whatever kind, to an operation the other end has or not — makes HandleFrame of either end fail or panic, so the connection and the other calls on it go on.", "quantifier": "all runs of two connected handlers, any number and kinds of calls in both directions, any interleaving of goroutines", "why_tests_cant": "a test makes a few calls to operations that exist; whether a late or unexpected frame arrives depends on the order of goroutines and on what is registered at the other end", "anchors": ["go/handler/handler.go:107-230", "go/handler/handler.go:269-289", "go/handler/caller.go:44-53", "go/transport/rsocket/transport.go:144-163"]}
{"id": "C135", "title": "Every call is answered exactly once", "statement": "The caller of a request-response operation is told exactly one result once the request has been sent, handled and answered, and never more than one; a fire-and-forget call starts its handler exactly once.", "quantifier": "all runs of two connected handlers, any number of calls in both directions, any interleaving of goroutines and any order of answers", "why_tests_cant": "lost, doubled or crossed answers show only for particular interleavings of several calls", "anchors": ["go/handler/handler.go:107-289", "go/handler/caller.go:33-53", "go/proxy/mono.go:66-72"]}
{"id": "C136", "title": "Streams arrive from end to end", "statement": "The subscriber of a request-stream call sees exactly what the handler's flux on the other side emitted: the same payloads in the same order, then the end the flux came to, with an error carried as its text. This holds whatever else both connections carry meanwhile, however frames are flushed and however the bytes are cut into reads.", "quantifier": "All sources, transforms and goroutine interleavings on the responding side, all other traffic, all ways of flushing and cutting into reads, all executions of the calling connection and all interleavings of the subscriber.", "why_tests_cant": "A test runs a few streams over one pipe. The claim is about every interleaving of the source, the other users of both connections, the read sizes and the local subscriber.", "anchors": ["go/handler/handler.go:291-337", "go/handler/handler.go:107-230", "go/proxy/flux.go:12-62", "go/rx/flux/flux.go:79-172", "go/rx/flux/flux.go:216-256", "go/transport/rsocket/tcp_conn.go: Write, Read"]}
{"id": "C137", "title": "Generated Go files import the packages they use, and no others", "statement": "The file of wrappers and the file of importing functions that the TinyGo generator writes for a namespace import each package at most once, import every package that their code names, and import no package that their code does not name (the Go compiler refuses either).", "quantifier": "For all namespaces: any interfaces and functions with any annotations (service, other handlers, provider, nocode), parameters, streams and results, whose wrappers and functions compile by themselves.", "why_tests_cant": "The generator's only test compares the output for one definition. Whether imports fit depends on the combination of all operations of a namespace, their annotations and types.", "anchors": ["codegen/src/tinygo/export_visitor.ts:33-131", "codegen/src/tinygo/import_visitor.ts:40-326", "codegen/src/tinygo/wrappers_visitor.ts:48-332", "codegen/src/tinygo/invokers_visitor.ts:46-282"]}
{"id": "C138", "title": "The input of a channel arrives from end to end", "statement": "The handler of a request-channel call, subscribed to the flux it is given, sees exactly what the caller's input flux emitted: the same payloads in the same order, then the end the input came to, with an error carried as its text. This holds whatever else both connections carry meanwhile, however frames are flushed and however the bytes are cut into reads.", "quantifier": "All sources and transforms of the input, all other traffic, all ways of flushing and cutting into reads, all executions of the responding connection and all interleavings of the handler.", "why_tests_cant": "A test runs a few channels over one pipe. The claim is about every interleaving of the input, the other users of both connections, the goroutine of the request and the handler.", "anchors": ["go/proxy/flux.go:76-116", "go/handler/handler.go:339-400", "go/handler/handler.go:107-230", "go/handler/handler.go:679-715", "go/rx/flux/flux.go:79-172"]}
{"id": "C139", "title": "Demand arrives from end to end", "statement": "What the subscriber of a stream or channel call asks for is what the flux serving the call on the other side is asked for: every request once, none lost, none made up and none given to another stream.", "quantifier": "All sequences of requests of the subscriber, all other traffic, all ways of flushing and cutting into reads, all executions of the responding connection with goroutines in any order.", "why_tests_cant": "Demand is carried by a goroutine of its own per frame; the claim is about every order of frames and goroutines and any number of requests.", "anchors": ["go/proxy/flux.go:64-126", "go/handler/handler.go:107-160", "go/handler/handler.go:291-400", "go/handler/handler.go:697-703"]}
{"id": "C140", "title": "Each direction of a channel ends on its own", "statement": "When one side of a channel has completed its direction, or it has failed, the other direction goes on: demand for it is honoured and it can be cancelled without harm to other calls.", "quantifier": "All executions of a connection, all streams on it, all frames that end a direction and everything that follows.", "why_tests_cant": "A test completes both directions soon after each other and asks for everything at the start. The claim is about demand and cancellation at every later time.", "anchors": ["go/handler/handler.go:154-228", "go/handler/handler.go:339-400", "go/proxy/flux.go:51-126"]}
{"id": "C141", "title": "A time sent as text is the same instant when it is read", "statement": "Writing a time with TimeToString, TimeToStringPtr or transform.Time and reading it with StringToTime, StringToTimePtr, transform.Time or ReadTime gives the same instant and the same offset from UTC; a nil pointer stays nil; text that is no time gives an error and no value.", "quantifier": "for all instants, nanoseconds and offsets", "why_tests_cant": "dates before year 0 and after 9999, offsets with seconds and all the leap years cannot be tried one by one", "anchors": ["go/msgpack/convert/convert.go:42-67", "go/transform/transform.go:257-275", "go/msgpack/decoder.go:378-389"]}
{"id": "C142", "title": "A flow goes on exactly once however its awaited operations finish", "statement": "When a step of a flow awaits a group of operations, the next step is started exactly once after all of them have finished, also if they finish on different goroutines at the same time.", "quantifier": "for every number of operations and every interleaving of the single reads and writes of the goroutines that end them", "why_tests_cant": "The bad interleavings need two goroutines inside an increment within nanoseconds; a test that runs the group a million times may never see one, and the race detector only reports a race, not that flows stand still or go on twice.", "anchors": ["go/rx/flow/flow.go:87-122"]}
{"id": "C143", "title": "Scaffolded services fit the generated interfaces and main program", "statement": "The scaffold that the TinyGo generator writes for services compiles together with the interfaces and the main program generated from the same definitions: the implementation has the methods of the interface, the main program passes to each constructor what it takes and names the scaffold's package, and the scaffold imports exactly the packages it uses.", "quantifier": "for every namespace (interfaces, operations with and without code, streams, functions, dependencies) and every configuration of the generator", "why_tests_cant": "The one template test compares the output for a single definition without streams, functions or logger, and its scaffold comes from another generator; nothing compiles the output.", "anchors": ["codegen/src/tinygo/scaffold_visitor.ts:57-204", "codegen/src/tinygo/interface_visitor.ts:32-47", "codegen/src/tinygo/main_visitor.ts:49-103"]}
{"id": "C144", "title": "Calls between a WebAssembly host and its guest are answered by their own handlers, once", "statement": "Host and guest call each other at the same time, over one instance, with any number of calls under way. Whatever result a request-response call is told, the handler that the call names produced it, from the data and metadata of this very call (or there is no such handler and the call is told an error). It is told at most one result, and exactly one once nothing of it is under way. A handler is only started for a call of the other end, and for a fire and forget call exactly once if there is one. As long as only these two kinds of call are used, neither end crashes on what the other sends.", "quantifier": "for every table of handlers on either side and every run: any calls of all four kinds by both ends, any order of subscribing, sending, taking up frames, handling and answering, any frames of the streams and channels in between, up to 2^30 calls of either end, each result subscribed to at most once", "why_tests_cant": "The tests make one call from the host at a time and the guest never calls back while it is being called; that answers go to the right caller when both ends use the same two tables of streams is a property of all interleavings.", "anchors": ["go/transport/wasmrs/host/caller.go:31-76", "go/transport/wasmrs/guest/caller.go:37-83", "go/transport/wasmrs/host/instance.go:254-465", "go/transport/wasmrs/guest/guest.go:121-354"]}
{"id": "C145", "title": "Calls between a WebAssembly host and its guest finish", "statement": "However frames are taken up, requests are handled and handlers resolve: if no new calls are made, it comes to an end after a number of steps that is fixed beforehand, and when nothing more can be done, every request-response call that was subscribed to was told exactly one result, its own, and the handler of every fire and forget call has been started exactly once, if it exists. From every state it is possible to get there.", "quantifier": "for every table of handlers on either side, every state two ends can get into with request-response and fire and forget calls, up to 2^30 by an end and each subscribed to at most once, with metadata below 2^24 bytes and frames below 2^32 bytes, and every way to go on from there", "why_tests_cant": "That there is no state from which a call can not be finished (a lost request, a deadlock between host and guest, work that never gets less) is a statement about all states and all ways to go on.", "anchors": ["go/transport/wasmrs/host/caller.go:31-54", "go/transport/wasmrs/guest/caller.go:37-61", "go/transport/wasmrs/host/instance.go:254-465", "go/transport/wasmrs/guest/guest.go:121-354", "go/internal/frames/request_payload.go:32-116"]}
{"id": "C146", "title": "Calls over a connection finish", "statement": "However two peers read frames, run goroutines and resolve handlers: if no new calls are made, it comes to an end after a number of steps that is fixed beforehand, and when nothing more can be done, every request-response call that was subscribed to was told exactly one result, which the other peer produced for what was asked, and the handler of every fire and forget call that was sent has been started exactly once. From every state it is possible to get there.", "quantifier": "for every registry of handlers on either side, every state two peers can get into with request-response calls and fire and forget calls of known operations, up to 2^30 by a peer and each subscribed to at most once, over a connection that hands over frames in order, and every way to go on from there", "why_tests_cant": "That there is no state of a connection from which a call can not be finished (a request that gets lost, an answer nobody waits for that ends the connection, work that never gets less) is a statement about all states and all ways to go on; tests look at single calls.", "anchors": ["go/handler/caller.go:33-73", "go/handler/handler.go:103-264", "go/proxy/mono.go:66-100"]}
{"id": "C147", "title": "Calls over a connection of bytes get their own results, once, and finish", "statement": "Two peers are joined by a TCP connection that hands over the bytes of either side in order, in pieces of any size and whenever it likes. A result told to the caller of a request-response operation is one that the other peer produced for exactly this call. While the peers make simple calls, every frame that was read is handled without an error, a caller is told at most one result, and, if no new calls are made, carrying bytes, reading frames, handling them, running goroutines and resolving handlers comes to an end after a number of steps that is fixed beforehand; when nothing more can be done, every subscribed request-response call was told exactly one result and every fire and forget handler was started exactly once.", "quantifier": "for all calls, data, metadata, registries, results and interleavings of the peers, the network and the readers, and all ways the bytes are cut", "why_tests_cant": "Frames, their encoding, the length prefix, the buffered writer, the scanner and its buffer, the queue of read frames, tables of streams and proxies must fit together for every cut of the bytes and every interleaving; tests exchange a few small frames over a local socket that hands over whole packets.", "anchors": ["go/transport/rsocket/transport.go:96-215", "go/transport/rsocket/tcp_conn.go:38-143", "go/transport/rsocket/decoder.go:28-69", "go/handler/handler.go:103-264", "go/handler/caller.go:33-73"]}
{"id": "C148", "title": "Calls between a host and a guest written in Rust", "statement": "Between a Rust host and a Rust guest that pass each other their frames, a fire-and-forget, request-response or stream call of either end makes the other end run exactly one handler, with the metadata and data the caller gave; the caller is told what this very handler yields, in order (one result, or a stream up to its end or first failure), never anything else, and once all frames are processed and all handlers are done it has been told a result or an end.", "quantifier": "for all interleavings of calls, frames, handler steps and dropped receivers at both ends, all payloads, all numbers of calls in flight up to 2^30-2 per end", "why_tests_cant": "The tests echo one call of each kind over two sockets in one process, one call in flight at a time; the claim is about every interleaving of any number of calls in both directions, where ids, tasks and tables of both ends must agree.", "anchors": ["rust/crates/wasmrs/src/socket.rs:165-335", "rust/crates/wasmrs/src/socket.rs:352-445", "rust/crates/wasmrs/src/socket.rs:517-541"]}
{"id": "C149", "title": "The word counting component counts every word it is sent", "statement": "The example component WordFrequency, given a stream of words on its port words, answers when the stream ends with every word that is not on its list of ignored words, compared in lower case, exactly once and with the number of times it was sent, more frequent words first, on its port counts, then marks the port as complete and ends; it sends nothing before, nothing after, and does not crash.", "quantifier": "for all streams of words, all orders in which Go visits the map and sorts equal counts, all payloads", "why_tests_cant": "There is no test of the components at all, and a run with a handful of words shows one order of the map; the claim is about all streams and about the flags of every payload on the way.", "anchors": ["go/transport/wasmrs/example/wordfrequency/wordfrequency.go:11-71", "go/transport/wasmrs/example/wordfrequency/generated.go:35-119", "go/invoke/portio.go:72-81"]}
{"id": "C150", "title": "Components with one input and one output answer once", "statement": "The example components Concat and Greeter answer the first value sent to their input port with exactly one payload on their output port, holding the text made of the value and marked as the last one, and then end; a value that cannot be read ends them with its error; payloads for other ports and later values change nothing; and if the input ends or fails without a value, they end, too.", "quantifier": "for all sequences of payloads, ends and errors of the input, all values", "why_tests_cant": "There is no test of the components; one greeting shown to work says nothing about inputs that end early, other ports, late values or short metadata.", "anchors": ["go/transport/wasmrs/example/concat/generated.go:36-101", "go/transport/wasmrs/example/concat/concat.go:9-18", "go/transport/wasmrs/example/greeter/generated.go:35-99", "go/transport/wasmrs/example/greeter/greeter.go:9-15"]}
{"id": "C151", "title": "Single-result calls between a Go end and a Rust end get their own results", "statement": "Let a Go end (host or guest) of an instance be joined to a Rust end (guest or host), each encoding and decoding with its own codec, both drawing the same stream ids. Each fire-and-forget or request-response call made in Go runs exactly one handler at the Rust end, with the caller's metadata and data, and the caller in Go is told what this handler yielded; each such call made in Rust starts exactly one handler at the Go end, the one its metadata names, and the caller in Rust is told its result, or that there is no such operation. Nobody is told twice, once everything was taken and done every caller was told, handlers run for no other reason, and no frame of the Rust end crashes the Go end.", "quantifier": "for all runs of both ends, in any interleaving, with at most 2^30-2 calls of each end, all of them request-response or fire and forget (to a Go guest: request-response), frames below 4 GB with metadata below 2^24 bytes, errors of handlers in Go in UTF-8 (what becomes of others is C178)", "why_tests_cant": "both ends use the same ids for their calls, so whether frames are mixed up depends on which calls overlap, and the two codecs and tables are written in different languages", "anchors": ["go/transport/wasmrs/host/instance.go", "go/transport/wasmrs/guest/guest.go", "rust/crates/wasmrs/src/socket.rs"]}
{"id": "C152", "title": "Calls of all kinds between a Go end and a Rust end keep apart", "statement": "In an instance with one end in Go and one in Rust, what the one end calls does not disturb what the other calls: whatever kinds of calls are made, a caller is told only what the handler of its own call gave, and no frame of the other end crashes an end.", "quantifier": "for all runs of both ends, with calls of all four kinds", "why_tests_cant": "it takes calls of both ends with the same number that overlap in a certain order; each call on its own works", "anchors": ["go/transport/wasmrs/host/instance.go", "go/transport/wasmrs/guest/guest.go", "rust/crates/wasmrs/src/socket.rs"]}
{"id": "C153", "title": "Single-result calls between the modules of a mesh are answered by the code they are linked to", "statement": "When a module of a mesh makes a request-response call, what it is told is what the operation its import is linked to gave, run in the module that exports it, with the data of the call and its metadata without the eight bytes of routing; or a failure that says not_found (or Invalid metadata, if there is too little of it to name an import), if the import is linked to nothing or the exporting module has no such operation. It is told at most once, and exactly once when nothing is under way any more. A fire-and-forget call is passed on exactly once and runs the linked operation exactly once. No two calls share a call that was made for them, and passing a call on never crashes the host.", "quantifier": "for all meshes, however linked, all code of the modules, and all runs of any number of instances in any interleaving, with at most 2^30 calls of an end, results subscribed to once, and no module loaded or closed during the run", "why_tests_cant": "a call crosses four dispatchers and two tables of stream ids, and any number of calls of any number of modules, in cycles too, may overlap", "anchors": ["go/transport/wasmrs/mesh/mesh.go", "go/transport/wasmrs/host/instance.go", "go/transport/wasmrs/guest/guest.go"]}
{"id": "C154", "title": "The customer flow of the mesh example greets by both names, or fails", "statement": "In a mesh with the modules concat, greeting and customer, loaded in any order, a host that calls flow.v1/flow with a customer is told one result: Hello, followed by the first and last name with a space between. If one of the two modules is missing, the call fails.", "quantifier": "for all names of less than 2^29 bytes together, all other modules and calls in the mesh, any number of overlapping calls, in any interleaving, with at most 2^30 calls of an end and no module loaded or closed during the run", "why_tests_cant": "each call of the flow makes two further calls across four dispatchers each, and results of overlapping flows could be exchanged on the way", "anchors": ["go/transport/wasmrs/mesh/modules/customer/cmd/main.go", "go/transport/wasmrs/mesh/modules/concat", "go/transport/wasmrs/mesh/modules/greeting", "go/transport/wasmrs/mesh/mesh.go"]}
{"id": "C155", "title": "A call over a connection is answered by the operation it was imported as", "statement": "A program that has imported an operation by its name and makes a request-response call with the id it got is told what the handler gives that the program at the other end of the connection has exported under this name, for the data of the call and its metadata without the eight bytes of the index; or a failure, if there is none.", "quantifier": "for all programs, exporting and importing anything in any order, all calls, data, metadata, registries, results and interleavings of the peers, the network and the readers, with at most 2^30 calls of a peer", "why_tests_cant": "Tests use one or two operations, declared in the same order at both ends; that the ids agree for every order of declarations is a statement about all pairs of programs.", "anchors": ["go/invoke/handlers.go:71-161", "go/handler/caller.go:17-31", "go/handler/handler.go:232-264", "go/example/greeter/greeter.go:64-91"]}
{"id": "C156", "title": "The greeter example greets", "statement": "When the program of the greeter example that listens calls SayHello with two names on a connection, it is told exactly one result once everything is done, and never anything but Hello, followed by both names with a space between.", "quantifier": "for all names of less than 2^29 bytes together, any number of overlapping calls, all interleavings of the peers, the network and the readers and all ways the bytes are cut, with at most 2^30 calls of a peer", "why_tests_cant": "The code generator's messages, the registries, the frames, the framing, the tables and the proxies of both programs must fit together for every name and every cut of the bytes; there is no test of the example.", "anchors": ["go/example/greeter/greeter.go", "go/example/greeter/client/main.go", "go/example/greeter/server/main.go"]}
{"id": "C157", "title": "Streams between a WebAssembly host and its guest arrive as they were sent", "statement": "What the subscriber of a call is told, together with what is still on its way to it, is exactly what was sent in answer to this call, in order: no element is lost, told twice, told to another stream or told after the end, and an error is followed by the end. Everything sent in answer to the call comes from the handler that the call names, started with the data and metadata of this call, or the call was refused because there is no such handler. Once nothing is on its way, the subscriber has been told all the signals the flux of the handler gave.", "quantifier": "for all tables of handlers, all runs of a host and a guest that call each other (any number of streams, channels and single calls at once, in both directions, up to 2^30 calls by an end), all interleavings, and handlers that send nothing but demand after the end (cancelling the input of a channel counts as an end), as long as neither end has crashed", "why_tests_cant": "Frames of many streams share two wires, two tables and two queues; a mix-up needs a particular interleaving of calls in both directions, and a test has a few streams.", "anchors": ["go/transport/wasmrs/host/instance.go:254-425", "go/transport/wasmrs/host/instance.go:491-611", "go/transport/wasmrs/guest/guest.go:121-293", "go/transport/wasmrs/guest/guest.go:356-465", "go/proxy/flux.go:52-63", "go/proxy/flux.go:119-140"]}
{"id": "C158", "title": "Streams between the modules of a mesh arrive as they were sent", "statement": "When a module of a mesh calls a stream or channel of another module through its import, what its subscriber is told is a first part of what the code of the destination sent for this call, in order, and all of it once nothing is on its way: nothing is lost, repeated, mixed with another stream or told after the end by the two hosts in between, and an error is told once, as an error followed by the end. What was sent comes from the code of the operation the import is linked to, run with the data of the call and its metadata with the index replaced; a call that is linked to nothing, or to code that does not exist, is told an error.", "quantifier": "for all linked meshes and all code of the modules that sends nothing but demand after the end, all runs with any number of modules, streams, channels and single calls at once (up to 2^30 calls by an end), all interleavings of both instances and the hosts; channels whose input was not cancelled by the host", "why_tests_cant": "A stream through a mesh crosses four queues and four tables that all other calls share; a test has one stream between two modules.", "anchors": ["go/transport/wasmrs/mesh/mesh.go:237-293", "go/transport/wasmrs/host/instance.go:491-611", "go/transport/wasmrs/guest/guest.go:356-465", "go/proxy/flux.go:52-63", "go/rx/flux/flux.go:119-154"]}
{"id": "C159", "title": "The input of a channel arrives at a handler in a guest as it was sent", "statement": "When a host calls a stream or channel of its guest, the handler that the call names is started once for it, with the data and metadata of this call, or the call was refused because there is none, or its request is still on its way or waits to be handled. What the input of the handler is told, together with what is still on its way, is exactly what the host sent for this call after its request, in order: no element is lost, told twice, told to another handler or told after the end, and an error is followed by the end. Once nothing is on its way, the input has been told all the signals that the caller's flux gave.", "quantifier": "for all tables of handlers, all runs of a host and a guest that call each other (any number of streams, channels and single calls at once, in both directions, up to 2^30 calls by an end), all interleavings, proxies that send a request once and everything else after it, and callers that send nothing but demand after the end of the input (cancelling counts as an end), as long as neither end has crashed", "why_tests_cant": "The input of many channels and the answers to calls in the other direction share one wire and one table; a mix-up needs a particular interleaving, and a test has one or two channels.", "anchors": ["go/proxy/flux.go:75-117", "go/transport/wasmrs/guest/guest.go:121-293", "go/transport/wasmrs/guest/guest.go:403-465", "go/transport/wasmrs/guest/guest.go:490-516"]}
{"id": "C160", "title": "The demand of a caller reaches the handler in a guest", "statement": "When a host calls a stream or channel of its guest, what is requested of the result of the handler, together with what waits to be passed on and what is on its way, is exactly what the caller requested, in order: first the demand of the request, then every later demand; nothing is requested of the result of another handler.", "quantifier": "for all tables of handlers, all runs of a host and a guest that call each other (any number of calls in both directions, up to 2^30 by an end), all interleavings, and proxies that send a request once and everything else after it", "why_tests_cant": "Lost or misdirected demand shows up as a stream that stalls, and only if the demand is given in small pieces while other streams are active.", "anchors": ["go/proxy/flux.go:75-117", "go/transport/wasmrs/guest/guest.go:205-216", "go/transport/wasmrs/guest/guest.go:356-465", "go/transport/wasmrs/guest/guest.go:501-516"]}
{"id": "C161", "title": "The input of a channel and the demand of its caller arrive at a handler in a host", "statement": "When a guest calls a stream or channel of its host, the input of the handler is told exactly what the guest sent for this call after its request, in order, and exactly what the guest requested is requested of the result of the handler.", "quantifier": "for all tables of handlers, all runs of a host and a guest that call each other (any number of calls in both directions, up to 2^30 by an end), all interleavings of frames and of the goroutines that handle requests, proxies that send a request once and everything else after it, and callers that send nothing but demand after the end of the input", "why_tests_cant": "Whether the goroutine of a request has registered its stream when the next frame is read depends on the scheduler; a test sees one order.", "anchors": ["go/transport/wasmrs/host/instance.go:254-275", "go/transport/wasmrs/host/instance.go:286-345", "go/transport/wasmrs/host/instance.go:491-611", "go/proxy/flux.go:75-117"]}
{"id": "C162", "title": "A subscriber that asks for a stream page by page is told all of it, in order, and its end", "statement": "Let a subscriber of a stream call ask for page 0 when it subscribes and for page k+1 when it has been told the last element of page k. The side that serves has a source with elements xs (FromSlice, or CountToN of the example host). At every moment the subscriber was told a prefix of xs in order, never more than it asked for, and it is told the end only after all of xs; the serving side never asks a subscription that is not there. The exchange takes at most 12*|xs|+20 steps of goroutines, in whatever order they come, and when nothing is left to be done the subscriber was told exactly xs and the end. CountToN(to) thereby tells exactly 1, 2, ..., to. With to = 2^64-1 its variable wraps around and nobody is ever told the end.", "quantifier": "all sources that end, all page sizes k -> p(k) between 1 and 2^31-1, all orders in which the goroutines of the proxy, the dispatcher and the source go on (unbounded runs); all numbers to below 2^64-1 for the counter (2^64-1 is refuted for all runs)", "why_tests_cant": "A test uses one page size and one order of goroutines; whether demand can be lost, sent twice or before the stream is registered depends on the order, and the numbers of elements and pages are unbounded.", "anchors": ["go/transport/wasmrs/cmd/guest/main.go:36-60", "go/transport/wasmrs/cmd/host/main.go:59-80", "go/rx/flux/flux.go:110-200", "go/rx/flux/slice.go:3-18", "go/proxy/flux.go:50-112", "go/transport/wasmrs/host/instance.go:491-542"]}
{"id": "C163", "title": "Every stream between a WebAssembly host and its guest has one source", "statement": "When the proxy of a stream or channel call sends its request once, the other end starts at most one handler for the call; once the request has been handled it has started exactly one if an operation with the kind and index of the call is registered, and none otherwise. Everything that is ever sent back for the call is sent by that one handler, which was given the data and metadata of the call. A call of an operation that is not registered is answered by exactly one error: its subscriber is told nothing until then, and is told this error and the end.", "quantifier": "all handlers of both ends, all numbers of calls (up to 2^30) in both directions at once, all orders of calls, subscriptions, frames, pieces of work and signals in which the request of each stream is sent once and after its result was subscribed to, both ends", "why_tests_cant": "Which handler runs for a request depends on the tables of both ends and on frames of other calls that arrive in between; a test sees a handful of interleavings, while a second handler for one stream, or a second answer, shows only as elements mixed into a stream now and then.", "anchors": ["go/proxy/flux.go:75-82", "go/transport/wasmrs/host/instance.go:467-611", "go/transport/wasmrs/guest/guest.go:333-465", "go/transport/wasmrs/host/caller.go:53-76"]}
{"id": "C164", "title": "Streams between host and guest neither crash an end nor get stuck", "statement": "If the callers of streams between a WebAssembly host and its guest only ask for more, neither end panics when it takes up a frame or does what it put off. Left alone, both ends come to rest after finitely many steps, in whatever order they are taken; then every request-response call that is subscribed to has its result, every stream whose request was sent was served by exactly one handler or told that there is none, and every subscriber was told everything that was sent for it, in order.", "quantifier": "All executions of a host and a guest with any calls of all four kinds in both directions, whose proxies send their request once and then only REQUEST_N, whose data fits into frames, with up to 2^30 calls of an end; all orders of the goroutines of the host.", "why_tests_cant": "A crash needs a frame that arrives between two statements of a goroutine; whether all orders of many calls come to rest is a question about unboundedly many schedules.", "anchors": ["go/transport/wasmrs/host/instance.go:254-425", "go/transport/wasmrs/host/instance.go:491-542", "go/transport/wasmrs/guest/guest.go:121-293", "go/proxy/flux.go:67-133"]}
{"id": "C165", "title": "The files of a generated Rust project fit together", "statement": "The generator of Rust projects finishes exactly if every operation of the services and providers of a document has one of the three kinds. If no file of an action is there yet, the project it leaves can be built, as far as its modules and its calls of tasks go, exactly if the modules it declares in one place have different names; the implementation of each operation of a service then calls the function in the file of this operation, with the arguments and the result that belong to its kind, and every file of an action belongs to a module that is declared. A file of an action that is there is never overwritten, and running the generator again on the same document changes nothing.", "quantifier": "all documents, all ways to change the case of names whose results have no slash, all configurations with which the generator is called and all files that are there before", "why_tests_cant": "A test generates projects for a few documents and compares texts; whether a declared module has a file, and whether the file has the function that is called, depends on names and kinds of all interfaces together and on what was generated before.", "anchors": ["codegen/src/rust/plugin.ts:16-82", "codegen/src/rust/action-scaffold.ts:7-33", "codegen/src/rust/default-visitor.ts:50-61", "codegen/src/rust/visitors/service-visitor.ts:32-105", "codegen/src/rust/lib-boilerplate.ts:5-13"]}
{"id": "C166", "title": "Calls between the modules of a mesh finish", "statement": "However frames are taken up, requests handled, calls passed on by hosts, results subscribed to by them and given back: if the modules make no new calls, it comes to an end after a number of steps that is known beforehand, and when nothing more can be done, every request-response call of a module that was subscribed to was told exactly one result, that of the code it is linked to, and every fire and forget call that is linked was passed on once and ran the code it is linked to once. From every state it is possible to get there.", "quantifier": "for all meshes of any number of modules, however linked, in cycles too, all code of the modules, every state they can get into with request-response and fire and forget calls, with room for what is under way below 2^30 calls of an end, each result subscribed to at most once, metadata below 2^24 bytes and frames below 2^32 bytes, and every way to go on from there", "why_tests_cant": "That no call between modules gets stuck (two modules that call each other, a host that waits for a result it never subscribed to, a call that is passed on for ever) is a statement about all meshes, all states and all ways to go on.", "anchors": ["go/transport/wasmrs/mesh/mesh.go:237-293", "go/transport/wasmrs/host/instance.go:254-465", "go/transport/wasmrs/host/caller.go:31-54", "go/transport/wasmrs/guest/guest.go:121-354"]}
{"id": "C167", "title": "On a host, a list answered with SliceResponse is read page by page, each value once", "statement": "On a host, let a subscriber with OnRequest ask for a page of values each time it is called, or cancel if it has seen a value after which it wants no more, and let the source answer with flux.SliceResponse. Whatever goroutine runs when, nothing crashes; the subscriber sees the values of the list in order, each once: whole pages up to the first page with such a value, after which its finalizer is called once with SignalCancel, or else the whole list, after which OnComplete is called and the finalizer is called once with SignalComplete. Something can always happen until that is so, and it takes at most 10 n + 23 steps for a list of length n.", "quantifier": "all lists, all page sizes above zero, all conditions for stopping, all schedules of the goroutines started by Request", "why_tests_cant": "The pages are served by goroutines that wait for one lock while the loop that started them is still running; a test sees one schedule and a few lists.", "anchors": ["go/rx/flux/response.go:3-17", "go/rx/flux/flux_host.go:19-25", "go/rx/flux/flux.go:127-210", "go/transport/wasmrs/cmd/wordfrequncy/main.go:37-57"]}
{"id": "C168", "title": "The word frequency program prints exactly the words that occur a thousand times", "statement": "For every text, when cmd/wordfrequncy is over it has printed exactly the words that are not stop words and occur at least 1000 times, compared in lower case, each once and with the number of times it occurs, more frequent ones first; and its channel done was closed exactly once. It is over after finitely many steps.", "quantifier": "all texts of fewer than 2^31 words, all schedules, all orders in which the map is ranged over", "why_tests_cant": "The program reads a hundred words at a time and cancels in between; whether it misses a word, prints one twice or closes its channel twice depends on where the boundary of a page falls.", "anchors": ["go/transport/wasmrs/cmd/wordfrequncy/main.go:16-64", "go/transport/wasmrs/example/wordfrequency/wordfrequency.go:11-44", "go/rx/flux/response.go:3-17"]}
{"id": "C169", "title": "In WebAssembly, a list answered with SliceResponse is read page by page", "statement": "In WebAssembly the subscriber of C167 sees the values of the list in order and each once, and then an end.", "quantifier": "all lists, all page sizes above zero", "why_tests_cant": "Request calls the source directly, from within the call of OnNext for the last value of a page; tests of the library run on a host, where it starts a goroutine.", "anchors": ["go/rx/flux/response.go:3-17", "go/rx/flux/flux_webassembly.go:11-13", "go/rx/flux/flux.go:127-139"]}
{"id": "C170", "title": "Components wired to one another", "statement": "A host that subscribes to what one component puts out and sends it on to an input port of the next one, as the flow based example does, gets from the last component of the chain the text that all components together make of the first text, as the last message of its port, and then the end. In particular the example program, given two strings, prints one line that greets both of them, and ends.", "quantifier": "Every chain of components of any length, every text that fits in a string and every two strings; every choice of indexes for the operations, every interleaving of the two calls.", "why_tests_cant": "The example program has no test: it needs a compiled guest. A test would use two fixed strings and one schedule.", "anchors": ["go/transport/wasmrs/cmd/fbp/host/main.go", "go/transport/wasmrs/cmd/fbp/guest/main.go", "go/transport/wasmrs/example/concat/generated.go", "go/transport/wasmrs/example/greeter/generated.go", "go/invoke/portio.go", "go/invoke/handlers.go"]}
{"id": "C171", "title": "Publishers that are mapped several times", "statement": "Mapping a flux or a mono with several transformations one after the other is the same, in everything that its methods do to subscribers, to functions that are notified and to callers of Get and Block, as mapping it once with all transformations in order, where the first that fails decides. A value or an error that is there already, mapped any number of times, gives all of them the same: what the transformations make of the value, or the error.", "quantifier": "Every publisher, whatever it does; every number of transformations of any types; all subscribers, with any of the callbacks left out.", "why_tests_cant": "Publishers, transformations and subscribers are arbitrary functions; a test fixes all of them and one number of transformations.", "anchors": ["go/rx/flux/flux.go", "go/rx/flux/flux_host.go", "go/rx/mono/mono.go", "go/rx/mono/mono_host.go"]}
{"id": "C172", "title": "A slice is read page by page alike on a host and in WebAssembly", "statement": "A subscriber that asks for a page in OnRequest, and cancels there once it has seen a value it wants nothing more after, reads flux.FromSlice. On a host, whatever goroutine runs when, and in WebAssembly, where each page is sent within the call that asks for it, it sees the values of the list in order and each once: whole pages up to the first one with such a value, and then its finalizer is called with cancel; or all of the list, and then it is told that it is complete. Nothing crashes, the finalizer is called exactly once, and all calls return after a number of steps linear in the list.", "quantifier": "for every list, page size, stopping condition, set of other callbacks, schedule, on a host and in WebAssembly", "why_tests_cant": "the example program reads six values two at a time on a host with pauses; the nesting of requests within requests in WebAssembly and the lock between goroutines on a host are not exercised, nor lists that end with a page", "anchors": ["go/rx/flux/slice.go:FromSlice", "go/rx/flux/flux.go:Next", "go/rx/flux/flux.go:Request", "go/rx/flux/flux_host.go:doRequest", "go/rx/flux/flux_webassembly.go:doRequest", "go/transport/wasmrs/test.go:main"]}
{"id": "C173", "title": "The example host and guest", "statement": "When the example host asks the example guest to greet somebody by first and last name, it is shown exactly the text Hello, followed by both names, never anything else and never twice, and it is shown it once it waits and nothing of the call is under way; this holds whatever else both programs call at the same time. The number given to the guest's CountToN arrives in the request as it was given. The streams of the guest to the host are refused: the host starts no handler for any of them and their subscribers are told not_found and the end; the host's own Uppercase is refused by the guest with Invalid metadata.", "quantifier": "every two names of together less than 2^29 bytes, every number below 2^64, every sequence and interleaving of calls, answers and deliveries of both programs", "why_tests_cant": "The programs need a compiled guest and have no tests; a test would use one pair of names and one schedule, and would not tell a refused stream from a slow one.", "anchors": ["go/transport/wasmrs/cmd/host/main.go", "go/transport/wasmrs/cmd/guest/main.go", "go/transport/wasmrs/cmd/greeter/main.go", "go/transport/wasmrs/example/greeting.go", "go/transport/wasmrs/example/counter.go", "go/transport/wasmrs/example/uppercase.go"]}
{"id": "C174", "title": "A channel that changes every string", "statement": "The guest's Uppercase channel answers the frames that it gets with each string in upper case, in order, and the end when the input ends; a value that is no string, or an error, ends the answer with that error. It asks its caller for input two values at a time, never having asked for more than two beyond what arrived and never leaving nothing asked for. It sends no more results than the caller has asked for, and no input crashes it.", "quantifier": "every sequence of frames for the stream: payloads with any bytes, errors, cancellations, demand; every function on strings in place of upper case; every first demand", "why_tests_cant": "Frames can come in any order and with any bytes; a test sends a few well formed strings with plenty of demand.", "anchors": ["go/transport/wasmrs/cmd/guest/main.go:95-113", "go/transport/wasmrs/example/uppercase.go", "go/transport/wasmrs/guest/guest.go:handleRequestChannel", "go/rx/flux/flux.go"]}
{"id": "C175", "title": "Calls between a host and a guest written in Rust finish", "statement": "Calls of all four kinds are made in both directions over one connection, and nobody drops a result that it waits for. Neither end then panics or reports an error, whatever arrives. Whatever is done and in whatever order, only so many steps can be taken as depend on what is under way, plus two for every element that a stream or an input gives; and once nothing more can be done nothing is under way. Then every call other than a channel was handled exactly once, and whoever waits for a result has exactly one, and whoever waits for a stream has what it gave and its end. Both ends can always get there.", "quantifier": "for all payloads, mixes of calls in both directions, interleavings of the tasks and deliveries, of fewer than 2^30 calls at each end and fewer than 2^31 elements per stream", "why_tests_cant": "tests run one call at a time to its end on one schedule; that nothing ever waits for something that cannot come is a statement about all schedules of both ends and all mixes of calls", "anchors": ["rust/crates/wasmrs/src/socket.rs:165-335", "rust/crates/wasmrs/src/socket.rs:352-445", "rust/crates/wasmrs/src/socket.rs:517-541"]}
{"id": "C176", "title": "Components joined by single values work in whatever order they are joined", "statement": "A program joins components by mono processors: each processor has one subscriber, which pushes what it makes of the value or of the error to the next processor. Whether it pushes the first value before or after it starts the components, in whatever order it starts and connects them, and whenever it asks to be notified, each subscriber is told exactly once what comes to its processor, and each function given to Notify is called once, with the signal that fits. Where a subscriber has no OnError an error goes no further, and nobody behind it is told anything. The example program thus prints Hello, and both strings and ends; given an error it would print nothing and wait for ever. Of two subscribers to one processor the second is told the value only if it was pushed before the first one subscribed.", "quantifier": "for every row of components, of any length, with any functions, every value or error, and every order of pushing, subscribing and asking to be notified", "why_tests_cant": "the example program joins two components in one order with one value; the orders are as many as the factorial of the number of steps, and rows may have any length", "anchors": ["go/transport/wasmrs/cmd/flow/main.go:main", "go/rx/mono/processor.go:NewProcessor", "go/rx/mono/processor.go:Success", "go/rx/mono/processor.go:Error", "go/rx/mono/mono.go:Subscribe", "go/rx/mono/mono.go:Notify", "go/transport/wasmrs/example/concat/concat.go:Process", "go/transport/wasmrs/example/greeter/greeter.go:Process"]}
{"id": "C177", "title": "Calls between a Go end and a Rust end finish", "statement": "When a Go host and its Rust guest, or a Rust host and its Go guest, call each other, whatever is done about the calls under way, in whatever order, comes to an end: frames are taken up, requests handled and results given in no more steps than a number that only depends on where the ends are. When nothing more can be done, every call was handled exactly once by the other end, with the bytes of the caller, and whoever waits for a result was told exactly one: what the handler gave, its error, or that there is no such operation. From wherever the ends are, they can get there without new calls. Neither end crashes on the way.", "quantifier": "for every run of the two ends, every number and mix of calls of both ends for a single result or none (fewer than 2^30 - 1 each, frames that fit), every handler and result, every order of steps; no result dropped by a caller in Rust; errors of Go guests in UTF-8, and a caller in Rust whose handler in Go fails with an error that is not UTF-8 is told nothing (C178)", "why_tests_cant": "tests of the two languages together run one call after the other and wait for each; that no order of frames and handlers leaves a call waiting is a statement about all schedules of two programs in two languages", "anchors": ["go/transport/wasmrs/host/instance.go:166-193", "go/transport/wasmrs/guest/guest.go:562-569", "go/transport/wasmrs/host/caller.go:31-76", "go/transport/wasmrs/guest/caller.go:37-83", "rust/crates/wasmrs/src/socket.rs:122-188", "rust/crates/wasmrs/src/socket.rs:278-385"]}
{"id": "C178", "title": "The error of a handler in Go reaches its caller in Rust, and nobody else", "statement": "When a request-response handler at a Go end (host or guest) that was called by a Rust end fails, whatever the bytes of its error are, the caller in Rust is told this error once everything is done, and no other caller at either end is told anything because of it.", "quantifier": "for all runs of both ends as in C151, all errors", "why_tests_cant": "the tests of the two languages use errors written in the source, which are UTF-8; what happens to other bytes depends on the codec of the other language and on which calls of both ends have the same number at that time", "anchors": ["go/transport/wasmrs/host/instance.go", "go/transport/wasmrs/guest/guest.go", "rust/crates/wasmrs/src/frames/f_error.rs", "rust/crates/wasmrs-guest/src/guest.rs:175-183", "rust/crates/wasmrs-wasmtime/src/store.rs:29-40"]}
{"id": "C179", "title": "Streams between the modules of a mesh finish", "statement": "However frames are taken up, requests handled, calls and streams passed on by hosts, subscribed to and asked for by them, results given back and signals of streams sent on: if modules make no new calls, send no further signals and nobody asks for more, it comes to an end after a number of steps that is known beforehand. When nothing more can be done, every stream or channel of a module whose request was sent and which is linked was passed on exactly once and ran the code it is linked to exactly once, with its data and metadata; one that is not linked was told so; and every subscriber in a module was told everything that the code it is linked to said, in order. Request-response and fire and forget calls under way at the same time are done with as well. From every state it is possible to get there.", "quantifier": "for all meshes of any number of modules, however linked, in cycles too, all code of the modules, every state they can get into with calls of all four kinds whose requests are sent once, after subscribing, and whose callers then only ask for more, signals and results that fit into frames, with room for what is under way below 2^30 calls of an end, and every way to go on from there; what arrives is stated for code that says nothing after the end of a stream", "why_tests_cant": "That no stream between modules gets stuck half way, with an element left at a host or a request never passed on, is a statement about all meshes, all states and all ways to go on.", "anchors": ["go/transport/wasmrs/mesh/mesh.go:237-293", "go/transport/wasmrs/host/instance.go:254-465", "go/transport/wasmrs/host/caller.go:50-76", "go/transport/wasmrs/guest/guest.go:121-354", "go/proxy/flux.go:67-133"]}
{"id": "C180", "title": "Channels between a host and a guest written in Rust carry what was given, both ways", "statement": "For a channel call of a Rust end to the other, the other end runs at most one handler, one of a channel whose input is the one made for this request, and runs it once the request has arrived if the input of the caller begins with an element. As long as nobody drops anything, this handler is told the elements that the input of the caller gives, in order, without loss or repetition and nothing of other calls, then its end or that it failed; and the caller is told the elements that the handler yields, in order, then its end or failure. At any time each of them was told a beginning of that, and all of it once every frame was processed. The same holds if one of the two drops the half it receives, for the other half.", "quantifier": "for all runs of a host and a guest in Rust with calls of all four kinds in both directions, all inputs and handlers, every interleaving of tasks and frames, fewer than 2^30 calls of each end", "why_tests_cant": "Both halves share a stream id, the tables of the two ends and one queue of frames each, with all other calls. Tests run one channel at a time.", "anchors": ["rust/crates/wasmrs/src/socket.rs:96-335", "rust/crates/wasmrs/src/socket.rs:352-541", "rust/crates/wasmrs/src/socket/responder.rs"]}
{"id": "C181", "title": "wasmrs-ops adds the operations of a module to its file, once", "statement": "If the file of a module has no section named wasmrs_ops, the program writes the file with one more section of this name and everything else as it was; customsections.Read and operations.FromBytes then give exactly the operations that an instance of the module reports. If the file has such a section it is not written, and the operations in it are shown. So running the program a second time changes nothing and shows the same operations.", "quantifier": "for all modules and operation tables below 4 GiB, all libraries that read back the modules they write", "why_tests_cant": "The tests have no module files; which names and tables survive two codecs (LEB128 sections and 16-bit lengths) is a statement about all of them.", "anchors": ["go/transport/wasmrs/cmd/wasmrs-ops/main.go:20-114", "go/transport/wasmrs/customsections/customsections.go:20-134", "go/operations/operatons.go:66-150"]}
{"id": "C182", "title": "wasmrs invoke calls the named operation with the JSON arguments and reports failures", "statement": "`wasmrs invoke` calls the operation with the given namespace and name with the values for which the JSON object read from stdin stands: an argument that is given has the value given, whatever the order of the keys, arguments that are not given have the zero value of their type, and keys that are not arguments do not matter. It prints the result. If a module cannot be loaded, the input is not JSON, there is no such operation or the operation fails, `Run` returns an error.", "quantifier": "all types of arguments, all JSON objects less than 4 GiB as MessagePack, all orders in which Go visits the keys, all operations and results", "why_tests_cant": "A test invokes one or two operations with sample arguments; the claim ranges over every argument type, every nesting of objects, lists and maps, every order of map keys and every way to fail.", "anchors": ["go/transport/wasmrs/cmd/wasmrs/commands/invoke.go:27-81", "go/transport/wasmrs/mesh/mesh.go:62-75", "codegen/src/tinygo/wrappers_visitor.ts:217-261"]}
{"id": "C183", "title": "The Rust example component answers what it says, and the request program prints it", "statement": "In the component rust/wasm/reqres-component, `test` answers \"test\" and `echo` its message; `chars` streams the characters of its argument, one string for each, in order, and then completes; `reverse` answers each element of its input with its string reversed, in order and while the input goes on, with an error for an element it cannot read, and ends after the input has ended. The program rust/bins/request prints the strings of a response in order, one on each line; it prints the error of a response that fails.", "quantifier": "all arguments and inputs, all interleavings of the task, the tasks of its wrapper and the caller, all serializers", "why_tests_cant": "The tests run the operations on one short input; that no interleaving of the three tasks loses, doubles or reorders an element, or ends early, is a statement about all runs.", "anchors": ["rust/wasm/reqres-component/src/actions/test/chars.rs:3-12", "rust/wasm/reqres-component/src/actions/test/reverse.rs:3-17", "rust/wasm/reqres-component/src/actions/mod.rs:44-146", "rust/bins/request/src/main.rs:55-99"]}
{"id": "C184", "title": "The generated configuration of the bus lists the operations of the namespace", "statement": "Read as YAML, the file that BusVisitor writes says: below `services`, each service of the namespace with a task (its description and steps) for each of its operations without code and for no other; below `events`, for each operation of an interface of events a task under the type of the event, or the name of the operation, whose step invokes this operation of this interface and is retried by a policy that the file has; below `providers`, each provider with a task for each of its operations; all in the order of the namespace, and no key twice. The application has the configured name, and its module is build/NAME.wasm.", "quantifier": "all namespaces with any number of interfaces and operations, all names and descriptions", "why_tests_cant": "The generator has one sample; that no namespace gives a file that says something else, or that cannot be read, depends on every name and every description.", "anchors": ["codegen/src/bus/bus_visitor.ts:26-243"]}
{"id": "C185", "title": "A module of the Rust host sees what the WASI parameters say and runs as long as its deadlines allow", "statement": "A module started by a provider that WasmtimeBuilder built is told by WASI exactly the arguments, the environment variables and the directories of the WasiParams: each preopened directory under its own name, each mapped one under the name for the module, in this order; without parameters, none. Parameters that cannot be met make new_context return an error. With enable_epoch_interruptions(init, func) the module is stopped when it has run for that many ticks, and not before; without, it is never stopped.", "quantifier": "all parameters, file systems, modules and deadlines, all courses of the epoch", "why_tests_cant": "The tests start modules with default parameters and no deadlines.", "anchors": ["rust/crates/wasmrs-wasmtime/src/wasi.rs:8-69", "rust/crates/wasmrs-wasmtime/src/builder.rs:22-122", "rust/crates/wasmrs-wasmtime/src/store.rs:74-92", "rust/crates/wasmrs-wasmtime/src/engine_provider.rs:53-80", "rust/crates/wasmrs-host/src/wasi.rs:4-29"]}
{"id": "C186", "title": "What the handler of a transport sends is carried by its connection", "statement": "A handler that NewClient or Listen made sends through SetFrameSender. Everything it sends is carried by the connection of its own transport, in the order of sending, and by no other connection; sending never crashes. The same holds for a handler that is given to NewTransport or NewTCPClientTransport.", "quantifier": "for all runs of a handler (frames received, requests served, calls made) and all frames it is made to send", "why_tests_cant": "Tests use one client and one server made by NewClient and Listen; that no step of a handler ever loses, reorders or misdirects a frame is a statement about all runs, and the exported constructors are not tested at all.", "anchors": ["go/handler/handler.go:71-105", "go/transport/rsocket/transport.go:58-67", "go/transport/rsocket/init.go:23-38", "go/transport/rsocket/tcp_transport.go:92-107"]}
{"id": "C187", "title": "Every module starts on every host", "statement": "A program built with the guest library of Go or of Rust, whatever other functions it exports and whatever functions of WASI it imports, is linked and started by a host in Go and by a host in Rust: every function that one side calls in the other is there, with the type it is called with.", "quantifier": "for all programs with one of the two guest libraries: all further imports that the host provides, all further exports", "why_tests_cant": "The names and types of the functions are written down separately in four places in two languages; the tests run only pairs of one language, with modules that are not in the repository.", "anchors": ["go/transport/wasmrs/host/host.go:30-97", "go/transport/wasmrs/host/instance.go:64-102", "go/transport/wasmrs/guest/guest.go:45-106", "rust/crates/wasmrs-wasmtime/src/engine_provider.rs:90-183", "rust/crates/wasmrs-wasmtime/src/wasmrs_wasmtime.rs:9-137", "rust/crates/wasmrs-host/src/protocol.rs:7-76", "codegen/src/rust/default-visitor.ts:27-36"]}
{"id": "C188", "title": "Modules generated from one document in Go and in Rust are interchangeable", "statement": "From one document the Go generator and the Rust generator produce modules that publish the same list of exported operations, entry for entry: the same order, names, kinds and indices. In both modules a request of the advertised kind with the advertised index runs the wrapper of the same operation. They import operations of the same names and kinds. So a host that loads either module for a service links and calls the same, and a client in one language reaches the handler of the operation it names in a service in the other. Every document that one generator takes is taken by the other.", "quantifier": "all documents with any interfaces and operations, all functions that change the case of names and agree on the names of the document, all providers the Go program may create in any order, and all sets and orders of modules in a mesh", "why_tests_cant": "Each generator is tested alone, if at all, on a few documents; that the numbering of two registries written in different languages agrees for every document is a statement about all of them.", "anchors": ["codegen/src/tinygo/register_visitor.ts", "codegen/src/tinygo/import_visitor.ts", "codegen/src/tinygo/main_visitor.ts", "codegen/src/rust/default-visitor.ts", "codegen/src/rust/utils/mod.ts", "go/invoke/handlers.go"]}
{"id": "C189", "title": "A Rust service gets the arguments that a Go client sent", "statement": "If a client generated in Go from a document calls an operation of a service generated in Rust from the same document, the `Inputs` that the implementation is given hold the arguments of the call, each in the field of its name.", "quantifier": "For all type definitions, all operations, all well-typed arguments whose serialization is shorter than 2^32 bytes, and all orders in which Go maps are iterated.", "why_tests_cant": "Each generator is tested, if at all, by compiling its own output, and the two sides use two serializers in two languages; a test sends a few values of a few types.", "anchors": ["codegen/src/rust/visitors/service-visitor.ts", "codegen/src/tinygo/invokers_visitor.ts", "rust/crates/wasmrs-codec/src/messagepack.rs"]}
{"id": "C190", "title": "A Rust client gets the result that a Go service returned", "statement": "If a client generated in Rust from a document calls an operation of a service generated in Go from the same document and the implementation returns a result, the client reads the value of that result.", "quantifier": "For all type definitions, all operations, all well-typed results whose serialization is shorter than 2^32 bytes, and all orders in which Go maps are iterated.", "why_tests_cant": "The two sides use two serializers in two languages, and the Go side serializes a result with other functions than a field of the same type; no test has both.", "anchors": ["codegen/src/rust/visitors/provider-visitor.ts", "codegen/src/rust/plugin.ts", "codegen/src/tinygo/wrappers_visitor.ts", "rust/crates/wasmrs-codec/src/messagepack.rs"]}
{"id": "C191", "title": "A generated Rust client makes the calls it is asked to make", "statement": "Calling a function of a client generated in Rust makes exactly one request of the kind of the operation, with the index of its import as metadata and data from which the arguments are read; it neither fails nor panics before that. A service generated in Rust answers with the result its implementation returned.", "quantifier": "For all operations, all arguments and results, and every serializer that writes MessagePack.", "why_tests_cant": "Tests call with small arguments; the size at which the behaviour changes, and that it changes into a panic for streams, depends on a constant in another crate.", "anchors": ["codegen/src/rust/visitors/provider-visitor.ts", "codegen/src/rust/visitors/service-visitor.ts", "rust/crates/wasmrs-codec/src/messagepack.rs"]}
{"id": "C192", "title": "The wrapper of a generated Rust operation answers once, with what the implementation returned", "statement": "The wrapper that the Rust generator writes around an operation that answers once starts the implementation at most once, and only with the arguments read from the request. The answer is the serialized result, or the error of the request, of reading it, of the implementation or of the serializer. The wrapper does not panic, and once the request is there and the implementation has returned the answer comes.", "quantifier": "For all requests, implementations and serializers, and all orders of events in which the Mono that the wrapper returned is kept until it resolves, as the socket of the library keeps it.", "why_tests_cant": "The wrapper is text in the generator; tests compare it with expected text or do not run it at all, and the orders in which request, polls and result interleave are not explored.", "anchors": ["codegen/src/rust/visitors/service-visitor.ts", "rust/crates/wasmrs/src/socket.rs"]}
{"id": "C193", "title": "A Go program reads a value however it was serialized", "statement": "If a value of a type is serialized as MessagePack by any writer, with any of the formats that MessagePack allows for each part of it and the fields of objects in any order, the code that the Go generator writes for the type reads exactly that value and stops exactly at the end of the serialization.", "quantifier": "For all type definitions, all types, all values and all serializations shorter than 2^32 bytes.", "why_tests_cant": "Tests read what the encoder of the same library wrote, which uses one format per value; the others are written by other libraries.", "anchors": ["go/msgpack/decoder.go", "codegen/src/tinygo/msgpack_decoder_visitor.ts", "codegen/src/tinygo/msgpack_helpers.ts"]}
{"id": "C194", "title": "A Go client gets the result that a Rust service returned", "statement": "If a client generated in Go from a document calls an operation of a service generated in Rust from the same document, and the data of an answer is a MessagePack serialization of the result, the client gets that result.", "quantifier": "For all type definitions, all operations whose importing function compiles, all results, all serializations shorter than 2^32 bytes, for answers and for each element of a stream.", "why_tests_cant": "The two sides use two serializers in two languages, and the Go side reads a result with other functions than a field of the same type; no test has both.", "anchors": ["codegen/src/tinygo/invokers_visitor.ts", "go/transform/transform.go", "codegen/src/rust/visitors/service-visitor.ts", "codegen/src/rust/plugin.ts"]}
{"id": "C195", "title": "A call between generated code in Go and in Rust runs the implementation once and returns what it returned", "statement": "A client and a service are generated from one document, one in Go and the other in Rust. When the client calls an operation with arguments, the implementation is started at most once and with exactly these arguments, and the caller gets the value, or the error, that the implementation returned. If the implementation returns, the answer comes.", "quantifier": "For all type definitions, all operations that are not unary and answer once, all arguments and results of their types, all implementations, all orders of events in the wrapper of the service, and all serializations shorter than 2^32 bytes that the Rust serializer may choose.", "why_tests_cant": "It joins code generated by two generators, two serializers and a scheduler; a test has one document, one pair of values and one schedule, and no test of the repository calls from one language to the other.", "anchors": ["codegen/src/tinygo/invokers_visitor.ts", "codegen/src/tinygo/wrappers_visitor.ts", "codegen/src/rust/visitors/service-visitor.ts", "codegen/src/rust/visitors/provider-visitor.ts"]}
{"id": "C196", "title": "A call between a client and a service generated in Go returns what the implementation returned for the arguments", "statement": "A client and a service are generated in Go from one document. A call of an operation returns the value, or the error, that the implementation returns for exactly the arguments of the call, where nil slices and maps are empty ones. Data that cannot be read as arguments is answered with an error, and the implementation is not called.", "quantifier": "For all type definitions, all operations of which both ends compile, unary or not, all arguments and results of their types that take less than 2^32 bytes, all orders in which maps are iterated, all implementations.", "why_tests_cant": "The generated code of the two ends is the result of several independent choices of the generator for each type of parameter and result; the tests of the repository have no generated client at all.", "anchors": ["codegen/src/tinygo/invokers_visitor.ts", "codegen/src/tinygo/wrappers_visitor.ts", "codegen/src/tinygo/msgpack_visitor.ts", "go/transform/transform.go"]}
{"id": "C197", "title": "A call between a client and a service generated in Rust returns what the implementation returned for the arguments", "statement": "A client and a service are generated in Rust from one document. A call of an operation that answers once makes one request, for the import of that operation; the implementation is started at most once and with exactly the arguments of the call; the caller gets the value, or the error, that it returned; and the answer comes if the implementation returns. Arguments of more than 100 KiB make the call fail before anything is sent, a result of more than 100 KiB is answered with an error.", "quantifier": "For all operations that answer once, unary or not, all arguments and results that are MessagePack values, all serializers that write MessagePack, all orders of events in the wrapper of the service.", "why_tests_cant": "It holds for every schedule of the wrapper and every size of the arguments; tests run one schedule with small arguments.", "anchors": ["codegen/src/rust/visitors/provider-visitor.ts", "codegen/src/rust/visitors/service-visitor.ts", "rust/crates/wasmrs-codec/src/messagepack.rs"]}
{"id": "C198", "title": "Programs with generated Go code at the two ends of a connection", "statement": "Two Go programs with code generated from one document are joined by a connection of bytes. When one calls an operation of the other through its generated client, the caller is told the value, or the text of the error, that the implementation returned for exactly the arguments of the call, at most once, and once nothing more can be done about the calls under way it was told, if it asked to be.", "quantifier": "For all type definitions, all operations that answer once, all implementations, arguments and results, any other operations and calls of the two programs, and all orders in which bytes are carried, frames handled and handlers run.", "why_tests_cant": "It joins the generator, the serializer, the frames, the transport and both peers; a test runs one document over one schedule.", "anchors": ["codegen/src/tinygo/invokers_visitor.ts", "codegen/src/tinygo/wrappers_visitor.ts", "go/handler/handler.go", "go/transport/rsocket/tcp_conn.go", "go/invoke/handlers.go"]}
{"id": "C199", "title": "Generated Go code in a WebAssembly host and its guest", "statement": "A host and its WebAssembly guest carry Go code generated from one document. When one calls an operation of the other through its generated client, with the index of the operation at the other end, the caller is told the value, or the text of the error, that the implementation returned for exactly the arguments of the call, at most once, and once if it subscribed and nothing of the call is under way.", "quantifier": "For all type definitions, all operations that answer once, all implementations, arguments and results, both directions, and all orders in which calls are made, frames handled, tasks run and handlers answer.", "why_tests_cant": "It joins the generator, the serializer, the frames and the dispatch of both ends; a test runs one module through one schedule.", "anchors": ["codegen/src/tinygo/invokers_visitor.ts", "codegen/src/tinygo/wrappers_visitor.ts", "go/transport/wasmrs/guest/guest.go", "go/transport/wasmrs/host/instance.go"]}
{"id": "C200", "title": "Generated Rust code in a host and its guest", "statement": "A Rust host and its Rust guest carry code generated from one document. When one calls an operation that answers once through its generated client, with arguments that take at most 100 KiB and the index at which the other end serves the operation by its generated wrapper, the caller is told the value that the implementation returned for exactly the arguments of the call if it takes at most 100 KiB, an error if it takes more, or the text of the error that it returned; at most once, and once when every frame is processed and no task is left.", "quantifier": "For all operations that answer once, all implementations, arguments and results, all serializers of MessagePack, both directions, and all runs of the two ends with at most 2^30-2 calls of each, whatever else they do.", "why_tests_cant": "It joins the generator, the serializer, the frames, the sockets and their tasks; a test runs one call over one schedule.", "anchors": ["codegen/src/rust/visitors/provider-visitor.ts", "codegen/src/rust/visitors/service-visitor.ts", "rust/crates/wasmrs/src/socket.rs", "rust/crates/wasmrs-codec/src/messagepack.rs"]}
{"id": "C201", "title": "Generated streams between a Rust host and its guest", "statement": "A Rust host and its Rust guest carry code generated from one document. When one calls an operation that answers with a stream through its generated client, with arguments that take at most 100 KiB and the index at which the other end serves the operation by its generated wrapper, the values that the caller has been told at any time are the first of those the implementation sent when it ran with exactly the arguments of the call, in the order in which they were sent. What ends them is an error that the implementation sent or returned, a value that takes more than 100 KiB, or the end of the stream; the caller is told which, and when every frame is processed and no task is left it was.", "quantifier": "For all operations that answer with a stream, all implementations, arguments and elements, all serializers of MessagePack, both directions, and all runs of the two ends with at most 2^30-2 calls of each, whatever else they do.", "why_tests_cant": "It joins the generator, the serializer, the channels of the wrapper, the frames, the sockets and their tasks; a test runs one stream over one schedule.", "anchors": ["codegen/src/rust/visitors/provider-visitor.ts", "codegen/src/rust/visitors/service-visitor.ts", "rust/crates/wasmrs/src/socket.rs", "rust/crates/wasmrs-rx/src/flux.rs"]}
{"id": "C202", "title": "A generated Go client calls a generated Rust service of a module", "statement": "One of a host and its WebAssembly guest is written in Go and the other in Rust, with code generated from one document. When the Go end calls an operation that answers once through its generated client, with the index at which the Rust end serves the operation by its generated wrapper, the caller is told the value, or the error, that the implementation returned for exactly the arguments of the call, at most once, and once if it subscribed and all work is done.", "quantifier": "For all type definitions, all operations that answer once, all implementations, arguments and results, all serializers of MessagePack at the Rust end, both ways round, and all runs of the two ends, whatever other calls for one result or none they make.", "why_tests_cant": "It joins two generators, two serializers, two codecs of frames and two sockets; a test runs one module with one call.", "anchors": ["codegen/src/tinygo/invokers_visitor.ts", "codegen/src/rust/visitors/service-visitor.ts", "go/transport/wasmrs/host/caller.go", "rust/crates/wasmrs/src/socket.rs"]}
