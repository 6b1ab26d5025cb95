{
 "claims": [
  {
   "property": "C01",
   "status": "proved",
   "theorems": [
    "Iota.Props.Frames.header_roundtrip",
    "Iota.Props.Frames.header_parse_range"
   ],
   "note": ""
  },
  {
   "property": "C02",
   "status": "partial",
   "theorems": [
    "Iota.Props.Frames.frame_roundtrip_partial",
    "Iota.Props.Frames.frame_roundtrip_exact",
    "Iota.Props.Frames.request_follow_lost_refuted",
    "Iota.Props.Frames.encode_is_rsocket",
    "Iota.Props.Frames.decode_wire"
   ],
   "note": "The round trip holds for every frame up to the fields that the encoder does not put on the wire; request frames lose Follows (refuted with a witness). frame_roundtrip_exact gives the exact inverse under the stated well-formedness condition."
  },
  {
   "property": "C03",
   "status": "proved",
   "theorems": [
    "Iota.Props.Frames.encode_exact"
   ],
   "note": ""
  },
  {
   "property": "C04",
   "status": "partial",
   "theorems": [
    "Iota.Props.Frames.decode_panics_iff_short_partial",
    "Iota.Props.Frames.decode_never_panics_refuted"
   ],
   "note": "The claim is false of the code for buffers shorter than the fixed part of the frame; the partial theorem says exactly which buffers panic."
  },
  {
   "property": "C05",
   "status": "proved",
   "theorems": [
    "Iota.Props.Fragment.payload_fragment",
    "Iota.Props.Fragment.payload_fragment_diverges"
   ],
   "note": ""
  },
  {
   "property": "C06",
   "status": "partial",
   "theorems": [
    "Iota.Props.Fragment.request_fragment_partial",
    "Iota.Props.Fragment.request_fragment_reassembles_partial",
    "Iota.Props.Fragment.request_fragment_duplicates_metadata_refuted"
   ],
   "note": "Reassembly fails when the metadata does not fit in the first fragment (refuted with a witness); proved for the rest."
  },
  {
   "property": "C07",
   "status": "proved",
   "theorems": [
    "Iota.Props.U24.u24_roundtrip",
    "Iota.Props.U24.u24_read_range"
   ],
   "note": ""
  },
  {
   "property": "C08",
   "status": "proved",
   "theorems": [
    "Iota.Props.StreamId.ids_unique",
    "Iota.Props.StreamId.ids_parity",
    "Iota.Props.StreamId.sides_disjoint",
    "Iota.Props.StreamId.next_first_loop",
    "Iota.Props.StreamId.next_steps"
   ],
   "note": ""
  },
  {
   "property": "C09",
   "status": "partial",
   "theorems": [
    "Iota.Props.StreamId.client_never_zero",
    "Iota.Props.StreamId.never_zero_partial",
    "Iota.Props.StreamId.server_zero_refuted"
   ],
   "note": "True for the client side for ever and for the server side for the first 2^30 - 1 draws; the server issues 0 on the next draw (refuted with a witness)."
  },
  {
   "property": "C10",
   "status": "proved",
   "theorems": [
    "Iota.Props.Unbounded.fifo",
    "Iota.Props.Unbounded.reader_drains"
   ],
   "note": ""
  },
  {
   "property": "C100",
   "status": "partial",
   "theorems": [
    "Iota.Props.Codegen.decode_safe_partial",
    "Iota.Props.Codegen.nesting_bound",
    "Iota.Props.Codegen.decode_panic_refuted"
   ],
   "note": "Proved for definitions without optional enums and aliases and inputs without lengths near 2^32; both conditions are needed (decode_panic_refuted; bytes_panic_refuted and skip_diverges_refuted of C27). Memory reserved for announced lengths is not modelled."
  },
  {
   "property": "C101",
   "status": "partial",
   "theorems": [
    "Iota.Props.Codegen.truncated_rejected_partial",
    "Iota.Props.Codegen.truncated_unknown_refuted"
   ],
   "note": "Proved for readers that know all fields of the writer; a message cut in an unknown field may be accepted (refuted)."
  },
  {
   "property": "C102",
   "status": "partial",
   "theorems": [
    "Iota.Props.RustRx.rx_order",
    "Iota.Props.RustRx.rx_nothing_lost",
    "Iota.Props.RustRx.rx_delivers_partial"
   ],
   "note": "The order is proved without conditions; all values arrive while the receiver is in the cell of the reader. Missing: C104."
  },
  {
   "property": "C103",
   "status": "partial",
   "theorems": [
    "Iota.Props.RustRx.end_reported_partial",
    "Iota.Props.RustRx.end_after_senders_partial",
    "Iota.Props.RustRx.own_sender",
    "Iota.Props.RustRx.end_while_waiting_refuted",
    "Iota.Props.RustRx.values_after_end_refuted"
   ],
   "note": "Exact condition for reads that do not overlap. A poll during another pending receive reports the end (refuted); complete does not close the Flux, and what is sent after it is received after the end (refuted)."
  },
  {
   "property": "C104",
   "status": "partial",
   "theorems": [
    "Iota.Props.RustRx.give_up_partial",
    "Iota.Props.RustRx.give_up_refuted"
   ],
   "note": "Polls can be given up. Dropping a pending future of recv drops the receiver: what waits is lost and nothing can be sent any more (refuted)."
  },
  {
   "property": "C105",
   "status": "proved",
   "theorems": [
    "Iota.Props.RustRx.mono_once"
   ],
   "note": "For values pushed to the Mono; Monos made from other futures are not modelled."
  },
  {
   "property": "C106",
   "status": "partial",
   "theorems": [
    "Iota.Props.RustRx.pipe_source_partial",
    "Iota.Props.RustRx.pipe_target_refuted"
   ],
   "note": "The claim is false: the Flux piped into gets nothing (refuted for all sources and numbers of polls). What the pipe gives its own reader is proved."
  },
  {
   "property": "C107",
   "status": "partial",
   "theorems": [
    "Iota.Props.Start.start_operations_partial",
    "Iota.Props.Start.unknown_table_refuted"
   ],
   "note": "For all histories and start behaviours, with names below 2^16 bytes. A table that cannot be read gives an instance without operations instead of an error (refuted)."
  },
  {
   "property": "C108",
   "status": "partial",
   "theorems": [
    "Iota.Props.Start.start_returns_partial",
    "Iota.Props.Start.missing_function_err",
    "Iota.Props.Start.start_calls_host",
    "Iota.Props.Start.no_list_refuted",
    "Iota.Props.Start.many_frames_refuted"
   ],
   "note": "Proved for modules that export __wasmrs_op_list_request and hand over at most 302 bytes of frames while they start. Without this export the host panics, with more than 100 frames the start never returns (refuted)."
  },
  {
   "property": "C109",
   "status": "partial",
   "theorems": [
    "Iota.Props.Start.start_frames_partial",
    "Iota.Props.Start.many_frames_refuted"
   ],
   "note": "Up to 100 frames; with more the start never returns (refuted)."
  },
  {
   "property": "C11",
   "status": "proved",
   "theorems": [
    "Iota.Props.Unbounded.no_accept_after_dispose",
    "Iota.Props.Unbounded.never_sends_on_closed",
    "Iota.Props.Unbounded.closed_means_drained",
    "Iota.Props.Unbounded.reader_never_stuck"
   ],
   "note": ""
  },
  {
   "property": "C110",
   "status": "partial",
   "theorems": [
    "Iota.Props.Start.first_module_partial",
    "Iota.Props.Start.second_module_refuted"
   ],
   "note": "The claim is false: all modules get the name test, and only the first that loads can be started in a host (refuted for all modules). Modules that fail to load leave the host as it was."
  },
  {
   "property": "C111",
   "status": "partial",
   "theorems": [
    "Iota.Props.CodegenDup.repeated_keys_last",
    "Iota.Props.CodegenDup.repeated_fields_last_partial",
    "Iota.Props.CodegenDup.repeated_struct_refuted"
   ],
   "note": "Proved for maps and for fields of all types except those with fields of their own, which are merged with the earlier occurrence (refuted)."
  },
  {
   "property": "C112",
   "status": "partial",
   "theorems": [
    "Iota.Props.Calls.same_operation",
    "Iota.Props.Calls.args_arrive_partial",
    "Iota.Props.Calls.result_arrives_partial",
    "Iota.Props.Calls.element_arrives_partial",
    "Iota.Props.GoTime.times_kept",
    "Iota.Props.GoTime.time_result_arrives_partial"
   ],
   "note": "For operations both ends of which compile (C113), values without absent optional enums (C96), messages below 2^32 bytes, and times of the years 0 to 9999 with offsets in whole minutes (others: C141). The transport between the ends is not part of these theorems; helpers of the code generator that are not in the repository are assumed."
  },
  {
   "property": "C113",
   "status": "partial",
   "theorems": [
    "Iota.Props.Calls.compiles_iff_partial",
    "Iota.Props.Calls.object_stream_refuted",
    "Iota.Props.Calls.collect_refuted",
    "Iota.Props.Calls.unary_refuted",
    "Iota.Props.Calls.number_stream_refuted",
    "Iota.Props.Calls.result_refuted"
   ],
   "note": "The claim is false (refuted for five families of operations). Exactly which operations compile is proved, as far as the types and names of the modelled expressions decide it; import sections are not modelled."
  },
  {
   "property": "C114",
   "status": "partial",
   "theorems": [
    "Iota.Props.Calls.names_partial",
    "Iota.Props.Calls.names_refuted"
   ],
   "note": "False for importing functions and names such as stream or payload (refuted); wrappers do not depend on the names."
  },
  {
   "property": "C115",
   "status": "partial",
   "theorems": [
    "Iota.Props.RustExec.no_work_left_partial",
    "Iota.Props.RustExec.polls_orderly",
    "Iota.Props.RustExec.over_stays",
    "Iota.Props.RustExec.no_crash",
    "Iota.Props.RustExec.other_call_refuted"
   ],
   "note": "For all programs, orders in which tasks join and calls of the host that return. Not after a trap during a poll (C116), and calls other than __wasmrs_send leave their tasks to the next one (refuted). That the calls return is not proved: tasks can wake each other for ever. LocalPool is modelled from its documentation."
  },
  {
   "property": "C116",
   "status": "partial",
   "theorems": [
    "Iota.Props.RustExec.crash_stops_refuted",
    "Iota.Props.RustExec.crash_outside_partial"
   ],
   "note": "The claim is false: after a trap during a poll IS_RUNNING stays set and nothing is polled again (refuted for all programs). Traps outside of polls do no harm."
  },
  {
   "property": "C117",
   "status": "partial",
   "theorems": [
    "Iota.Props.Block.mono_block",
    "Iota.Props.Block.mono_block_again",
    "Iota.Props.Block.just_block",
    "Iota.Props.Block.mono_block_final",
    "Iota.Props.Block.block_cancelled_refuted"
   ],
   "note": "Proved for every run, for mapped Monos too. Missing: cancelled Monos, on which Block waits for ever, or returns no value and no error if the cancellation came first (refuted)."
  },
  {
   "property": "C118",
   "status": "partial",
   "theorems": [
    "Iota.Props.Block.flux_block",
    "Iota.Props.Block.flux_block_partial",
    "Iota.Props.Block.flux_block_again",
    "Iota.Props.Block.flux_block_panics_refuted",
    "Iota.Props.Block.flux_block_fresh_refuted"
   ],
   "note": "What Block does is proved for every run in which no callback is in progress. It panics when a source ends after an element that the transform refused, or when a subscription is cancelled after its end; and Block on a Flux that nobody has subscribed to dereferences nil (both refuted)."
  },
  {
   "property": "C119",
   "status": "partial",
   "theorems": [
    "Iota.Props.Block.proxy_requests",
    "Iota.Props.Block.proxy_once_partial",
    "Iota.Props.Block.proxy_answer_partial",
    "Iota.Props.Block.proxy_block",
    "Iota.Props.Block.proxy_again_refuted",
    "Iota.Props.Block.proxy_overtaken_refuted"
   ],
   "note": "Proved for results used once. Every further Subscribe or Block sends the request again on the same stream, and an earlier Block that is overtaken waits for ever (both refuted). An answer that completes without a value is not passed on."
  },
  {
   "property": "C12",
   "status": "proved",
   "theorems": [
    "Iota.Props.Lookup.lookup_refines",
    "Iota.Props.Lookup.never_misrouted",
    "Iota.Props.Lookup.registered_found",
    "Iota.Props.Lookup.reused_id_refuted"
   ],
   "note": "Stated for histories that never register an id twice, which C08 guarantees; reused_id_refuted shows that the condition is needed."
  },
  {
   "property": "C120",
   "status": "partial",
   "theorems": [
    "Iota.Props.Block.fluxProc_refines",
    "Iota.Props.Block.fluxProc_heard",
    "Iota.Props.Block.fluxProc_sees",
    "Iota.Props.Block.fluxProc_functions",
    "Iota.Props.Block.fluxProc_one_partial",
    "Iota.Props.Block.fluxProc_lost_refuted"
   ],
   "note": "What each subscriber hears is proved for every run, and that functions handed over before the subscription are kept. Everything pushed before the first subscription is lost, the end included (refuted), and each push goes to the last subscriber only."
  },
  {
   "property": "C121",
   "status": "proved",
   "theorems": [
    "Iota.Props.RustHost.table_last",
    "Iota.Props.RustHost.table_none",
    "Iota.Props.RustHost.rust_module_ops",
    "Iota.Props.RustHost.export_found",
    "Iota.Props.RustHost.import_found",
    "Iota.Props.RustHost.ops_stay",
    "Iota.Props.RustHost.go_module_ops_partial"
   ],
   "note": "For every start and run. Tables of Go modules are read if their kinds are known and their names are UTF-8 (C70)."
  },
  {
   "property": "C122",
   "status": "partial",
   "theorems": [
    "Iota.Props.RustHost.start_panics_iff_partial",
    "Iota.Props.RustHost.start_refused",
    "Iota.Props.RustHost.memory_refuted",
    "Iota.Props.RustHost.list_trap_refuted",
    "Iota.Props.RustHost.list_unreadable_refuted",
    "Iota.Props.RustHost.start_call_refuted",
    "Iota.Props.RustHost.pointer_refuted",
    "Iota.Props.RustHost.log_refuted"
   ],
   "note": "Exactly when the start crashes the host is proved. It does so without an exported memory, when the function that lists the operations traps or hands over a table that cannot be read, when the module calls the host, for pointers from 2^31 on, and for log messages that are not UTF-8 (all refuted)."
  },
  {
   "property": "C123",
   "status": "partial",
   "theorems": [
    "Iota.Props.RustHost.host_never_answers_refuted",
    "Iota.Props.RustHost.request_kills_refuted",
    "Iota.Props.RustHost.dead_forever_refuted"
   ],
   "note": "The claim is false: the responder of the host is todo!(). For all runs it never answers a call of a module; a call without or for one result ends the task that hands over frames, after which all local calls crash (refuted)."
  },
  {
   "property": "C124",
   "status": "partial",
   "theorems": [
    "Iota.Props.RustHost.goes_on_partial",
    "Iota.Props.RustHost.goes_on_started_partial",
    "Iota.Props.RustHost.large_frame_refuted",
    "Iota.Props.RustHost.given_up_refuted",
    "Iota.Props.RustHost.dead_forever_refuted"
   ],
   "note": "Proved for modules that make no requests and whose calls of the host are well-formed, traps included, if frames fit the buffer and nobody gives up waiting. An error for a call that was given up, or a frame of more than 4089 bytes, stops the host for good (refuted)."
  },
  {
   "property": "C125",
   "status": "partial",
   "theorems": [
    "Iota.Props.RustHost.handed_in_order",
    "Iota.Props.RustHost.next_handed_partial",
    "Iota.Props.RustHost.host_caller_partial",
    "Iota.Props.RustHost.never_told_refuted"
   ],
   "note": "Order and results are proved for all runs, up to id exhaustion and channels opened under the id of a call (C72). Callers of a module that traps are never told (refuted)."
  },
  {
   "property": "C126",
   "status": "partial",
   "theorems": [
    "Iota.Props.Leak.served_stay_refuted",
    "Iota.Props.Leak.table_grows_refuted",
    "Iota.Props.Leak.nothing_kept",
    "Iota.Props.Leak.ended_gone_partial"
   ],
   "note": "The claim is false for served calls: what the connection sends never removes an entry, so in every run the tables hold at least one entry per served call not ended by a received frame. Proved: requests for one result and refused requests leave nothing; a received frame that ends a call registered once removes its entry, unless the id table can no longer reach it (C20)."
  },
  {
   "property": "C127",
   "status": "partial",
   "theorems": [
    "Iota.Props.Await.await_result_partial",
    "Iota.Props.Await.await_finished",
    "Iota.Props.Await.await_created_refuted",
    "Iota.Props.Await.await_flux_refuted"
   ],
   "note": "Proved for results of calls that are only awaited and for finished monos. Async of everything built by Create is empty: what is only awaited never runs and nobody is told, in every run (refuted)."
  },
  {
   "property": "C128",
   "status": "partial",
   "theorems": [
    "Iota.Props.Await.created_finally_partial",
    "Iota.Props.Await.finished_finally_refuted"
   ],
   "note": "Proved for monos built by Create; fluxes are C18. Just, mono.Error and flux.Error never call Finally (refuted)."
  },
  {
   "property": "C129",
   "status": "proved",
   "theorems": [
    "Iota.Props.RustCodegen.generated_exports"
   ],
   "note": "For every document whose generated code compiles, at most 2^32 operations. The three functions that change the case of names are parameters and have to agree on the names of the document (Agrees): the code writes a constant in one case and refers to it in another."
  },
  {
   "property": "C13",
   "status": "partial",
   "theorems": [
    "Iota.Props.Lookup.ideal_while_oldest_stays_partial",
    "Iota.Props.Lookup.removed_gone_refuted"
   ],
   "note": "False of the code: removing the oldest stream of the table leaves it there (witness). The partial theorem covers histories in which the oldest stream stays."
  },
  {
   "property": "C130",
   "status": "partial",
   "theorems": [
    "Iota.Props.RustCodegen.generated_imports_partial",
    "Iota.Props.RustCodegen.generated_call_reaches_partial",
    "Iota.Props.RustCodegen.generated_channel_refuted",
    "Iota.Props.RustCodegen.joined_names_refuted"
   ],
   "note": "Proved for operations that are not channels, also through the linking of a Go host. Generated functions for channels make a stream request with an index that no stream import has and reach nothing; two operations whose interface and operation names join to the same text give code that does not compile (both refuted for all documents)."
  },
  {
   "property": "C131",
   "status": "partial",
   "theorems": [
    "Iota.Props.RustWrappers.stream_wrapper_partial",
    "Iota.Props.RustWrappers.stream_wrapper_ends_partial",
    "Iota.Props.RustWrappers.stream_wrapper_early_refuted",
    "Iota.Props.RustWrappers.stream_wrapper_failure_refuted",
    "Iota.Props.RustWrappers.stream_wrapper_open_refuted"
   ],
   "note": "Proved once the implementation has returned. Nothing is passed on before, a failure discards what was sent, and a stream whose Flux is returned but not completed never ends (refuted, for all runs)."
  },
  {
   "property": "C132",
   "status": "partial",
   "theorems": [
    "Iota.Props.RustWrappers.channel_outputs_partial",
    "Iota.Props.RustWrappers.channel_inputs_partial",
    "Iota.Props.RustWrappers.channel_outputs_end_partial",
    "Iota.Props.RustWrappers.channel_inputs_end_partial",
    "Iota.Props.RustWrappers.channel_input_failure_refuted",
    "Iota.Props.RustWrappers.channel_failure_refuted"
   ],
   "note": "Order, contents and ends proved in both directions for all interleavings. Errors of the caller's stream look like its end, and failure of the implementation is not told to the caller (refuted, for all runs)."
  },
  {
   "property": "C133",
   "status": "partial",
   "theorems": [
    "Iota.Props.Interop.inputs_arrive_partial",
    "Iota.Props.Interop.unary_object_refuted",
    "Iota.Props.Interop.unary_prim_refuted"
   ],
   "note": "Proved for operations that are not unary, for every serialization whose values the Go reader understands (C193 says which those are). For unary operations the claim is false: Rust sends a map with the name of the parameter, Go expects the value itself; a value of a type arrives with all fields zero and no error, a primitive value is refused. Assumed of the serializer, which is not in the repository: a struct becomes a map of names."
  },
  {
   "property": "C134",
   "status": "partial",
   "theorems": [
    "Iota.Props.Polite.simple_calls_keep_connection_partial",
    "Iota.Props.Polite.refused_fire_and_forget_ends_connection_refuted"
   ],
   "note": "Proved for runs with request-response calls of anything and fire-and-forget calls of operations the other end has, each result subscribed to once, up to 2^30 calls. A fire-and-forget call of an operation the other end does not have always ends the connection of the caller (refuted, for all runs). Streams and channels are not covered by the positive theorem; see C41 for how they crash."
  },
  {
   "property": "C135",
   "status": "partial",
   "theorems": [
    "Iota.Props.Polite.calls_answered_once_partial",
    "Iota.Props.Polite.fire_and_forget_runs_once_partial",
    "Iota.Props.Polite.second_subscription_sends_again_refuted"
   ],
   "note": "Proved for the same runs as C134: at most once always, exactly once when nothing is under way. That handlers and goroutines eventually run is not part of the model. A result that is subscribed to twice sends its request twice (refuted)."
  },
  {
   "property": "C136",
   "status": "partial",
   "theorems": [
    "Iota.Props.Streamed.stream_end_to_end_partial",
    "Iota.Props.Streamed.stream_over_frames",
    "Iota.Props.Streamed.map_failure_ends_connection_refuted"
   ],
   "note": "Proved from the source of the handler's flux through frames, bytes and the caller's tables to the callbacks of the caller's subscriber, for plain and mapped fluxes whose transform does not fail, and one subscriber that does not cancel. When a transform fails and the source goes on, ERROR is followed by PAYLOAD and the caller's connection ends (refuted)."
  },
  {
   "property": "C137",
   "status": "partial",
   "theorems": [
    "Iota.Props.Imports.server_file_imports_partial",
    "Iota.Props.Imports.client_file_imports_partial",
    "Iota.Props.Imports.msgpack_not_imported_refuted",
    "Iota.Props.Imports.nothing_exported_refuted",
    "Iota.Props.Imports.no_arguments_refuted",
    "Iota.Props.Imports.written_unfound_refuted"
   ],
   "note": "Exactly when the imports are right is proved (an equivalence) for both kinds of files and all namespaces whose functions compile by themselves; aliases with an import of their own in the configuration are not modelled. The imports are wrong whenever a unary parameter is primitive, a list or a map (wrappers), no wrapper is written, no importing function has arguments, or functions are written although the generator found none to write (each refuted for all such namespaces)."
  },
  {
   "property": "C138",
   "status": "partial",
   "theorems": [
    "Iota.Props.Channel.channel_input_partial",
    "Iota.Props.Channel.early_input_refuted"
   ],
   "note": "Proved from the source of the caller's input through frames, bytes and the responder's tables to the callbacks of the subscriber of the flux the handler was given, for inputs whose frames arrive after the goroutine of the request and the handler's subscription, without cancellation and without failing transforms. Input that arrives earlier ends the connection or the process (refuted, for all connections and channel requests)."
  },
  {
   "property": "C139",
   "status": "partial",
   "theorems": [
    "Iota.Props.Demand.demand_end_to_end_partial",
    "Iota.Props.Demand.demand_kept_partial",
    "Iota.Props.ProxyFlux.large_demand_refuted",
    "Iota.Props.ProxyFlux.early_demand_lost_refuted"
   ],
   "note": "Proved from the requests of the caller's subscriber to the subscription of the flux that serves the call, as a permutation since the goroutines that carry demand may overtake each other, for demands below 2^32, until a frame ends the stream. Larger demands are cut off, demand that arrives before the goroutine of the request has registered the stream is dropped (both refuted)."
  },
  {
   "property": "C14",
   "status": "proved",
   "theorems": [
    "Iota.Props.Mono.mono_first_signal_decides",
    "Iota.Props.Mono.mono_at_most_once",
    "Iota.Props.Mono.mono_finalizer_last",
    "Iota.Props.Mono.mono_get",
    "Iota.Props.Mono.just_error_once"
   ],
   "note": "Library code between two callbacks is one step of the model."
  },
  {
   "property": "C140",
   "status": "partial",
   "theorems": [
    "Iota.Props.Demand.half_close_partial",
    "Iota.Props.Demand.half_close_refuted"
   ],
   "note": "Refuted for all connections and streams: after the end of one direction, demand for the other is dropped and cancelling it ends the connection. Demand that had arrived before is honoured (proved)."
  },
  {
   "property": "C141",
   "status": "partial",
   "theorems": [
    "Iota.Props.GoTime.text_kept_partial",
    "Iota.Props.GoTime.read_text_partial",
    "Iota.Props.GoTime.relay",
    "Iota.Props.GoTime.calendar",
    "Iota.Props.GoTime.far_refuted",
    "Iota.Props.GoTime.seconds_refuted",
    "Iota.Props.GoTime.pointer_refuted"
   ],
   "note": "time.Format and time.Parse for RFC3339Nano are modelled from their documentation, with the calendar. Proved for years 0 to 9999 and offsets in whole minutes. Refuted for all other years (error), for all offsets with seconds (a different instant, silently), and for StringToTimePtr, which returns a pointer together with an error."
  },
  {
   "property": "C142",
   "status": "partial",
   "theorems": [
    "Iota.Props.FlowRace.once_partial",
    "Iota.Props.FlowRace.at_most_once_partial",
    "Iota.Props.FlowRace.stall_refuted",
    "Iota.Props.FlowRace.again_refuted"
   ],
   "note": "completed is an unguarded counter. Proved: exactly once for every order in which calls of check do not overlap; at most once for every interleaving if the compiler compares the number it wrote. Refuted for all groups of two or more: an interleaving after which the next step is never started; and, if the counter is read again, one in which every operation starts it."
  },
  {
   "property": "C143",
   "status": "partial",
   "theorems": [
    "Iota.Props.Scaffold.fits_partial",
    "Iota.Props.Scaffold.imports_partial",
    "Iota.Props.Scaffold.stream_refuted",
    "Iota.Props.Scaffold.logger_refuted",
    "Iota.Props.Scaffold.package_refuted",
    "Iota.Props.Scaffold.no_code_refuted",
    "Iota.Props.Scaffold.function_refuted"
   ],
   "note": "Exact conditions under which the scaffold fits and imports what it uses. Refuted for all others: operations of services that return streams (Flux of Flux), a configured logger, no configured package, services without code, functions beside services of streams."
  },
  {
   "property": "C144",
   "status": "proved",
   "theorems": [
    "Iota.Props.WasmCalls.calls_get_own_results",
    "Iota.Props.WasmCalls.calls_get_results",
    "Iota.Props.WasmCalls.handlers_run_for_calls",
    "Iota.Props.WasmCalls.simple_calls_never_crash",
    "Iota.Props.WasmCalls.cancelled_stream_crashes_refuted"
   ],
   "note": "For all runs of both ends with calls of all kinds. The transport is a queue of frames, each taken up from any bytes that decode to it. The part about crashes is about request-response and fire and forget only, as stated; with streams it would be false (cancelled_stream_crashes_refuted)."
  },
  {
   "property": "C145",
   "status": "proved",
   "theorems": [
    "Iota.Props.WasmFinish.calls_finish",
    "Iota.Props.WasmFinish.calls_can_finish"
   ],
   "note": "Streams and channels are not among these calls: they crash (C144). The transport is a queue of frames, each taken up from the bytes that its encoder wrote."
  },
  {
   "property": "C146",
   "status": "proved",
   "theorems": [
    "Iota.Props.PoliteFinish.socket_calls_finish",
    "Iota.Props.PoliteFinish.socket_calls_can_finish"
   ],
   "note": "A refused fire and forget call ends the connection (C134). The wire is a queue of frames; that frames survive the byte transport is C147 and the properties about framing."
  },
  {
   "property": "C147",
   "status": "partial",
   "theorems": [
    "Iota.Props.Net.tcp_results_own_partial",
    "Iota.Props.Net.tcp_frames_handled_partial",
    "Iota.Props.Net.tcp_calls_once_partial",
    "Iota.Props.Net.tcp_calls_finish_partial",
    "Iota.Props.Net.tcp_calls_can_finish_partial"
   ],
   "note": "The bytes, the writer, the scanner, the queue of read frames and both peers together. Missing: more than 2^30 calls of a peer; the first theorem is for all kinds of calls and all steps, the others for request-response and known fire and forget calls. A Send is one step (interleaved ones are refuted in C38), frames keep their contents after the next Read (refuted in C59), frames below 4 GB, and the connection does not end."
  },
  {
   "property": "C148",
   "status": "proved",
   "theorems": [
    "Iota.Props.RustPair.rust_requests_handled",
    "Iota.Props.RustPair.rust_callers_told",
    "Iota.Props.RustPair.rust_calls_settle",
    "Iota.Props.RustPair.rust_empty_channel_refuted"
   ],
   "note": "Two complete Rust sockets joined frame by frame. Requests of fire-and-forget, request-response and stream calls run exactly one handler with the caller's bytes; callers are told a prefix of what this handler yielded, all of it when everything is processed, and exactly one result or an end when settled. For the first 2^30-2 calls of each end. Channels are outside the claim; beyond it is shown that one whose input ends before its first element is never announced and never ends."
  },
  {
   "property": "C149",
   "status": "partial",
   "theorems": [
    "Iota.Props.Components.words_counted",
    "Iota.Props.Components.few_words_partial",
    "Iota.Props.Components.only_first_word_refuted",
    "Iota.Props.Components.failed_input_refuted",
    "Iota.Props.Components.short_metadata_refuted"
   ],
   "note": "The component by itself is proved right for all streams of fewer than 2^31 words. The handler around it is right for at most one word (partial); for all longer streams it is refuted: both flags of a port message are 1, so the first word ends the stream, and every count is marked as the last one. A failed input leaves the caller waiting and metadata below three bytes crashes (both refuted for all cases). strings.ToLower and sort.Sort are parameters."
  },
  {
   "property": "C15",
   "status": "partial",
   "theorems": [
    "Iota.Props.Mono.notify_exactly_once",
    "Iota.Props.Mono.notify_signal",
    "Iota.Props.Mono.notify_late_partial",
    "Iota.Props.Mono.notify_inside_onError_refuted"
   ],
   "note": "A function registered from inside the OnError callback is told complete instead of error (refuted with a witness); everything else is proved."
  },
  {
   "property": "C150",
   "status": "partial",
   "theorems": [
    "Iota.Props.Components.single_answers_partial",
    "Iota.Props.Components.concat_joins",
    "Iota.Props.Components.greeter_greets",
    "Iota.Props.Components.silent_refuted",
    "Iota.Props.Components.short_metadata_refuted'"
   ],
   "note": "Proved for all inputs as long as nothing panics. Refuted: an input that ends or fails without a value leaves the result without an end; metadata below three bytes crashes."
  },
  {
   "property": "C151",
   "status": "proved",
   "theorems": [
    "Iota.Props.Mixed.go_requests_handled",
    "Iota.Props.Mixed.go_callers_told",
    "Iota.Props.Mixed.go_calls_settle",
    "Iota.Props.Mixed.rust_requests_handled",
    "Iota.Props.Mixed.rust_callers_told",
    "Iota.Props.Mixed.go_never_crashes"
   ],
   "note": "For request-response and fire and forget calls, up to 2^30-2 of each end. A Go guest that was sent a fire and forget call is outside the claim (C152 shows why). Frames are taken in the order they were sent. An error of a Go handler that is not UTF-8 cannot be decoded by the Rust end, which replies with an error of its own (C178); for a Go host the theorems cover this too and say exactly what is lost, Go guests are assumed to report errors in UTF-8. A Rust end that dropped the receiver of a result still panics when an error arrives (C73)."
  },
  {
   "property": "C152",
   "status": "partial",
   "theorems": [
    "Iota.Props.Mixed.calls_keep_apart_partial",
    "Iota.Props.Mixed.stream_and_call_crash_refuted",
    "Iota.Props.Mixed.forgotten_call_crashes_refuted",
    "Iota.Props.Mixed.cancelled_stream_ends_call_refuted"
   ],
   "note": "Proved for single-result calls (see C151 for the rest of it). Refuted otherwise: both ends draw the same ids and Go keeps served streams and its own calls in one table. A stream that a Go host serves takes the answer to the host's call of the same number, which crashes the host; a fire and forget call does the same to a Go guest; a cancelled stream call of Go ends a Rust call of the same number."
  },
  {
   "property": "C153",
   "status": "proved",
   "theorems": [
    "Iota.Props.MeshCalls.module_calls_get_own_results",
    "Iota.Props.MeshCalls.passed_on_once",
    "Iota.Props.MeshCalls.module_calls_get_results",
    "Iota.Props.MeshCalls.module_calls_run",
    "Iota.Props.MeshCalls.passing_on_works"
   ],
   "note": "For request-response and fire and forget calls between modules; other calls may be made at the same time, but what becomes of streams and channels through a mesh is not part of it. Scheduling inside an instance is that of C144."
  },
  {
   "property": "C154",
   "status": "partial",
   "theorems": [
    "Iota.Props.Customer.customers_greeted_partial",
    "Iota.Props.Customer.modules_linked",
    "Iota.Props.Customer.missing_concat_refuted",
    "Iota.Props.Customer.missing_greeting_refuted"
   ],
   "note": "Proved for meshes in which both imports are linked. The second sentence is false: the flow throws away the errors of the calls it awaits, so without concat it answers Hello, with no name as a success, and without greeting it answers an empty text."
  },
  {
   "property": "C155",
   "status": "partial",
   "theorems": [
    "Iota.Props.Programs.call_runs_place",
    "Iota.Props.Programs.imported_operation_partial",
    "Iota.Props.Programs.wrong_operation_refuted"
   ],
   "note": "False in general: no table of operations is exchanged over a connection, the id of an import is its place among the imports of the caller and is used as a place among the exports of the other program (wrong_operation_refuted). Proved which handler answers in every case, and the claim itself for names that have the same place at both ends. A Send is one step and frames keep their contents, as in C147."
  },
  {
   "property": "C156",
   "status": "partial",
   "theorems": [
    "Iota.Props.Greeter.greeter_greets_partial"
   ],
   "note": "Missing what C147 misses: overlapping Sends (C38) and frames that are kept after the next Read (C59). Depends on sayHello being the first operation that either program declares, see C155."
  },
  {
   "property": "C157",
   "status": "proved",
   "theorems": [
    "Iota.Props.WasmStreams.stream_arrives",
    "Iota.Props.WasmStreams.subscriber_sees",
    "Iota.Props.WasmStreams.cancelled_input_refuted"
   ],
   "note": "Runs keep what the handlers have sent so far; the theorems compare it with what the subscriber was told. CANCEL, which a handler sends to cancel the input of a channel, is taken for the end of its results, so handlers that go on after it are excluded (cancelled_input_refuted). About runs in which neither end has crashed; a cancelled stream crashes the guest (C144, cancelled_stream_crashes_refuted)."
  },
  {
   "property": "C158",
   "status": "proved",
   "theorems": [
    "Iota.Props.MeshStreams.module_stream_arrives"
   ],
   "note": "On top of C157 and C153. The callbacks that send on what a host is told run at any time after, in order. Demand is arbitrary. A host that cancels the input of a channel ends the results as well (C157, cancelled_input_refuted), so this is excluded."
  },
  {
   "property": "C159",
   "status": "proved",
   "theorems": [
    "Iota.Props.WasmInputs.channel_input_arrives",
    "Iota.Props.WasmInputs.handler_input_sees",
    "Iota.Props.WasmInputs.stream_handler_started"
   ],
   "note": "Runs keep what callers sent and which handlers were started. A channel whose caller cancels before it requested anything (a CANCEL without a request) is left out."
  },
  {
   "property": "C16",
   "status": "partial",
   "theorems": [
    "Iota.Props.Mono.processor_delivers",
    "Iota.Props.Mono.processor_first_partial",
    "Iota.Props.Mono.processor_first_refuted"
   ],
   "note": "processor_delivers is exact for all push sequences; the first push does not win when several happen before the subscription (refuted with a witness)."
  },
  {
   "property": "C160",
   "status": "partial",
   "theorems": [
    "Iota.Props.WasmInputs.demand_arrives_partial",
    "Iota.Props.WasmInputs.demand_after_input_refuted"
   ],
   "note": "Proved as long as the caller has neither cancelled nor ended its input. The end of the input removes the stream for both directions, so that demand sent after it is dropped and the results stall (demand_after_input_refuted)."
  },
  {
   "property": "C161",
   "status": "partial",
   "theorems": [
    "Iota.Props.WasmInputs.host_input_partial",
    "Iota.Props.WasmInputs.early_input_lost_refuted"
   ],
   "note": "Proved: what arrives is what was sent, except for a first part that may be lost. A host handles requests in goroutines and drops frames for streams that are not registered yet, so that input and demand sent right after the request can be lost (early_input_lost_refuted). Demand may be passed on in another order; demand after the end of the input is dropped (C160)."
  },
  {
   "property": "C162",
   "status": "proved",
   "theorems": [
    "Iota.Props.Paging.paged_in_order",
    "Iota.Props.Paging.paged_demand",
    "Iota.Props.Paging.paged_ends",
    "Iota.Props.Paging.paged_all",
    "Iota.Props.Paging.fromSlice_yields",
    "Iota.Props.Paging.counter_counts",
    "Iota.Props.Paging.counter_paged",
    "Iota.Props.Paging.counter_never_ends_refuted"
   ],
   "note": "An invariant over the two sides with a weight that falls with every step. The page sizes and the counter's number are bounded as the quantifier says; that the counter does not end with 2^64-1 is proved for all runs."
  },
  {
   "property": "C163",
   "status": "proved",
   "theorems": [
    "Iota.Props.WasmOnce.stream_served_once",
    "Iota.Props.WasmOnce.refused_stream",
    "Iota.Props.WasmOnce.once_placed",
    "Iota.Props.WasmOnce.placed_step",
    "Iota.Props.WasmOnce.heard_told"
   ],
   "note": "The number of places a request of a stream is in (wire, queue, handler, refusal) is an invariant of all runs; together with who said what it gives the single source. That the proxy sends a request once (`first`, flux.go:75-78) is part of the runs considered; an example shows that it is needed."
  },
  {
   "property": "C164",
   "status": "partial",
   "theorems": [
    "Iota.Props.WasmDrain.streams_never_crash_partial",
    "Iota.Props.WasmDrain.streams_finish",
    "Iota.Props.WasmDrain.streams_can_finish",
    "Iota.Props.WasmDrain.guest_demand_crashes_refuted",
    "Iota.Props.WasmDrain.fine_step",
    "Iota.Props.WasmDrain.goes_down",
    "Iota.Props.MeshDrain.mesh_streams_never_crash_partial"
   ],
   "note": "Proved in full: from every state both ends can go on until everything is done with, every order ends after a bounded number of steps, and then everything has arrived. That no end panics is proved if only the host asks for more; it is false for a guest that asks its host for more (guest_demand_crashes_refuted): the host answers REQUEST_N in a goroutine of its own, which may run before the one that serves the stream has stored the subscription. mesh_streams_never_crash_partial says the same of every instance of a mesh."
  },
  {
   "property": "C165",
   "status": "proved",
   "theorems": [
    "Iota.Props.RustProject.runs_iff",
    "Iota.Props.RustProject.builds_iff",
    "Iota.Props.RustProject.calls_own_file",
    "Iota.Props.RustProject.files_declared",
    "Iota.Props.RustProject.actions_kept",
    "Iota.Props.RustProject.run_again",
    "Iota.Props.RustProject.service_suffix_refuted",
    "Iota.Props.RustProject.stale_scaffold_refuted"
   ],
   "note": "The modelled rules of the compiler are those about modules and calls of tasks. Two theorems show what the exact conditions rule out: a service x next to a service x_service can never be built, and neither can a project whose file of an action was generated when the operation had another kind, because such files are left alone. The program that writes the files is not in the repository; that it honours ifNotExists is an assumption."
  },
  {
   "property": "C166",
   "status": "proved",
   "theorems": [
    "Iota.Props.MeshFinish.mesh_calls_finish",
    "Iota.Props.MeshFinish.mesh_calls_can_finish",
    "Iota.Props.MeshFinish.loaded_within"
   ],
   "note": "Streams and channels are not used in these runs. The bound on the steps is explicit (work in Spec/MeshFinish). That hosts subscribe to the results of the calls they pass on is a step that can always be taken; that code of a module resolves in the end is part of what it means that nothing more can be done."
  },
  {
   "property": "C167",
   "status": "proved",
   "theorems": [
    "Iota.Props.Pager.pages_in_order",
    "Iota.Props.Pager.pages_read",
    "Iota.Props.Pager.pages_finish",
    "Iota.Props.Pager.reads_unique"
   ],
   "note": "Model: Model/Pager.lean on top of the machine of Model/Flux.lean (callbacks, goroutines started by Request, the lock). The user code is that of cmd/wordfrequncy with any page size and any condition for stopping. Spec/Pager.lean defines what a reader gets (Reads), which is unique by reads_unique."
  },
  {
   "property": "C168",
   "status": "proved",
   "theorems": [
    "Iota.Props.Pager.frequent_words",
    "Iota.Props.Pager.counted_words",
    "Iota.Props.Pager.reads_frequent",
    "Iota.Props.Pager.pages_finish"
   ],
   "note": "Words are given as a list: reading and splitting the file, and printing, are not modelled. lower is any function and arrange any function that sorts, standing for strings.ToLower and for ranging over a map followed by sort.Sort."
  },
  {
   "property": "C169",
   "status": "partial",
   "theorems": [
    "Iota.Props.Pager.short_read_partial",
    "Iota.Props.Pager.pages_again_refuted"
   ],
   "note": "Proved for lists shorter than a page. False for all others (pages_again_refuted, for every run): SliceResponse drops the page only after sending it, but in WebAssembly the request for the next page is served before that, from within the last OnNext, so the first page is sent again and again without end."
  },
  {
   "property": "C17",
   "status": "proved",
   "theorems": [
    "Iota.Props.Flux.flux_delivers",
    "Iota.Props.Flux.flux_grammar"
   ],
   "note": "For every sequence of source calls, requests, cancellations and callbacks on any goroutines; the library code between two callbacks is taken as one step (data races outside the model)."
  },
  {
   "property": "C170",
   "status": "partial",
   "theorems": [
    "Iota.Props.Wiring.chain_through",
    "Iota.Props.Wiring.sent_on_in_order",
    "Iota.Props.Wiring.wired_partial",
    "Iota.Props.Wiring.wired_refuted",
    "Iota.Props.Wiring.wired_lost_refuted"
   ],
   "note": "chain_through is for chains of any length that are fed after they have asked for their input. wired_partial: the program would print the greeting if its second call named Greeter and the value came late enough. As written both calls carry zeros, so both reach Concat: nothing is printed and the program never ends, for all strings and interleavings (wired_refuted). A value that comes before the second call has asked for input is dropped by the processor (wired_lost_refuted). Transport of the payloads is not part of this model."
  },
  {
   "property": "C171",
   "status": "partial",
   "theorems": [
    "Iota.Props.Maps.flux_maps",
    "Iota.Props.Maps.mono_maps",
    "Iota.Props.Maps.flux_map_ok",
    "Iota.Props.Maps.mono_map_ok",
    "Iota.Props.Maps.just_maps",
    "Iota.Props.Maps.error_maps",
    "Iota.Props.Maps.flux_error_maps",
    "Iota.Props.Maps.block_values",
    "Iota.Props.Maps.block_error_refuted",
    "Iota.Props.Maps.notify_maps_refuted"
   ],
   "note": "The law is proved for all publishers. False is the last sentence: Block of flux.Error that is mapped waits forever, as Finally is never called (block_error_refuted), and functions notified by a mapped mono.Just are told completion although the transformation failed (notify_maps_refuted)."
  },
  {
   "property": "C172",
   "status": "proved",
   "theorems": [
    "Iota.Props.SlicePager.pages_in_order",
    "Iota.Props.SlicePager.pages_read",
    "Iota.Props.SlicePager.pages_finish",
    "Iota.Props.SlicePager.all_pairs"
   ],
   "note": "Both the host (any schedule of goroutines) and WebAssembly (nested calls). Uses the machine of Model/Flux and the subscriber of Model/Pager."
  },
  {
   "property": "C173",
   "status": "proved",
   "theorems": [
    "Iota.Props.Services.host_is_greeted",
    "Iota.Props.Services.count_request",
    "Iota.Props.Services.guest_streams_fail",
    "Iota.Props.Services.host_uppercase_fails"
   ],
   "note": "On top of C153 and C163. When SayHello answers is left open; the four streams that cmd/guest awaits before are covered by guest_streams_fail. That the guest's streams are refused is surely not intended: the host registers its handlers with invoke.Export\u2026, where instances do not look."
  },
  {
   "property": "C174",
   "status": "partial",
   "theorems": [
    "Iota.Props.Upper.strings_changed_partial",
    "Iota.Props.Upper.asks_two_by_two",
    "Iota.Props.Upper.demand_ignored_refuted",
    "Iota.Props.Upper.long_string_refuted"
   ],
   "note": "Proved for inputs that can be read without a crash and results of less than 2^31 bytes. The last sentence is false: what the caller asked for changes nothing about what is sent (demand_ignored_refuted, for all inputs), and a string whose length is given as nearly 2^32 crashes the guest (long_string_refuted). A CANCEL is answered by the end, and after a value that is no string more input is asked for."
  },
  {
   "property": "C175",
   "status": "partial",
   "theorems": [
    "Iota.Props.RustFinish.rust_never_crashes",
    "Iota.Props.RustFinish.rust_calls_finish_partial",
    "Iota.Props.RustFinish.rust_calls_can_finish_partial",
    "Iota.Props.RustFinish.rust_error_channel_refuted"
   ],
   "note": "Proved for inputs of channels that do not begin with an error (Mild in Spec/RustFinish). False otherwise (rust_error_channel_refuted, for all payloads and errors): the first demand is used up by the error, the request is never sent, so the task that sends the input waits for ever and the caller is told nothing. The bound on the steps is explicit (work in Spec/RustFinish). That what the tasks of a socket await is given to them in the end is part of what it means that nothing more can be done."
  },
  {
   "property": "C176",
   "status": "proved",
   "theorems": [
    "Iota.Props.Joined.joined_any_order",
    "Iota.Props.Joined.flow_greets",
    "Iota.Props.Joined.program_greets",
    "Iota.Props.Joined.flow_loses_errors",
    "Iota.Props.Joined.second_subscriber"
   ],
   "note": "One goroutine, as in the program. joined_any_order is the general statement; the others are its consequences for cmd/flow, in any order (flow_greets, flow_loses_errors) and as written (program_greets)."
  },
  {
   "property": "C177",
   "status": "partial",
   "theorems": [
    "Iota.Props.MixedFinish.mixed_calls_finish_partial",
    "Iota.Props.MixedFinish.mixed_calls_can_finish_partial",
    "Iota.Props.MixedFinish.rust_end_never_crashes",
    "Iota.Props.Mixed.go_never_crashes",
    "Iota.Props.Mixed.forgotten_call_crashes_refuted"
   ],
   "note": "Proved for calls for a single result or none, fire and forget only towards a Go host, as in C151: streams and, for Go guests, fire-and-forget calls can crash the Go end (C152, forgotten_call_crashes_refuted). A caller in Rust that drops a result can crash its own end (C73, crash_refuted), hence Undropped. Errors that are not UTF-8 are part of it for a Go host (the Rust caller is told nothing, all else goes on) and excluded for a Go guest (C178). That handlers give a result in the end is part of what it means that nothing more can be done. The bound on the steps is explicit (work in Spec/MixedFinish)."
  },
  {
   "property": "C178",
   "status": "partial",
   "theorems": [
    "Iota.Props.Mixed.readable_error_told_partial",
    "Iota.Props.Mixed.unreadable_error_never_told_refuted",
    "Iota.Props.Mixed.unreadable_error_fails_call_refuted"
   ],
   "note": "Proved for errors in UTF-8. Go puts the bytes of err.Error() into the error frame; the Rust codec refuses them if they are not UTF-8. The caller in Rust is then told nothing, in every run (unreadable_error_never_told_refuted). A Rust guest replies with an error under stream 0, which the Go host ignores; a Rust host replies under the id of the frame, which a Go guest takes for the answer to its own call of that number (unreadable_error_fails_call_refuted, a run)."
  },
  {
   "property": "C179",
   "status": "proved",
   "theorems": [
    "Iota.Props.MeshDrain.mesh_streams_finish",
    "Iota.Props.MeshDrain.mesh_streams_can_finish"
   ],
   "note": "The bound on the steps is explicit (work in Spec/MeshDrain). Cancelling a stream and input of channels beyond demand are left out of these runs. Goes in Spec/MeshDrain says what counts as going on; hosts subscribe to and ask for what they passed on. That a module which asks for more can crash its host (C164, guest_demand_crashes_refuted) is not excluded from the runs: the crashing step is one that does not happen, and the theorems say what becomes of the others."
  },
  {
   "property": "C18",
   "status": "partial",
   "theorems": [
    "Iota.Props.Flux.finalizer_once_partial",
    "Iota.Props.Flux.finalizer_per_cancel",
    "Iota.Props.Flux.finalizer_twice_refuted"
   ],
   "note": "Holds unless the subscription is cancelled after its end or twice; every such cancellation runs the finalizer again (refuted by a concrete run, and counted exactly)."
  },
  {
   "property": "C180",
   "status": "partial",
   "theorems": [
    "Iota.Props.RustChannels.rust_channel_runs",
    "Iota.Props.RustChannels.rust_channel_output_partial",
    "Iota.Props.RustChannels.rust_channel_input_partial",
    "Iota.Props.RustChannels.rust_channel_output_dropped_refuted",
    "Iota.Props.RustChannels.rust_channel_input_dropped_refuted"
   ],
   "note": "Proved as long as caller and handler keep the halves they receive. The last sentence is false: a caller that drops its output sends CANCEL, at which the input of the handler ends as if complete (rust_channel_output_dropped_refuted, a run), and a handler that drops its input sends CANCEL with the next element, at which the output of the caller ends as if complete (rust_channel_input_dropped_refuted, a run). The error of a failing input is replaced by REQUEST_CHANNEL failed (toldInput in Spec/RustChannels). An input that begins with an error is never requested (C175)."
  },
  {
   "property": "C181",
   "status": "partial",
   "theorems": [
    "Iota.Props.OpsTool.table_added_partial",
    "Iota.Props.OpsTool.table_kept",
    "Iota.Props.OpsTool.long_name_added_refuted"
   ],
   "note": "Proved for names shorter than 2^16 bytes. False for longer ones: their length is cut to 16 bits, and the section then lists other operations (long_name_added_refuted, for all names of 65536 bytes). That wabin reads back what it writes, and keeps all custom sections but that of names in order, is a hypothesis; it is met by the library small in Props/OpsTool. Of several such sections the program shows the last and then the first one (table_kept)."
  },
  {
   "property": "C182",
   "status": "partial",
   "theorems": [
    "Iota.Props.Invoke.invoke_runs_partial",
    "Iota.Props.Invoke.invoke_prints",
    "Iota.Props.Invoke.input_reported_partial",
    "Iota.Props.Invoke.unknown_reported_refuted",
    "Iota.Props.Invoke.failure_reported_refuted",
    "Iota.Props.Invoke.integers_refuted"
   ],
   "note": "Proved for arguments of strings, booleans, 64-bit floats, aliases of these, lists, maps with string keys, types and unions with fields, nested to any depth, and optional ones; in any order, with unknown keys. False of the code: integer arguments are never accepted, because JSON numbers are written as floats, which the generated decoders refuse (integers_refuted); unknown operations and failing operations make the command panic instead of returning an error. Missing: 32-bit floats, bytes, times; parsing and printing of JSON and the MessagePack library, whose heads are assumed to be the shortest, are not modelled."
  },
  {
   "property": "C183",
   "status": "partial",
   "theorems": [
    "Iota.Props.Reqres.chars_streams",
    "Iota.Props.Reqres.chars_ends",
    "Iota.Props.Reqres.reverse_answers",
    "Iota.Props.Reqres.reverse_ends",
    "Iota.Props.Reqres.request_single",
    "Iota.Props.Reqres.request_echo_test",
    "Iota.Props.Reqres.request_chars",
    "Iota.Props.Reqres.request_prints_partial",
    "Iota.Props.Reqres.request_failure_refuted",
    "Iota.Props.Reqres.request_reverse_refuted"
   ],
   "note": "The operations are proved in full, for all interleavings. False of the program: a stream or channel that fails is printed as if it had ended (request_failure_refuted); with --channel it sends plain strings, which reverse cannot read, so that nothing is printed (request_reverse_refuted; that no serialized string reads as a structure is its hypothesis). The sockets between program and component are the subject of C175 and C180."
  },
  {
   "property": "C184",
   "status": "partial",
   "theorems": [
    "Iota.Props.BusYaml.bus_says_partial",
    "Iota.Props.BusYaml.multiline_refuted",
    "Iota.Props.BusYaml.colon_refuted",
    "Iota.Props.BusYaml.events_collide_refuted"
   ],
   "note": "Proved for names of letters, digits, `_`, `-` and `.` and descriptions of one line that are plain YAML values, with a reader for the part of YAML that is used. False of the generator: descriptions are not quoted, so that one with several lines (multiline_refuted, also for an operation that is commented out) or with a colon before a space (colon_refuted) makes a file that cannot be read; events of the same name or type in two interfaces give the same key twice (events_collide_refuted)."
  },
  {
   "property": "C185",
   "status": "partial",
   "theorems": [
    "Iota.Props.RustWasi.wasi_told_partial",
    "Iota.Props.RustWasi.wasi_refused",
    "Iota.Props.RustWasi.directory_refuted",
    "Iota.Props.RustWasi.deadlines_stop_refuted",
    "Iota.Props.RustWasi.deadlines_ignored_refuted"
   ],
   "note": "Proved for providers without deadlines, and directories that exist. False of the code: a directory that is not there makes new_context panic (directory_refuted). The deadlines are stored and never set on a store, where the deadline is 0, so that with enable_epoch_interruptions every module is stopped at once (deadlines_stop_refuted), or never if the engine given does not interrupt (deadlines_ignored_refuted). That a store begins with the deadline 0 is what wasmtime documents."
  },
  {
   "property": "C186",
   "status": "partial",
   "theorems": [
    "Iota.Props.FrameSender.frames_carried",
    "Iota.Props.FrameSender.client_frames_partial",
    "Iota.Props.FrameSender.client_step",
    "Iota.Props.FrameSender.own_transport_refuted",
    "Iota.Props.FrameSender.second_transport_refuted",
    "Iota.Props.FrameSender.unset_crashes_refuted",
    "Iota.Props.FrameSender.own_handler_refuted",
    "Iota.Props.FrameSender.own_answer_refuted"
   ],
   "note": "Proved for handlers made by NewClient and Listen. False of the code for NewTransport and NewTCPClientTransport on their own: they make the handler its own frame sender, so that no connection ever carries a frame (own_transport_refuted, second_transport_refuted) and calls are answered by the handlers of the caller's own process (own_handler_refuted, own_answer_refuted). A handler without a transport crashes when it sends (unset_crashes_refuted). Writing to a connection does not fail in the model."
  },
  {
   "property": "C187",
   "status": "partial",
   "theorems": [
    "Iota.Props.Linking.protocol_starts_on_go",
    "Iota.Props.Linking.protocol_starts_on_rust",
    "Iota.Props.Linking.started_on_rust",
    "Iota.Props.Linking.programs_start_partial",
    "Iota.Props.Linking.go_on_rust_refuted",
    "Iota.Props.Linking.log_on_go_refuted",
    "Iota.Props.Linking.no_list_panics_refuted"
   ],
   "note": "Proved for three of the four pairs. False of the code for Go programs on the Rust host: Init in the Go guest library returns a bool, and the host looks for a function without results, so that no Go program starts there (go_on_rust_refuted). Modules that import __console_log do not link on a Go host (log_on_go_refuted). The rules of wazero and wasmtime for linking and calling are from their documentation; the types that TinyGo and Rust give to exported functions are those of their C ABI."
  },
  {
   "property": "C188",
   "status": "partial",
   "theorems": [
    "Iota.Props.Twins.twin_exports_partial",
    "Iota.Props.Twins.twin_handlers_partial",
    "Iota.Props.Twins.twin_imports_partial",
    "Iota.Props.Twins.twin_tables_partial",
    "Iota.Props.Twins.rust_calls_go_partial",
    "Iota.Props.Twins.refused_refuted",
    "Iota.Props.Twins.kind_style",
    "Iota.Props.Twins.rxStyle_calls"
   ],
   "note": "The export lists of the two modules are equal, with indices, for every document the Rust generator takes; each index leads to the wrapper of the same operation in both; the imports agree up to their indices; without providers a host reads the same table from either; a Rust client reaches the handler of a Go service in any mesh. refused_refuted: the Rust generator writes nothing for a document with an operation that takes a stream and something else, or a stream without answering with one, while the Go generator exports it as a channel. Missing: channels called from Rust (C130), functions of a namespace, @nocode and @rename, and whether the Go compiler takes what is generated (C112)."
  },
  {
   "property": "C189",
   "status": "partial",
   "theorems": [
    "Iota.Props.RustInputs.go_args_read_partial",
    "Iota.Props.RustInputs.unary_object_refuted",
    "Iota.Props.RustInputs.unary_prim_refuted",
    "Iota.Props.RustInputs.no_args_refuted",
    "Iota.Props.RustInputs.inputs_all",
    "Iota.Props.RustInputs.wire_unique",
    "Iota.Props.RustInputs.parse_wire"
   ],
   "note": "Proved for operations in the ordinary form with at least one parameter and no stream: the map that is read holds exactly the arguments under their names. False of the code for unary operations, where the Go client sends the argument alone (unary_object_refuted, unary_prim_refuted), and for operations without parameters, where it sends no data (no_args_refuted): every such call fails. Missing: what serde makes of the value of a field; serde and wasm_msgpack are taken to follow the MessagePack convention of serde."
  },
  {
   "property": "C19",
   "status": "partial",
   "theorems": [
    "Iota.Props.FluxSlice.slice_prefix_partial",
    "Iota.Props.FluxSlice.slice_delivers_partial",
    "Iota.Props.FluxSlice.slice_second_refuted"
   ],
   "note": "For the only subscriber, any demand and any interleaving; a second subscriber only gets what the first one left (refuted)."
  },
  {
   "property": "C190",
   "status": "partial",
   "theorems": [
    "Iota.Props.RustOutputs.go_result_read_partial",
    "Iota.Props.RustOutputs.time_result_refuted",
    "Iota.Props.RustOutputs.void_result_refuted"
   ],
   "note": "Proved for every operation whose Go wrapper compiles, for results and elements of streams that are neither a time nor nothing: the client reads the MessagePack value of the result. False of the code for times, which are answered as text and expected as timestamps (time_result_refuted), and for operations without result, which are answered with no data where a MessagePack value is read (void_result_refuted; whether the reader for () minds is up to wasm_msgpack). Missing: what serde makes of the value."
  },
  {
   "property": "C191",
   "status": "partial",
   "theorems": [
    "Iota.Props.RustClient.call_made_partial",
    "Iota.Props.RustClient.large_call_refuted",
    "Iota.Props.RustClient.large_stream_refuted",
    "Iota.Props.RustClient.answer_size",
    "Iota.Props.RustClient.weight_le"
   ],
   "note": "Proved for arguments and results of at most 100 KiB. False of the code for larger ones, whatever the serializer: a call that answers once fails, one that answers with a stream panics, a result is replaced with an error. The serializer, wasm_msgpack, is a parameter."
  },
  {
   "property": "C192",
   "status": "proved",
   "theorems": [
    "Iota.Props.RustOnce.once_wrapper_safe",
    "Iota.Props.RustOnce.once_wrapper_live",
    "Iota.Props.RustOnce.once_dropped"
   ],
   "note": "For every run of the events. once_dropped: if the Mono were dropped while the implementation runs, the task would panic when it returns; the socket of the library does not drop it."
  },
  {
   "property": "C193",
   "status": "partial",
   "theorems": [
    "Iota.Props.TypedReads.foreign_read_partial",
    "Iota.Props.TypedReads.foreign_inputs_partial",
    "Iota.Props.TypedReads.typed_reads_partial",
    "Iota.Props.TypedReads.timestamp_reads",
    "Iota.Props.TypedReads.signed_refuted",
    "Iota.Props.TypedReads.signed_writable",
    "Iota.Props.TypedReads.understood_prim",
    "Iota.Props.TypedReads.ser_wire",
    "Iota.Props.TypedReads.all_serializable"
   ],
   "note": "Proved for all types: every format for every part, fields in any order, left out or unknown. foreign_inputs_partial: the arguments of a call reach a Go service likewise. False of the code for signed integers: their readers refuse the formats for unsigned integers, which every value from 0 on may be written in and many writers do (signed_refuted, signed_writable). Missing: unknown fields that contain extensions with long headers (C29)."
  },
  {
   "property": "C194",
   "status": "partial",
   "theorems": [
    "Iota.Props.RustResults.foreign_result_partial",
    "Iota.Props.RustResults.time_result_refuted",
    "Iota.Props.RustResults.void_result"
   ],
   "note": "Proved for results that are not times, and serializations without signed integers in the formats for unsigned ones (false otherwise, C193). False of the code for times, which a Rust service answers with a timestamp and a Go client refuses in every format (time_result_refuted). That the Rust serializer writes one of the serializations of Spec/Foreign is assumed."
  },
  {
   "property": "C195",
   "status": "partial",
   "theorems": [
    "Iota.Props.GoRustCall.whole_call_partial",
    "Iota.Props.GoRustCall.started_with_request",
    "Iota.Props.GoRustCall.whole_call_go_partial",
    "Iota.Props.GoRustCall.whole_call_go_error"
   ],
   "note": "Proved in both directions for operations with arguments that are not unary and whose result is neither nothing nor a time, for serializations without signed integers in the formats for unsigned ones. Outside of that it is false of the code: C133, C189 (unary), C190, C194 (times and no result), C193 (signed integers). The implementation in Go is a function of its arguments; that in Rust is any code. The connection between the two ends is not part of this (C151, C177). That the Rust serializer writes one of the serializations of Spec/Foreign is assumed."
  },
  {
   "property": "C196",
   "status": "partial",
   "theorems": [
    "Iota.Props.GoCall.go_call_partial",
    "Iota.Props.GoCall.unread_call"
   ],
   "note": "Proved for operations of which both ends compile (which is not all of them, C113 and C114), values without absent optional enums and aliases, and times as results only if time.Parse gives them back. The implementation is a function of its arguments. The connection between the two ends is not part of this (C146, C147, C155)."
  },
  {
   "property": "C197",
   "status": "proved",
   "theorems": [
    "Iota.Props.RustCall.rust_call"
   ],
   "note": "Arguments and results are MessagePack values; that serializer and reader, which are not in the repository, write and read MessagePack, and that a struct is a map of its fields, is assumed. What the types of the document make of the values is not modelled. The connection between the two ends is not part of this (C148, C175)."
  },
  {
   "property": "C198",
   "status": "partial",
   "theorems": [
    "Iota.Props.Generated.generated_call_partial",
    "Iota.Props.Generated.answer_told"
   ],
   "note": "Proved for operations that the caller has imported in the place in which the other program has exported them; false otherwise (C155). Missing also what C147 is missing (overlapping Sends, C38, and frames that are kept after the next Read, C59), and operations that do not compile (C113, C114). The implementations are functions of their arguments."
  },
  {
   "property": "C199",
   "status": "partial",
   "theorems": [
    "Iota.Props.GeneratedWasm.generated_wasm_call_partial",
    "Iota.Props.GeneratedWasm.advertised_wasm_call_partial",
    "Iota.Props.GeneratedWasm.made_fits"
   ],
   "note": "Proved while fewer streams have been opened than there are identifiers. Missing operations that do not compile (C113, C114) and absent optional enums and aliases (C196). The implementations are functions of their arguments; that the index of the call is the index at the other end is a hypothesis (see C155), but for calls of the host by the table of the guest."
  },
  {
   "property": "C20",
   "status": "partial",
   "theorems": [
    "Iota.Props.Flux.map_flux_partial",
    "Iota.Props.Flux.map_flux_first_failure_partial",
    "Iota.Props.Flux.map_flux_failure_refuted"
   ],
   "note": "Holds for transforms that do not fail, and up to the first failure; after a failure values and the end of the source are still delivered and the finalizer runs twice (refuted)."
  },
  {
   "property": "C200",
   "status": "proved",
   "theorems": [
    "Iota.Props.RustGenerated.rust_generated_call"
   ],
   "note": "Arguments and results are MessagePack values; that serializer and reader, which are not in the repository, write and read MessagePack, and that a struct is a map of its fields, is assumed. What the types of the document make of the values is not modelled. That the other end serves the operation by its wrapper at the index of the call is part of the claim (see C129, C130 for when it does). An error without text is told as `Error frame with no data`."
  },
  {
   "property": "C201",
   "status": "proved",
   "theorems": [
    "Iota.Props.RustStreams.rust_generated_stream",
    "Iota.Props.RustStreams.heard_all",
    "Iota.Props.RustStreams.wrapper_told"
   ],
   "note": "Assumptions as for C200. If the implementation returns an error, the caller is told only that and none of the values (C131), which is a beginning of them. That no task is left is part of the claim: the task of a stream whose implementation neither completes it nor drops its senders stays (C131)."
  },
  {
   "property": "C202",
   "status": "partial",
   "theorems": [
    "Iota.Props.MixedGenerated.mixed_call_partial"
   ],
   "note": "Missing: operations without parameters, unary ones, those that answer nothing or with a time (C190, C194). Proved while identifiers are not used up, frames fit, and both ends make only calls for one result or none, with the exceptions of C151. Assumptions about serializer and reader as for C195."
  },
  {
   "property": "C21",
   "status": "partial",
   "theorems": [
    "Iota.Props.Mono.map_mono_partial",
    "Iota.Props.Mono.map_mono_signal_refuted"
   ],
   "note": "The finalizer is told complete when the transform failed (refuted with a witness); the delivered outcome is proved right in all cases."
  },
  {
   "property": "C22",
   "status": "partial",
   "theorems": [
    "Iota.Props.Flow.flow_ordered_partial",
    "Iota.Props.Flow.flow_complete_partial",
    "Iota.Props.Flow.flow_no_crash_partial",
    "Iota.Props.Flow.flow_again_refuted",
    "Iota.Props.Flow.flow_skips_refuted",
    "Iota.Props.Flow.flow_crash_refuted",
    "Iota.Props.Flow.flow_stall_refuted"
   ],
   "note": "Holds when awaited operations finish after the flow has registered with the whole group. When they have finished already the step is run again, a later step may be skipped or the process crashes; a step that awaits nothing stalls the flow (all refuted by concrete runs)."
  },
  {
   "property": "C23",
   "status": "proved",
   "theorems": [
    "Iota.Props.Msgpack.item_round_trip",
    "Iota.Props.Msgpack.items_round_trip"
   ],
   "note": ""
  },
  {
   "property": "C24",
   "status": "partial",
   "theorems": [
    "Iota.Props.Msgpack.sizes_exact_partial",
    "Iota.Props.Msgpack.any_sizes_exact_partial",
    "Iota.Props.Msgpack.sizes_exact_refuted",
    "Iota.Props.Msgpack.any_time_refuted"
   ],
   "note": "False for byte strings of 255 or 65535 bytes, for which the sizer reports one header size and the encoder writes another, and for dynamic times (refuted with witnesses); exact for everything else, with maps iterated in different orders by the two passes."
  },
  {
   "property": "C25",
   "status": "partial",
   "theorems": [
    "Iota.Props.Msgpack.any_round_trip_partial",
    "Iota.Props.Msgpack.any_round_trip_in_context_partial",
    "Iota.Props.Msgpack.any_round_trip_refuted"
   ],
   "note": "False for dynamic values outside Plain/Readable (refuted with a witness); proved for every value of the remaining types at any depth."
  },
  {
   "property": "C26",
   "status": "proved",
   "theorems": [
    "Iota.Props.Msgpack.int_not_truncated",
    "Iota.Props.Msgpack.uint_not_truncated"
   ],
   "note": ""
  },
  {
   "property": "C27",
   "status": "partial",
   "theorems": [
    "Iota.Props.Msgpack.scalars_safe_partial",
    "Iota.Props.Msgpack.typed_calls_safe_partial",
    "Iota.Props.Msgpack.calls_safe_partial",
    "Iota.Props.Msgpack.any_returns_partial",
    "Iota.Props.Msgpack.truncated_reported",
    "Iota.Props.Msgpack.any_truncated_reported",
    "Iota.Props.Msgpack.bytes_panic_refuted",
    "Iota.Props.Msgpack.key_panic_refuted",
    "Iota.Props.Msgpack.skip_diverges_refuted",
    "Iota.Props.Msgpack.skip_truncated_refuted"
   ],
   "note": "False of the code: lengths near 2^32 wrap around (panic, endless loop), slices as map keys panic, Skip ignores errors (refuted with witnesses). The partial theorems say which inputs are safe, with unconditional safety for scalar calls."
  },
  {
   "property": "C28",
   "status": "proved",
   "theorems": [
    "Iota.Props.Msgpack.range_errors_stick"
   ],
   "note": ""
  },
  {
   "property": "C29",
   "status": "partial",
   "theorems": [
    "Iota.Props.Msgpack.skip_exact_partial",
    "Iota.Props.Msgpack.skip_any_partial",
    "Iota.Props.Msgpack.skip_item_partial",
    "Iota.Props.Msgpack.skip_time_refuted"
   ],
   "note": "Skip rejects times in the 12-byte form, which the encoder writes (refuted with a witness); proved for all other values."
  },
  {
   "property": "C30",
   "status": "proved",
   "theorems": [
    "Iota.Props.Msgpack.time_round_trip",
    "Iota.Props.Msgpack.item_round_trip"
   ],
   "note": ""
  },
  {
   "property": "C31",
   "status": "proved",
   "theorems": [
    "Iota.Props.Operations.toBytes_format",
    "Iota.Props.Operations.fromBytes_format",
    "Iota.Props.Operations.table_round_trip"
   ],
   "note": "For namespaces and operation names of at most 65535 bytes, which the format can hold; long_name_refuted shows that longer names do not survive."
  },
  {
   "property": "C32",
   "status": "proved",
   "theorems": [
    "Iota.Props.Registry.advertised_index_reaches_handler",
    "Iota.Props.Registry.advertised_index_unique"
   ],
   "note": ""
  },
  {
   "property": "C33",
   "status": "proved",
   "theorems": [
    "Iota.Props.Registry.import_ids"
   ],
   "note": ""
  },
  {
   "property": "C34",
   "status": "proved",
   "theorems": [
    "Iota.Props.Registry.live_instances",
    "Iota.Props.Registry.live_until_removed",
    "Iota.Props.Registry.removed_is_gone",
    "Iota.Props.Registry.stale_handle_witness"
   ],
   "note": "Addresses of live objects are distinct; the address of a freed object may be used again."
  },
  {
   "property": "C35",
   "status": "partial",
   "theorems": [
    "Iota.Props.Registry.port_round_trip_partial",
    "Iota.Props.Registry.port_round_trip_equal_flags_partial",
    "Iota.Props.Registry.port_flags_refuted"
   ],
   "note": "The encoder mixes up the two flags (refuted with a witness); everything else survives."
  },
  {
   "property": "C36",
   "status": "proved",
   "theorems": [
    "Iota.Props.Framing.framing_roundtrip",
    "Iota.Props.Framing.chunking_irrelevant",
    "Iota.Props.Framing.oversize_panics"
   ],
   "note": "Frames at the moment they are read (what happens to them later is C59), as decoding defines them (C02). bufio.Scanner and bufio.Writer are modelled including buffer moves and growth; ErrTooLong is shown unreachable."
  },
  {
   "property": "C37",
   "status": "partial",
   "theorems": [
    "Iota.Props.Framing.complete_frames_delivered_partial",
    "Iota.Props.Framing.delivered_is_prefix",
    "Iota.Props.Framing.eof_with_data_refuted"
   ],
   "note": "Refuted for connections that report end of stream together with the last bytes (as crypto/tls does): buffered complete frames are dropped. Proved when the end is reported by a call of its own; safety (only a prefix of the sent frames, never an unfinished one) holds always."
  },
  {
   "property": "C38",
   "status": "partial",
   "theorems": [
    "Iota.Props.Framing.serialised_sends_partial",
    "Iota.Props.Framing.concurrent_sends_refuted"
   ],
   "note": "Refuted: Write does two unlocked writes, so two senders can interleave. Proved for any number of goroutines whenever the two writes of each send are adjacent."
  },
  {
   "property": "C39",
   "status": "proved",
   "theorems": [
    "Iota.Props.Handler.request_dispatched",
    "Iota.Props.Handler.request_frame_starts_task",
    "Iota.Props.Handler.every_request_answered_once"
   ],
   "note": "For any interleaving of frames and request goroutines."
  },
  {
   "property": "C40",
   "status": "partial",
   "theorems": [
    "Iota.Props.Handler.frame_acts_on_own_stream",
    "Iota.Props.Handler.unknown_stream_changes_nothing",
    "Iota.Props.Handler.own_stream_decides",
    "Iota.Props.Handler.unknown_stream_ends_connection_refuted"
   ],
   "note": "Tables, objects and events of other streams are untouched. Refuted for the connection as a whole: HandleFrame reports an error for an unknown stream and the transport closes the connection, e.g. when a request-response is cancelled."
  },
  {
   "property": "C41",
   "status": "partial",
   "theorems": [
    "Iota.Props.Handler.handle_panics_iff",
    "Iota.Props.Handler.recv_panics_iff",
    "Iota.Props.Handler.rr_only_never_crashes_partial",
    "Iota.Props.Handler.cancel_stream_crashes_refuted",
    "Iota.Props.Handler.request_n_mono_crashes_refuted",
    "Iota.Props.Handler.early_request_n_crashes_refuted",
    "Iota.Props.Handler.fire_and_forget_crashes_refuted",
    "Iota.Props.Handler.request_n_flux_crashes_refuted"
   ],
   "note": "False of the code in five ways (refuted with runs). handle_panics_iff and recv_panics_iff say exactly which frames crash the process, and connections used for request-response only never crash on payload, error and cancel frames."
  },
  {
   "property": "C42",
   "status": "partial",
   "theorems": [
    "Iota.Props.Peers.responses_reach_own_callers_partial",
    "Iota.Props.Peers.calls_distinct",
    "Iota.Props.Peers.responses_misrouted_refuted"
   ],
   "note": "Proved for at most 2^30 calls per side, in any interleaving; refuted beyond, where stream ids are used again while the first call is still open."
  },
  {
   "property": "C43",
   "status": "partial",
   "theorems": [
    "Iota.Props.ProxyFlux.remote_demand_partial",
    "Iota.Props.ProxyFlux.large_demand_refuted",
    "Iota.Props.ProxyFlux.request_first_refuted"
   ],
   "note": "Proved for requests of 0 to 2^32-1 elements after subscribing; refuted for larger ones, which are truncated."
  },
  {
   "property": "C44",
   "status": "proved",
   "theorems": [
    "Iota.Props.Wasm.guest_receives_sent",
    "Iota.Props.Wasm.sent_in_order",
    "Iota.Props.Wasm.open_never_panics"
   ],
   "note": "For all frames that fit the buffer (what happens to others is C64) and all interleavings of sending, closing and both loops."
  },
  {
   "property": "C45",
   "status": "partial",
   "theorems": [
    "Iota.Props.WasmRecv.guest_frame_delivered_partial",
    "Iota.Props.WasmRecv.buffers_handled_in_order",
    "Iota.Props.WasmRecv.hostSend_several",
    "Iota.Props.WasmRecv.two_frames_refuted"
   ],
   "note": "Proved for one frame per call of hostSend, which is what the Go guest does; refuted for several frames in one call."
  },
  {
   "property": "C46",
   "status": "partial",
   "theorems": [
    "Iota.Props.Wasm.close_crashes_iff",
    "Iota.Props.Wasm.close_unused_safe_partial",
    "Iota.Props.Wasm.close_while_sending_refuted",
    "Iota.Props.Wasm.send_after_close_refuted"
   ],
   "note": "Exactly when closing crashes is proved; the claim is refuted for closing while a frame is being sent and sending after closing."
  },
  {
   "property": "C47",
   "status": "partial",
   "theorems": [
    "Iota.Props.Wasm.loops_go_on_partial",
    "Iota.Props.Wasm.loops_come_to_rest_partial",
    "Iota.Props.Wasm.loops_deadlock_refuted"
   ],
   "note": "Proved while the queues have room; refuted: both queues full and the loops wait for each other for ever."
  },
  {
   "property": "C48",
   "status": "partial",
   "theorems": [
    "Iota.Props.Mesh.linking_complete_partial",
    "Iota.Props.Mesh.linking_order_partial",
    "Iota.Props.Mesh.linking_odd_imports_refuted"
   ],
   "note": "Proved for all load histories of imports of the four kinds with indices below 2^32-1; refuted for the largest index (crash) and unknown kinds."
  },
  {
   "property": "C49",
   "status": "partial",
   "theorems": [
    "Iota.Props.Mesh.mesh_calls_newest",
    "Iota.Props.Mesh.module_calls_newest_partial",
    "Iota.Props.Mesh.module_calls_old_refuted"
   ],
   "note": "Proved for calls on the mesh, and between modules when the operation is loaded once; refuted for calls between modules after a reload: they go to the old, closed instance."
  },
  {
   "property": "C50",
   "status": "partial",
   "theorems": [
    "Iota.Props.Uuid.parse_forms",
    "Iota.Props.Uuid.text_round_trip",
    "Iota.Props.Uuid.parse_exact_partial",
    "Iota.Props.Uuid.text_lower_case",
    "Iota.Props.Uuid.braces_not_checked_refuted"
   ],
   "note": "The round trip is proved for every form in either letter case; Parse also accepts any two characters in place of the braces (refuted with a witness), and the partial theorem says exactly what is accepted."
  },
  {
   "property": "C51",
   "status": "proved",
   "theorems": [
    "Iota.Props.Uuid.random_layout",
    "Iota.Props.Uuid.v4_bits"
   ],
   "note": ""
  },
  {
   "property": "C52",
   "status": "proved",
   "theorems": [
    "Iota.Props.Uuid.blocks_disjoint",
    "Iota.Props.Uuid.blocks_successive"
   ],
   "note": "Also with the pool switched on and off and with failing reads."
  },
  {
   "property": "C53",
   "status": "proved",
   "theorems": [
    "Iota.Props.Uuid.readings_distinct",
    "Iota.Props.Uuid.readings_pairwise_distinct",
    "Iota.Props.Uuid.readings_wrap_witness",
    "Iota.Props.UuidTime.set_sequence"
   ],
   "note": "Histories of GetTime; readings_wrap_witness shows that the bound is sharp; set_sequence covers SetClockSequence."
  },
  {
   "property": "C54",
   "status": "partial",
   "theorems": [
    "Iota.Props.Sections.sections_read_partial",
    "Iota.Props.Sections.sections_read_sound",
    "Iota.Props.Sections.empty_last_refuted"
   ],
   "note": "An error is reported for a wanted section without contents at the end of the binary (refuted with a witness); all other well-formed binaries are read exactly, and whatever is read is well-formed. LEB128 decoding is an external library, modelled from the WebAssembly specification."
  },
  {
   "property": "C55",
   "status": "partial",
   "theorems": [
    "Iota.Props.Registry.handler_table_partial",
    "Iota.Props.Registry.largest_index_refuted"
   ],
   "note": "The largest 32-bit index wraps the table size (refuted with a witness); proved for all others."
  },
  {
   "property": "C56",
   "status": "partial",
   "theorems": [
    "Iota.Props.Msgpack.optional_round_trip_partial",
    "Iota.Props.Msgpack.convert_some_partial",
    "Iota.Props.Msgpack.convert_nil_refuted",
    "Iota.Props.Msgpack.convert_error_refuted",
    "Iota.Props.Msgpack.parse_nil",
    "Iota.Props.Msgpack.parse_some",
    "Iota.Props.Msgpack.parse_bad",
    "Iota.Props.Msgpack.parse_error"
   ],
   "note": "The nillable readers are right for all types. The conversions NillableString, NillableBool and NillableNumeric panic on nil (refuted)."
  },
  {
   "property": "C57",
   "status": "partial",
   "theorems": [
    "Iota.Props.Transform.string_inverse",
    "Iota.Props.Transform.bytes_inverse",
    "Iota.Props.Transform.bool_inverse",
    "Iota.Props.Transform.int_inverse",
    "Iota.Props.Transform.uint_inverse",
    "Iota.Props.Transform.float_inverse",
    "Iota.Props.Transform.void_inverse",
    "Iota.Props.Transform.codec_inverse",
    "Iota.Props.Transform.slice_inverse",
    "Iota.Props.Transform.interface_inverse",
    "Iota.Props.GoTime.time_inverse_partial",
    "Iota.Props.GoTime.time_inverse_refuted"
   ],
   "note": "Proved for every transform except Time; for Time exactly for years 0 to 9999 and offsets in whole minutes, refuted for all other times. time.Format and time.Parse are modelled from their documentation."
  },
  {
   "property": "C58",
   "status": "partial",
   "theorems": [
    "Iota.Props.Operations.accepted_is_format_partial",
    "Iota.Props.Operations.truncated_table_panics_refuted",
    "Iota.Props.Operations.reserved_overflow_refuted"
   ],
   "note": "What is accepted without crashing is a table that describes the result. False of the code that everything else is an error: truncated tables crash the host (refuted with witnesses)."
  },
  {
   "property": "C59",
   "status": "partial",
   "theorems": [
    "Iota.Props.Framing.frames_stay_intact_partial",
    "Iota.Props.Framing.late_frame_corrupt_refuted"
   ],
   "note": "Refuted: decoded frames alias the scanner's buffer, which later reads move; a queued frame shows another frame's bytes. Proved for streams of at most 4096 bytes."
  },
  {
   "property": "C60",
   "status": "partial",
   "theorems": [
    "Iota.Props.Handler.handler_metadata_partial",
    "Iota.Props.Handler.handler_metadata_refuted"
   ],
   "note": "Streams and channels get the routing bytes as well (refuted)."
  },
  {
   "property": "C61",
   "status": "partial",
   "theorems": [
    "Iota.Props.Handler.failed_stream_crashes_refuted",
    "Iota.Props.Handler.live_stream_starts_partial"
   ],
   "note": "Refuted: the subscription of a failed flux is nil and is called. Proved for fluxes that have a subscription."
  },
  {
   "property": "C62",
   "status": "partial",
   "theorems": [
    "Iota.Props.Handler.whole_payload_delivered_partial",
    "Iota.Props.Handler.fragments_dropped_refuted"
   ],
   "note": "Refuted: HandleFrame ignores Follows and drops all but the last fragment. Proved for payloads that are not fragmented."
  },
  {
   "property": "C63",
   "status": "partial",
   "theorems": [
    "Iota.Props.Demand.demand_kept_partial",
    "Iota.Props.ProxyFlux.demand_reaches_flux_partial",
    "Iota.Props.ProxyFlux.early_demand_lost_refuted"
   ],
   "note": "Demand that arrives before the handler has returned is lost or crashes the process (refuted). From the registration of the stream to the first frame that ends it, all demand is passed on, each request once (proved for all executions)."
  },
  {
   "property": "C64",
   "status": "partial",
   "theorems": [
    "Iota.Props.WasmRecv.too_large_lost_refuted",
    "Iota.Props.WasmRecv.large_metadata_crashes_refuted",
    "Iota.Props.WasmRecv.too_large_corrupt_refuted",
    "Iota.Props.Wasm.guest_receives_sent",
    "Iota.Props.Wasm.open_never_panics"
   ],
   "note": "Refuted in both directions; frames that fit are delivered."
  },
  {
   "property": "C65",
   "status": "partial",
   "theorems": [
    "Iota.Props.WasmPool.other_frames_intact_partial",
    "Iota.Props.WasmPool.requests_intact_partial",
    "Iota.Props.WasmPool.request_overwritten_refuted"
   ],
   "note": "Proved for frames other than requests, and for requests whose buffer is not handed out again before their goroutine runs; refuted otherwise."
  },
  {
   "property": "C66",
   "status": "partial",
   "theorems": [
    "Iota.Props.Mesh.link_same_kind_partial",
    "Iota.Props.Mesh.link_other_kind_refuted"
   ],
   "note": "Proved when every name is used with one kind only; refuted otherwise."
  },
  {
   "property": "C67",
   "status": "partial",
   "theorems": [
    "Iota.Props.Mesh.mesh_routes_partial",
    "Iota.Props.Mesh.route_panics_iff",
    "Iota.Props.Mesh.mesh_short_metadata_refuted"
   ],
   "note": "Proved for metadata of at least eight bytes, as calls between modules have; refuted for calls on the mesh with less."
  },
  {
   "property": "C68",
   "status": "proved",
   "theorems": [
    "Iota.Props.RustFrames.same_bytes"
   ],
   "note": "Every legal frame, into every large enough buffer."
  },
  {
   "property": "C69",
   "status": "partial",
   "theorems": [
    "Iota.Props.RustFrames.same_reading_partial",
    "Iota.Props.RustFrames.go_to_rust_partial",
    "Iota.Props.RustFrames.rust_to_go_partial",
    "Iota.Props.RustFrames.isUtf8_string",
    "Iota.Props.RustFrames.error_text_refuted",
    "Iota.Props.RustFrames.unknown_type_refuted",
    "Iota.Props.RustFrames.request_defaults_refuted"
   ],
   "note": "For every byte string, except error frames whose text is not UTF-8 (the Rust side rejects them) and frames of unknown type (the Go side reports an error, the Rust side crashes); all three disagreements are shown by concrete bytes."
  },
  {
   "property": "C70",
   "status": "partial",
   "theorems": [
    "Iota.Props.RustOperations.rust_to_go_partial",
    "Iota.Props.RustOperations.go_to_rust_partial",
    "Iota.Props.RustOperations.rust_round_trip",
    "Iota.Props.RustOperations.lookup_first",
    "Iota.Props.RustOperations.rust_reads_version_1",
    "Iota.Props.RustOperations.reserved_refuted",
    "Iota.Props.RustOperations.kind_refuted",
    "Iota.Props.RustOperations.name_refuted"
   ],
   "note": "For tables without reserved bytes, of known kinds and with UTF-8 names below 2^16 bytes; each of the three conditions is shown to be needed."
  },
  {
   "property": "C71",
   "status": "partial",
   "theorems": [
    "Iota.Props.RustSocket.ids_unique_partial",
    "Iota.Props.RustSocket.ids_repeat_refuted",
    "Iota.Props.RustSocket.zero_id_refuted"
   ],
   "note": "For the first 2^30 calls (one less for a guest); after 2^31 calls the first id is used again, and a guest uses id zero (refuted)."
  },
  {
   "property": "C72",
   "status": "partial",
   "theorems": [
    "Iota.Props.RustSocket.caller_outcome_partial",
    "Iota.Props.RustSocket.stolen_refuted",
    "Iota.Props.RustSocket.fragments_refuted"
   ],
   "note": "For calls before ids repeat, unless the peer opens a channel under the id of the call (refuted) or sends a result in fragments (each fragment is taken for a whole result, refuted)."
  },
  {
   "property": "C73",
   "status": "partial",
   "theorems": [
    "Iota.Props.RustSocket.process_crashes_iff",
    "Iota.Props.RustSocket.no_crash_partial",
    "Iota.Props.RustSocket.crash_refuted"
   ],
   "note": "Exactly characterised: only an error frame, or a cancel frame for a request-response call, for a stream whose caller has dropped its receiver crashes the socket; never while callers wait."
  },
  {
   "property": "C74",
   "status": "partial",
   "theorems": [
    "Iota.Props.RustResponder.answers_partial",
    "Iota.Props.RustResponder.answer_wellFormed_partial",
    "Iota.Props.RustResponder.failing_stream_refuted"
   ],
   "note": "Every request under an id of the peer's parity that it uses once, if no demand frame arrives for it; the answer has the prescribed form unless a stream fails, when completion (or more) follows the error (refuted)."
  },
  {
   "property": "C75",
   "status": "proved",
   "theorems": [
    "Iota.Props.RustChannel.channel_demand"
   ],
   "note": "The limit on the number of calls is needed: ids repeat after 2^31 calls (ids_repeat_refuted)."
  },
  {
   "property": "C76",
   "status": "partial",
   "theorems": [
    "Iota.Props.RustChannel.channel_demand_used_partial",
    "Iota.Props.RustResponder.demand_refuted"
   ],
   "note": "Holds for the elements of a channel call; demand for a stream that answers a request is always refused with an error frame (refuted, for every state and every stream)."
  },
  {
   "property": "C77",
   "status": "partial",
   "theorems": [
    "Iota.Props.Caller.caller_sees_partial",
    "Iota.Props.Caller.late_frames_refuted"
   ],
   "note": "Up to and including the first frame that ends the stream, for ids not used before the call; frames that arrive after the end are still delivered for some streams, since the table does not forget them (refuted)."
  },
  {
   "property": "C78",
   "status": "partial",
   "theorems": [
    "Iota.Props.Transform.string_cut_partial",
    "Iota.Props.Transform.bytes_cut_partial",
    "Iota.Props.Transform.bool_cut_partial",
    "Iota.Props.Transform.int_cut_partial",
    "Iota.Props.Transform.uint_cut_partial",
    "Iota.Props.Transform.float_cut_partial",
    "Iota.Props.Transform.codec_cut_partial",
    "Iota.Props.Transform.slice_errors_lost_refuted"
   ],
   "note": "For basic types (byte strings of 255 bytes excepted) and for user types whose Decode returns the errors of its reads; SliceDecode reports no error for any payload (refuted)."
  },
  {
   "property": "C79",
   "status": "partial",
   "theorems": [
    "Iota.Props.FluxLock.request_alone_partial",
    "Iota.Props.FluxLock.request_nested_refuted"
   ],
   "note": "Proved for the host; without the lock, on WebAssembly, the function can be entered again before it returns (refuted)."
  },
  {
   "property": "C80",
   "status": "partial",
   "theorems": [
    "Iota.Props.StreamId.sides_disjoint",
    "Iota.Props.RustInterop.rust_ids_disjoint_partial",
    "Iota.Props.RustInterop.mixed_ids_refuted",
    "Iota.Props.RustInterop.mixed_call_lost_refuted"
   ],
   "note": "Proved for two Go ends and for two Rust ends; a Rust guest in a Go host (or the reverse) uses the very ids of the other end (refuted for every n-th call), and a concrete run shows a call losing its answer."
  },
  {
   "property": "C81",
   "status": "partial",
   "theorems": [
    "Iota.Props.WasmDispatch.requests_handled_once_partial",
    "Iota.Props.WasmDispatch.guest_in_order_partial",
    "Iota.Props.WasmDispatch.follows_lost_refuted"
   ],
   "note": "Model of recvOne/GuestSend over bytes and of the handling of requests. Requests split over several frames (FOLLOWS) are put aside and never handled: refuted."
  },
  {
   "property": "C82",
   "status": "partial",
   "theorems": [
    "Iota.Props.WasmCaller.recv_panics_iff",
    "Iota.Props.WasmCaller.stray_ignored_partial",
    "Iota.Props.WasmCaller.guest_demand_partial",
    "Iota.Props.WasmCaller.short_crashes_refuted",
    "Iota.Props.WasmCaller.demand_for_mono_refuted",
    "Iota.Props.WasmCaller.cancel_crashes_refuted",
    "Iota.Props.WasmCaller.early_demand_refuted",
    "Iota.Props.WasmCaller.demand_after_fnf_refuted"
   ],
   "note": "The claim as stated is false; recv_panics_iff gives exactly the bytes that crash a reachable host or guest. Frames for streams never opened are ignored; demand for served streams is safe in guests without fire-and-forget handlers."
  },
  {
   "property": "C83",
   "status": "partial",
   "theorems": [
    "Iota.Props.WasmCaller.parent_context_partial",
    "Iota.Props.WasmCaller.nested_context_partial",
    "Iota.Props.WasmCaller.stream_context_refuted",
    "Iota.Props.WasmCaller.stream_context_lost_refuted"
   ],
   "note": "Proved for request-response and fire-and-forget handlers of the guest; the handlers of streams and channels get a context without the stream, so their calls run under context.Background(): refuted, for every guest and request (stream_context_lost_refuted)."
  },
  {
   "property": "C84",
   "status": "proved",
   "theorems": [
    "Iota.Props.WasmCaller.caller_sees"
   ],
   "note": "A call is open up to and including the frame that ends its stream."
  },
  {
   "property": "C85",
   "status": "proved",
   "theorems": [
    "Iota.Props.UuidTime.stamp_exact",
    "Iota.Props.UuidTime.unix_time_round_trip",
    "Iota.Props.UuidTime.v1_fields"
   ],
   "note": "Version 1 UUIDs are laid out by a separate specification, since the package has no generator of them."
  },
  {
   "property": "C86",
   "status": "proved",
   "theorems": [
    "Iota.Props.MsgpackMap.repeated_keys_last"
   ],
   "note": "For maps with string keys, as ReadAny accepts them."
  },
  {
   "property": "C87",
   "status": "proved",
   "theorems": [
    "Iota.Props.Transport.frames_handled"
   ],
   "note": "Over the reader, the worker and the buffer of Model/Unbounded, mutex step by mutex step."
  },
  {
   "property": "C88",
   "status": "partial",
   "theorems": [
    "Iota.Props.Transport.closed_once",
    "Iota.Props.Transport.never_stuck",
    "Iota.Props.Transport.stops_partial",
    "Iota.Props.Transport.leaves_loop",
    "Iota.Props.Transport.read_leaves",
    "Iota.Props.Transport.end_waits_for_peer_refuted",
    "Iota.Props.Transport.error_lost_refuted"
   ],
   "note": "Once the loop is left, Start returns after boundedly many steps and with the outcome it left with; no deadlock is reachable. False while a read is under way: a cancelled context or a failed frame is noticed only when the peer sends something (refuted), and an error of the last frame before the end of the stream is not reported (refuted)."
  },
  {
   "property": "C89",
   "status": "partial",
   "theorems": [
    "Iota.Props.WasmServe.served_demand_partial",
    "Iota.Props.WasmCaller.early_demand_refuted"
   ],
   "note": "From the moment the source is known; demand that a host takes up before that crashes it (refuted). A handler that returns a source without subscription crashes either end (part of recv_panics_iff's model)."
  },
  {
   "property": "C90",
   "status": "partial",
   "theorems": [
    "Iota.Props.RustGuest.readFrame_iff",
    "Iota.Props.RustGuest.rust_guest_reads",
    "Iota.Props.RustGuest.rust_guest_reads_as_go",
    "Iota.Props.RustGuest.rust_guest_takes",
    "Iota.Props.RustGuest.rust_host_write_partial",
    "Iota.Props.RustGuest.rust_host_overrun_refuted",
    "Iota.Props.RustGuest.rust_host_too_large_refuted"
   ],
   "note": "Holds for Go hosts, and for Rust hosts up to frames of 1021 bytes; a Rust host writes longer frames over the memory after the buffer and stops at those above 4089 bytes (refuted)."
  },
  {
   "property": "C91",
   "status": "partial",
   "theorems": [
    "Iota.Props.RustGuest.rust_guest_sends_partial",
    "Iota.Props.RustGuest.rust_guest_drops_refuted",
    "Iota.Props.RustGuest.rust_guest_stale_refuted"
   ],
   "note": "Holds for frames that fit the buffer with their length; longer ones are dropped without notice, and those within three bytes of the size make the host read the previous frame again (both refuted)."
  },
  {
   "property": "C92",
   "status": "proved",
   "theorems": [
    "Iota.Props.RustGuest.rust_exports",
    "Iota.Props.RustGuest.rust_call_reaches",
    "Iota.Props.RustGuest.rust_exports_to_go",
    "Iota.Props.RustGuest.parse_metadata",
    "Iota.Props.RustGuest.rust_metadata_to_go",
    "Iota.Props.RustGuest.rust_serve_partial"
   ],
   "note": "For up to 2^32 registrations, the range of the index."
  },
  {
   "property": "C93",
   "status": "partial",
   "theorems": [
    "Iota.Props.RustGuest.rust_serve_partial",
    "Iota.Props.RustGuest.rust_request_crash_refuted",
    "Iota.Props.RustGuest.rust_channel_crash_refuted",
    "Iota.Props.RustGuest.parse_metadata_panics"
   ],
   "note": "Exactly the requests (and elements of channels) with metadata of less than four bytes crash the module, among them the elements a Go caller sends."
  },
  {
   "property": "C94",
   "status": "partial",
   "theorems": [
    "Iota.Props.Server.close_stops_partial",
    "Iota.Props.Server.cancel_stops",
    "Iota.Props.Server.close_again",
    "Iota.Props.Server.early_close_refuted",
    "Iota.Props.Server.late_connection_refuted"
   ],
   "note": "Holds when Listen has its listener, for connections that are served. A server closed earlier listens for ever and serves none; a connection accepted while the server is closed is never closed (both refuted)."
  },
  {
   "property": "C95",
   "status": "partial",
   "theorems": [
    "Iota.Props.Server.accepted_served_partial",
    "Iota.Props.Server.never_forgotten_refuted"
   ],
   "note": "Every connection is served; none is ever forgotten (refuted)."
  },
  {
   "property": "C96",
   "status": "partial",
   "theorems": [
    "Iota.Props.Codegen.codec_round_trip_partial",
    "Iota.Props.Codegen.optional_enum_refuted"
   ],
   "note": "Missing: absent optional enums and aliases, on which the generated decoder panics (refuted). Generated code that does not compile (lists in lists, maps in maps, some aliases) is not singled out; aliases with parse and format functions are not modelled."
  },
  {
   "property": "C97",
   "status": "partial",
   "theorems": [
    "Iota.Props.Codegen.evolution_partial",
    "Iota.Props.Codegen.evolution_long_time_refuted",
    "Iota.Props.CodegenZero.missing_fields_zero_partial"
   ],
   "note": "Missing: unknown fields with times that need 12 bytes, on which Skip fails (refuted), and absent optional enums (C96)."
  },
  {
   "property": "C98",
   "status": "proved",
   "theorems": [
    "Iota.Props.Codegen.codec_wire"
   ],
   "note": "For messages below 2^32 bytes."
  },
  {
   "property": "C99",
   "status": "partial",
   "theorems": [
    "Iota.Props.Codegen.union_first_member",
    "Iota.Props.Codegen.union_round_trip_partial",
    "Iota.Props.Codegen.union_empty"
   ],
   "note": "Missing only for what a member contains: see C96."
  }
 ]
}