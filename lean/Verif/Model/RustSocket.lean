import Verif.Model.RustFrames

/-!
# The Rust socket

Model of `/repo/rust/crates/wasmrs/src/socket.rs` (`WasmSocket`), with what it uses of
`/repo/rust/crates/wasmrs-rx/src/flux.rs`, `flux/receiver.rs`, `flux/observer.rs` and of tokio's channels. Line numbers
without a file are those of `socket.rs`.

A socket is a machine. Between two of its steps anything may happen: frames arrive, local code makes calls and drops the
results it waits for, futures and streams of handlers yield, in any order.

Simplifications:
* A step is one call of `process_once`, one call of a method of `RSocket`, or the work of a spawned task between two
  `await`s. (Natively these may overlap; the tables are locked for each access.)
* The frames sent are recorded in `out`; their receiver outlives the socket, so that the `unwrap` of line 449 succeeds.
* A `Payload` is its metadata and data; `None` is the same as empty, as on the wire.
* A `Mono` of a handler yields once; a stream of a handler yields results, then ends.
* `abort_handles` is left out: no code calls `abort`. Logging is left out.
-/

namespace Iota.Rust
open Go Iota.Frames

/-- A channel to a waiting caller or handler: `tokio::sync::oneshot` for a single result, `Flux` otherwise
(lines 19-23). -/
inductive Wait where
  | rr
  | rs
  | rc
  deriving DecidableEq, Repr

/-- What is put into such a channel. wasmrs-rx/src/flux/signal.rs:5-16 (`Complete` is never sent by the socket). -/
inductive Signal where
  | ok (metadata data : Bytes)
  | err (code : UInt32) (msg : Bytes)
  deriving DecidableEq, Repr

/-- The state shared by the two ends of such a channel: whether the receiving end exists, what was put in, whether the
sending end was dropped. -/
structure Sink where
  wait : Wait
  live : Bool
  got : List Signal
  closed : Bool
  deriving DecidableEq, Repr

/-- A spawned task, at an `await` or not yet started.
* `rr`, `fnf`: lines 180-187, 251-255
* `rsStart`, `rs`: lines 195-207 before and in the loop
* `rcStart`, `rc`: lines 220-241 before and in the loop
* `feed`: lines 412-441 with `first` and `n`, and the number of its queue `reqn_rx`. -/
inductive Task where
  | rr (sid : UInt32)
  | fnf (sid : UInt32)
  | rsStart (sid : UInt32) (metadata data : Bytes)
  | rs (sid : UInt32)
  | rcStart (sid : UInt32) (inp : Nat)
  | rc (sid : UInt32)
  | feed (sid : UInt32) (queue : Nat) (first : Bool) (n : UInt32)
  deriving DecidableEq, Repr

/-- What a task waits for: the outcome of a mono, or the next element of a stream, or its end. -/
inductive Yield where
  | ok (metadata data : Bytes)
  | err (msg : Bytes)
  | done
  deriving DecidableEq, Repr

/-- A handler run: `responder.request_response` and its siblings. socket/responder.rs:21-43 -/
inductive Invoked where
  | rr (sid : UInt32) (metadata data : Bytes)
  | fnf (sid : UInt32) (metadata data : Bytes)
  | rs (sid : UInt32) (metadata data : Bytes)
  | rc (sid : UInt32) (inp : Nat)
  deriving DecidableEq, Repr

/-- `WasmSocket` (lines 43-55), with all channels ever made, the spawned tasks (`none` when finished), the frames sent
and the handlers run so far. -/
structure Sock where
  next : UInt32
  sinks : List Sink
  handlers : List (UInt32 × Nat)
  channels : List (UInt32 × Nat)
  queues : List (List UInt32)
  tasks : List (Option Task)
  out : List Frame
  runs : List Invoked
  deriving DecidableEq, Repr

/-- `new`. lines 68-89 -/
def Sock.init (guest : Bool) : Sock := ⟨if guest then 2 else 1, [], [], [], [], [], [], []⟩

/-! ## Tables -/

/-- `SafeMap::cloned` and `entry`. wasmrs-runtime/src/runtime/native/mod.rs:54-68 -/
def mapGet (m : List (UInt32 × Nat)) (k : UInt32) : Option Nat := (m.find? fun x => x.1 = k).map Prod.snd

/-- `SafeMap::remove`. wasmrs-runtime/src/runtime/native/mod.rs:36-38 -/
def mapRemove (m : List (UInt32 × Nat)) (k : UInt32) : List (UInt32 × Nat) := m.filter fun x => x.1 ≠ k

/-- `SafeMap::insert`: replaces an entry. wasmrs-runtime/src/runtime/native/mod.rs:40-42 -/
def mapInsert (m : List (UInt32 × Nat)) (k : UInt32) (v : Nat) : List (UInt32 × Nat) := mapRemove m k ++ [(k, v)]

/-- The sending end of channel `i` is dropped. -/
def Sock.close (s : Sock) (i : Nat) : Sock :=
  { s with sinks := s.sinks.modify i fun x => { x with closed := true } }

/-- A handler leaves the table and is dropped. lines 283, 302, 316, 328, 346 -/
def Sock.remove (s : Sock) (sid : UInt32) : Sock :=
  match mapGet s.handlers sid with
  | none => s
  | some i => { s with handlers := mapRemove s.handlers sid }.close i

/-- `register_handler` with a new channel, that of an earlier handler being dropped. lines 101-103 -/
def Sock.register (s : Sock) (sid : UInt32) (w : Wait) (first : List Signal) : Sock :=
  { s.remove sid with
    handlers := mapInsert s.handlers sid s.sinks.length
    sinks := (s.remove sid).sinks ++ [⟨w, true, first, false⟩] }

/-- `send`. lines 447-450 -/
def Sock.send (s : Sock) (f : Frame) : Sock := { s with out := s.out ++ [f] }

/-- `runtime::spawn`. wasmrs-runtime/src/runtime/native/mod.rs:14-19 -/
def Sock.spawn (s : Sock) (t : Task) : Sock := { s with tasks := s.tasks ++ [some t] }

/-- Put a signal into channel `i`, when its receiving end exists. -/
def Sock.put (s : Sock) (i : Nat) (x : Signal) : Sock :=
  { s with sinks := s.sinks.modify i fun k => if k.live then { k with got := k.got ++ [x] } else k }

/-! ## Frames -/

/-- `ErrorCode::ApplicationError`. frames/mod.rs:251 -/
def applicationError : UInt32 := 513

/-- `ErrorCode::Canceled`. frames/mod.rs:253 -/
def canceled : UInt32 := 515

/-- `Frame::REQUEST_MAX`. frames/mod.rs:333 -/
def requestMax : UInt32 := 0x7fffffff

/-- The bytes of a string literal. -/
def lit (s : String) : Bytes := s.toUTF8.toList

/-- `send_app_error`. lines 471-474 -/
def appError (sid : UInt32) (msg : Bytes) : Frame := .error ⟨sid, applicationError, msg⟩

/-- `send_payload(.., FLAG_NEXT)`. lines 452-454; f_payload.rs:27-36 -/
def nextFrame (sid : UInt32) (metadata data : Bytes) : Frame := newPayload sid metadata data flagNext

/-- `send_complete(.., FLAG_COMPLETE)`. lines 467-469 -/
def completeFrame (sid : UInt32) : Frame := newPayload sid [] [] flagComplete

/-! ## Incoming frames -/

/-- `on_request_n`. lines 258-276 -/
def Sock.onRequestN (s : Sock) (sid n : UInt32) : Sock :=
  if n = 0 then s.send (appError sid (lit "Invalid RequestN (n=0)"))
  else match mapGet s.channels sid with
    | some q => { s with queues := s.queues.modify q fun l => l ++ [n] }
    | none => s.send (appError sid (lit "RequestN called for missing Stream ID"))

/-- `on_payload`. lines 278-324 -/
def Sock.onPayload (s : Sock) (v : Payload) : Sock :=
  match mapGet s.handlers v.streamID with
  | none => s
  | some i =>
    match s.sinks[i]? with
    | none => s
    | some k =>
      match k.wait with
      | .rr => (if v.next then s.put i (.ok v.metadata v.data) else s).remove v.streamID
      | _ =>
        if v.complete then
          (if v.next then if k.live then s.put i (.ok v.metadata v.data) else s.send (.cancel ⟨v.streamID⟩)
            else s).remove v.streamID
        else if v.next then if k.live then s.put i (.ok v.metadata v.data) else s.send (.cancel ⟨v.streamID⟩)
        else s

/-- `on_cancel`. lines 326-342. The `unwrap` fails when the receiving end is gone. -/
def Sock.onCancel (s : Sock) (sid : UInt32) : Res Sock :=
  match mapGet s.handlers sid with
  | none => .ok s
  | some i =>
    match s.sinks[i]? with
    | none => .ok s
    | some k =>
      match k.wait with
      | .rr => if k.live then .ok ((s.put i (.err canceled (lit "Request cancelled"))).remove sid) else .panic
      | _ => .ok (s.remove sid)

/-- `on_error`. lines 344-360. The `unwrap`s fail when the receiving end is gone. -/
def Sock.onError (s : Sock) (sid code : UInt32) (msg : Bytes) : Res Sock :=
  match mapGet s.handlers sid with
  | none => .ok s
  | some i =>
    match s.sinks[i]? with
    | none => .ok s
    | some k => if k.live then .ok ((s.put i (.err code msg)).remove sid) else .panic

/-- The message of an error frame. lines 153-157 -/
def errorText (data : Bytes) : Bytes := if data.length = 0 then lit "Error frame with no data" else data

/-- `process_once`. lines 122-168, with `on_request_response` (170-188), `on_request_stream` (190-208),
`on_request_channel` (210-242) and `on_request_fnf` (244-256) up to `spawn`. Frames have one of the four request types
(the `Frame` enum, frames/mod.rs:265-274). -/
def Sock.processOnce (s : Sock) : Frame → Res Sock
  | .request v =>
    if v.frameType = tRequestFNF then
      .ok ({ s with runs := s.runs ++ [Invoked.fnf v.streamID v.metadata v.data] }.spawn (.fnf v.streamID))
    else if v.frameType = tRequestResponse then
      .ok ({ s with runs := s.runs ++ [Invoked.rr v.streamID v.metadata v.data] }.spawn (.rr v.streamID))
    else if v.frameType = tRequestStream then .ok (s.spawn (.rsStart v.streamID v.metadata v.data))
    else .ok ((s.register v.streamID .rc [.ok v.metadata v.data]).spawn (.rcStart v.streamID s.sinks.length))
  | .payload v => .ok (s.onPayload v)
  | .cancel v => s.onCancel v.streamID
  | .error v => s.onError v.streamID v.code (errorText v.data)
  | .requestN v => .ok (s.onRequestN v.streamID v.n)

/-! ## Local calls -/

/-- The four methods of `RSocket`. -/
inductive Method where
  | fnf
  | rr
  | rs
  | rc
  deriving DecidableEq, Repr

/-- `next_stream_id`. lines 96-98: the id is the counter, which then is two higher (wrapping). -/
def Sock.draw (s : Sock) : Sock := { s with next := s.next + 2 }

/-- `fire_and_forget` (364-371), `request_response` (373-385), `request_stream` (387-399), `request_channel` (401-444,
up to `spawn`; the payload is not used, all payloads come from the stream). -/
def Sock.request (s : Sock) (m : Method) (metadata data : Bytes) : Sock :=
  match m with
  | .fnf => s.draw.send (newRequest tRequestFNF s.next metadata data 0 0)
  | .rr => (s.draw.register s.next .rr []).send (newRequest tRequestResponse s.next metadata data 0 0)
  | .rs => (s.draw.register s.next .rs []).send (newRequest tRequestStream s.next metadata data 0 0)
  | .rc =>
    { s.draw.register s.next .rc [] with
      channels := mapInsert s.channels s.next s.queues.length
      queues := s.queues ++ [[]] }.spawn (.feed s.next s.queues.length true 1)

/-! ## Tasks -/

/-- `channels.remove(&sid)` and the end of the task. lines 439-440 -/
def Sock.feedEnd (s : Sock) (t : Nat) (sid : UInt32) : Sock :=
  { s with channels := mapRemove s.channels sid, tasks := s.tasks.set t none }.send (completeFrame sid)

/-- The end of a round of the loop of lines 416-438: with `n` down to zero the task waits. -/
def Sock.feedSent (s : Sock) (t : Nat) (sid : UInt32) (q : Nat) (n : UInt32) (f : Frame) : Sock :=
  { s with tasks := s.tasks.set t (some (.feed sid q false (n - 1))) }.send f

/-- Task `t` goes on. `y` is what it waited for. A `feed` with `n = 0` waits for a `RequestN` frame instead (lines
431-437): the head of its queue, or `none` when no sender of the queue is left. -/
def Sock.runTask (s : Sock) (t : Nat) (y : Yield) : Task → Option Sock
  | .rr sid =>
    match y with
    | .ok md d => some ({ s with tasks := s.tasks.set t none }.send (newPayload sid md d (flagNext ||| flagComplete)))
    | .err e => some ({ s with tasks := s.tasks.set t none }.send (appError sid e))
    | .done => none
  | .fnf sid =>
    match y with
    | .ok _ _ => some { s with tasks := s.tasks.set t none }
    | .err e => some ({ s with tasks := s.tasks.set t none }.send (appError sid e))
    | .done => none
  | .rsStart sid md d => some { s with tasks := s.tasks.set t (some (.rs sid)), runs := s.runs ++ [Invoked.rs sid md d] }
  | .rcStart sid i =>
    some ({ s with tasks := s.tasks.set t (some (.rc sid)), runs := s.runs ++ [Invoked.rc sid i] }.send
      (.requestN ⟨sid, requestMax⟩))
  | .rs sid =>
    match y with
    | .ok md d => some (s.send (nextFrame sid md d))
    | .err e => some (s.send (appError sid e))
    | .done => some ({ s with tasks := s.tasks.set t none }.send (completeFrame sid))
  | .rc sid =>
    match y with
    | .ok md d => some (s.send (nextFrame sid md d))
    | .err e => some (s.send (appError sid e))
    | .done => some ({ s with tasks := s.tasks.set t none }.send (completeFrame sid))
  | .feed sid q first n =>
    if n = 0 then
      match s.queues[q]? with
      | some (m :: ms) =>
        some { s with queues := s.queues.set q ms, tasks := s.tasks.set t (some (.feed sid q first m)) }
      | _ => if s.channels.any (fun x => x.2 = q) then none else some (s.feedEnd t sid)
    else match y with
      | .ok md d =>
        if first then some (s.feedSent t sid q n (newRequest tRequestChannel sid md d flagNext requestMax))
        else some (s.feedSent t sid q n (nextFrame sid md d))
      | .err _ =>
        some ({ s with tasks := s.tasks.set t (some (.feed sid q first (n - 1))) }.send
          (appError sid (lit "REQUEST_CHANNEL failed")))
      | .done => some (s.feedEnd t sid)

/-! ## Runs -/

/-- What can happen next: a frame arrives, local code makes a call or drops the receiving end of a channel, task `t` goes
on. -/
inductive SockAct where
  | recv (f : Frame)
  | call (m : Method) (metadata data : Bytes)
  | drop (i : Nat)
  | task (t : Nat) (y : Yield)
  deriving DecidableEq, Repr

/-- One step; `none` when it is not possible now. -/
def Sock.step (s : Sock) : SockAct → Option (Res Sock)
  | .recv f => some (s.processOnce f)
  | .call m md d => some (.ok (s.request m md d))
  | .drop i => some (.ok { s with sinks := s.sinks.modify i fun k => { k with live := false } })
  | .task t y =>
    match s.tasks[t]? with
    | some (some k) => (s.runTask t y k).map .ok
    | _ => none

def Sock.run : Sock → List SockAct → Option (Res Sock)
  | s, [] => some (.ok s)
  | s, a :: as =>
    match s.step a with
    | none => none
    | some .panic => some .panic
    | some (.err e) => some (.err e)
    | some (.ok s') => s'.run as

end Iota.Rust
