import Verif.Model.Frames
import Verif.Model.U24

/-!
# Frames on a TCP connection

Model of `/repo/go/transport/rsocket/decoder.go`, of `Read`, `Write` and `Flush` in
`/repo/go/transport/rsocket/tcp_conn.go` and of `Send` in `/repo/go/transport/rsocket/transport.go`.

`bufio.Scanner` and `bufio.Writer` are part of the Go standard library, not of the repository; the
parts of them the code relies on are modelled here from their documented source (`Scanner.Scan`,
`Scanner.advance`, `Writer.Write`, `Writer.Flush`), because how `Scan` treats its buffer, the end of
the stream and the slices it has handed out decides what the code does.
-/

namespace Iota.Framing
open Go Frames U24

/-! ## The connection being read -/

/-- Errors of `net.Conn.Read`: end of file, "use of closed network connection", anything else. -/
inductive IoErr where
  | eof
  | closed
  | other
  deriving DecidableEq, Repr

/-- One call of `net.Conn.Read` that hands over bytes: `stalls` calls returning `(0, nil)` come
first, then at most `size + 1` bytes are returned. -/
structure Ev where
  stalls : Nat
  size : Nat
  deriving DecidableEq, Repr

/-- A connection that will deliver `rem` in pieces chosen by `evs` and then fail with `final`.
`together`: the error is reported by the call that returns the last bytes (as `io.Reader` allows and
`crypto/tls` does), otherwise by a later call without data (as `net.TCPConn` does). -/
structure Reader where
  rem : Bytes
  evs : List Ev
  together : Bool
  final : IoErr
  deriving DecidableEq, Repr

/-- The size chosen for the next read; when the schedule is used up, as much as fits. -/
def Reader.nextSize (r : Reader) (space : Nat) : Nat :=
  match r.evs with
  | [] => space
  | e :: _ => min (e.size + 1) space

def Reader.nextStalls (r : Reader) : Nat :=
  match r.evs with
  | [] => 0
  | e :: _ => e.stalls

/-- `r.Read(p)` with `len(p) = space`: bytes and error. -/
def Reader.read (r : Reader) (space : Nat) : Bytes × Option IoErr :=
  if r.rem = [] then ([], some r.final)
  else (r.rem.take (r.nextSize space),
    if r.together ∧ r.rem.drop (r.nextSize space) = [] then some r.final else none)

/-- The connection after that call. -/
def Reader.after (r : Reader) (space : Nat) : Reader :=
  { r with rem := r.rem.drop (r.nextSize space), evs := r.evs.tail }

/-! ## `bufio.Scanner` -/

inductive ScanErr where
  | io (e : IoErr)
  /-- `ErrTooLong` -/
  | tooLong
  /-- `io.ErrNoProgress` -/
  | noProgress
  /-- error of the split function -/
  | split (msg : String)
  /-- `ErrAdvanceTooFar` -/
  | advance
  deriving DecidableEq, Repr

/-- `s.buf[s.start:s.end]` holds the unread bytes. `old` are the arrays used before `buf` was
reallocated: slices handed out earlier still point into them. -/
structure Scanner where
  old : List Bytes
  buf : Bytes
  start : Nat
  stop : Nat
  err : Option ScanErr
  rd : Reader
  deriving DecidableEq, Repr

/-- A slice of one of the scanner's arrays. -/
structure View where
  gen : Nat
  off : Nat
  len : Nat
  deriving DecidableEq, Repr

/-- The bytes a slice shows now. -/
def Scanner.deref (s : Scanner) (v : View) : Bytes :=
  (((s.old[v.gen]?).getD s.buf).drop v.off).take v.len

/-- `s.buf[s.start:s.end]` -/
def Scanner.window (s : Scanner) : Bytes := (s.buf.drop s.start).take (s.stop - s.start)

/-- decoder.go:13-15 -/
def lengthFieldSize : Nat := 3
def minBuffSize : Nat := 8 * 1024
def maxBuffSize : Nat := 16 * 1024 * 1024 + lengthFieldSize

/-- `maxConsecutiveEmptyReads` in bufio. -/
def maxEmptyReads : Nat := 100

/-- `doSplit`. decoder.go:44-61. Returns `advance` and the length of `token` (always a prefix of
`data`), `none` for a nil token. -/
def doSplit (data : Bytes) (eof : Bool) : Res (Nat × Option Nat) :=
  if eof then .ok (0, none)
  else if data.length < lengthFieldSize then .ok (0, none)
  else do
    let frameLength ← readUint24ToInt data
    if frameLength < 1 then .err "rsocket: invalid frame length"
    else if frameLength + lengthFieldSize ≤ data.length then
      return (frameLength + lengthFieldSize, some (frameLength + lengthFieldSize))
    else return (0, none)

/-- What one attempt to take a token out of the buffer leads to. -/
inductive Try where
  /-- `Scan` returns true -/
  | token (v : View) (s : Scanner)
  /-- `Scan` returns false -/
  | fail (s : Scanner)
  /-- more data is needed -/
  | more (s : Scanner)
  | panic
  deriving DecidableEq, Repr

/-- Top of the loop in `Scanner.Scan`: the call of the split function and of `advance`. -/
def trySplit (s : Scanner) : Try :=
  if s.stop > s.start ∨ s.err.isSome then
    match doSplit s.window s.err.isSome with
    | .panic => .panic
    | .err m => .fail { s with err := some (.split m) }
    | .ok (adv, tok) =>
      if adv > s.stop - s.start then .fail { s with err := some .advance }
      else match tok with
        | some n => .token ⟨s.old.length, s.start, n⟩ { s with start := s.start + adv }
        | none => .more { s with start := s.start + adv }
  else .more s

/-- `copy(s.buf, s.buf[s.start:s.end])` when there is a lot of empty space or space is needed. -/
def shift (s : Scanner) : Scanner :=
  if s.start > 0 ∧ (s.stop = s.buf.length ∨ s.start > s.buf.length / 2) then
    { s with buf := s.window ++ s.buf.drop s.window.length, stop := s.stop - s.start, start := 0 }
  else s

/-- Doubling of a full buffer; `none` is `ErrTooLong`. The guard against overflow of `int` is left
out: buffers never exceed `maxBuffSize`. -/
def grow (s : Scanner) : Option Scanner :=
  if s.stop = s.buf.length then
    if s.buf.length ≥ maxBuffSize then none
    else
      some { s with
        old := s.old ++ [s.buf]
        buf := s.window ++ List.replicate (min (s.buf.length * 2) maxBuffSize - s.window.length) 0
        stop := s.stop - s.start
        start := 0 }
  else some s

/-- The inner read loop. -/
def readMore (s : Scanner) : Scanner :=
  if s.rd.nextStalls > maxEmptyReads then { s with err := some .noProgress }
  else
    { s with
      buf := s.buf.take s.stop ++ (s.rd.read (s.buf.length - s.stop)).1 ++
        s.buf.drop (s.stop + (s.rd.read (s.buf.length - s.stop)).1.length)
      stop := s.stop + (s.rd.read (s.buf.length - s.stop)).1.length
      err := (s.rd.read (s.buf.length - s.stop)).2.map ScanErr.io
      rd := s.rd.after (s.buf.length - s.stop) }

/-- `Scanner.Scan`: the token, if any, and the scanner afterwards. `none`: still running after
`fuel` rounds. -/
def scanLoop : Nat → Scanner → Option (Res (Option View × Scanner))
  | 0, _ => none
  | fuel + 1, s =>
    match trySplit s with
    | .panic => some .panic
    | .token v s' => some (.ok (some v, s'))
    | .fail s' => some (.ok (none, s'))
    | .more s' =>
      if s'.err.isSome then some (.ok (none, { s' with start := 0, stop := 0 }))
      else match grow (shift s') with
        | none => some (.ok (none, { shift s' with err := some .tooLong }))
        | some s'' => scanLoop fuel (readMore s'')

/-- A call of `Scan`, with enough rounds for any number of bytes still to come. -/
def scan (s : Scanner) : Option (Res (Option View × Scanner)) := scanLoop (s.rd.rem.length + 2) s

/-- `NewLengthBasedFrameDecoder`. decoder.go:64-70 -/
def newDecoder (rd : Reader) : Scanner :=
  { old := [], buf := List.replicate minBuffSize 0, start := 0, stop := 0, err := none, rd := rd }

/-! ## Reading frames -/

inductive ReadErr where
  /-- `io.EOF` -/
  | eof
  | other (msg : String)
  deriving DecidableEq, Repr

/-- `scanner.Err()` with the mapping of decoder.go:31-34. A nil error (never the case here) and
`io.EOF` both give nil. -/
def scanFailure : Option ScanErr → ReadErr
  | none => .eof
  | some (.io .eof) => .eof
  | some (.io .closed) => .eof
  | some (.io .other) => .other "read error"
  | some .tooLong => .other "bufio.Scanner: token too long"
  | some .noProgress => .other "multiple Read calls return no data or error"
  | some (.split m) => .other m
  | some .advance => .other "bufio.Scanner: SplitFunc returns advance count beyond input"

/-- Outcome of a call of `Read`. -/
inductive Out (α : Type) where
  | ok (a : α)
  | err (e : ReadErr)
  | panic
  /-- did not return within the rounds given (shown never to happen) -/
  | running
  deriving DecidableEq, Repr

/-- `LengthBasedFrameDecoder.Read`. decoder.go:28-42 -/
def readRaw (s : Scanner) : Out View × Scanner :=
  match scan s with
  | none => (.running, s)
  | some .panic => (.panic, s)
  | some (.err _) => (.running, s)
  | some (.ok (none, s')) => (.err (scanFailure s'.err), s')
  | some (.ok (some v, s')) =>
    if v.len < lengthFieldSize then (.panic, s')
    else if v.len - lengthFieldSize < headerLen then (.err (.other "incomplete frame header"), s')
    else (.ok ⟨v.gen, v.off + lengthFieldSize, v.len - lengthFieldSize⟩, s')

/-- `TCPConn.Read`. tcp_conn.go:39-95. The frame is decoded from the bytes the slice shows at that
moment; the slice itself is returned as well because the frame keeps pointing into it. -/
def readFrame (s : Scanner) : Out (Frame × View) × Scanner :=
  match readRaw s with
  | (.running, s') => (.running, s')
  | (.panic, s') => (.panic, s')
  | (.err e, s') => (.err e, s')
  | (.ok v, s') =>
    match decodeFrame (s'.deref v) with
    | .ok f => (.ok (f, v), s')
    | .err m => (.err (.other m), s')
    | .panic => (.panic, s')

/-- How a receive loop ended. -/
inductive End where
  | eof
  | error (msg : String)
  | panic
  | running
  deriving DecidableEq, Repr

/-- The read loop of `Transport.Start`, transport.go:195-212: frames in the order they were read, the
slices they point into, and why the loop ended. Frames are put into the unbounded buffer at once. -/
def recvAll : Nat → Scanner → List (Frame × View) × End × Scanner
  | 0, s => ([], .running, s)
  | fuel + 1, s =>
    match readFrame s with
    | (.ok fv, s') =>
      (fv :: (recvAll fuel s').1, (recvAll fuel s').2)
    | (.err .eof, s') => ([], .eof, s')
    | (.err (.other m), s') => ([], .error m, s')
    | (.panic, s') => ([], .panic, s')
    | (.running, s') => ([], .running, s')

/-- A frame as it looks once its slices have come to show other bytes: metadata and data of request
and payload frames are slices of the raw frame (payload.go:34-50, request_payload.go:49-66), all other
fields are copies (an error's `Data` is converted to a string, error.go:28-33). `raw` is what
the raw frame's slice shows now; data are its last bytes and metadata lies just before. -/
def seen (f : Frame) (raw : Bytes) : Frame :=
  match f with
  | .payload p => .payload { p with
      data := raw.drop (raw.length - p.data.length)
      metadata := (raw.drop (raw.length - p.data.length - p.metadata.length)).take p.metadata.length }
  | .request p => .request { p with
      data := raw.drop (raw.length - p.data.length)
      metadata := (raw.drop (raw.length - p.data.length - p.metadata.length)).take p.metadata.length }
  | f => f

/-! ## Writing frames -/

/-- `bufio.Writer`: bytes not flushed yet and bytes already passed to the connection. -/
structure Writer where
  pending : Bytes
  sent : Bytes
  deriving DecidableEq, Repr

/-- Size of the writer's buffer. tcp_conn.go:140 -/
def writerSize : Nat := 8192

/-- `bufio.Writer.Write`, for a connection that accepts every write. -/
def Writer.write (w : Writer) (p : Bytes) : Writer :=
  if p.length ≤ writerSize - w.pending.length then { w with pending := w.pending ++ p }
  else if w.pending = [] then { w with sent := w.sent ++ p }
  else if p.length - (writerSize - w.pending.length) ≤ writerSize then
    { sent := w.sent ++ (w.pending ++ p.take (writerSize - w.pending.length))
      pending := p.drop (writerSize - w.pending.length) }
  else
    { sent := w.sent ++ (w.pending ++ p.take (writerSize - w.pending.length)) ++
        p.drop (writerSize - w.pending.length)
      pending := [] }

/-- `bufio.Writer.Flush` -/
def Writer.flush (w : Writer) : Writer := { pending := [], sent := w.sent ++ w.pending }

/-- The three bytes written first by `TCPConn.Write`. tcp_conn.go:99-107 -/
def lengthField (f : Frame) : Res Bytes := do
  let n ← mustNewUint24 (UInt32.ofNat f.size)
  return n.bytes

/-- The encoded frame written next. tcp_conn.go:110-112 -/
def frameBytes (f : Frame) : Res Bytes := f.encode (List.replicate f.size 0)

/-- One goroutine's operations on the shared writer. Each is one call of a method of `bufio.Writer`;
that these calls themselves are not atomic only adds to what can go wrong. -/
inductive Op where
  | len (f : Frame)
  | body (f : Frame)
  | flush
  deriving DecidableEq, Repr

/-- `Transport.Send(frame, flush)`: transport.go:96-116 with tcp_conn.go:98-129. -/
def sendOps (f : Frame) (flush : Bool) : List Op :=
  if flush then [.len f, .body f, .flush] else [.len f, .body f]

/-- One operation; a panic ends the program. -/
def Op.run (w : Writer) : Op → Res Writer
  | .len f => do
    let b ← lengthField f
    return w.write b
  | .body f => do
    let b ← frameBytes f
    return w.write b
  | .flush => .ok w.flush

def runOps : Writer → List Op → Res Writer
  | w, [] => .ok w
  | w, o :: os => do
    let w' ← o.run w
    runOps w' os

/-- Operations of several goroutines in the order they happen; the first component is the goroutine.
-/
abbrev Trace := List (Nat × Op)

def runTrace (w : Writer) (t : Trace) : Res Writer := runOps w (t.map Prod.snd)

/-- What goroutine `g` does, in order. -/
def opsOf (g : Nat) (t : Trace) : List Op := (t.filter (fun p => p.1 == g)).map Prod.snd

end Iota.Framing
