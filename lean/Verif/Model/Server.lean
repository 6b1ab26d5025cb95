import Verif.Go.Basic

/-!
# The life of a server

Model of `tcpServerTransport` in `/repo/go/transport/rsocket/tcp_transport.go`: `Listen` (called once), the goroutine it
starts that waits for the end of the context, and any number of goroutines that call `Close`.

Simplifications:
* `Close`, `putTransport` and `removeTransport` run under the mutex and do not wait for anything: each is one step. `t.l` is
  written without the mutex (line 55); the write is one step too.
* A connection is the number of its acceptance; it is closed when `Close` was called on its transport or it ended by itself
  (`Verif/Model/Transport.lean`).
* `Accept` of the listener returns a connection or an error as the environment chooses while the listener is open; on a
  closed listener it returns the error that `isClosedErr` recognises (misc.go:8-19).
* The acceptor set by `Accept` (lines 26-30) is given no transport and cannot name one, so its `onClose` (lines 101-103)
  removes nothing; it is left out together with `removeTransport` (lines 111-115).
-/

namespace Iota.Server

/-- What `Listen` returns. -/
inductive Outcome where
  | nil
  | failed
  deriving DecidableEq, Repr

/-- Where `Listen` is. tcp_transport.go:54-109
* `start`: before line 55
* `notify`: at line 66
* `accept`: at line 82
* `put c`: at line 99 with this connection
* `refuse`: at line 105
* `leave o`: at line 63
* `returned o` -/
inductive Loc where
  | start
  | notify
  | accept
  | put (c : Nat)
  | refuse
  | leave (o : Outcome)
  | returned (o : Outcome)
  deriving DecidableEq, Repr

/-- A connection: whether its transport was started, whether it is closed. -/
structure Conn where
  served : Bool
  closed : Bool
  deriving DecidableEq, Repr

/-- The server. `listener`: whether `t.l` is set and, if so, whether the listener accepts connections (`some true`) or was
closed (`some false`). `map`: `t.m`, `none` when nil. `watch`: whether the goroutine of lines 69-77 waits. -/
structure State where
  done : Bool
  listener : Option Bool
  map : Option (List Nat)
  conns : List Conn
  loc : Loc
  watch : Bool
  cancelled : Bool
  deriving DecidableEq, Repr

/-- `NewTCPServerTransport`. tcp_transport.go:134-142 -/
def State.init : State := ⟨false, none, some [], [], .start, false, false⟩

/-- `k.Close()` for every transport of the map. tcp_transport.go:46-48 -/
def closeAll (ks : List Nat) (cs : List Conn) : List Conn :=
  cs.mapIdx fun i c => if i ∈ ks then { c with closed := true } else c

/-- `Close`. tcp_transport.go:32-52 -/
def State.close (s : State) : State :=
  if s.done then s
  else
    match s.listener with
    | none => { s with done := true }
    | some _ =>
      { s with done := true, listener := some false, conns := closeAll (s.map.getD []) s.conns, map := none }

/-- `putTransport`. tcp_transport.go:117-131 -/
def State.putTransport (s : State) (c : Nat) : State × Bool :=
  if s.done then (s, false)
  else
    match s.map with
    | none => (s, false)
    | some m => ({ s with map := some (m ++ [c]) }, true)

/-- What `lf` and `Accept` return when they succeed or fail otherwise. -/
inductive Result where
  | ok
  | err
  deriving DecidableEq, Repr

/-- `Listen` goes on. tcp_transport.go:54-109 -/
def State.listen (s : State) (r : Result) : Option State :=
  match s.loc with
  | .start =>
    match r with
    | .ok => some { s with listener := some true, loc := .notify }
    | .err => some { s with listener := none, loc := .returned .failed }
  | .notify => some { s with watch := true, loc := .accept }
  | .accept =>
    match s.listener with
    | some true =>
      match r with
      | .ok => some { s with conns := s.conns ++ [⟨false, false⟩], loc := .put s.conns.length }
      | .err => some { s with loc := .leave .failed }
    | _ => some { s with loc := .leave .nil }
  | .put c =>
    if (s.putTransport c).2 then
      some { (s.putTransport c).1 with
        conns := s.conns.modify c fun k => { k with served := true }, loc := .accept }
    else some { (s.putTransport c).1 with loc := .refuse }
  | .refuse => some { s.close with loc := .accept }
  | .leave o => some { s.close with loc := .returned o }
  | .returned _ => none

/-- What can happen next. -/
inductive Ev where
  /-- some goroutine calls `Close` -/
  | close
  /-- the context is cancelled -/
  | cancel
  /-- `Listen` goes on -/
  | listen (r : Result)
  /-- the goroutine of lines 69-77 goes on -/
  | watch
  /-- a connection ends by itself -/
  | hangUp (c : Nat)
  deriving DecidableEq, Repr

/-- One step; `none` when it is not possible. -/
def State.step (s : State) : Ev → Option State
  | .close => some s.close
  | .cancel => some { s with cancelled := true }
  | .listen r => s.listen r
  | .watch =>
    if s.watch then
      if s.cancelled then some { s.close with watch := false }
      else if s.done then some { s with watch := false }
      else none
    else none
  | .hangUp c => some { s with conns := s.conns.modify c fun k => if k.served then { k with closed := true } else k }

def State.run : State → List Ev → Option State
  | s, [] => some s
  | s, e :: es => (s.step e).bind fun s' => s'.run es

end Iota.Server
