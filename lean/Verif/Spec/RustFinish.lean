import Verif.Spec.RustPair

/-!
# Specification: calls between a host and a guest written in Rust go on until all are done with

Which runs are considered, what counts as going on, and how much is to be done.
-/

namespace Iota.Spec.RustFinish
open Iota.Go Iota.Frames Iota.Rust Iota.Spec.RustSocket Iota.Spec.RustPair

/-- A task that sends the first element of a channel. -/
def atFirst : Option (Option Rust.Task) → Bool
  | some (some (.feed _ _ first _)) => first
  | _ => false

/-- Nobody drops a result that it waits for, and the input of a channel does not begin with an error. -/
def Mild (s : Sock) : SockAct → Prop
  | .drop _ => False
  | .task t (.err _) => atFirst s.tasks[t]? = false
  | _ => True

/-- Such runs, with what happened at each end so far. -/
inductive Calm : Pair → (Bool → List SockAct) → Prop
  | init : Calm Pair.init (fun _ => [])
  | step {p p' : Pair} {H : Bool → List SockAct} {e : Bool} {b : SockAct} (a : PairAct) : Calm p H →
      p.seen a = some (e, b) → Mild (p.sock e) b → p.step a = some p' → Calm p' (fun x => if x = e then H x ++ [b] else H x)

/-- No task was given `2^31` things, or more. -/
def Brief (H : Bool → List SockAct) : Prop := ∀ e t, (yields t (H e)).length < 2 ^ 31

/-- Something is done about what is under way: a frame is taken up or a task goes on. -/
def Goes : PairAct → Prop
  | .take _ => True
  | .own _ (.task _ _) => True
  | .own _ _ => False

/-- A task that waits for an element of a stream. -/
def waits : Option (Option Rust.Task) → Bool
  | some (some (.rs _)) => true
  | some (some (.rc _)) => true
  | some (some (.feed _ _ _ n)) => n != 0
  | _ => false

/-- Does a stream or the input of a channel give an element? -/
def gives (s : Sock) : SockAct → Bool
  | .task t y => waits s.tasks[t]? && decide (y ≠ .done)
  | _ => false

/-- Going on for `n` steps, `k` of which are elements that streams or inputs give. -/
inductive Onward : Nat → Nat → Pair → (Bool → List SockAct) → Pair → (Bool → List SockAct) → Prop
  | refl (p : Pair) (H : Bool → List SockAct) : Onward 0 0 p H p H
  | step {n k : Nat} {p p1 p' : Pair} {H H' : Bool → List SockAct} {e : Bool} {b : SockAct} (a : PairAct) : Goes a → p.seen a = some (e, b) →
      Mild (p.sock e) b → p.step a = some p1 → Onward n k p1 (fun x => if x = e then H x ++ [b] else H x) p' H' →
      Onward (n + 1) (k + if gives (p.sock e) b then 1 else 0) p H p' H'

/-! ## How much is to be done -/

/-- The most steps that a frame can lead to, if streams give no further elements. -/
def frameWork : Frame → Nat
  | .request v => if v.frameType = tRequestFNF then 3 else if v.frameType = tRequestResponse then 3 else if v.frameType = tRequestStream then 4 else 6
  | .requestN _ => 2
  | _ => 1

/-- The same for a task. -/
def taskWork : Option Rust.Task → Nat
  | some (.rr _) => 2
  | some (.fnf _) => 2
  | some (.rsStart _ _ _) => 3
  | some (.rs _) => 2
  | some (.rcStart _ _) => 5
  | some (.rc _) => 2
  | some (.feed _ _ first _) => if first then 8 else 2
  | none => 0

def sockWork (s : Sock) : Nat := (s.tasks.map taskWork).sum + (s.queues.map List.length).sum

def wireWork (l : List Frame) : Nat := (l.map frameWork).sum

/-- The most steps that can be taken about what is under way, if streams give no further elements. -/
def work (p : Pair) : Nat :=
  sockWork (p.sock false) + sockWork (p.sock true) + wireWork ((p.sock false).out.drop (p.read true)) +
    wireWork ((p.sock true).out.drop (p.read false))

/-- Every call that is not a channel was handled once, and whoever waits for a result or a stream was told all of it: one result, or
what the stream gave, and its end. -/
def Answered (p : Pair) (H : Bool → List SockAct) : Prop :=
  ∀ e as bs m md d s1, H e = as ++ .call m md d :: bs → (Sock.init e).run as = some (.ok s1) → m ≠ .rc →
    (p.sock (!e)).runs.filter (runFor s1.next) = [asked m s1.next md d] ∧
    (m ≠ .fnf → ∃ k, (p.sock e).sinks[s1.sinks.length]? = some k ∧ k.closed = true ∧ (m = .rr → k.got.length = 1) ∧
      ∀ as' bs' v s2, H (!e) = as' ++ .recv (.request v) :: bs' → v.streamID = s1.next → (Sock.init (!e)).run as' = some (.ok s2) →
        (k.got, k.closed) = told m (yields s2.tasks.length bs'))

end Iota.Spec.RustFinish
