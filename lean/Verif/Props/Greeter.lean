import Verif.Model.Greeter
import Verif.Props.Programs
import Verif.Props.Customer

/-! # The greeter example (C156) -/

namespace Iota.Props.Greeter
open Iota.Go Iota.Frames Iota.Registry Iota.Peers Iota.Net Iota.Programs Iota.Greeter
open Iota.Spec.Handler (opIndex)
open Iota.Spec.Components (text)
open Iota.Spec.Programs
open Iota.Spec.Polite (results Done)
open Iota.Spec.Net (Sane Few PoliteRuns GoesOn noteAct)
open Iota.StreamId (Side)
open Iota.Props.Programs

theorem request_bytes (lib : Iota.Msgpack.Lib) (l r : Bytes) (h : l.length + r.length < 2 ^ 30) :
    ∃ d, requestData l r = .ok d ∧ ∃ f0, ∀ f, f0 ≤ f → parseRequest lib f d = .ok (l, r) := by
  obtain ⟨d, h1, f0, h2⟩ := Customer.customer_bytes lib l r h
  refine ⟨d, h1, f0, fun f hf => ?_⟩
  have h3 := h2 f hf
  unfold Iota.Customer.parseCustomer at h3
  unfold parseRequest
  have e : requestEnv = Iota.Customer.customerEnv := rfl
  rw [e]
  revert h3
  cases Codegen.fromBytes Iota.Customer.customerEnv lib f 0 d with
  | none => intro h3; cases h3
  | some v => cases v <;> intro h3 <;> exact h3

theorem simple_reach {H : Type} {d : Duo H} {subs : Side → List Nat} {n : Net} (h : Simple d subs n) : Spec.Programs.Reach d n := by
  induction h with
  | init => exact .init
  | step a b _ hd hs _ hst ih => exact .step a b ih hd hs hst

theorem simple_polite {H : Type} {d : Duo H} {subs : Side → List Nat} {n : Net} (h : Simple d subs n) :
    PoliteRuns (fun s => blank (d.regs s)) subs n := by
  induction h with
  | init => exact .init
  | step a b _ hd hs ha hst ih => exact .step b ih hs ha hst

theorem duo_small (lib : Iota.Msgpack.Lib) (fuel : Nat) : Small (duo lib fuel) := by
  intro s k
  show (((duo ⟨fun n => n, fun _ => none⟩ 0).regs s).handlers k).length < 2 ^ 32
  cases s <;> cases k <;> decide

/-- The events of the two programs. -/
def events : Side → List (Registry.Ev Unit)
  | .client => [.exp .rr op ()]
  | .server => [.imp .rr op]

theorem duo_events (lib : Iota.Msgpack.Lib) (fuel : Nat) (s : Side) : (duo lib fuel).regs s = Registry.run (events s) := by cases s <;> rfl

theorem index_md : opIndex (importMd opSayHello) = some 0 := by decide

/-- **C156 (partial)** The program that listens is told at most one result for a call of `sayHello`, and it is shown
`Hello, ` with both names; once nothing more can be done about the calls under way, it was told, if it asked to be.

Missing: what C147 is missing (overlapping `Send`s, frames kept after the next `Read`). -/
theorem greeter_greets_partial (lib : Iota.Msgpack.Lib) (a b : Bytes) (hlen : a.length + b.length < 2 ^ 29) :
    ∃ data f0, requestData a b = .ok data ∧
      ∀ fuel subs (n : Net), f0 ≤ fuel → Simple (duo lib fuel) subs n → Few n →
      ∀ (j : Nat) (c : Peers.Call), (n.peer .server).calls[j]? = some c → c.kind = .rr → c.frame.data = data →
        c.frame.metadata = importMd opSayHello →
        (∀ r, .delivered c.obj r ∈ (n.peer .server).log → shown r = .ok (text "Hello, " ++ a ++ text " " ++ b)) ∧
        results c.obj (n.peer .server).log ≤ 1 ∧
        ((∀ x, GoesOn (fun s => blank ((duo lib fuel).regs s)) x → Sane n x → n.step x = none) → j ∈ subs .server →
          ∃ r, .delivered c.obj r ∈ (n.peer .server).log ∧ results c.obj (n.peer .server).log = 1) := by
  obtain ⟨data, d1, f0, d2⟩ := request_bytes lib a b (by omega)
  refine ⟨data, f0, d1, fun fuel subs n hf hs hb j c hj hk hd hm => ?_⟩
  have hsm : ∀ s, Handler.Small (blank ((duo lib fuel).regs s)) := by
    intro s k
    simp only [blank, List.length_map]
    exact duo_small lib fuel s k
  have hp := simple_polite hs
  refine ⟨fun r hr => ?_, ?_, fun hn hsub => ?_⟩
  · have e1 : text " " = [32] := by decide +kernel
    have e2 : text "Hello, " = [72, 101, 108, 108, 111, 44, 32] := by decide +kernel
    rcases call_runs_place (duo_events lib fuel) (duo_small lib fuel) (simple_reach hs) hb .server c (List.mem_of_getElem? hj) hk 0
      (by rw [hm]; exact index_md) r hr with ⟨y, code, h1, h2⟩ | ⟨h1, _⟩
    · unfold Gave at h2
      have h2 : fits (sayHello lib fuel c.frame.data) r = true := h2
      obtain ⟨e, h3, h4⟩ := Customer.string_bytes ([72, 101, 108, 108, 111, 44, 32] ++ a ++ [32] ++ b) (by simp; omega)
      have h5 : sayHello lib fuel c.frame.data = .ok e := by
        unfold sayHello
        rw [hd, d2 fuel hf]
        exact h3
      rw [h5] at h2
      cases r with
      | failure => cases h2
      | value x m =>
        have h2 := of_decide_eq_true h2
        rw [e1, e2]
        simp only [shown]
        rw [← h2.1]
        exact h4
    · cases h1
  · have := Net.tcp_calls_once_partial hsm hp hb .server j c hj
    split at this <;> omega
  · obtain ⟨m, h1⟩ := Net.tcp_calls_finish_partial hsm hp hb
    obtain ⟨h2, r, h3, _⟩ := (((h1 0 n (.stay n)).2 hn) .server j c hj hsub).1 hk
    exact ⟨r, h3, h2⟩

/-! ## A run -/

def noLib : Iota.Msgpack.Lib := ⟨fun n => n, fun _ => none⟩

/-- The bytes, or none. -/
def okOr : Res Bytes → Bytes
  | .ok d => d
  | _ => []

/-- What the call of `SayHello("A", "B")` sends. -/
def ab : Bytes := okOr (requestData [65] [66])

/-- The answer. -/
def hello : Result := .value (okOr (Transform.string.encode (text "Hello, A B"))) []

/-- A greeting over the connection. -/
def greeting : List Programs.Act :=
  [.net (.peer (.call .server .rr ab (importMd opSayHello))), .net (.peer (.subscribe .server 0)), .net (.carry .server 20),
   .net (.carry .server 24), .net (.read .server []), .net (.handle .client), .run .client true 0, .answer .client 0 hello,
   .net (.carry .client 20), .net (.read .client []), .net (.handle .server)]

/-- A request-response call, or a first subscription, or no call. -/
def plain (subs : Side → List Nat) : Net.Act → Bool
  | .peer (.call _ k _ _) => decide (k = .rr)
  | .peer (.subscribe s j) => decide (j ∉ subs s)
  | _ => true

theorem plain_allowed {H : Type} {d : Duo H} {n : Net} {subs : Side → List Nat} {a : Programs.Act} {b : Net.Act} (h : d.does n a = some b)
    (hb : plain subs b = true) (p : Peers.Act) (hp : seenAs b = some p) : Spec.Polite.Allowed (fun s => blank (d.regs s)) subs p := by
  cases a with
  | run s live i => cases h; cases hp; rfl
  | answer s i r =>
    simp only [Duo.does] at h
    split at h <;> cases h
    cases hp; trivial
  | net x =>
    simp only [Duo.does] at h
    split at h
    · cases h
    · rename_i hw
      cases h
      cases b with
      | carry => cases hp
      | read => cases hp
      | handle => cases hp; trivial
      | peer q =>
        cases hp
        cases p with
        | call => exact .inl (of_decide_eq_true hb)
        | subscribe s j =>
          have hb : decide (j ∉ subs s) = true := hb
          have hb := of_decide_eq_true hb
          exact hb
        | run => exact absurd rfl hw
        | _ => trivial

/-- Runs of simple calls given by their steps. -/
def runSimple {H : Type} (d : Duo H) (subs : Side → List Nat) (n : Net) : List Programs.Act → Option ((Side → List Nat) × Net)
  | [] => some (subs, n)
  | a :: as => (d.does n a).bind fun b =>
    if Net.saneB n b && plain subs b then (n.step b).bind fun n' => runSimple d (noteAct subs b) n' as else none

theorem runSimple_simple {H : Type} {d : Duo H} {as : List Programs.Act} : ∀ {subs subs' : Side → List Nat} {n n' : Net}, Simple d subs n →
    runSimple d subs n as = some (subs', n') → Simple d subs' n' := by
  induction as with
  | nil => intro subs subs' n n' hr h; cases h; exact hr
  | cons a as ih =>
    intro subs subs' n n' hr h
    simp only [runSimple, Option.bind_eq_some_iff] at h
    obtain ⟨b, h1, h⟩ := h
    split at h
    · rename_i hs
      rw [Bool.and_eq_true] at hs
      simp only [Option.bind_eq_some_iff] at h
      obtain ⟨n1, h2, h3⟩ := h
      exact ih (.step a b hr h1 (Net.saneB_sane hs.1) (plain_allowed h1 hs.2) h2) h3
    · cases h

theorem runSimple_ends {H : Type} {d : Duo H} {as : List Programs.Act} {x : (Side → List Nat) × Net}
    (h : runSimple d (fun _ => []) Net.init as = some x) : Simple d x.1 x.2 := by
  cases x; exact runSimple_simple .init h

theorem greeting_runs : (runSimple (duo noLib 20) (fun _ => []) Net.init greeting).isSome = true := by decide +kernel

/-- The theorem says something: `SayHello("A", "B")` is called and shown `Hello, A B`. -/
example : ∃ (n : Net) (subs : Side → List Nat) (c : Peers.Call), Simple (duo noLib 20) subs n ∧ Few n ∧ requestData [65] [66] = .ok ab ∧
    (n.peer .server).calls[0]? = some c ∧ c.kind = .rr ∧ c.frame.data = ab ∧ c.frame.metadata = importMd opSayHello ∧
    0 ∈ subs .server ∧ .delivered c.obj hello ∈ (n.peer .server).log ∧ shown hello = .ok (text "Hello, A B") := by
  refine ⟨((runSimple (duo noLib 20) (fun _ => []) Net.init greeting).get greeting_runs).2, _, ⟨.rr, requestFrame .rr 2 ab (importMd opSayHello), 0⟩,
    runSimple_ends (Option.some_get greeting_runs).symm, ?_, ?_, ?_, ?_, ?_, ?_, ?_, ?_, ?_⟩
  · intro s; cases s <;> decide +kernel
  · decide +kernel
  · decide +kernel
  · decide +kernel
  · decide +kernel
  · decide +kernel
  · decide +kernel
  · decide +kernel
  · decide +kernel

end Iota.Props.Greeter
