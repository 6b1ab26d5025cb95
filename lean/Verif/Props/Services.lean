import Verif.Props.WasmDrain
import Verif.Props.Greeter
import Verif.Spec.Services

/-! # Properties of the example's host and guest -/

namespace Iota.Props.Services
open Iota.Go Iota.Frames Iota.Registry Iota.WasmDispatch Iota.WasmCalls Iota.Services Iota.Spec.Services Iota.Spec.WasmCalls
open Iota.Spec.WasmStreams Iota.Spec.WasmOnce
open Iota.Spec.Components (text)
open Iota.Spec.Handler (opIndex)
open Iota.Spec.Codegen
open Iota.Spec.Msgpack (short)
open Iota.Peers (Result)
open Iota.Programs (importMd)
open Iota.Handler (lit)

theorem runs_once {lib : Iota.Msgpack.Lib} {fuel : Nat} {y : Sys Code} {said : End → List (Said Code)} {sent : End → List Nat}
    (h : Runs lib fuel y said sent) : Once hands y said sent := by
  induction h with
  | init => exact .init
  | step a _ hi hn hs ih =>
    unfold Services.step at hs
    split at hs
    · exact .step a ih hi hn hs
    · cases hs

/-- Results are only recorded when a handler answers. -/
theorem made_step {H : Type} {hs : End → Handlers H} {y y' : Sys H} {a : WasmCalls.Act} (h : y.step hs a = some y') (t : End) :
    (y'.node t).made = (y.node t).made ∨
      ∃ i r x, a = .answer t i r ∧ (y.node t).jobs[i]? = some x ∧ (y'.node t).made = (y.node t).made ++ [(x, r)] := by
  have does : ∀ {e : End} {b : WasmDispatch.Act} {one : Bool}, y.does hs e b one = some y' → (y'.node t).made = (y.node t).made := by
    intro e b one hd
    unfold Sys.does at hd
    split at hd
    · cases hd
      simp only [Sys.put]
      split
      · rename_i he; rw [he]; rfl
      · rfl
    · cases hd
  cases a with
  | call e k d m ctx =>
    left
    simp only [Sys.step, Option.map_eq_some_iff] at h
    obtain ⟨r, h1, rfl⟩ := h
    unfold Node.call at h1
    split at h1
    · cases h1
    · cases h1
      simp only [Sys.put]
      split
      · rename_i he; rw [he]
      · rfl
  | subscribe e j =>
    left
    simp only [Sys.step, Option.map_eq_some_iff] at h
    obtain ⟨r, h1, rfl⟩ := h
    unfold Node.subscribe at h1
    split at h1
    · split at h1
      · cases h1
      · split at h1
        · cases h1
          simp only [Sys.put]
          split
          · rename_i he; rw [he]
          · rfl
        · cases h1
    · cases h1
  | start e j n =>
    left
    simp only [Sys.step, Option.bind_eq_some_iff] at h
    obtain ⟨c, h1, h2⟩ := h
    split at h2
    · cases h2
      simp only [Sys.put]
      split
      · rename_i he; rw [he]
      · rfl
    · cases h2
  | own e j f =>
    left
    simp only [Sys.step, Option.bind_eq_some_iff] at h
    obtain ⟨c, h1, h2⟩ := h
    split at h2
    · cases h2
      simp only [Sys.put]
      split
      · rename_i he; rw [he]
      · rfl
    · cases h2
  | recv e data =>
    left
    simp only [Sys.step, Option.bind_eq_some_iff] at h
    obtain ⟨c, h1, h2⟩ := h
    split at h2
    · exact does h2
    · cases h2
  | task e i live => exact .inl (does (e := e) (b := .task i live) (one := false) h)
  | startIn e i live => exact .inl (does (e := e) (b := .startIn i live) (one := false) h)
  | openSink e i => exact .inl (does (e := e) (b := .openSink i) (one := false) h)
  | answer e i r =>
    simp only [Sys.step, Option.map_eq_some_iff] at h
    obtain ⟨p, h1, rfl⟩ := h
    unfold Node.answer at h1
    split at h1
    · cases h1
    · rename_i x hx
      split at h1
      · cases h1
        by_cases he : t = e
        · subst he
          right
          exact ⟨i, r, x, rfl, hx, by simp [Sys.put]⟩
        · left
          simp [Sys.put, he]
      · cases h1
  | emit e i f =>
    left
    simp only [Sys.step, Option.bind_eq_some_iff] at h
    obtain ⟨c, h1, h2⟩ := h
    split at h2
    · cases h2
      simp only [Sys.put]
      split
      · rename_i he; rw [he]
      · rfl
    · cases h2

/-- Every result was given by the code of its handler. -/
theorem made_given {lib : Iota.Msgpack.Lib} {fuel : Nat} {y : Sys Code} {said : End → List (Said Code)} {sent : End → List Nat}
    (h : Runs lib fuel y said sent) (e : End) : ∀ p ∈ (y.node e).made, gives lib fuel p.1.handler p.1.data p.2 = true := by
  induction h with
  | init => intro p hp; exact absurd hp List.not_mem_nil
  | @step y y' said sent a _ hi hn hs ih =>
    unfold Services.step at hs
    split at hs
    · rename_i hp
      intro p hpm
      rcases made_step hs e with h1 | ⟨i, r, x, rfl, hx, h1⟩
      · rw [h1] at hpm; exact ih p hpm
      · rw [h1] at hpm
        rcases List.mem_append.mp hpm with h2 | h2
        · exact ih p h2
        · cases List.mem_singleton.mp h2
          simp only [permitted, hx] at hp
          exact hp
    · cases hs

theorem greet_index : opIndex (importMd opSayHello) = some 0 := by decide

theorem guest_greets : hands .guest .rr 0 = some .sayHello := by decide

theorem not_many : many .rr = false := rfl

/-- The host has no handlers. -/
theorem host_knows_none (c : WasmCalls.Call) : Unknown (hands .host) c := fun op _ => by simp [hands, getSlot, hostSlots]

/-- **C173** (part) The host is greeted: for `SayHello(f, l)` it is shown nothing but `Hello, f l`, at most once, and once if it waits and nothing
of the call is under way. -/
theorem host_is_greeted (lib : Iota.Msgpack.Lib) (f l : Bytes) (hlen : f.length + l.length < 2 ^ 29) :
    ∃ q f0, sayHelloCall f l = .ok q ∧ ∀ fuel (y : Sys Code) said sent, f0 ≤ fuel → Runs lib fuel y said sent → Bounded y →
      ∀ (j : Nat) (c : WasmCalls.Call), Makes y .host j q c →
        (∀ r ∈ toldCall (y.node .host) j, Services.shown r = .ok (text "Hello, " ++ f ++ text " " ++ l)) ∧
        (toldCall (y.node .host) j).length ≤ 1 ∧
        ((y.node .host).obj j ≠ none → inFlight (y.node .guest) (y.wire .host) (y.wire .guest) c = 0 →
          ∃ r, toldCall (y.node .host) j = [r]) := by
  obtain ⟨data, d1, f0, d2⟩ := Greeter.request_bytes lib f l (by omega)
  refine ⟨(.rr, data, importMd opSayHello), f0, by rw [sayHelloCall, d1]; rfl, fun fuel y said sent hf hr hb j c ⟨hc, hq⟩ => ?_⟩
  simp only [Prod.mk.injEq] at hq
  obtain ⟨hk, hd, hm⟩ := hq
  have hre := WasmStreams.told_reach (WasmOnce.once_told (runs_once hr))
  obtain ⟨h1, h2⟩ := WasmCalls.calls_get_own_results hre hb .host hc hk
  refine ⟨fun r hr' => ?_, h2, fun ho hz => WasmCalls.calls_get_results hre hb .host hc hk ho hz⟩
  have e1 : text " " = [32] := by decide +kernel
  have e2 : text "Hello, " = [72, 101, 108, 108, 111, 44, 32] := by decide +kernel
  have hidx : ∀ op : UInt32, opIndex c.metadata = some op.toNat → op = 0 := by
    intro op ho
    rw [hm, greet_index] at ho
    have : op.toNat = 0 := (Option.some.inj ho).symm
    exact UInt32.toNat_inj.mp this
  cases h1 r hr' with
  | refused msg hu _ =>
    exact absurd (hu 0 (by rw [hm]; exact greet_index)) (by rw [hk]; decide)
  | handler x r hx hsv =>
    have hg : gives lib fuel x.handler x.data r = true := made_given hr .guest _ hx
    obtain ⟨op, h3, h4⟩ := hsv.handler
    rw [hidx op h3, hk] at h4
    have h5 : x.handler = .sayHello := (Option.some.inj (guest_greets.symm.trans h4)).symm
    rw [h5, hsv.data, hd] at hg
    obtain ⟨e, h6, h7⟩ := Customer.string_bytes ([72, 101, 108, 108, 111, 44, 32] ++ f ++ [32] ++ l) (by simp; omega)
    have h8 : Greeter.sayHello lib fuel data = .ok e := by
      unfold Greeter.sayHello
      rw [d2 fuel hf]
      exact h6
    simp only [gives, h8] at hg
    cases r with
    | failure => cases hg
    | value d m =>
      have h9 := of_decide_eq_true hg
      rw [e1, e2]
      simp only [Services.shown]
      rw [← h9.1]
      exact h7

theorem counter_wf : WellFormed counterEnv := by
  refine ⟨fun n => ?_, fun n => ?_, fun n => ?_, fun n fs h => ?_, fun _ => 0, fun n h => Nat.zero_lt_one, fun n s m h => ?_⟩ <;>
    rcases n with _ | n <;> simp_all [counterEnv, Codegen.Env.get, Codegen.Def.fields, names, short]

/-- **C173** (part) `CountToN` sends its number, for the wrapper to read it. -/
theorem count_request (lib : Iota.Msgpack.Lib) (n : Nat) (h : n < 2 ^ 64) :
    ∃ data f0, countToNCall n = .ok (.rs, data, importMd opCountToN) ∧ ∀ fuel, f0 ≤ fuel → parseCounter lib fuel data = .ok n := by
  obtain ⟨bs, h1, f0, h2⟩ := Codegen.codec_round_trip_partial lib counterEnv counter_wf 0 (counterValue n) (counterValue n) (.refl _)
    (.struct rfl (.cons (.prim (by simp [IsPrim]; omega)) .nil)) (by
      simp [counterValue, Codegen.write, Codegen.Ty.strip, Codegen.Env.get, counterEnv, Codegen.writeFields, Codegen.Sc.op, Msgpack.Size.ops,
        Msgpack.Size.op, Msgpack.Size.str, Msgpack.Size.strLen, Msgpack.Size.mapSize, Msgpack.Size.uint, Msgpack.U32]
      (repeat' split) <;> omega)
  refine ⟨bs, f0, by rw [countToNCall, counterData, h1]; rfl, fun f hf => ?_⟩
  unfold parseCounter
  rw [h2 f hf]
  rfl

/-- **C173** (part) None of the guest's streams gets anywhere: the host starts no handler, and the subscriber of a stream is told that it was not found, if
anything. -/
theorem guest_streams_fail {lib : Iota.Msgpack.Lib} {fuel : Nat} {y : Sys Code} {said : End → List (Said Code)} {sent : End → List Nat}
    (h : Runs lib fuel y said sent) (hb : Bounded y) :
    (y.node .host).jobs = [] ∧
    ∀ (q : Kind × Bytes × Bytes) (j : Nat) (c : WasmCalls.Call) (o : Nat), ((∃ n, countToNCall n = .ok q) ∨ q = uppercaseCall) →
      Makes y .guest j q c → (y.node .guest).obj j = some o →
      (signals o (y.node .guest).peer.log = [] ∨ signals o (y.node .guest).peer.log = [.error (lit "not_found"), .complete]) ∧
      (j ∈ sent .guest → Handled y .guest c.id → (∀ f ∈ y.wire .host, f.streamID ≠ c.id) →
        signals o (y.node .guest).peer.log = [.error (lit "not_found"), .complete]) := by
  constructor
  · cases hj : (y.node .host).jobs with
    | nil => rfl
    | cons x l =>
      have hg := WasmCalls.good_reach (WasmStreams.told_reach (WasmOnce.once_told (runs_once h))) hb
      obtain ⟨c, hc, hsv⟩ := (hg.link .guest).jobs x (by show x ∈ (y.node .host).jobs; rw [hj]; exact List.mem_cons_self)
      obtain ⟨op, h1, h2⟩ := hsv.handler
      have h2 : hands .host c.kind op = _ := h2
      rw [host_knows_none c op h1] at h2; cases h2
  · intro q j c o hq ⟨hc, hcq⟩ ho
    have hqq : many c.kind = true ∧ c.metadata.length = 8 := by
      rcases hq with ⟨n, hn⟩ | hn
      · unfold countToNCall at hn
        cases hd : counterData n with
        | ok d =>
          rw [hd] at hn
          cases hn
          simp only [Prod.mk.injEq] at hcq
          rw [hcq.1, hcq.2.2]
          exact ⟨rfl, rfl⟩
        | err => rw [hd] at hn; cases hn
        | panic => rw [hd] at hn; cases hn
      · rw [hn] at hcq
        simp only [uppercaseCall, Prod.mk.injEq] at hcq
        rw [hcq.1, hcq.2.2]
        exact ⟨rfl, rfl⟩
    have hr : refusal c.metadata = lit "not_found" := by
      unfold refusal
      rw [hqq.2]
      rfl
    have := WasmOnce.refused_stream (runs_once h) hb .guest j c o hc hqq.1 ho (host_knows_none c)
    rw [hr] at this
    exact this

/-- **C173** (part) The host's `Uppercase` gets nowhere either: it names no operation, so the guest starts no handler for it and refuses it. -/
theorem host_uppercase_fails {lib : Iota.Msgpack.Lib} {fuel : Nat} {y : Sys Code} {said : End → List (Said Code)} {sent : End → List Nat}
    (h : Runs lib fuel y said sent) (hb : Bounded y) (j : Nat) (c : WasmCalls.Call) (hq : Makes y .host j greetingUppercaseCall c) :
    handlers c.id (y.node .guest).jobs = 0 ∧
    ∀ o, (y.node .host).obj j = some o →
      (signals o (y.node .host).peer.log = [] ∨ signals o (y.node .host).peer.log = [.error (lit "Invalid metadata"), .complete]) ∧
      (j ∈ sent .host → Handled y .host c.id → (∀ f ∈ y.wire .guest, f.streamID ≠ c.id) →
        signals o (y.node .host).peer.log = [.error (lit "Invalid metadata"), .complete]) := by
  obtain ⟨hc, hcq⟩ := hq
  simp only [greetingUppercaseCall, Prod.mk.injEq] at hcq
  obtain ⟨hk, hd, hm⟩ := hcq
  have hmany : many c.kind = true := by rw [hk]; rfl
  have hu : Unknown (hands .guest) c := fun op ho => by rw [hm] at ho; cases ho
  have hr : refusal c.metadata = lit "Invalid metadata" := by rw [hm]; rfl
  refine ⟨(WasmOnce.stream_served_once (runs_once h) hb .host j c hc hmany).2.2.1 hu, fun o ho => ?_⟩
  have := WasmOnce.refused_stream (runs_once h) hb .host j c o hc hmany ho hu
  rw [hr] at this
  exact this

/-! ## A run -/

/-- A run given by its steps. -/
def runSteps (lib : Iota.Msgpack.Lib) (fuel : Nat) : Sys Code → (End → List (Said Code)) → (End → List Nat) → List WasmCalls.Act →
    Option (Sys Code × (End → List (Said Code)) × (End → List Nat))
  | y, said, sent, [] => some (y, said, sent)
  | y, said, sent, a :: as =>
    if ∀ e ∈ [End.host, End.guest], ∀ j ∈ startedIn a e, j ∉ sent e ∧ ((y.node e).obj j).isSome = true then
      (Services.step lib fuel y a).bind fun y' =>
        runSteps lib fuel y' (fun t => said t ++ saysIn y y' a t) (fun t => sent t ++ startedIn a t) as
    else none

theorem runSteps_runs {lib : Iota.Msgpack.Lib} {fuel : Nat} {y y' : Sys Code} {said said' : End → List (Said Code)} {sent sent' : End → List Nat}
    {as : List WasmCalls.Act} (ht : Runs lib fuel y said sent) (h : runSteps lib fuel y said sent as = some (y', said', sent')) :
    Runs lib fuel y' said' sent' := by
  induction as generalizing y said sent with
  | nil => cases h; exact ht
  | cons a as ih =>
    unfold runSteps at h
    split at h
    · rename_i hc
      obtain ⟨y1, h1, h2⟩ := Option.bind_eq_some_iff.mp h
      have hall : ∀ e, ∀ j ∈ startedIn a e, j ∉ sent e ∧ ((y.node e).obj j).isSome = true := fun e => by
        cases e
        · exact hc _ (by simp)
        · exact hc _ (by simp)
      refine ih (.step a ht ?_ (fun e j hj => (hall e j hj).1) h1) h2
      cases a with
      | start e j n => exact (hall e j (by simp [startedIn])).2
      | _ => trivial
    · cases h

/-- What is so at the end of such a run. -/
theorem steps_end {lib : Iota.Msgpack.Lib} {fuel : Nat} {as : List WasmCalls.Act} {P : Sys Code × (End → List (Said Code)) × (End → List Nat) → Prop}
    [DecidablePred P] (h : ((runSteps lib fuel Sys.init (fun _ => []) (fun _ => []) as).any fun y => decide (P y)) = true) :
    ∃ y said sent, Runs lib fuel y said sent ∧ P (y, said, sent) := by
  obtain ⟨⟨y, said, sent⟩, h1, h2⟩ := (Option.any_eq_true _ _).mp h
  exact ⟨y, said, sent, runSteps_runs .init h1, of_decide_eq_true h2⟩

/-- What the call of `CountToN(3)` sends. -/
def three : Bytes := Greeter.okOr (counterData 3)

/-- The host calls `SayHello("A", "B")`; the guest counts to three, which fails, and answers; the host's `Uppercase` fails. -/
def session : List WasmCalls.Act :=
  [.call .host .rr Greeter.ab (importMd opSayHello) .background, .subscribe .host 0,
   .recv .guest ([0, 0, 0, 2, 17, 0, 0, 0, 8] ++ importMd opSayHello ++ Greeter.ab), .task .guest 0 true,
   .call .guest .rs three (importMd opCountToN) .background, .subscribe .guest 0, .start .guest 0 2,
   .recv .host ([0, 0, 0, 1, 25, 0, 0, 0, 0, 2, 0, 0, 8] ++ importMd opCountToN ++ three), .task .host 0 true,
   .recv .guest ([0, 0, 0, 1, 44, 0, 0, 0, 0, 0] ++ lit "not_found"),
   .answer .guest 0 Greeter.hello,
   .recv .host ([0, 0, 0, 2, 40, 96] ++ Greeter.okOr (Transform.string.encode (text "Hello, A B"))),
   .call .host .rc [] [] .background, .subscribe .host 1, .start .host 1 2,
   .recv .guest [0, 0, 0, 4, 28, 0, 0, 0, 0, 2], .task .guest 0 true,
   .recv .host ([0, 0, 0, 4, 44, 0, 0, 0, 0, 0] ++ lit "Invalid metadata")]

/-- The theorems say something: the host is shown `Hello, A B`, the guest's count was not found, the host's `Uppercase` was refused. -/
example : ∃ y said sent, Runs Greeter.noLib 20 y said sent ∧ Bounded y ∧ (∃ q, sayHelloCall [65] [66] = .ok q ∧ ∃ c, Makes y .host 0 q c) ∧ (y.node .guest).obj 0 = some 0 ∧ (y.node .host).obj 1 = some 1 ∧
    toldCall (y.node .host) 0 = [Greeter.hello] ∧ Services.shown Greeter.hello = .ok (text "Hello, A B") ∧
    (∃ q, countToNCall 3 = .ok q ∧ ∃ c, Makes y .guest 0 q c) ∧ sent .guest = [0] ∧
    signals 0 (y.node .guest).peer.log = [.error (lit "not_found"), .complete] ∧
    (∃ c, Makes y .host 1 greetingUppercaseCall c) ∧ sent .host = [1] ∧
    signals 1 (y.node .host).peer.log = [.error (lit "Invalid metadata"), .complete] := by
  have := steps_end (lib := Greeter.noLib) (fuel := 20) (as := session) (P := fun p =>
    (p.1.node .host).calls = [⟨.rr, 2, Greeter.ab, importMd opSayHello, .background⟩, ⟨.rc, 4, [], [], .background⟩] ∧
    (p.1.node .guest).calls = [⟨.rs, 1, three, importMd opCountToN, .background⟩] ∧
    toldCall (p.1.node .host) 0 = [Greeter.hello] ∧ Services.shown Greeter.hello = .ok (text "Hello, A B") ∧ p.2.2 .guest = [0] ∧
    signals 0 (p.1.node .guest).peer.log = [.error (lit "not_found"), .complete] ∧ p.2.2 .host = [1] ∧
    signals 1 (p.1.node .host).peer.log = [.error (lit "Invalid metadata"), .complete] ∧ (p.1.node .guest).obj 0 = some 0 ∧
    (p.1.node .host).obj 1 = some 1 ∧ sayHelloCall [65] [66] = .ok (.rr, Greeter.ab, importMd opSayHello) ∧
    countToNCall 3 = .ok (.rs, three, importMd opCountToN)) (by decide +kernel)
  obtain ⟨y, said, sent, h, h1, h2, h3, h4, h5, h6, h7, h8, h9, h10, h11, h12⟩ := this
  dsimp only at h1 h2 h3 h4 h5 h6 h7 h8 h9 h10
  have m1 : Makes y .host 0 (.rr, Greeter.ab, importMd opSayHello) ⟨.rr, 2, Greeter.ab, importMd opSayHello, .background⟩ :=
    ⟨by rw [h1]; exact List.getElem?_cons_zero, by dsimp only [greetingUppercaseCall]⟩
  have m2 : Makes y .guest 0 (.rs, three, importMd opCountToN) ⟨.rs, 1, three, importMd opCountToN, .background⟩ :=
    ⟨by rw [h2]; exact List.getElem?_cons_zero, by dsimp only [greetingUppercaseCall]⟩
  have m3 : Makes y .host 1 greetingUppercaseCall ⟨.rc, 4, [], [], .background⟩ :=
    ⟨by rw [h1]; exact List.getElem?_cons_succ.trans List.getElem?_cons_zero, by dsimp only [greetingUppercaseCall]⟩
  refine ⟨y, said, sent, h, ?_, ⟨_, h11, _, m1⟩, h9, h10, h3, h4, ⟨_, h12, _, m2⟩, h5, h6, ⟨_, m3⟩, h7, h8⟩
  intro e
  cases e
  · rw [h1]; decide
  · rw [h2]; decide

end Iota.Props.Services
