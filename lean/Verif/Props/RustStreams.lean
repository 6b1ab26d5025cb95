import Verif.Model.RustStreams
import Verif.Props.RustGenerated
import Verif.Props.RustWrappers

/-!
# C201: generated streams between a Rust host and its guest
-/

namespace Iota.Props.RustStreams
open Iota.Go Iota.Frames Iota.Rust Iota.Spec.RustPair Iota.Spec.RustSocket Iota.Props.RustPair
open Iota.Spec.Msgpack Iota.Spec.Reader Iota.RustInputs Iota.RustClient Iota.RustCall Iota.RustStreams Iota.RustWrappers Iota.Spec.RustWrappers
open Iota.Props.RustClient

/-! ## Specification -/

/-- The end with this history serves the operation with this index by the wrapper. The first thing the task of a stream does is to start the handler. -/
def Serves (e : Bool) (history : List SockAct) (index : Nat) (gives : Bytes → List Yield → Prop) : Prop :=
  ∀ as bs v s, history = as ++ .recv (.request v) :: bs → v.frameType = tRequestStream → beNat (v.metadata.take 4) = index →
    (Sock.init e).run as = some (.ok s) → ∀ y ys, yields s.tasks.length bs = y :: ys → gives v.data ys

/-- A beginning of what was sent, as the client hears it: values in order, up to the first that takes more than 100 KiB, the first error, or the end. -/
inductive Hears (ser : Val → Bytes) (msg : Bytes) : List (RustRx.Signal Val Bytes) → List Rust.Signal × Bool → Prop
  | start (s : List (RustRx.Signal Val Bytes)) : Hears ser msg s ([], false)
  | value {v : Val} {b : Bytes} {s : List (RustRx.Signal Val Bytes)} {g : List Rust.Signal} {c : Bool} (hs : (ser v).length ≤ 102400)
      (ho : ∃ f0, ∀ f, f0 ≤ f → output f b = some v) (h : Hears ser msg s (g, c)) : Hears ser msg (.ok v :: s) (.ok [] b :: g, c)
  | large {v : Val} (s : List (RustRx.Signal Val Bytes)) (hs : 102400 < (ser v).length) : Hears ser msg (.ok v :: s) ([.err 513 (text msg)], true)
  | error (e : Bytes) (s : List (RustRx.Signal Val Bytes)) : Hears ser msg (.err e :: s) ([.err 513 (text e)], true)
  | complete (s : List (RustRx.Signal Val Bytes)) : Hears ser msg (.complete :: s) ([], true)
  | ended : Hears ser msg [] ([], true)

/-- What the client is told: nothing yet; a beginning of what the implementation sent when it ran with the arguments; or only the error that it returned then. -/
inductive Told (ser : Val → Bytes) (msg : Bytes) (impl : List Val → List (StreamEv Val) → Prop) (vs : List Val) : List Rust.Signal × Bool → Prop
  | nothing : Told ser msg impl vs ([], false)
  | sent {es : List (StreamEv Val)} {r : List Rust.Signal × Bool} (hi : impl vs es) (hh : Hears ser msg (streamSent es) r) : Told ser msg impl vs r
  | failed {es : List (StreamEv Val)} {e : Bytes} (hi : impl vs es) (hf : .fail e ∈ es) : Told ser msg impl vs ([.err 513 (text e)], true)

/-! ## C201 -/

theorem heard_take (g : Bool) (r : List (RustRx.Signal Bytes Bytes)) : ∀ o, ∃ m, heard false o = (heard g (o ++ r)).take m
  | [] => ⟨0, by simp [heard]⟩
  | .ok b :: o => by
    obtain ⟨m, h⟩ := heard_take g r o
    exact ⟨m + 1, by simp [heard, h]⟩
  | .err e :: o => by
    obtain ⟨m, h⟩ := heard_take g r o
    exact ⟨m + 1, by simp [heard, h]⟩
  | .complete :: o => ⟨1, by simp [heard]⟩

theorem hears (ser : Val → Bytes) (msg : Bytes) (g : Bool) : ∀ (s : List (RustRx.Signal Val Bytes)), (∀ v, .ok v ∈ s → Writer ser v) → ∀ n,
    Hears ser msg s (toldMany ((heard g ((upToEnd s).map (message (wrap ser msg)) ++ [.complete])).take n))
  | s, _, 0 => .start s
  | [], _, n + 1 => by simp [upToEnd, heard, toldMany]; exact .ended
  | .complete :: s, _, n + 1 => by simp [upToEnd, heard, toldMany]; exact .complete s
  | .err e :: s, _, n + 1 => by simp [upToEnd, heard, message, toldMany]; exact .error e s
  | .ok v :: s, hw, n + 1 => by
    by_cases hb : (ser v).length ≤ 102400
    · have : wrap ser msg v = .ok (ser v) := by simp [wrap, serialize, bufferSize, hb]
      simp only [upToEnd, List.map_cons, message, this, List.cons_append, heard, List.take_succ_cons, toldMany]
      obtain ⟨f1, h5⟩ := RustOutputs.output_wire (hw v (by simp))
      exact .value hb ⟨f1, fun f hle => by simpa using h5 f hle []⟩ (hears ser msg g s (fun v hv => hw v (by simp [hv])) n)
    · have : wrap ser msg v = .error msg := by simp [wrap, serialize, bufferSize, hb]
      simp only [upToEnd, List.map_cons, message, this, List.cons_append, heard, List.take_succ_cons, toldMany]
      exact .large s (by omega)

theorem run_failed {ser : Val → Except Bytes Bytes} {e : Bytes} : ∀ (es : List (StreamEv Val)) {w w' : StreamW Val}, w.run ser es = some w' →
    w'.impl = .failed e → w.impl = .failed e ∨ .fail e ∈ es
  | [], w, w', h, hf => by cases h; exact .inl hf
  | ev :: es, w, w', h, hf => by
    simp only [StreamW.run] at h
    split at h
    · cases h
    · rename_i w1 h1
      rcases run_failed es h hf with h2 | h2
      · cases ev with
        | use u =>
          simp only [StreamW.step, Option.map_eq_some_iff] at h1
          obtain ⟨c, _, rfl⟩ := h1
          exact .inl h2
        | ret k =>
          simp only [StreamW.step] at h1
          split at h1
          · cases h1; cases h2
          · cases h1
        | fail e' =>
          simp only [StreamW.step] at h1
          split at h1
          · cases h1; cases h2; exact .inr (by simp)
          · cases h1
        | pump =>
          simp only [StreamW.step] at h1
          split at h1
          · cases h1
          · split at h1
            · cases h1
            · cases h1
              left
              unfold StreamW.forward at h2
              split at h2 <;> exact h2
          · split at h1
            · cases h1
            · cases h1; exact .inl h2
      · exact .inr (by simp [h2])

/-- What is told of the stream of a wrapper. -/
theorem wrapper_told {ser : Val → Bytes} {msg : Bytes} {impl : List Val → List (StreamEv Val) → Prop} {vs : List Val} {es : List (StreamEv Val)} {w : StreamW Val}
    (hi : impl vs es) (hr : StreamW.start.run (wrap ser msg) es = some w) (hw : ∀ v, .ok v ∈ streamSent es → Writer ser v) (n : Nat) :
    Told ser msg impl vs (toldMany ((heard w.done w.out).take n)) := by
  have hinv := RustWrappers.sinv _ es hr
  cases him : w.impl with
  | running =>
    obtain ⟨h1, h2, _, _⟩ := hinv.running him
    rw [h1, h2]
    simp only [heard, Bool.false_eq_true, if_false, List.take_nil, toldMany]
    exact .nothing
  | returned =>
    obtain ⟨h1, h2⟩ := RustWrappers.stream_wrapper_partial _ es hr him
    refine .sent hi ?_
    cases hd : w.done with
    | true => rw [h2 hd]; exact hears ser msg true _ hw n
    | false =>
      obtain ⟨rest, h3⟩ := h1 hd
      obtain ⟨m, h4⟩ := heard_take false (rest ++ [.complete]) w.out
      rw [h4, List.take_take, ← List.append_assoc, ← h3]
      exact hears ser msg false _ hw _
  | failed e =>
    have hfe : .fail e ∈ es := by
      rcases run_failed es hr him with h | h
      · cases h
      · exact h
    rcases hinv.failed e him with ⟨hd, h⟩ | ⟨hd, h⟩
    · rw [h, hd]; simp [heard, toldMany]; exact .nothing
    · rw [h]
      cases n with
      | zero => exact .nothing
      | succ n => simp only [heard, List.take_succ_cons, toldMany]; exact .failed hi hfe

/-- **C201** For all operations that answer with a stream, all arguments that take at most 100 KiB, all serializers of MessagePack and all runs of a Rust host
and guest of which the other end serves the operation by its generated wrapper: what the generated client is told at any time is a beginning of what the
implementation sent when it ran with exactly the arguments, in order, or only the error it returned; and it is told the end when every frame is processed and no task
is left. -/
theorem rust_generated_stream (ser : Val → Bytes) (index : Nat) (hi : index < 2 ^ 32) (params : List Bytes) (hn : params.Nodup) (vs : List Val)
    (hl : params.length = vs.length) (hw : Writer ser (.map (entries params vs))) (hsz : (ser (.map (entries params vs))).length ≤ 102400)
    (msg msg' : Bytes) (impl : List Val → List (StreamEv Val) → Prop) (himpl : ∀ es v, impl vs es → .ok v ∈ streamSent es → Writer ser v) :
    ∃ md d f0, call ser true index (.map (entries params vs)) = .asks .rs md d ∧ ∀ f, f0 ≤ f → ∀ (p : Pair) (H : Bool → List SockAct), Runs p H → Few H →
      ∀ (e : Bool) (as bs : List SockAct) (s1 : Sock), Serves (!e) (H (!e)) index (Gives (de f params msg) (wrap ser msg') impl) →
        H e = as ++ .call .rs md d :: bs → (Sock.init e).run as = some (.ok s1) → ∀ k, (p.sock e).sinks[s1.sinks.length]? = some k → k.live = true →
        Told ser msg' impl vs (k.got, k.closed) ∧ (Settled p → k.closed = true) := by
  obtain ⟨md, d, h1, h2, h3, f0, h4⟩ := call_made_partial ser true index hi _ hw hsz
  refine ⟨md, d, f0, h1, fun f hf p H hr hfew e as bs s1 hserves hH hrun k hk hlive => ?_⟩
  have hread : de f params msg d = .ok vs := by
    have hfe := RustCall.fields_entries params vs [] hl hn (by simp)
    rw [List.nil_append] at hfe
    simp only [de, inputs, h4 f hf, hfe]
  have c : Made p H e as bs .rs md d s1 := ⟨hr, hfew, hH, hrun⟩
  have hset := fun hs => (rust_calls_settle hr hfew hs e as bs .rs (.inr rfl) md d hH s1 hrun k hk hlive).1
  obtain ⟨hA, hB⟩ := rust_callers_told hr hfew e as bs .rs (.inr rfl) md d hH s1 hrun k hk hlive
  refine ⟨?_, hset⟩
  by_cases hex : ∃ v, SockAct.recv (.request v) ∈ H (!e) ∧ v.streamID = s1.next
  · obtain ⟨v, hv, hvs⟩ := hex
    obtain ⟨as', bs', hH'⟩ := List.append_of_mem hv
    have hrn := (Runs.each hr (!e)).1
    rw [hH'] at hrn
    obtain ⟨s2, h5, _⟩ := run_split as' _ hrn
    obtain ⟨n, hn'⟩ := (hA as' bs' v s2 hH' hvs h5).1
    obtain ⟨u, hu, u1, u2, u3, u4⟩ := c.request (by simp)
    have hvu : v = u := by
      have hmem : Frame.request v ∈ (p.sock e).out := by
        have hr' := (Runs.each hr (!e)).2.1
        simp only [Bool.not_not] at hr'
        refine List.mem_of_mem_take (i := p.read (!e)) ?_
        rw [← hr', hH', recvs_append]
        exact List.mem_append_right _ (List.mem_cons_self)
      have := c.only hu u1 hmem rfl hvs
      cases this
      rfl
    subst hvu
    rw [hn', told, if_neg (by simp)]
    cases hy : yields s2.tasks.length bs' with
    | nil => rw [List.take_nil]; exact .nothing
    | cons y ys =>
      obtain ⟨es, w, m, hrw, rfl⟩ := hserves as' bs' v s2 hH' u4 (by rw [u2]; exact h3) h5 y ys hy
      have himp : impl vs es := by
        rcases hrw.code with ⟨x, hx, hix⟩ | ⟨x, hx, _⟩
        · rw [u3, hread] at hx; cases hx; exact hix
        · rw [u3, hread] at hx; cases hx
      cases n with
      | zero => exact .nothing
      | succ n =>
        rw [List.take_succ_cons, List.tail_cons, List.take_take]
        exact wrapper_told himp hrw.runs (fun v hv => himpl es v himp hv) _
  · have := hB (fun v hv hs => hex ⟨v, hv, hs⟩)
    rw [this.1, this.2]
    exact .nothing

/-- **C201, nothing is left out** A client that was told the end without an error was told as many values as were sent before the end. -/
theorem heard_all {ser : Val → Bytes} {msg : Bytes} {s : List (RustRx.Signal Val Bytes)} {r : List Rust.Signal × Bool} (h : Hears ser msg s r) (hc : r.2 = true)
    (he : ∀ c m, .err c m ∉ r.1) : r.1.length = (upToEnd s).length ∧ ∀ e, .err e ∉ upToEnd s := by
  induction h with
  | start s => cases hc
  | value hs ho h ih =>
    obtain ⟨h1, h2⟩ := ih hc (fun c m hm => he c m (by simp [hm]))
    exact ⟨by simp [upToEnd, h1], fun e hm => by simp [upToEnd] at hm; exact h2 e hm⟩
  | large s hs => exact absurd (List.mem_singleton_self _) (he _ _)
  | error e s => exact absurd (List.mem_singleton_self _) (he _ _)
  | complete s => simp [upToEnd]
  | ended => simp [upToEnd]

/-! ### Cases -/

/-- What the implementation of a stream does that sends 7 and completes, up to some point. -/
def evs : List (StreamEv Val) := [.use (.send (.ok (.int 7))), .use (.send .complete), .ret false, .pump, .pump]

def seven : List Val → List (StreamEv Val) → Prop := fun xs es => xs = [.int 3, .int 4] ∧ ∃ n, es = evs.take n

theorem seven_writes (es : List (StreamEv Val)) (v : Val) (h : seven [.int 3, .int 4] es) (hv : .ok v ∈ streamSent es) : Writer RustCall.tiny v := by
  obtain ⟨_, n, rfl⟩ := h
  have h7 : v = .int 7 := by
    match n, hv with
    | 0, hv => simp [streamSent, evs] at hv
    | 1, hv => simpa [streamSent, evs] using hv
    | 2, hv => simpa [streamSent, evs] using hv
    | 3, hv => simpa [streamSent, evs] using hv
    | 4, hv => simpa [streamSent, evs] using hv
    | n + 5, hv => simpa [streamSent, evs] using hv
  subst h7
  exact .posfix (n := 7) (by decide)

example := rust_generated_stream RustCall.tiny 7 (by decide) [[97], [98]] (by decide) [.int 3, .int 4] rfl RustCall.tiny_args (by decide +kernel) [33] [34] seven
  seven_writes

example := heard_all (ser := RustCall.tiny) (msg := [34]) (s := [.ok (.int 7), .complete]) (r := ([.ok [] [7]], true))
  (hears RustCall.tiny [34] true [.ok (.int 7), .complete] (fun v hv => by
    have : v = .int 7 := by simpa using hv
    subst this
    exact .posfix (n := 7) (by decide)) 2) rfl (by simp)

/-- The host calls the stream with 3 and 4, and the guest answers 7 and the end. -/
def session : List PairAct :=
  [.own false (.call .rs [0, 0, 0, 7, 0, 0, 0, 0] RustGenerated.args), .take true, .own true (.task 0 .done), .own true (.task 0 (.ok [] [7])),
    .own true (.task 0 .done), .take false, .take false]

theorem session_ok : (play Pair.init (fun _ => []) session).isSome = true := by decide +kernel

theorem gives_seven : Gives (de 20 [[97], [98]] [33]) (wrap RustCall.tiny [34]) seven RustGenerated.args [.ok [] [7], .done] :=
  ⟨evs, ⟨.returned, ⟨[], 1⟩, false, [.ok [7], .complete], true⟩, 2, ⟨rfl, .inl ⟨[.int 3, .int 4], rfl, rfl, 5, rfl⟩⟩, rfl⟩

def after : Pair × (Bool → List SockAct) := (play Pair.init (fun _ => []) session).get session_ok

theorem heard_guest : after.2 true = [.recv (.request ⟨tRequestStream, 1, [0, 0, 0, 7, 0, 0, 0, 0], RustGenerated.args, false, false, 0⟩), .task 0 .done,
    .task 0 (.ok [] [7]), .task 0 .done] := by decide +kernel

example : Runs after.1 after.2 ∧ Few after.2 ∧ Settled after.1 ∧
    Serves true (after.2 true) 7 (Gives (de 20 [[97], [98]] [33]) (wrap RustCall.tiny [34]) seven) ∧
    after.2 false = [] ++ .call .rs [0, 0, 0, 7, 0, 0, 0, 0] RustGenerated.args :: (after.2 false).tail ∧
    (after.1.sock false).sinks.map (fun k => (k.live, k.got, k.closed)) = [(true, [.ok [] [7]], true)] := by
  refine ⟨play_runs session .init (by simp [after]), by unfold Few; decide +kernel, by unfold Settled; decide +kernel, ?_, by decide +kernel, by decide +kernel⟩
  intro as bs v s h _ _ hr y ys hy
  rw [heard_guest] at h
  match as, h with
  | [], h =>
    cases h
    cases hr
    cases hy
    exact gives_seven
  | [_], h => cases h
  | [_, _], h => cases h
  | [_, _, _], h => cases h
  | _ :: _ :: _ :: _ :: as, h =>
    have := congrArg List.length h
    simp at this

end Iota.Props.RustStreams
