import Verif.Model.RustOnce

/-!
# C192: the wrapper of a generated Rust operation that answers once
-/

namespace Iota.Props.RustOnce
open Iota.Go Iota.RustOnce

variable {α β : Type} (de : Bytes → Except Bytes α) (ser : β → Except Bytes Bytes)

/-! ## Specification -/

/-- The request that arrived is read as these arguments. -/
def Reads (evs : List (Ev β)) (x : α) : Prop := ∃ data, Ev.arrive (.ok data) ∈ evs ∧ de data = .ok x

/-- The request failed, or is not read. -/
def Unread (evs : List (Ev β)) (e : Bytes) : Prop :=
  Ev.arrive (.error e) ∈ evs ∨ ∃ data, Ev.arrive (.ok data) ∈ evs ∧ de data = .error e

/-- The answer that is due: the error of the request, or the serialized result of the action, or an error. -/
inductive Due (evs : List (Ev β)) : Except Bytes Bytes → Prop
  | unread {e : Bytes} (h : Unread de evs e) : Due evs (.error e)
  | result {x : α} {v : β} {a : Except Bytes Bytes} (h : Reads de evs x) (hr : Ev.ret (.ok v) ∈ evs) (ha : ser v = a) : Due evs a
  | failed {x : α} {e : Bytes} (h : Reads de evs x) (hr : Ev.ret (.error e) ∈ evs) : Due evs (.error e)

/-! ## Invariant -/

structure Inv (evs : List (Ev β)) (w : Once α) : Prop where
  input : ∀ r, w.input = some r → Ev.arrive r ∈ evs
  none : w.input = .none → ∀ r, Ev.arrive r ∉ evs
  waiting : w.phase = .waiting → w.acts = [] ∧ w.sent = .none
  acting : w.phase = .acting → w.acts.length = 1 ∧ w.sent = .none
  done : w.phase = .done → w.acts.length ≤ 1 ∧ (w.sent = .none → w.panicked = true)
  acts : ∀ x ∈ w.acts, Reads de evs x
  sent : ∀ a, w.sent = some a → Due de ser evs a
  answer : ∀ a, w.answer = some a → w.sent = some a
  dropped : w.kept = false → Ev.drop ∈ evs
  panicked : w.panicked = true → Ev.drop ∈ evs

theorem reads_more {evs : List (Ev β)} {x : α} (e : Ev β) (h : Reads de evs x) : Reads de (evs ++ [e]) x := by
  obtain ⟨d, h1, h2⟩ := h
  exact ⟨d, List.mem_append_left _ h1, h2⟩

theorem due_more {evs : List (Ev β)} {a : Except Bytes Bytes} (e : Ev β) (h : Due de ser evs a) : Due de ser (evs ++ [e]) a := by
  cases h with
  | unread h =>
    refine .unread ?_
    rcases h with h | ⟨d, h1, h2⟩
    · exact .inl (List.mem_append_left _ h)
    · exact .inr ⟨d, List.mem_append_left _ h1, h2⟩
  | result h hr ha => exact .result (reads_more de e h) (List.mem_append_left _ hr) ha
  | failed h hr => exact .failed (reads_more de e h) (List.mem_append_left _ hr)

theorem inv_start : Inv de ser ([] : List (Ev β)) (Once.start : Once α) := by
  constructor <;> simp [Once.start]

theorem inv_more {evs : List (Ev β)} {w : Once α} (h : Inv de ser evs w) (e : Ev β) (he : ∀ r, e ≠ .arrive r) :
    Inv de ser (evs ++ [e]) w where
  input r hr := List.mem_append_left _ (h.input r hr)
  none hn r := by
    intro hm
    rcases List.mem_append.mp hm with hm | hm
    · exact h.none hn r hm
    · simp only [List.mem_singleton] at hm
      exact he r hm.symm
  waiting := h.waiting
  acting := h.acting
  done := h.done
  acts x hx := reads_more de e (h.acts x hx)
  sent a ha := due_more de ser e (h.sent a ha)
  answer := h.answer
  dropped hd := List.mem_append_left _ (h.dropped hd)
  panicked hp := List.mem_append_left _ (h.panicked hp)

theorem inv_send {evs : List (Ev β)} {w : Once α} (h : Inv de ser evs w) {a : Except Bytes Bytes} (hd : Due de ser evs a)
    (hs : w.sent = none) (hl : w.acts.length ≤ 1) : Inv de ser evs (w.send a) := by
  have hn : w.answer = none := by
    cases ha : w.answer with
    | none => rfl
    | some b => rw [h.answer b ha] at hs; exact absurd hs (by simp)
  by_cases hk : w.kept = true
  · rw [Once.send, if_pos hk]
    refine ⟨h.input, h.none, fun hp => (nomatch hp), fun hp => (nomatch hp), fun _ => ⟨hl, fun hp => (nomatch hp)⟩, h.acts, ?_, ?_, h.dropped,
      h.panicked⟩
    · intro b hb
      cases hb
      exact hd
    · intro b hb
      rw [hn] at hb
      exact nomatch hb
  · rw [Once.send, if_neg hk]
    refine ⟨h.input, h.none, fun hp => (nomatch hp), fun hp => (nomatch hp), fun _ => ⟨hl, fun _ => rfl⟩, h.acts, h.sent, h.answer, h.dropped,
      fun _ => h.dropped (by simpa using hk)⟩

theorem inv_step {evs : List (Ev β)} {w w' : Once α} (h : Inv de ser evs w) (e : Ev β) (hs : w.step de ser e = some w') :
    Inv de ser (evs ++ [e]) w' := by
  cases e with
  | arrive r =>
    simp only [Once.step] at hs
    cases hi : w.input with
    | some _ => simp [hi] at hs
    | none =>
      simp only [hi, Option.some.injEq] at hs
      subst hs
      refine ⟨?_, fun hn => (nomatch hn), h.waiting, h.acting, h.done, fun x hx => reads_more de _ (h.acts x hx),
        fun a ha => due_more de ser _ (h.sent a ha), h.answer, fun hd => List.mem_append_left _ (h.dropped hd),
        fun hp => List.mem_append_left _ (h.panicked hp)⟩
      intro q hq
      cases hq
      simp
  | poll =>
    have h' := inv_more de ser h .poll (by simp)
    simp only [Once.step] at hs
    cases hp : w.phase with
    | acting => simp [hp] at hs
    | done => simp [hp] at hs
    | waiting =>
      cases hi : w.input with
      | none => simp [hp, hi] at hs
      | some r =>
        simp only [hp, hi] at hs
        have hm := h'.input r hi
        cases ha : arguments de r with
        | ok x =>
          simp only [ha, Option.some.injEq] at hs
          subst hs
          refine ⟨fun q hq => h'.input q (by rw [hi]; exact hq), fun hn => (nomatch hn), fun hp => (nomatch hp), fun _ => ⟨by simp [(h.waiting hp).1], (h.waiting hp).2⟩, fun hp => (nomatch hp),
            ?_, h'.sent, h'.answer, h'.dropped, h'.panicked⟩
          intro y hy
          simp only [(h.waiting hp).1, List.nil_append, List.mem_singleton] at hy
          subst hy
          cases r with
          | error e => simp [arguments] at ha
          | ok d => exact ⟨d, hm, by simpa [arguments] using ha⟩
        | error e =>
          simp only [ha, Option.some.injEq] at hs
          subst hs
          refine inv_send de ser h' (.unread ?_) (h.waiting hp).2 (by simp [(h.waiting hp).1])
          cases r with
          | error e' =>
            simp only [arguments, Except.error.injEq] at ha
            subst ha
            exact .inl hm
          | ok d => exact .inr ⟨d, hm, by simpa [arguments] using ha⟩
  | ret r =>
    have h' := inv_more de ser h (.ret r) (by simp)
    simp only [Once.step] at hs
    cases hp : w.phase with
    | waiting => simp [hp] at hs
    | done => simp [hp] at hs
    | acting =>
      simp only [hp, Option.some.injEq] at hs
      subst hs
      obtain ⟨hl, hn⟩ := h.acting hp
      obtain ⟨x, hx⟩ : ∃ x, x ∈ w.acts := by
        cases hw : w.acts with
        | nil => simp [hw] at hl
        | cons x _ => exact ⟨x, by simp⟩
      refine inv_send de ser h' ?_ hn (by omega)
      cases r with
      | ok v => exact .result (h'.acts x hx) (by simp) rfl
      | error e => exact .failed (h'.acts x hx) (by simp)
  | take =>
    have h' := inv_more de ser h .take (by simp)
    simp only [Once.step] at hs
    cases hk : w.kept with
    | false => simp [hk] at hs
    | true =>
      cases hw : w.sent with
      | none => simp [hk, hw] at hs
      | some a =>
        cases ha : w.answer with
        | some b => simp [hk, hw, ha] at hs
        | none =>
          simp only [hk, hw, ha, Option.some.injEq] at hs
          subst hs
          have hs1 := h'.sent a hw
          refine ⟨h'.input, h'.none, ?_, ?_, ?_, h'.acts, ?_, ?_, fun hd => (nomatch hd), h'.panicked⟩
          · intro hp
            have := (h'.waiting hp).2
            rw [hw] at this
            exact nomatch this
          · intro hp
            have := (h'.acting hp).2
            rw [hw] at this
            exact nomatch this
          · intro hp
            exact ⟨(h'.done hp).1, fun hn => (nomatch hn)⟩
          · intro b hb
            cases hb
            exact hs1
          · intro b hb
            cases hb
            rfl
  | drop =>
    have h' := inv_more de ser h .drop (by simp)
    simp only [Once.step] at hs
    by_cases hk : w.kept = true
    · rw [if_pos hk] at hs
      cases hs
      exact ⟨h'.input, h'.none, h'.waiting, h'.acting, h'.done, h'.acts, h'.sent, h'.answer, fun _ => by simp, h'.panicked⟩
    · rw [if_neg hk] at hs
      exact nomatch hs

theorem inv_run : ∀ (es evs : List (Ev β)) (w w' : Once α), Inv de ser evs w → w.run de ser es = some w' → Inv de ser (evs ++ es) w'
  | [], evs, w, w', h, hr => by
      simp only [Once.run, Option.some.injEq] at hr
      subst hr
      simpa using h
  | e :: es, evs, w, w', h, hr => by
      rw [Once.run] at hr
      cases hs : w.step de ser e with
      | none => simp [hs] at hr
      | some w1 =>
        simp only [hs] at hr
        have := inv_run es (evs ++ [e]) w1 w' (inv_step de ser h e hs) hr
        simpa using this

/-! ## C192 -/

/-- **C192** In every run: the action is started at most once, with the arguments that are read from the request; the answer is
the one that is due. -/
theorem once_wrapper_safe (evs : List (Ev β)) (w : Once α) (hr : Once.start.run de ser evs = some w) :
    w.acts.length ≤ 1 ∧ (∀ x ∈ w.acts, Reads de evs x) ∧ ∀ a, w.answer = some a → Due de ser evs a := by
  have h := inv_run de ser evs [] _ w (inv_start de ser) hr
  simp only [List.nil_append] at h
  refine ⟨?_, h.acts, fun a ha => h.sent a (h.answer a ha)⟩
  cases hp : w.phase with
  | waiting => simp [(h.waiting hp).1]
  | acting => have := (h.acting hp).1; omega
  | done => exact (h.done hp).1

/-- **C192** As long as the Mono with the answer is kept: the wrapper never panics, and if the request has arrived and the action
is not running, then the answer is there, or one of the two polls that are due leads further. -/
theorem once_wrapper_live (evs : List (Ev β)) (w : Once α) (hr : Once.start.run de ser evs = some w) (hd : Ev.drop ∉ evs) :
    w.panicked = false ∧
    (∀ r, Ev.arrive r ∈ evs → w.phase ≠ .acting → w.step de ser .poll = none → w.step de ser .take = none → w.answer.isSome = true) := by
  have h := inv_run de ser evs [] _ w (inv_start de ser) hr
  simp only [List.nil_append] at h
  have hp : w.panicked = false := by
    cases hw : w.panicked with
    | false => rfl
    | true => exact absurd (h.panicked hw) hd
  refine ⟨hp, fun r hm ha hpoll htake => ?_⟩
  have hk : w.kept = true := by
    cases hw : w.kept with
    | true => rfl
    | false => exact absurd (h.dropped hw) hd
  cases hph : w.phase with
  | acting => exact absurd hph ha
  | waiting =>
    cases hi : w.input with
    | none => exact absurd hm (h.none hi r)
    | some q =>
      simp only [Once.step, hph, hi] at hpoll
      cases hq : arguments de q <;> simp [hq] at hpoll
  | done =>
    cases hs : w.sent with
    | none => rw [(h.done hph).2 hs] at hp; exact nomatch hp
    | some a =>
      cases hw : w.answer with
      | some _ => rfl
      | none => simp [Once.step, hk, hs, hw] at htake

/-- **C192** That the Mono with the answer is kept is needed: is it dropped while the action runs, then the task panics when the action
returns, whatever it returns. The socket of the library keeps it until it resolves, also if the call is cancelled (socket.rs:178-188). -/
theorem once_dropped (evs : List (Ev β)) (w w' : Once α) (hr : Once.start.run de ser evs = some w)
    (ha : w.phase = .acting) (hd : w.step de ser .drop = some w') (r : Except Bytes β) :
    ∃ w'', w'.step de ser (.ret r) = some w'' ∧ w''.panicked = true ∧ w''.answer = none := by
  have h := inv_run de ser evs [] _ w (inv_start de ser) hr
  have hn : w.answer = none := by
    cases hw : w.answer with
    | none => rfl
    | some b =>
      have := h.answer b hw
      rw [(h.acting ha).2] at this
      exact nomatch this
  have hk : w.kept = true := by
    cases hw : w.kept with
    | true => rfl
    | false => simp [Once.step, hw] at hd
  simp only [Once.step, hk, if_true, Option.some.injEq] at hd
  subst hd
  simp [Once.step, ha, Once.send, hn]

/-! ### Cases -/

/-- Arguments are one byte. -/
def byte : Bytes → Except Bytes UInt8
  | [x] => .ok x
  | _ => .error [101]

/-- Results too. -/
def wrap (x : UInt8) : Except Bytes Bytes := .ok [x]

example : ((Once.start.run byte wrap [.arrive (.ok [7]), .poll, .ret (.ok 8), .take]).map fun w => (w.acts, w.answer.isSome)) =
    some ([7], true) := by decide

example (w : Once UInt8) (h : Once.start.run byte wrap [.arrive (.ok [7]), .poll, .ret (.ok 8), .take] = some w) :
    w.acts.length ≤ 1 ∧ (∀ x ∈ w.acts, Reads byte [.arrive (.ok [7]), .poll, .ret (.ok (8 : UInt8)), .take] x) ∧
      ∀ a, w.answer = some a → Due byte wrap [.arrive (.ok [7]), .poll, .ret (.ok 8), .take] a :=
  once_wrapper_safe byte wrap _ w h

example (w : Once UInt8) (h : Once.start.run byte wrap [.arrive (.ok []), .poll, .take] = some w) :
    w.panicked = false ∧
    (∀ r, Ev.arrive r ∈ [Ev.arrive (β := UInt8) (.ok []), .poll, .take] → w.phase ≠ .acting → w.step byte wrap .poll = none →
      w.step byte wrap .take = none → w.answer.isSome = true) :=
  once_wrapper_live byte wrap _ w h (by simp)

example : ((Once.start.run byte wrap [.arrive (.ok []), .poll, .take]).map fun w => (w.acts, w.answer.isSome)) = some ([], true) := by
  decide

example (w w' : Once UInt8) (h : Once.start.run byte wrap [.arrive (.ok [7]), .poll] = some w)
    (hd : w.step byte wrap .drop = some w') (hp : w.phase = .acting) (r : Except Bytes UInt8) :
    ∃ w'', w'.step byte wrap (.ret r) = some w'' ∧ w''.panicked = true ∧ w''.answer = none :=
  once_dropped byte wrap _ w w' h hp hd r

example : ((Once.start.run byte wrap [.arrive (.ok [7]), .poll, .drop, .ret (.ok 8)]).map fun w => w.panicked) = some true := by decide

end Iota.Props.RustOnce
