import Verif.Lemmas.Mono

/-! # C14, C15, C16, C21: monos -/

namespace Iota.Props.Mono
open Iota.Mono Iota.Spec.Mono Iota.Lemmas.Mono

variable {V E W : Type}

/-! ## C14 -/

/-- Delivery of an outcome to subscription `i`. -/
def isSignal (i : Nat) : Ev V E W → Bool
  | .onSuccess j _ => j = i
  | .onError j _ => j = i
  | _ => false

/-- The finalizer of subscription `i`. -/
def isFin (i : Nat) : Ev V E W → Bool
  | .fin j _ => j = i
  | _ => false

/-- **C14** Whatever user code does from inside and outside the callbacks, on any number of
goroutines: a subscription sees nothing before the first signal raised for it, and afterwards it sees a
beginning of exactly the callbacks due to that first signal (later signals have no effect); when no
callback is in progress any more it has seen all of them. -/
theorem mono_first_signal_decides (tx : V → Except E W) (as : List (Action V E)) (s : State V E W)
    (hr : run tx init as = some s) (i : Nat) (b : Sub V E) (hb : s.subs[i]? = some b) :
    (firstOutcome i s.log = none → history i s.log = []) ∧
    (∀ o, firstOutcome i s.log = some o →
      history i s.log <+: expected tx i b.h o ∧
      (s.pending = [] → history i s.log = expected tx i b.h o)) := by
  have h := InvI_run as (InvI_init tx i) hr
  unfold InvI at h
  simp only [hb] at h
  constructor
  · intro hn
    simp only [hn] at h
    exact h.2.2.2.1
  · intro o ho
    simp only [ho] at h
    refine ⟨⟨_, h.2.2.1⟩, fun hp => ?_⟩
    have := h.2.2.1
    rw [hp] at this
    simpa using this

theorem history_countP (p : Ev V E W → Bool) (i : Nat) (hp : ∀ e, p e = true → ofSub i e = true)
    (l : List (Ev V E W)) : (history i l).countP p = l.countP p := by
  induction l with
  | nil => rfl
  | cons e l ih =>
    simp only [history, List.countP_append, ih, List.countP_cons]
    cases hpe : p e with
    | true => simp [hp e hpe, hpe]
    | false =>
      cases ofSub i e <;> simp [hpe]

/-- **C14** At most one of success and error is ever delivered to a subscription, and its finalizer runs
at most once. -/
theorem mono_at_most_once (tx : V → Except E W) (as : List (Action V E)) (s : State V E W)
    (hr : run tx init as = some s) (i : Nat) :
    s.log.countP (isSignal i) ≤ 1 ∧ s.log.countP (isFin i) ≤ 1 := by
  have h := InvI_run as (InvI_init tx i) hr
  have hpre : history i s.log = [] ∨ ∃ (h : Handlers) (o : Outcome V E),
      history i s.log <+: expected tx i h o := by
    unfold InvI at h
    split at h
    · exact .inl h.1
    · split at h
      · exact .inl h.2.2.2.1
      · exact .inr ⟨_, _, _, h.2.2.1⟩
  have e1 : s.log.countP (isSignal i) = (history i s.log).countP (isSignal i) :=
    (history_countP _ i (by intro e he; cases e <;> simp_all [isSignal, ofSub]) _).symm
  have e2 : s.log.countP (isFin i) = (history i s.log).countP (isFin i) :=
    (history_countP _ i (by intro e he; cases e <;> simp_all [isFin, ofSub]) _).symm
  rw [e1, e2]
  rcases hpre with hnil | ⟨hd, o, hp⟩
  · simp [hnil]
  · have h1 := hp.sublist.countP_le (p := isSignal i)
    have h2 := hp.sublist.countP_le (p := isFin i)
    have ht1 : ∀ sg, (tail i hd sg : List (Ev V E W)).countP (isSignal i) = 0 := by
      intro sg; unfold tail; split <;> simp [isSignal]
    have ht2 : ∀ sg, (tail i hd sg : List (Ev V E W)).countP (isFin i) ≤ 1 := by
      intro sg; unfold tail; split <;> simp [isFin]
    have hx : (expected tx i hd o).countP (isSignal i) ≤ 1 ∧ (expected tx i hd o).countP (isFin i) ≤ 1 := by
      unfold expected
      rw [List.countP_append, List.countP_append, ht1]
      have := ht2 (sigOf o)
      cases o with
      | success v =>
        simp only; cases tx v <;> simp only <;> split <;> simp [isSignal, isFin] <;> exact ht2 _
      | error e => simp only; split <;> simp [isSignal, isFin] <;> exact ht2 _
      | cancel => simp; exact ht2 _
    omega

/-- **C14** The finalizer never runs before the outcome was delivered: if it ran and the handler for the
outcome is present, the outcome was delivered earlier. -/
theorem mono_finalizer_last (tx : V → Except E W) (as : List (Action V E)) (s : State V E W)
    (hr : run tx init as = some s) (i : Nat) (b : Sub V E) (hb : s.subs[i]? = some b)
    (hS : b.h.onSuccess = true) (hE : b.h.onError = true) (sg : Signal) (newer older : List (Ev V E W))
    (hl : s.log = newer ++ .fin i sg :: older) (hc : sg ≠ .cancel) :
    older.countP (isSignal i) = 1 := by
  have h := InvI_run as (InvI_init tx i) hr
  have hhist : ∀ (a b : List (Ev V E W)), history i (a ++ b) = history i b ++ history i a := by
    intro a b
    induction a with
    | nil => simp [history]
    | cons e l ih => simp [history, ih]
  have hx : history i s.log = history i older ++ .fin i sg :: history i newer := by
    rw [hl, hhist]; simp [history, ofSub]
  unfold InvI at h
  simp only [hb] at h
  split at h
  · rw [hx] at h; simp at h
  · rename_i o ho
    have he := h.2.2.1
    rw [hx] at he
    rw [← history_countP _ i (by intro e he; cases e <;> simp_all [isSignal, ofSub])]
    -- compare with the expected sequence
    have key : ∀ (x : Ev V E W) (sg' : Signal) (hd : Handlers) (rest : List (Ev V E W)),
        isSignal i x = true →
        history i older ++ .fin i sg :: rest = [x] ++ tail i hd sg' →
        (history i older).countP (isSignal i) = 1 := by
      intro x sg' hd rest hxs heq
      cases ho : history i older with
      | nil => rw [ho] at heq; simp at heq; rw [← heq.1] at hxs; simp [isSignal] at hxs
      | cons y ys =>
        rw [ho] at heq
        simp only [List.cons_append, List.nil_append, List.cons.injEq] at heq
        obtain ⟨rfl, heq⟩ := heq
        have : ys = [] := by
          unfold tail at heq
          cases ys with
          | nil => rfl
          | cons z zs =>
            exfalso
            split at heq
            · simp only [List.cons_append, List.nil_append, List.cons.injEq] at heq
              obtain ⟨_, heq⟩ := heq
              cases zs with
              | nil => simp at heq
              | cons => simp at heq
            · simp at heq
        simp [this, hxs]
    cases o with
    | success v =>
      simp only [expected] at he
      cases htx : tx v with
      | ok w =>
        simp only [htx, hS, if_true, List.cons_append, List.append_assoc] at he
        exact key (.onSuccess i w) _ b.h _ (by simp [isSignal]) he
      | error e =>
        simp only [htx, hE, if_true, List.cons_append, List.append_assoc] at he
        exact key (.onError i e) _ b.h _ (by simp [isSignal]) he
    | error e =>
      simp only [expected, hE, if_true, List.cons_append, List.append_assoc] at he
      exact key (.onError i e) _ b.h _ (by simp [isSignal]) he
    | cancel =>
      exfalso
      simp only [expected, List.nil_append, tail, sigOf] at he
      have hmem : Ev.fin i sg ∈ history i older ++ Ev.fin i sg :: history i newer ++ pend i b.h s.pending := by
        simp
      rw [he] at hmem
      split at hmem <;> simp at hmem
      exact hc hmem

/-- A run in which the source signals three times, twice from inside the callbacks. -/
example : (run (V := Nat) (E := String) .ok init
    [.subscribe 0 ⟨true, true, true⟩, .signal 0 0 (.success 7), .signal 0 0 (.error "late"),
     .ret 0, .signal 0 0 (.success 8), .ret 0, .ret 0]).map (fun s => (history 0 s.log, s.pending)) =
    some ([.onSuccess 0 7, .fin 0 .complete, .done 0 .complete], []) := by decide

/-- **C14** `Get` returns the outcome that was delivered: it never panics once the current subscription
has an outcome, and it panics before. -/
theorem mono_get (tx : V → Except E W) (zero : V) (as : List (Action V E)) (s : State V E W)
    (hr : run tx init as = some s) (i : Nat) (b : Sub V E) (hc : s.current = some i)
    (hb : s.subs[i]? = some b) :
    Iota.Mono.get tx zero s = match firstOutcome i s.log with
      | none => .panic
      | some (.error e) => .ret none (some e)
      | some (.success v) => (match tx v with | .ok w => .ret (some w) none | .error e => .ret none (some e))
      | some .cancel => (match tx zero with | .ok w => .ret (some w) none | .error e => .ret none (some e)) := by
  have h := InvI_run as (InvI_init tx i) hr
  unfold InvI at h
  simp only [hb] at h
  unfold Iota.Mono.get
  simp only [hc, Option.bind_some, hb]
  cases ho : firstOutcome i s.log with
  | none => simp only [ho] at h; simp [h.1]
  | some o =>
    simp only [ho] at h
    obtain ⟨h1, h2, _⟩ := h
    cases o with
    | success v =>
      obtain ⟨hv, he⟩ := h2
      simp only [h1, if_true, he, hv, Option.getD_some]
      cases tx v <;> rfl
    | error e => obtain ⟨hv, he⟩ := h2; simp [h1, he]
    | cancel =>
      obtain ⟨hv, he⟩ := h2
      simp only [h1, if_true, he, hv, Option.getD_none]
      cases tx zero <;> rfl

/-- **C14** `Just` and `Error` monos deliver their outcome exactly once to a subscriber that has the
handler. Their `Subscribe` never runs the finalizer. -/
theorem just_error_once (h : Handlers) (v : V) (e : E) :
    (justSubscribe h v : List (Ev V E V)).countP (isSignal 0) = (if h.onSuccess then 1 else 0) ∧
    (errorSubscribe h e : List (Ev V E V)).countP (isSignal 0) = (if h.onError then 1 else 0) ∧
    (justSubscribe h v : List (Ev V E V)).countP (isFin 0) = 0 ∧
    (errorSubscribe h e : List (Ev V E V)).countP (isFin 0) = 0 := by
  unfold justSubscribe errorSubscribe
  cases h.onSuccess <;> cases h.onError <;> simp [isSignal, isFin]

/-! ## C15 -/

/-- **C15** Every notification function runs exactly as often as it should: once for each subscription
that ended after it was registered, with that subscription's signal, and exactly once if the mono had
already finished when it was registered. -/
theorem notify_exactly_once (tx : V → Except E W) (as : List (Action V E)) (s : State V E W)
    (hr : run tx init as = some s) (hp : s.pending = []) (k : Nat) (sg : Signal) :
    calls k sg s.log = owedCalls k sg s.log := by
  have h := (InvN_run as InvN_init hr).count k sg
  rw [hp] at h
  simpa [pendN] using h

/-- **C15** The signal with which a subscription ends is the one that belongs to its outcome. -/
theorem notify_signal (tx : V → Except E W) (as : List (Action V E)) (s : State V E W)
    (hr : run tx init as = some s) (i : Nat) (sg : Signal) (hd : Ev.done i sg ∈ s.log) :
    ∃ o, firstOutcome i s.log = some o ∧ sg = sigOf o := by
  have h := InvI_run as (InvI_init tx i) hr
  have hmem : ∀ l : List (Ev V E W), Ev.done i sg ∈ l → Ev.done i sg ∈ history i l := by
    intro l
    induction l with
    | nil => intro h; cases h
    | cons e l ih =>
      intro h
      simp only [history, List.mem_append]
      rcases List.mem_cons.mp h with rfl | h
      · right; simp [ofSub]
      · left; exact ih h
  have hm := hmem _ hd
  unfold InvI at h
  split at h
  · rw [h.1] at hm; cases hm
  · split at h
    · rw [h.2.2.2.1] at hm; cases hm
    · rename_i b _ _ o ho
      refine ⟨o, ho, ?_⟩
      have : Ev.done i sg ∈ expected tx i b.h o := by
        rw [← h.2.2.1]; exact List.mem_append_left _ hm
      have ht : ∀ sg', Ev.done i sg ∈ (tail i b.h sg' : List (Ev V E W)) → sg = sg' := by
        intro sg' hh
        unfold tail at hh
        split at hh <;> simp at hh <;> exact hh
      unfold expected at this
      rcases List.mem_append.mp this with h' | h'
      · exfalso
        cases o with
        | success v =>
          simp only at h'
          cases htx : tx v <;> simp only [htx] at h' <;> split at h' <;> simp at h'
        | error e => simp only at h'; split at h' <;> simp at h'
        | cancel => simp at h'
      · exact ht _ h'

/-- **C15** (partial) A function registered after the mono finished, but not from inside its
`OnSuccess`/`OnError` callback, is called at once with the signal of the outcome. The case that is
missing is false, see `notify_inside_onError_refuted`. -/
theorem notify_late_partial (tx : V → Except E W) (as : List (Action V E)) (s : State V E W)
    (hr : run tx init as = some s) (g i : Nat) (o : Outcome V E)
    (hc : s.current = some i) (ho : firstOutcome i s.log = some o) (hnd : ¬ delivering i s.pending) :
    (notify g s).log = .notified s.nextFn (sigOf o) :: .regNow s.nextFn (sigOf o) :: s.log := by
  have h := InvI_run as (InvI_init tx i) hr
  unfold InvI at h
  unfold notify
  cases hb : s.subs[i]? with
  | none => simp [hb, ho] at h
  | some b =>
    simp only [hb, ho] at h
    simp [hc, hb, h.1, h.2.2.2.1 hnd, push, emit]

/-- **C15** refuted when the function is registered from inside the `OnError` callback: it is told that
the mono completed. -/
theorem notify_inside_onError_refuted :
    ∃ (s : State Nat String Nat), run .ok init
      [.subscribe 0 ⟨true, true, true⟩, .ret 0, .signal 0 0 (.error "boom"), .notify 0] = some s ∧
    firstOutcome 0 s.log = some (.error "boom") ∧ calls 0 .complete s.log = 1 ∧
    calls 0 .error s.log = 0 := by
  refine ⟨_, rfl, ?_⟩
  decide

/-- Functions registered before, between and after two subscriptions. -/
example : (run (V := Nat) (E := String) .ok init
    [.notify 0, .subscribe 0 ⟨true, true, false⟩, .ret 0, .notify 0, .signal 0 0 (.success 7), .ret 0,
     .ret 0, .ret 0, .notify 0, .ret 0, .subscribe 0 ⟨true, true, true⟩, .ret 0, .signal 0 1 (.error "x"),
     .ret 0, .ret 0, .ret 0, .ret 0]).map (fun s =>
      (s.pending, (List.range 3).map fun k => (calls k .complete s.log, calls k .error s.log))) =
    some ([], [(1, 1), (1, 1), (1, 0)]) := by decide

/-! ## C21 -/

/-- **C21** (partial) Mapping a mono delivers exactly once the transformed value, or the source's error,
or the error of the transform, before the finalizer. The full claim also says that the finalizer reports
the same kind of outcome; that fails when the transform fails, see `map_mono_signal_refuted`. -/
theorem map_mono_partial (tx : V → Except E W) (as : List (Action V E)) (s : State V E W)
    (hr : run tx init as = some s) (i : Nat) (b : Sub V E) (hb : s.subs[i]? = some b)
    (hp : s.pending = []) (hh : b.h = ⟨true, true, true⟩) (o : Outcome V E)
    (ho : firstOutcome i s.log = some o) :
    history i s.log = match o with
      | .success v => (match tx v with
          | .ok w => [.onSuccess i w, .fin i .complete, .done i .complete]
          | .error e => [.onError i e, .fin i .complete, .done i .complete])
      | .error e => [.onError i e, .fin i .error, .done i .error]
      | .cancel => [.fin i .cancel, .done i .cancel] := by
  rw [((mono_first_signal_decides tx as s hr i b hb).2 o ho).2 hp]
  cases o with
  | success v => cases htx : tx v <;> simp [expected, htx, hh, tail, sigOf]
  | error e => simp [expected, hh, tail, sigOf]
  | cancel => simp [expected, hh, tail, sigOf]

/-- **C21** refuted: the transform fails, the subscriber gets the error, and the finalizer is told that
the mono completed. -/
theorem map_mono_signal_refuted : ∃ (s : State Nat String Nat),
    run (fun v => if v = 0 then .error "zero" else .ok (v + 1)) init
      [.subscribe 0 ⟨true, true, true⟩, .ret 0, .signal 0 0 (.success 0), .ret 0, .ret 0] = some s ∧
    s.pending = [] ∧
    history 0 s.log = [.onError 0 "zero", .fin 0 .complete, .done 0 .complete] := by
  refine ⟨_, rfl, ?_⟩
  decide

/-- The transformed value arrives. -/
example : (run (fun v : Nat => if v = 0 then (.error "zero" : Except String Nat) else .ok (v + 1)) init
      [.subscribe 0 ⟨true, true, true⟩, .ret 0, .signal 0 0 (.success 4), .ret 0, .ret 0]).map
      (fun s => history 0 s.log) = some [.onSuccess 0 5, .fin 0 .complete, .done 0 .complete] := by decide

/-! ## C16 -/

/-- The outcome carried by a push. -/
def pushed : PAction V E → Option (Outcome V E)
  | .pushSuccess _ v => some (.success v)
  | .pushError _ e => some (.error e)
  | _ => none

/-- The first outcome pushed. -/
def firstPush (as : List (PAction V E)) : Option (Outcome V E) := (as.filterMap pushed).head?

/-- The values pushed. -/
def values (as : List (PAction V E)) : List V :=
  as.filterMap fun a => match a with | .pushSuccess _ v => some v | _ => none

/-- The errors pushed. -/
def errors (as : List (PAction V E)) : List E :=
  as.filterMap fun a => match a with | .pushError _ e => some e | _ => none

def isSubscribe : PAction V E → Bool
  | .subscribe _ _ => true
  | _ => false

theorem Proc.InvI_step {p p' : Proc V E} {a : PAction V E} {i : Nat} (h : InvI .ok i p.m)
    (hs : p.step a = some p') : InvI .ok i p'.m := by
  have hfw : ∀ {q q' : Proc V E} {g j : Nat} {o : Outcome V E}, InvI .ok i q.m →
      q.forward g j o = some q' → InvI .ok i q'.m := by
    intro q q' g j o hq hf
    unfold Proc.forward at hf
    split at hf
    · rename_i m hm; injection hf with hf; subst hf; exact InvI_signal hq hm
    · cases hf
  cases a with
  | subscribe g hd =>
    simp only [Proc.step, Proc.subscribe] at hs
    split at hs
    · exact hfw (q := { p with sink := _, m := addSub hd p.m }) (InvI_addSub h) hs
    · split at hs
      · exact hfw (q := { p with sink := _, m := addSub hd p.m }) (InvI_addSub h) hs
      · injection hs with hs; subst hs; exact InvI_addSub h
  | notify g => simp only [Proc.step, Option.some.injEq] at hs; subst hs; exact InvI_notify h
  | pushSuccess g v =>
    simp only [Proc.step, Proc.pushSuccess] at hs
    split at hs
    · exact hfw h hs
    · injection hs with hs; subst hs; exact h
  | pushError g e =>
    simp only [Proc.step, Proc.pushError] at hs
    split at hs
    · exact hfw h hs
    · injection hs with hs; subst hs; exact h
  | ret g =>
    simp only [Proc.step] at hs
    split at hs
    · rename_i m hm; injection hs with hs; subst hs; exact InvI_resume h hm
    · cases hs

theorem Proc.InvI_run {p p' : Proc V E} (as : List (PAction V E)) {i : Nat} (h : InvI .ok i p.m)
    (hs : p.run as = some p') : InvI .ok i p'.m := by
  induction as generalizing p with
  | nil => simp only [Proc.run, Option.some.injEq] at hs; exact hs ▸ h
  | cons a as ih =>
    simp only [Proc.run, Option.bind_eq_some_iff] at hs
    obtain ⟨m, h1, h2⟩ := hs
    exact ih (Proc.InvI_step h h1) h2

theorem Proc.run_append (p : Proc V E) (a b : List (PAction V E)) :
    p.run (a ++ b) = (p.run a).bind fun q => q.run b := by
  induction a generalizing p with
  | nil => rfl
  | cons x xs ih =>
    simp only [List.cons_append, Proc.run]
    cases p.step x with
    | none => rfl
    | some q => simp [ih]

/-- Before anybody subscribes the processor only remembers. -/
theorem Proc.before (as : List (PAction V E)) (p p' : Proc V E) (hs : p.sink = none)
    (hno : ∀ a ∈ as, isSubscribe a = false) (hsub : p.m.subs = [])
    (hfo : firstOutcome 0 p.m.log = none) (hr : p.run as = some p') :
    p'.sink = none ∧ p'.m.subs = [] ∧ firstOutcome 0 p'.m.log = none ∧
    p'.success = (values as).getLast?.or p.success ∧ p'.err = (errors as).getLast?.or p.err := by
  induction as generalizing p with
  | nil =>
    simp only [Proc.run, Option.some.injEq] at hr; subst hr
    simp [hs, hsub, hfo, values, errors]
  | cons a as ih =>
    simp only [Proc.run, Option.bind_eq_some_iff] at hr
    obtain ⟨m, h1, h2⟩ := hr
    have hno' : ∀ a ∈ as, isSubscribe a = false := fun x hx => hno x (List.mem_cons_of_mem _ hx)
    cases a with
    | subscribe g hd => simpa [isSubscribe] using hno _ List.mem_cons_self
    | notify g =>
      simp only [Proc.step, Option.some.injEq] at h1; subst h1
      have hsub' : (notify g p.m).subs = [] := by
        unfold notify; split
        · split <;> simpa [push, emit] using hsub
        · exact hsub
      exact ih { p with m := notify g p.m } hs hno' hsub' (by rw [first_notify]; exact hfo) h2
    | pushSuccess g v =>
      simp only [Proc.step, Proc.pushSuccess] at h1
      split at h1
      · simp_all
      · injection h1 with h1; subst h1
        obtain ⟨i1, i2, i3, i4, i5⟩ := ih { p with success := some v } hs hno' hsub hfo h2
        refine ⟨i1, i2, i3, ?_, i5⟩
        rw [i4]
        simp only [values, List.filterMap_cons, List.getLast?_cons]
        cases (List.filterMap _ as).getLast? <;> simp
    | pushError g e =>
      simp only [Proc.step, Proc.pushError] at h1
      split at h1
      · simp_all
      · injection h1 with h1; subst h1
        obtain ⟨i1, i2, i3, i4, i5⟩ := ih { p with err := some e } hs hno' hsub hfo h2
        refine ⟨i1, i2, i3, i4, ?_⟩
        rw [i5]
        simp only [errors, List.filterMap_cons, List.getLast?_cons]
        cases (List.filterMap _ as).getLast? <;> simp
    | ret g =>
      simp only [Proc.step] at h1
      split at h1
      · rename_i mm hm
        injection h1 with h1; subst h1
        have hsub' : mm.subs = [] := by
          unfold resume at hm
          split at hm
          · cases hm
          · split at hm
            · simp [hsub] at hm
            · injection hm with hm; subst hm
              unfold startLoop; cases p.m.callbacks <;> simpa [runLoop, push, emit] using hsub
            · rename_i sg rest _
              injection hm with hm; subst hm
              cases rest <;> simpa [runLoop, push, emit] using hsub
            · injection hm with hm; subst hm; exact hsub
        exact ih { p with m := mm } hs hno' hsub' (by rw [first_resume hm]; exact hfo) h2
      · cases h1

/-- After the subscription the first push decides. -/
theorem Proc.after (as : List (PAction V E)) (p p' : Proc V E) (hs : p.sink = some 0)
    (hno : ∀ a ∈ as, isSubscribe a = false) (hr : p.run as = some p') :
    firstOutcome 0 p'.m.log = (firstOutcome 0 p.m.log).or (firstPush as) := by
  induction as generalizing p with
  | nil =>
    simp only [Proc.run, Option.some.injEq] at hr; subst hr
    simp [firstPush]
  | cons a as ih =>
    simp only [Proc.run, Option.bind_eq_some_iff] at hr
    obtain ⟨m, h1, h2⟩ := hr
    have hno' : ∀ a ∈ as, isSubscribe a = false := fun x hx => hno x (List.mem_cons_of_mem _ hx)
    have hfw : ∀ {g : Nat} {o : Outcome V E}, p.forward g 0 o = some m →
        m.sink = some 0 ∧ firstOutcome 0 m.m.log = (firstOutcome 0 p.m.log).or (some o) := by
      intro g o hf
      unfold Proc.forward at hf
      split at hf
      · rename_i mm hm; injection hf with hf; subst hf; exact ⟨hs, first_signal hm⟩
      · cases hf
    cases a with
    | subscribe g hd => simpa [isSubscribe] using hno _ List.mem_cons_self
    | notify g =>
      simp only [Proc.step, Option.some.injEq] at h1; subst h1
      rw [ih { p with m := notify g p.m } hs hno' h2, first_notify]; rfl
    | pushSuccess g v =>
      simp only [Proc.step, Proc.pushSuccess, hs] at h1
      obtain ⟨e1, e2⟩ := hfw h1
      rw [ih m e1 hno' h2, e2]
      simp only [firstPush, List.filterMap_cons, pushed, List.head?_cons]
      cases firstOutcome 0 p.m.log <;> simp
    | pushError g e =>
      simp only [Proc.step, Proc.pushError, hs] at h1
      obtain ⟨e1, e2⟩ := hfw h1
      rw [ih m e1 hno' h2, e2]
      simp only [firstPush, List.filterMap_cons, pushed, List.head?_cons]
      cases firstOutcome 0 p.m.log <;> simp
    | ret g =>
      simp only [Proc.step] at h1
      split at h1
      · rename_i mm hm
        injection h1 with h1; subst h1
        rw [ih { p with m := mm } hs hno' h2, first_resume hm]; rfl
      · cases h1

/-- The outcome kept for the subscriber: the last value pushed before, else the last error. -/
def kept (pre : List (PAction V E)) : Option (Outcome V E) :=
  match (values pre).getLast? with
  | some v => some (.success v)
  | none => (errors pre).getLast?.map .error

/-- **C16** What the (only) subscriber of a processor gets, for all sequences of pushes before and after
the subscription: the outcome kept from before (the last value, else the last error), else the first one
pushed afterwards. It is delivered on subscription or at once, respectively, exactly once. -/
theorem processor_delivers (pre post : List (PAction V E)) (g : Nat) (hd : Handlers) (p : Proc V E)
    (hpre : ∀ a ∈ pre, isSubscribe a = false) (hpost : ∀ a ∈ post, isSubscribe a = false)
    (hr : Proc.init.run (pre ++ .subscribe g hd :: post) = some p) :
    firstOutcome 0 p.m.log = (kept pre).or (firstPush post) ∧
    (∀ o, (kept pre).or (firstPush post) = some o →
      ∃ b, p.m.subs[0]? = some b ∧ history 0 p.m.log <+: expected .ok 0 b.h o ∧
        (p.m.pending = [] → history 0 p.m.log = expected .ok 0 b.h o)) := by
  have hI := Proc.InvI_run (i := 0) _ (InvI_init .ok 0) hr
  rw [Proc.run_append] at hr
  obtain ⟨p1, h1, h2⟩ := Option.bind_eq_some_iff.mp hr
  simp only [Proc.run, Option.bind_eq_some_iff] at h2
  obtain ⟨p2, h2, h3⟩ := h2
  obtain ⟨b1, b2, b3, b4, b5⟩ := Proc.before pre _ p1 rfl hpre rfl rfl h1
  simp only [Proc.init, Option.or_none] at b4 b5
  have hfo : firstOutcome 0 (addSub hd p1.m).log = none := by simp [addSub, firstOutcome, b3]
  have hmid : p2.sink = some 0 ∧ firstOutcome 0 p2.m.log = kept pre := by
    simp only [Proc.step, Proc.subscribe, b2, List.length_nil] at h2
    unfold kept
    rw [← b4, ← b5]
    cases hsu : p1.success with
    | some v =>
      simp only [hsu, Proc.forward] at h2
      split at h2
      · rename_i m hm
        injection h2 with h2; subst h2
        refine ⟨rfl, ?_⟩
        rw [first_signal hm, hfo]; rfl
      · cases h2
    | none =>
      simp only [hsu] at h2
      cases her : p1.err with
      | some e =>
        simp only [her, Proc.forward] at h2
        split at h2
        · rename_i m hm
          injection h2 with h2; subst h2
          refine ⟨rfl, ?_⟩
          rw [first_signal hm, hfo]; rfl
        · cases h2
      | none =>
        simp only [her, Option.some.injEq] at h2
        subst h2
        exact ⟨rfl, hfo⟩
  have hfin := Proc.after post p2 p hmid.1 hpost h3
  rw [hmid.2] at hfin
  refine ⟨hfin, fun o ho => ?_⟩
  rw [ho] at hfin
  unfold InvI at hI
  cases hb : p.m.subs[0]? with
  | none => simp [hb, hfin] at hI
  | some b =>
    simp only [hb, hfin] at hI
    refine ⟨b, rfl, ⟨_, hI.2.2.1⟩, fun hp => ?_⟩
    have := hI.2.2.1
    rw [hp] at this
    simpa using this

/-- **C16** (partial) If at most one outcome is pushed before the subscription, the subscriber sees the
first outcome pushed. With several pushes before the subscription this is false
(`processor_first_refuted`). -/
theorem processor_first_partial (pre post : List (PAction V E)) (g : Nat) (hd : Handlers) (p : Proc V E)
    (hpre : ∀ a ∈ pre, isSubscribe a = false) (hpost : ∀ a ∈ post, isSubscribe a = false)
    (hone : (pre.filterMap pushed).length ≤ 1)
    (hr : Proc.init.run (pre ++ .subscribe g hd :: post) = some p) :
    firstOutcome 0 p.m.log = firstPush (pre ++ post) := by
  rw [(processor_delivers pre post g hd p hpre hpost hr).1]
  have : kept pre = firstPush pre := by
    unfold kept firstPush
    have hv : values pre = (pre.filterMap pushed).filterMap fun o => match o with
        | .success v => some v | _ => none := by
      unfold values; rw [List.filterMap_filterMap]; congr 1; funext a; cases a <;> rfl
    have he : errors pre = (pre.filterMap pushed).filterMap fun o => match o with
        | .error v => some v | _ => none := by
      unfold errors; rw [List.filterMap_filterMap]; congr 1; funext a; cases a <;> rfl
    have hform : ∀ a ∈ pre.filterMap pushed, a ≠ Outcome.cancel := by
      intro a ha
      obtain ⟨x, _, hx⟩ := List.mem_filterMap.mp ha
      cases x <;> simp [pushed] at hx <;> subst hx <;> simp
    rw [hv, he]
    revert hone hform
    generalize pre.filterMap pushed = ps
    intro hone hform
    match ps with
    | [] => rfl
    | [.success v] => rfl
    | [.error e] => rfl
    | [.cancel] => exact absurd rfl (hform _ List.mem_cons_self)
    | _ :: _ :: _ => simp at hone
  rw [this]
  simp only [firstPush, List.filterMap_append, List.head?_append]

/-- **C16** refuted: of two values pushed before the subscription the subscriber sees the second; and a
value pushed after an error replaces the error. -/
theorem processor_first_refuted :
    (∃ p : Proc Nat String, Proc.init.run [.pushSuccess 0 1, .pushSuccess 0 2,
        .subscribe 0 ⟨true, true, true⟩, .ret 0, .ret 0] = some p ∧ p.m.pending = [] ∧
      history 0 p.m.log = [.onSuccess 0 2, .fin 0 .complete, .done 0 .complete]) ∧
    (∃ p : Proc Nat String, Proc.init.run [.pushError 0 "first", .pushSuccess 0 2,
        .subscribe 0 ⟨true, true, true⟩, .ret 0, .ret 0] = some p ∧ p.m.pending = [] ∧
      history 0 p.m.log = [.onSuccess 0 2, .fin 0 .complete, .done 0 .complete]) := by
  refine ⟨⟨_, rfl, ?_⟩, ⟨_, rfl, ?_⟩⟩ <;> decide

/-- A push before and two after the subscription. -/
example : (Proc.init.run [.pushError 0 "a", .subscribe 0 ⟨true, true, true⟩, .pushSuccess 0 3, .ret 0,
    .pushError 0 "b", .ret 0] : Option (Proc Nat String)).map (fun p => history 0 p.m.log) =
    some [.onError 0 "a", .fin 0 .error, .done 0 .error] := by decide

end Iota.Props.Mono
