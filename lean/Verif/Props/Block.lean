import Verif.Model.Block
import Verif.Props.Mono
import Verif.Props.Flux

/-! # C117, C118, C119, C120: waiting for monos, fluxes and answers -/

namespace Iota.Props.Block
open Iota.Block

variable {V E W : Type}

/-! ## C117: monos -/

section Mono
open Iota.Mono Iota.Spec.Mono Iota.Lemmas.Mono

/-- What `Block` should come to when `o` is the first that the source signalled: it waits for an outcome, and returns
the value or the error. A cancelled mono has neither, so it waits for ever. -/
def wanted (tx : V → Except E W) : Option (Outcome V E) → Out W E
  | none => .waits
  | some .cancel => .waits
  | some (.error e) => .returns none (some e)
  | some (.success v) =>
    match tx v with
    | .ok w => .returns (some w) none
    | .error e => .returns none (some e)

/-- The variables after a history, oldest event first. -/
def after (i : Nat) (x : Vars W E) (l : List (Ev V E W)) : Vars W E := l.foldl (monoEvent i) x

theorem after_append (i : Nat) (x : Vars W E) (k l : List (Ev V E W)) : after i x (k ++ l) = after i (after i x k) l := by
  simp [after]

theorem vars_history (i : Nat) (l : List (Ev V E W)) : monoVars i l = after i Vars.new (history i l) := by
  induction l with
  | nil => rfl
  | cons e l ih =>
    show monoEvent i (monoVars i l) e = _
    simp only [history, after_append, ih]
    cases hx : ofSub i e with
    | true => simp [after]
    | false => cases e <;> simp_all [after, ofSub, monoEvent]

theorem after_owes (i : Nat) (x : Vars W E) (h : Handlers) (f : Frame) : after i x (owes i h f : List (Ev V E W)) = x := by
  cases f with
  | afterSig j sg =>
    simp only [owes]
    split
    · unfold tail; split <;> rfl
    · rfl
  | afterFin j sg => simp only [owes]; split <;> rfl
  | loop sg r => rfl
  | leaf => rfl

theorem after_pend (i : Nat) (x : Vars W E) (h : Handlers) (p : List (Nat × Frame)) :
    after i x (pend i h p : List (Ev V E W)) = x := by
  induction p with
  | nil => rfl
  | cons y p ih => rw [pend_cons, after_append, after_owes, ih]

theorem after_tail (i : Nat) (x : Vars W E) (h : Handlers) (sg : Signal) :
    after i x (tail i h sg : List (Ev V E W)) = x := by unfold tail; split <;> rfl

theorem out_of_inv (tx : V → Except E W) (s : State V E W) (i : Nat) (hi : InvI tx i s) (b : Sub V E)
    (hb : s.subs[i]? = some b) (hh : b.h = monoHandlers) : (monoVars i s.log).out = wanted tx (firstOutcome i s.log) := by
  unfold InvI at hi
  simp only [hb] at hi
  rw [vars_history]
  cases ho : firstOutcome i s.log with
  | none =>
    simp only [ho] at hi
    rw [hi.2.2.2.1]
    rfl
  | some o =>
    simp only [ho] at hi
    have he := hi.2.2.1
    have : after i Vars.new (history i s.log) = after i Vars.new (expected tx i b.h o) := by
      rw [← he, after_append, after_pend]
    rw [this, hh]
    unfold expected
    rw [after_append, after_tail]
    cases o with
    | success v => cases htx : tx v <;> simp [htx, after, monoHandlers, monoEvent, wanted, Vars.out, Vars.new, Done.close]
    | error e => simp [after, monoHandlers, monoEvent, wanted, Vars.out, Vars.new, Done.close]
    | cancel => rfl

/-- **C117** A call of `Block` that subscribed as number `i`, on a mono or on a mapper over it, in every run, whatever
source, other users and other goroutines do: it waits until the source has signalled to this subscription, then it
returns what was signalled first (through the transform), and it never closes its channel twice. -/
theorem mono_block (tx : V → Except E W) (as : List (Action V E)) (s : State V E W) (hr : run tx init as = some s)
    (i : Nat) (b : Sub V E) (hb : s.subs[i]? = some b) (hh : b.h = monoHandlers) :
    (monoVars i s.log).out = wanted tx (firstOutcome i s.log) :=
  out_of_inv tx s i (InvI_run as (InvI_init tx i) hr) b hb hh

/-- **C117** The shortcut, when the subscription that the mono had last has its outcome: the same outcome, without
another subscription. A mono that was cancelled before gives the zero value and no error. -/
theorem mono_block_again (as : List (Action V E)) (s : State V E V) (hr : run .ok init as = some s) (i : Nat)
    (hc : s.current = some i) (b : Sub V E) (hb : s.subs[i]? = some b) :
    monoShortcut s = match firstOutcome i s.log with
      | none => none
      | some .cancel => some (.returns none none)
      | some o => some (wanted .ok (some o)) := by
  have hi := InvI_run as (InvI_init .ok i) hr
  unfold InvI at hi
  simp only [hb] at hi
  unfold monoShortcut
  simp only [hc, Option.bind_some, hb]
  cases ho : firstOutcome i s.log with
  | none => simp only [ho] at hi; simp [hi.1]
  | some o =>
    simp only [ho] at hi
    obtain ⟨h1, h2, _⟩ := hi
    cases o with
    | success v => simp only [fieldsOf] at h2; simp [h1, h2.1, h2.2, wanted]
    | error e => simp only [fieldsOf] at h2; simp [h1, h2.1, h2.2, wanted]
    | cancel => simp only [fieldsOf] at h2; simp [h1, h2.1, h2.2]

/-- **C117** Monos that have their outcome from the start. -/
theorem just_block (v : V) (e : E) : justBlock v = wanted (E := E) .ok (some (.success v)) ∧
    errorBlock e = wanted (V := V) .ok (some (.error e)) := ⟨rfl, rfl⟩

/-- Two calls of `Block` on one mono, the second one while the first waits; the source answers both, the first one
twice and with a failure of the transform. -/
example : (run (V := Nat) (E := String) (fun v => if v = 0 then .error "zero" else .ok (v * 2)) init
    [.subscribe 5 monoHandlers, .ret 5, .subscribe 6 monoHandlers, .ret 6, .signal 0 0 (.success 0), .signal 0 0 (.success 9),
     .ret 0, .signal 1 1 (.success 4), .ret 1]).map (fun s => ((monoVars 0 s.log).out, (monoVars 1 s.log).out)) =
    some (.returns none (some "zero"), .returns (some 8) none) := by decide

/-- Of a subscription the history only grows and the callbacks stay. -/
structure Later (i : Nat) (s t : State V E W) : Prop where
  log : ∃ l, t.log = l ++ s.log
  subs : ∀ b, s.subs[i]? = some b → ∃ b', t.subs[i]? = some b' ∧ b'.h = b.h

theorem Later.refl (i : Nat) (s : State V E W) : Later i s s := ⟨⟨[], rfl⟩, fun b hb => ⟨b, hb, rfl⟩⟩

theorem Later.trans {i : Nat} {s t u : State V E W} (h : Later i s t) (k : Later i t u) : Later i s u := by
  obtain ⟨l, hl⟩ := h.log
  obtain ⟨m, hm⟩ := k.log
  refine ⟨⟨m ++ l, by rw [hm, hl, List.append_assoc]⟩, fun b hb => ?_⟩
  obtain ⟨b', h1, h2⟩ := h.subs b hb
  obtain ⟨b'', h3, h4⟩ := k.subs b' h1
  exact ⟨b'', h3, h4.trans h2⟩

theorem later_emit (i : Nat) (s : State V E W) (e : Ev V E W) : Later i s (emit s e) := ⟨⟨[e], rfl⟩, fun b hb => ⟨b, hb, rfl⟩⟩

theorem later_push (i : Nat) (s : State V E W) (g : Nat) (f : Frame) : Later i s (push s g f) :=
  ⟨⟨[], rfl⟩, fun b hb => ⟨b, hb, rfl⟩⟩

theorem later_setSub (i j : Nat) (s : State V E W) (f : Sub V E → Sub V E) (hf : ∀ b, (f b).h = b.h) :
    Later i s (setSub s j f) := by
  refine ⟨⟨[], rfl⟩, fun b hb => ?_⟩
  simp only [setSub, List.getElem?_modify, hb]
  split
  · exact ⟨f b, rfl, hf b⟩
  · exact ⟨b, rfl, rfl⟩

theorem later_loop (i g : Nat) (sg : Signal) (r : List Nat) (s : State V E W) : Later i s (runLoop g sg r s) := by
  cases r with
  | nil => exact Later.refl i s
  | cons k ks => exact (later_emit i s _).trans (later_push i _ g _)

theorem later_start (i g j : Nat) (sg : Signal) (s : State V E W) : Later i s (startLoop g j sg s) :=
  (later_emit i s _).trans (later_loop i g sg _ _)

theorem later_finally (i g j : Nat) (sg : Signal) (h : Handlers) (s : State V E W) : Later i s (runFinally g j sg h s) := by
  unfold runFinally
  split
  · exact Later.trans (Later.trans (by exact later_setSub i j s _ fun _ => rfl) (later_emit i _ _)) (later_push i _ g _)
  · exact Later.trans (by exact later_setSub i j s _ fun _ => rfl) (later_start i g j sg _)

theorem later_success (tx : V → Except E W) (i g j : Nat) (v : V) (h : Handlers) (s : State V E W) :
    Later i s (callSuccess tx g j v h s) := by
  unfold callSuccess
  split <;> split
  · exact (later_emit i s _).trans (later_push i _ g _)
  · exact later_finally i g j _ h s
  · exact (later_emit i s _).trans (later_push i _ g _)
  · exact later_finally i g j _ h s

theorem later_error (i g j : Nat) (e : E) (h : Handlers) (s : State V E W) : Later i s (callError g j e h s) := by
  unfold callError
  split
  · exact (later_emit i s _).trans (later_push i _ g _)
  · exact later_finally i g j _ h s

theorem later_signal (tx : V → Except E W) (i g j : Nat) (o : Outcome V E) (s t : State V E W)
    (h : signal tx g j o s = some t) : Later i s t := by
  unfold signal at h
  split at h
  · cases h
  · split at h
    · injection h with h; subst h; exact later_emit i s _
    · cases o with
      | success v =>
        injection h with h; subst h
        exact Later.trans (Later.trans (later_emit i s _) (by exact later_setSub i j _ _ fun _ => rfl)) (later_success tx i g j v _ _)
      | error e =>
        injection h with h; subst h
        exact Later.trans (Later.trans (later_emit i s _) (by exact later_setSub i j _ _ fun _ => rfl)) (later_error i g j e _ _)
      | cancel =>
        injection h with h; subst h
        exact Later.trans (Later.trans (later_emit i s _) (by exact later_setSub i j _ _ fun _ => rfl)) (later_finally i g j _ _ _)

theorem later_addSub (i : Nat) (h : Handlers) (s : State V E W) : Later i s (addSub h s) := by
  refine ⟨⟨[.subscribed s.subs.length], rfl⟩, fun b hb => ⟨b, ?_, rfl⟩⟩
  have hi : i < s.subs.length := (List.getElem?_eq_some_iff.mp hb).1
  simp only [addSub]
  rw [List.getElem?_append_left hi]
  exact hb

theorem later_notify (i g : Nat) (s : State V E W) : Later i s (notify g s) := by
  unfold notify
  split
  · split
    · exact ⟨⟨[_, _], rfl⟩, fun b hb => ⟨b, hb, rfl⟩⟩
    · exact ⟨⟨[_], rfl⟩, fun b hb => ⟨b, hb, rfl⟩⟩
  · exact ⟨⟨[_], rfl⟩, fun b hb => ⟨b, hb, rfl⟩⟩

theorem later_resume (i g : Nat) (s t : State V E W) (h : resume g s = some t) : Later i s t := by
  unfold resume at h
  split at h
  · cases h
  · rename_i f r _
    have h0 : Later i s { s with pending := r } := ⟨⟨[], rfl⟩, fun b hb => ⟨b, hb, rfl⟩⟩
    cases f with
    | afterSig j sg =>
      simp only at h
      split at h
      · cases h
      · injection h with h; subst h; exact h0.trans (later_finally i g j sg _ _)
    | afterFin j sg => injection h with h; subst h; exact h0.trans (later_start i g j sg _)
    | loop sg rest => injection h with h; subst h; exact h0.trans (later_loop i g sg rest _)
    | leaf => injection h with h; subst h; exact h0

theorem later_step (tx : V → Except E W) (i : Nat) (a : Action V E) (s t : State V E W) (h : step tx s a = some t) :
    Later i s t := by
  cases a with
  | subscribe g hd =>
    simp only [step, subscribe, Option.some.injEq] at h; subst h
    exact (later_addSub i hd s).trans (later_push i _ g _)
  | notify g => simp only [step, Option.some.injEq] at h; subst h; exact later_notify i g s
  | signal g j o => exact later_signal tx i g j o s t h
  | ret g => exact later_resume i g s t h

theorem later_run (tx : V → Except E W) (i : Nat) (as : List (Action V E)) (s t : State V E W) (h : run tx s as = some t) :
    Later i s t := by
  induction as generalizing s with
  | nil => simp only [run, Option.some.injEq] at h; subst h; exact Later.refl i s
  | cons a as ih =>
    simp only [run, Option.bind_eq_some_iff] at h
    obtain ⟨m, h1, h2⟩ := h
    exact (later_step tx i a s m h1).trans (ih m h2)

theorem first_grows (i : Nat) (k l : List (Ev V E W)) (o : Outcome V E) (h : firstOutcome i l = some o) :
    firstOutcome i (k ++ l) = some o := by
  induction k with
  | nil => exact h
  | cons e k ih => simp only [List.cons_append, firstOutcome, ih]

theorem run_append (tx : V → Except E W) (s : State V E W) (a b : List (Action V E)) :
    run tx s (a ++ b) = (run tx s a).bind fun t => run tx t b := by
  induction a generalizing s with
  | nil => rfl
  | cons x xs ih =>
    simp only [List.cons_append, run]
    cases step tx s x with
    | none => rfl
    | some t => simp [ih]

/-- **C117** What a call of `Block` has returned it has returned for good: nothing that happens afterwards gives it
another result or closes its channel again. -/
theorem mono_block_final (tx : V → Except E W) (as more : List (Action V E)) (s t : State V E W)
    (hr : run tx init as = some s) (ht : run tx s more = some t) (i : Nat) (b : Sub V E) (hb : s.subs[i]? = some b)
    (hh : b.h = monoHandlers) (v : Option W) (e : Option E) (ho : (monoVars i s.log).out = .returns v e) :
    (monoVars i t.log).out = .returns v e := by
  obtain ⟨⟨l, hl⟩, hs⟩ := later_run tx i more s t ht
  obtain ⟨b', h1, h2⟩ := hs b hb
  have hrt : run tx init (as ++ more) = some t := by rw [run_append, hr]; exact ht
  rw [mono_block tx _ t hrt i b' h1 (h2.trans hh)]
  rw [mono_block tx as s hr i b hb hh] at ho
  cases hf : firstOutcome i s.log with
  | none => rw [hf] at ho; cases ho
  | some o => rw [hl, first_grows i l _ o hf, ← hf]; exact ho

/-- **C117** does not hold for cancelled monos: a `Block` in progress waits, whatever happens afterwards, and one that
starts then returns neither value nor error. -/
theorem block_cancelled_refuted (as more : List (Action V E)) (s t : State V E V) (hr : run .ok init as = some s)
    (i : Nat) (b : Sub V E) (hb : s.subs[i]? = some b) (hh : b.h = monoHandlers) (hc : s.current = some i)
    (ho : firstOutcome i s.log = some .cancel) (ht : run .ok s more = some t) :
    (monoVars i t.log).out = .waits ∧ monoShortcut s = some (.returns none none) := by
  constructor
  · obtain ⟨⟨l, hl⟩, hs⟩ := later_run .ok i more s t ht
    obtain ⟨b', h1, h2⟩ := hs b hb
    have hrt : run .ok init (as ++ more) = some t := by rw [run_append, hr]; exact ht
    rw [mono_block .ok _ t hrt i b' h1 (h2.trans hh), hl, first_grows i l _ _ ho]
    rfl
  · rw [mono_block_again as s hr i hc b hb, ho]

/-- A mono that is cancelled while a call of `Block` waits, and then succeeds. -/
example : ((run (V := Nat) (E := String) .ok init [.subscribe 5 monoHandlers, .ret 5, .signal 0 0 .cancel]).map
      (fun s => (firstOutcome 0 s.log, monoShortcut s)),
    (run (V := Nat) (E := String) .ok init [.subscribe 5 monoHandlers, .ret 5, .signal 0 0 .cancel, .signal 0 0 (.success 3)]).map
      (fun s => (monoVars 0 s.log).out)) =
    (some (some .cancel, some (.returns none none)), some .waits) := by decide

end Mono

/-! ## C118: fluxes -/

section Flux
open Iota.Flux Iota.Spec.Flux Iota.Lemmas.Flux Iota.Props.Flux

/-- How many times the callbacks close the channel: for each value that the transform refuses before the end, for the
end, and for each cancellation after it. -/
def closes (tx : V → Except E W) : List (Call V E) → Nat
  | [] => 0
  | .next v :: r =>
    match tx v with
    | .ok _ => closes tx r
    | .error _ => 1 + closes tx r
  | _ :: r => 1 + r.countP Call.isCancel

/-- The first failure, of the transform or of the source, before the end. -/
def failure (tx : V → Except E W) : List (Call V E) → Option E
  | [] => none
  | .next v :: r =>
    match tx v with
    | .ok _ => failure tx r
    | .error e => some e
  | .error e :: _ => some e
  | _ :: _ => none

/-- What `Block` should come to after its subscription was told `cs`. -/
def due (tx : V → Except E W) (cs : List (Call V E)) : Out Unit E :=
  match closes tx cs with
  | 0 => .waits
  | 1 => .returns none (failure tx cs)
  | _ => .panics

def lastError : Option E → List (Seen E W) → Option E
  | x, [] => x
  | _, .error e :: l => lastError (some e) l
  | x, _ :: l => lastError x l

def ofCount : Nat → Done
  | 0 => .opened
  | 1 => .closed
  | _ => .panicked

theorem ofCount_close (n : Nat) : (ofCount n).close = ofCount (n + 1) := by
  match n with
  | 0 => rfl
  | 1 => rfl
  | _ + 2 => rfl

theorem lastError_append (x : Option E) (k l : List (Seen E W)) : lastError x (k ++ l) = lastError (lastError x k) l := by
  induction k generalizing x with
  | nil => rfl
  | cons y k ih => cases y <;> exact ih _

theorem vars_flux (i : Nat) (l : List (Ev V E W)) :
    fluxVars i l = ⟨none, lastError none (seen i l), ofCount (fins i l).length⟩ := by
  induction l with
  | nil => rfl
  | cons e l ih =>
    show fluxEvent i (fluxVars i l) e = _
    rw [ih, seen_cons, fins_cons, lastError_append, List.length_append]
    cases e <;> simp [fluxEvent, seenOf, finOf, lastError]
    · split <;> rfl
    · split <;> rfl
    · split <;> rfl
    · split
      · simp [ofCount_close]
      · simp

theorem signals (l : List Signal) : l.length = l.count .complete + l.count .cancel + l.count .error := by
  induction l with
  | nil => rfl
  | cons a l ih => cases a <;> simp [ih] <;> omega

theorem finals_end_length (tx : V → Except E W) (cs : List (Call V E)) :
    (finals tx true cs).length = cs.countP Call.isCancel := by
  induction cs with
  | nil => rfl
  | cons x r ih => cases x <;> simp [finals, finOut, Call.isCancel, ih, List.countP_cons]

theorem finals_length (tx : V → Except E W) (cs : List (Call V E)) : (finals tx false cs).length = closes tx cs := by
  induction cs with
  | nil => rfl
  | cons x r ih =>
    cases x with
    | next v => cases htx : tx v <;> simp [finals, finOut, isEnd, closes, htx, ih, Nat.add_comm]
    | complete => simp [finals, finOut, isEnd, closes, finals_end_length, Nat.add_comm]
    | error e => simp [finals, finOut, isEnd, closes, finals_end_length, Nat.add_comm]
    | cancel => simp [finals, finOut, isEnd, closes, finals_end_length, Nat.add_comm]

theorem lastError_filter (p : Seen E W → Bool) (hp : ∀ e, p (.error e) = true) (x : Option E) (l : List (Seen E W)) :
    lastError x (l.filter p) = lastError x l := by
  induction l generalizing x with
  | nil => rfl
  | cons y l ih =>
    cases y with
    | error e => rw [List.filter_cons, if_pos (hp e)]; exact ih _
    | next w => rw [List.filter_cons]; split <;> exact ih _
    | complete => rw [List.filter_cons]; split <;> exact ih _

theorem lastError_none (tx : V → Except E W) (x : Option E) (cs : List (Call V E)) (h : closes tx cs = 0) :
    lastError x (actual tx cs) = x := by
  induction cs with
  | nil => rfl
  | cons y r ih =>
    cases y with
    | next v =>
      simp only [closes] at h
      cases htx : tx v with
      | ok w => rw [htx] at h; simpa [actual, out, isEnd, htx, lastError] using ih h
      | error e => rw [htx] at h; simp at h
    | complete => simp [closes] at h
    | error e => simp [closes] at h
    | cancel => simp [closes] at h

theorem lastError_failure (tx : V → Except E W) (cs : List (Call V E)) (h : closes tx cs ≤ 1) :
    lastError none (actual tx cs) = failure tx cs := by
  induction cs with
  | nil => rfl
  | cons y r ih =>
    cases y with
    | next v =>
      simp only [closes] at h
      cases htx : tx v with
      | ok w => rw [htx] at h; simpa [actual, out, isEnd, htx, lastError, failure] using ih h
      | error e =>
        rw [htx] at h
        simpa [actual, out, isEnd, htx, lastError, failure] using lastError_none tx (some e) r (by simp at h; omega)
    | complete => simp [actual, out, isEnd, lastError, failure]
    | error e => simp [actual, out, isEnd, lastError, failure]
    | cancel => simp [actual, out, isEnd, lastError, failure]

theorem block_facts (c : Cfg V E W) (xs : List V) (as : List (Action V E)) (s : State V E W)
    (hr : run c (init xs) as = some s) (i : Nat) (b : Subscriber E) (hb : s.subs[i]? = some b) (h : Handlers)
    (hh : b.h = fluxHandlers h) :
    fluxVars i s.log = ⟨none, lastError none (actual c.tx (calls i s.log)), ofCount (fins i s.log).length⟩ ∧
    (fins i s.log).length ≤ closes c.tx (calls i s.log) ∧
    (s.pending = [] → (fins i s.log).length = closes c.tx (calls i s.log)) := by
  obtain ⟨_, h2, h3⟩ := run_inv hr hb
  have h3 := h3 (by rw [hh]; rfl)
  have hl : (finals c.tx false (calls i s.log)).length = closes c.tx (calls i s.log) := finals_length _ _
  rw [signals] at hl
  have hc := h3 .complete
  have hk := h3 .cancel
  have he := h3 .error
  simp only [bal] at hc hk he
  refine ⟨?_, ?_, fun hp => ?_⟩
  · rw [vars_flux, h2, lastError_filter _ (by intro e; simp [Spec.Flux.wanted, hh, fluxHandlers])]
  · rw [signals (fins i s.log)]; omega
  · rw [signals (fins i s.log)]; simp [hp, pendFin] at hc hk he; omega

/-- What a call of `Block` that subscribed as number `i`, on a flux or on a mapper over it, has come to whenever no
callback is in progress, in every run: it waits while its channel was not closed, it returns the failure if there was
one, and it ends the process when the channel is closed twice. -/
theorem flux_block (c : Cfg V E W) (xs : List V) (as : List (Action V E)) (s : State V E W)
    (hr : run c (init xs) as = some s) (i : Nat) (b : Subscriber E) (hb : s.subs[i]? = some b) (h : Handlers)
    (hh : b.h = fluxHandlers h) (hp : s.pending = []) : (fluxVars i s.log).out = due c.tx (calls i s.log) := by
  obtain ⟨h1, _, h3⟩ := block_facts c xs as s hr i b hb h hh
  rw [h1, h3 hp]
  unfold due Vars.out
  match hn : closes c.tx (calls i s.log) with
  | 0 => rfl
  | 1 => simp only [ofCount]; rw [lastError_failure _ _ (by omega)]
  | _ + 2 => rfl

/-- **C118** (part) As long as the transform refuses nothing that is followed by an end or refused as well, and nobody
cancels a subscription that has ended, `Block` only ever waits or returns: the error of the source, the refusal, or
nil, and it does return when the subscription has ended and no callback is in progress. Missing: those cases, and
fluxes without a subscription. -/
theorem flux_block_partial (c : Cfg V E W) (xs : List V) (as : List (Action V E)) (s : State V E W)
    (hr : run c (init xs) as = some s) (i : Nat) (b : Subscriber E) (hb : s.subs[i]? = some b) (h : Handlers)
    (hh : b.h = fluxHandlers h) (hc : closes c.tx (calls i s.log) ≤ 1) :
    ((fluxVars i s.log).out = .waits ∨ (fluxVars i s.log).out = .returns none (failure c.tx (calls i s.log))) ∧
    (s.pending = [] → ended (calls i s.log) = true →
      (fluxVars i s.log).out = .returns none (failure c.tx (calls i s.log))) := by
  constructor
  · obtain ⟨h1, h2, _⟩ := block_facts c xs as s hr i b hb h hh
    rw [h1, lastError_failure _ _ hc]
    have : (fins i s.log).length = 0 ∨ (fins i s.log).length = 1 := by omega
    rcases this with h0 | h0 <;> rw [h0]
    · exact .inl rfl
    · exact .inr rfl
  · intro hp he
    rw [flux_block c xs as s hr i b hb h hh hp]
    have hpos : ∀ cs : List (Call V E), ended cs = true → 1 ≤ closes c.tx cs := by
      intro cs
      induction cs with
      | nil => simp [ended]
      | cons x r ih =>
        cases x with
        | next v =>
          intro he
          have := ih (by simpa [ended, isEnd] using he)
          simp only [closes]
          split <;> omega
        | complete => intro _; simp [closes]
        | error e => intro _; simp [closes]
        | cancel => intro _; simp [closes]
    have := hpos _ he
    have h1 : closes c.tx (calls i s.log) = 1 := by omega
    simp [due, h1]

/-- Two calls of `Block`, one of a stream that fails, one of a mapped stream that completes. -/
example : (run (V := Nat) (E := String) (plain true .user) (init [])
    [.subscribe 0 (fluxHandlers all), .ret 0, .subscribe 1 (fluxHandlers all), .ret 1, .signal 0 0 (.next 1), .ret 0,
     .signal 0 0 (.error "boom"), .ret 0, .ret 0, .signal 1 1 .complete, .ret 1]).map
      (fun s => ((fluxVars 0 s.log).out, (fluxVars 1 s.log).out, s.pending, closes .ok (calls 0 s.log))) =
    some (.returns none (some "boom"), .returns none none, [(1, .afterFin 1 .complete)], 1) := by decide

/-- The transform refuses a value before the end. -/
def refuses (tx : V → Except E W) : List (Call V E) → Bool
  | [] => false
  | .next v :: r =>
    match tx v with
    | .ok _ => refuses tx r
    | .error _ => true
  | _ :: _ => false

/-- **C118** is false: `Block` on a mapper ends the process when the source goes on to its end after the transform has
refused a value, in every such run; so does, on any flux, a cancellation after the end. -/
theorem flux_block_panics_refuted (c : Cfg V E W) (xs : List V) (as : List (Action V E)) (s : State V E W)
    (hr : run c (init xs) as = some s) (i : Nat) (b : Subscriber E) (hb : s.subs[i]? = some b) (h : Handlers)
    (hh : b.h = fluxHandlers h) (hp : s.pending = [])
    (hbad : refuses c.tx (calls i s.log) = true ∧ ended (calls i s.log) = true ∨ lateCancel (calls i s.log) = true) :
    (fluxVars i s.log).out = .panics := by
  rw [flux_block c xs as s hr i b hb h hh hp]
  have hpos : ∀ cs : List (Call V E), ended cs = true → 1 ≤ closes c.tx cs := by
    intro cs
    induction cs with
    | nil => simp [ended]
    | cons x r ih =>
      cases x with
      | next v =>
        intro he
        have := ih (by simpa [ended, isEnd] using he)
        simp only [closes]
        split <;> omega
      | complete => intro _; simp [closes]
      | error e => intro _; simp [closes]
      | cancel => intro _; simp [closes]
  have hcan : ∀ r : List (Call V E), (r.any fun x => match x with
      | .cancel => true
      | _ => false) = true → 1 ≤ r.countP Call.isCancel := by
    intro r hr
    induction r with
    | nil => simp at hr
    | cons x r ih =>
      cases x with
      | cancel => simp [Call.isCancel]
      | next v => simpa [Call.isCancel] using ih (by simpa using hr)
      | complete => simpa [Call.isCancel] using ih (by simpa using hr)
      | error e => simpa [Call.isCancel] using ih (by simpa using hr)
  have h2 : ∀ cs : List (Call V E), refuses c.tx cs = true ∧ ended cs = true ∨ lateCancel cs = true → 2 ≤ closes c.tx cs := by
    intro cs
    induction cs with
    | nil => simp [refuses, lateCancel]
    | cons x r ih =>
      intro hx
      cases x with
      | next v =>
        simp only [closes]
        cases htx : c.tx v with
        | ok w =>
          simp only [refuses, htx, lateCancel] at hx
          exact ih (by simpa [ended, isEnd] using hx)
        | error e =>
          simp only [refuses, htx, lateCancel] at hx
          show 2 ≤ 1 + closes c.tx r
          rcases hx with hx | hx
          · have := hpos r (by simpa [ended, isEnd] using hx.2)
            omega
          · have := ih (.inr hx)
            omega
      | complete =>
        simp only [refuses, lateCancel, Bool.false_eq_true, false_and, false_or] at hx
        have := hcan r hx
        simp only [closes]; omega
      | error e =>
        simp only [refuses, lateCancel, Bool.false_eq_true, false_and, false_or] at hx
        have := hcan r hx
        simp only [closes]; omega
      | cancel =>
        simp only [refuses, lateCancel, Bool.false_eq_true, false_and, false_or] at hx
        have := hcan r hx
        simp only [closes]; omega
  have := h2 _ hbad
  unfold due
  match hn : closes c.tx (calls i s.log) with
  | 0 => omega
  | 1 => omega
  | _ + 2 => rfl

/-- `Block` on a mapper over a slice with a bad element. -/
example : (run ⟨true, .slice, inverse⟩ (init [1, 0, 2])
    [.subscribe 0 (fluxHandlers ⟨true, true, true, false, true, false⟩), .start 9 0, .ret 9, .ret 9, .ret 9, .ret 9, .ret 9,
     .ret 9, .ret 9, .ret 9, .ret 9, .ret 9, .ret 9]).map
      (fun s => ((fluxVars 0 s.log).out, s.pending, refuses inverse (calls 0 s.log), ended (calls 0 s.log))) =
    some (.panics, [], true, true) := by decide

/-! ### The shortcut -/

/-- The error that the subscription ended with, if it did. -/
def endError : List (Call V E) → Option E
  | [] => none
  | .next _ :: r => endError r
  | .error e :: _ => some e
  | _ :: _ => none

def fields (b : Subscriber E) : Bool × Option E := (b.closed, b.err)

/-- Nothing was told to subscriber `i` and its end is as before. -/
structure Still (i : Nat) (s t : State V E W) : Prop where
  calls : calls i t.log = calls i s.log
  subs : t.subs[i]?.map fields = s.subs[i]?.map fields

theorem Still.refl (i : Nat) (s : State V E W) : Still i s s := ⟨rfl, rfl⟩

theorem Still.trans {i : Nat} {s t u : State V E W} (h : Still i s t) (k : Still i t u) : Still i s u :=
  ⟨k.calls.trans h.calls, k.subs.trans h.subs⟩

theorem still_other {i : Nat} {s t : State V E W} (h1 : t.log = s.log) (h2 : t.subs = s.subs) : Still i s t :=
  ⟨by rw [h1], by rw [h2]⟩

theorem still_emit {i : Nat} (s : State V E W) {e : Ev V E W} (h : callOf i e = none) : Still i s (emit s e) :=
  ⟨by simp [emit, calls_cons, h], rfl⟩

theorem still_push (i : Nat) (s : State V E W) (g : Nat) (f : Frame) : Still i s (push s g f) := still_other rfl rfl

theorem still_setSub (i : Nat) {j : Nat} {f : Subscriber E → Subscriber E} (s : State V E W)
    (hf : j ≠ i ∨ ∀ b, fields (f b) = fields b) : Still i s (setSub s j f) := by
  refine ⟨rfl, ?_⟩
  simp only [setSub, List.getElem?_modify]
  split
  · rename_i h
    rcases hf with hf | hf
    · exact absurd h hf
    · cases s.subs[i]? <;> simp [hf]
  · cases s.subs[i]? <;> simp

theorem still_runLoop (i g : Nat) (sig : Signal) (rest : List Nat) (s : State V E W) : Still i s (runLoop g sig rest s) := by
  cases rest with
  | nil => exact .refl i s
  | cons k ks => exact (still_emit s rfl).trans (still_push i _ g _)

theorem still_startLoop (i g j : Nat) (sig : Signal) (s : State V E W) : Still i s (startLoop g j sig s) :=
  (still_emit s rfl).trans (still_runLoop i g sig _ _)

theorem still_runFinally (i g j : Nat) (sig : Signal) (h : Handlers) (s : State V E W) : Still i s (runFinally g j sig h s) := by
  unfold runFinally
  split
  · exact Still.trans (Still.trans (by exact still_setSub i s (.inr fun _ => rfl)) (still_emit _ rfl)) (still_push i _ g _)
  · exact Still.trans (by exact still_setSub i s (.inr fun _ => rfl)) (still_startLoop i g j sig _)

theorem still_callRequest (i : Nat) (src : Src) (g j : Nat) (n : Int) (f : Frame) (s : State V E W) :
    Still i s (callRequest src g j n f s) := by
  have h : Still i s (emit s (.request j n)) := still_emit s rfl
  unfold callRequest
  cases src with
  | user => exact h.trans (still_push i _ g _)
  | slice => exact (h.trans (still_push i _ g _)).trans (still_push i _ g _)
  | resp => exact (h.trans (still_push i _ g _)).trans (still_push i _ g _)

theorem still_doRequest (i : Nat) (c : Cfg V E W) (g j : Nat) (n : Int) (r : Bool) (s : State V E W) :
    Still i s (doRequest c g j n r s) := by
  unfold doRequest
  split
  · exact still_other rfl rfl
  · split
    · exact still_callRequest i _ g j n _ s
    · exact still_other rfl rfl

theorem still_request (i : Nat) (c : Cfg V E W) (g j : Nat) (n : Int) (s : State V E W) : Still i s (request c g j n s) := by
  unfold request
  split
  · exact .refl i s
  · have h : Still i s (setSub (emit s (.asked j n)) j fun b => { b with n := b.n + n }) :=
      (still_emit s rfl).trans (still_setSub i _ (.inr fun _ => rfl))
    split
    · exact h.trans (still_doRequest i c g j n true _)
    · exact h

theorem still_handle (i : Nat) (c : Cfg V E W) (g j : Nat) (h : Handlers) (s : State V E W) :
    Still i s (handleOnSubscribe c g j h s) := by
  unfold handleOnSubscribe
  split
  · exact .refl i s
  · split
    · exact (still_emit s rfl).trans (still_push i _ g _)
    · exact still_request i c g j _ s

theorem still_endNext (i : Nat) (c : Cfg V E W) (g j : Nat) (s : State V E W) : Still i s (endNext c g j s) := by
  unfold endNext
  split
  · exact .refl i s
  · split
    · exact still_handle i c g j _ s
    · exact .refl i s

theorem still_mapFinally (i : Nat) (c : Cfg V E W) (g j : Nat) (h : Handlers) (s : State V E W) :
    Still i s (mapFinally c g j h s) := by
  unfold mapFinally
  split
  · exact (still_emit s rfl).trans (still_push i _ g _)
  · exact still_endNext i c g j s

theorem still_callNext (i : Nat) (c : Cfg V E W) (g j : Nat) (v : V) (h : Handlers) (s : State V E W) :
    Still i s (callNext c g j v h s) := by
  unfold callNext
  split <;> split
  · exact (still_emit s rfl).trans (still_push i _ g _)
  · exact still_endNext i c g j s
  · exact (still_emit s rfl).trans (still_push i _ g _)
  · exact still_mapFinally i c g j h s

theorem still_notify (i g : Nat) (s : State V E W) : Still i s (notify g s) := by
  have h : Still i s { s with nextFn := s.nextFn + 1, callbacks := s.callbacks ++ [s.nextFn], log := .reg s.nextFn :: s.log } :=
    ⟨by simp [calls_cons, callOf], rfl⟩
  unfold notify
  split
  · split
    · refine Still.trans (Still.trans (Still.trans ?_ (still_emit _ rfl)) (still_emit _ rfl)) (still_push i _ g _)
      exact still_other rfl rfl
    · exact h
  · exact h

/-- The subscriber after it was told something. -/
def told (b : Bool × Option E) (x : Call V E) : Bool × Option E :=
  if b.1 then b
  else match x with
    | .next _ => b
    | .error e => (true, some e)
    | _ => (true, b.2)

theorem tell_spec (i : Nat) (c : Cfg V E W) (g j : Nat) (b : Subscriber E) (x : Call V E) (s : State V E W)
    (hb : s.subs[j]? = some b) :
    calls i (tell c g j b x s).log = calls i s.log ++ (if j = i then [x] else []) ∧
    (tell c g j b x s).subs[i]?.map fields =
      if j = i then some (told (fields b) x) else s.subs[i]?.map fields := by
  have he : calls i (emit s (.called j x)).log = calls i s.log ++ (if j = i then [x] else []) := by
    simp only [emit, calls_cons, callOf]
    split <;> rfl
  have key : ∀ (f : Subscriber E → Subscriber E) (t : State V E W), Still i (setSub (emit s (.called j x)) j f) t →
      fields (f b) = told (fields b) x →
      calls i t.log = calls i s.log ++ (if j = i then [x] else []) ∧
      t.subs[i]?.map fields = if j = i then some (told (fields b) x) else s.subs[i]?.map fields := by
    intro f t h hf
    refine ⟨h.calls.trans he, h.subs.trans ?_⟩
    simp only [setSub, emit, List.getElem?_modify]
    split
    · rename_i hij; subst hij; simp [hb, hf]
    · cases s.subs[i]? <;> rfl
  have same : b.closed = true → calls i (emit s (.called j x)).log = calls i s.log ++ (if j = i then [x] else []) ∧
      (emit s (.called j x)).subs[i]?.map fields = if j = i then some (told (fields b) x) else s.subs[i]?.map fields := by
    intro hc
    refine ⟨he, ?_⟩
    simp only [emit]
    split
    · rename_i hij; subst hij; simp [hb, told, fields, hc]
    · rfl
  unfold tell
  cases x with
  | next v =>
    simp only
    split
    · rename_i hc; exact same hc
    · rename_i hc; exact key _ _ (still_callNext i c g j v _ _) (by simp [told, fields, hc])
  | complete =>
    simp only
    split
    · rename_i hc; exact same hc
    · rename_i hc
      split
      · exact key _ _ (Still.trans (still_emit _ rfl) (still_push i _ g _)) (by simp [told, fields, hc])
      · exact key _ _ (still_runFinally i g j _ _ _) (by simp [told, fields, hc])
  | error e =>
    simp only
    split
    · rename_i hc; exact same hc
    · rename_i hc
      split
      · exact key _ _ (Still.trans (still_emit _ rfl) (still_push i _ g _)) (by simp [told, fields, hc])
      · exact key _ _ (still_runFinally i g j _ _ _) (by simp [told, fields, hc])
  | cancel =>
    have hx : told (fields b) (.cancel : Call V E) = (true, b.err) := by
      unfold told fields; split <;> simp_all
    simp only
    split
    · exact key _ _ (Still.trans (still_emit _ rfl) (still_push i _ g _)) (by rw [hx]; rfl)
    · split
      · exact key _ _ (Still.trans (still_emit _ rfl) (still_push i _ g _)) (by rw [hx]; rfl)
      · exact key _ _ (Still.refl i _) (by rw [hx]; rfl)

/-- What a subscriber knows of its end. -/
def Knows (i : Nat) (s : State V E W) : Prop :=
  match s.subs[i]? with
  | none => calls i s.log = []
  | some b => fields b = (ended (calls i s.log), endError (calls i s.log))

theorem endError_snoc (cs : List (Call V E)) (x : Call V E) :
    (ended (cs ++ [x]), endError (cs ++ [x])) = told (ended cs, endError cs) x := by
  have hn : ∀ r : List (Call V E), ended r = false → endError r = none := by
    intro r
    induction r with
    | nil => intro _; rfl
    | cons y r ih =>
      cases y with
      | next v => intro h; exact ih (by simpa [ended, isEnd] using h)
      | complete => intro _; rfl
      | error e => intro h; simp [ended, isEnd] at h
      | cancel => intro _; rfl
  induction cs with
  | nil => cases x <;> simp [ended, isEnd, endError, told]
  | cons y r ih =>
    cases y with
    | next v => simpa [ended, isEnd, endError, told] using ih
    | complete => simp [ended, isEnd, endError, told]
    | error e => simp [ended, isEnd, endError, told]
    | cancel => simp [ended, isEnd, endError, told]

theorem knows_still {i : Nat} {s t : State V E W} (h : Knows i s) (k : Still i s t) : Knows i t := by
  unfold Knows at *
  rw [k.calls]
  have := k.subs
  cases hs : s.subs[i]? with
  | none =>
    rw [hs] at this h
    cases ht : t.subs[i]? with
    | none => exact h
    | some b => rw [ht] at this; cases this
  | some b =>
    rw [hs] at this h
    cases ht : t.subs[i]? with
    | none => rw [ht] at this; cases this
    | some b' => rw [ht] at this; simp only [Option.map_some, Option.some.injEq] at this; simp only; rw [this]; exact h

theorem knows_tell {i : Nat} {c : Cfg V E W} {g j : Nat} {b : Subscriber E} {x : Call V E} {s : State V E W} (h : Knows i s)
    (hb : s.subs[j]? = some b) : Knows i (tell c g j b x s) := by
  obtain ⟨h1, h2⟩ := tell_spec i c g j b x s hb
  by_cases hij : j = i
  · subst hij
    simp only [if_true] at h1 h2
    unfold Knows at *
    rw [hb] at h
    cases ht : (tell c g j b x s).subs[j]? with
    | none => rw [ht] at h2; cases h2
    | some b' =>
      rw [ht] at h2
      simp only [Option.map_some, Option.some.injEq] at h2
      simp only
      rw [h2, h1, endError_snoc]
      simp only at h
      rw [h]
  · simp only [if_neg hij, List.append_nil] at h1 h2
    exact knows_still h ⟨h1, h2⟩

theorem knows_proceed {c : Cfg V E W} {i g : Nat} {f : Frame} {s s' : State V E W} (h : Knows i s)
    (hp : proceed c g f s = some s') : Knows i s' := by
  cases f with
  | afterSource j =>
    simp only [proceed, Option.map_eq_some_iff] at hp
    obtain ⟨b, _, rfl⟩ := hp
    exact knows_still h (still_handle i c g j _ s)
  | afterNext j =>
    simp only [proceed, Option.some.injEq] at hp
    subst hp
    exact knows_still h (still_endNext i c g j s)
  | afterMapError j =>
    simp only [proceed, Option.map_eq_some_iff] at hp
    obtain ⟨b, hb, rfl⟩ := hp
    exact knows_still h (still_mapFinally i c g j _ s)
  | afterSig j sig =>
    simp only [proceed, Option.map_eq_some_iff] at hp
    obtain ⟨b, hb, rfl⟩ := hp
    exact knows_still h (still_runFinally i g j sig _ s)
  | afterFin j sig =>
    simp only [proceed, Option.some.injEq] at hp
    subst hp
    exact knows_still h (still_startLoop i g j sig s)
  | loop sig rest =>
    simp only [proceed, Option.some.injEq] at hp
    subst hp
    exact knows_still h (still_runLoop i g sig rest s)
  | afterCancel j =>
    simp only [proceed, Option.map_eq_some_iff] at hp
    obtain ⟨b, hb, rfl⟩ := hp
    split
    · exact knows_still h ((still_emit s rfl).trans (still_push i _ g _))
    · exact h
  | sliceLoop j n =>
    simp only [proceed, Option.map_eq_some_iff] at hp
    obtain ⟨b, hb, rfl⟩ := hp
    unfold sliceRound
    split
    · exact knows_tell h hb
    · rename_i vs _
      split
      · have k : Still i s (push { s with values := vs } g (.sliceLoop j (n - 1))) := still_other rfl rfl
        exact knows_tell (knows_still h k) hb
      · exact h
  | respLoop j num k =>
    simp only [proceed, Option.map_eq_some_iff] at hp
    obtain ⟨b, hb, rfl⟩ := hp
    unfold respRound
    split
    · split
      · have k : Still i s (push s g (.respLoop j num (k + 1))) := still_other rfl rfl
        exact knows_tell (knows_still h k) hb
      · exact knows_still h (still_other rfl rfl)
    · split
      · split
        · exact knows_tell (s := { s with values := _ }) (knows_still h (still_other rfl rfl)) hb
        · exact knows_still h (still_other rfl rfl)
      · exact knows_still h (still_other rfl rfl)
  | unlock j => simp only [proceed, Option.some.injEq] at hp; subst hp; exact h
  | leaf => simp only [proceed, Option.some.injEq] at hp; subst hp; exact h

theorem knows_addSub {i : Nat} {s : State V E W} (h : Knows i s) (hd : Handlers) (r : Bool) : Knows i (addSub hd r s) := by
  have e1 : calls i (addSub hd r s).log = calls i s.log := by simp [addSub, calls_cons, callOf]
  unfold Knows at *
  rw [e1]
  cases hs : s.subs[i]? with
  | none =>
    simp only [hs] at h
    by_cases hi : i = s.subs.length
    · subst hi
      have hn : (addSub hd r s).subs[s.subs.length]? = some ⟨false, 0, none, r, false, .complete, hd⟩ := by simp [addSub]
      rw [hn, h]
      rfl
    · have : (addSub hd r s).subs[i]? = none := by
        rw [List.getElem?_eq_none_iff] at hs ⊢
        simp only [addSub, List.length_append, List.length_cons, List.length_nil]
        omega
      rw [this]
      exact h
  | some b =>
    have hl : i < s.subs.length := (List.getElem?_eq_some_iff.mp hs).1
    have : (addSub hd r s).subs[i]? = some b := by
      simp only [addSub]
      rw [List.getElem?_append_left hl, hs]
    rw [this]
    simpa only [hs] using h

theorem knows_onSubscribe {c : Cfg V E W} {i g j : Nat} {r k : Bool} {s s' : State V E W} (h : Knows i s)
    (hs : onSubscribe c g j r k s = some s') : Knows i s' := by
  unfold onSubscribe at hs
  split at hs
  · cases hs
  · have k1 : Still i s (setSub s j fun b => { b with hasRequest := r, hasCancel := k }) :=
      still_setSub i s (Or.inr fun _ => rfl)
    split at hs
    · cases hs; exact h
    · split at hs
      · cases hs; exact knows_still h (k1.trans (still_doRequest i c g j _ _ _))
      · cases hs; exact knows_still h k1

theorem knows_step {c : Cfg V E W} {i : Nat} {a : Action V E} {s s' : State V E W} (h : Knows i s)
    (hs : step c s a = some s') : Knows i s' := by
  unfold step at hs
  split at hs
  · cases hs
  · cases a with
    | subscribe g hd =>
      simp only [Option.some.injEq] at hs
      subst hs
      unfold subscribe
      split
      · exact knows_still (knows_addSub h hd false) (still_push i _ g _)
      · exact knows_still (knows_addSub h hd true) (still_handle i c g _ hd _)
    | notify g =>
      simp only [Option.some.injEq] at hs
      subst hs
      exact knows_still h (still_notify i g s)
    | signal g j x =>
      simp only at hs
      split at hs
      · unfold signal at hs
        split at hs
        · cases hs
        · rename_i b hb
          simp only [Option.some.injEq] at hs
          subst hs
          exact knows_tell h hb
      · cases hs
    | onSubscribe g j r k =>
      simp only at hs
      split at hs
      · exact knows_onSubscribe h hs
      · cases hs
    | request g j n =>
      simp only at hs
      split at hs
      · cases hs; exact knows_still h (still_request i c g j n s)
      · cases hs
    | start g j =>
      simp only [start] at hs
      split at hs
      · cases hs
      · split at hs
        · cases hs
        · split at hs
          · cases hs
          · split at hs
            · cases hs
              have k0 : Still i s { s with spawned := s.spawned.eraseIdx j } := still_other rfl rfl
              exact knows_still h (k0.trans (still_callRequest i _ g _ _ _ _))
            · cases hs; exact knows_still h (still_other rfl rfl)
    | ret g =>
      simp only [resume] at hs
      split at hs
      · cases hs
      · rename_i f r hp
        have k0 : Still i s { s with pending := r } := still_other rfl rfl
        exact knows_proceed (knows_still h k0) hs

theorem knows_run {c : Cfg V E W} {i : Nat} (as : List (Action V E)) : ∀ {s s' : State V E W}, Knows i s →
    run c s as = some s' → Knows i s' := by
  induction as with
  | nil => intro s s' h hr; cases hr; exact h
  | cons a as ih =>
    intro s s' h hr
    simp only [run] at hr
    split at hr
    · cases hr
    · rename_i t ht
      exact ih (knows_step h ht) hr

/-- **C118** The shortcut, on a flux whose last subscription has ended: the error it ended with, or nil, without another
subscription; if it has not ended `Block` subscribes. -/
theorem flux_block_again (c : Cfg V E V) (xs : List V) (as : List (Action V E)) (s : State V E V)
    (hr : run c (init xs) as = some s) (i : Nat) (hc : s.current = some i) (b : Subscriber E) (hb : s.subs[i]? = some b) :
    fluxShortcut s = if ended (calls i s.log) then some (.returns none (endError (calls i s.log))) else none := by
  have h : Knows i s := knows_run as (show Knows i (init xs) from rfl) hr
  unfold Knows at h
  simp only [hb, fields, Prod.mk.injEq] at h
  unfold fluxShortcut
  simp [hc, hb, h.1, h.2]

/-- **C118** is false for a flux that nobody has subscribed to yet: `Block` crashes, whatever the source and whatever
happened before. -/
theorem flux_block_fresh_refuted (c : Cfg V E V) (xs : List V) (as : List (Action V E)) (s : State V E V)
    (hr : run c (init xs) as = some s) (hs : ∀ a ∈ as, ∀ g h, a ≠ .subscribe g h) : fluxShortcut s = some .panics := by
  have key : ∀ (as : List (Action V E)) (s t : State V E V), (∀ a ∈ as, ∀ g h, a ≠ .subscribe g h) →
      s.subs = [] ∧ s.current = none ∧ s.pending = [] ∧ s.spawned = [] → run c s as = some t → t.current = none := by
    intro as
    induction as with
    | nil => intro s t _ h hr; cases hr; exact h.2.1
    | cons a as ih =>
      intro s t hn h hr
      obtain ⟨h1, h2, h3, h4⟩ := h
      simp only [run] at hr
      split at hr
      · cases hr
      · rename_i m hm
        refine ih m t (fun x hx => hn x (List.mem_cons_of_mem _ hx)) ?_ hr
        unfold step at hm
        split at hm
        · cases hm
        · cases a with
          | subscribe g hd => exact absurd rfl (hn _ List.mem_cons_self g hd)
          | notify g =>
            simp only [Option.some.injEq, notify, h2, Option.bind_none] at hm
            subst hm
            exact ⟨h1, rfl, h3, h4⟩
          | signal g j x => simp [signal, h1] at hm
          | onSubscribe g j r k => simp [onSubscribe, h1] at hm
          | request g j n => simp [h1] at hm
          | start g j => simp [start, h4] at hm
          | ret g => simp [resume, h3, pop] at hm
  have := key as _ s hs ⟨rfl, rfl, rfl, rfl⟩ hr
  unfold fluxShortcut
  rw [this]
  rfl

/-- A flux that failed, and one that nobody has subscribed to. -/
example : ((run (V := Nat) (E := String) (plain false .user) (init [])
      [.subscribe 0 all, .ret 0, .signal 0 0 (.next 1), .ret 0, .signal 0 0 (.error "boom"), .ret 0, .ret 0]).map fluxShortcut,
    (run (V := Nat) (E := String) (plain true .slice) (init [1]) [.notify 0]).map fluxShortcut) =
    (some (some (.returns none (some "boom"))), some (some .panics)) := by decide

end Flux

/-! ## C119: answers to calls -/

section Proxy
open Iota.Mono Iota.Spec.Mono Iota.Lemmas.Mono Iota.Props.Mono

/-- The user subscribes or blocks. -/
def isSub : Act V E → Bool
  | .subscribe _ _ => true
  | .block _ => true
  | _ => false

def isAsync : Act V E → Bool
  | .async _ => true
  | _ => false

/-- How many requests a proxy should send: one for every subscription, and one for the first time it is awaited if
nobody has subscribed before. -/
def requests : Bool → List (Act V E) → Nat
  | _, [] => 0
  | b, a :: r =>
    if isSub a then 1 + requests true r
    else if isAsync a && !b then 1 + requests true r
    else requests b r

theorem proc_fields {x y : Proxy V E} {a : PAction V E} (h : x.proc a = some y) :
    x.p.step a = some y.p ∧ y.subscribed = x.subscribed ∧ y.sent = x.sent ∧ y.registered = x.registered := by
  unfold Proxy.proc at h
  split at h
  · cases h
  · rename_i p hp; cases h; exact ⟨hp, rfl, rfl, rfl⟩

theorem subscribe_fields {x y : Proxy V E} {g : Nat} {h : Handlers} (hs : x.subscribe g h = some y) :
    x.p.subscribe g h = some y.p ∧ y.subscribed = true ∧ y.sent = x.sent + 1 ∧ y.registered = x.registered + 1 := by
  unfold Proxy.subscribe at hs
  split at hs
  · cases hs
  · rename_i p hp; cases hs; exact ⟨hp, rfl, rfl, rfl⟩

/-- What the user, the connection and the callbacks may do leads to a run of the processor. -/
theorem step_cases {x y : Proxy V E} {a : Act V E} (h : x.step a = some y) :
    (y = x ∧ isSub a = false ∧ (isAsync a && !x.subscribed) = false) ∨
    (∃ pa, x.p.step pa = some y.p ∧ isSubscribe pa = false ∧ isSub a = false ∧ isAsync a = false ∧
      y.subscribed = x.subscribed ∧ y.sent = x.sent ∧ y.registered = x.registered) ∨
    (∃ g hd, x.p.step (.subscribe g hd) = some y.p ∧ y.subscribed = true ∧ y.sent = x.sent + 1 ∧
      y.registered = x.registered + 1 ∧ (isSub a = true ∨ isAsync a = true ∧ x.subscribed = false)) := by
  cases a with
  | subscribe g hd =>
    obtain ⟨h1, h2, h3, h4⟩ := subscribe_fields h
    exact .inr (.inr ⟨g, hd, h1, h2, h3, h4, .inl rfl⟩)
  | block g =>
    obtain ⟨h1, h2, h3, h4⟩ := subscribe_fields h
    exact .inr (.inr ⟨g, _, h1, h2, h3, h4, .inl rfl⟩)
  | async g =>
    simp only [Proxy.step] at h
    split at h
    · rename_i hs; cases h; exact .inl ⟨rfl, rfl, by simp [hs]⟩
    · rename_i hs
      obtain ⟨h1, h2, h3, h4⟩ := subscribe_fields h
      exact .inr (.inr ⟨g, _, h1, h2, h3, h4, .inr ⟨rfl, by simpa using hs⟩⟩)
  | notify g => obtain ⟨h1, h2⟩ := proc_fields (x := x) (y := y) (a := .notify g) h; exact .inr (.inl ⟨_, h1, rfl, rfl, rfl, h2⟩)
  | onNext g v => obtain ⟨h1, h2⟩ := proc_fields h; exact .inr (.inl ⟨_, h1, rfl, rfl, rfl, h2⟩)
  | onComplete => cases h; exact .inl ⟨rfl, rfl, rfl⟩
  | onError g e => obtain ⟨h1, h2⟩ := proc_fields h; exact .inr (.inl ⟨_, h1, rfl, rfl, rfl, h2⟩)
  | ret g => obtain ⟨h1, h2⟩ := proc_fields h; exact .inr (.inl ⟨_, h1, rfl, rfl, rfl, h2⟩)

/-- **C119** What a proxy sends, in every run: a request (and a registration of its stream) for every subscription and
every call of `Block`, and one for the first time it is awaited before any of these. -/
theorem proxy_requests (as : List (Act V E)) (x : Proxy V E) (h : Proxy.new.run as = some x) :
    x.sent = requests false as ∧ x.registered = x.sent := by
  have key : ∀ (as : List (Act V E)) (x y : Proxy V E), x.run as = some y →
      y.sent = x.sent + requests x.subscribed as ∧ y.registered + x.sent = x.registered + y.sent := by
    intro as
    induction as with
    | nil => intro x y h; cases h; exact ⟨rfl, rfl⟩
    | cons a as ih =>
      intro x y h
      simp only [Proxy.run, Option.bind_eq_some_iff] at h
      obtain ⟨m, h1, h2⟩ := h
      obtain ⟨i1, i2⟩ := ih m y h2
      rcases step_cases h1 with ⟨rfl, e1, e2⟩ | ⟨_, _, _, e1, e2, e3, e4, e5⟩ | ⟨_, _, _, e1, e2, e3, e4⟩
      · simp [requests, e1, e2, i1, i2]
      · rw [e3] at i1
        simp only [requests, e1, e2, Bool.false_and, Bool.false_eq_true, if_false]
        omega
      · rw [e1] at i1
        have : requests x.subscribed (a :: as) = 1 + requests true as := by
          rcases e4 with e4 | ⟨e4, e5⟩
          · simp [requests, e4]
          · simp [requests, e4, e5]
        omega
  obtain ⟨h1, h2⟩ := key as _ x h
  exact ⟨by simpa [Proxy.new] using h1, by simpa [Proxy.new] using h2⟩

/-- **C119** (part) If the user uses the result once, by one subscription or `Block`, or by awaiting it, and afterwards at
most awaits it, exactly one request is sent. Missing: results that are used again. -/
theorem proxy_once_partial (pre post : List (Act V E)) (a : Act V E) (x : Proxy V E)
    (h : Proxy.new.run (pre ++ a :: post) = some x) (ha : isSub a = true ∨ isAsync a = true)
    (hpre : ∀ b ∈ pre, isSub b = false ∧ isAsync b = false) (hpost : ∀ b ∈ post, isSub b = false) : x.sent = 1 := by
  rw [(proxy_requests _ x h).1]
  have h2 : ∀ post : List (Act V E), (∀ b ∈ post, isSub b = false) → requests true post = 0 := by
    intro post
    induction post with
    | nil => intro _; rfl
    | cons b r ih =>
      intro hb
      simp [requests, hb b List.mem_cons_self, ih fun c hc => hb c (List.mem_cons_of_mem _ hc)]
  induction pre with
  | nil =>
    simp only [List.nil_append, requests, h2 post hpost]
    rcases ha with ha | ha <;> simp [ha]
  | cons b r ih =>
    have hb := hpre b List.mem_cons_self
    simp only [List.cons_append, requests, hb.1, hb.2, Bool.false_and, Bool.false_eq_true, if_false]
    have key : ∀ r : List (Act V E), (∀ b ∈ r, isSub b = false ∧ isAsync b = false) →
        requests false (r ++ a :: post) = 1 := by
      intro r
      induction r with
      | nil =>
        intro _
        simp only [List.nil_append, requests, h2 post hpost]
        rcases ha with ha | ha <;> simp [ha]
      | cons c r ih' =>
        intro hc
        have h0 := hc c List.mem_cons_self
        simp only [List.cons_append, requests, h0.1, h0.2, Bool.false_and, Bool.false_eq_true, if_false]
        exact ih' fun d hd => hc d (List.mem_cons_of_mem _ hd)
    exact key r fun c hc => hpre c (List.mem_cons_of_mem _ hc)

/-- **C119** is false for results that are used again: every subscription and every call of `Block` sends the request
again, with the same stream, whether the answer had come or not. -/
theorem proxy_again_refuted (as : List (Act V E)) (x : Proxy V E) (h : Proxy.new.run as = some x) :
    as.countP isSub ≤ x.sent := by
  rw [(proxy_requests as x h).1]
  have key : ∀ (as : List (Act V E)) (b : Bool), as.countP isSub ≤ requests b as := by
    intro as
    induction as with
    | nil => intro b; simp [requests]
    | cons a r ih =>
      intro b
      simp only [List.countP_cons, requests]
      have h1 := ih true
      have h2 := ih b
      split
      · omega
      · split <;> omega
  exact key as false

/-- `Block` a second time after the answer: a second request, and the call waits for a second answer. -/
example : ((Proxy.new (V := Nat) (E := String)).run [.block 7, .onNext 0 5, .ret 0, .block 8]).map
      (fun x => (x.sent, (monoVars 0 x.p.m.log).out, (monoVars 1 x.p.m.log).out)) =
    some (2, .returns (some 5) none, .waits) := by decide

/-! ### Which call gets the answer -/

theorem first_emit (i : Nat) (e : Ev V E W) (s : State V E W) (h : ∀ o, e ≠ .called i o) :
    firstOutcome i (emit s e).log = firstOutcome i s.log := by
  simp only [emit, firstOutcome]
  cases firstOutcome i s.log with
  | some o => rfl
  | none =>
    cases e <;> simp
    rename_i j o
    intro hj
    subst hj
    exact absurd rfl (h o)

theorem first_signal_other {tx : V → Except E W} {i j g : Nat} {o : Outcome V E} {s s' : State V E W} (hij : j ≠ i)
    (h : signal tx g j o s = some s') : firstOutcome i s'.log = firstOutcome i s.log := by
  have h0 : firstOutcome i (Ev.called j o :: s.log) = firstOutcome i s.log :=
    first_emit i (.called j o) s (fun o' he => hij (by injection he))
  unfold signal at h
  split at h
  · cases h
  · split at h
    · cases h; exact h0
    · cases o with
      | success v => cases h; rw [first_callSuccess]; exact h0
      | error e => cases h; rw [first_callError]; exact h0
      | cancel => cases h; rw [first_runFinally]; exact h0

theorem len_loop (g : Nat) (sg : Signal) (r : List Nat) (s : State V E W) : (runLoop g sg r s).subs.length = s.subs.length := by
  cases r <;> rfl

theorem len_finally (g j : Nat) (sg : Signal) (h : Handlers) (s : State V E W) :
    (runFinally g j sg h s).subs.length = s.subs.length := by
  unfold runFinally
  split
  · simp [push, emit, setSub]
  · simp [startLoop, len_loop, emit, setSub]

theorem len_signal {tx : V → Except E W} {g j : Nat} {o : Outcome V E} {s s' : State V E W}
    (h : signal tx g j o s = some s') : s'.subs.length = s.subs.length := by
  unfold signal at h
  split at h
  · cases h
  · split at h
    · cases h; rfl
    · cases o with
      | success v =>
        cases h
        unfold callSuccess
        split <;> split <;> simp [push, emit, setSub, len_finally]
      | error e =>
        cases h
        unfold callError
        split <;> simp [push, emit, setSub, len_finally]
      | cancel => cases h; simp [len_finally, setSub, emit]

theorem len_resume {g : Nat} {s s' : State V E W} (h : resume g s = some s') : s'.subs.length = s.subs.length := by
  unfold resume at h
  split at h
  · cases h
  · split at h
    · split at h
      · cases h
      · cases h; simp [len_finally]
    · cases h; simp [startLoop, len_loop, emit]
    · cases h; simp [len_loop]
    · cases h; rfl

theorem len_notify (g : Nat) (s : State V E W) : (notify g s).subs.length = s.subs.length := by
  unfold notify
  split
  · split <;> rfl
  · rfl

/-- The sink of a processor is its last subscriber. -/
def Last (p : Proc V E) : Prop := match p.sink with
  | none => p.m.subs = []
  | some k => k + 1 = p.m.subs.length

theorem old_step {p q : Proc V E} {a : PAction V E} (h : p.step a = some q) (hl : Last p) (i : Nat) :
    Last q ∧ p.m.subs.length ≤ q.m.subs.length ∧
    (i + 1 < p.m.subs.length ∨ i < p.m.subs.length ∧ isSubscribe a = true →
      firstOutcome i q.m.log = firstOutcome i p.m.log) ∧ Later i p.m q.m := by
  have hfw : ∀ {p q : Proc V E} {g j : Nat} {o : Outcome V E}, p.forward g j o = some q → p.sink = some j → Last p →
      Last q ∧ p.m.subs.length = q.m.subs.length ∧ (j ≠ i → firstOutcome i q.m.log = firstOutcome i p.m.log) ∧
      Later i p.m q.m := by
    intro p q g j o hf hk hl
    unfold Proc.forward at hf
    split at hf
    · rename_i m hm
      cases hf
      have hlen := len_signal hm
      refine ⟨?_, hlen.symm, fun hij => first_signal_other hij hm, later_signal .ok i g j o _ _ hm⟩
      unfold Last at *
      simp only [hk] at hl ⊢
      rw [hlen]
      exact hl
    · cases hf
  have hpush : ∀ {g : Nat} {o : Outcome V E} {k : Nat}, p.forward g k o = some q → p.sink = some k →
      Last q ∧ p.m.subs.length ≤ q.m.subs.length ∧
      (i + 1 < p.m.subs.length ∨ i < p.m.subs.length ∧ false = true → firstOutcome i q.m.log = firstOutcome i p.m.log) ∧
      Later i p.m q.m := by
    intro g o k hf hk
    obtain ⟨h1, h2, h3, h4⟩ := hfw hf hk hl
    refine ⟨h1, by omega, fun hi => h3 ?_, h4⟩
    unfold Last at hl
    simp only [hk] at hl
    rcases hi with hi | hi
    · omega
    · exact absurd hi.2 (by simp)
  cases a with
  | subscribe g hd =>
    simp only [Proc.step, Proc.subscribe] at h
    have hadd : Last { p with sink := some p.m.subs.length, m := addSub hd p.m } := by simp [Last, addSub]
    have hf0 : firstOutcome i (addSub hd p.m).log = firstOutcome i p.m.log := by
      simp only [addSub, firstOutcome]; cases firstOutcome i p.m.log <;> rfl
    have hle : p.m.subs.length ≤ (addSub hd p.m).subs.length := by simp [addSub]
    have go : ∀ {o : Outcome V E}, Proc.forward { p with sink := some p.m.subs.length, m := addSub hd p.m } g p.m.subs.length o =
        some q → Last q ∧ p.m.subs.length ≤ q.m.subs.length ∧
        (i + 1 < p.m.subs.length ∨ i < p.m.subs.length ∧ isSubscribe (PAction.subscribe g hd : PAction V E) = true →
          firstOutcome i q.m.log = firstOutcome i p.m.log) ∧ Later i p.m q.m := by
      intro o hf
      obtain ⟨h1, h2, h3, h4⟩ := hfw hf rfl hadd
      refine ⟨h1, by simp only at h2; omega, fun hi => ?_, (later_addSub i hd p.m).trans h4⟩
      rw [h3 (by omega)]
      exact hf0
    split at h
    · exact go h
    · split at h
      · exact go h
      · cases h; exact ⟨hadd, hle, fun _ => hf0, later_addSub i hd p.m⟩
  | notify g =>
    cases h
    refine ⟨?_, by simp [len_notify], fun _ => first_notify i g p.m, later_notify i g p.m⟩
    unfold Last at *
    split at hl <;> simp_all [len_notify]
    have := len_notify g p.m
    rw [hl] at this
    simpa using this
  | pushSuccess g v =>
    simp only [Proc.step, Proc.pushSuccess] at h
    split at h
    · rename_i k hk; exact hpush h hk
    · cases h; exact ⟨hl, Nat.le_refl _, fun _ => rfl, .refl i _⟩
  | pushError g e =>
    simp only [Proc.step, Proc.pushError] at h
    split at h
    · rename_i k hk; exact hpush h hk
    · cases h; exact ⟨hl, Nat.le_refl _, fun _ => rfl, .refl i _⟩
  | ret g =>
    simp only [Proc.step] at h
    split at h
    · rename_i m hm
      cases h
      have hlen := len_resume hm
      refine ⟨?_, by simp only; omega, fun _ => first_resume hm, later_resume i g _ _ hm⟩
      unfold Last at *
      split at hl
      · rename_i hk
        simp only [hk]
        rw [hl] at hlen
        simpa using hlen
      · rename_i k hk
        simp only [hk]
        omega
    · cases h

/-- What the subscriptions of a proxy keep to, over any run. -/
theorem proxy_run (as : List (Act V E)) (x y : Proxy V E) (h : x.run as = some y) (hl : Last x.p) (i : Nat) :
    Last y.p ∧ x.p.m.subs.length ≤ y.p.m.subs.length ∧
    (i + 1 < x.p.m.subs.length → firstOutcome i y.p.m.log = firstOutcome i x.p.m.log) ∧ Later i x.p.m y.p.m ∧
    (InvI .ok i x.p.m → InvI .ok i y.p.m) := by
  induction as generalizing x with
  | nil => cases h; exact ⟨hl, Nat.le_refl _, fun _ => rfl, .refl i _, fun h => h⟩
  | cons a as ih =>
    simp only [Proxy.run, Option.bind_eq_some_iff] at h
    obtain ⟨m, h1, h2⟩ := h
    have : Last m.p ∧ x.p.m.subs.length ≤ m.p.m.subs.length ∧
        (i + 1 < x.p.m.subs.length → firstOutcome i m.p.m.log = firstOutcome i x.p.m.log) ∧ Later i x.p.m m.p.m ∧
        (InvI .ok i x.p.m → InvI .ok i m.p.m) := by
      rcases step_cases h1 with ⟨rfl, _⟩ | ⟨_, e, _⟩ | ⟨_, _, e, _⟩
      · exact ⟨hl, Nat.le_refl _, fun _ => rfl, .refl i _, fun h => h⟩
      · obtain ⟨f1, f2, f3, f4⟩ := old_step e hl i
        exact ⟨f1, f2, fun hi => f3 (.inl hi), f4, fun h => Proc.InvI_step h e⟩
      · obtain ⟨f1, f2, f3, f4⟩ := old_step e hl i
        exact ⟨f1, f2, fun hi => f3 (.inl hi), f4, fun h => Proc.InvI_step h e⟩
    obtain ⟨f1, f2, f3, f4, f5⟩ := this
    obtain ⟨g1, g2, g3, g4, g5⟩ := ih m h2 f1
    exact ⟨g1, by omega, fun hi => (g3 (by omega)).trans (f3 hi), f4.trans g4, fun h => g5 (f5 h)⟩

/-- **C119** A call of `Block` on the result of a call, in every run: it waits, or returns what its subscription was
given first. -/
theorem proxy_block (as : List (Act V E)) (x : Proxy V E) (h : Proxy.new.run as = some x) (i : Nat) (b : Sub V E)
    (hb : x.p.m.subs[i]? = some b) (hh : b.h = monoHandlers) :
    (monoVars i x.p.m.log).out = wanted .ok (firstOutcome i x.p.m.log) :=
  out_of_inv .ok x.p.m i ((proxy_run as _ x h rfl i).2.2.2.2 (InvI_init .ok i)) b hb hh

/-- **C119** is false for a result that is used by two: when a second subscription (or `Block`) comes before the answer,
the first call of `Block` waits for ever, whatever answers arrive. -/
theorem proxy_overtaken_refuted (as more : List (Act V E)) (x y : Proxy V E) (h : Proxy.new.run as = some x) (i : Nat)
    (b : Sub V E) (hb : x.p.m.subs[i]? = some b) (hh : b.h = monoHandlers) (hi : i + 1 < x.p.m.subs.length)
    (ho : firstOutcome i x.p.m.log = none) (hm : x.run more = some y) : (monoVars i y.p.m.log).out = .waits := by
  have hx := proxy_run as _ x h rfl i
  obtain ⟨_, _, h3, h4, h5⟩ := proxy_run more x y hm hx.1 i
  obtain ⟨b', hb', hh'⟩ := h4.subs b hb
  rw [out_of_inv .ok y.p.m i (h5 (hx.2.2.2.2 (InvI_init .ok i))) b' hb' (hh'.trans hh), h3 hi, ho]
  rfl

/-- Two calls of `Block` before the answer, and two answers. -/
example : ((Proxy.new (V := Nat) (E := String)).run [.block 7, .block 8]).map
      (fun x => (x.p.m.subs.map (·.h), firstOutcome 0 x.p.m.log)) = some ([monoHandlers, monoHandlers], none) ∧
    ((Proxy.new (V := Nat) (E := String)).run [.block 7, .block 8, .onNext 0 5, .ret 0, .onNext 0 6]).map
      (fun x => ((monoVars 0 x.p.m.log).out, (monoVars 1 x.p.m.log).out)) = some (.waits, .returns (some 5) none) := by
  decide

/-- An answer of the connection. -/
def answer : Act V E → Option (Outcome V E)
  | .onNext _ v => some (.success v)
  | .onError _ e => some (.error e)
  | _ => none

/-- What a step that is no subscription means to the processor. -/
def asProc : Act V E → List (PAction V E)
  | .notify g => [.notify g]
  | .onNext g v => [.pushSuccess g v]
  | .onError g e => [.pushError g e]
  | .ret g => [.ret g]
  | _ => []

theorem run_asProc (as : List (Act V E)) (x y : Proxy V E) (h : x.run as = some y)
    (hs : ∀ a ∈ as, isSub a = false) (ha : x.subscribed = true ∨ ∀ a ∈ as, isAsync a = false) :
    x.p.run (as.flatMap asProc) = some y.p := by
  induction as generalizing x with
  | nil => cases h; rfl
  | cons a as ih =>
    simp only [Proxy.run, Option.bind_eq_some_iff] at h
    obtain ⟨m, h1, h2⟩ := h
    rw [List.flatMap_cons, Proc.run_append]
    have hs' : ∀ b ∈ as, isSub b = false := fun b hb => hs b (List.mem_cons_of_mem _ hb)
    have ha' : x.subscribed = true ∨ ∀ b ∈ as, isAsync b = false := ha.imp (fun h => h) fun h b hb => h b (List.mem_cons_of_mem _ hb)
    have proc : ∀ {pa : PAction V E}, x.proc pa = some m → asProc a = [pa] →
        (x.p.run (asProc a)).bind (fun q => q.run (as.flatMap asProc)) = some y.p := by
      intro pa hp he
      obtain ⟨e1, e2, _⟩ := proc_fields hp
      rw [he]
      simp only [Proc.run, e1, Option.bind_some]
      exact ih m h2 hs' (by rw [e2]; exact ha')
    cases a with
    | subscribe g hd => exact absurd (hs _ List.mem_cons_self) (by simp [isSub])
    | block g => exact absurd (hs _ List.mem_cons_self) (by simp [isSub])
    | async g =>
      rcases ha with ha | ha
      · simp only [Proxy.step, ha, if_true] at h1
        cases h1
        exact ih x h2 hs' (.inl ha)
      · exact absurd (ha _ List.mem_cons_self) (by simp [isAsync])
    | notify g => exact proc (pa := .notify g) h1 rfl
    | onNext g v => exact proc h1 rfl
    | onComplete => cases h1; exact ih x h2 hs' ha'
    | onError g e => exact proc h1 rfl
    | ret g => exact proc h1 rfl

/-- **C119** (part) The only use of a result is one call of `Block`: it returns the first answer that the connection
delivers after it, whatever arrives later and however the result is awaited, and waits as long as there is none.
Missing: results that are used again. -/
theorem proxy_answer_partial (pre post : List (Act V E)) (g : Nat) (x : Proxy V E)
    (h : Proxy.new.run (pre ++ .block g :: post) = some x)
    (hpre : ∀ a ∈ pre, isSub a = false ∧ isAsync a = false ∧ answer a = none) (hpost : ∀ a ∈ post, isSub a = false) :
    (monoVars 0 x.p.m.log).out = wanted .ok (post.filterMap answer).head? := by
  have hsplit : ∀ (k l : List (Act V E)) (u : Proxy V E), u.run (k ++ l) = (u.run k).bind fun v => v.run l := by
    intro k l
    induction k with
    | nil => intro u; rfl
    | cons a k ih =>
      intro u
      simp only [List.cons_append, Proxy.run]
      cases u.step a with
      | none => rfl
      | some v => simp [ih]
  have hall := h
  rw [hsplit] at h
  obtain ⟨y, h1, h2⟩ := Option.bind_eq_some_iff.mp h
  simp only [Proxy.run, Option.bind_eq_some_iff] at h2
  obtain ⟨z, h2, h3⟩ := h2
  have r1 := run_asProc pre _ y h1 (fun a ha => (hpre a ha).1) (.inr fun a ha => (hpre a ha).2.1)
  obtain ⟨e1, e2, _⟩ := subscribe_fields h2
  have r3 := run_asProc post z x h3 hpost (.inl e2)
  have hrun : Proc.init.run (pre.flatMap asProc ++ .subscribe g monoHandlers :: post.flatMap asProc) = some x.p := by
    rw [Proc.run_append]
    refine Option.bind_eq_some_iff.mpr ⟨y.p, r1, ?_⟩
    simp only [Proc.run]
    exact Option.bind_eq_some_iff.mpr ⟨z.p, e1, r3⟩
  have hno : ∀ (l : List (Act V E)), ∀ a ∈ l.flatMap asProc, isSubscribe a = false := by
    intro l a ha
    obtain ⟨b, _, hb⟩ := List.mem_flatMap.mp ha
    cases b <;> simp [asProc] at hb <;> subst hb <;> rfl
  have hpush : ∀ l : List (Act V E), (l.flatMap asProc).filterMap pushed = l.filterMap answer := by
    intro l
    induction l with
    | nil => rfl
    | cons a l ih =>
      rw [List.flatMap_cons, List.filterMap_append, ih, List.filterMap_cons]
      cases a <;> rfl
  have hnone : pre.filterMap answer = [] := by
    rw [List.filterMap_eq_nil_iff]
    exact fun a ha => (hpre a ha).2.2
  have hfirst := processor_first_partial _ _ g monoHandlers x.p (hno pre) (hno post) (by rw [hpush, hnone]; simp) hrun
  have hfp : firstPush (pre.flatMap asProc ++ post.flatMap asProc) = (post.filterMap answer).head? := by
    unfold firstPush
    rw [List.filterMap_append, hpush, hpush, hnone]
    rfl
  rw [hfp] at hfirst
  -- the handlers of subscription 0
  have hl1 := (proxy_run pre _ y h1 rfl 0)
  have hsub0 : y.p.m.subs = [] := by
    obtain ⟨c1, c2, _⟩ := Proc.before (pre.flatMap asProc) _ y.p rfl (hno pre) rfl rfl r1
    exact c2
  have hz : ∃ b, z.p.m.subs[0]? = some b ∧ b.h = monoHandlers := by
    have hadd : (addSub monoHandlers y.p.m).subs[0]? = some ⟨false, none, none, .complete, monoHandlers⟩ := by
      simp [addSub, hsub0]
    simp only [Proc.subscribe, hsub0, List.length_nil] at e1
    have fw : ∀ {o : Outcome V E}, Proc.forward { y.p with sink := some 0, m := addSub monoHandlers y.p.m } g 0 o = some z.p →
        ∃ b, z.p.m.subs[0]? = some b ∧ b.h = monoHandlers := by
      intro o hf
      unfold Proc.forward at hf
      split at hf
      · rename_i m hm
        injection hf with hf
        rw [← hf]
        obtain ⟨b', hb', hh'⟩ := (later_signal .ok 0 g 0 o _ _ hm).subs _ hadd
        exact ⟨b', hb', hh'⟩
      · cases hf
    split at e1
    · exact fw e1
    · split at e1
      · exact fw e1
      · injection e1 with e1; rw [← e1]; exact ⟨_, hadd, rfl⟩
  obtain ⟨b, hb, hh⟩ := hz
  have hz1 : Last z.p := by
    have : Last y.p := hl1.1
    exact (old_step (a := .subscribe g monoHandlers) e1 this 0).1
  obtain ⟨b', hb', hh'⟩ := (proxy_run post z x h3 hz1 0).2.2.2.1.subs b hb
  rw [proxy_block _ x hall 0 b' hb' (hh'.trans hh), hfirst]

/-- Awaited and notified, answered twice and completed. -/
example : ((Proxy.new (V := Nat) (E := String)).run
      [.notify 1, .block 7, .async 2, .onComplete, .onError 0 "no", .ret 0, .onNext 0 5, .ret 0]).map
      (fun x => ((monoVars 0 x.p.m.log).out, x.sent)) = some (.returns none (some "no"), 1) := by decide

end Proxy

/-! ## C120: processors of fluxes -/

section FluxProc
open Iota.Flux Iota.Spec.Flux Iota.Lemmas.Flux Iota.Props.Flux

/-- The frame is not one of the loops of `FromSlice` and `SliceResponse`. -/
def quiet : Frame → Bool
  | .sliceLoop _ _ => false
  | .respLoop _ _ _ => false
  | _ => true

/-- No source of its own is at work. -/
def Quiet (s : State V E W) : Prop := ∀ p ∈ s.pending, quiet p.2 = true

theorem quiet_push {s : State V E W} (h : Quiet s) (g : Nat) {f : Frame} (hf : quiet f = true) : Quiet (push s g f) := by
  intro p hp
  rcases List.mem_cons.mp hp with rfl | hp
  · exact hf
  · exact h p hp

theorem quiet_same {s t : State V E W} (h : Quiet s) (e : t.pending = s.pending) : Quiet t := by
  unfold Quiet; rw [e]; exact h

theorem quiet_runLoop {s : State V E W} (h : Quiet s) (g : Nat) (sig : Signal) (rest : List Nat) : Quiet (runLoop g sig rest s) := by
  cases rest with
  | nil => exact h
  | cons k ks => exact quiet_push (quiet_same h rfl) g rfl

theorem quiet_startLoop {s : State V E W} (h : Quiet s) (g j : Nat) (sig : Signal) : Quiet (startLoop g j sig s) :=
  quiet_runLoop (by exact quiet_same h rfl) g sig _

theorem quiet_runFinally {s : State V E W} (h : Quiet s) (g j : Nat) (sig : Signal) (hd : Handlers) :
    Quiet (runFinally g j sig hd s) := by
  unfold runFinally
  split
  · exact quiet_push (quiet_same h rfl) g rfl
  · exact quiet_startLoop (by exact quiet_same h rfl) g j sig

theorem quiet_callRequest {s : State V E W} (h : Quiet s) (g j : Nat) (n : Int) {f : Frame} (hf : quiet f = true) :
    Quiet (callRequest .user g j n f s) := quiet_push (quiet_same h rfl) g hf

theorem quiet_doRequest {s : State V E W} (h : Quiet s) {c : Cfg V E W} (hc : c.src = .user) (g j : Nat) (n : Int) (r : Bool) :
    Quiet (doRequest c g j n r s) := by
  unfold doRequest
  rw [hc]
  split
  · exact quiet_same h rfl
  · split
    · exact quiet_callRequest h g j n rfl
    · exact quiet_same h rfl

theorem quiet_request {s : State V E W} (h : Quiet s) {c : Cfg V E W} (hc : c.src = .user) (g j : Nat) (n : Int) :
    Quiet (request c g j n s) := by
  unfold request
  split
  · exact h
  · split
    · exact quiet_doRequest (by exact quiet_same h rfl) hc g j n true
    · exact quiet_same h rfl

theorem quiet_handle {s : State V E W} (h : Quiet s) {c : Cfg V E W} (hc : c.src = .user) (g j : Nat) (hd : Handlers) :
    Quiet (handleOnSubscribe c g j hd s) := by
  unfold handleOnSubscribe
  split
  · exact h
  · split
    · exact quiet_push (quiet_same h rfl) g rfl
    · exact quiet_request h hc g j _

theorem quiet_endNext {s : State V E W} (h : Quiet s) {c : Cfg V E W} (hc : c.src = .user) (g j : Nat) :
    Quiet (endNext c g j s) := by
  unfold endNext
  split
  · exact h
  · split
    · exact quiet_handle h hc g j _
    · exact h

theorem quiet_mapFinally {s : State V E W} (h : Quiet s) {c : Cfg V E W} (hc : c.src = .user) (g j : Nat) (hd : Handlers) :
    Quiet (mapFinally c g j hd s) := by
  unfold mapFinally
  split
  · exact quiet_push (quiet_same h rfl) g rfl
  · exact quiet_endNext h hc g j

theorem quiet_callNext {s : State V E W} (h : Quiet s) {c : Cfg V E W} (hc : c.src = .user) (g j : Nat) (v : V) (hd : Handlers) :
    Quiet (callNext c g j v hd s) := by
  unfold callNext
  split <;> split
  · exact quiet_push (quiet_same h rfl) g rfl
  · exact quiet_endNext h hc g j
  · exact quiet_push (quiet_same h rfl) g rfl
  · exact quiet_mapFinally h hc g j hd

theorem quiet_tell {s : State V E W} (h : Quiet s) {c : Cfg V E W} (hc : c.src = .user) (g j : Nat) (b : Subscriber E)
    (x : Call V E) : Quiet (tell c g j b x s) := by
  unfold tell
  split
  · split
    · exact quiet_same h rfl
    · exact quiet_callNext (by exact quiet_same h rfl) hc g j _ _
  · split
    · exact quiet_same h rfl
    · split
      · exact quiet_push (quiet_same h rfl) g rfl
      · exact quiet_runFinally (by exact quiet_same h rfl) g j _ _
  · split
    · exact quiet_same h rfl
    · split
      · exact quiet_push (quiet_same h rfl) g rfl
      · exact quiet_runFinally (by exact quiet_same h rfl) g j _ _
  · split
    · exact quiet_push (quiet_same h rfl) g rfl
    · split
      · exact quiet_push (quiet_same h rfl) g rfl
      · exact quiet_same h rfl

theorem quiet_onSubscribe {s s' : State V E W} (h : Quiet s) {c : Cfg V E W} (hc : c.src = .user) {g j : Nat} {r k : Bool}
    (hs : onSubscribe c g j r k s = some s') : Quiet s' := by
  unfold onSubscribe at hs
  split at hs
  · cases hs
  · split at hs
    · cases hs; exact h
    · split at hs
      · cases hs; exact quiet_doRequest (by exact quiet_same h rfl) hc g j _ _
      · cases hs; exact quiet_same h rfl

theorem pop_mem {g : Nat} {l r : List (Nat × Frame)} {f : Frame} (h : pop g l = some (f, r)) :
    (g, f) ∈ l ∧ ∀ p ∈ r, p ∈ l := by
  induction l generalizing r with
  | nil => cases h
  | cons a l ih =>
    obtain ⟨g', f'⟩ := a
    simp only [pop] at h
    split at h
    · rename_i hg
      cases h
      exact ⟨by simp [hg], fun p hp => List.mem_cons_of_mem _ hp⟩
    · split at h
      · cases h
      · rename_i f'' r'' hp
        cases h
        obtain ⟨h1, h2⟩ := ih hp
        refine ⟨List.mem_cons_of_mem _ h1, fun p hp => ?_⟩
        rcases List.mem_cons.mp hp with rfl | hp
        · exact List.mem_cons_self
        · exact List.mem_cons_of_mem _ (h2 p hp)

/-- The user tells subscription `i` of a flux something. -/
def toldTo (i : Nat) : Action V E → Option (Call V E)
  | .signal _ j x => if j = i then some x else none
  | _ => none

theorem calls_addSub (i : Nat) (hd : Handlers) (r : Bool) (s : State V E W) :
    calls i (addSub hd r s).log = calls i s.log := by simp [addSub, calls_cons, callOf]

/-- A flux of the user hears nothing but what it is told. -/
theorem user_step {c : Cfg V E W} (hc : c.src = .user) {a : Action V E} {s s' : State V E W} (hq : Quiet s)
    (hs : step c s a = some s') (i : Nat) :
    Quiet s' ∧ calls i s'.log = calls i s.log ++ (toldTo i a).toList := by
  have stay : ∀ {t : State V E W}, Quiet t → Still i s t → Quiet t ∧ calls i t.log = calls i s.log ++ [] :=
    fun h1 h2 => ⟨h1, by rw [h2.calls, List.append_nil]⟩
  unfold step at hs
  split at hs
  · cases hs
  · cases a with
    | subscribe g hd =>
      simp only [Option.some.injEq] at hs
      subst hs
      unfold subscribe
      simp only [hc]
      exact ⟨quiet_push (quiet_same hq rfl) g rfl, by
        simp only [toldTo, Option.toList, List.append_nil]; exact calls_addSub i hd false s⟩
    | notify g =>
      simp only [Option.some.injEq] at hs
      subst hs
      refine stay ?_ (still_notify i g s)
      unfold notify
      split
      · split
        · exact quiet_push (quiet_same hq rfl) g rfl
        · exact quiet_same hq rfl
      · exact quiet_same hq rfl
    | signal g j x =>
      simp only at hs
      split at hs
      · unfold signal at hs
        split at hs
        · cases hs
        · rename_i b hb
          simp only [Option.some.injEq] at hs
          subst hs
          refine ⟨quiet_tell hq hc g j b x, ?_⟩
          rw [(tell_spec i c g j b x s hb).1]
          simp only [toldTo]
          split <;> rfl
      · cases hs
    | onSubscribe g j r k =>
      simp only [if_pos hc] at hs
      · refine stay (quiet_onSubscribe hq hc hs) ?_
        unfold onSubscribe at hs
        split at hs
        · cases hs
        · have k1 : Still i s (setSub s j fun b => { b with hasRequest := r, hasCancel := k }) :=
            still_setSub i s (Or.inr fun _ => rfl)
          split at hs
          · cases hs; exact .refl i s
          · split at hs
            · cases hs; exact k1.trans (still_doRequest i c g j _ _ _)
            · cases hs; exact k1
    | request g j n =>
      simp only at hs
      split at hs
      · cases hs; exact stay (quiet_request hq hc g j n) (still_request i c g j n s)
      · cases hs
    | start g j =>
      simp only [start] at hs
      split at hs
      · cases hs
      · split at hs
        · cases hs
        · split at hs
          · cases hs
          · split at hs
            · cases hs
              have k0 : Still i s { s with spawned := s.spawned.eraseIdx j } := still_other rfl rfl
              rw [hc]
              refine stay (quiet_callRequest ?_ g _ _ rfl) (k0.trans (still_callRequest i _ g _ _ _ _))
              exact quiet_same hq rfl
            · cases hs; exact stay (quiet_same hq rfl) (still_other rfl rfl)
    | ret g =>
      simp only [resume] at hs
      split at hs
      · cases hs
      · rename_i f r hp
        obtain ⟨hf, hr⟩ := pop_mem hp
        have hqf : quiet f = true := hq _ hf
        have hq0 : Quiet { s with pending := r } := fun p hp => hq p (hr p hp)
        have k0 : Still i s { s with pending := r } := still_other rfl rfl
        cases f with
        | afterSource j =>
          simp only [proceed, Option.map_eq_some_iff] at hs
          obtain ⟨b, _, rfl⟩ := hs
          exact stay (quiet_handle hq0 hc g j _) (k0.trans (still_handle i c g j _ _))
        | afterNext j =>
          simp only [proceed, Option.some.injEq] at hs
          subst hs
          exact stay (quiet_endNext hq0 hc g j) (k0.trans (still_endNext i c g j _))
        | afterMapError j =>
          simp only [proceed, Option.map_eq_some_iff] at hs
          obtain ⟨b, _, rfl⟩ := hs
          exact stay (quiet_mapFinally hq0 hc g j _) (k0.trans (still_mapFinally i c g j _ _))
        | afterSig j sig =>
          simp only [proceed, Option.map_eq_some_iff] at hs
          obtain ⟨b, _, rfl⟩ := hs
          exact stay (quiet_runFinally hq0 g j sig _) (k0.trans (still_runFinally i g j sig _ _))
        | afterFin j sig =>
          simp only [proceed, Option.some.injEq] at hs
          subst hs
          exact stay (quiet_startLoop hq0 g j sig) (k0.trans (still_startLoop i g j sig _))
        | loop sig rest =>
          simp only [proceed, Option.some.injEq] at hs
          subst hs
          exact stay (quiet_runLoop hq0 g sig rest) (k0.trans (still_runLoop i g sig rest _))
        | afterCancel j =>
          simp only [proceed, Option.map_eq_some_iff] at hs
          obtain ⟨b, _, rfl⟩ := hs
          split
          · exact stay (quiet_push (quiet_same hq0 rfl) g rfl) ((k0.trans (still_emit _ rfl)).trans (still_push i _ g _))
          · exact stay hq0 k0
        | sliceLoop j n => cases hqf
        | respLoop j num k => cases hqf
        | unlock j => simp only [proceed, Option.some.injEq] at hs; subst hs; exact stay hq0 k0
        | leaf => simp only [proceed, Option.some.injEq] at hs; subst hs; exact stay hq0 k0

theorem user_run {c : Cfg V E W} (hc : c.src = .user) (as : List (Action V E)) (s s' : State V E W) (hq : Quiet s)
    (hs : run c s as = some s') (i : Nat) : calls i s'.log = calls i s.log ++ as.filterMap (toldTo i) := by
  induction as generalizing s with
  | nil => cases hs; simp
  | cons a as ih =>
    simp only [run] at hs
    split at hs
    · cases hs
    · rename_i t ht
      obtain ⟨h1, h2⟩ := user_step hc hq ht i
      rw [ih t h1 hs, h2, List.append_assoc, List.filterMap_cons]
      cases toldTo i a <;> rfl

/-- The subscriber is new. -/
def isNew : FAct V E → Bool
  | .subscribe _ _ => true
  | _ => false

/-- What the user of a processor pushes. -/
def pushedCall : FAct V E → Option (Call V E)
  | .next _ v => some (.next v)
  | .complete _ => some .complete
  | .error _ e => some (.error e)
  | _ => none

/-- What subscriber `i` should hear when `n` have subscribed so far: what is pushed while it is the last, and its own
cancellations. -/
def heard (i : Nat) : Nat → List (FAct V E) → List (Call V E)
  | _, [] => []
  | n, a :: r =>
    match a with
    | .subscribe _ _ => heard i (n + 1) r
    | .cancel _ j => if j = i then .cancel :: heard i n r else heard i n r
    | a =>
      match pushedCall a with
      | some x => if n = i + 1 then x :: heard i n r else heard i n r
      | none => heard i n r

/-- Where the pushes go: to the last subscriber. -/
def Aims (x : FluxProc V E) : Prop := x.sink = if x.m.subs.length = 0 then none else some (x.m.subs.length - 1)

theorem flux_run_append (c : Cfg V E W) (s : State V E W) (a b : List (Action V E)) :
    run c s (a ++ b) = (run c s a).bind fun t => run c t b := by
  induction a generalizing s with
  | nil => rfl
  | cons x a ih =>
    simp only [List.cons_append, run]
    cases step c s x with
    | none => rfl
    | some t => exact ih t

theorem len_of_still {s t : State V E W} (h : ∀ i, Still i s t) : t.subs.length = s.subs.length := by
  have key : ∀ i, t.subs.length ≤ i ↔ s.subs.length ≤ i := by
    intro i
    have := (h i).subs
    rw [← List.getElem?_eq_none_iff, ← List.getElem?_eq_none_iff]
    cases ht : t.subs[i]? <;> cases hs : s.subs[i]? <;> simp [ht, hs] at this ⊢
  have h1 := (key t.subs.length).mp (Nat.le_refl _)
  have h2 := (key s.subs.length).mpr (Nat.le_refl _)
  omega

theorem len_tell {c : Cfg V E W} {g j : Nat} {b : Subscriber E} {x : Call V E} {s : State V E W} (hb : s.subs[j]? = some b) :
    (tell c g j b x s).subs.length = s.subs.length := by
  have key : ∀ i, (tell c g j b x s).subs.length ≤ i ↔ s.subs.length ≤ i := by
    intro i
    have := (tell_spec i c g j b x s hb).2
    rw [← List.getElem?_eq_none_iff, ← List.getElem?_eq_none_iff]
    by_cases hij : j = i
    · subst hij
      simp only [if_true] at this
      cases ht : (tell c g j b x s).subs[j]? <;> simp [ht, hb] at this ⊢
    · simp only [hij, if_false] at this
      cases ht : (tell c g j b x s).subs[i]? <;> cases hs : s.subs[i]? <;> simp [ht, hs] at this ⊢
  have h1 := (key (tell c g j b x s).subs.length).mp (Nat.le_refl _)
  have h2 := (key s.subs.length).mpr (Nat.le_refl _)
  omega

theorem len_onSubscribe {c : Cfg V E W} {g j : Nat} {r k : Bool} {s s' : State V E W}
    (hs : onSubscribe c g j r k s = some s') : s'.subs.length = s.subs.length := by
  apply len_of_still
  intro i
  unfold onSubscribe at hs
  split at hs
  · cases hs
  · have k1 : Still i s (setSub s j fun b => { b with hasRequest := r, hasCancel := k }) :=
      still_setSub i s (Or.inr fun _ => rfl)
    split at hs
    · cases hs; exact .refl i s
    · split at hs
      · cases hs; exact k1.trans (still_doRequest i c g j _ _ _)
      · cases hs; exact k1

/-- Steps other than subscriptions keep the number of subscribers. -/
theorem len_step {c : Cfg V E W} (hc : c.src = .user) {a : Action V E} {s s' : State V E W} (hq : Quiet s)
    (hs : step c s a = some s') (ha : ∀ g h, a ≠ .subscribe g h) : s'.subs.length = s.subs.length := by
  unfold step at hs
  split at hs
  · cases hs
  · cases a with
    | subscribe g hd => exact absurd rfl (ha g hd)
    | notify g =>
      simp only [Option.some.injEq] at hs
      subst hs
      exact len_of_still fun i => still_notify i g s
    | signal g j x =>
      simp only at hs
      split at hs
      · unfold signal at hs
        split at hs
        · cases hs
        · rename_i b hb
          simp only [Option.some.injEq] at hs
          subst hs
          exact len_tell hb
      · cases hs
    | onSubscribe g j r k =>
      simp only [if_pos hc] at hs
      exact len_onSubscribe hs
    | request g j n =>
      simp only at hs
      split at hs
      · cases hs; exact len_of_still fun i => still_request i c g j n s
      · cases hs
    | start g j =>
      simp only [start] at hs
      split at hs
      · cases hs
      · split at hs
        · cases hs
        · split at hs
          · cases hs
          · split at hs
            · cases hs
              exact len_of_still fun i => Still.trans (t := { s with spawned := s.spawned.eraseIdx j }) (still_other rfl rfl)
                (still_callRequest i _ g _ _ _ _)
            · cases hs; rfl
    | ret g =>
      simp only [resume] at hs
      split at hs
      · cases hs
      · rename_i f r hp
        have hqf : quiet f = true := hq _ (pop_mem hp).1
        have e0 : ({ s with pending := r } : State V E W).subs.length = s.subs.length := rfl
        rw [← e0]
        cases f with
        | afterSource j =>
          simp only [proceed, Option.map_eq_some_iff] at hs
          obtain ⟨b, _, rfl⟩ := hs
          exact len_of_still fun i => still_handle i c g j _ _
        | afterNext j =>
          simp only [proceed, Option.some.injEq] at hs
          subst hs
          exact len_of_still fun i => still_endNext i c g j _
        | afterMapError j =>
          simp only [proceed, Option.map_eq_some_iff] at hs
          obtain ⟨b, _, rfl⟩ := hs
          exact len_of_still fun i => still_mapFinally i c g j _ _
        | afterSig j sig =>
          simp only [proceed, Option.map_eq_some_iff] at hs
          obtain ⟨b, _, rfl⟩ := hs
          exact len_of_still fun i => still_runFinally i g j sig _ _
        | afterFin j sig =>
          simp only [proceed, Option.some.injEq] at hs
          subst hs
          exact len_of_still fun i => still_startLoop i g j sig _
        | loop sig rest =>
          simp only [proceed, Option.some.injEq] at hs
          subst hs
          exact len_of_still fun i => still_runLoop i g sig rest _
        | afterCancel j =>
          simp only [proceed, Option.map_eq_some_iff] at hs
          obtain ⟨b, _, rfl⟩ := hs
          split
          · exact len_of_still fun i => (still_emit _ rfl).trans (still_push i _ g _)
          · rfl
        | sliceLoop j n => cases hqf
        | respLoop j num k => cases hqf
        | unlock j => simp only [proceed, Option.some.injEq] at hs; subst hs; rfl
        | leaf => simp only [proceed, Option.some.injEq] at hs; subst hs; rfl

/-- A subscription of a processor is a subscription of its flux whose source hands over the functions kept and returns. -/
theorem subscribe_refines {host : Bool} {x y : FluxProc V E} {g : Nat} {h : Handlers} (hn : x.m.crashed = false)
    (hs : x.subscribe host g h = some y) :
    ∃ as', run (cfg host) x.m as' = some y.m ∧ (∀ i, as'.filterMap (toldTo i) = []) ∧
      y.sink = some x.m.subs.length ∧ y.m.subs.length = x.m.subs.length + 1 := by
  have hadd : (addSub h false x.m).subs[x.m.subs.length]? = some ⟨false, 0, none, false, false, .complete, h⟩ := by simp [addSub]
  have hlen : (addSub h false x.m).subs.length = x.m.subs.length + 1 := by simp [addSub]
  unfold FluxProc.subscribe at hs
  split at hs
  · rename_i r k _
    split at hs
    · cases hs
    · rename_i m hm
      cases hs
      have hm' := hm
      simp only [onSubscribe, hadd, Bool.false_eq_true, if_false, gt_iff_lt, Int.lt_irrefl] at hm
      cases hm
      refine ⟨[.subscribe g h, .onSubscribe g x.m.subs.length r k, .ret g], ?_, fun i => rfl, rfl, ?_⟩
      · have e1 : step (cfg host) x.m (.subscribe g h) =
            some (push (addSub h false x.m) g (.afterSource x.m.subs.length)) := by
          simp only [step, hn, Bool.false_eq_true, if_false]; rfl
        have e2 : step (cfg host) (push (addSub h false x.m) g (.afterSource x.m.subs.length))
              (.onSubscribe g x.m.subs.length r k) =
            some (setSub (push (addSub h false x.m) g (.afterSource x.m.subs.length)) x.m.subs.length
              fun b => { b with hasRequest := r, hasCancel := k }) := by
          have hc : (push (addSub h false x.m) g (.afterSource x.m.subs.length)).crashed = false := hn
          have hb : (push (addSub h false x.m) g (.afterSource x.m.subs.length)).subs[x.m.subs.length]? =
            some ⟨false, 0, none, false, false, .complete, h⟩ := hadd
          simp only [step, hc, Bool.false_eq_true, if_false, cfg, if_true, onSubscribe, hb, gt_iff_lt, Int.lt_irrefl]
        have e3 : step (cfg host) (setSub (push (addSub h false x.m) g (.afterSource x.m.subs.length)) x.m.subs.length
              fun b => { b with hasRequest := r, hasCancel := k }) (.ret g) =
            some (handleOnSubscribe (cfg host) g x.m.subs.length h
              (setSub (addSub h false x.m) x.m.subs.length fun b => { b with hasRequest := r, hasCancel := k })) := by
          have hc : (setSub (push (addSub h false x.m) g (.afterSource x.m.subs.length)) x.m.subs.length
            fun b => { b with hasRequest := r, hasCancel := k }).crashed = false := hn
          simp only [step]
          rw [if_neg (by rw [hc]; exact Bool.false_ne_true)]
          simp only [resume, setSub, push, pop, if_true, proceed, List.getElem?_modify, hadd]
          rfl
        simp only [run, e1, e2, e3]
      · rw [len_of_still fun i => still_handle i (cfg host) g _ h _, ← hlen]
        exact len_onSubscribe hm'
  · cases hs
    refine ⟨[.subscribe g h, .ret g], ?_, fun i => rfl, rfl, ?_⟩
    · have e1 : step (cfg host) x.m (.subscribe g h) =
          some (push (addSub h false x.m) g (.afterSource x.m.subs.length)) := by
        simp only [step, hn, Bool.false_eq_true, if_false]; rfl
      have e3 : step (cfg host) (push (addSub h false x.m) g (.afterSource x.m.subs.length)) (.ret g) =
          some (handleOnSubscribe (cfg host) g x.m.subs.length h (addSub h false x.m)) := by
        have hc : (push (addSub h false x.m) g (.afterSource x.m.subs.length)).crashed = false := hn
        simp only [step]
        rw [if_neg (by rw [hc]; exact Bool.false_ne_true)]
        simp only [resume, push, pop, if_true, proceed, hadd]
        rfl
      simp only [run, e1, e3]
    · rw [len_of_still fun i => still_handle i (cfg host) g _ h _, hlen]

/-- A step of a processor is a piece of a run of its flux, in which the last subscriber is told what is pushed. -/
theorem fluxProc_step {host : Bool} {x y : FluxProc V E} {a : FAct V E} (hs : x.step host a = some y) (hq : Quiet x.m)
    (ha : Aims x) :
    Aims y ∧ ∃ as', run (cfg host) x.m as' = some y.m ∧ (∀ i, as'.filterMap (toldTo i) = heard i x.m.subs.length [a]) ∧
      (∀ i r, heard i x.m.subs.length (a :: r) = heard i x.m.subs.length [a] ++ heard i y.m.subs.length r) := by
  unfold FluxProc.step at hs
  split at hs
  · cases hs
  · rename_i hn
    have hn : x.m.crashed = false := by simpa using hn
    have fl : ∀ {fa : Action V E}, x.flux host fa = some y → (∀ g h, fa ≠ .subscribe g h) →
        Aims y ∧ run (cfg host) x.m [fa] = some y.m ∧ y.m.subs.length = x.m.subs.length := by
      intro fa hf hns
      unfold FluxProc.flux at hf
      split at hf
      · cases hf
      · rename_i m hm
        cases hf
        have hl := len_step (c := cfg host) rfl hq hm hns
        refine ⟨?_, by simp only [run, hm], hl⟩
        unfold Aims at *
        simp only [hl, ha]
    have te : ∀ {g : Nat} {c : Call V E}, x.tell host g c = some y → pushedCall a = some c →
        (∀ i n r, heard i n (a :: r) = if n = i + 1 then c :: heard i n r else heard i n r) →
        Aims y ∧ ∃ as', run (cfg host) x.m as' = some y.m ∧
          (∀ i, as'.filterMap (toldTo i) = heard i x.m.subs.length [a]) ∧
          (∀ i r, heard i x.m.subs.length (a :: r) = heard i x.m.subs.length [a] ++ heard i y.m.subs.length r) := by
      intro g c ht hp hh
      unfold FluxProc.tell at ht
      unfold Aims at ha
      by_cases h0 : x.m.subs.length = 0
      · rw [if_pos h0] at ha
        rw [ha] at ht
        cases ht
        refine ⟨by unfold Aims; rw [if_pos h0]; exact ha, [], rfl, ?_, ?_⟩
        · intro i
          rw [hh, if_neg (by omega)]
          rfl
        · intro i r
          rw [hh, hh, if_neg (by omega), if_neg (by omega)]
          rfl
      · rw [if_neg h0] at ha
        rw [ha] at ht
        simp only at ht
        split at ht
        · cases ht
        · rename_i m hm
          cases ht
          have hstep : step (cfg host) x.m (.signal g (x.m.subs.length - 1) c) = some m := by
            simp only [step, hn, Bool.false_eq_true, if_false, cfg, true_or, if_true]
            exact hm
          have hl := len_step (c := cfg host) rfl hq hstep (fun g h => nofun)
          refine ⟨by unfold Aims; simp only [hl, if_neg h0, ha], [.signal g (x.m.subs.length - 1) c], by simp only [run, hstep],
            ?_, ?_⟩
          · intro i
            rw [hh]
            by_cases hi : x.m.subs.length = i + 1
            · rw [if_pos hi]
              have : x.m.subs.length - 1 = i := by omega
              simp [toldTo, this, heard]
            · rw [if_neg hi]
              have : ¬ x.m.subs.length - 1 = i := by omega
              simp [toldTo, this, heard]
          · intro i r
            simp only [hl]
            rw [hh, hh]
            split <;> rfl
    cases a with
    | subscribe g h =>
      obtain ⟨as', h1, h2, h3, h4⟩ := subscribe_refines hn hs
      refine ⟨by unfold Aims; rw [h4, h3]; simp, as', h1, h2, fun i r => ?_⟩
      rw [h4]
      rfl
    | next g v => exact te hs rfl fun i n r => rfl
    | complete g => exact te hs rfl fun i n r => rfl
    | error g e => exact te hs rfl fun i n r => rfl
    | onSubscribe g r k =>
      simp only [FluxProc.onSubscribe] at hs
      split at hs
      · cases hs; exact ⟨ha, [], rfl, fun i => rfl, fun i r => rfl⟩
      · rename_i j hj
        split at hs
        · cases hs
        · rename_i m hm
          cases hs
          have hl := len_onSubscribe hm
          have hstep : step (cfg host) x.m (.onSubscribe g j r k) = some m := by
            simp only [step, hn, Bool.false_eq_true, if_false, cfg, if_true]
            exact hm
          refine ⟨by unfold Aims at *; simp only [hl, ha], [.onSubscribe g j r k], by simp only [run, hstep], fun i => rfl, fun i r => ?_⟩
          simp only [hl]
          rfl
    | notify g =>
      obtain ⟨h1, h2, h3⟩ := fl (fa := .notify g) hs (fun _ _ => nofun)
      exact ⟨h1, _, h2, fun i => rfl, fun i r => by rw [h3]; rfl⟩
    | request g j n =>
      obtain ⟨h1, h2, h3⟩ := fl (fa := .request g j n) hs (fun _ _ => nofun)
      exact ⟨h1, _, h2, fun i => rfl, fun i r => by rw [h3]; rfl⟩
    | cancel g j =>
      obtain ⟨h1, h2, h3⟩ := fl (fa := .signal g j .cancel) hs (fun _ _ => nofun)
      refine ⟨h1, _, h2, fun i => ?_, fun i r => ?_⟩
      · by_cases hj : j = i <;> simp [toldTo, heard, hj]
      · rw [h3]
        simp only [heard]
        split <;> rfl
    | start g j =>
      obtain ⟨h1, h2, h3⟩ := fl (fa := .start g j) hs (fun _ _ => nofun)
      exact ⟨h1, _, h2, fun i => rfl, fun i r => by rw [h3]; rfl⟩
    | ret g =>
      obtain ⟨h1, h2, h3⟩ := fl (fa := .ret g) hs (fun _ _ => nofun)
      exact ⟨h1, _, h2, fun i => rfl, fun i r => by rw [h3]; rfl⟩

theorem quiet_run {c : Cfg V E W} (hc : c.src = .user) (as : List (Action V E)) (s s' : State V E W) (hq : Quiet s)
    (hs : run c s as = some s') : Quiet s' := by
  induction as generalizing s with
  | nil => cases hs; exact hq
  | cons a as ih =>
    simp only [run] at hs
    split at hs
    · cases hs
    · rename_i t ht
      exact ih t (user_step hc hq ht 0).1 hs

/-- **C120** A processor is a flux: each of its runs is one of a flux whose source is the user, in which a subscriber is
told what is pushed while it is the last one. -/
theorem fluxProc_refines (host : Bool) (as : List (FAct V E)) (x : FluxProc V E) (h : FluxProc.new.run host as = some x) :
    ∃ as', run (cfg host) (init []) as' = some x.m ∧ ∀ i, as'.filterMap (toldTo i) = heard i 0 as := by
  have key : ∀ (as : List (FAct V E)) (x y : FluxProc V E), x.run host as = some y → Quiet x.m → Aims x →
      ∃ as', run (cfg host) x.m as' = some y.m ∧ ∀ i, as'.filterMap (toldTo i) = heard i x.m.subs.length as := by
    intro as
    induction as with
    | nil => intro x y h _ _; cases h; exact ⟨[], rfl, fun i => rfl⟩
    | cons a as ih =>
      intro x y h hq ha
      simp only [FluxProc.run, Option.bind_eq_some_iff] at h
      obtain ⟨z, h1, h2⟩ := h
      obtain ⟨ha', as1, r1, t1, t2⟩ := fluxProc_step h1 hq ha
      obtain ⟨as2, r2, t3⟩ := ih z y h2 (quiet_run (c := cfg host) rfl as1 _ _ hq r1) ha'
      refine ⟨as1 ++ as2, ?_, fun i => ?_⟩
      · rw [flux_run_append, r1]; exact r2
      · rw [List.filterMap_append, t1, t3, ← t2]
  exact key as _ x h (fun p hp => absurd hp List.not_mem_nil) rfl

/-- **C120** What a subscriber of a processor hears, in every run. -/
theorem fluxProc_heard (host : Bool) (as : List (FAct V E)) (x : FluxProc V E) (h : FluxProc.new.run host as = some x)
    (i : Nat) : calls i x.m.log = heard i 0 as := by
  obtain ⟨as', h1, h2⟩ := fluxProc_refines host as x h
  rw [user_run (c := cfg host) rfl as' _ _ (fun p hp => absurd hp List.not_mem_nil) h1 i, h2]
  rfl

/-- **C120** What its callbacks see: the elements and the end pushed while it is the last subscriber, in that order. -/
theorem fluxProc_sees (host : Bool) (as : List (FAct V E)) (x : FluxProc V E) (h : FluxProc.new.run host as = some x)
    (i : Nat) (b : Subscriber E) (hb : x.m.subs[i]? = some b) :
    seen i x.m.log = (deliver (heard i 0 as)).filter (Spec.Flux.wanted b.h) := by
  obtain ⟨as', h1, _⟩ := fluxProc_refines host as x h
  rw [← fluxProc_heard host as x h i]
  exact flux_delivers host .user [] as' x.m h1 i b hb

/-- **C120** (part) With one subscriber and nothing pushed before it subscribes, its callbacks see everything that is
pushed (until it cancels). Missing: pushes before the subscription, and further subscribers. -/
theorem fluxProc_one_partial (host : Bool) (pre post : List (FAct V E)) (g : Nat) (hd : Handlers) (x : FluxProc V E)
    (h : FluxProc.new.run host (pre ++ .subscribe g hd :: post) = some x)
    (hpre : ∀ a ∈ pre, isNew a = false ∧ pushedCall a = none ∧ ∀ g j, a ≠ .cancel g j)
    (hpost : ∀ a ∈ post, isNew a = false ∧ ∀ g j, a ≠ .cancel g j)
    (b : Subscriber E) (hb : x.m.subs[0]? = some b) :
    seen 0 x.m.log = (deliver (post.filterMap pushedCall)).filter (Spec.Flux.wanted b.h) := by
  rw [fluxProc_sees host _ x h 0 b hb]
  have h1 : ∀ post : List (FAct V E), (∀ a ∈ post, isNew a = false ∧ ∀ g j, a ≠ .cancel g j) →
      heard 0 1 post = post.filterMap pushedCall := by
    intro post
    induction post with
    | nil => intro _; rfl
    | cons a r ih =>
      intro ha
      have h0 := ha a List.mem_cons_self
      have hr := ih fun c hc => ha c (List.mem_cons_of_mem _ hc)
      cases a <;> simp only [heard, pushedCall, List.filterMap_cons, if_true, Nat.zero_add, hr]
      case subscribe => exact absurd h0.1 (by simp [isNew])
      case cancel g j => exact absurd rfl (h0.2 g j)
  have h2 : heard 0 0 (pre ++ .subscribe g hd :: post) = heard 0 1 post := by
    clear h
    induction pre with
    | nil => rfl
    | cons a r ih =>
      have h0 := hpre a List.mem_cons_self
      have hr := ih fun c hc => hpre c (List.mem_cons_of_mem _ hc)
      rw [List.cons_append]
      cases a <;> simp only [heard, pushedCall] <;> try exact hr
      case subscribe => exact absurd h0.1 (by simp [isNew])
      case cancel g j => exact absurd rfl (h0.2.2 g j)
  rw [h2, h1 post hpost]

/-- **C120** is false for what is pushed before the first subscription, the end of the stream included: in every run the
subscribers hear what they would hear had nothing been pushed, so that one who comes after the end waits for ever. -/
theorem fluxProc_lost_refuted (host : Bool) (pre post : List (FAct V E)) (x : FluxProc V E)
    (h : FluxProc.new.run host (pre ++ post) = some x) (hpre : ∀ a ∈ pre, isNew a = false ∧ ∀ g j, a ≠ .cancel g j) (i : Nat) :
    calls i x.m.log = heard i 0 post := by
  rw [fluxProc_heard host _ x h i]
  clear h
  induction pre with
  | nil => rfl
  | cons a r ih =>
    have h0 := hpre a List.mem_cons_self
    have hr := ih fun c hc => hpre c (List.mem_cons_of_mem _ hc)
    rw [List.cons_append]
    cases a <;> simp only [heard, pushedCall] <;> try exact hr
    case subscribe => exact absurd h0.1 (by simp [isNew])
    case cancel g j => exact absurd rfl (h0.2 g j)
    all_goals (rw [if_neg (by omega)]; exact hr)

theorem proc_run_append (host : Bool) (x : FluxProc V E) (a b : List (FAct V E)) :
    x.run host (a ++ b) = (x.run host a).bind fun y => y.run host b := by
  induction a generalizing x with
  | nil => rfl
  | cons c r ih =>
    simp only [List.cons_append, FluxProc.run]
    cases x.step host c with
    | none => rfl
    | some y => exact ih y

/-- Steps other than subscriptions leave the sink alone, and what is kept for the subscriber unless it is replaced. -/
theorem proc_keeps {host : Bool} {x y : FluxProc V E} {a : FAct V E} (hs : x.step host a = some y) (hn : isNew a = false) :
    y.sink = x.sink ∧ ((∀ g r k, a ≠ .onSubscribe g r k) → y.sub = x.sub) := by
  have hflux : ∀ b, x.flux host b = some y → y.sink = x.sink ∧ y.sub = x.sub := by
    intro b hb
    unfold FluxProc.flux at hb
    split at hb
    · cases hb
    · cases hb; exact ⟨rfl, rfl⟩
  have htell : ∀ g c, x.tell host g c = some y → y.sink = x.sink ∧ y.sub = x.sub := by
    intro g c hb
    unfold FluxProc.tell at hb
    split at hb
    · cases hb; exact ⟨rfl, rfl⟩
    · split at hb
      · cases hb
      · cases hb; exact ⟨rfl, rfl⟩
  unfold FluxProc.step at hs
  split at hs
  · cases hs
  · cases a with
    | subscribe g h => cases hn
    | onSubscribe g r k =>
      refine ⟨?_, fun hc => absurd rfl (hc g r k)⟩
      unfold FluxProc.onSubscribe at hs
      simp only at hs
      split at hs
      · cases hs; rfl
      · split at hs
        · cases hs
        · cases hs; rfl
    | next g v => exact ⟨(htell _ _ hs).1, fun _ => (htell _ _ hs).2⟩
    | complete g => exact ⟨(htell _ _ hs).1, fun _ => (htell _ _ hs).2⟩
    | error g e => exact ⟨(htell _ _ hs).1, fun _ => (htell _ _ hs).2⟩
    | notify g => exact ⟨(hflux _ hs).1, fun _ => (hflux _ hs).2⟩
    | request g i n => exact ⟨(hflux _ hs).1, fun _ => (hflux _ hs).2⟩
    | cancel g i => exact ⟨(hflux _ hs).1, fun _ => (hflux _ hs).2⟩
    | start g j => exact ⟨(hflux _ hs).1, fun _ => (hflux _ hs).2⟩
    | ret g => exact ⟨(hflux _ hs).1, fun _ => (hflux _ hs).2⟩

theorem proc_run_keeps {host : Bool} (as : List (FAct V E)) : ∀ {x y : FluxProc V E}, x.run host as = some y → Quiet x.m →
    Aims x → (∀ a ∈ as, isNew a = false) →
    y.sink = x.sink ∧ Quiet y.m ∧ Aims y ∧ ((∀ a ∈ as, ∀ g r k, a ≠ .onSubscribe g r k) → y.sub = x.sub) := by
  induction as with
  | nil => intro x y h hq ha _; cases h; exact ⟨rfl, hq, ha, fun _ => rfl⟩
  | cons a as ih =>
    intro x y h hq ha hn
    simp only [FluxProc.run, Option.bind_eq_some_iff] at h
    obtain ⟨z, h1, h2⟩ := h
    obtain ⟨ha', as1, r1, _, _⟩ := fluxProc_step h1 hq ha
    obtain ⟨k1, k2⟩ := proc_keeps h1 (hn a List.mem_cons_self)
    obtain ⟨i1, i2, i3, i4⟩ := ih h2 (quiet_run (c := cfg host) rfl as1 _ _ hq r1) ha' fun b hb => hn b (List.mem_cons_of_mem _ hb)
    exact ⟨i1.trans k1, i2, i3, fun hc => (i4 fun b hb => hc b (List.mem_cons_of_mem _ hb)).trans
      (k2 (hc a List.mem_cons_self))⟩

/-- **C120** The functions with which a subscriber asks for more and cancels, handed over before it subscribes, are kept
for it; and unless it wants to ask itself, all elements are asked for when it subscribes. -/
theorem fluxProc_functions (host : Bool) (pre mid : List (FAct V E)) (g g' : Nat) (r k : Bool) (hd : Handlers)
    (x : FluxProc V E) (h : FluxProc.new.run host (pre ++ .onSubscribe g r k :: (mid ++ [.subscribe g' hd])) = some x)
    (hpre : ∀ a ∈ pre, isNew a = false) (hmid : ∀ a ∈ mid, isNew a = false ∧ ∀ g r k, a ≠ .onSubscribe g r k) :
    ∃ b, x.m.subs = [b] ∧ b.hasRequest = r ∧ b.hasCancel = k ∧ b.h = hd ∧
      (r = true → hd.noRequest = false → hd.onRequest = false →
        if host then (0, requestMax) ∈ x.m.spawned else .request 0 requestMax ∈ x.m.log) := by
  rw [proc_run_append, Option.bind_eq_some_iff] at h
  obtain ⟨x1, h1, h⟩ := h
  simp only [FluxProc.run, Option.bind_eq_some_iff] at h
  obtain ⟨x2, h2, h⟩ := h
  rw [proc_run_append, Option.bind_eq_some_iff] at h
  obtain ⟨x3, h3, h⟩ := h
  simp only [FluxProc.run, Option.bind_eq_some_iff] at h
  obtain ⟨x4, h4, h⟩ := h
  cases h
  obtain ⟨s1, q1, a1, _⟩ := proc_run_keeps pre h1 (fun p hp => absurd hp List.not_mem_nil) rfl hpre
  have e2 : x2.sub = some (r, k) := by
    have h2' := h2
    unfold FluxProc.step at h2'
    split at h2'
    · cases h2'
    · unfold FluxProc.onSubscribe at h2'
      have : x1.sink = none := s1
      simp only [this] at h2'
      cases h2'; rfl
  obtain ⟨a2, as1, r1, _, _⟩ := fluxProc_step h2 q1 a1
  have q2 := quiet_run (c := cfg host) rfl as1 _ _ q1 r1
  have s2 := (proc_keeps h2 rfl).1
  obtain ⟨s3, q3, a3, u3⟩ := proc_run_keeps mid h3 q2 a2 fun a ha => (hmid a ha).1
  have e3 : x3.sub = some (r, k) := (u3 fun a ha => (hmid a ha).2).trans e2
  have hs : x3.sink = none := s3.trans (s2.trans s1)
  have hsubs : x3.m.subs = [] := by
    unfold Aims at a3
    rw [hs] at a3
    split at a3
    · exact List.eq_nil_of_length_eq_zero (by assumption)
    · cases a3
  unfold FluxProc.step at h4
  split at h4
  · cases h4
  · simp only [FluxProc.subscribe, e3] at h4
    have hadd : (addSub hd false x3.m).subs = [⟨false, 0, none, false, false, .complete, hd⟩] := by simp [addSub, hsubs]
    have hlen : x3.m.subs.length = 0 := by rw [hsubs]; rfl
    rw [hlen] at h4
    simp only [onSubscribe, hadd, List.getElem?_cons_zero, Bool.false_eq_true, if_false, gt_iff_lt, Int.lt_irrefl] at h4
    cases h4
    simp only [handleOnSubscribe]
    by_cases n1 : hd.noRequest = true
    · rw [if_pos n1]
      exact ⟨_, by simp only [setSub, hadd]; rfl, rfl, rfl, rfl, fun _ hc => absurd n1 (by rw [hc]; exact Bool.false_ne_true)⟩
    · rw [if_neg n1]
      by_cases n2 : hd.onRequest = true
      · rw [if_pos n2]
        exact ⟨_, by simp only [push, emit, setSub, hadd]; rfl, rfl, rfl, rfl,
          fun _ _ hc => absurd n2 (by rw [hc]; exact Bool.false_ne_true)⟩
      · rw [if_neg n2]
        have e : (setSub (addSub hd false x3.m) 0 fun b => { b with hasRequest := r, hasCancel := k }).subs =
            [⟨false, 0, none, r, k, .complete, hd⟩] := by simp only [setSub, hadd]; rfl
        simp only [request, e, List.getElem?_cons_zero]
        cases r with
        | false =>
          simp only [Bool.false_eq_true, if_false]
          exact ⟨_, by simp only [setSub, emit, hadd]; rfl, rfl, rfl, rfl, fun hc => by cases hc⟩
        | true =>
          simp only [if_true]
          cases host with
          | true =>
            refine ⟨_, by simp only [doRequest, cfg, if_true, setSub, emit, hadd]; rfl, rfl, rfl, rfl, fun _ _ _ => ?_⟩
            simp [doRequest, cfg]
          | false =>
            refine ⟨_, by simp only [doRequest, cfg, Bool.false_eq_true, if_false, if_true, callRequest, push, setSub, emit, hadd]; rfl,
              rfl, rfl, rfl, fun _ _ _ => ?_⟩
            simp [doRequest, cfg, callRequest, push, emit, setSub]

/-- A source that is connected before anybody subscribes: the subscriber's demand reaches it. -/
example : ((FluxProc.new (V := Nat) (E := String)).run false [.onSubscribe 0 true false,
      .subscribe 1 { all with onRequest := false, noRequest := false }]).map
    (fun x => (x.m.subs.map (fun b => (b.hasRequest, b.hasCancel)), decide (.request 0 requestMax ∈ x.m.log))) =
    some ([(true, false)], true) := by decide

/-- An element and the end before the subscription, one element and the end after it; and a second subscriber. -/
example : ((FluxProc.new (V := Nat) (E := String)).run true
      [.next 0 1, .complete 0, .subscribe 1 all, .next 0 2, .ret 0, .subscribe 1 all, .next 0 3, .ret 0,
        .complete 0]).map (fun x => (seen 0 x.m.log, seen 1 x.m.log)) =
    some ([.next 2], [.next 3, .complete]) := by decide

/-- `Block` on a processor that has been completed before: it waits, and nothing is left to be pushed. -/
example : ((FluxProc.new (V := Nat) (E := String)).run false
      [.next 0 1, .complete 0, .subscribe 1 (fluxHandlers all)]).map
      (fun x => (x.m.pending, (fluxVars 0 x.m.log).out)) = some ([], .waits) := by decide

end FluxProc

end Iota.Props.Block
