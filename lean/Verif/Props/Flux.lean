import Verif.Lemmas.Flux

/-! # C17, C18, C20: what subscribers of a flux see -/

namespace Iota.Props.Flux
open Iota.Flux Iota.Spec.Flux Iota.Lemmas.Flux

variable {V E W : Type}

/-- All callbacks, and requests by the user. -/
def all : Handlers := ⟨true, true, true, false, true, true⟩

/-- No mapper. -/
def plain (host : Bool) (src : Src) : Cfg V E V := ⟨host, src, .ok⟩

theorem run_inv {c : Cfg V E W} {xs : List V} {as : List (Action V E)} {s : State V E W} (hr : run c (init xs) as = some s)
    {i : Nat} {b : Subscriber E} (hb : s.subs[i]? = some b) :
    b.closed = ended (calls i s.log) ∧ seen i s.log = (actual c.tx (calls i s.log)).filter (wanted b.h) ∧
      (b.h.onFinally = true → ∀ sg, bal i sg s = (finals c.tx false (calls i s.log)).count sg) := by
  have h := InvD_run as (InvD_init c.tx i xs) hr
  unfold InvD at h
  simp only [hb] at h
  exact h

/-! ## C17 -/

theorem actual_ok (cs : List (Call V E)) : actual (.ok : V → Except E V) cs = deliver cs := by
  induction cs with
  | nil => rfl
  | cons x cs ih =>
    cases x with
    | next v => simp [actual, out, isEnd, deliver, ih]
    | complete => simp [actual, out, isEnd, deliver]
    | error e => simp [actual, out, isEnd, deliver]
    | cancel => simp [actual, out, isEnd, deliver]

/-- **C17** In every run, whatever source, subscriber and other goroutines do: a subscriber sees what it was told, in
order and without loss, up to the first end or cancellation, and nothing afterwards. -/
theorem flux_delivers (host : Bool) (src : Src) (xs : List V) (as : List (Action V E)) (s : State V E V)
    (hr : run (plain host src) (init xs) as = some s) (i : Nat) (b : Subscriber E) (hb : s.subs[i]? = some b) :
    seen i s.log = (deliver (calls i s.log)).filter (wanted b.h) := by
  rw [(run_inv hr hb).2.1]
  show (actual .ok _).filter _ = _
  rw [actual_ok]

theorem grammar_cons {l : List (Seen E W)} (w : W) (h : Grammar l) : Grammar (.next w :: l) := by
  obtain ⟨vs, t, h1, h2⟩ := h
  exact ⟨w :: vs, t, by simp [h1], h2⟩

theorem grammar_end {l : List (Seen E W)} (y : Seen E W) (hy : y = .complete ∨ ∃ e, y = .error e)
    (h : l = [] ∨ l = [y]) : Grammar l := by
  refine ⟨[], l, rfl, ?_⟩
  rcases h with rfl | rfl
  · exact Or.inl rfl
  · rcases hy with rfl | ⟨e, rfl⟩
    · exact Or.inr (Or.inl rfl)
    · exact Or.inr (Or.inr ⟨e, rfl⟩)

theorem filter_single {α : Type} (p : α → Bool) (y : α) : [y].filter p = [] ∨ [y].filter p = [y] := by
  cases h : p y <;> simp [h]

theorem grammar_deliver (p : Seen E V → Bool) (cs : List (Call V E)) : Grammar ((deliver cs).filter p) := by
  induction cs with
  | nil => exact ⟨[], [], rfl, Or.inl rfl⟩
  | cons x cs ih =>
    cases x with
    | next v =>
      simp only [deliver, List.filter_cons]
      split
      · exact grammar_cons v ih
      · exact ih
    | complete => exact grammar_end .complete (Or.inl rfl) (filter_single p _)
    | error e => exact grammar_end (.error e) (Or.inr ⟨e, rfl⟩) (filter_single p _)
    | cancel => exact ⟨[], [], rfl, Or.inl rfl⟩

/-- **C17** What a subscriber sees is a sequence of values followed by at most one end. -/
theorem flux_grammar (host : Bool) (src : Src) (xs : List V) (as : List (Action V E)) (s : State V E V)
    (hr : run (plain host src) (init xs) as = some s) (i : Nat) : Grammar (seen i s.log) := by
  cases hb : s.subs[i]? with
  | some b =>
    rw [flux_delivers host src xs as s hr i b hb]
    exact grammar_deliver _ _
  | none =>
    have h := InvD_run as (InvD_init (plain host src : Cfg V E V).tx i xs) hr
    unfold InvD at h
    simp only [hb] at h
    rw [h.2.1]
    exact ⟨[], [], rfl, Or.inl rfl⟩

/-- A source that goes on after completing. -/
example : (run (V := Nat) (E := String) (plain true .user) (init [])
    [.subscribe 0 all, .signal 0 0 (.next 1), .ret 0, .signal 0 0 (.next 2), .ret 0, .signal 0 0 .complete, .ret 0, .ret 0,
     .signal 0 0 (.next 3), .signal 0 0 (.error "late")]).map (fun s => seen 0 s.log) =
    some [.next 1, .next 2, .complete] := by decide

/-! ## C18 -/

/-- The signals a subscription should end with: that of its first end, if there was one. -/
def ending : List (Call V E) → List Signal
  | [] => []
  | .next _ :: r => ending r
  | .complete :: _ => [.complete]
  | .error _ :: _ => [.error]
  | .cancel :: _ => [.cancel]

/-- Cancelled after the end, or again. -/
def lateCancel : List (Call V E) → Bool
  | [] => false
  | .next _ :: r => lateCancel r
  | _ :: r => r.any fun x => match x with
    | .cancel => true
    | _ => false

theorem finals_late (tx : V → Except E W) (r : List (Call V E)) (h : (r.any fun x => match x with
    | .cancel => true
    | _ => false) = false) : finals tx true r = [] := by
  induction r with
  | nil => rfl
  | cons x r ih =>
    simp only [List.any_cons, Bool.or_eq_false_iff] at h
    cases x with
    | next v => simpa [finals, finOut] using ih h.2
    | complete => simpa [finals, finOut] using ih h.2
    | error e => simpa [finals, finOut] using ih h.2
    | cancel => simp at h

theorem finals_ok (cs : List (Call V E)) (h : lateCancel cs = false) :
    finals (.ok : V → Except E V) false cs = ending cs := by
  induction cs with
  | nil => rfl
  | cons x r ih =>
    cases x with
    | next v => simpa [finals, finOut, isEnd, ending] using ih h
    | complete => simp [finals, finOut, isEnd, ending, finals_late _ r h]
    | error e => simp [finals, finOut, isEnd, ending, finals_late _ r h]
    | cancel => simp [finals, finOut, isEnd, ending, finals_late _ r h]

theorem ending_le (cs : List (Call V E)) : ending cs = [] ∨ ∃ a, ending cs = [a] := by
  induction cs with
  | nil => exact Or.inl rfl
  | cons x r ih =>
    cases x with
    | next v => exact ih
    | complete => exact Or.inr ⟨_, rfl⟩
    | error e => exact Or.inr ⟨_, rfl⟩
    | cancel => exact Or.inr ⟨_, rfl⟩

theorem eq_of_count {l : List Signal} {m : List Signal} (hm : m = [] ∨ ∃ a, m = [a])
    (h : ∀ sg, l.count sg = m.count sg) : l = m := by
  have hp : l.Perm m := List.perm_iff_count.mpr h
  rcases hm with rfl | ⟨a, rfl⟩
  · exact List.perm_nil.mp hp
  · exact List.perm_singleton.mp hp

/-- **C18**, part of the claim: unless a subscription is cancelled after its end or twice, its finalizer runs exactly
once when the subscription ends, with the signal of the end, and never otherwise. Missing: such cancellations. -/
theorem finalizer_once_partial (host : Bool) (src : Src) (xs : List V) (as : List (Action V E)) (s : State V E V)
    (hr : run (plain host src) (init xs) as = some s) (i : Nat) (b : Subscriber E) (hb : s.subs[i]? = some b)
    (hf : b.h.onFinally = true) (hl : lateCancel (calls i s.log) = false) (hp : s.pending = []) :
    fins i s.log = ending (calls i s.log) := by
  apply eq_of_count (ending_le _)
  intro sg
  have h := (run_inv hr hb).2.2 hf sg
  have e : finals (plain host src : Cfg V E V).tx false (calls i s.log) = ending (calls i s.log) := finals_ok _ hl
  rw [e] at h
  simpa [bal, hp, pendFin] using h

theorem count_finals_end (tx : V → Except E W) (cs : List (Call V E)) :
    (finals tx true cs).count .cancel = cs.countP fun x => x.isCancel := by
  induction cs with
  | nil => rfl
  | cons x r ih =>
    cases x with
    | next v => simp [finals, finOut, Call.isCancel, ih]
    | complete => simp [finals, finOut, Call.isCancel, ih]
    | error e => simp [finals, finOut, Call.isCancel, ih]
    | cancel => simp [finals, finOut, Call.isCancel, ih]

theorem count_finals (cs : List (Call V E)) :
    (finals (.ok : V → Except E V) false cs).count .cancel = cs.countP fun x => x.isCancel := by
  induction cs with
  | nil => rfl
  | cons x r ih =>
    cases x with
    | next v => simpa [finals, finOut, isEnd, Call.isCancel] using ih
    | complete => simp [finals, finOut, isEnd, Call.isCancel, count_finals_end]
    | error e => simp [finals, finOut, isEnd, Call.isCancel, count_finals_end]
    | cancel => simp [finals, finOut, isEnd, Call.isCancel, count_finals_end]

/-- What happens otherwise: the finalizer is called with "cancelled" once for every cancellation, whether the
subscription had ended or not. -/
theorem finalizer_per_cancel (host : Bool) (src : Src) (xs : List V) (as : List (Action V E)) (s : State V E V)
    (hr : run (plain host src) (init xs) as = some s) (i : Nat) (b : Subscriber E) (hb : s.subs[i]? = some b)
    (hf : b.h.onFinally = true) (hp : s.pending = []) :
    (fins i s.log).count .cancel = (calls i s.log).countP fun x => x.isCancel := by
  have h := (run_inv hr hb).2.2 hf .cancel
  have e : finals (plain host src : Cfg V E V).tx false (calls i s.log) = finals .ok false (calls i s.log) := rfl
  rw [e, count_finals] at h
  simpa [bal, hp, pendFin] using h

/-- The hypotheses of `finalizer_once_partial` are met by a subscription that fails. -/
example : (run (V := Nat) (E := String) (plain false .user) (init [])
    [.subscribe 0 all, .ret 0, .signal 0 0 (.next 1), .ret 0, .signal 0 0 (.error "boom"), .ret 0, .ret 0,
     .signal 0 0 .complete]).map (fun s => (fins 0 s.log, lateCancel (calls 0 s.log), s.pending)) =
    some ([.error], false, []) := by decide

/-- **C18** is false: the finalizer runs a second time when a subscription is cancelled after it completed. -/
theorem finalizer_twice_refuted : (run (V := Nat) (E := String) (plain true .user) (init [])
    [.subscribe 0 all, .ret 0, .signal 0 0 .complete, .ret 0, .ret 0, .signal 0 0 .cancel, .ret 0]).map
      (fun s => (fins 0 s.log, s.pending)) = some ([.complete, .cancel], []) := by decide

/-! ## C20 -/

/-- The transform fails for none of the values. -/
def neverFails (tx : V → Except E W) (cs : List (Call V E)) : Bool :=
  cs.all fun x => match x with
    | .next v => match tx v with
      | .ok _ => true
      | .error _ => false
    | _ => true

theorem actual_map (tx : V → Except E W) (cs : List (Call V E)) (h : neverFails tx cs = true) :
    actual tx cs = deliverMap tx cs := by
  induction cs with
  | nil => rfl
  | cons x r ih =>
    simp only [neverFails, List.all_cons, Bool.and_eq_true] at h
    cases x with
    | next v =>
      cases ht : tx v with
      | ok w => simp [actual, out, isEnd, deliverMap, ht, ih h.2]
      | error e => simp [ht] at h
    | complete => simp [actual, out, isEnd, deliverMap]
    | error e => simp [actual, out, isEnd, deliverMap]
    | cancel => simp [actual, out, isEnd, deliverMap]

theorem finals_map (tx : V → Except E W) (e : Bool) (cs : List (Call V E)) (h : neverFails tx cs = true) :
    finals tx e cs = finals (.ok : V → Except E V) e cs := by
  induction cs generalizing e with
  | nil => rfl
  | cons x r ih =>
    simp only [neverFails, List.all_cons, Bool.and_eq_true] at h
    simp only [finals, ih _ h.2]
    congr 1
    cases x with
    | next v =>
      cases e with
      | true => rfl
      | false =>
        cases ht : tx v with
        | ok w => simp [finOut, ht]
        | error e => simp [ht] at h
    | complete => cases e <;> rfl
    | error e' => cases e <;> rfl
    | cancel => cases e <;> rfl

/-- **C20**, part of the claim: as long as the transform does not fail, a subscriber of a mapped flux sees exactly the
transformed values and the end of the source, and its finalizer runs once. Missing: transforms that fail. -/
theorem map_flux_partial (c : Cfg V E W) (xs : List V) (as : List (Action V E)) (s : State V E W)
    (hr : run c (init xs) as = some s) (i : Nat) (b : Subscriber E) (hb : s.subs[i]? = some b)
    (hn : neverFails c.tx (calls i s.log) = true) :
    seen i s.log = (deliverMap c.tx (calls i s.log)).filter (wanted b.h) ∧
      (b.h.onFinally = true → lateCancel (calls i s.log) = false → s.pending = [] →
        fins i s.log = ending (calls i s.log)) := by
  have h := run_inv hr hb
  refine ⟨by rw [h.2.1, actual_map _ _ hn], fun hf hl hp => ?_⟩
  apply eq_of_count (ending_le _)
  intro sg
  have h := h.2.2 hf sg
  rw [finals_map _ _ _ hn, finals_ok _ hl] at h
  simpa [bal, hp, pendFin] using h

/-- The first failure is the last call in the part of the history that is looked at. -/
theorem map_flux_first_failure_partial (c : Cfg V E W) (xs : List V) (as : List (Action V E)) (s : State V E W)
    (hr : run c (init xs) as = some s) (i : Nat) (b : Subscriber E) (hb : s.subs[i]? = some b)
    (cs : List (Call V E)) (v : V) (e : E) (hc : calls i s.log = cs ++ [.next v]) (hn : neverFails c.tx cs = true)
    (he : c.tx v = .error e) : seen i s.log = (deliverMap c.tx (calls i s.log)).filter (wanted b.h) := by
  rw [(run_inv hr hb).2.1, hc, actual_snoc, actual_map _ _ hn]
  congr 1
  clear hc hb hr
  induction cs with
  | nil => simp [ended, deliverMap, out, he]
  | cons x r ih =>
    simp only [neverFails, List.all_cons, Bool.and_eq_true] at hn
    cases x with
    | next u =>
      cases ht : c.tx u with
      | ok w =>
        have := ih hn.2
        have e' : ended (.next u :: r : List (Call V E)) = ended r := by simp [ended, isEnd]
        simp only [e', deliverMap, ht, List.cons_append, this]
      | error e => simp [ht] at hn
    | complete => simp [ended, isEnd, deliverMap]
    | error e => simp [ended, isEnd, deliverMap]
    | cancel => simp [ended, isEnd, deliverMap]

/-- Fails for zero. -/
def inverse (v : Nat) : Except String Nat := if v = 0 then .error "zero" else .ok (100 / v)

example : (run ⟨true, .slice, inverse⟩ (init [1, 2])
    [.subscribe 0 all, .request 0 0 5, .start 1 0, .ret 1, .ret 1, .ret 1, .ret 1, .ret 1, .ret 1, .ret 1, .ret 1]).map
      (fun s => (seen 0 s.log, neverFails inverse (calls 0 s.log), fins 0 s.log, s.pending.isEmpty)) =
    some ([.next 100, .next 50, .complete], true, [.complete], true) := by decide

/-- **C20** is false when the transform fails: values keep coming after the error, the source's end is delivered as
well, and the finalizer runs twice. -/
theorem map_flux_failure_refuted : (run ⟨true, .slice, inverse⟩ (init [1, 0, 2])
    [.subscribe 0 all, .request 0 0 5, .start 1 0, .ret 1, .ret 1, .ret 1, .ret 1, .ret 1, .ret 1, .ret 1, .ret 1, .ret 1,
     .ret 1, .ret 1]).map (fun s => (seen 0 s.log, fins 0 s.log, s.pending)) =
    some ([.next 100, .error "zero", .next 50, .complete], [.error, .complete], []) := by decide

end Iota.Props.Flux
