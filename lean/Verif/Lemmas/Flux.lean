import Verif.Spec.Flux

/-! # Invariants of the flux machine: what subscribers and finalizers see -/

namespace Iota.Lemmas.Flux
open Iota.Flux Iota.Spec.Flux

variable {V E W : Type}

def isEnd : Call V E → Bool
  | .next _ => false
  | _ => true

def ended (cs : List (Call V E)) : Bool := cs.any isEnd

def out (tx : V → Except E W) : Call V E → List (Seen E W)
  | .next v =>
    match tx v with
    | .ok w => [.next w]
    | .error e => [.error e]
  | .complete => [.complete]
  | .error e => [.error e]
  | .cancel => []

/-- What the subscriber really sees: a failing transform is no end. -/
def actual (tx : V → Except E W) : List (Call V E) → List (Seen E W)
  | [] => []
  | x :: r => out tx x ++ (if isEnd x then [] else actual tx r)

def finOut (tx : V → Except E W) : Bool → Call V E → List Signal
  | false, .next v =>
    match tx v with
    | .ok _ => []
    | .error _ => [.error]
  | false, .complete => [.complete]
  | false, .error _ => [.error]
  | _, .cancel => [.cancel]
  | _, _ => []

/-- The finalizer calls that the calls lead to. -/
def finals (tx : V → Except E W) (e : Bool) : List (Call V E) → List Signal
  | [] => []
  | x :: r => finOut tx e x ++ finals tx (e || isEnd x) r

theorem ended_snoc (cs : List (Call V E)) (x : Call V E) : ended (cs ++ [x]) = (ended cs || isEnd x) := by simp [ended]

theorem actual_snoc (tx : V → Except E W) (cs : List (Call V E)) (x : Call V E) :
    actual tx (cs ++ [x]) = actual tx cs ++ (if ended cs then [] else out tx x) := by
  induction cs with
  | nil =>
    simp only [List.nil_append, actual, ended, List.any_nil]
    cases isEnd x <;> simp
  | cons y cs ih =>
    simp only [List.cons_append, actual, ih, ended, List.any_cons]
    by_cases hy : isEnd y = true
    · simp [hy]
    · simp [hy]

theorem finals_snoc (tx : V → Except E W) (cs : List (Call V E)) (x : Call V E) (e : Bool) :
    finals tx e (cs ++ [x]) = finals tx e cs ++ finOut tx (e || ended cs) x := by
  induction cs generalizing e with
  | nil => simp [finals, ended]
  | cons y cs ih =>
    simp only [List.cons_append, finals, ih, ended, List.any_cons, List.append_assoc, Bool.or_assoc]

/-- The finalizer calls that a callback in progress will make. -/
def owesFin (i : Nat) (sg : Signal) : Frame → Bool
  | .afterSig j s => decide (j = i) && decide (s = sg)
  | .afterCancel j => decide (j = i) && decide (sg = .cancel)
  | .afterMapError j => decide (j = i) && decide (sg = .error)
  | _ => false

def pendFin (i : Nat) (sg : Signal) (p : List (Nat × Frame)) : Nat := p.countP fun x => owesFin i sg x.2

def bal (i : Nat) (sg : Signal) (s : State V E W) : Nat := (fins i s.log).count sg + pendFin i sg s.pending

def core (b : Subscriber E) : Bool × Handlers := (b.closed, b.h)

/-- `s'` tells nothing new about subscriber `i`. -/
structure Keep (i : Nat) (s s' : State V E W) : Prop where
  calls : calls i s'.log = calls i s.log
  seen : seen i s'.log = seen i s.log
  bal : ∀ sg, bal i sg s' = bal i sg s
  core : (s'.subs[i]?).map core = (s.subs[i]?).map core

theorem Keep.refl (i : Nat) (s : State V E W) : Keep i s s := ⟨rfl, rfl, fun _ => rfl, rfl⟩

theorem Keep.trans {i : Nat} {s t u : State V E W} (h : Keep i s t) (k : Keep i t u) : Keep i s u :=
  ⟨k.calls.trans h.calls, k.seen.trans h.seen, fun sg => (k.bal sg).trans (h.bal sg), k.core.trans h.core⟩

/-- Invariant of subscriber `i`; `d` finalizer calls are still owed by code outside `pending`. -/
def InvD (tx : V → Except E W) (i : Nat) (d : Signal → Nat) (s : State V E W) : Prop :=
  match s.subs[i]? with
  | none => calls i s.log = [] ∧ seen i s.log = [] ∧ ∀ sg, bal i sg s + d sg = 0
  | some b => b.closed = ended (calls i s.log) ∧ seen i s.log = (actual tx (calls i s.log)).filter (wanted b.h) ∧
      (b.h.onFinally = true → ∀ sg, bal i sg s + d sg = (finals tx false (calls i s.log)).count sg)

abbrev zero : Signal → Nat := fun _ => 0

theorem InvD_keep {tx : V → Except E W} {i : Nat} {d : Signal → Nat} {s s' : State V E W} (h : InvD tx i d s)
    (k : Keep i s s') : InvD tx i d s' := by
  have hc := k.core
  unfold InvD at *
  cases hs : s.subs[i]? with
  | none =>
    rw [hs] at hc
    cases hs' : s'.subs[i]? with
    | none =>
      simp only [hs] at h
      exact ⟨k.calls.trans h.1, k.seen.trans h.2.1, fun sg => by rw [k.bal]; exact h.2.2 sg⟩
    | some b => rw [hs'] at hc; cases hc
  | some b =>
    rw [hs] at hc
    cases hs' : s'.subs[i]? with
    | none => rw [hs'] at hc; cases hc
    | some b' =>
      simp only [hs] at h
      rw [hs'] at hc
      simp only [Option.map_some, Option.some.injEq, core, Prod.mk.injEq] at hc
      refine ⟨?_, ?_, ?_⟩
      · rw [hc.1, k.calls]; exact h.1
      · rw [hc.2, k.calls, k.seen]; exact h.2.1
      · intro hf sg
        rw [k.bal, k.calls]
        exact h.2.2 (by rw [← hc.2]; exact hf) sg

/-! Primitive steps. -/

/-- The event says nothing about subscriber `i`. -/
def mute (i : Nat) (e : Ev V E W) : Prop := callOf i e = none ∧ seenOf i e = none ∧ finOf i e = none

theorem keep_emit {i : Nat} {e : Ev V E W} (s : State V E W) (h : mute i e) : Keep i s (emit s e) := by
  refine ⟨?_, ?_, fun sg => ?_, rfl⟩
  · simp [calls, emit, h.1]
  · simp [seen, emit, h.2.1]
  · simp [bal, fins, emit, h.2.2]

theorem keep_push {i : Nat} {f : Frame} (s : State V E W) (g : Nat) (h : ∀ sg, owesFin i sg f = false) :
    Keep i s (push s g f) := by
  refine ⟨rfl, rfl, fun sg => ?_, rfl⟩
  simp [bal, push, pendFin, h sg]

theorem keep_setSub {i j : Nat} {f : Subscriber E → Subscriber E} (s : State V E W)
    (h : j ≠ i ∨ ∀ b, core (f b) = core b) : Keep i s (setSub s j f) := by
  refine ⟨rfl, rfl, fun sg => rfl, ?_⟩
  simp only [setSub, List.getElem?_modify]
  cases s.subs[i]? with
  | none => simp
  | some b =>
    by_cases hj : j = i
    · rcases h with h | h
      · exact absurd hj h
      · simp [hj, h b]
    · simp [hj]

theorem keep_other {i : Nat} {s s' : State V E W} (h1 : s'.log = s.log) (h2 : s'.pending = s.pending)
    (h3 : s'.subs = s.subs) : Keep i s s' :=
  ⟨by rw [h1], by rw [h1], fun sg => by simp only [bal, h1, h2], by rw [h3]⟩

theorem keep_runLoop (i g : Nat) (sig : Signal) (rest : List Nat) (s : State V E W) : Keep i s (runLoop g sig rest s) := by
  cases rest with
  | nil => exact Keep.refl i s
  | cons k ks => exact (keep_emit s ⟨rfl, rfl, rfl⟩).trans (keep_push _ g fun _ => rfl)

theorem keep_startLoop (i g j : Nat) (sig : Signal) (s : State V E W) : Keep i s (startLoop g j sig s) :=
  (keep_emit s ⟨rfl, rfl, rfl⟩).trans (keep_runLoop i g sig _ _)

theorem keep_callRequest (i : Nat) (src : Src) (g j : Nat) (n : Int) (f : Frame) (s : State V E W)
    (hf : ∀ sg, owesFin i sg f = false) : Keep i s (callRequest src g j n f s) := by
  have h1 : Keep i s (push (emit s (.request j n)) g f) := (keep_emit s ⟨rfl, rfl, rfl⟩).trans (keep_push _ g hf)
  cases src with
  | user => exact h1
  | slice => exact h1.trans (keep_push _ g fun _ => rfl)
  | resp => exact h1.trans (keep_push _ g fun _ => rfl)

theorem keep_doRequest (i : Nat) (c : Cfg V E W) (g j : Nat) (n : Int) (r : Bool) (s : State V E W) :
    Keep i s (doRequest c g j n r s) := by
  unfold doRequest
  split
  · exact keep_other rfl rfl rfl
  · split
    · exact keep_callRequest i _ g j n _ s fun _ => rfl
    · exact keep_other rfl rfl rfl

theorem keep_request (i : Nat) (c : Cfg V E W) (g j : Nat) (n : Int) (s : State V E W) :
    Keep i s (request c g j n s) := by
  unfold request
  split
  · exact Keep.refl i s
  · have h1 : Keep i s (setSub (emit s (.asked j n)) j fun b => { b with n := b.n + n }) :=
      (keep_emit s ⟨rfl, rfl, rfl⟩).trans (keep_setSub _ (Or.inr fun _ => rfl))
    split
    · exact h1.trans (keep_doRequest i c g j n _ _)
    · exact h1

theorem keep_handle (i : Nat) (c : Cfg V E W) (g j : Nat) (h : Handlers) (s : State V E W) :
    Keep i s (handleOnSubscribe c g j h s) := by
  unfold handleOnSubscribe
  split
  · exact Keep.refl i s
  · split
    · exact (keep_emit s ⟨rfl, rfl, rfl⟩).trans (keep_push _ g fun _ => rfl)
    · exact keep_request i c g j _ s

theorem keep_endNext (i : Nat) (c : Cfg V E W) (g j : Nat) (s : State V E W) : Keep i s (endNext c g j s) := by
  unfold endNext
  split
  · exact Keep.refl i s
  · split
    · exact keep_handle i c g j _ s
    · exact Keep.refl i s

theorem keep_notify (i g : Nat) (s : State V E W) : Keep i s (notify g s) := by
  have hreg : Keep i s { s with nextFn := s.nextFn + 1, callbacks := s.callbacks ++ [s.nextFn], log := .reg s.nextFn :: s.log } :=
    (keep_emit s (e := .reg s.nextFn) ⟨rfl, rfl, rfl⟩).trans (keep_other rfl rfl rfl)
  unfold notify
  split
  · split
    · have h0 : Keep i s { s with nextFn := s.nextFn + 1 } := keep_other rfl rfl rfl
      exact ((h0.trans (keep_emit _ ⟨rfl, rfl, rfl⟩)).trans (keep_emit _ ⟨rfl, rfl, rfl⟩)).trans (keep_push _ g fun _ => rfl)
    · exact hreg
  · exact hreg

theorem keep_runFinally_other {i j : Nat} (hij : j ≠ i) (g : Nat) (sig : Signal) (h : Handlers) (s : State V E W) :
    Keep i s (runFinally g j sig h s) := by
  unfold runFinally
  have h1 : Keep i s (setSub s j fun b => { b with signal := sig }) := keep_setSub s (Or.inr fun _ => rfl)
  split
  · exact (h1.trans (keep_emit _ ⟨rfl, rfl, by simp [finOf, hij]⟩)).trans (keep_push _ g fun _ => rfl)
  · exact h1.trans (keep_startLoop i g j sig _)

theorem keep_mapFinally_other {i j : Nat} (hij : j ≠ i) (c : Cfg V E W) (g : Nat) (h : Handlers) (s : State V E W) :
    Keep i s (mapFinally c g j h s) := by
  unfold mapFinally
  split
  · exact (keep_emit _ ⟨rfl, rfl, by simp [finOf, hij]⟩).trans (keep_push _ g fun _ => rfl)
  · exact keep_endNext i c g j s

theorem keep_callNext_other {i j : Nat} (hij : j ≠ i) (c : Cfg V E W) (g : Nat) (v : V) (h : Handlers) (s : State V E W) :
    Keep i s (callNext c g j v h s) := by
  unfold callNext
  split
  · split
    · exact (keep_emit _ ⟨rfl, by simp [seenOf, hij], rfl⟩).trans (keep_push _ g fun _ => rfl)
    · exact keep_endNext i c g j s
  · split
    · exact (keep_emit _ ⟨rfl, by simp [seenOf, hij], rfl⟩).trans (keep_push _ g fun _ => by simp [owesFin, hij])
    · exact keep_mapFinally_other hij c g h s

theorem keep_tell_other {i j : Nat} (hij : j ≠ i) (c : Cfg V E W) (g : Nat) (b : Subscriber E) (x : Call V E) (s : State V E W) :
    Keep i s (tell c g j b x s) := by
  have h1 : Keep i s (emit s (.called j x)) := keep_emit s ⟨by simp [callOf, hij], rfl, rfl⟩
  have h2 : ∀ f, Keep i s (setSub (emit s (.called j x)) j f) := fun f => h1.trans (keep_setSub _ (Or.inl hij))
  have h3 : ∀ f e, (callOf i e = none ∧ seenOf i e = none ∧ finOf i e = none) →
      Keep i s (emit (setSub (emit s (.called j x)) j f) e) := fun f e he => (h2 f).trans (keep_emit _ he)
  cases x with
  | next v =>
    simp only [tell]
    split
    · exact h1
    · exact (h2 _).trans (keep_callNext_other hij c g v b.h _)
  | complete =>
    simp only [tell]
    split
    · exact h1
    · split
      · exact (h3 _ _ ⟨rfl, by simp [seenOf, hij], rfl⟩).trans (keep_push _ g fun _ => by simp [owesFin, hij])
      · exact (h2 _).trans (keep_runFinally_other hij g _ _ _)
  | error e =>
    simp only [tell]
    split
    · exact h1
    · split
      · exact (h3 _ _ ⟨rfl, by simp [seenOf, hij], rfl⟩).trans (keep_push _ g fun _ => by simp [owesFin, hij])
      · exact (h2 _).trans (keep_runFinally_other hij g _ _ _)
  | cancel =>
    simp only [tell]
    split
    · exact (h3 _ _ ⟨rfl, rfl, rfl⟩).trans (keep_push _ g fun _ => by simp [owesFin, hij])
    · split
      · exact (h3 _ _ ⟨rfl, rfl, by simp [finOf, hij]⟩).trans (keep_push _ g fun _ => rfl)
      · exact h2 _

/-! Steps of the subscriber itself. -/

theorem InvD_called {tx : V → Except E W} {i : Nat} {d d' : Signal → Nat} {s s' : State V E W} {b b' : Subscriber E} {x : Call V E}
    (h : InvD tx i d s) (hb : s.subs[i]? = some b) (hb' : s'.subs[i]? = some b') (hh : b'.h = b.h)
    (hcl : b'.closed = (b.closed || isEnd x)) (hc : calls i s'.log = calls i s.log ++ [x])
    (hs : seen i s'.log = seen i s.log ++ (if b.closed then [] else out tx x).filter (wanted b.h))
    (hf : b.h.onFinally = true → ∀ sg, bal i sg s' + d' sg = bal i sg s + d sg + (finOut tx b.closed x).count sg) :
    InvD tx i d' s' := by
  unfold InvD at *
  simp only [hb, hb'] at *
  obtain ⟨h1, h2, h3⟩ := h
  refine ⟨?_, ?_, ?_⟩
  · rw [hcl, hc, ended_snoc, h1]
  · rw [hc, hs, h2, actual_snoc, List.filter_append, hh, h1]
  · intro hfin sg
    rw [hh] at hfin
    rw [hc, finals_snoc, List.count_append, Bool.false_or, ← h1, hf hfin sg, h3 hfin sg]

theorem calls_cons (i : Nat) (e : Ev V E W) (l : List (Ev V E W)) : calls i (e :: l) = calls i l ++ (callOf i e).toList := by
  simp only [calls, List.filterMap_cons]
  cases callOf i e <;> simp

theorem seen_cons (i : Nat) (e : Ev V E W) (l : List (Ev V E W)) : seen i (e :: l) = seen i l ++ (seenOf i e).toList := by
  simp only [seen, List.filterMap_cons]
  cases seenOf i e <;> simp

theorem fins_cons (i : Nat) (e : Ev V E W) (l : List (Ev V E W)) : fins i (e :: l) = fins i l ++ (finOf i e).toList := by
  simp only [fins, List.filterMap_cons]
  cases finOf i e <;> simp

theorem get_setSub {s : State V E W} {i : Nat} {b : Subscriber E} (hb : s.subs[i]? = some b) (f : Subscriber E → Subscriber E) :
    (setSub s i f).subs[i]? = some (f b) := by
  simp [setSub, List.getElem?_modify, hb]

/-- Running the finalizer pays the debt. -/
theorem InvD_runFinally {tx : V → Except E W} {i g : Nat} {sig : Signal} {d : Signal → Nat} {s : State V E W} {b : Subscriber E}
    {hd : Handlers} (hb : s.subs[i]? = some b) (hhd : hd = b.h)
    (h : InvD tx i (fun sg => d sg + if sg = sig then 1 else 0) s) : InvD tx i d (runFinally g i sig hd s) := by
  subst hhd
  unfold runFinally
  have hs : (setSub s i fun b => { b with signal := sig }).subs[i]? = some { b with signal := sig } := get_setSub hb _
  split
  · rename_i hf
    unfold InvD at h ⊢
    simp only [hb] at h
    simp only [push, emit, hs]
    obtain ⟨h1, h2, h3⟩ := h
    refine ⟨?_, ?_, ?_⟩
    · simpa [calls_cons, callOf, setSub] using h1
    · simpa [calls_cons, callOf, seen_cons, seenOf, setSub] using h2
    · intro _ sg
      have := h3 hf sg
      simp only [bal, fins_cons, finOf, setSub, calls_cons, callOf, pendFin, List.countP_cons, owesFin, if_true,
        Option.toList_some, Option.toList_none, List.append_nil, List.count_append, List.count_singleton] at this ⊢
      have e : (if (sig == sg) = true then 1 else 0) = (if sg = sig then 1 else 0 : Nat) := by
        by_cases hq : sg = sig
        · simp [hq]
        · have : ¬ sig = sg := fun h => hq h.symm
          simp [hq, this]
      rw [e]
      simp only [Bool.false_eq_true, if_false, Nat.add_zero]
      omega
  · rename_i hf
    have hk : Keep i s (setSub s i fun b => { b with signal := sig }) := keep_setSub s (Or.inr fun _ => rfl)
    refine InvD_keep ?_ (hk.trans (keep_startLoop i g i sig _))
    unfold InvD at h ⊢
    simp only [hb] at h ⊢
    exact ⟨h.1, h.2.1, fun hh => absurd hh hf⟩

theorem InvD_mapFinally {c : Cfg V E W} {i g : Nat} {d : Signal → Nat} {s : State V E W} {b : Subscriber E}
    {hd : Handlers} (hb : s.subs[i]? = some b) (hhd : hd = b.h)
    (h : InvD c.tx i (fun sg => d sg + if sg = .error then 1 else 0) s) : InvD c.tx i d (mapFinally c g i hd s) := by
  subst hhd
  unfold mapFinally
  split
  · rename_i hf
    unfold InvD at h ⊢
    simp only [hb] at h
    simp only [push, emit, hb]
    obtain ⟨h1, h2, h3⟩ := h
    refine ⟨?_, ?_, ?_⟩
    · simpa [calls_cons, callOf, setSub] using h1
    · simpa [calls_cons, callOf, seen_cons, seenOf, setSub] using h2
    · intro _ sg
      have := h3 hf sg
      simp only [bal, fins_cons, finOf, calls_cons, callOf, pendFin, List.countP_cons, owesFin, if_true,
        Option.toList_some, Option.toList_none, List.append_nil, List.count_append, List.count_singleton] at this ⊢
      have e : (if (Signal.error == sg) = true then 1 else 0) = (if sg = .error then 1 else 0 : Nat) := by
        cases sg <;> decide
      rw [e]
      simp only [Bool.false_eq_true, if_false, Nat.add_zero]
      omega
  · rename_i hf
    refine InvD_keep ?_ (keep_endNext i c g i s)
    unfold InvD at h ⊢
    simp only [hb] at h ⊢
    exact ⟨h.1, h.2.1, fun hh => absurd hh hf⟩

/-- Being told something while closed. -/
theorem InvD_ignored {tx : V → Except E W} {i : Nat} {d : Signal → Nat} {s : State V E W} {b : Subscriber E} {x : Call V E}
    (h : InvD tx i d s) (hb : s.subs[i]? = some b) (hcl : b.closed = true) (hx : x ≠ .cancel) :
    InvD tx i d (emit s (.called i x)) := by
  refine InvD_called (x := x) h hb (b' := b) hb rfl (by simp [hcl]) (by simp [emit, calls_cons, callOf]) ?_ ?_
  · simp [emit, seen_cons, seenOf, hcl]
  · intro _ sg
    have : (finOut tx true x).count sg = 0 := by
      cases x with
      | next v => rfl
      | complete => rfl
      | error e => rfl
      | cancel => exact absurd rfl hx
    rw [hcl, this]
    simp [bal, emit, fins_cons, finOf]

/-- The call itself, the subscriber being open and no callback having run. -/
theorem InvD_open {tx : V → Except E W} {i : Nat} {d : Signal → Nat} {s : State V E W} {b : Subscriber E} {x : Call V E}
    {f : Subscriber E → Subscriber E}
    (h : InvD tx i d s) (hb : s.subs[i]? = some b) (hcl : b.closed = false) (hh : (f b).h = b.h)
    (hc : (f b).closed = isEnd x) (ho : (out tx x).filter (wanted b.h) = []) :
    InvD tx i (fun sg => d sg + (finOut tx false x).count sg) (setSub (emit s (.called i x)) i f) := by
  have hb2 : (emit s (.called i x)).subs[i]? = some b := hb
  refine InvD_called h hb (get_setSub hb2 f) hh (by rw [hc, hcl]; rfl) ?_ ?_ ?_
  · simp [setSub, emit, calls_cons, callOf]
  · simp [setSub, emit, seen_cons, seenOf, hcl, ho]
  · intro _ sg
    rw [hcl]
    simp only [bal, setSub, emit, fins_cons, finOf, Option.toList_none, List.append_nil]
    omega

/-- The call and its callback, which owes the finalizer calls. -/
theorem InvD_told {tx : V → Except E W} {i g : Nat} {d : Signal → Nat} {s : State V E W} {b : Subscriber E} {x : Call V E}
    {f : Subscriber E → Subscriber E} {e : Ev V E W} {fr : Frame} {y : Seen E W}
    (h : InvD tx i d s) (hb : s.subs[i]? = some b) (hcl : b.closed = false) (hh : (f b).h = b.h)
    (hc : (f b).closed = isEnd x) (ho : (out tx x).filter (wanted b.h) = [y])
    (he : callOf i e = none ∧ seenOf i e = some y ∧ finOf i e = none)
    (hfr : ∀ sg, (if owesFin i sg fr then 1 else 0) = (finOut tx false x).count sg) :
    InvD tx i d (push (emit (setSub (emit s (.called i x)) i f) e) g fr) := by
  have hb2 : (emit s (.called i x)).subs[i]? = some b := hb
  have c1 : callOf i (.called i x : Ev V E W) = some x := by simp [callOf]
  have c2 : seenOf i (.called i x : Ev V E W) = none := rfl
  have c3 : finOf i (.called i x : Ev V E W) = none := rfl
  refine InvD_called (x := x) h hb (get_setSub hb2 f) hh (by rw [hc, hcl]; rfl) ?_ ?_ ?_
  · simp [push, setSub, emit, calls_cons, c1, he.1]
  · simp [push, setSub, emit, seen_cons, c2, hcl, ho, he.2.1]
  · intro _ sg
    rw [hcl, ← hfr sg]
    simp only [bal, push, setSub, emit, fins_cons, c3, he.2.2, Option.toList_none, List.append_nil, pendFin,
      List.countP_cons]
    omega

theorem count_single (a sg : Signal) : [a].count sg = if sg = a then 1 else 0 := by
  cases a <;> cases sg <;> decide

theorem InvD_tell {c : Cfg V E W} {i g : Nat} {d : Signal → Nat} {s : State V E W} {b : Subscriber E} {x : Call V E}
    (h : InvD c.tx i d s) (hb : s.subs[i]? = some b) : InvD c.tx i d (tell c g i b x s) := by
  cases x with
  | next v =>
    simp only [tell]
    split
    · rename_i hcl
      exact InvD_ignored h hb hcl (by simp)
    · rename_i hcl
      have hcl : b.closed = false := by simpa using hcl
      have hb1 : ∀ f : Subscriber E → Subscriber E, (setSub (emit s (.called i (.next v))) i f).subs[i]? = some (f b) := by
        intro f
        have hb2 : (emit s (.called i (.next v))).subs[i]? = some b := hb
        exact get_setSub hb2 f
      unfold callNext
      cases ht : c.tx v with
      | ok w =>
        simp only
        by_cases hn : b.h.onNext = true
        · rw [if_pos hn]
          refine InvD_told h hb hcl (y := .next w) rfl hcl ?_ ⟨rfl, ?_, rfl⟩ ?_
          · simp [out, ht, wanted, hn]
          · simp [seenOf]
          · simp [finOut, ht, owesFin]
        · rw [if_neg hn]
          have := InvD_open (f := fun b => { b with n := b.n - 1 }) h hb hcl (x := .next v) rfl hcl
            (by simp [out, ht, wanted, hn])
          simp only [finOut, ht, List.count_nil, Nat.add_zero] at this
          exact InvD_keep this (keep_endNext i c g i _)
      | error e =>
        simp only
        by_cases hn : b.h.onError = true
        · rw [if_pos hn]
          refine InvD_told h hb hcl (y := .error e) rfl hcl ?_ ⟨rfl, ?_, rfl⟩ ?_
          · simp [out, ht, wanted, hn]
          · simp [seenOf]
          · intro sg
            simp only [finOut, ht, owesFin, count_single]
            cases sg <;> simp
        · rw [if_neg hn]
          have := InvD_open (f := fun b => { b with n := b.n - 1 }) h hb hcl (x := .next v) rfl hcl
            (by simp [out, ht, wanted, hn])
          simp only [finOut, ht, count_single] at this
          exact InvD_mapFinally (hb1 _) rfl this
  | complete =>
    simp only [tell]
    split
    · rename_i hcl
      exact InvD_ignored h hb hcl (by simp)
    · rename_i hcl
      have hcl : b.closed = false := by simpa using hcl
      by_cases hn : b.h.onComplete = true
      · rw [if_pos hn]
        refine InvD_told h hb hcl (y := .complete) rfl rfl ?_ ⟨rfl, ?_, rfl⟩ ?_
        · simp [out, wanted, hn]
        · simp [seenOf]
        · intro sg
          simp only [finOut, owesFin, count_single]
          cases sg <;> simp
      · rw [if_neg hn]
        have hb2 : (emit s (.called i .complete)).subs[i]? = some b := hb
        have := InvD_open (f := fun b => { b with closed := true }) h hb hcl (x := .complete) rfl rfl
          (by simp [out, wanted, hn])
        simp only [finOut, count_single] at this
        exact InvD_runFinally (get_setSub hb2 _) rfl this
  | error e =>
    simp only [tell]
    split
    · rename_i hcl
      exact InvD_ignored h hb hcl (by simp)
    · rename_i hcl
      have hcl : b.closed = false := by simpa using hcl
      by_cases hn : b.h.onError = true
      · rw [if_pos hn]
        refine InvD_told h hb hcl (y := .error e) rfl rfl ?_ ⟨rfl, ?_, rfl⟩ ?_
        · simp [out, wanted, hn]
        · simp [seenOf]
        · intro sg
          simp only [finOut, owesFin, count_single]
          cases sg <;> simp
      · rw [if_neg hn]
        have hb2 : (emit s (.called i (.error e))).subs[i]? = some b := hb
        have := InvD_open (f := fun b => { b with err := some e, closed := true }) h hb hcl (x := .error e) rfl rfl
          (by simp [out, wanted, hn])
        simp only [finOut, count_single] at this
        exact InvD_runFinally (get_setSub hb2 _) rfl this
  | cancel =>
    have hfo : ∀ e, finOut c.tx e .cancel = [.cancel] := by intro e; cases e <;> rfl
    have hb2 : (emit s (.called i .cancel)).subs[i]? = some b := hb
    simp only [tell]
    split
    · refine InvD_called (x := .cancel) h hb (get_setSub hb2 _) rfl (by simp [isEnd]) ?_ ?_ ?_
      · simp [push, setSub, emit, calls_cons, callOf]
      · simp [push, setSub, emit, seen_cons, seenOf, out]
      · intro _ sg
        rw [hfo, count_single]
        simp only [bal, push, setSub, emit, fins_cons, finOf, Option.toList_none, List.append_nil, pendFin,
          List.countP_cons, owesFin, decide_true, Bool.true_and, decide_eq_true_eq]
        omega
    · split
      · refine InvD_called (x := .cancel) h hb (get_setSub hb2 _) rfl (by simp [isEnd]) ?_ ?_ ?_
        · simp [push, setSub, emit, calls_cons, callOf]
        · simp [push, setSub, emit, seen_cons, seenOf, out]
        · intro _ sg
          rw [hfo]
          simp only [bal, push, setSub, emit, fins_cons, finOf, if_true, Option.toList_none, Option.toList_some, List.append_nil,
            List.count_append, pendFin, List.countP_cons, owesFin, Bool.false_eq_true, if_false]
          omega
      · rename_i hf
        refine InvD_called (x := .cancel) h hb (get_setSub hb2 _) rfl (by simp [isEnd]) ?_ ?_ ?_
        · simp [setSub, emit, calls_cons, callOf]
        · simp [setSub, emit, seen_cons, seenOf, out]
        · intro hh; exact absurd hh hf

theorem InvD_tell_any {c : Cfg V E W} {i j g : Nat} {d : Signal → Nat} {s : State V E W} {b : Subscriber E} {x : Call V E}
    (h : InvD c.tx i d s) (hb : s.subs[j]? = some b) : InvD c.tx i d (tell c g j b x s) := by
  by_cases hij : j = i
  · subst hij; exact InvD_tell h hb
  · exact InvD_keep h (keep_tell_other hij c g b x s)

theorem pop_spec {g : Nat} {p r : List (Nat × Frame)} {f : Frame} (h : pop g p = some (f, r)) :
    ∃ a b, p = a ++ (g, f) :: b ∧ r = a ++ b := by
  induction p generalizing r with
  | nil => simp [pop] at h
  | cons x p ih =>
    obtain ⟨g', f'⟩ := x
    simp only [pop] at h
    split at h
    · rename_i e
      simp only [Option.some.injEq, Prod.mk.injEq] at h
      obtain ⟨rfl, rfl⟩ := h
      exact ⟨[], p, by simp [e], rfl⟩
    · split at h
      · cases h
      · rename_i f'' r'' hp
        simp only [Option.some.injEq, Prod.mk.injEq] at h
        obtain ⟨rfl, rfl⟩ := h
        obtain ⟨a, b, h1, h2⟩ := ih hp
        exact ⟨(g', f') :: a, b, by simp [h1], by simp [h2]⟩

def debt (i : Nat) (f : Frame) : Signal → Nat := fun sg => if owesFin i sg f then 1 else 0

theorem InvD_pop {tx : V → Except E W} {i g : Nat} {s : State V E W} {f : Frame} {r : List (Nat × Frame)}
    (h : InvD tx i zero s) (hp : pop g s.pending = some (f, r)) : InvD tx i (debt i f) { s with pending := r } := by
  obtain ⟨a, b, h1, h2⟩ := pop_spec hp
  have hbal : ∀ sg, bal i sg ({ s with pending := r } : State V E W) + debt i f sg = bal i sg s := by
    intro sg
    simp only [bal, pendFin, h1, h2, List.countP_append, List.countP_cons, debt]
    omega
  unfold InvD at *
  cases hs : s.subs[i]? with
  | none =>
    simp only [hs] at h ⊢
    exact ⟨h.1, h.2.1, fun sg => by rw [hbal]; exact h.2.2 sg⟩
  | some b =>
    simp only [hs] at h ⊢
    exact ⟨h.1, h.2.1, fun hf sg => by rw [hbal]; exact h.2.2 hf sg⟩

theorem InvD_debt {tx : V → Except E W} {i : Nat} {d d' : Signal → Nat} {s : State V E W} (h : InvD tx i d s)
    (hd : ∀ sg, d sg = d' sg) : InvD tx i d' s := by
  rw [← funext hd]; exact h

/-- A debt is only owed to subscribers with a finalizer. -/
theorem InvD_forget {tx : V → Except E W} {i : Nat} {d d' : Signal → Nat} {s : State V E W} {b : Subscriber E}
    (h : InvD tx i d s) (hb : s.subs[i]? = some b) (hf : ¬ b.h.onFinally = true) : InvD tx i d' s := by
  unfold InvD at *
  simp only [hb] at *
  exact ⟨h.1, h.2.1, fun hh => absurd hh hf⟩

theorem InvD_proceed {c : Cfg V E W} {i g : Nat} {f : Frame} {s s' : State V E W}
    (h : InvD c.tx i (debt i f) s) (hp : proceed c g f s = some s') : InvD c.tx i zero s' := by
  cases f with
  | afterSource j =>
    simp only [proceed, Option.map_eq_some_iff] at hp
    obtain ⟨b, _, rfl⟩ := hp
    exact InvD_keep h (keep_handle i c g j _ s)
  | afterNext j =>
    simp only [proceed, Option.some.injEq] at hp
    subst hp
    exact InvD_keep h (keep_endNext i c g j s)
  | afterMapError j =>
    simp only [proceed, Option.map_eq_some_iff] at hp
    obtain ⟨b, hb, rfl⟩ := hp
    by_cases hij : j = i
    · subst hij
      refine InvD_mapFinally hb rfl (InvD_debt h ?_)
      intro sg; simp [debt, owesFin]
    · refine InvD_keep (InvD_debt h ?_) (keep_mapFinally_other hij c g _ s)
      intro sg; simp [debt, owesFin, hij]
  | afterSig j sig =>
    simp only [proceed, Option.map_eq_some_iff] at hp
    obtain ⟨b, hb, rfl⟩ := hp
    by_cases hij : j = i
    · subst hij
      refine InvD_runFinally hb rfl (InvD_debt h ?_)
      intro sg
      simp only [debt, owesFin, decide_true, Bool.true_and, decide_eq_true_eq, Nat.zero_add]
      by_cases hq : sig = sg
      · simp [hq]
      · rw [if_neg hq, if_neg fun h => hq h.symm]
    · refine InvD_keep (InvD_debt h ?_) (keep_runFinally_other hij g sig _ s)
      intro sg; simp [debt, owesFin, hij]
  | afterFin j sig =>
    simp only [proceed, Option.some.injEq] at hp
    subst hp
    exact InvD_keep h (keep_startLoop i g j sig s)
  | loop sig rest =>
    simp only [proceed, Option.some.injEq] at hp
    subst hp
    exact InvD_keep h (keep_runLoop i g sig rest s)
  | afterCancel j =>
    simp only [proceed, Option.map_eq_some_iff] at hp
    obtain ⟨b, hb, rfl⟩ := hp
    by_cases hij : j = i
    · subst hij
      split
      · unfold InvD at h ⊢
        simp only [hb] at h
        simp only [push, emit, hb]
        obtain ⟨h1, h2, h3⟩ := h
        refine ⟨?_, ?_, ?_⟩
        · simpa [calls_cons, callOf] using h1
        · simpa [calls_cons, callOf, seen_cons, seenOf] using h2
        · intro hf sg
          have := h3 hf sg
          simp only [bal, fins_cons, finOf, calls_cons, callOf, pendFin, List.countP_cons, owesFin, if_true, debt,
            decide_true, Bool.true_and, decide_eq_true_eq,
            Option.toList_some, Option.toList_none, List.append_nil, List.count_append, count_single] at this ⊢
          simp only [Bool.false_eq_true, if_false, Nat.add_zero]
          omega
      · rename_i hf
        exact InvD_forget h hb hf
    · have h0 := InvD_debt (d' := zero) h (by intro sg; simp [debt, owesFin, hij])
      split
      · exact InvD_keep h0 ((keep_emit s ⟨rfl, rfl, by simp [finOf, hij]⟩).trans (keep_push _ g fun _ => rfl))
      · exact h0
  | sliceLoop j n =>
    simp only [proceed, Option.map_eq_some_iff] at hp
    obtain ⟨b, hb, rfl⟩ := hp
    unfold sliceRound
    split
    · exact InvD_tell_any h hb
    · rename_i vs _
      split
      · have k0 : Keep i s { s with values := vs } := keep_other rfl rfl rfl
        have k : Keep i s (push { s with values := vs } g (.sliceLoop j (n - 1))) := k0.trans (keep_push _ g fun _ => rfl)
        exact InvD_tell_any (InvD_keep h k) hb
      · exact h
  | respLoop j num k =>
    simp only [proceed, Option.map_eq_some_iff] at hp
    obtain ⟨b, hb, rfl⟩ := hp
    unfold respRound
    split
    · split
      · have k : Keep i s (push s g (.respLoop j num (k + 1))) := keep_push _ g fun _ => rfl
        exact InvD_tell_any (InvD_keep h k) hb
      · exact InvD_keep h (keep_other rfl rfl rfl)
    · split
      · split
        · exact InvD_tell_any (s := { s with values := _ }) (InvD_keep h (keep_other rfl rfl rfl)) hb
        · exact InvD_keep h (keep_other rfl rfl rfl)
      · exact InvD_keep h (keep_other rfl rfl rfl)
  | unlock j => simp only [proceed, Option.some.injEq] at hp; subst hp; exact h
  | leaf => simp only [proceed, Option.some.injEq] at hp; subst hp; exact h

theorem InvD_addSub {tx : V → Except E W} {i : Nat} {s : State V E W} (h : InvD tx i zero s) (hd : Handlers) (r : Bool) :
    InvD tx i zero (addSub hd r s) := by
  have e1 : calls i (addSub hd r s).log = calls i s.log := by simp [addSub, calls_cons, callOf]
  have e2 : seen i (addSub hd r s).log = seen i s.log := by simp [addSub, seen_cons, seenOf]
  have e3 : ∀ sg, bal i sg (addSub hd r s) = bal i sg s := by intro sg; simp [bal, addSub, fins_cons, finOf]
  unfold InvD at *
  rw [e1, e2]
  cases hs : s.subs[i]? with
  | none =>
    simp only [hs] at h
    by_cases hi : i = s.subs.length
    · subst hi
      have hn : (addSub hd r s).subs[s.subs.length]? = some ⟨false, 0, none, r, false, .complete, hd⟩ := by simp [addSub]
      rw [hn, h.1, h.2.1]
      exact ⟨rfl, rfl, fun _ sg => by rw [e3]; exact h.2.2 sg⟩
    · have : (addSub hd r s).subs[i]? = none := by
        rw [List.getElem?_eq_none_iff] at hs ⊢
        simp only [addSub, List.length_append, List.length_cons, List.length_nil]
        omega
      rw [this]
      exact ⟨h.1, h.2.1, fun sg => by rw [e3]; exact h.2.2 sg⟩
  | some b =>
    have hl : i < s.subs.length := (List.getElem?_eq_some_iff.mp hs).1
    have : (addSub hd r s).subs[i]? = some b := by
      simp only [addSub]
      rw [List.getElem?_append_left hl, hs]
    rw [this]
    simp only [hs] at h
    exact ⟨h.1, h.2.1, fun hf sg => by rw [e3]; exact h.2.2 hf sg⟩

theorem InvD_step {c : Cfg V E W} {i : Nat} {a : Action V E} {s s' : State V E W} (h : InvD c.tx i zero s)
    (hs : step c s a = some s') : InvD c.tx i zero s' := by
  unfold step at hs
  split at hs
  · cases hs
  · cases a with
    | subscribe g hd =>
      simp only [Option.some.injEq] at hs
      subst hs
      unfold subscribe
      split
      · exact InvD_keep (InvD_addSub h hd false) (keep_push _ g fun _ => rfl)
      · exact InvD_keep (InvD_addSub h hd true) (keep_handle i c g _ hd _)
    | notify g =>
      simp only [Option.some.injEq] at hs
      subst hs
      exact InvD_keep h (keep_notify i g s)
    | signal g j x =>
      simp only at hs
      split at hs
      · unfold signal at hs
        split at hs
        · cases hs
        · rename_i b hb
          simp only [Option.some.injEq] at hs
          subst hs
          exact InvD_tell_any h hb
      · cases hs
    | onSubscribe g j r k =>
      simp only at hs
      split at hs
      · unfold onSubscribe at hs
        split at hs
        · cases hs
        · have k1 : Keep i s (setSub s j fun b => { b with hasRequest := r, hasCancel := k }) :=
            keep_setSub s (Or.inr fun _ => rfl)
          split at hs
          · cases hs; exact h
          · split at hs
            · cases hs; exact InvD_keep h (k1.trans (keep_doRequest i c g j _ _ _))
            · cases hs; exact InvD_keep h k1
      · cases hs
    | request g j n =>
      simp only at hs
      split at hs
      · cases hs; exact InvD_keep h (keep_request i c g j n s)
      · cases hs
    | start g j =>
      simp only [start] at hs
      split at hs
      · cases hs
      · split at hs
        · cases hs
        · split at hs
          · cases hs
          · split at hs
            · cases hs
              have k0 : Keep i s { s with spawned := s.spawned.eraseIdx j } := keep_other rfl rfl rfl
              exact InvD_keep h (k0.trans (keep_callRequest i _ g _ _ _ _ fun _ => rfl))
            · cases hs; exact InvD_keep h (keep_other rfl rfl rfl)
    | ret g =>
      simp only [resume] at hs
      split at hs
      · cases hs
      · rename_i f r hp
        exact InvD_proceed (InvD_pop h hp) hs

theorem InvD_run {c : Cfg V E W} {i : Nat} (as : List (Action V E)) : ∀ {s s' : State V E W}, InvD c.tx i zero s →
    run c s as = some s' → InvD c.tx i zero s' := by
  induction as with
  | nil => intro s s' h hr; cases hr; exact h
  | cons a as ih =>
    intro s s' h hr
    simp only [run] at hr
    split at hr
    · cases hr
    · rename_i t ht
      exact ih (InvD_step h ht) hr

theorem InvD_init (tx : V → Except E W) (i : Nat) (xs : List V) : InvD tx i zero (init xs) := by
  unfold InvD
  simp only [init, List.getElem?_nil]
  exact ⟨rfl, rfl, fun _ => rfl⟩

end Iota.Lemmas.Flux
