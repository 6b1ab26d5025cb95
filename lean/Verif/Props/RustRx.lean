import Verif.Model.RustRx

/-!
# C102 to C106: Flux and Mono of the Rust crates
-/

namespace Iota.Props.RustRx
open Iota.RustRx

variable {α ε : Type}

/-! ## Specification -/

/-- The value that a signal carries. -/
def value : Signal α ε → Option (Except ε α)
  | .ok v => some (.ok v)
  | .err e => some (.error e)
  | .complete => none

/-- The value that a receiving call returned. -/
def received : Out α ε → Option (Except ε α)
  | .item v => some (.ok v)
  | .error e => some (.error e)
  | _ => none

/-- The values of the signals whose `send` returned `Ok`, in order. -/
def sent : Trace α ε → List (Except ε α)
  | [] => []
  | (.send _ x, .sent true) :: tr => (value x).toList ++ sent tr
  | _ :: tr => sent tr

/-- The values received, by whichever handle, in order. -/
def got : Trace α ε → List (Except ε α)
  | [] => []
  | (_, o) :: tr => (received o).toList ++ got tr

/-- The states that can be reached from a new Flux, with what was done. -/
def Reach (s : State α ε) (tr : Trace α ε) : Prop :=
  ∃ es, State.new.run es = some (s, tr) ∨ State.newChannels.run es = some (s, tr)

/-! ## Where the receiver is -/

/-- The values that wait in the queue. -/
def waiting (s : State α ε) : List (Except ε α) := s.queue.filterMap value

structure Inv (s : State α ε) : Prop where
  held : ∀ j, s.rx = .held j → ∃ t, s.takeOf j = some t ∧ t.has = true
  has : ∀ j t, s.takeOf j = some t → t.has = true → s.rx = .held j
  cell : ∀ c, s.rx = .cell c → s.refers c = true
  dropped : s.rx = .dropped → s.queue = []

theorem inv_new : Inv (State.new : State α ε) where
  held := fun _ h => nomatch h
  has := fun j t h => by simp [State.new, State.takeOf] at h
  cell := fun c h => by
    have : (0 : Nat) = c := by simpa [State.new] using h
    subst this; rfl
  dropped := fun h => nomatch h

theorem inv_newChannels : Inv (State.newChannels : State α ε) where
  held := fun _ h => nomatch h
  has := fun j t h => by simp [State.newChannels, State.takeOf] at h
  cell := fun c h => by
    have : (1 : Nat) = c := by simpa [State.newChannels] using h
    subst this; rfl
  dropped := fun h => nomatch h

theorem inv_settle {s : State α ε} (h1 : ∀ j, s.rx = .held j → ∃ t, s.takeOf j = some t ∧ t.has = true)
    (h2 : ∀ j t, s.takeOf j = some t → t.has = true → s.rx = .held j)
    (h3 : s.rx = .dropped → s.queue = []) : Inv s.settle := by
  unfold State.settle
  split
  · rename_i c hc
    split
    · rename_i hr
      exact ⟨h1, h2, fun c' hc' => by rw [hc] at hc'; cases hc'; exact hr, h3⟩
    · refine ⟨(fun j hj => nomatch hj), fun j t ht hh => ?_, (fun c hc => nomatch hc), fun _ => rfl⟩
      have := h2 j t ht hh
      rw [hc] at this; cases this
  · rename_i hn
    exact ⟨h1, h2, fun c hc => absurd hc (hn c), h3⟩

theorem takeOf_set {s : State α ε} {j k : Nat} {t : Take} (r : Rx) (q : List (Signal α ε))
    (h : State.takeOf { s with queue := q, rx := r, takes := s.takes.set j none } k = some t) :
    k ≠ j ∧ s.takeOf k = some t := by
  unfold State.takeOf at h ⊢
  rw [List.getElem?_set] at h
  split at h
  · split at h <;> simp at h
  · rename_i hne
    exact ⟨fun e => hne e.symm, h⟩

theorem inv_putBack {s : State α ε} (h : Inv s) (q : List (Signal α ε)) (j : Nat) (t : Take) (hj : s.rx = .held j) :
    Inv (State.putBack { s with queue := q } j t) := by
  refine inv_settle (fun _ h => nomatch h) (fun k u hu hh => ?_) (fun h => nomatch h)
  obtain ⟨hk, hu⟩ := takeOf_set (s := s) _ q hu
  have := h.has k u hu hh
  rw [hj] at this; cases this
  exact absurd rfl hk

theorem inv_advance {s : State α ε} (h : Inv s) (j : Nat) (t : Take) (ht : s.takeOf j = some t) :
    Inv (s.advance j t).1 := by
  unfold State.advance
  split
  · rename_i hh
    have hj := h.has j t ht hh
    split
    · exact inv_putBack h _ j t hj
    · rename_i hq
      have hp := inv_putBack h s.queue j t hj
      split
      · split
        · exact h
        · exact hp
      · exact hp
  · rename_i hh
    refine inv_settle (fun k hk => ?_) (fun k u hu hu' => ?_) h.dropped
    · obtain ⟨u, hu, hu'⟩ := h.held k hk
      refine ⟨u, ?_, hu'⟩
      have hne : j ≠ k := fun e => by
        subst e; rw [ht] at hu; cases hu; exact hh hu'
      simp only [State.takeOf, List.getElem?_set, if_neg hne] at hu ⊢
      exact hu
    · exact h.has k u (takeOf_set (s := s) s.rx s.queue hu).2 hu'

theorem takeOf_lt {s : State α ε} {j : Nat} {t : Take} (h : s.takeOf j = some t) : j < s.takes.length := by
  by_cases hl : j < s.takes.length
  · exact hl
  · simp [State.takeOf, List.getElem?_eq_none (Nat.le_of_not_lt hl)] at h

theorem takeOf_append {s : State α ε} (r : Rx) (t : Take) (k : Nat) :
    State.takeOf { s with rx := r, takes := s.takes ++ [some t] } k =
      if k = s.takes.length then some t else s.takeOf k := by
  unfold State.takeOf
  rw [List.getElem?_append]
  by_cases hk : k < s.takes.length
  · rw [if_pos hk, if_neg (by omega)]
  · rw [if_neg hk]
    by_cases he : k = s.takes.length
    · subst he; simp
    · rw [if_neg he, List.getElem?_eq_none (by simp; omega), List.getElem?_eq_none (by omega)]

theorem inv_take {s : State α ε} (h : Inv s) (k : Kind) (d : Handle) : Inv (s.take k d).1 := by
  unfold State.take
  refine ⟨fun j hj => ?_, fun j t ht hh => ?_, fun c hc => ?_, fun hd => ?_⟩
  · dsimp only at hj
    rw [takeOf_append]
    by_cases hr : s.rx = .cell d.cell
    · rw [if_pos hr] at hj
      cases hj
      exact ⟨_, if_pos rfl, by simp [hr]⟩
    · rw [if_neg hr] at hj
      obtain ⟨t, ht, hh⟩ := h.held j hj
      exact ⟨t, by rw [if_neg (Nat.ne_of_lt (takeOf_lt ht))]; exact ht, hh⟩
  · rw [takeOf_append] at ht
    dsimp only
    split at ht
    · rename_i hj
      cases ht
      rw [if_pos (by simpa using hh), hj]
    · have := h.has j t ht hh
      rw [if_neg (by rw [this]; exact fun e => nomatch e)]
      exact this
  · dsimp only at hc
    by_cases hr : s.rx = .cell d.cell
    · rw [if_pos hr] at hc; cases hc
    · rw [if_neg hr] at hc
      have := h.cell c hc
      simp only [State.refers, Bool.or_eq_true, List.any_append] at this ⊢
      rcases this with h | h
      · exact Or.inl h
      · exact Or.inr (Or.inl h)
  · dsimp only at hd
    by_cases hr : s.rx = .cell d.cell
    · rw [if_pos hr] at hd; cases hd
    · rw [if_neg hr] at hd; exact h.dropped hd

theorem inv_step {s s' : State α ε} {o : Out α ε} (e : Ev α ε) (h : Inv s) (hs : s.step e = some (s', o)) : Inv s' := by
  cases e with
  | send n x =>
    simp only [State.step, Option.bind_eq_some_iff] at hs
    obtain ⟨d, _, hs⟩ := hs
    split at hs <;> simp only [Option.some.injEq, reduceCtorEq] at hs
    unfold State.send at hs
    split at hs <;> cases hs
    · exact h
    · rename_i hr
      exact ⟨h.held, h.has, h.cell, fun hd => absurd hd hr⟩
  | clone n =>
    simp only [State.step, Option.map_eq_some_iff] at hs
    obtain ⟨d, _, hs⟩ := hs
    cases hs
    refine ⟨h.held, h.has, fun c hc => ?_, h.dropped⟩
    have := h.cell c hc
    simp only [State.refers, Bool.or_eq_true, List.any_append] at this ⊢
    rcases this with h | h
    · exact Or.inl (Or.inl h)
    · exact Or.inr h
  | drop n =>
    simp only [State.step, Option.map_eq_some_iff] at hs
    obtain ⟨d, _, hs⟩ := hs
    cases hs
    exact inv_settle h.held h.has h.dropped
  | recv n =>
    simp only [State.step, Option.map_eq_some_iff] at hs
    obtain ⟨d, _, hs⟩ := hs
    have := inv_take h .future d
    rw [hs] at this; exact this
  | poll n =>
    simp only [State.step, Option.map_eq_some_iff] at hs
    obtain ⟨d, _, hs⟩ := hs
    have := inv_take h .poll d
    rw [hs] at this; exact this
  | pollFuture j =>
    simp only [State.step, Option.bind_eq_some_iff] at hs
    obtain ⟨t, ht, hs⟩ := hs
    split at hs <;> simp only [Option.some.injEq, reduceCtorEq] at hs
    have := inv_advance h j t ht
    rw [hs] at this; exact this
  | finish j =>
    simp only [State.step, Option.bind_eq_some_iff] at hs
    obtain ⟨t, ht, hs⟩ := hs
    split at hs <;> simp only [Option.some.injEq, reduceCtorEq] at hs
    have := inv_advance h j t ht
    rw [hs] at this; exact this
  | dropFuture j =>
    simp only [State.step, Option.bind_eq_some_iff] at hs
    obtain ⟨t, ht, hs⟩ := hs
    split at hs <;> simp only [Option.some.injEq, reduceCtorEq] at hs
    split at hs
    · rename_i hh
      cases hs
      have hj := h.has j t ht hh
      refine ⟨(fun k hk => nomatch hk), fun k u hu hu' => ?_, (fun c hc => nomatch hc), fun _ => rfl⟩
      obtain ⟨hk, hu⟩ := takeOf_set (s := s) .dropped [] hu
      have := h.has k u hu hu'
      rw [hj] at this; cases this
      exact absurd rfl hk
    · rename_i hh
      have := inv_advance h j t ht
      unfold State.advance at this
      rw [if_neg hh] at this
      cases hs
      exact this
  | eject n =>
    simp only [State.step, Option.map_eq_some_iff] at hs
    obtain ⟨d, _, hs⟩ := hs
    unfold State.eject at hs
    split at hs <;> cases hs
    · rename_i hr
      refine ⟨(fun j hj => nomatch hj), fun j t ht hh => ?_, fun c hc => ?_, (fun hd => nomatch hd)⟩
      · have := h.has j t ht hh
        rw [hr] at this; cases this
      · cases hc
        simp [State.refers, List.any_append]
    · exact h
  | isClosed n =>
    simp only [State.step, Option.bind_eq_some_iff] at hs
    obtain ⟨d, _, hs⟩ := hs
    split at hs <;> simp only [Option.some.injEq, reduceCtorEq] at hs
    cases hs
    exact h

theorem inv_run {s s' : State α ε} {tr : Trace α ε} (es : List (Ev α ε)) (h : Inv s) (hs : s.run es = some (s', tr)) :
    Inv s' := by
  induction es generalizing s tr with
  | nil => cases hs; exact h
  | cons e es ih =>
    simp only [State.run, Option.bind_eq_some_iff, Option.map_eq_some_iff] at hs
    obtain ⟨⟨m, o⟩, h1, ⟨q, tr'⟩, h2, h3⟩ := hs
    cases h3
    exact ih (inv_step e h h1) h2

theorem inv_reach {s : State α ε} {tr : Trace α ε} (h : Reach s tr) : Inv s := by
  obtain ⟨es, h | h⟩ := h
  · exact inv_run es inv_new h
  · exact inv_run es inv_newChannels h

/-! ## C102: values arrive once and in order -/

theorem settle_cases (s : State α ε) : s.settle = s ∨ s.settle = s.lose := by
  unfold State.settle
  split
  · split
    · exact Or.inl rfl
    · exact Or.inr rfl
  · exact Or.inl rfl

/-- What a step does to the values: those that waited and the one sent are received or wait afterwards, or
the receiver was dropped. -/
def Moves (s : State α ε) (e : Ev α ε) (s' : State α ε) (o : Out α ε) : Prop :=
  ∃ rest, waiting s ++ sent [(e, o)] = got [(e, o)] ++ waiting s' ++ rest ∧ (s'.rx ≠ .dropped → rest = [])

theorem moves_settle {s : State α ε} {e : Ev α ε} {o : Out α ε} {s' : State α ε}
    (h : waiting s ++ sent [(e, o)] = got [(e, o)] ++ waiting s') : Moves s e s'.settle o := by
  rcases settle_cases s' with hs | hs
  · rw [hs]; exact ⟨[], by simp [h], fun _ => rfl⟩
  · rw [hs]; exact ⟨waiting s', by rw [h]; simp [waiting, State.lose], fun hn => absurd rfl hn⟩

theorem moves_same {s s' : State α ε} {e : Ev α ε} {o : Out α ε} (hq : s'.queue = s.queue) (h1 : sent [(e, o)] = [])
    (h2 : got [(e, o)] = []) : Moves s e s' o :=
  ⟨[], by simp [waiting, hq, h1, h2], fun _ => rfl⟩

theorem sent_nil {e : Ev α ε} {o : Out α ε} (h : ∀ n x, e ≠ .send n x) : sent [(e, o)] = [] := by
  cases e <;> simp_all [sent]

theorem received_out (x : Signal α ε) : received x.out = value x := by cases x <;> rfl

theorem moves_advance {s : State α ε} (e : Ev α ε) (j : Nat) (t : Take) (he : ∀ n x, e ≠ .send n x) :
    Moves s e (s.advance j t).1 (s.advance j t).2 := by
  unfold State.advance
  split
  · split
    · rename_i x q hq
      refine moves_settle ?_
      rw [sent_nil he]
      simp only [waiting, hq, got, received_out, List.filterMap_cons]
      cases value x <;> simp
    · rename_i hq
      have hp : ∀ o : Out α ε, got [(e, o)] = [] → Moves s e (s.putBack j t) o := fun o ho => by
        refine moves_settle ?_
        rw [sent_nil he, ho, List.append_nil, List.nil_append]
        rfl
      split
      · split
        · exact moves_same rfl (sent_nil he) rfl
        · exact hp _ rfl
      · exact hp _ rfl
  · refine moves_settle ?_
    rw [sent_nil he]
    cases t.kind <;> simp [got, received, waiting]

theorem moves_step {s s' : State α ε} {o : Out α ε} (e : Ev α ε) (hs : s.step e = some (s', o)) : Moves s e s' o := by
  cases e with
  | send n x =>
    simp only [State.step, Option.bind_eq_some_iff] at hs
    obtain ⟨d, _, hs⟩ := hs
    split at hs <;> simp only [Option.some.injEq, reduceCtorEq] at hs
    unfold State.send at hs
    split at hs <;> cases hs
    · exact moves_same rfl rfl rfl
    · refine ⟨[], ?_, fun _ => rfl⟩
      simp only [waiting, sent, got, received, List.filterMap_append, List.filterMap_cons, List.filterMap_nil]
      cases value x <;> simp
  | clone n =>
    simp only [State.step, Option.map_eq_some_iff] at hs
    obtain ⟨d, _, hs⟩ := hs
    cases hs
    exact moves_same rfl rfl rfl
  | drop n =>
    simp only [State.step, Option.map_eq_some_iff] at hs
    obtain ⟨d, _, hs⟩ := hs
    cases hs
    exact moves_settle (by simp [sent, got, received, waiting])
  | recv n =>
    simp only [State.step, Option.map_eq_some_iff] at hs
    obtain ⟨d, _, hs⟩ := hs
    cases hs
    exact moves_same rfl rfl rfl
  | poll n =>
    simp only [State.step, Option.map_eq_some_iff] at hs
    obtain ⟨d, _, hs⟩ := hs
    cases hs
    exact moves_same rfl rfl rfl
  | pollFuture j =>
    simp only [State.step, Option.bind_eq_some_iff] at hs
    obtain ⟨t, ht, hs⟩ := hs
    split at hs <;> simp only [Option.some.injEq, reduceCtorEq] at hs
    have := moves_advance (s := s) (.pollFuture j) j t (fun _ _ h => nomatch h)
    rw [hs] at this; exact this
  | finish j =>
    simp only [State.step, Option.bind_eq_some_iff] at hs
    obtain ⟨t, ht, hs⟩ := hs
    split at hs <;> simp only [Option.some.injEq, reduceCtorEq] at hs
    have := moves_advance (s := s) (.finish j) j t (fun _ _ h => nomatch h)
    rw [hs] at this; exact this
  | dropFuture j =>
    simp only [State.step, Option.bind_eq_some_iff] at hs
    obtain ⟨t, ht, hs⟩ := hs
    split at hs <;> simp only [Option.some.injEq, reduceCtorEq] at hs
    split at hs <;> cases hs
    · exact ⟨waiting s, by simp [sent, got, received, waiting, State.lose], fun hn => absurd rfl hn⟩
    · exact moves_settle (by simp [sent, got, received, waiting])
  | eject n =>
    simp only [State.step, Option.map_eq_some_iff] at hs
    obtain ⟨d, _, hs⟩ := hs
    unfold State.eject at hs
    split at hs <;> cases hs <;> exact moves_same rfl rfl rfl
  | isClosed n =>
    simp only [State.step, Option.bind_eq_some_iff] at hs
    obtain ⟨d, _, hs⟩ := hs
    split at hs <;> simp only [Option.some.injEq, reduceCtorEq] at hs
    cases hs
    exact moves_same rfl rfl rfl

/-- A dropped receiver stays dropped and nothing is sent. -/
theorem dropped_step {s s' : State α ε} {o : Out α ε} (e : Ev α ε) (h : Inv s) (hd : s.rx = .dropped)
    (hs : s.step e = some (s', o)) : s'.rx = .dropped ∧ sent [(e, o)] = [] := by
  have hset : ∀ u : State α ε, u.rx = .dropped → u.settle.rx = .dropped := fun u hu => by
    rcases settle_cases u with h | h
    · rw [h]; exact hu
    · rw [h]; rfl
  have hadv : ∀ j t, s.takeOf j = some t → (s.advance j t).1.rx = .dropped := fun j t ht => by
    unfold State.advance
    split
    · rename_i hh
      have := h.has j t ht hh
      rw [hd] at this; cases this
    · exact hset _ hd
  cases e with
  | send n x =>
    simp only [State.step, Option.bind_eq_some_iff] at hs
    obtain ⟨d, _, hs⟩ := hs
    split at hs <;> simp only [Option.some.injEq, reduceCtorEq] at hs
    unfold State.send at hs
    rw [if_pos hd] at hs
    cases hs
    exact ⟨hd, rfl⟩
  | clone n =>
    simp only [State.step, Option.map_eq_some_iff] at hs
    obtain ⟨d, _, hs⟩ := hs
    cases hs
    exact ⟨hd, rfl⟩
  | drop n =>
    simp only [State.step, Option.map_eq_some_iff] at hs
    obtain ⟨d, _, hs⟩ := hs
    cases hs
    exact ⟨hset _ hd, rfl⟩
  | recv n =>
    simp only [State.step, Option.map_eq_some_iff] at hs
    obtain ⟨d, _, hs⟩ := hs
    cases hs
    exact ⟨by simp [hd], rfl⟩
  | poll n =>
    simp only [State.step, Option.map_eq_some_iff] at hs
    obtain ⟨d, _, hs⟩ := hs
    cases hs
    exact ⟨by simp [hd], rfl⟩
  | pollFuture j =>
    simp only [State.step, Option.bind_eq_some_iff] at hs
    obtain ⟨t, ht, hs⟩ := hs
    split at hs <;> simp only [Option.some.injEq, reduceCtorEq] at hs
    have := hadv j t ht
    rw [hs] at this; exact ⟨this, rfl⟩
  | finish j =>
    simp only [State.step, Option.bind_eq_some_iff] at hs
    obtain ⟨t, ht, hs⟩ := hs
    split at hs <;> simp only [Option.some.injEq, reduceCtorEq] at hs
    have := hadv j t ht
    rw [hs] at this; exact ⟨this, rfl⟩
  | dropFuture j =>
    simp only [State.step, Option.bind_eq_some_iff] at hs
    obtain ⟨t, ht, hs⟩ := hs
    split at hs <;> simp only [Option.some.injEq, reduceCtorEq] at hs
    split at hs <;> cases hs
    · exact ⟨rfl, rfl⟩
    · exact ⟨hset _ hd, rfl⟩
  | eject n =>
    simp only [State.step, Option.map_eq_some_iff] at hs
    obtain ⟨d, _, hs⟩ := hs
    unfold State.eject at hs
    split at hs
    · rename_i hr; rw [hd] at hr; cases hr
    · cases hs; exact ⟨hd, rfl⟩
  | isClosed n =>
    simp only [State.step, Option.bind_eq_some_iff] at hs
    obtain ⟨d, _, hs⟩ := hs
    split at hs <;> simp only [Option.some.injEq, reduceCtorEq] at hs
    cases hs
    exact ⟨hd, rfl⟩

theorem sent_cons (x : Ev α ε × Out α ε) (tr : Trace α ε) : sent (x :: tr) = sent [x] ++ sent tr := by
  obtain ⟨e, o⟩ := x
  cases e <;> cases o <;> try rfl
  rename_i b
  cases b <;> simp [sent]

theorem got_cons (x : Ev α ε × Out α ε) (tr : Trace α ε) : got (x :: tr) = got [x] ++ got tr := by
  obtain ⟨e, o⟩ := x
  simp [got]

theorem sent_append (a b : Trace α ε) : sent (a ++ b) = sent a ++ sent b := by
  induction a with
  | nil => rfl
  | cons x a ih => rw [List.cons_append, sent_cons, ih, sent_cons x a, List.append_assoc]

theorem got_append (a b : Trace α ε) : got (a ++ b) = got a ++ got b := by
  induction a with
  | nil => rfl
  | cons x a ih => rw [List.cons_append, got_cons, ih, got_cons x a, List.append_assoc]

theorem dropped_run {s s' : State α ε} {tr : Trace α ε} (es : List (Ev α ε)) (h : Inv s) (hd : s.rx = .dropped)
    (hs : s.run es = some (s', tr)) : s'.rx = .dropped ∧ sent tr = [] := by
  induction es generalizing s tr with
  | nil => cases hs; exact ⟨hd, rfl⟩
  | cons e es ih =>
    simp only [State.run, Option.bind_eq_some_iff, Option.map_eq_some_iff] at hs
    obtain ⟨⟨m, o⟩, h1, ⟨q, tr'⟩, h2, h3⟩ := hs
    cases h3
    obtain ⟨h4, h5⟩ := dropped_step e h hd h1
    obtain ⟨h6, h7⟩ := ih (inv_step e h h1) h4 h2
    exact ⟨h6, by rw [sent_cons, h5, h7]; rfl⟩

theorem moves_run {s s' : State α ε} {tr : Trace α ε} (es : List (Ev α ε)) (h : Inv s) (hs : s.run es = some (s', tr)) :
    ∃ rest, waiting s ++ sent tr = got tr ++ waiting s' ++ rest ∧ (s'.rx ≠ .dropped → rest = []) := by
  induction es generalizing s tr with
  | nil => cases hs; exact ⟨[], by simp [sent, got], fun _ => rfl⟩
  | cons e es ih =>
    simp only [State.run, Option.bind_eq_some_iff, Option.map_eq_some_iff] at hs
    obtain ⟨⟨m, o⟩, h1, ⟨q, tr'⟩, h2, h3⟩ := hs
    cases h3
    have hi := inv_step e h h1
    obtain ⟨r1, e1, f1⟩ := moves_step e h1
    obtain ⟨r2, e2, f2⟩ := ih hi h2
    rw [sent_cons, got_cons]
    by_cases hm : m.rx = .dropped
    · obtain ⟨h4, h5⟩ := dropped_run es hi hm h2
      have hq : waiting m = [] := by rw [waiting, hi.dropped hm]; rfl
      rw [hq, h5] at e2
      rw [hq] at e1
      have e3 := e2.symm
      simp only [List.append_nil, List.append_eq_nil_iff] at e3
      refine ⟨r1, ?_, fun hn => absurd h4 hn⟩
      rw [h5, e3.1.1, e3.1.2]
      simpa using e1
    · have := f1 hm
      subst this
      refine ⟨r2, ?_, f2⟩
      rw [List.append_nil] at e1
      rw [← List.append_assoc, e1, List.append_assoc, e2]
      simp

/-- **C102** Whatever is done with a Flux and its clones and receivers, the values received are, in order and
without repetition, the first of those sent. -/
theorem rx_order {s : State α ε} {tr : Trace α ε} (h : Reach s tr) : got tr <+: sent tr := by
  have hw : ∀ {s0 : State α ε} (es), Inv s0 → waiting s0 = [] → s0.run es = some (s, tr) → got tr <+: sent tr := by
    intro s0 es hi h0 hr
    obtain ⟨rest, e, _⟩ := moves_run es hi hr
    rw [h0, List.nil_append] at e
    exact ⟨waiting s ++ rest, by rw [e, List.append_assoc]⟩
  obtain ⟨es, h | h⟩ := h
  · exact hw es inv_new rfl h
  · exact hw es inv_newChannels rfl h

/-- Until the receiver is dropped, what was sent was received or waits. -/
theorem rx_nothing_lost {s : State α ε} {tr : Trace α ε} (h : Reach s tr) (hd : s.rx ≠ .dropped) :
    sent tr = got tr ++ waiting s := by
  have hw : ∀ {s0 : State α ε} (es), Inv s0 → waiting s0 = [] → s0.run es = some (s, tr) → sent tr = got tr ++ waiting s := by
    intro s0 es hi h0 hr
    obtain ⟨rest, e, f⟩ := moves_run es hi hr
    rw [h0, List.nil_append, f hd, List.append_nil] at e
    exact e
  obtain ⟨es, h | h⟩ := h
  · exact hw es inv_new rfl h
  · exact hw es inv_newChannels rfl h

theorem refers_handle {s : State α ε} {h : Nat} {d : Handle} (hh : s.handle h = some d) : s.refers d.cell = true := by
  unfold State.handle at hh
  cases hg : s.handles[h]? with
  | none => simp [hg] at hh
  | some o =>
    simp only [hg, Option.join_some] at hh
    subst hh
    simp only [State.refers, Bool.or_eq_true, List.any_eq_true]
    exact Or.inl ⟨_, List.mem_of_getElem? hg, by simp⟩

/-- A poll, undisturbed, through the handle whose cell has the receiver. -/
def look (s : State α ε) (h : Nat) : List (Ev α ε) := [.poll h, .finish s.takes.length]

/-- The state inside such a poll. -/
def polling (s : State α ε) (q : List (Signal α ε)) (d : Handle) : State α ε :=
  ⟨q, .held s.takes.length, s.cells, s.handles, s.takes ++ [some ⟨.poll, d.cell, true⟩]⟩

theorem look_run {s : State α ε} {h : Nat} {d : Handle} (hh : s.handle h = some d) (hr : s.rx = .cell d.cell) :
    s.run (look s h) = some ({ s with queue := s.queue.tail, takes := s.takes ++ [none] },
      [(.poll h, .made s.takes.length), (.finish s.takes.length,
        match s.queue with
        | x :: _ => x.out
        | [] => if s.hasSender then .pending else .ended)]) := by
  have hset : ∀ q : List (Signal α ε), (polling s q d).putBack s.takes.length ⟨.poll, d.cell, true⟩ =
      { s with queue := q, takes := s.takes ++ [none] } := by
    intro q
    have hl : (s.takes ++ [some (⟨.poll, d.cell, true⟩ : Take)]).set s.takes.length none = s.takes ++ [none] := by
      rw [List.set_append_right _ _ (Nat.le_refl _)]; simp
    unfold State.putBack polling
    dsimp only
    rw [hl]
    unfold State.settle
    dsimp only
    rw [if_pos]
    · rw [← hr]
    · exact refers_handle (s := { s with queue := q, rx := .cell d.cell, takes := s.takes ++ [none] }) hh
  have ht : (polling s s.queue d).takeOf s.takes.length = some ⟨.poll, d.cell, true⟩ := by
    rw [polling, takeOf_append (s := s), if_pos rfl]
  have h1 : s.step (.poll h) = some (polling s s.queue d, .made s.takes.length) := by
    simp only [State.step, hh, Option.map_some, State.take, hr, beq_self_eq_true, if_true, polling]
  have h2 : (polling s s.queue d).step (.finish s.takes.length) =
      some ({ s with queue := s.queue.tail, takes := s.takes ++ [none] },
        match s.queue with
        | x :: _ => x.out
        | [] => if s.hasSender then .pending else .ended) := by
    simp only [State.step, ht, Option.bind_some, if_true, State.advance]
    have hqq : (polling s s.queue d).queue = s.queue := rfl
    have hsend : (polling s s.queue d).hasSender = s.hasSender := rfl
    rw [hqq, hsend]
    cases hq : s.queue with
    | nil =>
      dsimp only
      have hs := hset []
      rw [List.tail_nil]
      split <;> rw [hs]
    | cons x q =>
      dsimp only
      rw [List.tail_cons, ← hset q]
      rfl
  simp only [State.run, look, h1, h2, Option.bind_some, Option.map_some]

theorem run_append {s : State α ε} (a b : List (Ev α ε)) {m : State α ε} {tr : Trace α ε} (h : s.run a = some (m, tr)) :
    s.run (a ++ b) = (m.run b).map fun r => (r.1, tr ++ r.2) := by
  induction a generalizing s tr with
  | nil => cases h; simp
  | cons e a ih =>
    simp only [State.run, Option.bind_eq_some_iff, Option.map_eq_some_iff] at h
    obtain ⟨⟨m', o⟩, h1, ⟨q, tr'⟩, h2, h3⟩ := h
    cases h3
    simp only [List.cons_append, State.run, h1, Option.bind_some, ih h2, Option.map_map]
    rfl

theorem reach_run {s s' : State α ε} {tr tr' : Trace α ε} (h : Reach s tr) (es : List (Ev α ε))
    (hs : s.run es = some (s', tr')) : Reach s' (tr ++ tr') := by
  obtain ⟨es0, h | h⟩ := h
  · exact ⟨es0 ++ es, Or.inl (by rw [run_append es0 es h, hs]; rfl)⟩
  · exact ⟨es0 ++ es, Or.inr (by rw [run_append es0 es h, hs]; rfl)⟩

theorem drain {n : Nat} {s : State α ε} {h : Nat} {d : Handle} (hn : s.queue.length = n) (hh : s.handle h = some d)
    (hr : s.rx = .cell d.cell) :
    ∃ es s' tr, (∀ e ∈ es, e = .poll h ∨ ∃ j, e = .finish j) ∧ s.run es = some (s', tr) ∧ sent tr = [] ∧
      s'.queue = [] ∧ s'.rx = s.rx ∧ s'.handles = s.handles := by
  induction n generalizing s with
  | zero => exact ⟨[], s, [], (fun _ h => nomatch h), rfl, rfl, List.eq_nil_of_length_eq_zero hn, rfl, rfl⟩
  | succ n ih =>
    have h1 := look_run hh hr
    obtain ⟨es, s', tr, h2, h3, h4, h5, h6, h7⟩ := ih (s := { s with queue := s.queue.tail, takes := s.takes ++ [none] })
      (by simp [hn]) hh hr
    refine ⟨look s h ++ es, s', _, ?_, by rw [run_append _ _ h1, h3]; rfl, ?_, h5, h6, h7⟩
    · intro e he
      rcases List.mem_append.1 he with he | he
      · simp only [look, List.mem_cons, List.not_mem_nil, or_false] at he
        rcases he with he | he
        · exact Or.inl he
        · exact Or.inr ⟨_, he⟩
      · exact h2 e he
    · rw [sent_append, h4]; rfl

/-- **C102**, part of the claim: while the receiver is in the cell of a handle, polling that handle gets all that
was sent and not received yet. Missing: the receiver can be lost (`give_up_refuted`). -/
theorem rx_delivers_partial {s : State α ε} {tr : Trace α ε} (h : Reach s tr) {n : Nat} {d : Handle}
    (hh : s.handle n = some d) (hr : s.rx = .cell d.cell) :
    ∃ es s' tr', (∀ e ∈ es, e = .poll n ∨ ∃ j, e = .finish j) ∧ s.run es = some (s', tr') ∧
      got (tr ++ tr') = sent tr := by
  obtain ⟨es, s', tr', h1, h2, h3, h4, h5, _⟩ := drain rfl hh hr
  refine ⟨es, s', tr', h1, h2, ?_⟩
  have := rx_nothing_lost (reach_run h es h2) (by rw [h5, hr]; exact fun e => nomatch e)
  rw [sent_append, h3, List.append_nil, waiting, h4, List.filterMap_nil, List.append_nil] at this
  exact this.symm

/-- Three signals were sent through a Flux and a clone of it, and one was received. -/
example : ∃ s : State Nat Nat, Reach s [(.send 0 (.ok 1), .sent true), (.clone 0, .made 2), (.send 2 (.err 5), .sent true),
      (.poll 1, .made 0), (.finish 0, .item 1), (.send 0 (.ok 2), .sent true)] ∧
    s.handle 1 = some ⟨false, 1⟩ ∧ s.rx = .cell 1 ∧ waiting s = [.error 5, .ok 2] :=
  ⟨_, ⟨[.send 0 (.ok 1), .clone 0, .send 2 (.err 5), .poll 1, .finish 0, .send 0 (.ok 2)], Or.inr rfl⟩, rfl, rfl, rfl⟩

/-! ## C103: the end of a stream -/

/-- **C103**, part of the claim: while the receiver is in the cell of the handle, a poll reports the end just when the
next signal is that of `complete`, or nothing waits and all senders are gone. Missing: `end_while_waiting_refuted`. -/
theorem end_reported_partial {s : State α ε} {n : Nat} {d : Handle} (hh : s.handle n = some d) (hr : s.rx = .cell d.cell) :
    ∃ s' o, s.run (look s n) = some (s', [(.poll n, .made s.takes.length), (.finish s.takes.length, o)]) ∧
      (o = .ended ↔ s.queue.head? = some .complete ∨
        s.queue = [] ∧ ∀ i d, s.handle i = some d → d.tx = false) := by
  refine ⟨_, _, look_run hh hr, ?_⟩
  cases hq : s.queue with
  | cons x q => cases x <;> simp [Signal.out]
  | nil =>
    simp only [List.head?_nil, reduceCtorEq, false_or, true_and]
    by_cases hs : s.hasSender = true
    · simp only [hs, if_true, reduceCtorEq, false_iff, Classical.not_forall]
      simp only [State.hasSender, List.any_eq_true] at hs
      obtain ⟨o, ho, hd⟩ := hs
      cases o with
      | none => simp at hd
      | some d =>
        obtain ⟨i, hi⟩ := List.getElem?_of_mem ho
        exact ⟨i, d, by simp [State.handle, hi], by simpa using hd⟩
    · simp only [hs, Bool.false_eq_true, if_false, true_iff]
      intro i d hi
      cases ht : d.tx with
      | false => rfl
      | true =>
        refine absurd ?_ hs
        simp only [State.hasSender, List.any_eq_true]
        unfold State.handle at hi
        cases hg : s.handles[i]? with
        | none => simp [hg] at hi
        | some o =>
          simp only [hg, Option.join_some] at hi
          subst hi
          exact ⟨_, List.mem_of_getElem? hg, by simpa using ht⟩

/-- Which handles there are after the calls of a trace, and which of them can send: clones are as what they were made of, and
what `eject` gives is a receiver. -/
def census (l : List (Option Bool)) : Trace α ε → List (Option Bool)
  | [] => l
  | (.clone h, .made _) :: tr => census (l ++ [(l[h]?).join]) tr
  | (.drop h, _) :: tr => census (l.set h none) tr
  | (.eject _, .made _) :: tr => census (l ++ [some false]) tr
  | _ :: tr => census l tr

/-- The handles of a state, and which of them can send. -/
def live (s : State α ε) : List (Option Bool) := s.handles.map fun o => o.map (·.tx)

theorem live_settle (s : State α ε) : live s.settle = live s := by
  rcases settle_cases s with h | h <;> rw [h] <;> rfl

theorem live_advance (s : State α ε) (j : Nat) (t : Take) : live (s.advance j t).1 = live s := by
  unfold State.advance State.putBack
  split
  · split
    · rw [live_settle]; rfl
    · split
      · split
        · rfl
        · rw [live_settle]; rfl
      · rw [live_settle]; rfl
  · rw [live_settle]; rfl

theorem live_step {s s' : State α ε} {o : Out α ε} (e : Ev α ε) (hs : s.step e = some (s', o)) :
    live s' = census (live s) [(e, o)] := by
  cases e with
  | send n x =>
    simp only [State.step, Option.bind_eq_some_iff] at hs
    obtain ⟨d, _, hs⟩ := hs
    split at hs <;> simp only [Option.some.injEq, reduceCtorEq] at hs
    unfold State.send at hs
    split at hs <;> cases hs <;> rfl
  | clone n =>
    simp only [State.step, Option.map_eq_some_iff] at hs
    obtain ⟨d, hd, hs⟩ := hs
    cases hs
    have : (live s)[n]?.join = some d.tx := by
      unfold State.handle at hd
      cases hg : s.handles[n]? with
      | none => simp [hg] at hd
      | some o => simp [hg] at hd; simp [live, hg, hd]
    simp only [census, this]
    simp [live]
  | drop n =>
    simp only [State.step, Option.map_eq_some_iff] at hs
    obtain ⟨d, hd, hs⟩ := hs
    cases hs
    rw [live_settle]
    simp [census, live, List.map_set]
  | recv n =>
    simp only [State.step, Option.map_eq_some_iff] at hs
    obtain ⟨d, hd, hs⟩ := hs
    cases hs; rfl
  | poll n =>
    simp only [State.step, Option.map_eq_some_iff] at hs
    obtain ⟨d, hd, hs⟩ := hs
    cases hs; rfl
  | pollFuture j =>
    simp only [State.step, Option.bind_eq_some_iff] at hs
    obtain ⟨t, _, hs⟩ := hs
    split at hs <;> simp only [Option.some.injEq, reduceCtorEq] at hs
    have := live_advance s j t
    rw [hs] at this; exact this
  | finish j =>
    simp only [State.step, Option.bind_eq_some_iff] at hs
    obtain ⟨t, _, hs⟩ := hs
    split at hs <;> simp only [Option.some.injEq, reduceCtorEq] at hs
    have := live_advance s j t
    rw [hs] at this; exact this
  | dropFuture j =>
    simp only [State.step, Option.bind_eq_some_iff] at hs
    obtain ⟨t, _, hs⟩ := hs
    split at hs <;> simp only [Option.some.injEq, reduceCtorEq] at hs
    split at hs <;> cases hs
    · rfl
    · rw [live_settle]; rfl
  | eject n =>
    simp only [State.step, Option.map_eq_some_iff] at hs
    obtain ⟨d, _, hs⟩ := hs
    unfold State.eject at hs
    split at hs <;> cases hs
    · simp [live, census]
    · rfl
  | isClosed n =>
    simp only [State.step, Option.bind_eq_some_iff] at hs
    obtain ⟨d, _, hs⟩ := hs
    split at hs <;> simp only [Option.some.injEq, reduceCtorEq] at hs
    cases hs; rfl

theorem census_cons (l : List (Option Bool)) (x : Ev α ε × Out α ε) (tr : Trace α ε) :
    census l (x :: tr) = census (census l [x]) tr := by
  obtain ⟨e, o⟩ := x
  cases e <;> cases o <;> rfl

theorem live_run {s s' : State α ε} {tr : Trace α ε} (es : List (Ev α ε)) (hs : s.run es = some (s', tr)) :
    live s' = census (live s) tr := by
  induction es generalizing s tr with
  | nil => cases hs; rfl
  | cons e es ih =>
    simp only [State.run, Option.bind_eq_some_iff, Option.map_eq_some_iff] at hs
    obtain ⟨r, hr, q, hq, hs⟩ := hs
    cases hs
    rw [census_cons, ← live_step e hr]
    exact ih hq

/-- **C103**, part of the claim: the same after any calls on a new Flux and its clones. A poll whose handle finds the receiver
reports the end just when the next signal is that of `complete`, or nothing waits and of the Flux and its clones, leaving
aside the receivers made of them, none is left. -/
theorem end_after_senders_partial (es : List (Ev α ε)) {s : State α ε} {tr : Trace α ε} {l : List (Option Bool)}
    (hs : State.new.run es = some (s, tr) ∧ l = [some true] ∨ State.newChannels.run es = some (s, tr) ∧ l = [some true, some false])
    {n : Nat} {d : Handle} (hh : s.handle n = some d) (hr : s.rx = .cell d.cell) :
    ∃ s' o, s.run (look s n) = some (s', [(.poll n, .made s.takes.length), (.finish s.takes.length, o)]) ∧
      (o = .ended ↔ s.queue.head? = some .complete ∨ s.queue = [] ∧ some true ∉ census l tr) := by
  obtain ⟨s', o, h1, h2⟩ := end_reported_partial hh hr
  refine ⟨s', o, h1, ?_⟩
  rw [h2]
  have hl : census l tr = live s := by
    rcases hs with ⟨h, rfl⟩ | ⟨h, rfl⟩ <;> exact (live_run es h).symm
  rw [hl]
  refine or_congr Iff.rfl (and_congr Iff.rfl ?_)
  constructor
  · intro h hm
    obtain ⟨o, ho, hd⟩ := List.mem_map.mp hm
    obtain ⟨i, hi⟩ := List.getElem?_of_mem ho
    cases o with
    | none => simp at hd
    | some d =>
      have := h i d (by simp [State.handle, hi])
      simp [this] at hd
  · intro h i d hi
    cases ht : d.tx with
    | false => rfl
    | true =>
      refine absurd ?_ h
      unfold State.handle at hi
      cases hg : s.handles[i]? with
      | none => simp [hg] at hi
      | some o =>
        simp only [hg, Option.join_some] at hi
        subst hi
        exact List.mem_map.mpr ⟨_, List.mem_of_getElem? hg, by simp [ht]⟩

/-- After `take_rx` and a clone of what it gave, only receivers are left when the Flux is dropped. -/
example : ∃ s : State Nat Nat, ∃ tr, State.new.run [.eject 0, .clone 1, .drop 0] = some (s, tr) ∧
    s.handle 2 = some ⟨false, 1⟩ ∧ s.rx = .cell 1 ∧ census [some true] tr = [none, some false, some false] :=
  ⟨_, _, rfl, rfl, rfl, rfl⟩

/-- The Flux was dropped and one value waits: the stream has not ended; after it was received, the stream ends. -/
example : ∃ s : State Nat Nat, State.newChannels.run [.send 0 (.ok 1), .drop 0, .poll 1, .finish 0, .poll 1, .finish 1] =
    some (s, [(.send 0 (.ok 1), .sent true), (.drop 0, .unit), (.poll 1, .made 0), (.finish 0, .item 1), (.poll 1, .made 1),
      (.finish 1, .ended)]) := ⟨_, rfl⟩

/-- **C103** is false while another call waits: a Flux that nobody completed reports the end of the stream, and then
its values. -/
theorem end_while_waiting_refuted : ∃ s : State Nat Nat, State.new.run [.recv 0, .pollFuture 0, .poll 0, .finish 1,
      .send 0 (.ok 1), .pollFuture 0] =
    some (s, [(.recv 0, .made 0), (.pollFuture 0, .pending), (.poll 0, .made 1), (.finish 1, .ended), (.send 0 (.ok 1), .sent true),
      (.pollFuture 0, .item 1)]) := ⟨_, rfl⟩

/-- **C103** is false after the end: what is sent after `complete` is accepted, and received after the end was reported. -/
theorem values_after_end_refuted : ∃ s : State Nat Nat, State.newChannels.run [.send 0 .complete, .isClosed 0, .send 0 (.ok 1),
      .poll 1, .finish 0, .poll 1, .finish 1] =
    some (s, [(.send 0 .complete, .sent true), (.isClosed 0, .closed false), (.send 0 (.ok 1), .sent true), (.poll 1, .made 0),
      (.finish 0, .ended), (.poll 1, .made 1), (.finish 1, .item 1)]) := ⟨_, rfl⟩

/-- **C103** A Flux that is read through itself never ends because its senders are gone: it is one of them. -/
theorem own_sender {s : State α ε} {n : Nat} {d : Handle} (hh : s.handle n = some d) (hr : s.rx = .cell d.cell) (ht : d.tx = true)
    (hq : s.queue = []) : ∃ s', s.run (look s n) =
      some (s', [(.poll n, .made s.takes.length), (.finish s.takes.length, .pending)]) := by
  obtain ⟨s', o, h, _⟩ := end_reported_partial hh hr
  have h1 := look_run hh hr
  rw [hq] at h1
  have hs : s.hasSender = true := by
    simp only [State.hasSender, List.any_eq_true]
    unfold State.handle at hh
    cases hg : s.handles[n]? with
    | none => simp [hg] at hh
    | some o =>
      simp only [hg, Option.join_some] at hh
      subst hh
      exact ⟨_, List.mem_of_getElem? hg, by simpa using ht⟩
  simp only [hs, if_true] at h1
  exact ⟨_, h1⟩

example : (State.new : State Nat Nat).handle 0 = some ⟨true, 0⟩ ∧ (State.new : State Nat Nat).rx = .cell 0 := ⟨rfl, rfl⟩

/-! ## C104: giving up -/

/-- The handle lives and the receiver is in its cell, or will come back to it. -/
structure Keeps (s : State α ε) (n : Nat) (d : Handle) : Prop where
  handle : s.handle n = some d
  rx : s.rx = .cell d.cell ∨ ∃ j t, s.rx = .held j ∧ s.takeOf j = some t ∧ t.cell = d.cell

theorem keeps_settle {s : State α ε} {n : Nat} {d : Handle} (h : Keeps s n d) : s.settle = s := by
  unfold State.settle
  rcases h.rx with hr | ⟨j, t, hr, _⟩
  · rw [hr]
    dsimp only
    rw [if_pos (refers_handle h.handle)]
  · rw [hr]

theorem keeps_advance {s : State α ε} {n : Nat} {d : Handle} (hi : Inv s) (h : Keeps s n d) (j : Nat) (t : Take)
    (ht : s.takeOf j = some t) : Keeps (s.advance j t).1 n d := by
  have hp : ∀ q : List (Signal α ε), t.has = true → Keeps (State.putBack { s with queue := q } j t) n d := fun q hh => by
    have hc : t.cell = d.cell := by
      have := hi.has j t ht hh
      rcases h.rx with hr | ⟨k, u, hr, hu, hc⟩
      · rw [hr] at this; cases this
      · rw [hr] at this
        cases this
        rw [ht] at hu
        cases hu
        exact hc
    have hk : Keeps { s with queue := q, rx := .cell t.cell, takes := s.takes.set j none } n d :=
      ⟨h.handle, Or.inl (by rw [← hc])⟩
    unfold State.putBack
    rw [keeps_settle hk]
    exact hk
  unfold State.advance
  split
  · rename_i hh
    split
    · exact hp _ hh
    · split
      · split
        · exact h
        · exact hp s.queue hh
      · exact hp s.queue hh
  · rename_i hh
    have hk : Keeps { s with takes := s.takes.set j none } n d := by
      refine ⟨h.handle, ?_⟩
      rcases h.rx with hr | ⟨k, u, hr, hu, hc⟩
      · exact Or.inl hr
      · refine Or.inr ⟨k, u, hr, ?_, hc⟩
        have hne : j ≠ k := fun e => by
          subst e
          obtain ⟨u', hu', hh'⟩ := hi.held j hr
          rw [ht] at hu'
          cases hu'
          exact hh hh'
        simp only [State.takeOf, List.getElem?_set, if_neg hne] at hu ⊢
        exact hu
    dsimp only
    rw [keeps_settle hk]
    exact hk

/-- The steps that can lose the receiver: dropping a future of `recv`, dropping the handle, and taking the receiver to another
handle. -/
def Careful (n : Nat) : Ev α ε → Prop
  | .dropFuture _ => False
  | .eject _ => False
  | .drop m => m ≠ n
  | _ => True

theorem handle_lt {s : State α ε} {n : Nat} {d : Handle} (h : s.handle n = some d) : n < s.handles.length := by
  by_cases hl : n < s.handles.length
  · exact hl
  · simp [State.handle, List.getElem?_eq_none (Nat.le_of_not_lt hl)] at h

theorem keeps_take {s : State α ε} {n : Nat} {d : Handle} (h : Keeps s n d) (k : Kind) (d' : Handle) :
    Keeps (s.take k d').1 n d := by
  refine ⟨h.handle, ?_⟩
  unfold State.take
  rcases h.rx with hr | ⟨j, t, hr, ht, hc⟩
  · by_cases he : d.cell = d'.cell
    · right
      refine ⟨s.takes.length, _, by rw [hr, he]; exact if_pos rfl, by rw [takeOf_append]; exact if_pos rfl, he.symm⟩
    · left
      show (if s.rx = _ then _ else s.rx) = _
      rw [hr, if_neg (fun e => he (by injection e))]
  · right
    refine ⟨j, t, ?_, ?_, hc⟩
    · show (if s.rx = _ then _ else s.rx) = _
      rw [hr, if_neg (fun e => nomatch e)]
    · rw [takeOf_append, if_neg (Nat.ne_of_lt (takeOf_lt ht))]
      exact ht

theorem keeps_step {s s' : State α ε} {o : Out α ε} {n : Nat} {d : Handle} (e : Ev α ε) (hi : Inv s) (h : Keeps s n d)
    (hc : Careful n e) (hs : s.step e = some (s', o)) : Keeps s' n d := by
  cases e with
  | send m x =>
    simp only [State.step, Option.bind_eq_some_iff] at hs
    obtain ⟨d', _, hs⟩ := hs
    split at hs <;> simp only [Option.some.injEq, reduceCtorEq] at hs
    unfold State.send at hs
    split at hs <;> cases hs
    · exact h
    · exact ⟨h.handle, h.rx⟩
  | clone m =>
    simp only [State.step, Option.map_eq_some_iff] at hs
    obtain ⟨d', _, hs⟩ := hs
    cases hs
    refine ⟨?_, h.rx⟩
    have := h.handle
    simp only [State.handle] at this ⊢
    rw [List.getElem?_append_left (handle_lt h.handle)]
    exact this
  | drop m =>
    simp only [State.step, Option.map_eq_some_iff] at hs
    obtain ⟨d', _, hs⟩ := hs
    have hk : Keeps { s with handles := s.handles.set m none } n d := by
      refine ⟨?_, h.rx⟩
      have := h.handle
      simp only [State.handle, List.getElem?_set, if_neg (show m ≠ n from hc)] at this ⊢
      exact this
    rw [keeps_settle hk] at hs
    cases hs
    exact hk
  | recv m =>
    simp only [State.step, Option.map_eq_some_iff] at hs
    obtain ⟨d', _, hs⟩ := hs
    have := keeps_take h .future d'
    rw [hs] at this; exact this
  | poll m =>
    simp only [State.step, Option.map_eq_some_iff] at hs
    obtain ⟨d', _, hs⟩ := hs
    have := keeps_take h .poll d'
    rw [hs] at this; exact this
  | pollFuture j =>
    simp only [State.step, Option.bind_eq_some_iff] at hs
    obtain ⟨t, ht, hs⟩ := hs
    split at hs <;> simp only [Option.some.injEq, reduceCtorEq] at hs
    have := keeps_advance hi h j t ht
    rw [hs] at this; exact this
  | finish j =>
    simp only [State.step, Option.bind_eq_some_iff] at hs
    obtain ⟨t, ht, hs⟩ := hs
    split at hs <;> simp only [Option.some.injEq, reduceCtorEq] at hs
    have := keeps_advance hi h j t ht
    rw [hs] at this; exact this
  | dropFuture j => exact absurd hc id
  | eject m => exact absurd hc id
  | isClosed m =>
    simp only [State.step, Option.bind_eq_some_iff] at hs
    obtain ⟨d', _, hs⟩ := hs
    split at hs <;> simp only [Option.some.injEq, reduceCtorEq] at hs
    cases hs
    exact h

theorem keeps_run {s s' : State α ε} {tr : Trace α ε} {n : Nat} {d : Handle} (es : List (Ev α ε)) (hi : Inv s) (h : Keeps s n d)
    (hc : ∀ e ∈ es, Careful n e) (hs : s.run es = some (s', tr)) : Keeps s' n d := by
  induction es generalizing s tr with
  | nil => cases hs; exact h
  | cons e es ih =>
    simp only [State.run, Option.bind_eq_some_iff, Option.map_eq_some_iff] at hs
    obtain ⟨⟨m, o⟩, h1, ⟨q, tr'⟩, h2, h3⟩ := hs
    cases h3
    exact ih (inv_step e hi h1) (keeps_step e hi h (hc e List.mem_cons_self) h1)
      (fun e he => hc e (List.mem_cons_of_mem _ he)) h2

/-- **C104**, part of the claim: as long as a handle is kept, with the receiver not taken to another one and no future of `recv`
dropped, sends succeed and nothing is lost, however often a poll was given up; and the receiver is in the cell of the
handle again, so that `rx_delivers_partial` applies, unless a call that took it has not returned. -/
theorem give_up_partial {s s' : State α ε} {tr tr' : Trace α ε} {n : Nat} {d : Handle} (h : Reach s tr) (hh : s.handle n = some d)
    (hr : s.rx = .cell d.cell) (es : List (Ev α ε)) (hc : ∀ e ∈ es, Careful n e) (hs : s.run es = some (s', tr')) :
    sent (tr ++ tr') = got (tr ++ tr') ++ waiting s' ∧
    (∀ m x, (Ev.send m x, Out.sent false) ∉ tr') ∧
    (s'.rx = .cell d.cell ∨ ∃ j t, s'.rx = .held j ∧ s'.takeOf j = some t ∧ t.cell = d.cell) := by
  have hk := keeps_run es (inv_reach h) ⟨hh, Or.inl hr⟩ hc hs
  have hd : ∀ {u : State α ε}, Keeps u n d → u.rx ≠ .dropped := by
    intro u hu e
    rcases hu.rx with hr | ⟨j, t, hr, _⟩ <;> rw [hr] at e <;> cases e
  refine ⟨rx_nothing_lost (reach_run h es hs) (hd hk), ?_, hk.rx⟩
  intro m x hm
  have hk0 : Keeps s n d := ⟨hh, Or.inl hr⟩
  have hi0 := inv_reach h
  clear h hh hr hk
  induction es generalizing s tr' with
  | nil => cases hs; exact nomatch hm
  | cons e es ih =>
    simp only [State.run, Option.bind_eq_some_iff, Option.map_eq_some_iff] at hs
    obtain ⟨⟨u, o⟩, h1, ⟨q, tr''⟩, h2, h3⟩ := hs
    cases h3
    rcases List.mem_cons.1 hm with hm | hm
    · cases hm
      simp only [State.step, Option.bind_eq_some_iff] at h1
      obtain ⟨d', _, h1⟩ := h1
      split at h1 <;> simp only [Option.some.injEq, reduceCtorEq] at h1
      unfold State.send at h1
      rw [if_neg (hd hk0)] at h1
      cases h1
    · exact ih (fun e he => hc e (List.mem_cons_of_mem _ he)) h2 hm
        (keeps_step e hi0 hk0 (hc e List.mem_cons_self) h1) (inv_step e hi0 h1)

/-- A poll that found nothing, another sender that went away, and then a value. -/
example : ∃ s : State Nat Nat, State.newChannels.run [.clone 0, .poll 1, .finish 0, .drop 0, .send 2 (.ok 7)] =
      some (s, [(.clone 0, .made 2), (.poll 1, .made 0), (.finish 0, .pending), (.drop 0, .unit), (.send 2 (.ok 7), .sent true)]) ∧
    ∀ e ∈ ([.clone 0, .poll 1, .finish 0, .drop 0, .send 2 (.ok 7)] : List (Ev Nat Nat)), Careful 1 e :=
  ⟨_, rfl, by simp [Careful]⟩

/-- **C104** is false for `recv`: when the future is dropped, as a timeout or `select` does, the receiver is dropped
with it. The value that waited is lost, the handle that was kept reports the end, and nothing can be sent any more. -/
theorem give_up_refuted : ∃ s : State Nat Nat, State.newChannels.run [.recv 1, .pollFuture 0, .send 0 (.ok 1), .dropFuture 0,
      .poll 1, .finish 1, .send 0 (.ok 2)] =
    some (s, [(.recv 1, .made 0), (.pollFuture 0, .pending), (.send 0 (.ok 1), .sent true), (.dropFuture 0, .unit), (.poll 1, .made 1),
      (.finish 1, .ended), (.send 0 (.ok 2), .sent false)]) := ⟨_, rfl⟩

/-! ## C105: Mono -/

/-- What each call on a Mono has to do, told from the calls before it. -/
def monoSpec (before : List (MonoEv α ε)) : MonoEv α ε → MonoOut α ε
  | .push _ => if before.any (fun e => e matches .push _) then .panic else .unit
  | .poll =>
    match before.dropWhile (fun e => e matches .poll) with
    | .push r :: rest => if rest.any (fun e => e matches .poll) then .panic else .value r
    | _ => .pending

/-- The state of a Mono after these calls. -/
def monoState (before : List (MonoEv α ε)) : Mono α ε :=
  match before.dropWhile (fun e => e matches .poll) with
  | .push r :: rest => if rest.any (fun e => e matches .poll) then .spent else .ready r
  | _ => .empty

theorem dropWhile_poll (l : List (MonoEv α ε)) :
    l.dropWhile (fun e => e matches .poll) = [] ∧ l.any (fun e => e matches .push _) = false ∨
    ∃ r rest, l.dropWhile (fun e => e matches .poll) = .push r :: rest ∧ l.any (fun e => e matches .push _) = true := by
  induction l with
  | nil => exact Or.inl ⟨rfl, rfl⟩
  | cons e l ih =>
    cases e with
    | push r => exact Or.inr ⟨r, l, rfl, rfl⟩
    | poll => simpa using ih

theorem dropWhile_snoc (l : List (MonoEv α ε)) (e : MonoEv α ε) :
    (l ++ [e]).dropWhile (fun e => e matches .poll) =
      match l.dropWhile (fun e => e matches .poll) with
      | [] => [e].dropWhile (fun e => e matches .poll)
      | x => x ++ [e] := by
  induction l with
  | nil => rfl
  | cons a l ih =>
    cases a with
    | push r => simp
    | poll => simpa using ih

theorem mono_step (before : List (MonoEv α ε)) (e : MonoEv α ε) :
    (monoState before).step e = (monoState (before ++ [e]), monoSpec before e) := by
  unfold monoState monoSpec
  rw [dropWhile_snoc]
  rcases dropWhile_poll before with ⟨h1, h2⟩ | ⟨r, rest, h1, h2⟩
  · rw [h1, h2]
    cases e <;> rfl
  · rw [h1, h2]
    cases e with
    | push r' =>
      by_cases hp : rest.any (fun e => e matches .poll) = true
      · simp only [hp, List.cons_append, List.any_append, List.any_cons, List.any_nil, Bool.or_false, if_true]
        rfl
      · simp only [hp, List.cons_append, List.any_append, List.any_cons, List.any_nil, Bool.or_false, if_true]
        rfl
    | poll =>
      by_cases hp : rest.any (fun e => e matches .poll) = true
      · simp only [hp, List.cons_append, List.any_append, List.any_cons, List.any_nil, Bool.or_false, if_true, Bool.or_true]
        rfl
      · simp only [hp, List.cons_append, List.any_append, List.any_cons, List.any_nil, Bool.or_false, if_true, Bool.or_true]
        rfl

theorem mono_run (es before : List (MonoEv α ε)) : ∀ (i : Nat) (e : MonoEv α ε), es[i]? = some e →
    ((monoState before).run es).2[i]? = some (e, monoSpec (before ++ es.take i) e) := by
  induction es generalizing before with
  | nil => intro i e h; simp at h
  | cons a es ih =>
    intro i e h
    unfold Mono.run
    rw [mono_step]
    cases i with
    | zero =>
      simp only [List.getElem?_cons_zero, Option.some.injEq] at h
      subst h
      simp
    | succ i =>
      simp only [List.getElem?_cons_succ] at h ⊢
      rw [ih (before ++ [a]) i e h]
      simp

/-- **C105** Whatever calls are made on a new Mono, each does what the specification says. -/
theorem mono_once (es : List (MonoEv α ε)) (i : Nat) (e : MonoEv α ε) (h : es[i]? = some e) :
    ((Mono.empty : Mono α ε).run es).2[i]? = some (e, monoSpec (es.take i) e) := by
  have := mono_run es [] i e h
  simpa [monoState] using this

/-- A Mono is polled in vain, gets a value, and gives it; another push panics. -/
example : monoSpec ([.poll, .push (.ok 1)] : List (MonoEv Nat Nat)) .poll = .value (.ok 1) ∧
    monoSpec ([.poll, .push (.ok 1), .poll] : List (MonoEv Nat Nat)) (.push (.ok 2)) = .panic ∧
    monoSpec ([.poll] : List (MonoEv Nat Nat)) .poll = .pending := ⟨rfl, rfl, rfl⟩

/-! ## C106: pipes -/

/-- Polls of a pipe and what they return. -/
def pipePolls : Nat → Pipe α ε → Option (Pipe α ε × List (Out α ε))
  | 0, p => some (p, [])
  | n + 1, p => p.poll.bind fun r => (pipePolls n r.1).map fun q => (q.1, r.2 :: q.2)

/-- **C106**, part of the claim: a pipe gives its own reader the signals of the source, in order. Missing: the Flux it is
piped into gets nothing (`pipe_target_refuted`). -/
theorem pipe_source_partial (p : Pipe α ε) {d : Handle} (hh : p.source.handle p.handle = some d)
    (hr : p.source.rx = .cell d.cell) (n : Nat) (hn : n ≤ p.source.queue.length) :
    ∃ q, pipePolls n p = some (q, (p.source.queue.take n).map Signal.out) ∧ q.source.queue = p.source.queue.drop n := by
  induction n generalizing p with
  | zero => exact ⟨p, rfl, rfl⟩
  | succ n ih =>
    have h1 := look_run hh hr
    unfold look at h1
    cases hq : p.source.queue with
    | nil => rw [hq] at hn; simp at hn
    | cons x l =>
      rw [hq] at h1 hn
      obtain ⟨q, h2, h3⟩ := ih { p with source := { p.source with queue := l, takes := p.source.takes ++ [none] } } hh hr
        (by simpa using hn)
      refine ⟨q, ?_, h3⟩
      simp only [pipePolls, Pipe.poll, h1, Option.map_some, Option.bind_some, List.tail_cons, h2]
      rfl

/-- **C106** is false: polling a pipe, however often and whatever the source has, sends nothing to the Flux it is piped
into. -/
theorem pipe_target_refuted (n : Nat) (p q : Pipe α ε) (os : List (Out α ε)) (h : pipePolls n p = some (q, os)) :
    q.target = p.target := by
  induction n generalizing p os with
  | zero => cases h; rfl
  | succ n ih =>
    simp only [pipePolls, Pipe.poll, Option.bind_eq_some_iff, Option.map_eq_some_iff] at h
    obtain ⟨r, ⟨u, h1, rfl⟩, v, h2, h3⟩ := h
    cases h3
    rw [ih { p with source := u.1 } _ h2]

/-- The pipe of the test in pipe.rs:65-77, with two values. -/
example : ∃ s : State Nat Nat, State.newChannels.run [.send 0 (.ok 1), .send 0 (.ok 2)] =
      some (s, [(.send 0 (.ok 1), .sent true), (.send 0 (.ok 2), .sent true)]) ∧
    ∃ q, pipePolls 2 ⟨s, 1, State.new⟩ = some (q, [.item 1, .item 2]) ∧ q.target.queue = [] :=
  ⟨_, rfl, _, rfl, rfl⟩

end Iota.Props.RustRx
