import Verif.Model.RustExec

/-!
# C115, C116: tasks of a module written in Rust
-/

namespace Iota.Props.RustExec
open Iota.RustExec

variable {P M : Type}

/-! ## Specification -/

/-- What is due to a task: nothing because it does not exist, a poll, nothing, or nothing for ever because it has ended. -/
inductive Due where
  | absent
  | owed
  | idle
  | over
  deriving DecidableEq, Repr

/-- A task is owed a poll when it was spawned, or woken since its last poll began. -/
def due (i : Nat) (d : Due) : Ev → Due
  | .spawned j => if j = i then .owed else d
  | .woken j => if j = i ∧ d = .idle then .owed else d
  | .began j => if j = i then .idle else d
  | .ended j done => if j = i ∧ done = true then .over else d
  | .crashed => d

/-- What is due to task `i` after these events. -/
def status (i : Nat) (log : List Ev) : Due := log.foldl (due i) .absent

/-- The task that is being polled after these events. -/
def turn (log : List Ev) : Option Nat :=
  log.foldl (fun t e => match e with
    | .began i => some i
    | .ended _ _ => none
    | _ => t) none

/-- A poll begins only for a task that is owed one and when no other is under way, and ends as the one under way. -/
def Allowed (before : List Ev) : Ev → Prop
  | .spawned i => status i before = .absent
  | .began i => status i before = .owed ∧ turn before = none
  | .ended i _ => turn before = some i
  | _ => True

/-- All events were allowed when they happened. -/
def Good (log : List Ev) : Prop := ∀ a e b, log = a ++ e :: b → Allowed a e

mutual
/-- No panic is among these. -/
def Calm : Act P M → Prop
  | .panic => False
  | .enter as => CalmL as
  | _ => True
def CalmL : List (Act P M) → Prop
  | [] => True
  | a :: as => Calm a ∧ CalmL as
end

/-! ## Lemmas -/

theorem status_snoc (i : Nat) (l : List Ev) (e : Ev) : status i (l ++ [e]) = due i (status i l) e := by
  simp [status]

theorem turn_snoc (l : List Ev) (e : Ev) : turn (l ++ [e]) = match e with
    | .began i => some i
    | .ended _ _ => none
    | _ => turn l := by
  simp [turn]

theorem good_snoc {l : List Ev} {e : Ev} (h : Good l) (ha : Allowed l e) : Good (l ++ [e]) := by
  intro a f b hl
  rcases List.eq_nil_or_concat b with rfl | ⟨b', x, rfl⟩
  · have := List.append_inj' hl rfl
    obtain ⟨rfl, h2⟩ := this
    cases h2
    exact ha
  · have : l ++ [e] = (a ++ f :: b') ++ [x] := by simpa using hl
    have := List.append_inj' this rfl
    exact h a f b' this.1

theorem good_nil : Good [] := by
  intro a e b h
  simp at h

/-- The numbers of tasks. -/
def ids (l : List (Nat × P)) : List Nat := l.map (·.1)

structure Inv (s : St P M) (cur : List Nat) : Prop where
  good : Good s.log
  fresh : ∀ i, s.next ≤ i → status i s.log = .absent
  turn : turn s.log = cur.head?
  nodup : (ids s.tasks ++ ids s.incoming ++ cur).Nodup
  lt : ∀ i ∈ ids s.tasks ++ ids s.incoming ++ cur, i < s.next
  once : s.ready.Nodup
  sub : ∀ i ∈ s.ready, i ∈ ids s.tasks ∨ i ∈ cur
  owed : ∀ i, status i s.log = .owed ↔ i ∈ ids s.incoming ∨ i ∈ s.ready
  idle : ∀ i, status i s.log = .idle ↔ (i ∈ ids s.tasks ∨ i ∈ cur) ∧ i ∉ s.ready

theorem inv_new (m : M) : Inv (St.new m : St P M) [] where
  good := good_nil
  fresh := fun _ _ => rfl
  turn := rfl
  nodup := by simp [St.new, ids]
  lt := by simp [St.new, ids]
  once := by simp [St.new]
  sub := by simp [St.new]
  owed := fun i => by simp [St.new, ids, status]
  idle := fun i => by simp [St.new, ids, status]

theorem inv_set {s : St P M} {cur : List Nat} (h : Inv s cur) (f : M → M) : Inv { s with mem := f s.mem } cur :=
  ⟨h.good, h.fresh, h.turn, h.nodup, h.lt, h.once, h.sub, h.owed, h.idle⟩

theorem inv_flags {s : St P M} {cur : List Nat} (h : Inv s cur) (a b : Bool) : Inv { s with running := a, inside := b } cur :=
  ⟨h.good, h.fresh, h.turn, h.nodup, h.lt, h.once, h.sub, h.owed, h.idle⟩

theorem inv_crashed {s : St P M} {cur : List Nat} (h : Inv s cur) : Inv { s with log := s.log ++ [.crashed] } cur where
  good := good_snoc h.good trivial
  fresh := fun i hi => by rw [status_snoc]; exact h.fresh i hi
  turn := by rw [turn_snoc]; exact h.turn
  nodup := h.nodup
  lt := h.lt
  once := h.once
  sub := h.sub
  owed := fun i => by rw [status_snoc]; exact h.owed i
  idle := fun i => by rw [status_snoc]; exact h.idle i

theorem inv_spawn {s : St P M} {cur : List Nat} (h : Inv s cur) (p : P) :
    Inv { s with incoming := s.incoming ++ [(s.next, p)], next := s.next + 1, log := s.log ++ [.spawned s.next] } cur := by
  have hn : s.next ∉ ids s.tasks ++ ids s.incoming ++ cur := fun hm => Nat.lt_irrefl _ (h.lt _ hm)
  have hr : s.next ∉ s.ready := fun hm => hn (by rcases h.sub _ hm with h | h <;> simp [h])
  simp only [List.mem_append, not_or] at hn
  refine ⟨good_snoc h.good (h.fresh _ (Nat.le_refl _)), fun i hi => ?_, ?_, ?_, ?_, h.once, h.sub, fun i => ?_, fun i => ?_⟩
  · rw [status_snoc]
    have hi : s.next + 1 ≤ i := hi
    simp only [due]
    rw [if_neg (by omega)]
    exact h.fresh i (by omega)
  · rw [turn_snoc]; exact h.turn
  · have := h.nodup
    simp only [ids, List.map_append, List.map_cons, List.map_nil] at this hn ⊢
    simp only [List.nodup_append, List.mem_append] at this ⊢
    obtain ⟨⟨a1, a2, a3⟩, a4, a5⟩ := this
    refine ⟨⟨a1, ⟨a2, by simp, ?_⟩, ?_⟩, a4, ?_⟩
    · intro a ha b hb
      simp only [List.mem_singleton] at hb
      subst hb
      rintro rfl
      exact hn.1.2 ha
    · intro a ha b hb
      rcases hb with hb | hb
      · exact a3 a ha b hb
      · simp only [List.mem_singleton] at hb
        subst hb
        rintro rfl
        exact hn.1.1 ha
    · intro a ha b hb
      rcases ha with ha | ha | ha
      · exact a5 a (.inl ha) b hb
      · exact a5 a (.inr ha) b hb
      · simp only [List.mem_singleton] at ha
        subst ha
        rintro rfl
        exact hn.2 hb
  · intro i hi
    simp only [ids, List.map_append, List.map_cons, List.map_nil, List.mem_append, List.mem_singleton] at hi
    have hl := h.lt i
    simp only [ids, List.mem_append] at hl
    show i < s.next + 1
    rcases hi with (hi | hi | hi) | hi
    · have := hl (.inl (.inl hi)); omega
    · have := hl (.inl (.inr hi)); omega
    · omega
    · have := hl (.inr hi); omega
  · rw [status_snoc]
    simp only [due, ids, List.map_append, List.map_cons, List.map_nil, List.mem_append, List.mem_singleton]
    by_cases hi : s.next = i
    · simp [hi]
    · rw [if_neg hi, h.owed i]
      have hi' : ¬ i = s.next := fun h => hi h.symm
      simp [ids, hi']
  · rw [status_snoc]
    simp only [due]
    by_cases hi : s.next = i
    · subst hi
      simp [hn.1.1, hn.2]
    · rw [if_neg hi, h.idle i]

theorem any_ids (l : List (Nat × P)) (i : Nat) : l.any (fun t => t.1 == i) = true ↔ i ∈ ids l := by
  simp only [List.any_eq_true, beq_iff_eq, ids, List.mem_map]

theorem inv_wake {s : St P M} {cur : List Nat} (h : Inv s cur) (i : Nat) : Inv (s.wake cur i) cur := by
  have hc : ((s.tasks.any (fun t => t.1 == i) || cur.contains i) && !s.ready.contains i) = true ↔ status i s.log = .idle := by
    rw [h.idle i, Bool.and_eq_true, Bool.or_eq_true, any_ids, List.contains_iff_mem, Bool.not_eq_true', Bool.eq_false_iff,
      Ne, List.contains_iff_mem]
  unfold St.wake
  by_cases hi : status i s.log = .idle
  · rw [if_pos (hc.mpr hi)]
    obtain ⟨h1, h2⟩ := (h.idle i).mp hi
    have hinc : i ∉ ids s.incoming := fun hm => by
      have := (h.owed i).mpr (.inl hm)
      rw [hi] at this; cases this
    refine ⟨good_snoc h.good trivial, fun j hj => ?_, ?_, h.nodup, h.lt, ?_, fun j hj => ?_, fun j => ?_, fun j => ?_⟩
    · rw [status_snoc]
      have := h.fresh j hj
      simp [due, this]
    · rw [turn_snoc]; exact h.turn
    · simp only [List.nodup_append]
      refine ⟨h.once, by simp, ?_⟩
      intro a ha b hb
      simp only [List.mem_singleton] at hb
      subst hb
      rintro rfl
      exact h2 ha
    · simp only [List.mem_append, List.mem_singleton] at hj
      rcases hj with hj | rfl
      · exact h.sub j hj
      · exact h1
    · rw [status_snoc]
      simp only [due, List.mem_append, List.mem_singleton]
      by_cases hj : i = j
      · subst hj; simp [hi]
      · rw [if_neg (fun h => hj h.1), h.owed j]
        have hj' : ¬ j = i := fun h => hj h.symm
        simp [hj']
    · rw [status_snoc]
      simp only [due, List.mem_append, List.mem_singleton]
      by_cases hj : i = j
      · subst hj; simp [hi]
      · rw [if_neg (fun h => hj h.1), h.idle j]
        have hj' : ¬ j = i := fun h => hj h.symm
        simp [hj']
  · rw [if_neg (fun h => hi (hc.mp h))]
    have hs : ∀ j, status j (s.log ++ [.woken i]) = status j s.log := fun j => by
      rw [status_snoc]
      simp only [due]
      split
      · rename_i h
        obtain ⟨rfl, h⟩ := h
        exact absurd h hi
      · rfl
    refine ⟨good_snoc h.good trivial, fun j hj => by rw [hs]; exact h.fresh j hj, ?_, h.nodup, h.lt, h.once, h.sub,
      fun j => by rw [hs]; exact h.owed j, fun j => by rw [hs]; exact h.idle j⟩
    rw [turn_snoc]; exact h.turn

theorem inv_join {s : St P M} (h : Inv s []) : Inv s.join [] := by
  unfold St.join
  have hd := h.nodup
  simp only [List.append_nil, List.nodup_append] at hd
  refine ⟨h.good, h.fresh, h.turn, ?_, ?_, ?_, ?_, fun i => ?_, fun i => ?_⟩
  · have := h.nodup
    simpa [ids] using this
  · have := h.lt
    simpa [ids] using this
  · show (s.ready ++ ids s.incoming).Nodup
    rw [List.nodup_append]
    refine ⟨h.once, hd.2.1, fun a ha b hb => ?_⟩
    rcases h.sub a ha with h | h
    · exact hd.2.2 a h b hb
    · simp at h
  · intro i hi
    have hi : i ∈ s.ready ++ ids s.incoming := hi
    simp only [List.mem_append] at hi
    simp only [ids, List.map_append, List.mem_append]
    rcases hi with hi | hi
    · rcases h.sub i hi with h | h
      · exact .inl (.inl h)
      · exact .inr h
    · exact .inl (.inr hi)
  · rw [h.owed i]
    simp [ids, or_comm]
  · rw [h.idle i]
    have hsub : i ∈ ids s.incoming → i ∉ ids s.tasks := fun h1 h2 => hd.2.2 i h2 i h1 rfl
    simp only [ids] at hsub
    simp only [ids, List.map_append, List.mem_append, List.not_mem_nil, or_false, not_or]
    constructor
    · rintro ⟨h1, h2⟩
      exact ⟨.inl h1, h2, fun h3 => hsub h3 h1⟩
    · rintro ⟨h1 | h1, h2, h3⟩
      · exact ⟨h1, h2⟩
      · exact absurd h1 h3

theorem ids_filter (l : List (Nat × P)) (i j : Nat) : j ∈ ids (l.filter fun t => t.1 != i) ↔ j ∈ ids l ∧ j ≠ i := by
  simp only [ids, List.mem_map, List.mem_filter, bne_iff_ne]
  constructor
  · rintro ⟨t, ⟨h1, h2⟩, rfl⟩
    exact ⟨⟨t, h1, rfl⟩, h2⟩
  · rintro ⟨⟨t, h1, rfl⟩, h2⟩
    exact ⟨t, ⟨h1, h2⟩, rfl⟩

theorem nodup_filter (l : List (Nat × P)) (i : Nat) (h : (ids l).Nodup) : (ids (l.filter fun t => t.1 != i)).Nodup :=
  List.Nodup.sublist (List.Sublist.map _ List.filter_sublist) h

theorem find_ids {l : List (Nat × P)} {i : Nat} {x : Nat × P} (h : l.find? (fun t => t.1 == i) = some x) : x.1 = i ∧ i ∈ ids l := by
  have h1 := List.find?_some h
  have h2 := List.mem_of_find?_eq_some h
  simp only [beq_iff_eq] at h1
  exact ⟨h1, List.mem_map.mpr ⟨x, h2, h1⟩⟩

theorem inv_begin {s : St P M} {i : Nat} {r : List Nat} (h : Inv s []) (hr : s.ready = i :: r) (hi : i ∈ ids s.tasks) :
    Inv { s with ready := r, tasks := s.tasks.filter (fun t => t.1 != i), log := s.log ++ [.began i] } [i] := by
  have hd := h.nodup
  simp only [List.append_nil, List.nodup_append] at hd
  have ho := h.once
  rw [hr, List.nodup_cons] at ho
  refine ⟨good_snoc h.good ⟨(h.owed i).mpr (.inr (by rw [hr]; simp)), h.turn⟩, fun j hj => ?_, ?_, ?_, ?_, ho.2, fun j hj => ?_,
    fun j => ?_, fun j => ?_⟩
  · rw [status_snoc]
    have : j ≠ i := by
      rintro rfl
      have := h.lt j (by simp [hi])
      have hj : s.next ≤ j := hj
      omega
    simp only [due]
    rw [if_neg (fun h => this h.symm)]
    exact h.fresh j hj
  · rw [turn_snoc]; rfl
  · simp only [List.nodup_append]
    refine ⟨⟨nodup_filter _ _ hd.1, hd.2.1, fun a ha b hb => hd.2.2 a ((ids_filter _ _ _).mp ha).1 b hb⟩, by simp, ?_⟩
    intro a ha b hb
    simp only [List.mem_singleton] at hb
    subst hb
    simp only [List.mem_append, ids_filter] at ha
    rcases ha with ha | ha
    · exact ha.2
    · rintro rfl
      exact hd.2.2 a hi a ha rfl
  · intro j hj
    simp only [List.mem_append, ids_filter, List.mem_singleton] at hj
    refine h.lt j ?_
    simp only [List.mem_append]
    rcases hj with (hj | hj) | rfl
    · exact .inl (.inl hj.1)
    · exact .inl (.inr hj)
    · exact .inl (.inl hi)
  · have hji : j ≠ i := by rintro rfl; exact ho.1 hj
    rcases h.sub j (by rw [hr]; simp [hj]) with h | h
    · exact .inl ((ids_filter _ _ _).mpr ⟨h, hji⟩)
    · simp at h
  · rw [status_snoc]
    simp only [due]
    by_cases hj : i = j
    · subst hj
      have : i ∉ ids s.incoming := fun hm => hd.2.2 i hi i hm rfl
      simp [ho.1, this]
    · rw [if_neg hj, h.owed j, hr]
      have hj' : ¬ j = i := fun h => hj h.symm
      simp [hj']
  · rw [status_snoc]
    simp only [due]
    by_cases hj : i = j
    · subst hj
      simp [ho.1]
    · have hj' : ¬ j = i := fun h => hj h.symm
      rw [if_neg hj, h.idle j, hr, ids_filter]
      simp [hj']

theorem inv_done {s : St P M} {i : Nat} (h : Inv s [i]) :
    Inv { s with ready := s.ready.filter (fun j => j != i), log := s.log ++ [.ended i true] } [] := by
  have hd := h.nodup
  simp only [List.nodup_append, List.mem_append] at hd
  have hit : i ∉ ids s.tasks := fun hm => hd.2.2 i (.inl hm) i (by simp) rfl
  have hii : i ∉ ids s.incoming := fun hm => hd.2.2 i (.inr hm) i (by simp) rfl
  refine ⟨good_snoc h.good h.turn, fun j hj => ?_, ?_, ?_, ?_, ?_, fun j hj => ?_, fun j => ?_, fun j => ?_⟩
  · rw [status_snoc]
    have : j ≠ i := by
      rintro rfl
      have := h.lt j (by simp)
      have hj : s.next ≤ j := hj
      omega
    simp only [due]
    rw [if_neg (fun h => this h.1.symm)]
    exact h.fresh j hj
  · rw [turn_snoc]; rfl
  · simp only [List.append_nil, List.nodup_append]
    exact hd.1
  · intro j hj
    refine h.lt j ?_
    simp only [List.append_nil] at hj
    exact List.mem_append.mpr (.inl hj)
  · exact List.Nodup.sublist List.filter_sublist h.once
  · simp only [List.mem_filter, bne_iff_ne] at hj
    rcases h.sub j hj.1 with h | h
    · exact .inl h
    · simp only [List.mem_singleton] at h
      exact absurd h hj.2
  · rw [status_snoc]
    simp only [due, List.mem_filter, bne_iff_ne]
    by_cases hj : i = j
    · subst hj
      simp [hii]
    · rw [if_neg (fun h => hj h.1), h.owed j]
      have hj' : ¬ j = i := fun h => hj h.symm
      simp [hj']
  · rw [status_snoc]
    simp only [due, List.mem_filter, bne_iff_ne]
    by_cases hj : i = j
    · subst hj
      simp [hit]
    · rw [if_neg (fun h => hj h.1), h.idle j]
      have hj' : ¬ j = i := fun h => hj h.symm
      simp [hj']

theorem inv_back {s : St P M} {i : Nat} (h : Inv s [i]) (p : P) :
    Inv { s with tasks := s.tasks ++ [(i, p)], log := s.log ++ [.ended i false] } [] := by
  have hst : ∀ j, status j (s.log ++ [.ended i false]) = status j s.log := fun j => by
    rw [status_snoc]; simp [due]
  have hd := h.nodup
  simp only [List.nodup_append, List.mem_append] at hd
  refine ⟨good_snoc h.good h.turn, fun j hj => by rw [hst]; exact h.fresh j hj, ?_, ?_, ?_, h.once, fun j hj => ?_,
    fun j => by rw [hst]; exact h.owed j, fun j => ?_⟩
  · rw [turn_snoc]; rfl
  · simp only [ids, List.map_append, List.map_cons, List.map_nil, List.append_nil]
    simp only [List.nodup_append, List.mem_append, List.mem_singleton]
    refine ⟨⟨hd.1.1, by simp, ?_⟩, hd.1.2.1, ?_⟩
    · intro a ha b hb
      exact hd.2.2 a (.inl ha) b (by simp [hb])
    · intro a ha b hb
      rcases ha with ha | rfl
      · exact hd.1.2.2 a ha b hb
      · intro hab
        exact hd.2.2 b (.inr hb) a (by simp) hab.symm
  · intro j hj
    refine h.lt j ?_
    simp only [ids, List.map_append, List.map_cons, List.map_nil, List.append_nil, List.mem_append, List.mem_singleton] at hj ⊢
    rcases hj with (hj | hj) | hj
    · exact .inl (.inl hj)
    · exact .inr hj
    · exact .inl (.inr hj)
  · simp only [ids, List.map_append, List.map_cons, List.map_nil, List.mem_append]
    rcases h.sub j hj with h | h
    · exact .inl (.inl h)
    · exact .inl (.inr h)
  · rw [hst, h.idle j]
    simp [ids]

/-- What holds also after a crash. -/
def Lite (s : St P M) : Prop := Good s.log ∧ ∀ i, s.next ≤ i → status i s.log = .absent

theorem lite_wake {s : St P M} (cur : List Nat) (i : Nat) (h : Lite s) : Lite (s.wake cur i) := by
  have : ∀ t : St P M, t.log = s.log ++ [.woken i] → t.next = s.next → Lite t := by
    intro t h1 h2
    refine ⟨by rw [h1]; exact good_snoc h.1 trivial, fun j hj => ?_⟩
    rw [h1, status_snoc, h.2 j (by omega)]
    simp [due]
  unfold St.wake
  split <;> exact this _ rfl rfl

theorem lite_spawn {s : St P M} (p : P) (h : Lite s) :
    Lite { s with incoming := s.incoming ++ [(s.next, p)], next := s.next + 1, log := s.log ++ [.spawned s.next] } := by
  refine ⟨good_snoc h.1 (h.2 _ (Nat.le_refl _)), fun j hj => ?_⟩
  have hj : s.next + 1 ≤ j := hj
  rw [status_snoc, h.2 j (by omega)]
  simp only [due]
  rw [if_neg (by omega)]

theorem lite_crashed {s : St P M} (h : Lite s) : Lite { s with log := s.log ++ [.crashed] } :=
  ⟨good_snoc h.1 trivial, fun j hj => by rw [status_snoc]; exact h.2 j hj⟩

/-- While the pool is running, or seems to be, nothing is polled. -/
theorem quiet (g : Prog P M) : ∀ (n : Nat) (cur : List Nat) (s : St P M) (as : List (Act P M)) (s' : St P M) (ok : Bool),
    s.running = true → acts g n cur s as = some (s', ok) →
      s'.running = true ∧ s'.inside = s.inside ∧ (Inv s cur → Inv s' cur) ∧ (Lite s → Lite s') ∧
        (∃ l, s'.log = s.log ++ l ∧ ∀ i, Ev.began i ∉ l) ∧ (CalmL as → ok = true) := by
  intro n
  induction n with
  | zero => intro cur s as s' ok _ h; simp [acts] at h
  | succ n ih =>
    intro cur s as s' ok hr h
    have add : ∀ {t : St P M} {e : Ev}, t.log = s.log ++ [e] → (∀ i, e ≠ .began i) →
        (∃ l, s'.log = t.log ++ l ∧ ∀ i, Ev.began i ∉ l) → ∃ l, s'.log = s.log ++ l ∧ ∀ i, Ev.began i ∉ l := by
      rintro t e ht he ⟨l, h1, h2⟩
      refine ⟨e :: l, by rw [h1, ht]; simp, fun i hm => ?_⟩
      rcases List.mem_cons.mp hm with h | h
      · exact he i h.symm
      · exact h2 i h
    cases as with
    | nil =>
      simp only [acts, Option.some.injEq, Prod.mk.injEq] at h
      obtain ⟨rfl, rfl⟩ := h
      exact ⟨hr, rfl, id, id, ⟨[], by simp, by simp⟩, fun _ => rfl⟩
    | cons a as =>
      cases a with
      | set f =>
        simp only [acts] at h
        obtain ⟨h1, h2, h3, hl, h4, h5⟩ := ih cur _ as s' ok (by exact hr) h
        exact ⟨h1, h2, fun hi => h3 (inv_set hi f), hl, h4, fun hc => h5 (by simp only [CalmL] at hc; exact hc.2)⟩
      | spawn p =>
        simp only [acts] at h
        obtain ⟨h1, h2, h3, hl, h4, h5⟩ := ih cur _ as s' ok (by exact hr) h
        exact ⟨h1, h2, fun hi => h3 (inv_spawn hi p), fun hi => hl (lite_spawn p hi), add (e := .spawned s.next) rfl (fun i hh => nomatch hh) h4,
          fun hc => h5 (by simp only [CalmL] at hc; exact hc.2)⟩
      | wake i =>
        simp only [acts] at h
        have e1 : (s.wake cur i).running = s.running ∧ (s.wake cur i).inside = s.inside ∧ (s.wake cur i).log = s.log ++ [.woken i] := by
          unfold St.wake; split <;> exact ⟨rfl, rfl, rfl⟩
        obtain ⟨h1, h2, h3, hl, h4, h5⟩ := ih cur _ as s' ok (by rw [e1.1]; exact hr) h
        exact ⟨h1, by rw [h2, e1.2.1], fun hi => h3 (inv_wake hi i), fun hi => hl (lite_wake cur i hi), add e1.2.2 (fun i hh => nomatch hh) h4,
          fun hc => h5 (by simp only [CalmL] at hc; exact hc.2)⟩
      | panic =>
        simp only [acts, Option.some.injEq, Prod.mk.injEq] at h
        obtain ⟨rfl, rfl⟩ := h
        exact ⟨hr, rfl, fun hi => inv_crashed hi, lite_crashed, ⟨[.crashed], rfl, by simp⟩, fun hc => by simp [CalmL, Calm] at hc⟩
      | enter bs =>
        simp only [acts] at h
        cases hb : acts g n cur s bs with
        | none => rw [hb] at h; cases h
        | some r =>
          obtain ⟨t, okb⟩ := r
          rw [hb] at h
          obtain ⟨b1, b2, b3, bl, b4, b5⟩ := ih cur s bs t okb hr hb
          cases okb with
          | false =>
            simp only [Option.some.injEq, Prod.mk.injEq] at h
            obtain ⟨rfl, rfl⟩ := h
            exact ⟨b1, b2, b3, bl, b4, fun hc => by simp only [CalmL, Calm] at hc; exact b5 hc.1⟩
          | true =>
            simp only at h
            cases n with
            | zero => simp [exhaustPool] at h
            | succ n =>
              simp only [exhaustPool, if_pos b1] at h
              obtain ⟨h1, h2, h3, hl2, ⟨l, h4, h4'⟩, h5⟩ := ih cur t as s' ok b1 h
              obtain ⟨l', hl, hl'⟩ := b4
              refine ⟨h1, by rw [h2, b2], fun hi => h3 (b3 hi), fun hi => hl2 (bl hi), ⟨l' ++ l, by rw [h4, hl]; simp, fun i hm => ?_⟩,
                fun hc => h5 (by simp only [CalmL] at hc; exact hc.2)⟩
              rcases List.mem_append.mp hm with hm | hm
              · exact hl' i hm
              · exact h4' i hm

/-- The loop ends with nothing left to do. -/
theorem loop_rest (g : Prog P M) : ∀ (n : Nat) (s : St P M) (s' : St P M) (ok : Bool),
    s.running = true → Inv s [] → loop g n [] s = some (s', ok) →
      s'.running = true ∧ Lite s' ∧ s'.inside = s.inside ∧ (ok = false → turn s'.log ≠ none) ∧
        (ok = true → Inv s' [] ∧ s'.ready = [] ∧ s'.incoming = []) ∧ ((∀ p m, CalmL (g.poll p m).1) → ok = true) := by
  intro n
  induction n with
  | zero => intro s s' ok _ _ h; simp [loop] at h
  | succ n ih =>
    intro s s' ok hr hi h
    unfold loop at h
    have hj : ∃ u : St P M, u = (if s.ready.isEmpty || g.early s.log then s.join else s) ∧ u.running = true ∧ u.inside = s.inside ∧
        Inv u [] ∧ (u.ready = [] → u.incoming = []) := by
      refine ⟨_, rfl, ?_⟩
      split
      · exact ⟨hr, rfl, inv_join hi, fun _ => rfl⟩
      · rename_i hc
        refine ⟨hr, rfl, hi, fun h => ?_⟩
        simp [h] at hc
    obtain ⟨u, hu, u1, u2, u3, u4⟩ := hj
    rw [← hu] at h
    simp only at h
    rw [← u2]
    cases hq : u.ready with
    | nil =>
      rw [hq] at h
      simp only [Option.some.injEq, Prod.mk.injEq] at h
      obtain ⟨rfl, rfl⟩ := h
      exact ⟨u1, ⟨u3.good, u3.fresh⟩, rfl, (fun hh => nomatch hh), fun _ => ⟨u3, hq, u4 hq⟩, fun _ => rfl⟩
    | cons i r =>
      rw [hq] at h
      simp only at h
      have hmem : i ∈ ids u.tasks := (u3.sub i (by rw [hq]; simp)).resolve_right (by simp)
      cases hf : u.tasks.find? (fun t => t.1 == i) with
      | none =>
        exfalso
        rw [List.find?_eq_none] at hf
        obtain ⟨t, ht, rfl⟩ := List.mem_map.mp hmem
        exact hf t ht (by simp)
      | some x =>
        obtain ⟨k, p⟩ := x
        rw [hf] at h
        simp only at h
        have hb := inv_begin u3 hq hmem
        cases ha : acts g n [i] { u with ready := r, tasks := u.tasks.filter (fun t => t.1 != i), log := u.log ++ [.began i] }
            (g.poll p u.mem).1 with
        | none => rw [ha] at h; cases h
        | some y =>
          obtain ⟨v, okv⟩ := y
          rw [ha] at h
          obtain ⟨v1, v2, v3, _, v4, v5⟩ := quiet g n [i] _ _ v okv (by exact u1) ha
          have v3 := v3 hb
          cases okv with
          | false =>
            simp only [Option.some.injEq, Prod.mk.injEq] at h
            obtain ⟨rfl, rfl⟩ := h
            exact ⟨v1, ⟨v3.good, v3.fresh⟩, v2, fun _ => by rw [v3.turn]; simp, (fun hh => nomatch hh), fun hc => v5 (hc p u.mem)⟩
          | true =>
            simp only at h
            cases hp : (g.poll p u.mem).2 with
            | none =>
              rw [hp] at h
              obtain ⟨w1, w2, w3, wt, w4, w5⟩ := ih _ s' ok (by exact v1) (inv_done v3) h
              exact ⟨w1, w2, by rw [w3]; exact v2, wt, w4, w5⟩
            | some p' =>
              rw [hp] at h
              obtain ⟨w1, w2, w3, wt, w4, w5⟩ := ih _ s' ok (by exact v1) (inv_back v3 p') h
              exact ⟨w1, w2, by rw [w3]; exact v2, wt, w4, w5⟩

/-- The module can work: the pool does not run. -/
structure Alive (s : St P M) : Prop where
  inv : Inv s []
  running : s.running = false
  inside : s.inside = false

theorem exhaust_rest (g : Prog P M) (n : Nat) (s s' : St P M) (ok : Bool) (h : Alive s)
    (hs : exhaustPool g n [] s = some (s', ok)) :
    Lite s' ∧ (ok = true → Alive s' ∧ s'.ready = [] ∧ s'.incoming = []) ∧
      (ok = false → s'.running = true ∧ turn s'.log ≠ none) ∧
      ((∀ p m, CalmL (g.poll p m).1) → ok = true) := by
  cases n with
  | zero => simp [exhaustPool] at hs
  | succ n =>
    simp only [exhaustPool, h.running, Bool.false_eq_true, if_false] at hs
    cases n with
    | zero => simp [runUntilStalled] at hs
    | succ n =>
      simp only [runUntilStalled, h.inside, Bool.false_eq_true, if_false] at hs
      cases hl : loop g n [] { s with running := true, inside := true } with
      | none =>
        rw [hl] at hs
        simp at hs
      | some y =>
        obtain ⟨v, okv⟩ := y
        rw [hl] at hs
        obtain ⟨v1, v2, v3, vt, v4, v5⟩ := loop_rest g n _ v okv (by rfl) (inv_flags h.inv true true) hl
        cases okv with
        | false =>
          simp only [Option.some.injEq, Prod.mk.injEq] at hs
          obtain ⟨rfl, rfl⟩ := hs
          exact ⟨v2, (fun hh => nomatch hh), fun _ => ⟨v1, vt rfl⟩, v5⟩
        | true =>
          simp only [Option.some.injEq, Prod.mk.injEq] at hs
          obtain ⟨rfl, rfl⟩ := hs
          obtain ⟨w1, w2, w3⟩ := v4 rfl
          exact ⟨v2, fun _ => ⟨⟨inv_flags w1 false false, rfl, rfl⟩, w2, w3⟩, (fun hh => nomatch hh), fun _ => rfl⟩

/-- What a module does outside of the pool. -/
theorem acts_alive (g : Prog P M) : ∀ (n : Nat) (s : St P M) (as : List (Act P M)) (s' : St P M) (ok : Bool),
    Alive s → acts g n [] s as = some (s', ok) →
      Lite s' ∧ (ok = true → Alive s') ∧ (ok = false → s'.running = true ∧ turn s'.log ≠ none ∨ Alive s') ∧
        (CalmL as → (∀ p m, CalmL (g.poll p m).1) → ok = true) := by
  intro n
  induction n with
  | zero => intro s as s' ok _ h; simp [acts] at h
  | succ n ih =>
    intro s as s' ok hr h
    cases as with
    | nil =>
      simp only [acts, Option.some.injEq, Prod.mk.injEq] at h
      obtain ⟨rfl, rfl⟩ := h
      exact ⟨⟨hr.inv.good, hr.inv.fresh⟩, fun _ => hr, fun _ => .inr hr, fun _ _ => rfl⟩
    | cons a as =>
      cases a with
      | set f =>
        simp only [acts] at h
        obtain ⟨h1, h2, h3, h4⟩ := ih _ as s' ok ⟨inv_set hr.inv f, hr.running, hr.inside⟩ h
        exact ⟨h1, h2, h3, fun hc => h4 (by simp only [CalmL] at hc; exact hc.2)⟩
      | spawn p =>
        simp only [acts] at h
        obtain ⟨h1, h2, h3, h4⟩ := ih _ as s' ok ⟨inv_spawn hr.inv p, hr.running, hr.inside⟩ h
        exact ⟨h1, h2, h3, fun hc => h4 (by simp only [CalmL] at hc; exact hc.2)⟩
      | wake i =>
        simp only [acts] at h
        have e1 : (s.wake [] i).running = s.running ∧ (s.wake [] i).inside = s.inside := by
          unfold St.wake; split <;> exact ⟨rfl, rfl⟩
        obtain ⟨h1, h2, h3, h4⟩ := ih _ as s' ok ⟨inv_wake hr.inv i, by rw [e1.1, hr.running], by rw [e1.2, hr.inside]⟩ h
        exact ⟨h1, h2, h3, fun hc => h4 (by simp only [CalmL] at hc; exact hc.2)⟩
      | panic =>
        simp only [acts, Option.some.injEq, Prod.mk.injEq] at h
        obtain ⟨rfl, rfl⟩ := h
        have hi := inv_crashed hr.inv
        exact ⟨⟨hi.good, hi.fresh⟩, (fun hh => nomatch hh), fun _ => .inr ⟨hi, hr.running, hr.inside⟩, fun hc => by simp [CalmL, Calm] at hc⟩
      | enter bs =>
        simp only [acts] at h
        cases hb : acts g n [] s bs with
        | none => rw [hb] at h; cases h
        | some r =>
          obtain ⟨t, okb⟩ := r
          rw [hb] at h
          obtain ⟨b1, b2, b3, b4⟩ := ih s bs t okb hr hb
          cases okb with
          | false =>
            simp only [Option.some.injEq, Prod.mk.injEq] at h
            obtain ⟨rfl, rfl⟩ := h
            exact ⟨b1, (fun hh => nomatch hh), b3, fun hc hg => by simp only [CalmL, Calm] at hc; exact b4 hc.1 hg⟩
          | true =>
            simp only at h
            cases hx : exhaustPool g n [] t with
            | none => rw [hx] at h; cases h
            | some y =>
              obtain ⟨v, okv⟩ := y
              rw [hx] at h
              obtain ⟨x1, x2, x3, x4⟩ := exhaust_rest g n t v okv (b2 rfl) hx
              cases okv with
              | false =>
                simp only [Option.some.injEq, Prod.mk.injEq] at h
                obtain ⟨rfl, rfl⟩ := h
                exact ⟨x1, (fun hh => nomatch hh), fun _ => .inl (x3 rfl), fun _ hg => x4 hg⟩
              | true =>
                simp only at h
                obtain ⟨h1, h2, h3, h4⟩ := ih v as s' ok (x2 rfl).1 h
                exact ⟨h1, h2, h3, fun hc => h4 (by simp only [CalmL] at hc; exact hc.2)⟩

theorem Alive.lite {s : St P M} (h : Alive s) : Lite s := ⟨h.inv.good, h.inv.fresh⟩

theorem exhaust_dead (g : Prog P M) (n : Nat) (cur : List Nat) (s s' : St P M) (ok : Bool) (h : s.running = true)
    (hs : exhaustPool g n cur s = some (s', ok)) : s' = s := by
  cases n with
  | zero => simp [exhaustPool] at hs
  | succ n =>
    simp only [exhaustPool, if_pos h, Option.some.injEq, Prod.mk.injEq] at hs
    exact hs.1.symm

theorem call_alive (g : Prog P M) (n : Nat) (s s' : St P M) (ok : Bool) (c : Call P M) (h : Alive s)
    (hs : s.call g n c = some (s', ok)) :
    Lite s' ∧ (ok = true → Alive s') ∧ (ok = false → s'.running = true ∧ turn s'.log ≠ none ∨ Alive s') := by
  cases c with
  | other as =>
    obtain ⟨h1, h2, h3, _⟩ := acts_alive g n s as s' ok h hs
    exact ⟨h1, h2, h3⟩
  | send as =>
    simp only [St.call] at hs
    cases ha : acts g n [] s as with
    | none => rw [ha] at hs; cases hs
    | some r =>
      obtain ⟨t, okt⟩ := r
      rw [ha] at hs
      obtain ⟨h1, h2, h3, _⟩ := acts_alive g n s as t okt h ha
      cases okt with
      | false =>
        simp only [Option.some.injEq, Prod.mk.injEq] at hs
        obtain ⟨rfl, rfl⟩ := hs
        exact ⟨h1, h2, h3⟩
      | true =>
        obtain ⟨x1, x2, x3, _⟩ := exhaust_rest g n t s' ok (h2 rfl) hs
        exact ⟨x1, fun h => (x2 h).1, fun h => .inl (x3 h)⟩

theorem call_dead (g : Prog P M) (n : Nat) (s s' : St P M) (ok : Bool) (c : Call P M) (h : s.running = true)
    (hs : s.call g n c = some (s', ok)) :
    s'.running = true ∧ (Lite s → Lite s') ∧ ∃ l, s'.log = s.log ++ l ∧ ∀ i, Ev.began i ∉ l := by
  cases c with
  | other as =>
    obtain ⟨h1, _, _, h2, h3, _⟩ := quiet g n [] s as s' ok h hs
    exact ⟨h1, h2, h3⟩
  | send as =>
    simp only [St.call] at hs
    cases ha : acts g n [] s as with
    | none => rw [ha] at hs; cases hs
    | some r =>
      obtain ⟨t, okt⟩ := r
      rw [ha] at hs
      obtain ⟨h1, _, _, h2, h3, _⟩ := quiet g n [] s as t okt h ha
      cases okt with
      | false =>
        simp only [Option.some.injEq, Prod.mk.injEq] at hs
        obtain ⟨rfl, rfl⟩ := hs
        exact ⟨h1, h2, h3⟩
      | true =>
        have := exhaust_dead g n [] t s' ok h1 hs
        subst this
        exact ⟨h1, h2, h3⟩

theorem calls_dead (g : Prog P M) (n : Nat) (cs : List (Call P M)) : ∀ (s s' : St P M), s.running = true →
    s.calls g n cs = some s' → s'.running = true ∧ (Lite s → Lite s') ∧ ∃ l, s'.log = s.log ++ l ∧ ∀ i, Ev.began i ∉ l := by
  induction cs with
  | nil =>
    intro s s' h hs
    simp only [St.calls, Option.some.injEq] at hs
    subst hs
    exact ⟨h, id, [], by simp, by simp⟩
  | cons c cs ih =>
    intro s s' h hs
    simp only [St.calls] at hs
    cases hc : s.call g n c with
    | none => rw [hc] at hs; cases hs
    | some r =>
      obtain ⟨t, okt⟩ := r
      rw [hc] at hs
      obtain ⟨h1, h2, l, h3, h4⟩ := call_dead g n s t okt c h hc
      obtain ⟨k1, k2, l', k3, k4⟩ := ih t s' h1 hs
      refine ⟨k1, fun hl => k2 (h2 hl), l ++ l', by rw [k3, h3]; simp, fun i hm => ?_⟩
      rcases List.mem_append.mp hm with hm | hm
      · exact h4 i hm
      · exact k4 i hm

/-- A history leaves the module alive, or dead in the middle of a poll. -/
theorem calls_state (g : Prog P M) (n : Nat) (cs : List (Call P M)) : ∀ (s s' : St P M), Alive s → s.calls g n cs = some s' →
    Lite s' ∧ (s'.running = true ∨ Alive s') := by
  induction cs with
  | nil =>
    intro s s' h hs
    simp only [St.calls, Option.some.injEq] at hs
    subst hs
    exact ⟨h.lite, .inr h⟩
  | cons c cs ih =>
    intro s s' h hs
    simp only [St.calls] at hs
    cases hc : s.call g n c with
    | none => rw [hc] at hs; cases hs
    | some r =>
      obtain ⟨t, okt⟩ := r
      rw [hc] at hs
      obtain ⟨h1, h2, h3⟩ := call_alive g n s t okt c h hc
      have : t.running = true ∨ Alive t := by
        cases okt with
        | true => exact .inr (h2 rfl)
        | false => exact (h3 rfl).imp (·.1) id
      rcases this with hd | ha
      · obtain ⟨k1, k2, _⟩ := calls_dead g n cs t s' hd hs
        exact ⟨k2 h1, .inl k1⟩
      · exact ih t s' ha hs

theorem alive_new (m : M) : Alive (St.new m : St P M) := ⟨inv_new m, rfl, rfl⟩

/-! ## C115 -/

/-- **C115** (part) Whatever the tasks do and the host has called before: if the module did not trap during a poll, then
after a `__wasmrs_send` that returns, no task is owed a poll. -/
theorem no_work_left_partial (g : Prog P M) (n : Nat) (m : M) (cs : List (Call P M)) (s : St P M) (hs : (St.new m).calls g n cs = some s)
    (hd : s.running = false) (as : List (Act P M)) (s' : St P M) (h : s.call g n (.send as) = some (s', true)) :
    s'.running = false ∧ ∀ i, status i s'.log ≠ .owed := by
  have ha : Alive s := ((calls_state g n cs _ s (alive_new m) hs).2).resolve_left (by rw [hd]; simp)
  simp only [St.call] at h
  cases hx : acts g n [] s as with
  | none => rw [hx] at h; cases h
  | some r =>
    obtain ⟨t, okt⟩ := r
    rw [hx] at h
    obtain ⟨_, h2, _, _⟩ := acts_alive g n s as t okt ha hx
    cases okt with
    | false => simp at h
    | true =>
      obtain ⟨_, x2, _, _⟩ := exhaust_rest g n t s' true (h2 rfl) h
      obtain ⟨y1, y2, y3⟩ := x2 rfl
      refine ⟨y1.running, fun i hi => ?_⟩
      rw [y1.inv.owed i, y2, y3] at hi
      simp [ids] at hi

/-- **C115** In every history tasks are polled only when they are owed it, one at a time, and never after their end; also when
the host calls back while a task calls it, and after crashes. -/
theorem polls_orderly (g : Prog P M) (n : Nat) (m : M) (cs : List (Call P M)) (s : St P M) (hs : (St.new m).calls g n cs = some s) :
    Good s.log :=
  (calls_state g n cs _ s (alive_new m) hs).1.1

/-- **C115** A task that has ended is not polled again: so much follows from `Good`. -/
theorem over_stays (i : Nat) (a b : List Ev) (h : status i a = .over) (hg : Good (a ++ b)) : status i (a ++ b) = .over ∧ Ev.began i ∉ b := by
  induction b generalizing a with
  | nil => simpa using h
  | cons e b ih =>
    have he : Allowed a e := hg a e b rfl
    have hne : ∀ x, x = i → e ≠ .began x ∧ e ≠ .spawned x := by
      rintro x rfl
      constructor
      · rintro rfl
        have := he.1
        rw [h] at this; cases this
      · rintro rfl
        have : status x a = .absent := he
        rw [h] at this; cases this
    have h1 : status i (a ++ [e]) = .over := by
      rw [status_snoc, h]
      cases e with
      | spawned j => simp only [due]; rw [if_neg (fun hj => (hne j hj).2 rfl)]
      | woken j => simp [due]
      | began j => simp only [due]; rw [if_neg (fun hj => (hne j hj).1 rfl)]
      | ended j d => simp only [due]; split <;> rfl
      | crashed => rfl
    have := ih (a ++ [e]) h1 (by simpa using hg)
    refine ⟨by simpa using this.1, fun hm => ?_⟩
    rcases List.mem_cons.mp hm with rfl | hm
    · exact (hne i rfl).1 rfl
    · exact this.2 hm

/-- **C115** If no task and no call panics, then no call traps: running the pool again while it runs does not. -/
theorem no_crash (g : Prog P M) (n : Nat) (m : M) (cs : List (Call P M)) (s : St P M) (hs : (St.new m).calls g n cs = some s)
    (hg : ∀ p m, CalmL (g.poll p m).1) (hd : s.running = false) (c : Call P M)
    (hc : match c with | .send as => CalmL as | .other as => CalmL as) (s' : St P M) (ok : Bool)
    (h : s.call g n c = some (s', ok)) : ok = true ∧ s'.running = false := by
  have ha : Alive s := ((calls_state g n cs _ s (alive_new m) hs).2).resolve_left (by rw [hd]; simp)
  have hok : ok = true := by
    cases c with
    | other as => exact (acts_alive g n s as s' ok ha h).2.2.2 hc hg
    | send as =>
      simp only [St.call] at h
      cases hx : acts g n [] s as with
      | none => rw [hx] at h; cases h
      | some r =>
        obtain ⟨t, okt⟩ := r
        rw [hx] at h
        obtain ⟨_, h2, _, h4⟩ := acts_alive g n s as t okt ha hx
        have := h4 hc hg
        subst this
        exact (exhaust_rest g n t s' ok (h2 rfl) h).2.2.2 hg
  subst hok
  exact ⟨rfl, ((call_alive g n s s' true c ha h).2.1 rfl).running⟩

/-! ## C116 -/

/-- **C116** is false: after a call that trapped during a poll, no task is ever polled again, whatever the host calls. -/
theorem crash_stops_refuted (g : Prog P M) (n : Nat) (m : M) (cs : List (Call P M)) (s : St P M) (hs : (St.new m).calls g n cs = some s)
    (c : Call P M) (s' : St P M) (h : s.call g n c = some (s', false)) (ht : turn s'.log ≠ none)
    (later : List (Call P M)) (s'' : St P M) (hl : s'.calls g n later = some s'') :
    ∃ l, s''.log = s'.log ++ l ∧ ∀ i, Ev.began i ∉ l := by
  have hr : s'.running = true := by
    rcases (calls_state g n cs _ s (alive_new m) hs).2 with hd | ha
    · exact (call_dead g n s s' false c hd h).1
    · rcases (call_alive g n s s' false c ha h).2.2 rfl with hh | hh
      · exact hh.1
      · exact absurd hh.inv.turn (by simpa using ht)
  exact (calls_dead g n later s' s'' hr hl).2.2

/-- **C116** (part) A call that trapped outside of polls does no harm: the module is as able to work as before. -/
theorem crash_outside_partial (g : Prog P M) (n : Nat) (m : M) (cs : List (Call P M)) (s : St P M)
    (hs : (St.new m).calls g n cs = some s) (hd : s.running = false) (c : Call P M) (s' : St P M)
    (h : s.call g n c = some (s', false)) (ht : turn s'.log = none) : s'.running = false := by
  have ha : Alive s := ((calls_state g n cs _ s (alive_new m) hs).2).resolve_left (by rw [hd]; simp)
  rcases (call_alive g n s s' false c ha h).2.2 rfl with hh | hh
  · exact absurd ht hh.2
  · exact hh.running

/-- **C115** is false for calls that do not run the pool: what they spawn is not polled, for any program. -/
theorem other_call_refuted (g : Prog P M) (m : M) (p : P) : ∃ s', (St.new m).call g 2 (.other [.spawn p]) = some (s', true) ∧
    status 0 s'.log = .owed := ⟨_, rfl, rfl⟩

/-! ## Examples -/

/-- Task 0 spawns task 1, which wakes task 0 and calls the host, which calls back; a task above 5 panics. -/
def sample : Prog Nat Nat where
  poll p _ := if p = 0 then ([.spawn 1], some 2) else if p = 1 then ([.wake 0, .enter [.spawn 3, .set (· + 1)]], none)
    else if p > 5 then ([.panic], none) else ([], none)
  early _ := false

example : ((St.new 7).call sample 20 (.send [.spawn 0])).map (fun r => (r.1.log, r.1.mem, r.2)) =
    some ([.spawned 0, .began 0, .spawned 1, .ended 0 false, .began 1, .woken 0, .spawned 2, .ended 1 true, .began 0, .ended 0 true,
      .began 2, .ended 2 true], 8, true) := by decide +kernel

/-- After a good call one that traps during a poll, and then one whose task stays owed a poll. -/
example : ((St.new 0).calls sample 20 [.send [.spawn 0]]).bind (fun s => (s.call sample 20 (.send [.spawn 9])).bind fun r =>
      (r.1.calls sample 20 [.send [.spawn 0], .send []]).map fun s'' => (s.running, r.2, turn r.1.log, status 4 s''.log)) =
    some (false, false, some 3, .owed) := by decide +kernel

/-- A call that traps outside of polls, and then one that polls what the other has spawned. -/
example : ((St.new 0).calls sample 20 [.send [.spawn 0]]).bind (fun s => (s.call sample 20 (.send [.spawn 1, .panic])).bind fun r =>
      (r.1.call sample 20 (.send [])).map fun q => (r.2, turn r.1.log, q.2, status 3 q.1.log)) =
    some (false, none, true, .over) := by decide +kernel

end Iota.Props.RustExec
