import Verif.Model.FlowRace

/-!
# A flow goes on once when its operations finish at the same time (C142)
-/

namespace Iota.Props.FlowRace
open Iota.FlowRace

/-- All goroutines have run to their end. -/
def Finished (s : State) : Prop := ∀ p ∈ s.phases, p = .done

instance (s : State) : Decidable (Finished s) := by unfold Finished; infer_instance

/-- Is a goroutine in the middle of `check` or of the call of the step? -/
def middle : Phase → Bool
  | .idle => false
  | .done => false
  | _ => true

/-- At no time are two goroutines in the middle of `check`. -/
def Alone (reload : Bool) (n : Nat) (is : List Nat) : Prop :=
  ∀ k, ((run reload (init n) (is.take k)).phases.countP middle) ≤ 1

/-! ## Lists -/

theorem countP_set {P : Phase → Bool} : ∀ {l : List Phase} {i : Nat} {a b : Phase}, l[i]? = some a →
    (l.set i b).countP P + (P a).toNat = l.countP P + (P b).toNat
  | [], i, a, b, h => by simp at h
  | x :: l, 0, a, b, h => by
    simp only [List.getElem?_cons_zero, Option.some.injEq] at h
    subst h
    simp only [List.set_cons_zero, List.countP_cons]
    cases P x <;> cases P b <;> simp <;> omega
  | x :: l, i + 1, a, b, h => by
    simp only [List.getElem?_cons_succ] at h
    have := countP_set (P := P) (b := b) h
    simp only [List.set_cons_succ, List.countP_cons]
    omega

theorem mem_set {l : List Phase} {i : Nat} {b x : Phase} (h : x ∈ l.set i b) : x ∈ l ∨ x = b := by
  have := List.mem_or_eq_of_mem_set h
  exact this

theorem run_snoc (reload : Bool) (s : State) (is : List Nat) (i : Nat) :
    run reload s (is ++ [i]) = step reload (run reload s is) i := by
  simp [run]

theorem run_append (reload : Bool) (s : State) (is js : List Nat) :
    run reload s (is ++ js) = run reload (run reload s is) js := by
  simp [run]

theorem countP_all {P : Phase → Bool} : ∀ {l : List Phase}, l.countP P = l.length → ∀ p ∈ l, P p = true := by
  intro l h
  exact List.countP_eq_length.1 h

/-! ## At most once -/

/-- Has the goroutine written `completed`? -/
def written : Phase → Bool
  | .idle => false
  | .loaded _ => false
  | _ => true

/-- Will the goroutine start the step? (If it compares what it wrote.) -/
def high (n : Nat) : Phase → Bool
  | .loaded r => n ≤ r + 1
  | .stored r => n ≤ r + 1
  | .calling => true
  | _ => false

/-- What holds when the number written is the one compared. -/
structure Inv (n : Nat) (s : State) : Prop where
  len : s.phases.length = n
  low : s.completed ≤ s.phases.countP written
  loads : ∀ r, .loaded r ∈ s.phases → r ≤ s.phases.countP written
  one : s.started + s.phases.countP (high n) ≤ 1
  last : 1 ≤ s.started + s.phases.countP (high n) → ∀ p ∈ s.phases, high n p = true ∨ written p = true

theorem inv_init (n : Nat) : Inv n (init n) where
  len := by simp [init]
  low := by simp [init]
  loads r h := by simp [init] at h
  one := by
    have : (List.replicate n Phase.idle).countP (high n) = 0 := by
      rw [List.countP_eq_zero]
      intro p hp
      rw [(List.mem_replicate.1 hp).2]
      simp [high]
    simp [init, this]
  last h := by
    have : (List.replicate n Phase.idle).countP (high n) = 0 := by
      rw [List.countP_eq_zero]
      intro p hp
      rw [(List.mem_replicate.1 hp).2]
      simp [high]
    simp [init, this] at h

theorem inv_step {n : Nat} {s : State} (h : Inv n s) (i : Nat) : Inv n (step false s i) := by
  unfold step
  cases hp : s.phases[i]? with
  | none => exact h
  | some p =>
    have hmem := List.mem_of_getElem? hp
    have hw := fun b => countP_set (P := written) (b := b) hp
    have hh := fun b => countP_set (P := high n) (b := b) hp
    cases p with
    | idle =>
      have hw := hw (.loaded s.completed)
      have hh := hh (.loaded s.completed)
      have h0 : s.started + s.phases.countP (high n) = 0 := by
        rcases Nat.eq_zero_or_pos (s.started + s.phases.countP (high n)) with e | e
        · exact e
        · rcases h.last e _ hmem with e | e <;> simp [high, written] at e
      simp only [written, high, Bool.toNat_false] at hw hh
      have hl := h.low
      refine ⟨by simp [advance, h.len], ?_, ?_, ?_, ?_⟩ <;> dsimp only [advance]
      · omega
      · intro r hr
        rcases mem_set hr with hr | hr
        · have := h.loads r hr
          omega
        · cases hr
          omega
      · have := Bool.toNat_le (decide (n ≤ s.completed + 1))
        omega
      · intro h1 p hp'
        have hb : n ≤ s.completed + 1 := by
          by_cases hb : n ≤ s.completed + 1
          · exact hb
          · rw [decide_eq_false hb] at hh
            simp only [Bool.toNat_false] at hh
            omega
        rcases List.mem_iff_getElem?.1 hp' with ⟨j, hj⟩
        by_cases hij : i = j
        · subst hij
          have hlt := (List.getElem?_eq_some_iff.1 hp).1
          rw [List.getElem?_set_self hlt] at hj
          cases hj
          left
          simp [high, hb]
        · rw [List.getElem?_set_ne hij] at hj
          right
          cases hwp : written p with
          | true => rfl
          | false =>
            exfalso
            have h2 := countP_set (P := written) (b := .done) hp
            have hj' : (s.phases.set i .done)[j]? = some p := by rw [List.getElem?_set_ne hij]; exact hj
            have h3 := countP_set (P := written) (b := .done) hj'
            rw [hwp] at h3
            rw [show written .idle = false from rfl, show written .done = true from rfl] at h2
            rw [show written .done = true from rfl] at h3
            simp only [Bool.toNat_false, Bool.toNat_true] at h2 h3
            have h4 := List.countP_le_length (p := written) (l := (s.phases.set i .done).set j .done)
            simp only [List.length_set, h.len] at h4
            omega
    | loaded r =>
      have hw := hw (.stored r)
      have hh := hh (.stored r)
      simp only [written, high, Bool.toNat_false, Bool.toNat_true] at hw hh
      have hr := h.loads r hmem
      refine ⟨by simp [advance, h.len], ?_, ?_, ?_, ?_⟩ <;> dsimp only [advance]
      · omega
      · intro r' hr'
        rcases mem_set hr' with hr' | hr'
        · have := h.loads r' hr'
          omega
        · cases hr'
      · have := h.one
        omega
      · intro h1 p hp'
        rcases mem_set hp' with hp' | rfl
        · exact h.last (by omega) p hp'
        · right
          rfl
    | stored r =>
      have hw := fun b (hb : written b = true) => hw b
      have key : ∀ b, written b = true → high n b = high n (.stored r) →
          Inv n { s with phases := s.phases.set i b } := by
        intro b hb1 hb2
        have hw := hw b hb1
        have hh := hh b
        rw [hb2] at hh
        rw [hb1, show written (.stored r) = true from rfl] at hw
        refine ⟨by simp [h.len], ?_, ?_, ?_, ?_⟩ <;> dsimp only
        · have := h.low
          omega
        · intro r' hr'
          rcases mem_set hr' with hr' | hr'
          · have := h.loads r' hr'
            omega
          · rw [← hr'] at hb1
            simp [written] at hb1
        · have := h.one
          omega
        · intro h1 p hp'
          rcases mem_set hp' with hp' | rfl
          · exact h.last (by omega) p hp'
          · right
            exact hb1
      dsimp only [advance]
      rw [h.len]
      split
      · rename_i hc
        simp only [compared, Bool.false_eq_true, if_false] at hc
        exact key .calling rfl (by simp [high, hc])
      · rename_i hc
        simp only [compared, Bool.false_eq_true, if_false] at hc
        exact key .done rfl (by simp [high, hc])
    | calling =>
      have hw := hw .done
      have hh := hh .done
      simp only [written, high, Bool.toNat_false, Bool.toNat_true] at hw hh
      refine ⟨by simp [advance, h.len], ?_, ?_, ?_, ?_⟩ <;> dsimp only [advance]
      · omega
      · intro r' hr'
        rcases mem_set hr' with hr' | hr'
        · have := h.loads r' hr'
          omega
        · cases hr'
      · have := h.one
        omega
      · intro h1 p hp'
        rcases mem_set hp' with hp' | rfl
        · exact h.last (by omega) p hp'
        · right
          rfl
    | done => exact h

/-- **C142** (part) If the number compared is the one that was written, the next step is started at most once, however the
goroutines overlap. -/
theorem at_most_once_partial (n : Nat) (is : List Nat) : (run false (init n) is).started ≤ 1 := by
  have h : ∀ (is : List Nat) (s : State), Inv n s → Inv n (run false s is) := by
    intro is
    induction is with
    | nil => exact fun s h => h
    | cons i is ih => exact fun s h => ih _ (inv_step h i)
  have := (h is _ (inv_init n)).one
  omega

example : (run false (init 3) [0, 0, 1, 2, 0, 1, 1, 2, 2, 2]).started = 0 ∧
    (run false (init 3) [1, 1, 0, 0, 0, 2, 2, 2, 2, 1]).started = 1 := by decide

/-! ## Exactly once, if `check` is not called twice at a time -/

structure Calm (n : Nat) (s : State) : Prop where
  len : s.phases.length = n
  before : s.started = 0 → s.completed = s.phases.countP written ∧
    (∀ r, .loaded r ∈ s.phases → r = s.phases.countP written) ∧
    (∀ r, .stored r ∈ s.phases → r + 1 = s.phases.countP written) ∧
    (.calling ∈ s.phases → s.phases.countP written = n) ∧
    (s.phases.countP written = n → ∃ p ∈ s.phases, middle p = true)
  after : s.started ≠ 0 → s.started = 1 ∧ ∀ p ∈ s.phases, p = .done

theorem only {l : List Phase} (h : l.countP middle ≤ 1) {i j : Nat} {p q : Phase} (hi : l[i]? = some p) (hj : l[j]? = some q)
    (hp : middle p = true) (hq : middle q = true) : i = j := by
  by_cases hij : i = j
  · exact hij
  · exfalso
    have h1 := countP_set (P := middle) (b := .done) hi
    have hj' : (l.set i .done)[j]? = some q := by rw [List.getElem?_set_ne hij]; exact hj
    have h2 := countP_set (P := middle) (b := .done) hj'
    simp only [hp, hq, Bool.toNat_true] at h1 h2
    simp only [middle, Bool.toNat_false] at h1 h2
    omega

theorem in_set {l : List Phase} {i : Nat} {a b x : Phase} (hi : l[i]? = some a) (hx : x ∈ l.set i b) :
    x = b ∨ ∃ j, j ≠ i ∧ l[j]? = some x := by
  rcases List.mem_iff_getElem?.1 hx with ⟨j, hj⟩
  by_cases hij : i = j
  · subst hij
    have hlt := (List.getElem?_eq_some_iff.1 hi).1
    rw [List.getElem?_set_self hlt] at hj
    cases hj
    exact .inl rfl
  · rw [List.getElem?_set_ne hij] at hj
    exact .inr ⟨j, fun e => hij e.symm, hj⟩

theorem set_mem {l : List Phase} {i : Nat} {a b : Phase} (hi : l[i]? = some a) : b ∈ l.set i b := by
  have hlt := (List.getElem?_eq_some_iff.1 hi).1
  exact List.mem_iff_getElem?.2 ⟨i, List.getElem?_set_self hlt⟩

theorem calm_step {n : Nat} {reload : Bool} {s : State} (h : Calm n s) (i : Nat) (h1 : s.phases.countP middle ≤ 1)
    (h2 : (step reload s i).phases.countP middle ≤ 1) : Calm n (step reload s i) := by
  unfold step at h2 ⊢
  cases hp : s.phases[i]? with
  | none => exact h
  | some p =>
    rw [hp] at h2
    dsimp only at h2 ⊢
    have hmem := List.mem_of_getElem? hp
    have hw := fun b => countP_set (P := written) (b := b) hp
    by_cases hd : p = .done
    · subst hd
      exact h
    have h0 : s.started = 0 := by
      by_cases e : s.started = 0
      · exact e
      · exact absurd ((h.after e).2 _ hmem) hd
    obtain ⟨b1, b2, b3, b4, b5⟩ := h.before h0
    cases p with
    | idle =>
      have hw := hw (.loaded s.completed)
      simp only [written, Bool.toNat_false, Nat.add_zero] at hw
      have alone : ∀ j q, j ≠ i → s.phases[j]? = some q → middle q = false := by
        intro j q hj hq
        cases hm : middle q with
        | false => rfl
        | true =>
          have hq' : (s.phases.set i (.loaded s.completed))[j]? = some q := by
            rw [List.getElem?_set_ne (fun e => hj e.symm)]
            exact hq
          have hlt := (List.getElem?_eq_some_iff.1 hp).1
          exact absurd (only h2 hq' (List.getElem?_set_self hlt) hm rfl) hj
      refine ⟨by simp [advance, h.len], fun _ => ⟨?_, ?_, ?_, ?_, ?_⟩, fun e => absurd h0 e⟩ <;> dsimp only [advance]
      · omega
      · intro r hr
        rcases in_set hp hr with hr | ⟨j, hj, hr⟩
        · cases hr
          omega
        · have := alone j _ hj hr
          simp [middle] at this
      · intro r hr
        rcases in_set hp hr with hr | ⟨j, hj, hr⟩
        · cases hr
        · have := alone j _ hj hr
          simp [middle] at this
      · intro hr
        rcases in_set hp hr with hr | ⟨j, hj, hr⟩
        · cases hr
        · have := alone j _ hj hr
          simp [middle] at this
      · intro _
        exact ⟨_, set_mem hp, rfl⟩
    | loaded r =>
      have hr0 := b2 r hmem
      have hw := hw (.stored r)
      simp only [written, Bool.toNat_false, Bool.toNat_true, Nat.add_zero] at hw
      have alone : ∀ j q, j ≠ i → s.phases[j]? = some q → middle q = false := by
        intro j q hj hq
        cases hm : middle q with
        | false => rfl
        | true => exact absurd (only h1 hq hp hm rfl) hj
      refine ⟨by simp [advance, h.len], fun _ => ⟨?_, ?_, ?_, ?_, ?_⟩, fun e => absurd h0 e⟩ <;> dsimp only [advance]
      · omega
      · intro r' hr
        rcases in_set hp hr with hr | ⟨j, hj, hr⟩
        · cases hr
        · have := alone j _ hj hr
          simp [middle] at this
      · intro r' hr
        rcases in_set hp hr with hr | ⟨j, hj, hr⟩
        · cases hr
          omega
        · have := alone j _ hj hr
          simp [middle] at this
      · intro hr
        rcases in_set hp hr with hr | ⟨j, hj, hr⟩
        · cases hr
        · have := alone j _ hj hr
          simp [middle] at this
      · intro _
        exact ⟨_, set_mem hp, rfl⟩
    | stored r =>
      have hr0 := b3 r hmem
      have alone : ∀ j q, j ≠ i → s.phases[j]? = some q → middle q = false := by
        intro j q hj hq
        cases hm : middle q with
        | false => rfl
        | true => exact absurd (only h1 hq hp hm rfl) hj
      have hc : compared reload s.completed r = s.phases.countP written := by
        unfold compared
        split <;> omega
      dsimp only [advance]
      rw [hc, h.len]
      have hle := List.countP_le_length (p := written) (l := s.phases)
      rw [h.len] at hle
      split
      · rename_i hge
        have hw := hw .calling
        simp only [written, Bool.toNat_true] at hw
        refine ⟨by simp [h.len], fun _ => ⟨?_, ?_, ?_, ?_, ?_⟩, fun e => absurd h0 e⟩ <;> dsimp only
        · omega
        · intro r' hr
          rcases in_set hp hr with hr | ⟨j, hj, hr⟩
          · cases hr
          · have := alone j _ hj hr
            simp [middle] at this
        · intro r' hr
          rcases in_set hp hr with hr | ⟨j, hj, hr⟩
          · cases hr
          · have := alone j _ hj hr
            simp [middle] at this
        · intro _
          omega
        · intro _
          exact ⟨_, set_mem hp, rfl⟩
      · rename_i hge
        have hw := hw .done
        simp only [written, Bool.toNat_true] at hw
        refine ⟨by simp [h.len], fun _ => ⟨?_, ?_, ?_, ?_, ?_⟩, fun e => absurd h0 e⟩ <;> dsimp only
        · omega
        · intro r' hr
          rcases in_set hp hr with hr | ⟨j, hj, hr⟩
          · cases hr
          · have := alone j _ hj hr
            simp [middle] at this
        · intro r' hr
          rcases in_set hp hr with hr | ⟨j, hj, hr⟩
          · cases hr
          · have := alone j _ hj hr
            simp [middle] at this
        · intro hr
          rcases in_set hp hr with hr | ⟨j, hj, hr⟩
          · cases hr
          · have := alone j _ hj hr
            simp [middle] at this
        · intro e
          omega
    | calling =>
      have hn := b4 hmem
      have alone : ∀ j q, j ≠ i → s.phases[j]? = some q → middle q = false := by
        intro j q hj hq
        cases hm : middle q with
        | false => rfl
        | true => exact absurd (only h1 hq hp hm rfl) hj
      refine ⟨by simp [advance, h.len], fun e => by simp [advance] at e, fun _ => ⟨by simp [advance, h0], ?_⟩⟩
      dsimp only [advance]
      intro p hpm
      rcases in_set hp hpm with rfl | ⟨j, hj, hq⟩
      · rfl
      · have hwp := countP_all (P := written) (hn.trans h.len.symm) p (List.mem_of_getElem? hq)
        have hmp := alone j p hj hq
        cases p <;> simp_all [written, middle]
    | done => exact h

/-- **C142** (part) If no two goroutines are in `check` at a time, the next step is started exactly once when the
operations have finished, in whatever order they do. Missing: calls of `check` that overlap, which nothing in the code
excludes (`stall_refuted`, `again_refuted`). -/
theorem once_partial (reload : Bool) (n : Nat) (hn : 0 < n) (is : List Nat) (ha : Alone reload n is)
    (hf : Finished (run reload (init n) is)) : (run reload (init n) is).started = 1 := by
  have hz : (List.replicate n Phase.idle).countP written = 0 := by
    rw [List.countP_eq_zero]
    intro p hp
    rw [(List.mem_replicate.1 hp).2]
    exact Bool.false_ne_true
  have key : ∀ k, Calm n (run reload (init n) (is.take k)) := by
    intro k
    induction k with
    | zero =>
      refine ⟨by simp [run, init], fun _ => ⟨?_, ?_, ?_, ?_, ?_⟩, fun e => by simp [run, init] at e⟩ <;>
        (try simp only [List.take_zero, run, init, List.foldl_nil])
      · exact hz.symm
      · intro r hr
        exact absurd (List.mem_replicate.1 hr).2 (by simp)
      · intro r hr
        exact absurd (List.mem_replicate.1 hr).2 (by simp)
      · intro hr
        exact absurd (List.mem_replicate.1 hr).2 (by simp)
      · intro e
        have e' := hz.symm.trans e
        omega
    | succ k ih =>
      cases hk : is[k]? with
      | none =>
        have hlen := List.getElem?_eq_none_iff.1 hk
        rw [List.take_of_length_le (by omega)]
        rw [List.take_of_length_le hlen] at ih
        exact ih
      | some i =>
        have e : is.take (k + 1) = is.take k ++ [i] := by
          rw [List.take_succ, hk]
          rfl
        rw [e, run_snoc]
        refine calm_step ih i (ha k) ?_
        rw [← run_snoc, ← e]
        exact ha (k + 1)
  have h := key is.length
  rw [List.take_length] at h
  by_cases h0 : (run reload (init n) is).started = 0
  · exfalso
    obtain ⟨_, _, _, _, b5⟩ := h.before h0
    have hw : (run reload (init n) is).phases.countP written = n := by
      refine Eq.trans (List.countP_eq_length.2 ?_) h.len
      intro p hp
      rw [hf p hp]
      rfl
    obtain ⟨p, hp, hm⟩ := b5 hw
    rw [hf p hp] at hm
    simp [middle] at hm
  · exact (h.after h0).1

/-- Three operations, which finish one after the other. -/
example (reload : Bool) : Alone reload 3 [1, 1, 1, 0, 0, 0, 2, 2, 2, 2] ∧
    Finished (run reload (init 3) [1, 1, 1, 0, 0, 0, 2, 2, 2, 2]) := by
  refine ⟨fun k => ?_, by cases reload <;> decide⟩
  rcases Nat.lt_or_ge k 11 with h | h
  · revert k
    cases reload <;> decide
  · rw [List.take_of_length_le (by simp; omega)]
    cases reload <;> decide

/-! ## What goes wrong -/

theorem sweep (g : State → Nat → State) (a b : Nat → Phase) (n d : Nat) (C : Nat → Nat → Prop)
    (hg : ∀ k c ph st, k < n → ph.length = n → ph[k]? = some (a k) → C k c →
      ∃ c', C (k + 1) c' ∧ g ⟨c, ph, st⟩ k = ⟨c', ph.set k (b k), st + d⟩) (c st : Nat) (hc : C 0 c) :
    ∃ c', C n c' ∧ (List.range n).foldl g ⟨c, (List.range n).map a, st⟩ = ⟨c', (List.range n).map b, st + n * d⟩ := by
  suffices h : ∀ k, k ≤ n → ∃ c', C k c' ∧ (List.range k).foldl g ⟨c, (List.range n).map a, st⟩ =
      ⟨c', (List.range n).map (fun i => if i < k then b i else a i), st + k * d⟩ by
    obtain ⟨c', h1, h2⟩ := h n (Nat.le_refl n)
    refine ⟨c', h1, ?_⟩
    rw [h2]
    congr 1
    apply List.map_congr_left
    intro i hi
    rw [if_pos (List.mem_range.1 hi)]
  intro k
  induction k with
  | zero => exact fun _ => ⟨c, hc, by simp⟩
  | succ k ih =>
    intro hk
    obtain ⟨c', h1, h2⟩ := ih (by omega)
    have hget : ((List.range n).map (fun i => if i < k then b i else a i))[k]? = some (a k) := by
      rw [List.getElem?_map, List.getElem?_range (by omega)]
      simp
    obtain ⟨c'', h3, h4⟩ := hg k c' _ (st + k * d) (by omega) (by simp) hget h1
    refine ⟨c'', h3, ?_⟩
    rw [List.range_succ, List.foldl_append, h2]
    simp only [List.foldl_cons, List.foldl_nil]
    rw [h4, Nat.succ_mul, Nat.add_assoc]
    congr 1
    apply List.ext_getElem (by simp)
    intro i hi1 hi2
    rw [List.getElem_set]
    simp only [List.getElem_map, List.getElem_range]
    by_cases hik : k = i
    · subst hik
      simp
    · rw [if_neg hik]
      by_cases hlt : i < k
      · rw [if_pos hlt, if_pos (by omega)]
      · rw [if_neg hlt, if_neg (by omega)]

theorem map_const (p : Phase) (n : Nat) : List.replicate n p = (List.range n).map (fun _ => p) := by
  rw [List.map_const', List.length_range]

theorem mem_map_const {p q : Phase} {n : Nat} (h : q ∈ (List.range n).map (fun _ => p)) : q = p := by
  rw [← map_const] at h
  exact (List.mem_replicate.1 h).2

/-- **C142** (refuted) For every group of two or more operations there is an order in which all of them finish and the
next step is never started: the flow stands still. -/
theorem stall_refuted (reload : Bool) (n : Nat) (hn : 2 ≤ n) :
    ∃ is, Finished (run reload (init n) is) ∧ (run reload (init n) is).started = 0 := by
  refine ⟨List.range n ++ List.range n ++ List.range n, ?_⟩
  obtain ⟨c1, hc1, h1⟩ := sweep (step reload) (fun _ => .idle) (fun _ => .loaded 0) n 0 (fun _ c => c = 0)
    (fun k c ph st hk hl hp hc => ⟨0, rfl, by simp [step, hp, advance, hc]⟩) 0 0 rfl
  obtain ⟨c2, hc2, h2⟩ := sweep (step reload) (fun _ => .loaded 0) (fun _ => .stored 0) n 0
    (fun k c => c = if k = 0 then 0 else 1)
    (fun k c ph st hk hl hp hc => ⟨1, by simp, by simp [step, hp, advance]⟩) 0 0 rfl
  obtain ⟨c3, hc3, h3⟩ := sweep (step reload) (fun _ => .stored 0) (fun _ => .done) n 0 (fun k c => c = 1)
    (fun k c ph st hk hl hp hc => ⟨1, rfl, by
      have : ¬n ≤ compared reload 1 0 := by
        unfold compared
        split <;> omega
      simp [step, hp, advance, hl, hc, this]⟩) 1 0 rfl
  have e2 : c2 = 1 := by
    rw [hc2, if_neg (by omega)]
  subst e2 hc1
  have e : run reload (init n) (List.range n ++ List.range n ++ List.range n) = ⟨c3, (List.range n).map (fun _ => .done), 0⟩ := by
    rw [run_append, run_append]
    unfold run init
    rw [map_const]
    simp only [Nat.mul_zero, Nat.add_zero] at h1 h2 h3
    rw [h1, h2, h3]
  rw [e]
  exact ⟨fun p hp => mem_map_const hp, rfl⟩

/-- **C142** (refuted) If `completed` is read again for the comparison, there is for every number of operations an order in which
each of them starts the next step: it is started that many times. -/
theorem again_refuted (n : Nat) : ∃ is, Finished (run true (init n) is) ∧ (run true (init n) is).started = n := by
  refine ⟨(List.range n).flatMap (fun i => [i, i]) ++ List.range n ++ List.range n, ?_⟩
  obtain ⟨c1, hc1, h1⟩ := sweep (fun s i => step true (step true s i) i) (fun _ => .idle) (fun k => .stored k) n 0
    (fun k c => c = k)
    (fun k c ph st hk hl hp hc => ⟨k + 1, rfl, by
      have hlt : k < ph.length := by omega
      simp [step, hp, advance, hc, List.getElem?_set_self hlt]⟩) 0 0 rfl
  obtain ⟨c2, hc2, h2⟩ := sweep (step true) (fun k => .stored k) (fun _ => .calling) n 0 (fun k c => c = n)
    (fun k c ph st hk hl hp hc => ⟨n, rfl, by simp [step, hp, advance, hl, hc, compared]⟩) n 0 rfl
  obtain ⟨c3, hc3, h3⟩ := sweep (step true) (fun _ => .calling) (fun _ => .done) n 1 (fun k c => True)
    (fun k c ph st hk hl hp hc => ⟨0, trivial, by simp [step, hp, advance]⟩) n 0 trivial
  subst hc2
  subst hc1
  have e0 : ∀ (s : State) (is : List Nat), run true s (is.flatMap (fun i => [i, i])) = is.foldl (fun s i => step true (step true s i) i) s := by
    intro s is
    induction is generalizing s with
    | nil => rfl
    | cons i is ih => exact ih _
  have e : run true (init c1) ((List.range c1).flatMap (fun i => [i, i]) ++ List.range c1 ++ List.range c1) =
      ⟨c3, (List.range c1).map (fun _ => .done), c1⟩ := by
    rw [run_append, run_append, e0]
    unfold run init
    rw [map_const]
    simp only [Nat.mul_zero, Nat.add_zero, Nat.mul_one, Nat.zero_add] at h1 h2 h3
    rw [h1, h2, h3]
  rw [e]
  exact ⟨fun p hp => mem_map_const hp, rfl⟩

end Iota.Props.FlowRace
