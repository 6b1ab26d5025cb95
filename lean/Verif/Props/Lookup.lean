import Verif.Lemmas.Lookup

/-! # C12, C13: the stream table -/

namespace Iota.Props.Lookup
open Iota.Lookup Iota.Spec.Lookup Iota.Lemmas.Lookup

variable {S : Type}

/-- The specification's name for a call. -/
def toCall : Op S → Call S
  | .add id s => .register id s
  | .remove id => .unregister id

/-- The specified effect of a history. -/
def sticky : List (Op S) → Sticky S
  | ops => ops.foldl (fun t o => match o with
      | .add id s => t.add id s
      | .remove id => t.remove id) ⟨[], 0⟩

theorem run_rep {l : Table S} {t : Sticky S} {c : List Nat} (h : Rep l t c) (ops : List (Op S)) :
    ∃ l' c', run l ops = some l' ∧ Rep l' (ops.foldl (fun t o => match o with
      | .add id s => t.add id s
      | .remove id => t.remove id) t) c' := by
  induction ops generalizing l t c with
  | nil => exact ⟨l, c, rfl, h⟩
  | cons o os ih =>
    cases o with
    | add id s =>
      obtain ⟨l', c', h1, h2⟩ := add_rep h id s
      obtain ⟨l'', c'', h3, h4⟩ := ih h2
      exact ⟨l'', c'', by simp [run, Iota.Lookup.apply, h1, h3], h4⟩
    | remove id =>
      obtain ⟨l', c', h1, h2⟩ := remove_rep h id
      obtain ⟨l'', c'', h3, h4⟩ := ih h2
      exact ⟨l'', c'', by simp [run, Iota.Lookup.apply, h1, h3], h4⟩

/-- **C12** Every history of registrations and removals runs to completion (no pointer walk loops), and
a lookup afterwards gives exactly what the list specification gives. -/
theorem lookup_refines (ops : List (Op S)) :
    ∃ l, run empty ops = some l ∧ ∀ id, Iota.Lookup.get l id = some ((sticky ops).get id) := by
  obtain ⟨l, c, h1, h2⟩ := run_rep (rep_empty (S := S)) ops
  exact ⟨l, h1, fun id => get_rep h2 id⟩

theorem foldl_entries (ops : List (Op S)) (t : Sticky S) :
    ∀ e ∈ (ops.foldl (fun t o => match o with
      | .add id s => t.add id s
      | .remove id => t.remove id) t).entries, e ∈ t.entries ∨ Op.add e.1 e.2 ∈ ops := by
  induction ops generalizing t with
  | nil => intro e he; exact .inl he
  | cons o os ih =>
    intro e he
    cases o with
    | add id s =>
      rcases ih _ e he with h | h
      · simp only [Sticky.add, List.mem_append, List.mem_singleton] at h
        rcases h with h | h
        · exact .inl h
        · subst h; exact .inr (List.mem_cons_self ..)
      · exact .inr (List.mem_cons_of_mem _ h)
    | remove id =>
      rcases ih _ e he with h | h
      · left
        simp only [Sticky.remove] at h
        split at h
        · exact h
        · split at h
          · exact h
          · exact List.mem_of_mem_eraseIdx h
      · exact .inr (List.mem_cons_of_mem _ h)

theorem sticky_get_some {t : Sticky S} {id : UInt32} {s : S} (h : t.get id = some s) :
    (id, s) ∈ t.entries := by
  unfold Sticky.get at h
  obtain ⟨e, he, rfl⟩ := Option.map_eq_some_iff.mp h
  have h1 := List.find?_some he
  have h2 := List.mem_of_find?_eq_some he
  simp only [decide_eq_true_eq] at h1
  subst h1
  exact h2

/-- **C12** A lookup never returns a stream that was registered under another id. -/
theorem never_misrouted (ops : List (Op S)) (l : Table S) (hl : run empty ops = some l)
    (id : UInt32) (s : S) (h : Iota.Lookup.get l id = some (some s)) : Op.add id s ∈ ops := by
  obtain ⟨l', h1, h2⟩ := lookup_refines ops
  rw [hl] at h1
  injection h1 with h1
  subst h1
  rw [h2] at h
  have := sticky_get_some (Option.some.inj h)
  rcases foldl_entries ops _ _ this with h | h
  · simp at h
  · exact h

example : ∃ l : Table String, run empty [.add 1 "a", .add 2 "b", .remove 1, .add 3 "c", .remove 2] = some l ∧
    Iota.Lookup.get l 3 = some (some "c") ∧ Iota.Lookup.get l 2 = some (some "b") :=
  ⟨_, rfl, rfl, rfl⟩

/-- The oldest entry under `id` is `s`. -/
def Oldest (t : Sticky S) (id : UInt32) (s : S) : Prop :=
  t.entries.find? (fun e => decide (e.1 = id)) = some (id, s)

theorem find?_eraseIdx {α : Type} (p q : α → Bool) (l : List α) (i : Nat) (x : α)
    (hi : l.findIdx? q = some i) (hpq : ∀ y, p y = true → q y = false) (h : l.find? p = some x) :
    (l.eraseIdx i).find? p = some x := by
  induction l generalizing i with
  | nil => simp at h
  | cons y ys ih =>
    rw [List.findIdx?_cons] at hi
    by_cases hq : q y
    · simp only [hq, if_true, Option.some.injEq] at hi
      subst hi
      have : p y = false := by
        cases hp : p y with
        | false => rfl
        | true => rw [hpq y hp] at hq; cases hq
      simpa [List.find?_cons, this] using h
    · rw [if_neg hq] at hi
      obtain ⟨k, hk, rfl⟩ := Option.map_eq_some_iff.mp hi
      simp only [List.eraseIdx_cons_succ, List.find?_cons] at h ⊢
      cases hp : p y with
      | true => simpa [hp] using h
      | false => simp only [hp] at h; exact ih k hk h

theorem oldest_add {t : Sticky S} {id id' : UInt32} {s s' : S} (h : Oldest t id s) :
    Oldest (t.add id' s') id s := by
  unfold Oldest at *
  simp only [Sticky.add, List.find?_append, h, Option.some_or]

theorem oldest_remove {t : Sticky S} {id id' : UInt32} {s : S} (hne : id' ≠ id) (h : Oldest t id s) :
    Oldest (t.remove id') id s := by
  unfold Oldest at *
  unfold Sticky.remove
  cases hf : t.entries.findIdx? fun e => e.1 = id' with
  | none => exact h
  | some i =>
    simp only
    split
    · exact h
    · refine find?_eraseIdx _ _ _ _ _ hf ?_ h
      intro y hy
      simp only [decide_eq_true_eq, decide_eq_false_iff_not] at hy ⊢
      rw [hy]; exact fun e => hne e.symm

/-- **C12** A stream that was registered under an id not used before, and not removed, is found under
that id, whatever else is registered and removed before and afterwards. -/
theorem registered_found (pre post : List (Op S)) (id : UInt32) (s : S)
    (hfresh : ∀ s', Op.add id s' ∉ pre) (hkeep : Op.remove id ∉ post) :
    ∃ l, run empty (pre ++ .add id s :: post) = some l ∧ Iota.Lookup.get l id = some (some s) := by
  obtain ⟨l, h1, h2⟩ := lookup_refines (pre ++ .add id s :: post)
  refine ⟨l, h1, ?_⟩
  rw [h2]
  have h0 : Oldest ((sticky pre).add id s) id s := by
    unfold Oldest
    have : (sticky pre).entries.find? (fun e => decide (e.1 = id)) = none := by
      rw [List.find?_eq_none]
      intro e he hid
      simp only [decide_eq_true_eq] at hid
      rcases foldl_entries pre _ e he with h | h
      · simp at h
      · rw [hid] at h; exact hfresh _ h
    simp [Sticky.add, this]
  have hpost : ∀ (post : List (Op S)) (t : Sticky S), Oldest t id s → Op.remove id ∉ post →
      Oldest (post.foldl (fun t o => match o with
        | .add id s => t.add id s
        | .remove id => t.remove id) t) id s := by
    intro post
    induction post with
    | nil => intro t h _; exact h
    | cons o os ih =>
      intro t h hk
      simp only [List.mem_cons, not_or] at hk
      cases o with
      | add id' s' => exact ih _ (oldest_add h) hk.2
      | remove id' =>
        refine ih _ (oldest_remove ?_ h) hk.2
        rintro rfl
        exact hk.1 rfl
  have := hpost post _ h0 hkeep
  have e : sticky (pre ++ .add id s :: post) = post.foldl (fun t o => match o with
        | .add id s => t.add id s
        | .remove id => t.remove id) ((sticky pre).add id s) := by
    simp [sticky]
  rw [e]
  unfold Oldest at this
  simp [Sticky.get, this]

example : (∀ s', Op.add 7 s' ∉ ([.add 1 "a", .remove 1] : List (Op String))) ∧
    Op.remove 7 ∉ ([.remove 1, .add 9 "c"] : List (Op String)) := by
  constructor <;> simp

/-- **C12/C13** refuted when an id is used again after its stream was removed: the lookup still gives
the removed stream. -/
theorem reused_id_refuted : ∃ l : Table String,
    run empty [.add 1 "old", .remove 1, .add 1 "new"] = some l ∧
    Iota.Lookup.get l 1 = some (some "old") :=
  ⟨_, rfl, rfl⟩

/-- **C13** refuted: the first stream registered is still found after it was removed; and once it has
been removed, so is the second. -/
theorem removed_gone_refuted : ∃ l : Table String,
    run empty [.add 1 "a", .add 2 "b", .remove 1, .remove 2] = some l ∧
    Iota.Lookup.get l 1 = some (some "a") ∧ Iota.Lookup.get l 2 = some (some "b") :=
  ⟨_, rfl, rfl, rfl⟩

theorem eraseIdx_eq_filter (l : List (UInt32 × S)) (id : UInt32) (i : Nat)
    (hn : (l.map (·.1)).Nodup) (hi : l.findIdx? (fun e => decide (e.1 = id)) = some i) :
    l.eraseIdx i = l.filter fun e => e.1 ≠ id := by
  induction l generalizing i with
  | nil => simp at hi
  | cons y ys ih =>
    rw [List.findIdx?_cons] at hi
    simp only [List.map_cons, List.nodup_cons] at hn
    by_cases hq : y.1 = id
    · simp only [hq, decide_true, if_true, Option.some.injEq] at hi
      subst hi
      simp only [List.eraseIdx_cons_zero, List.filter_cons, hq, ne_eq, not_true, decide_false]
      refine (List.filter_eq_self.mpr ?_).symm
      intro e he
      simp only [decide_eq_true_eq]
      intro hid
      apply hn.1
      rw [hq, ← hid]
      exact List.mem_map_of_mem he
    · simp only [hq, decide_false] at hi
      obtain ⟨k, hk, rfl⟩ := Option.map_eq_some_iff.mp hi
      simp [List.filter_cons, hq, ih k hn.2 hk]

/-- No id is registered while a stream is already registered under it. -/
def NoClash (ops : List (Op S)) : Prop :=
  ∀ pre id s post, ops = pre ++ .add id s :: post → ∀ e ∈ live (pre.map toCall), e.1 ≠ id

/-- **C12/C13** (partial) As long as the oldest stream stays registered and no id is registered twice at
the same time, the table is ideal: a lookup finds exactly the streams registered and not removed since.
In particular a removed stream is gone until it is registered again. What is missing for the full C13
is the case in which the oldest stream is removed, where the claim is false (`removed_gone_refuted`). -/
theorem ideal_while_oldest_stays_partial (id0 : UInt32) (s0 : S) (ops : List (Op S))
    (hkeep : Op.remove id0 ∉ ops) (hclash : NoClash (.add id0 s0 :: ops)) :
    ∃ l, run empty (.add id0 s0 :: ops) = some l ∧ ∀ id,
      Iota.Lookup.get l id =
        some (((live ((.add id0 s0 :: ops).map toCall)).find? fun e => e.1 = id).map (·.2)) := by
  obtain ⟨l, h1, h2⟩ := lookup_refines (.add id0 s0 :: ops)
  refine ⟨l, h1, fun id => ?_⟩
  rw [h2]
  -- the list of entries is the live list, with only the first entry stuck
  have key : ∀ (os pre : List (Op S)), pre ++ os = .add id0 s0 :: ops → pre ≠ [] →
      ∀ t : Sticky S, t.entries = live (pre.map toCall) → t.stuck = 1 →
      (t.entries.map (·.1)).Nodup → t.entries.head? = some (id0, s0) →
      (os.foldl (fun t o => match o with
        | .add id s => t.add id s
        | .remove id => t.remove id) t).entries = live ((pre ++ os).map toCall) := by
    intro os
    induction os with
    | nil => intro pre _ _ t he _ _ _; simpa using he
    | cons o os ih =>
      intro pre hpre hne t he hst hnd hhd
      have hpre' : (pre ++ [o]) ++ os = .add id0 s0 :: ops := by simpa using hpre
      rw [show pre ++ o :: os = (pre ++ [o]) ++ os by simp]
      have hlive : live ((pre ++ [o]).map toCall) = liveStep (live (pre.map toCall)) (toCall o) := by
        simp [live]
      cases o with
      | add id s =>
        refine ih (pre ++ [.add id s]) hpre' (by simp) (t.add id s) ?_ ?_ ?_ ?_
        · rw [hlive, ← he]; rfl
        · simp [Sticky.add, hst]
        · have hc := hclash pre id s os hpre.symm
          simp only [Sticky.add, List.map_append, List.map_cons, List.map_nil]
          rw [List.nodup_append]
          refine ⟨hnd, by simp, ?_⟩
          intro a ha b hb
          simp only [List.mem_singleton] at hb
          subst hb
          obtain ⟨e, hm, rfl⟩ := List.mem_map.mp ha
          exact hc e (he ▸ hm)
        · simp [Sticky.add, List.head?_append, hhd]
      | remove id =>
        have hidne : id ≠ id0 := by
          rintro rfl
          have : Op.remove id ∈ (Op.add id s0 :: ops) := by rw [← hpre]; simp
          simp only [List.mem_cons, reduceCtorEq, false_or] at this
          exact hkeep this
        obtain ⟨rest, hrest⟩ : ∃ rest, t.entries = (id0, s0) :: rest := by
          cases hte : t.entries with
          | nil => simp [hte] at hhd
          | cons a b => simp only [hte, List.head?_cons, Option.some.injEq] at hhd; exact ⟨b, by rw [hhd]⟩
        have hrm : t.remove id = { t with entries := t.entries.filter fun e => e.1 ≠ id } := by
          unfold Sticky.remove
          cases hf : t.entries.findIdx? fun e => e.1 = id with
          | none =>
            have : t.entries.filter (fun e => decide (e.1 ≠ id)) = t.entries := by
              rw [List.filter_eq_self]
              rw [List.findIdx?_eq_none_iff] at hf
              intro e hem
              simpa using hf e hem
            simp only [this]
          | some i =>
            have hi : ¬ i < t.stuck := by
              rw [hst]
              intro hlt
              have hi0 : i = 0 := by omega
              subst hi0
              rw [hrest, List.findIdx?_cons] at hf
              simp only [show decide (id0 = id) = false by simpa using fun e => hidne e.symm] at hf
              obtain ⟨k, _, hk⟩ := Option.map_eq_some_iff.mp hf
              omega
            simp only [if_neg hi, eraseIdx_eq_filter _ _ _ hnd hf]
        refine ih (pre ++ [.remove id]) hpre' (by simp) (t.remove id) ?_ ?_ ?_ ?_
        · rw [hlive, ← he, hrm]; rfl
        · rw [hrm]; exact hst
        · rw [hrm]
          exact hnd.sublist (List.filter_sublist.map _)
        · rw [hrm, hrest]
          simp [hidne.symm]
  have := key ops [.add id0 s0] rfl (by simp) ((⟨[], 0⟩ : Sticky S).add id0 s0) rfl rfl (by simp [Sticky.add])
    (by simp [Sticky.add])
  have e : (sticky (.add id0 s0 :: ops)).entries = live ((.add id0 s0 :: ops).map toCall) := by
    simpa [sticky] using this
  simp only [Sticky.get, e]

/-- A history that meets the hypotheses and re-registers a removed id. -/
example : Op.remove 1 ∉ ([.add 2 "b", .remove 2, .add 3 "c", .add 2 "d"] : List (Op String)) ∧
    NoClash ([.add 1 "a", .add 2 "b", .remove 2, .add 3 "c", .add 2 "d"] : List (Op String)) := by
  refine ⟨by simp, ?_⟩
  intro pre id s post h
  rcases pre with _ | ⟨p1, _ | ⟨p2, _ | ⟨p3, _ | ⟨p4, _ | ⟨p5, pre⟩⟩⟩⟩⟩ <;>
    simp only [List.cons_append, List.nil_append, List.cons.injEq, reduceCtorEq, Op.add.injEq,
      false_and, and_false] at h
  · simp [live]
  · obtain ⟨rfl, ⟨rfl, _⟩, _⟩ := h
    simp [live, liveStep, toCall]
  · obtain ⟨rfl, rfl, rfl, ⟨rfl, _⟩, _⟩ := h
    simp [live, liveStep, toCall]
  · obtain ⟨rfl, rfl, rfl, rfl, ⟨rfl, _⟩, _⟩ := h
    simp [live, liveStep, toCall]
  · simp at h

end Iota.Props.Lookup
