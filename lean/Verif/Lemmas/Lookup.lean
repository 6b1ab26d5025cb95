import Mathlib.Data.List.Basic
import Mathlib.Data.List.Nodup
import Mathlib.Data.List.Range
import Mathlib.Data.List.Perm.Subperm
import Verif.Model.Lookup
import Verif.Spec.Lookup

/-! # Representation invariant of the stream table -/

namespace Iota.Lemmas.Lookup
open Iota.Lookup Iota.Spec.Lookup

variable {S : Type}

/-- The pointers of table `l` lay out the list `t`; `c` are the addresses in order. -/
structure Rep (l : Table S) (t : Sticky S) (c : List Nat) : Prop where
  head : l.head = c[0]?
  nodup : c.Nodup
  len : c.length = t.entries.length
  stuckLe : t.stuck ≤ c.length
  stuckPos : c ≠ [] → 1 ≤ t.stuck
  node : ∀ i a, c[i]? = some a → ∃ n, l.heap[a]? = some n ∧ n.next = c[i + 1]? ∧
    n.prev = (if i < t.stuck then none else c[i - 1]?) ∧ t.entries[i]? = some (n.id, n.stream)

theorem Rep.bound {l : Table S} {t : Sticky S} {c : List Nat} (h : Rep l t c) :
    ∀ a ∈ c, a < l.heap.length := by
  intro a ha
  obtain ⟨i, hi⟩ := List.mem_iff_getElem?.mp ha
  obtain ⟨n, hn, _⟩ := h.node i a hi
  exact (List.getElem?_eq_some_iff.mp hn).1

theorem Rep.length_le {l : Table S} {t : Sticky S} {c : List Nat} (h : Rep l t c) :
    c.length ≤ l.heap.length := by
  have := (List.Nodup.subperm h.nodup (l₂ := List.range l.heap.length)
    (fun a ha => List.mem_range.mpr (h.bound a ha))).length_le
  simpa using this

theorem rep_empty : Rep (empty : Table S) ⟨[], 0⟩ [] :=
  ⟨rfl, List.nodup_nil, rfl, Nat.le_refl _, fun h => absurd rfl h, by simp⟩

theorem findFrom_rep {l : Table S} {t : Sticky S} {c : List Nat} (h : Rep l t c) (id : UInt32) :
    ∀ fuel j, c.length ≤ j + fuel →
      findFrom l.heap id fuel c[j]? =
        some (((t.entries.drop j).findIdx? fun e => e.1 = id).bind fun i => c[j + i]?) := by
  intro fuel
  induction fuel with
  | zero =>
    intro j hj
    have h1 : c[j]? = none := List.getElem?_eq_none (by omega)
    have h2 : t.entries.drop j = [] := List.drop_eq_nil_of_le (by rw [← h.len]; omega)
    simp [h1, h2, findFrom]
  | succ fuel ih =>
    intro j hj
    cases hc : c[j]? with
    | none =>
      have h2 : t.entries.drop j = [] := by
        apply List.drop_eq_nil_of_le
        rw [← h.len]; exact List.getElem?_eq_none_iff.mp hc
      simp [h2, findFrom]
    | some a =>
      obtain ⟨n, hn, hnx, hpv, he⟩ := h.node j a hc
      have hd : t.entries.drop j = (n.id, n.stream) :: t.entries.drop (j + 1) := by
        obtain ⟨hlt, he⟩ := List.getElem?_eq_some_iff.mp he
        rw [List.drop_eq_getElem_cons hlt, he]
      simp only [findFrom, hn, hd, List.findIdx?_cons]
      by_cases hid : n.id = id
      · simp [hid, hc]
      · simp only [hid, decide_false, if_false, hnx, ih (j + 1) (by omega)]
        cases ((t.entries.drop (j + 1)).findIdx? fun e => decide (e.1 = id)) with
        | none => simp
        | some i => simp [Nat.add_assoc, Nat.add_comm 1 i]

theorem find_rep {l : Table S} {t : Sticky S} {c : List Nat} (h : Rep l t c) (id : UInt32) :
    find l id = some ((t.entries.findIdx? fun e => e.1 = id).bind fun i => c[i]?) := by
  have := findFrom_rep h id l.heap.length 0 (by have := h.length_le; omega)
  rw [find, h.head, this]; simp

theorem findIdx?_lt {α : Type} {p : α → Bool} {xs : List α} {i : Nat} (h : xs.findIdx? p = some i) :
    ∃ x, xs[i]? = some x ∧ p x = true ∧ xs.find? p = some x := by
  induction xs generalizing i with
  | nil => simp at h
  | cons x xs ih =>
    rw [List.findIdx?_cons] at h
    by_cases hp : p x
    · simp only [hp, if_true, Option.some.injEq] at h
      subst h
      exact ⟨x, rfl, hp, by simp [hp]⟩
    · rw [if_neg hp] at h
      obtain ⟨k, hk, rfl⟩ := Option.map_eq_some_iff.mp h
      obtain ⟨y, h1, h2, h3⟩ := ih hk
      exact ⟨y, by simpa using h1, h2, by rw [List.find?_cons, show p x = false by simpa using hp]; exact h3⟩

theorem get_rep {l : Table S} {t : Sticky S} {c : List Nat} (h : Rep l t c) (id : UInt32) :
    Iota.Lookup.get l id = some (t.get id) := by
  unfold Iota.Lookup.get
  rw [find_rep h]
  cases hf : t.entries.findIdx? fun e => e.1 = id with
  | none =>
    have : t.entries.find? (fun e => decide (e.1 = id)) = none := by
      rw [List.findIdx?_eq_none_iff] at hf
      exact List.find?_eq_none.mpr (fun x hx => by simpa using hf x hx)
    simp [Sticky.get, this]
  | some i =>
    obtain ⟨x, hx, _, hfind⟩ := findIdx?_lt hf
    have hlt : i < c.length := by rw [h.len]; exact (List.getElem?_eq_some_iff.mp hx).1
    obtain ⟨n, hn, _, _, he⟩ := h.node i c[i] (List.getElem?_eq_getElem hlt)
    rw [hx] at he
    injection he with he
    simp only [Option.bind_some, List.getElem?_eq_getElem hlt, hn, Option.map_some, Sticky.get, hfind, he]

theorem lastFrom_rep {l : Table S} {t : Sticky S} {c : List Nat} (h : Rep l t c) :
    ∀ fuel j a, c[j]? = some a → c.length ≤ j + fuel →
      lastFrom l.heap fuel a = c[c.length - 1]? := by
  intro fuel
  induction fuel with
  | zero =>
    intro j a ha hj
    have := (List.getElem?_eq_some_iff.mp ha).1
    omega
  | succ fuel ih =>
    intro j a ha hj
    obtain ⟨n, hn, hnx, _, _⟩ := h.node j a ha
    have hlt := (List.getElem?_eq_some_iff.mp ha).1
    simp only [lastFrom, hn]
    cases hx : n.next with
    | none =>
      rw [hx] at hnx
      have := List.getElem?_eq_none_iff.mp hnx.symm
      have e : c.length - 1 = j := by omega
      simp [e, ha]
    | some b =>
      simp only
      exact ih (j + 1) b (by rw [← hnx, hx]) (by omega)

theorem getElem?_inj_nodup {c : List Nat} (hn : c.Nodup) {i j : Nat} {a : Nat} (hi : c[i]? = some a)
    (hj : c[j]? = some a) : i = j := by
  obtain ⟨h1, e1⟩ := List.getElem?_eq_some_iff.mp hi
  obtain ⟨h2, e2⟩ := List.getElem?_eq_some_iff.mp hj
  exact (List.Nodup.getElem_inj_iff hn).mp (e1.trans e2.symm)

theorem getElem?_modify' {α : Type} (l : List α) (a b : Nat) (f : α → α) :
    (l.modify a f)[b]? = if a = b then l[b]?.map f else l[b]? := by
  rw [List.getElem?_modify]
  split <;> simp

theorem add_rep {l : Table S} {t : Sticky S} {c : List Nat} (h : Rep l t c) (id : UInt32) (s : S) :
    ∃ l' c', add l id s = some l' ∧ Rep l' (t.add id s) c' := by
  cases hh : l.head with
  | none =>
    have hc : c = [] := by
      rw [h.head] at hh
      cases c with
      | nil => rfl
      | cons a b => simp at hh
    have he : t.entries = [] := by
      have := h.len; rw [hc] at this
      exact List.length_eq_zero_iff.mp this.symm
    have hs : t.stuck = 0 := by have := h.stuckLe; rw [hc] at this; simpa using this
    refine ⟨_, [l.heap.length], by simp only [add, hh]; rfl, ?_⟩
    refine ⟨rfl, by simp, by simp [Sticky.add, he], by simp [Sticky.add, hs], by intro _; simp only [Sticky.add]; omega, ?_⟩
    intro i a hi
    cases i with
    | zero =>
      simp only [List.getElem?_cons_zero, Option.some.injEq] at hi
      subst hi
      exact ⟨⟨none, none, id, s⟩, by simp, by simp, by simp [Sticky.add, hs], by simp [Sticky.add, he]⟩
    | succ i => simp at hi
  | some a0 =>
    have hne : c ≠ [] := by
      rintro rfl
      rw [h.head] at hh; simp at hh
    have hpos : 0 < c.length := List.length_pos_iff.mpr hne
    have hc0 : c[0]? = some a0 := by rw [← h.head, hh]
    have hlast := lastFrom_rep h l.heap.length 0 a0 hc0 (by have := h.length_le; omega)
    have hlt : c.length - 1 < c.length := by omega
    rw [List.getElem?_eq_getElem hlt] at hlast
    refine ⟨_, c ++ [l.heap.length], by simp [add, hh, hlast]; rfl, ?_⟩
    have hs1 := h.stuckPos hne
    have hs2 := h.stuckLe
    refine ⟨?_, ?_, by simp [Sticky.add, h.len], by simp [Sticky.add]; omega, by intro _; simp only [Sticky.add]; omega, ?_⟩
    · simp only; rw [List.getElem?_append_left hpos, hc0]
    · rw [List.nodup_append]
      refine ⟨h.nodup, by simp, ?_⟩
      intro a ha b hb
      have := h.bound a ha
      simp only [List.mem_singleton] at hb
      omega
    · intro i a hi
      simp only [setNext, getElem?_modify']
      by_cases hilt : i < c.length
      · rw [List.getElem?_append_left hilt] at hi
        obtain ⟨n, hn, hnx, hpv, he⟩ := h.node i a hi
        have hal := (List.getElem?_eq_some_iff.mp hn).1
        by_cases hl : c[c.length - 1] = a
        · have hi' : i = c.length - 1 :=
            getElem?_inj_nodup h.nodup hi (by rw [List.getElem?_eq_getElem hlt, hl])
          refine ⟨{ n with next := some l.heap.length }, ?_, ?_, ?_, ?_⟩
          · simp [hl, List.getElem?_append_left hal, hn]
          · rw [show i + 1 = c.length by omega]; simp
          · simp only [hpv, Sticky.add, Nat.max_eq_left hs1]
            split
            · rfl
            · rw [List.getElem?_append_left (by omega)]
          · simp only [Sticky.add]
            rw [List.getElem?_append_left (by rw [← h.len]; exact hilt), he]
        · have hi' : i ≠ c.length - 1 := by
            rintro rfl
            rw [List.getElem?_eq_getElem hlt] at hi
            exact hl (Option.some.inj hi)
          refine ⟨n, ?_, ?_, ?_, ?_⟩
          · simp [hl, List.getElem?_append_left hal, hn]
          · rw [List.getElem?_append_left (by omega), hnx]
          · simp only [hpv, Sticky.add, Nat.max_eq_left hs1]
            split
            · rfl
            · rw [List.getElem?_append_left (by omega)]
          · simp only [Sticky.add]
            rw [List.getElem?_append_left (by rw [← h.len]; exact hilt), he]
      · have hie : i = c.length := by
          have := (List.getElem?_eq_some_iff.mp hi).1
          simp at this; omega
        subst hie
        simp only [List.getElem?_append_right (Nat.le_refl _), Nat.sub_self, List.getElem?_cons_zero,
          Option.some.injEq] at hi
        subst hi
        have hb := h.bound _ (List.getElem_mem hlt)
        refine ⟨⟨some c[c.length - 1], none, id, s⟩, ?_, ?_, ?_, ?_⟩
        · rw [if_neg (by omega)]; simp
        · simp
        · simp only [Sticky.add, Nat.max_eq_left hs1]
          rw [if_neg (by omega), List.getElem?_append_left (by omega), List.getElem?_eq_getElem hlt]
        · simp [Sticky.add, h.len]

theorem remove_rep {l : Table S} {t : Sticky S} {c : List Nat} (h : Rep l t c) (id : UInt32) :
    ∃ l' c', remove l id = some l' ∧ Rep l' (t.remove id) c' := by
  unfold remove Sticky.remove
  rw [find_rep h]
  cases hf : t.entries.findIdx? fun e => e.1 = id with
  | none => exact ⟨l, c, by simp, h⟩
  | some i =>
    obtain ⟨x, hx, _, _⟩ := findIdx?_lt hf
    have hlt : i < c.length := by rw [h.len]; exact (List.getElem?_eq_some_iff.mp hx).1
    have hci := List.getElem?_eq_getElem hlt
    obtain ⟨n, hn, hnx, hpv, he⟩ := h.node i c[i] hci
    simp only [Option.bind_some, hci, hn]
    have hsl := h.stuckLe
    have hsp := h.stuckPos (by rintro rfl; simp at hlt)
    by_cases hst : i < t.stuck
    · simp only [hst, if_true] at hpv ⊢
      refine ⟨_, c, rfl, ?_⟩
      have hmin : min (max t.stuck (i + 2)) t.entries.length ≤ c.length := by rw [h.len]; omega
      refine ⟨h.head, h.nodup, h.len, hmin, ?_, ?_⟩
      · intro _; simp only; rw [← h.len]; omega
      · intro j a hj
        obtain ⟨m, hm, hmx, hmp, hme⟩ := h.node j a hj
        have hjl := (List.getElem?_eq_some_iff.mp hj).1
        rw [hpv, hnx]
        simp only [setNextIf]
        by_cases hji : j = i + 1
        · subst hji
          refine ⟨{ m with prev := none }, ?_, hmx, ?_, hme⟩
          · simp [hj, setPrevIf, setPrev, getElem?_modify', hm]
          · rw [if_pos]; rw [← h.len]; omega
        · refine ⟨m, ?_, hmx, ?_, hme⟩
          · cases hi1 : c[i + 1]? with
            | none => simpa [setPrevIf] using hm
            | some b =>
              have : b ≠ a := by
                rintro rfl
                exact hji (getElem?_inj_nodup h.nodup hj hi1)
              simp [setPrevIf, setPrev, getElem?_modify', this, hm]
          · rw [hmp]
            have : (j < t.stuck) ↔ j < min (max t.stuck (i + 2)) t.entries.length := by
              rw [← h.len]; omega
            simp only [this]
    · simp only [hst, if_false] at hpv ⊢
      have hi1 : 1 ≤ i := by omega
      have hpl : i - 1 < c.length := by omega
      have hcp := List.getElem?_eq_getElem hpl
      rw [hcp] at hpv
      rw [hpv, hnx]
      refine ⟨_, c.eraseIdx i, rfl, ?_⟩
      refine ⟨?_, h.nodup.sublist (List.eraseIdx_sublist c i), ?_, ?_, ?_, ?_⟩
      · simp only [h.head, List.getElem?_eraseIdx, if_pos (show 0 < i by omega)]
      · rw [List.length_eraseIdx, List.length_eraseIdx, h.len]
      · rw [List.length_eraseIdx, if_pos hlt]; simp only; omega
      · intro _; exact hsp
      · intro j a hj
        simp only
        rw [List.getElem?_eraseIdx] at hj
        -- position of `a` in the old list
        have hold : ∃ j', c[j']? = some a ∧ (if j < i then j' = j else j' = j + 1) := by
          split at hj
          · exact ⟨j, hj, by simp [*]⟩
          · exact ⟨j + 1, hj, by simp [*]⟩
        obtain ⟨j', hj', hjj⟩ := hold
        obtain ⟨m, hm, hmx, hmp, hme⟩ := h.node j' a hj'
        have hjl := (List.getElem?_eq_some_iff.mp hj').1
        have hjne : j' ≠ i := by split at hjj <;> omega
        have hprev : c[i - 1] = a ↔ j' = i - 1 := by
          constructor
          · intro e; exact getElem?_inj_nodup h.nodup hj' (by rw [hcp, e])
          · rintro rfl; rw [hcp] at hj'; exact Option.some.inj hj'
        have hnext : c[i + 1]? = some a ↔ j' = i + 1 := by
          constructor
          · intro e; exact getElem?_inj_nodup h.nodup hj' e
          · rintro rfl; exact hj'
        refine ⟨{ m with next := if j' = i - 1 then c[i + 1]? else m.next,
                          prev := if j' = i + 1 then some c[i - 1] else m.prev }, ?_, ?_, ?_, ?_⟩
        · simp only [setNextIf, setNext]
          have hmod : (l.heap.modify c[i - 1] fun n => { n with next := c[i + 1]? })[a]? =
              some { m with next := if j' = i - 1 then c[i + 1]? else m.next } := by
            rw [getElem?_modify', hm]
            by_cases e : j' = i - 1
            · rw [if_pos (hprev.mpr e), if_pos e]; rfl
            · rw [if_neg (fun x => e (hprev.mp x)), if_neg e]
          cases hi2 : c[i + 1]? with
          | none =>
            simp only [setPrevIf]
            rw [hi2] at hmod
            have e2 : ¬ j' = i + 1 := fun e => by rw [hnext.mpr e] at hi2; cases hi2
            rw [hmod]; simp only [if_neg e2]
          | some b =>
            rw [hi2] at hmod
            simp only [setPrevIf, setPrev, getElem?_modify', hmod]
            by_cases e : j' = i + 1
            · have : b = a := by
                have := hnext.mpr e; rw [hi2] at this; exact Option.some.inj this
              rw [if_pos this, if_pos e]; rfl
            · have : b ≠ a := by rintro rfl; exact e (hnext.mp hi2)
              rw [if_neg this, if_neg e]
        · simp only [hmx, List.getElem?_eraseIdx]
          split at hjj
          · subst hjj
            by_cases e : j' = i - 1
            · rw [if_pos e, if_neg (by omega), show j' + 1 + 1 = i + 1 by omega]
            · rw [if_neg e, if_pos (by omega)]
          · subst hjj
            rw [if_neg (by omega), if_neg (by omega)]
        · simp only [hmp, List.getElem?_eraseIdx]
          split at hjj
          · subst hjj
            rw [if_neg (show ¬ j' = i + 1 by omega)]
            split
            · rfl
            · rw [if_pos (by omega)]
          · subst hjj
            by_cases e : j + 1 = i + 1
            · rw [if_pos e, if_neg (by omega), if_pos (by omega), show j - 1 = i - 1 by omega, hcp]
            · rw [if_neg e, if_neg (by omega), if_neg (by omega), if_neg (by omega)]
              congr 1; omega
        · simp only [List.getElem?_eraseIdx]
          split at hjj
          · subst hjj; rw [if_pos (by omega), hme]
          · subst hjj; rw [if_neg (by omega), hme]

end Iota.Lemmas.Lookup
