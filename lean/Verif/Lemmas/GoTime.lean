import Verif.Model.GoTime

/-! Facts about the calendar and about decimal digits used for times as text. -/

namespace Iota.GoTime
open Iota.Go Iota.Msgpack

/-! ## The calendar -/

theorem leap_iff {y : Int} : leap y = true ↔ y % 4 = 0 ∧ (y % 100 ≠ 0 ∨ y % 400 = 0) := by
  simp [leap]

/-- The length of a year. -/
def yearLen (y : Int) : Nat := if leap y then 366 else 365

theorem months_sum (y : Int) : (months y).sum = yearLen y := by
  unfold months yearLen
  split <;> simp

theorem months_pos {y : Int} : ∀ l ∈ months y, 0 < l := by
  intro l hl
  simp only [months, List.mem_cons, List.not_mem_nil, or_false] at hl
  rcases hl with h | h | h | h | h | h | h | h | h | h | h | h <;> subst h <;> (try split) <;> omega

theorem months_le {y : Int} : ∀ l ∈ months y, l ≤ 31 := by
  intro l hl
  simp only [months, List.mem_cons, List.not_mem_nil, or_false] at hl
  rcases hl with h | h | h | h | h | h | h | h | h | h | h | h <;> subst h <;> (try split) <;> omega

theorem yearStart_succ (y : Int) : yearStart (y + 1) = yearStart y + yearLen y := by
  unfold yearStart yearLen
  by_cases h : leap y = true
  · rw [if_pos h]
    rw [leap_iff] at h
    omega
  · rw [if_neg h]
    rw [leap_iff] at h
    have h4 := Int.emod_nonneg y (b := 4) (by decide)
    by_cases hy : y % 4 = 0
    · have : y % 100 = 0 ∧ y % 400 ≠ 0 := by
        refine ⟨?_, ?_⟩
        · by_cases h1 : y % 100 = 0
          · exact h1
          · exact absurd ⟨hy, .inl h1⟩ h
        · intro h1
          exact h ⟨hy, .inr h1⟩
      omega
    · omega

theorem yearStart_mono {a b : Int} (h : a ≤ b) : yearStart a ≤ yearStart b := by
  unfold yearStart
  omega

theorem yearOf_eq (z : Int) :
    yearStart (yearOf z).1 + ((yearOf z).2 : Int) = z ∧ (yearOf z).2 < yearLen (yearOf z).1 := by
  have hz := Int.mul_ediv_add_emod z 146097
  simp only [yearOf]
  have h0 := Int.emod_nonneg z (b := 146097) (by decide)
  have h1 := Int.emod_lt_of_pos z (b := 146097) (by decide)
  generalize z % 146097 = d at *
  generalize z / 146097 = c at *
  have ha : ∃ a, a = min (d / 36524) 3 := ⟨_, rfl⟩
  obtain ⟨a, ha⟩ := ha
  rw [← ha]
  have a0 : 0 ≤ a ∧ a ≤ 3 ∧ 36524 * a ≤ d ∧ (d < 36524 * a + 36524 ∨ a = 3) := by omega
  have hd1 : ∃ d1, d1 = d - 36524 * a := ⟨_, rfl⟩
  obtain ⟨d1, hd1⟩ := hd1
  rw [← hd1]
  have hb : ∃ b, b = d1 / 1461 := ⟨_, rfl⟩
  obtain ⟨b, hb⟩ := hb
  rw [← hb]
  have b0 : 0 ≤ b ∧ b ≤ 24 ∧ 1461 * b ≤ d1 ∧ d1 < 1461 * b + 1461 := by omega
  have hd2 : ∃ d2, d2 = d1 - 1461 * b := ⟨_, rfl⟩
  obtain ⟨d2, hd2⟩ := hd2
  rw [← hd2]
  have he : ∃ e, e = min (d2 / 365) 3 := ⟨_, rfl⟩
  obtain ⟨e, he⟩ := he
  rw [← he]
  have e0 : 0 ≤ e ∧ e ≤ 3 ∧ 365 * e ≤ d2 ∧ (d2 < 365 * e + 365 ∨ e = 3) := by omega
  clear he hb ha
  have q4 : (1 + 400 * c + 100 * a + 4 * b + e - 1) / 4 = 100 * c + 25 * a + b := by omega
  have q100 : (1 + 400 * c + 100 * a + 4 * b + e - 1) / 100 = 4 * c + a := by omega
  have q400 : (1 + 400 * c + 100 * a + 4 * b + e - 1) / 400 = c := by omega
  refine ⟨?_, ?_⟩
  · unfold yearStart
    rw [q4, q100, q400, Int.toNat_of_nonneg (by omega)]
    omega
  · unfold yearLen
    by_cases hl : leap (1 + 400 * c + 100 * a + 4 * b + e) = true
    · rw [if_pos hl]
      omega
    · rw [if_neg hl]
      rw [leap_iff] at hl
      have : d2 - 365 * e < 365 := by
        by_cases hlt : d2 - 365 * e < 365
        · exact hlt
        · exfalso
          have e3 : e = 3 := by omega
          have e4 : d2 = 1460 := by omega
          subst e3 e4
          apply hl
          refine ⟨by omega, ?_⟩
          by_cases hb : b = 24
          · right
            have : a = 3 := by omega
            subst this hb
            omega
          · left
            omega
      omega

/-- The year of a day is the one that has begun and not ended. -/
theorem yearOf_unique {z y : Int} (h1 : yearStart y ≤ z) (h2 : z < yearStart (y + 1)) : (yearOf z).1 = y := by
  obtain ⟨e1, e2⟩ := yearOf_eq z
  have e3 := yearStart_succ (yearOf z).1
  rcases Int.lt_trichotomy (yearOf z).1 y with h | h | h
  · have := yearStart_mono (a := (yearOf z).1 + 1) (b := y) (by omega)
    omega
  · exact h
  · have := yearStart_mono (a := y + 1) (b := (yearOf z).1) (by omega)
    omega

theorem split_spec : ∀ {ls : List Nat} {d : Nat}, d < ls.sum →
    1 ≤ (split ls d).1 ∧ (split ls d).1 ≤ ls.length ∧ (split ls d).2 < ls.getD ((split ls d).1 - 1) 0 ∧
      (ls.take ((split ls d).1 - 1)).sum + (split ls d).2 = d
  | [], d, h => by simp at h
  | l :: ls, d, h => by
    rw [split]
    by_cases hd : d < l
    · rw [if_pos hd]
      simp [hd]
    · rw [if_neg hd]
      have hs : d - l < ls.sum := by
        rw [List.sum_cons] at h
        omega
      obtain ⟨g1, g2, g3, g4⟩ := split_spec hs
      generalize split ls (d - l) = p at *
      obtain ⟨m, r⟩ := p
      dsimp only at *
      obtain ⟨k, rfl⟩ : ∃ k, m = k + 1 := ⟨m - 1, by omega⟩
      simp only [Nat.add_sub_cancel] at *
      refine ⟨by omega, by simp; omega, ?_, ?_⟩
      · simpa using g3
      · simp only [List.take_succ_cons, List.sum_cons]
        omega

theorem split_unique : ∀ {ls : List Nat} {k r : Nat}, r < ls.getD k 0 →
    split ls ((ls.take k).sum + r) = (k + 1, r)
  | [], k, r, h => by simp at h
  | l :: ls, 0, r, h => by
    simp only [List.getD_cons_zero] at h
    simp [split, h]
  | l :: ls, k + 1, r, h => by
    simp only [List.getD_cons_succ] at h
    have := split_unique h
    simp only [List.take_succ_cons, List.sum_cons]
    rw [split, if_neg (by omega)]
    have e : l + (ls.take k).sum + r - l = (ls.take k).sum + r := by omega
    rw [e, this]

theorem take_sum_lt : ∀ {ls : List Nat} {k r : Nat}, r < ls.getD k 0 → (ls.take k).sum + r < ls.sum
  | [], k, r, h => by simp at h
  | l :: ls, 0, r, h => by
    simp only [List.getD_cons_zero] at h
    simp only [List.take_zero, List.sum_nil, List.sum_cons]
    omega
  | l :: ls, k + 1, r, h => by
    simp only [List.getD_cons_succ] at h
    have := take_sum_lt h
    simp only [List.take_succ_cons, List.sum_cons]
    omega

/-- A day that the calendar has. -/
def Valid (y : Int) (m d : Nat) : Prop := 1 ≤ m ∧ m ≤ 12 ∧ 1 ≤ d ∧ d ≤ (months y).getD (m - 1) 0

theorem months_getD {y : Int} {k : Nat} : (months y).getD k 0 ≤ 31 := by
  rw [List.getD_eq_getElem?_getD]
  rcases h : (months y)[k]? with _ | x
  · simp
  · exact months_le x (List.mem_of_getElem? h)

theorem civil_valid (z : Int) : Valid (civil z).1 (civil z).2.1 (civil z).2.2 ∧
    dayNumber (civil z).1 (civil z).2.1 (civil z).2.2 = z := by
  obtain ⟨e1, e2⟩ := yearOf_eq z
  rw [← months_sum] at e2
  obtain ⟨g1, g2, g3, g4⟩ := split_spec e2
  have hl : (months (yearOf z).1).length = 12 := rfl
  refine ⟨⟨g1, by simp only [civil]; omega, by simp only [civil]; omega, by simp only [civil]; omega⟩, ?_⟩
  simp only [civil, dayNumber, Nat.add_sub_cancel]
  rw [g4]
  exact e1

theorem civil_dayNumber {y : Int} {m d : Nat} (h : Valid y m d) : civil (dayNumber y m d) = (y, m, d) := by
  obtain ⟨h1, h2, h3, h4⟩ := h
  have hlt : d - 1 < (months y).getD (m - 1) 0 := by omega
  have hs := take_sum_lt hlt
  rw [months_sum] at hs
  have hy : (yearOf (dayNumber y m d)).1 = y := by
    apply yearOf_unique
    · unfold dayNumber
      omega
    · rw [yearStart_succ]
      unfold dayNumber
      omega
  have hd : (yearOf (dayNumber y m d)).2 = ((months y).take (m - 1)).sum + (d - 1) := by
    have := (yearOf_eq (dayNumber y m d)).1
    rw [hy] at this
    unfold dayNumber at this ⊢
    omega
  unfold civil
  rw [hy, hd, split_unique hlt]
  refine Prod.ext rfl (Prod.ext ?_ ?_)
  · dsimp only
    omega
  · dsimp only
    omega

/-! ## Digits -/

theorem digits_lt {n : Nat} (h : n < 10) : digits n = [UInt8.ofNat (48 + n)] := by
  rw [digits, if_pos h]

theorem digits_ge {n : Nat} (h : 10 ≤ n) : digits n = digits (n / 10) ++ [UInt8.ofNat (48 + n % 10)] := by
  rw [digits, if_neg (by omega)]

theorem isDigit_of {n : Nat} (h : n < 10) : isDigit (UInt8.ofNat (48 + n)) = true := by
  have : n = 0 ∨ n = 1 ∨ n = 2 ∨ n = 3 ∨ n = 4 ∨ n = 5 ∨ n = 6 ∨ n = 7 ∨ n = 8 ∨ n = 9 := by omega
  rcases this with h | h | h | h | h | h | h | h | h | h <;> subst h <;> decide

theorem digit_of {n : Nat} (h : n < 10) : digit (UInt8.ofNat (48 + n)) = n := by
  have : n = 0 ∨ n = 1 ∨ n = 2 ∨ n = 3 ∨ n = 4 ∨ n = 5 ∨ n = 6 ∨ n = 7 ∨ n = 8 ∨ n = 9 := by omega
  rcases this with h | h | h | h | h | h | h | h | h | h <;> subst h <;> decide

theorem digits_digit (n : Nat) : ∀ b ∈ digits n, isDigit b = true := by
  induction n using Nat.strongRecOn with
  | _ n ih =>
    by_cases h : n < 10
    · rw [digits_lt h]
      intro b hb
      rw [List.mem_singleton] at hb
      subst hb
      exact isDigit_of h
    · rw [digits_ge (by omega)]
      intro b hb
      rw [List.mem_append, List.mem_singleton] at hb
      rcases hb with hb | rfl
      · exact ih _ (by omega) b hb
      · exact isDigit_of (by omega)

theorem value_append (a : Bytes) (b : UInt8) : value (a ++ [b]) = 10 * value a + digit b := by
  simp [value]

theorem value_digits (n : Nat) : value (digits n) = n := by
  induction n using Nat.strongRecOn with
  | _ n ih =>
    by_cases h : n < 10
    · rw [digits_lt h]
      simp only [value, List.foldl_cons, List.foldl_nil, digit_of h]
      omega
    · rw [digits_ge (by omega), value_append, ih _ (by omega), digit_of (by omega)]
      omega

theorem digits_length (n : Nat) : ∀ w, n < 10 ^ (w + 1) → (digits n).length ≤ w + 1 := by
  induction n using Nat.strongRecOn with
  | _ n ih =>
    intro w hw
    by_cases h : n < 10
    · rw [digits_lt h]
      simp
    · rw [digits_ge (by omega)]
      cases w with
      | zero => simp at hw; omega
      | succ w =>
        have := ih (n / 10) (by omega) w (by rw [Nat.pow_succ] at hw; omega)
        simp only [List.length_append, List.length_cons, List.length_nil]
        omega

theorem digits_length_ge (n : Nat) : ∀ w, 10 ^ w ≤ n → w + 1 ≤ (digits n).length := by
  induction n using Nat.strongRecOn with
  | _ n ih =>
    intro w hw
    cases w with
    | zero =>
      by_cases h : n < 10
      · rw [digits_lt h]
        simp
      · rw [digits_ge (by omega)]
        simp
    | succ w =>
      have hp : 0 < 10 ^ w := Nat.pow_pos (by decide)
      have h : 10 ≤ n := by
        rw [Nat.pow_succ] at hw
        omega
      rw [digits_ge h]
      have := ih (n / 10) (by omega) w (by rw [Nat.pow_succ] at hw; omega)
      simp only [List.length_append, List.length_cons, List.length_nil]
      omega

theorem pad_digit (w n : Nat) : ∀ b ∈ pad w n, isDigit b = true := by
  intro b hb
  unfold pad at hb
  rw [List.mem_append] at hb
  rcases hb with hb | hb
  · rw [List.mem_replicate] at hb
    rw [hb.2]
    decide
  · exact digits_digit n b hb

theorem value_zeros (k : Nat) (ds : Bytes) : value (List.replicate k 48 ++ ds) = value ds := by
  induction k with
  | zero => simp
  | succ k ih =>
    rw [List.replicate_succ, List.cons_append]
    rw [← ih]
    simp [value, digit]

theorem value_pad (w n : Nat) : value (pad w n) = n := by
  unfold pad
  rw [value_zeros, value_digits]

theorem pad_length {w n : Nat} (h : n < 10 ^ (w + 1)) : (pad (w + 1) n).length = w + 1 := by
  have := digits_length n w h
  unfold pad
  rw [List.length_append, List.length_replicate]
  omega

/-- Two digits are read back. -/
theorem getnum_pad {n : Nat} (h : n < 100) (f : Bool) (r : Bytes) : getnum f (pad 2 n ++ r) = some (n, r) := by
  have hl := pad_length (w := 1) (n := n) (by omega)
  have hd := pad_digit 2 n
  have hv := value_pad 2 n
  generalize pad 2 n = p at *
  match p, hl with
  | [a, b], _ =>
    simp only [value, List.foldl_cons, List.foldl_nil] at hv
    have ha := hd a (by simp)
    have hb := hd b (by simp)
    simp only [List.cons_append, List.nil_append, getnum, ha, hb, if_true]
    congr 2
    omega

theorem getyear_pad {n : Nat} (h : n < 10000) (r : Bytes) : getyear (pad 4 n ++ r) = some (n, r) := by
  have hl := pad_length (w := 3) (n := n) (by omega)
  have hd := pad_digit 4 n
  have hv := value_pad 4 n
  generalize pad 4 n = p at *
  match p, hl with
  | [a, b, c, d], _ =>
    have ha := hd a (by simp)
    have hb := hd b (by simp)
    have hc := hd c (by simp)
    have hd := hd d (by simp)
    simp only [List.cons_append, List.nil_append, getyear, ha, hb, hc, hd, Bool.and_self, if_true, hv]

theorem skip_self (c : UInt8) (r : Bytes) : skip c (c :: r) = some r := by
  simp [skip]

/-! ## The fraction -/

theorem takeWhile_append {f : UInt8 → Bool} : ∀ {ds r : Bytes}, (∀ b ∈ ds, f b = true) → (∀ b, r.head? = some b → f b = false) →
    (ds ++ r).takeWhile f = ds ∧ (ds ++ r).dropWhile f = r
  | [], r, _, h => by
    cases r with
    | nil => simp
    | cons b r => simp [h b rfl]
  | d :: ds, r, hd, h => by
    have := takeWhile_append (ds := ds) (r := r) (fun b hb => hd b (List.mem_cons_of_mem _ hb)) h
    simp [hd d (by simp), this.1, this.2]

/-- What is left without the zeros at the end, and how many there were. -/
theorem trim_zeros (ds : Bytes) : ∃ k, ds = (ds.reverse.dropWhile (· = 48)).reverse ++ List.replicate k 48 := by
  suffices h : ∀ rs : Bytes, ∃ k, rs = List.replicate k 48 ++ rs.dropWhile (· = 48) by
    obtain ⟨k, hk⟩ := h ds.reverse
    refine ⟨k, ?_⟩
    have := congrArg List.reverse hk
    simpa using this
  intro rs
  induction rs with
  | nil => exact ⟨0, rfl⟩
  | cons b rs ih =>
    by_cases hb : b = 48
    · obtain ⟨k, hk⟩ := ih
      refine ⟨k + 1, ?_⟩
      subst hb
      simp only [decide_true, List.dropWhile_cons_of_pos, List.replicate_succ, List.cons_append]
      rw [← hk]
    · refine ⟨0, ?_⟩
      simp [hb]

theorem value_trailing (ds : Bytes) (k : Nat) : value (ds ++ List.replicate k 48) = value ds * 10 ^ k := by
  induction k with
  | zero => simp
  | succ k ih =>
    rw [List.replicate_succ', ← List.append_assoc, value_append, ih, Nat.pow_succ]
    have : digit 48 = 0 := rfl
    rw [this, Nat.add_zero, Nat.mul_comm 10, Nat.mul_assoc]

theorem getfraction_none {c : UInt8} {r : Bytes} (h : c ≠ 46 ∧ c ≠ 44) : getfraction (c :: r) = (0, c :: r) := by
  cases r with
  | nil => rfl
  | cons d r => simp [getfraction, h.1, h.2]

theorem getfraction_fraction {n : Nat} (h : n < 10 ^ 9) {c : UInt8} {r : Bytes} (hc : c ≠ 46 ∧ c ≠ 44)
    (hd : isDigit c = false) : getfraction (fraction n ++ c :: r) = (n, c :: r) := by
  unfold fraction
  by_cases h0 : n = 0
  · rw [if_pos h0, List.nil_append, getfraction_none hc, h0]
  · rw [if_neg h0]
    have hl := pad_length (w := 8) (n := n) h
    have hv := value_pad 9 n
    have hdig := pad_digit 9 n
    obtain ⟨k, hk⟩ := trim_zeros (pad 9 n)
    generalize pad 9 n = p at *
    generalize (p.reverse.dropWhile (· = 48)).reverse = t at *
    have hpl : t.length + k = 9 := by
      have := congrArg List.length hk
      rw [hl, List.length_append, List.length_replicate] at this
      omega
    have htd : ∀ b ∈ t, isDigit b = true := fun b hb => hdig b (by rw [hk]; exact List.mem_append_left _ hb)
    rw [hk, value_trailing] at hv
    cases t with
    | nil =>
      simp only [value, List.foldl_nil, Nat.zero_mul] at hv
      omega
    | cons b t =>
      obtain ⟨g1, g2⟩ := takeWhile_append (f := isDigit) (ds := b :: t) (r := c :: r) htd (by
        intro x hx
        simp only [List.head?_cons, Option.some.injEq] at hx
        rw [← hx]
        exact hd)
      simp only [List.cons_append] at g1 g2 ⊢
      simp only [getfraction, htd b (by simp), decide_true, Bool.true_or, Bool.and_self, if_true, g1, g2]
      have ht : (b :: t).take 9 = b :: t := List.take_of_length_le (by omega)
      unfold nanos
      rw [ht]
      have : 9 - (b :: t).length = k := by omega
      rw [this, hv]

/-! ## The zone -/

theorem getzone_zone {off : Int} (h : off.natAbs < 360000) : getzone (zone off) = some (60 * off.tdiv 60, []) := by
  unfold zone
  by_cases h0 : off = 0
  · subst h0
    rfl
  · rw [if_neg h0]
    have hlt : (off.tdiv 60).natAbs < 6000 := by
      rw [Int.natAbs_tdiv]
      show off.natAbs / 60 < 6000
      omega
    generalize off.tdiv 60 = z at *
    have h1 : z.natAbs / 60 < 100 := by omega
    have h2 : z.natAbs % 60 < 100 := by omega
    have hg := getnum_pad h2 true []
    rw [List.append_nil] at hg
    by_cases hz : z < 0
    · rw [if_pos hz]
      simp only [getzone, getnum_pad h1, skip_self, hg, bind, Option.bind]
      simp
      omega
    · rw [if_neg hz]
      simp only [getzone, getnum_pad h1, skip_self, hg, bind, Option.bind]
      simp
      omega

/-- A zone begins with a letter or a sign. -/
theorem zone_cons (off : Int) : ∃ c r, zone off = c :: r ∧ (c = 90 ∨ c = 43 ∨ c = 45) := by
  unfold zone
  split
  · exact ⟨_, _, rfl, .inl rfl⟩
  · split
    · exact ⟨_, _, rfl, .inr (.inr rfl)⟩
    · exact ⟨_, _, rfl, .inr (.inl rfl)⟩

end Iota.GoTime
