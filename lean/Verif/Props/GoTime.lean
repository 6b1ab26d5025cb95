import Verif.Lemmas.GoTime
import Verif.Props.Transform
import Verif.Props.Calls

/-!
# Times that travel as text (C141, C57, C112)
-/

namespace Iota.Props.GoTime
open Iota.Go Iota.Msgpack Iota.GoTime Iota.Spec.Msgpack

/-! ## The calendar, as a specification would have it: one day after the other -/

/-- The day after a day: the next one of its month, or the first of the next month, or of the next year. -/
def tomorrow (y : Int) (m d : Nat) : Int × Nat × Nat :=
  if d < (if m = 2 then (if (4 : Int) ∣ y ∧ (¬(100 : Int) ∣ y ∨ (400 : Int) ∣ y) then 29 else 28)
    else if m = 4 ∨ m = 6 ∨ m = 9 ∨ m = 11 then 30 else 31) then (y, m, d + 1)
  else if m < 12 then (y, m + 1, 1) else (y + 1, 1, 1)

theorem monthLen {y : Int} {m : Nat} (h1 : 1 ≤ m) (h2 : m ≤ 12) : (months y).getD (m - 1) 0 =
    if m = 2 then (if (4 : Int) ∣ y ∧ (¬(100 : Int) ∣ y ∨ (400 : Int) ∣ y) then 29 else 28)
    else if m = 4 ∨ m = 6 ∨ m = 9 ∨ m = 11 then 30 else 31 := by
  have hl : leap y = decide ((4 : Int) ∣ y ∧ (¬(100 : Int) ∣ y ∨ (400 : Int) ∣ y)) := by
    rw [Bool.eq_iff_iff, leap_iff, decide_eq_true_iff]
    omega
  have : m = 1 ∨ m = 2 ∨ m = 3 ∨ m = 4 ∨ m = 5 ∨ m = 6 ∨ m = 7 ∨ m = 8 ∨ m = 9 ∨ m = 10 ∨ m = 11 ∨ m = 12 := by omega
  rcases this with h | h | h | h | h | h | h | h | h | h | h | h <;> subst h <;> simp [months, hl]

/-- **C141** The calendar that the text shows: 1 January 1970 for the day of the Unix epoch, and from each day to the
next as the rules of the Gregorian calendar say. -/
theorem calendar (z : Int) : civil epoch = (1970, 1, 1) ∧
    civil (z + 1) = tomorrow (civil z).1 (civil z).2.1 (civil z).2.2 := by
  refine ⟨by decide +kernel, ?_⟩
  obtain ⟨⟨h1, h2, h3, h4⟩, hn⟩ := civil_valid z
  generalize (civil z).1 = y at *
  generalize (civil z).2.1 = m at *
  generalize (civil z).2.2 = d at *
  have hm := monthLen (y := y) h1 h2
  unfold tomorrow
  rw [← hm]
  by_cases hd : d < (months y).getD (m - 1) 0
  · rw [if_pos hd, ← civil_dayNumber (y := y) (m := m) (d := d + 1) ⟨h1, h2, by omega, by omega⟩]
    congr 1
    rw [← hn]
    unfold dayNumber
    omega
  · rw [if_neg hd]
    have hde : d = (months y).getD (m - 1) 0 := by omega
    have hlen : (months y).length = 12 := rfl
    have hsum : ((months y).take m).sum = ((months y).take (m - 1)).sum + d := by
      obtain ⟨k, rfl⟩ : ∃ k, m = k + 1 := ⟨m - 1, by omega⟩
      have hk : k < (months y).length := by omega
      rw [List.take_succ_eq_append_getElem hk, List.sum_append]
      simp only [Nat.add_sub_cancel, List.sum_cons, List.sum_nil, Nat.add_zero] at hde ⊢
      rw [hde, List.getD_eq_getElem?_getD, List.getElem?_eq_getElem hk]
      rfl
    by_cases hm12 : m < 12
    · rw [if_pos hm12]
      have hpos : 1 ≤ (months y).getD (m + 1 - 1) 0 := by
        have hk : m < (months y).length := by omega
        rw [List.getD_eq_getElem?_getD, Nat.add_sub_cancel, List.getElem?_eq_getElem hk]
        exact months_pos _ (List.getElem_mem hk)
      rw [← civil_dayNumber (y := y) (m := m + 1) (d := 1) ⟨by omega, by omega, by omega, hpos⟩]
      congr 1
      rw [← hn]
      unfold dayNumber
      rw [Nat.add_sub_cancel, hsum]
      omega
    · rw [if_neg hm12]
      have h12 : m = 12 := by omega
      subst h12
      rw [← civil_dayNumber (y := y + 1) (m := 1) (d := 1) ⟨by omega, by omega, by omega, by simp [months]⟩]
      congr 1
      rw [← hn]
      unfold dayNumber
      rw [yearStart_succ, ← months_sum]
      have : (months y).take 12 = months y := rfl
      rw [this] at hsum
      rw [hsum]
      simp only [Nat.sub_self, List.take_zero, List.sum_nil]
      omega

example : civil 738943 = (2024, 2, 28) ∧ civil 738944 = (2024, 2, 29) ∧ civil 738945 = (2024, 3, 1) ∧
    civil (-1) = (0, 12, 31) := by decide +kernel

/-! ## What is read from what was written -/

/-- The years with four digits, as seconds of the clock of the location: from 1 January of year 0 to 31 December 9999. -/
def FourDigits (t : Time) (off : Int) : Prop := -62167219200 ≤ t.sec + off ∧ t.sec + off < 253402300800

instance (t : Time) (off : Int) : Decidable (FourDigits t off) := by unfold FourDigits; infer_instance

/-- A location whose offset is less than 100 hours. -/
def Near (off : Int) : Prop := off.natAbs < 360000

theorem year_iff (t : Time) (off : Int) : FourDigits t off ↔ 0 ≤ year t off ∧ year t off < 10000 := by
  unfold FourDigits year clock
  generalize hz : (t.sec + off) / 86400 + epoch = z
  have e : (civil z).1 = (yearOf z).1 := rfl
  rw [e]
  obtain ⟨e1, e2⟩ := yearOf_eq z
  have e3 := yearStart_succ (yearOf z).1
  generalize (yearOf z).1 = y at *
  have y0 : yearStart 0 = -366 := by decide
  have y1 : yearStart 10000 = 3652059 := by decide
  unfold epoch at hz
  constructor
  · rintro ⟨h1, h2⟩
    refine ⟨?_, ?_⟩
    · rcases Int.lt_or_le y 0 with h | h
      · have := yearStart_mono (a := y + 1) (b := 0) (by omega)
        omega
      · exact h
    · rcases Int.lt_or_le y 10000 with h | h
      · exact h
      · have := yearStart_mono h
        omega
  · rintro ⟨h1, h2⟩
    have g1 := yearStart_mono h1
    have g2 := yearStart_mono (a := y + 1) (b := 10000) (by omega)
    omega

/-- Everything `Parse` makes of what `Format` wrote: the instant, moved by the seconds of the offset, if the year has
four digits; otherwise an error. -/
theorem parse_format {t : Time} {off : Int} (hn : t.nsec < 10 ^ 9) (ho : Near off) :
    parse (format t off) =
      if FourDigits t off then some (⟨t.sec + off.tmod 60, t.nsec⟩, off - off.tmod 60) else none := by
  have hoff : 60 * off.tdiv 60 = off - off.tmod 60 := by
    have := Int.mul_tdiv_add_tmod off 60
    omega
  by_cases hy : FourDigits t off
  · rw [if_pos hy]
    obtain ⟨hy1, hy2⟩ := (year_iff t off).1 hy
    obtain ⟨⟨h1, h2, h3, h4⟩, hd⟩ := civil_valid (clock t off / 86400 + epoch)
    have h5 := Nat.le_trans h4 months_getD
    unfold format padInt
    rw [if_neg (by omega)]
    have hyv : ((year t off).toNat : Int) = (civil (clock t off / 86400 + epoch)).1 := by
      rw [Int.toNat_of_nonneg hy1]
      rfl
    have hyl : (year t off).toNat < 10000 := by omega
    generalize (year t off).toNat = y at *
    rw [← hyv] at h4 hd
    generalize (civil (clock t off / 86400 + epoch)).2.1 = m at *
    generalize (civil (clock t off / 86400 + epoch)).2.2 = d at *
    obtain ⟨s, hs⟩ : ∃ s : Nat, clock t off % 86400 = s := ⟨_, (Int.toNat_of_nonneg (Int.emod_nonneg _ (by decide))).symm⟩
    have hs' : s < 86400 := by
      have := Int.emod_lt_of_pos (clock t off) (b := 86400) (by decide)
      omega
    have hsec := Int.mul_ediv_add_emod (clock t off) 86400
    rw [hs] at hsec ⊢
    rw [Int.toNat_natCast]
    obtain ⟨c, r, hz, hc⟩ := zone_cons off
    have hfr : getfraction (fraction t.nsec ++ zone off) = (t.nsec, zone off) := by
      rw [hz]
      refine getfraction_fraction hn ?_ ?_ <;> rcases hc with rfl | rfl | rfl <;> decide
    have hgz := getzone_zone ho
    simp only [parse, getyear_pad hyl, skip_self, getnum_pad (show m < 100 by omega), getnum_pad (show d < 100 by omega),
      getnum_pad (show s / 3600 < 100 by omega), getnum_pad (show s % 3600 / 60 < 100 by omega),
      getnum_pad (show s % 60 < 100 by omega), hfr, hgz, bind, Option.bind]
    rw [if_neg (by simp), if_neg (by omega), hoff]
    congr 2
    · rw [hd]
      congr 1
      unfold clock at hsec ⊢
      omega
  · rw [if_neg hy]
    have hy' : year t off < 0 ∨ 10000 ≤ year t off := by
      rw [year_iff] at hy
      omega
    unfold format
    generalize (45 :: (pad 2 (civil (clock t off / 86400 + epoch)).2.1 ++ 45 :: _) : Bytes) = rest
    unfold padInt
    rcases hy' with h | h
    · rw [if_pos h]
      unfold parse
      have : getyear (45 :: pad 4 (year t off).natAbs ++ rest) = none := by
        rw [List.cons_append]
        generalize pad 4 (year t off).natAbs ++ rest = q
        match q with
        | [] => rfl
        | [_] => rfl
        | [_, _] => rfl
        | b :: c :: d :: r =>
          have h45 : isDigit 45 = false := by decide
          simp [getyear, h45]
      rw [this]
      rfl
    · rw [if_neg (by omega)]
      have hl := digits_length_ge (year t off).toNat 4 (by omega)
      have hp : pad 4 (year t off).toNat = digits (year t off).toNat := by
        unfold pad
        rw [Nat.sub_eq_zero_of_le (by omega)]
        rfl
      rw [hp]
      have hdig := digits_digit (year t off).toNat
      generalize digits (year t off).toNat = ds at *
      match ds, hl with
      | a :: b :: c :: d :: e :: r, _ =>
        have h5 := hdig e (by simp)
        have : e ≠ 45 := by
          rintro rfl
          exact absurd h5 (by decide)
        simp [parse, getyear, hdig a (by simp), hdig b (by simp), hdig c (by simp), hdig d (by simp), skip, this]

/-- **C141** (part) A time written with `TimeToString` and read with `StringToTime` is the same instant, with the same
offset, if its year has four digits and its offset no seconds. So is one behind a pointer; a nil pointer stays one.
Missing: other years and offsets, for which the claim is false (`far_refuted`, `seconds_refuted`). -/
theorem text_kept_partial {t : Time} {off : Int} (hn : t.nsec < 10 ^ 9) (ho : Near off) (hy : FourDigits t off)
    (hs : (60 : Int) ∣ off) :
    stringToTime (timeToString (t, off), none) = ((t, off), none) ∧
    stringToTimePtr (timeToStringPtr (some (t, off)), none) = (some (t, off), none) ∧
    stringToTimePtr (timeToStringPtr none, none) = (none, none) := by
  have h := parse_format hn ho
  rw [if_pos hy, Int.tmod_eq_zero_of_dvd hs, Int.add_zero, Int.sub_zero] at h
  have h' : parse (format t off) = some (t, off) := h
  refine ⟨?_, ?_, rfl⟩
  · simp only [stringToTime, timeToString, h']
  · simp only [stringToTimePtr, timeToStringPtr, h']

/-- 29 February 2024, 23:59:59.05 in a location an hour and a half west of Greenwich. -/
def leapDay : Time := ⟨1709256599, 50000000⟩

example : format leapDay (-5400) = [50, 48, 50, 52, 45, 48, 50, 45, 50, 57, 84, 50, 51, 58, 53, 57, 58, 53, 57, 46, 48, 53, 45, 48, 49, 58, 51, 48] ∧
    FourDigits leapDay (-5400) ∧ Near (-5400) := by
  unfold Near
  decide +kernel

example : stringToTime (timeToString (leapDay, -5400), none) = ((leapDay, -5400), none) :=
  (text_kept_partial (by decide) (show Near _ by unfold Near; decide) (by decide) (by decide)).1

/-- **C141** (refuted) No time of a year before 0 or after 9999 is read back: there is an error, and the value beside it
is the zero time. -/
theorem far_refuted {t : Time} {off : Int} (hn : t.nsec < 10 ^ 9) (ho : Near off) (hy : ¬FourDigits t off) :
    stringToTime (timeToString (t, off), none) = (zeroTime, some "parsing time") := by
  have h := parse_format hn ho
  rw [if_neg hy] at h
  simp only [stringToTime, timeToString, h]

/-- The first second of the year 10000. -/
example : stringToTime (timeToString (⟨253402300800, 0⟩, 0), none) = (zeroTime, some "parsing time") :=
  far_refuted (by decide) (show Near _ by unfold Near; decide) (by decide)

/-- **C141** (refuted) A time in a location whose offset has seconds, as local mean times do, becomes a different
instant, without an error. -/
theorem seconds_refuted {t : Time} {off : Int} (hn : t.nsec < 10 ^ 9) (ho : Near off) (hy : FourDigits t off)
    (hs : ¬(60 : Int) ∣ off) :
    ∃ t' off', stringToTime (timeToString (t, off), none) = ((t', off'), none) ∧ t'.sec - t.sec = off.tmod 60 ∧ t' ≠ t := by
  have h := parse_format hn ho
  rw [if_pos hy] at h
  refine ⟨⟨t.sec + off.tmod 60, t.nsec⟩, off - off.tmod 60, ?_, ?_, ?_⟩
  · simp only [stringToTime, timeToString, h]
  · dsimp only
    omega
  · intro e
    have := congrArg Time.sec e
    dsimp only at this
    exact hs (Int.dvd_of_tmod_eq_zero (by omega))

/-- Amsterdam before 1937 was 19 minutes and 32 seconds ahead of Greenwich. -/
example : stringToTime (timeToString (⟨-1500000000, 0⟩, 1172), none) = ((⟨-1500000000 + 32, 0⟩, 1140), none) := by
  decide +kernel

/-- **C141** (refuted) `StringToTimePtr` of a text that is not a time gives an error and, unlike `NillableParse`, a
pointer that is not nil. -/
theorem pointer_refuted (s : Bytes) (h : parse s = none) :
    stringToTimePtr (some s, none) = (some zeroTime, some "parsing time") ∧
    Convert.nillableParse (fun s => match parse s with | some t => .ok t | none => .error "parsing time") (some s, none) =
      .ok ((none : Option (Time × Int)), some "parsing time") := by
  simp only [stringToTimePtr, Convert.nillableParse, h, and_self]

example : parse [] = none ∧ parse (format ⟨253402300800, 0⟩ 0) = none := by decide +kernel

/-! ## Reading, and writing what was read -/

theorem getnum_lt {f : Bool} {s r : Bytes} {n : Nat} (h : getnum f s = some (n, r)) : n < 100 := by
  have hd : ∀ {a}, isDigit a = true → digit a < 10 := by
    intro a ha
    simp only [isDigit, Bool.and_eq_true, decide_eq_true_eq] at ha
    have := UInt8.le_iff_toNat_le.1 ha.2
    unfold digit
    have h57 : (57 : UInt8).toNat = 57 := rfl
    omega
  match s, h with
  | [], h => simp [getnum] at h
  | [a], h =>
    simp only [getnum] at h
    split at h
    · rename_i ha
      simp only [Bool.and_eq_true] at ha
      simp only [Option.some.injEq, Prod.mk.injEq] at h
      have := hd ha.1
      omega
    · cases h
  | a :: b :: s, h =>
    simp only [getnum] at h
    split at h
    · rename_i ha
      have := hd ha
      split at h
      · rename_i hb
        have := hd hb
        simp only [Option.some.injEq, Prod.mk.injEq] at h
        omega
      · split at h
        · cases h
        · simp only [Option.some.injEq, Prod.mk.injEq] at h
          omega
    · cases h

theorem digit_lt {a : UInt8} (ha : isDigit a = true) : digit a < 10 := by
  simp only [isDigit, Bool.and_eq_true, decide_eq_true_eq] at ha
  have := UInt8.le_iff_toNat_le.1 ha.2
  unfold digit
  have h57 : (57 : UInt8).toNat = 57 := rfl
  omega

theorem getyear_lt {s r : Bytes} {n : Nat} (h : getyear s = some (n, r)) : n < 10000 := by
  match s, h with
  | [], h => simp [getyear] at h
  | [a], h => simp [getyear] at h
  | [a, b], h => simp [getyear] at h
  | [a, b, c], h => simp [getyear] at h
  | a :: b :: c :: d :: s, h =>
    simp only [getyear] at h
    split at h
    · rename_i hd
      simp only [Bool.and_eq_true] at hd
      have h1 := digit_lt hd.1.1.1
      have h2 := digit_lt hd.1.1.2
      have h3 := digit_lt hd.1.2
      have h4 := digit_lt hd.2
      simp only [Option.some.injEq, Prod.mk.injEq, value, List.foldl_cons, List.foldl_nil] at h
      omega
    · cases h

theorem value_lt : ∀ (ds : Bytes), (∀ b ∈ ds, isDigit b = true) → value ds < 10 ^ ds.length := by
  intro ds
  suffices h : ∀ (n : Nat) (ds : Bytes), ds.length = n → (∀ b ∈ ds, isDigit b = true) → value ds < 10 ^ n from
    h _ ds rfl
  intro n
  induction n with
  | zero =>
    intro ds hl _
    cases List.eq_nil_of_length_eq_zero hl
    decide
  | succ n ih =>
    intro ds hl hd
    obtain ⟨x, b, rfl⟩ : ∃ x b, ds = x ++ [b] := by
      rcases List.eq_nil_or_concat ds with rfl | ⟨x, b, rfl⟩
      · cases hl
      · exact ⟨x, b, by simp⟩
    rw [value_append, Nat.pow_succ]
    have h1 := ih x (by simp at hl; omega) (fun c hc => hd c (List.mem_append_left _ hc))
    have h2 := digit_lt (hd b (by simp))
    omega

theorem nanos_lt {ds : Bytes} (hd : ∀ b ∈ ds, isDigit b = true) : nanos ds < 10 ^ 9 := by
  unfold nanos
  have h1 := value_lt (ds.take 9) (fun b hb => hd b (List.mem_of_mem_take hb))
  have h2 : (ds.take 9).length ≤ 9 := by simp; omega
  generalize ds.take 9 = x at *
  have h3 : 10 ^ x.length * 10 ^ (9 - x.length) = 10 ^ 9 := by
    rw [← Nat.pow_add]
    congr 1
    omega
  rw [← h3]
  exact Nat.mul_lt_mul_of_pos_right h1 (Nat.pow_pos (by decide))

theorem getfraction_lt (s : Bytes) : (getfraction s).1 < 10 ^ 9 := by
  match s with
  | [] => exact Nat.pow_pos (by decide)
  | [a] => exact Nat.pow_pos (by decide)
  | a :: b :: r =>
    simp only [getfraction]
    split
    · apply nanos_lt
      intro x hx
      exact List.all_eq_true.1 List.all_takeWhile x hx
    · exact Nat.pow_pos (by decide)

theorem getzone_dvd {s r : Bytes} {off : Int} (h : getzone s = some (off, r)) : (60 : Int) ∣ off := by
  cases s with
  | nil => simp [getzone] at h
  | cons c s =>
    simp only [getzone] at h
    split at h
    · simp only [Option.some.injEq, Prod.mk.injEq] at h
      omega
    · simp only [bind, Option.bind_eq_some_iff, Prod.exists] at h
      obtain ⟨a, s1, _, s2, _, b, s3, _, h⟩ := h
      split at h
      · simp only [Option.some.injEq, Prod.mk.injEq] at h
        omega
      · split at h
        · simp only [Option.some.injEq, Prod.mk.injEq] at h
          omega
        · cases h

/-- Whatever text is accepted, the time read from it has a year with four digits and an offset without seconds. -/
theorem parse_some {s : Bytes} {t : Time} {off : Int} (h : parse s = some (t, off)) :
    t.nsec < 10 ^ 9 ∧ FourDigits t off ∧ (60 : Int) ∣ off := by
  simp only [parse, bind, Option.bind_eq_some_iff, Prod.exists] at h
  obtain ⟨y, s1, hy, s2, _, m, s3, _, s4, _, d, s5, _, s6, _, hh, s7, _, s8, _, mi, s9, _, s10, _, se, s11, _, off', s12, hz, h⟩ := h
  split at h
  · cases h
  split at h
  · cases h
  rename_i hr
  simp only [Option.some.injEq, Prod.mk.injEq] at h
  obtain ⟨rfl, rfl⟩ := h
  refine ⟨getfraction_lt _, ?_, getzone_dvd hz⟩
  have hylt := getyear_lt hy
  rw [year_iff]
  have hc := civil_dayNumber (y := y) (m := m) (d := d) ⟨by omega, by omega, by omega, by omega⟩
  have e : clock ⟨(dayNumber y m d - epoch) * 86400 + (hh * 3600 + mi * 60 + se : Nat) - off', (getfraction s11).1⟩ off' / 86400 + epoch =
      dayNumber y m d := by
    unfold clock
    dsimp only
    omega
  unfold year
  rw [e, hc]
  dsimp only
  omega

/-- **C141** A text that was accepted need not be what `Format` writes, but what `Format` writes of the time read from it is
read as the same time: passing times on changes nothing. -/
theorem relay {s : Bytes} {t : Time × Int} (h : stringToTime (s, none) = (t, none)) (ho : Near t.2) :
    stringToTime (timeToString t, none) = (t, none) := by
  obtain ⟨t, off⟩ := t
  have hp : parse s = some (t, off) := by
    simp only [stringToTime] at h
    split at h
    · rename_i t' h'
      simp only [Prod.mk.injEq, and_true] at h
      rw [h', h]
    · simp at h
  obtain ⟨h1, h2, h3⟩ := parse_some hp
  exact (text_kept_partial h1 ho h2 h3).1

/-- `2024-02-29T1:02:03,50+00:00` -/
example : stringToTime ([50, 48, 50, 52, 45, 48, 50, 45, 50, 57, 84, 49, 58, 48, 50, 58, 48, 51, 44, 53, 48, 43, 48, 48, 58, 48, 48], none) =
    ((⟨1709168523, 500000000⟩, 0), none) := by decide +kernel

/-! ## Payloads -/

theorem digits_short {n w : Nat} (h : n < 10 ^ (w + 1)) : (pad (w + 1) n).length = w + 1 := pad_length h

theorem fraction_length {n : Nat} (h : n < 10 ^ 9) : (fraction n).length ≤ 10 := by
  unfold fraction
  split
  · simp
  · have hl : (pad 9 n).length = 9 := pad_length (w := 8) h
    have := (List.dropWhile_sublist (l := (pad 9 n).reverse) (· = (48 : UInt8))).length_le
    simp only [List.length_cons, List.length_reverse] at this ⊢
    omega

theorem zone_length {off : Int} (ho : Near off) : (zone off).length ≤ 6 := by
  unfold zone
  split
  · simp
  · have hlt : (off.tdiv 60).natAbs < 6000 := by
      rw [Int.natAbs_tdiv]
      show off.natAbs / 60 < 6000
      unfold Near at ho
      omega
    have h1 := pad_length (w := 1) (n := (off.tdiv 60).natAbs / 60) (by omega)
    have h2 := pad_length (w := 1) (n := (off.tdiv 60).natAbs % 60) (by omega)
    simp only [List.length_cons, List.length_append, h1, h2]
    omega

/-- Thirty-five characters suffice. -/
theorem format_length {t : Time} {off : Int} (hn : t.nsec < 10 ^ 9) (ho : Near off) (hy : FourDigits t off) :
    (format t off).length ≤ 35 := by
  obtain ⟨hy1, hy2⟩ := (year_iff t off).1 hy
  obtain ⟨⟨h1, h2, h3, h4⟩, hd⟩ := civil_valid (clock t off / 86400 + epoch)
  have h5 := Nat.le_trans h4 months_getD
  have hs := Int.emod_lt_of_pos (clock t off) (b := 86400) (by decide)
  have g1 := pad_length (w := 3) (n := (year t off).toNat) (by omega)
  have g2 := pad_length (w := 1) (n := (civil (clock t off / 86400 + epoch)).2.1) (by omega)
  have g3 := pad_length (w := 1) (n := (civil (clock t off / 86400 + epoch)).2.2) (by omega)
  have g4 := pad_length (w := 1) (n := (clock t off % 86400).toNat / 3600) (by omega)
  have g5 := pad_length (w := 1) (n := (clock t off % 86400).toNat % 3600 / 60) (by omega)
  have g6 := pad_length (w := 1) (n := (clock t off % 86400).toNat % 60) (by omega)
  have g7 := fraction_length hn
  have g8 := zone_length ho
  unfold format padInt
  rw [if_neg (by omega)]
  simp only [List.length_cons, List.length_append, g1, g2, g3, g4, g5, g6]
  omega

/-- **C57** (part) The transform of times gives back every time of a year with four digits in a location whose offset, at
that time, has no seconds. `loc` is the offset of the location of each time. -/
theorem time_inverse_partial (narrow : Nat → Nat) (loc : Time → Int) (t : Time) (hn : t.nsec < 10 ^ 9) (ho : Near (loc t))
    (hy : FourDigits t (loc t)) (hs : (60 : Int) ∣ loc t) :
    Transform.Inverse (Iota.Transform.time (lib narrow) fun t => format t (loc t)) t := by
  have hl := format_length hn ho hy
  refine Transform.time_inverse_partial (lib narrow) _ t ?_ ?_ (by unfold short; omega)
  · have h := parse_format hn ho
    rw [if_pos hy, Int.tmod_eq_zero_of_dvd hs, Int.add_zero] at h
    simp only [lib, h, Option.map_some]
  · unfold Size.str Size.strLen
    rw [Nat.mod_eq_of_lt (by unfold U32; omega)]
    split <;> (try split) <;> (try split) <;> omega

example (narrow : Nat → Nat) : Transform.Inverse (Iota.Transform.time (lib narrow) fun t => format t (-5400)) leapDay :=
  time_inverse_partial narrow (fun _ => -5400) leapDay (by decide) (show Near _ by unfold Near; decide) (by decide) (by decide)

theorem year_small {t : Time} {off : Int} (h : i64 t.sec) (ho : Near off) : (year t off).natAbs < 10 ^ 14 := by
  unfold i64 at h
  unfold Near at ho
  have e : year t off = (yearOf (clock t off / 86400 + epoch)).1 := rfl
  have hc : (clock t off / 86400 + epoch).natAbs < 10 ^ 15 := by
    unfold clock epoch
    omega
  rw [e]
  obtain ⟨e1, e2⟩ := yearOf_eq (clock t off / 86400 + epoch)
  have e3 : yearLen (yearOf (clock t off / 86400 + epoch)).1 ≤ 366 := by
    unfold yearLen
    split <;> omega
  generalize clock t off / 86400 + epoch = z at *
  generalize (yearOf z).1 = y at *
  unfold yearStart at e1
  omega

theorem far_length {t : Time} {off : Int} (hi : i64 t.sec) (hn : t.nsec < 10 ^ 9) (ho : Near off) :
    (format t off).length < 100 := by
  obtain ⟨⟨h1, h2, h3, h4⟩, hd⟩ := civil_valid (clock t off / 86400 + epoch)
  have h5 := Nat.le_trans h4 months_getD
  have hs := Int.emod_lt_of_pos (clock t off) (b := 86400) (by decide)
  have hy := year_small hi ho
  have g0 : ∀ n, n < 10 ^ 14 → (pad 4 n).length ≤ 14 := by
    intro n h
    have := digits_length n 13 h
    unfold pad
    rw [List.length_append, List.length_replicate]
    omega
  have g1 : (padInt 4 (year t off)).length ≤ 15 := by
    unfold padInt
    split
    · have := g0 (year t off).natAbs hy
      simp only [List.length_cons]
      omega
    · have := g0 (year t off).toNat (by omega)
      omega
  have g2 := pad_length (w := 1) (n := (civil (clock t off / 86400 + epoch)).2.1) (by omega)
  have g3 := pad_length (w := 1) (n := (civil (clock t off / 86400 + epoch)).2.2) (by omega)
  have g4 := pad_length (w := 1) (n := (clock t off % 86400).toNat / 3600) (by omega)
  have g5 := pad_length (w := 1) (n := (clock t off % 86400).toNat % 3600 / 60) (by omega)
  have g6 := pad_length (w := 1) (n := (clock t off % 86400).toNat % 60) (by omega)
  have g7 := fraction_length hn
  have g8 := zone_length ho
  unfold format
  simp only [List.length_cons, List.length_append, g2, g3, g4, g5, g6]
  omega

/-- **C57** (refuted) For all other times the transform is not inverse: encoding succeeds, and decoding fails, or gives a
different instant. -/
theorem time_inverse_refuted (narrow : Nat → Nat) (loc : Time → Int) (t : Time) (hi : i64 t.sec) (hn : t.nsec < 10 ^ 9)
    (ho : Near (loc t)) (h : ¬(FourDigits t (loc t) ∧ (60 : Int) ∣ loc t)) :
    ∃ raw, (Iota.Transform.time (lib narrow) fun t => format t (loc t)).encode t = .ok raw ∧
      (if FourDigits t (loc t) then ∃ t', (Iota.Transform.time (lib narrow) fun t => format t (loc t)).decode raw = .ok t' ∧ t' ≠ t
        else (Iota.Transform.time (lib narrow) fun t => format t (loc t)).decode raw = .err "parse") := by
  have hl := far_length hi hn ho
  obtain ⟨raw, h1, h2⟩ := Transform.string_inverse (format t (loc t)) (by
    unfold Size.str Size.strLen
    rw [Nat.mod_eq_of_lt (by unfold U32; omega)]
    split <;> (try split) <;> (try split) <;> omega) (by unfold short; omega)
  refine ⟨raw, h1, ?_⟩
  have hp := parse_format hn ho
  have hdec : (Iota.Transform.time (lib narrow) fun t => format t (loc t)).decode raw =
      match (lib narrow).parseTime (format t (loc t)) with
      | some t => .ok t
      | none => .err "parse" := by
    show (do let s ← (Dec.str (D.new raw)).1; _) = _
    rw [show (Dec.str (D.new raw)).1 = .ok (format t (loc t)) from h2, Res.ok_bind]
    rfl
  rw [hdec]
  by_cases hy : FourDigits t (loc t)
  · rw [if_pos hy] at hp ⊢
    refine ⟨⟨t.sec + (loc t).tmod 60, t.nsec⟩, by simp only [lib, hp, Option.map_some], ?_⟩
    intro e
    have := congrArg Time.sec e
    dsimp only at this
    exact h ⟨hy, Int.dvd_of_tmod_eq_zero (by omega)⟩
  · rw [if_neg hy] at hp ⊢
    simp only [lib, hp, Option.map_none]

example : i64 (253402300800 : Int) ∧ ¬FourDigits ⟨253402300800, 0⟩ 0 ∧ FourDigits ⟨0, 0⟩ 1172 ∧ ¬(60 : Int) ∣ 1172 := by
  unfold i64
  decide

/-- The first byte of a string makes `ReadTime` read a string. -/
theorem str_first {n : Nat} {hd : Bytes} (h : StrHead n hd) : ∃ c cs, hd = c :: cs ∧ isString c.toNat = true := by
  cases h with
  | fix h =>
    refine ⟨_, _, rfl, ?_⟩
    have : ∀ k : Fin 32, isString (0xa0 + UInt8.ofNat k.1).toNat = true := by decide +kernel
    exact this ⟨n, h⟩
  | @len j hj h =>
    have : j = 0 ∨ j = 1 ∨ j = 2 := by omega
    rcases this with rfl | rfl | rfl <;> exact ⟨_, _, rfl, by decide⟩

/-- **C141** (part) `ReadTime` reads a time that was written as a string, with the limits of `text_kept_partial`. -/
theorem read_text_partial (narrow : Nat → Nat) {t : Time} {off : Int} (hn : t.nsec < 10 ^ 9) (ho : Near off)
    (hy : FourDigits t off) (hs : (60 : Int) ∣ off) :
    ∃ bs, Writes (Enc.str (timeToString (t, off))) bs ∧ Reads (Dec.time (lib narrow)) bs t := by
  have hl := format_length hn ho hy
  have hp := parse_format hn ho
  rw [if_pos hy, Int.tmod_eq_zero_of_dvd hs, Int.add_zero] at hp
  obtain ⟨hd, h1, h2, h3, h4⟩ := Lemmas.Msgpack.strLen_enc (format t off).length (by omega)
  have hm : (format t off).length % U32 = (format t off).length := Nat.mod_eq_of_lt (by unfold U32; omega)
  refine ⟨hd ++ format t off, ?_, ?_⟩
  · show Writes (Enc.str (format t off)) _
    unfold Enc.str
    rw [hm]
    exact h1.seq (Lemmas.Msgpack.writes_setBytes _ (by omega))
  · have hstr : Reads Dec.str (hd ++ format t off) (format t off) := Reads.bind h4 (Lemmas.Msgpack.reads_getBytes _)
    obtain ⟨c, cs, rfl, hc⟩ := str_first h3
    rw [List.cons_append] at hstr ⊢
    apply Reads.peek
    rw [if_pos hc]
    have : (lib narrow).parseTime (format t off) = some t := by simp only [lib, hp, Option.map_some]
    refine Reads.bind_pure hstr ?_
    rw [this]
    exact Reads.pure t

example (narrow : Nat → Nat) : ∃ bs, Writes (Enc.str (timeToString (leapDay, -5400))) bs ∧ Reads (Dec.time (lib narrow)) bs leapDay :=
  read_text_partial narrow (by decide) (show Near _ by unfold Near; decide) (by decide) (by decide)

/-- **C112** (part) What the theorems about calls ask of times: they are given back if the year has four digits and
the offset no seconds. -/
theorem times_kept {narrow : Nat → Nat} {loc : Time → Int} {v : Codegen.GV}
    (h : ∀ t, v = .sc (.time t) → t.nsec < 10 ^ 9 ∧ Near (loc t) ∧ FourDigits t (loc t) ∧ (60 : Int) ∣ loc t) :
    Calls.Times (lib narrow) (fun t => format t (loc t)) v := by
  intro t ht
  obtain ⟨hn, ho, hy, hs⟩ := h t ht
  have hl := format_length hn ho hy
  have hp := parse_format hn ho
  rw [if_pos hy, Int.tmod_eq_zero_of_dvd hs, Int.add_zero] at hp
  exact ⟨by simp only [lib, hp, Option.map_some], by dsimp only; omega⟩

theorem time_size (env : Codegen.Env) (t : Time) : Size.ops (Codegen.write env (Iota.Calls.T.ty (.prim .time)) (.sc (.time t))) < 2 ^ 32 := by
  simp only [Codegen.write, Size.ops, Size.op, Codegen.Sc.op]
  unfold Size.time Size.extLen Size.timeLen
  repeat' split
  all_goals omega

/-- **C112** (part) A result that is a time arrives, with the modelled `Format` and `Parse`: any time between 1 January of
year 0 and 31 December 9999 in UTC. -/
theorem time_result_arrives_partial {narrow : Nat → Nat} {env : Codegen.Env} (hw : Spec.Codegen.WellFormed env)
    (receiver : String) (op : Iota.Calls.Operation) (hs : Iota.Calls.serverCompiles op = true)
    (hc : Iota.Calls.clientCompiles receiver op = true) (hr : op.ret = .prim .time) (t : Time) (hn : t.nsec < 10 ^ 9)
    (hy : -62167219200 ≤ t.sec ∧ t.sec < 253402300800) :
    ∃ bs, Iota.Calls.encode env (fun t => format t 0) (Iota.Calls.serverResult op).2 (.sc (.time t)) (.sc (.time t)) = some (.ok bs) ∧
      ∃ f0, ∀ f, f0 ≤ f → Iota.Calls.decode env (lib narrow) f (Iota.Calls.clientResult op).2 bs = some (.ok (.sc (.time t))) := by
  have := Calls.result_arrives_partial (lib := lib narrow) (format := fun t => format t 0) hw receiver op hs hc (.sc (.time t)) (.sc (.time t))
    (times_kept (fun t' h' => by
      cases h'
      exact ⟨hn, by unfold Near; decide, by unfold FourDigits; omega, by decide⟩)) (.refl _)
    (by rw [hr]; exact .prim (by simp [Spec.Codegen.IsPrim, i64]; omega)) (by rw [hr]; exact time_size _ _)
  rw [hr] at this
  simpa [Calls.seen, Spec.Codegen.norm, Iota.Calls.T.ty] using this

example (narrow : Nat → Nat) (t : Time) (hn : t.nsec < 10 ^ 9) (hy : -62167219200 ≤ t.sec ∧ t.sec < 253402300800) :
    ∃ bs, Iota.Calls.encode Calls.shopEnv (fun t => format t 0) (Iota.Calls.serverResult ⟨"now", false, [], false, .prim .time⟩).2
        (.sc (.time t)) (.sc (.time t)) = some (.ok bs) ∧
      ∃ f0, ∀ f, f0 ≤ f → Iota.Calls.decode Calls.shopEnv (lib narrow) f (Iota.Calls.clientResult ⟨"now", false, [], false, .prim .time⟩).2 bs =
        some (.ok (.sc (.time t))) :=
  time_result_arrives_partial Calls.shop_wf "s" ⟨"now", false, [], false, .prim .time⟩ (by decide) (by decide) rfl t hn hy

end Iota.Props.GoTime
