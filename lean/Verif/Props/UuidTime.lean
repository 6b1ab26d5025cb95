import Verif.Props.Uuid

/-! # Properties of times and clock sequences of UUIDs (C53, C85) -/

namespace Iota.Props.UuidTime
open Go Iota.Uuid Iota.Spec.Uuid Iota.Props.Uuid

theorem tdiv_pos {a : Int} (n : Int) (h : 0 ≤ a) : a.tdiv n = a / n := Int.tdiv_eq_ediv_of_nonneg h

theorem tdiv_neg {a : Int} (n : Int) (h : a ≤ 0) : a.tdiv n = -(-a / n) := by
  rw [← Int.tdiv_eq_ediv_of_nonneg (by omega : 0 ≤ -a), Int.neg_tdiv, Int.neg_neg]

theorem tmod_eq (a n : Int) : a.tmod n = a - n * a.tdiv n := by
  have := Int.mul_tdiv_add_tmod a n
  omega

/-- A reading of any clock that shows 64-bit nanoseconds is the time since 15 October 1582, 141427 days before 1970, in
units of 100 ns. -/
theorem stamp_exact (nanos : Int) (h : -2 ^ 63 ≤ nanos ∧ nanos < 2 ^ 63) :
    ((stamp nanos).toNat : Int) = nanos.tdiv 100 + 141427 * 86400 * 10000000 ∧ toTime (stamp nanos) = (stamp nanos).toNat := by
  have hg : (g1582ns100 : Int) = 141427 * 86400 * 10000000 := by decide
  have hb : -92233720368547758 ≤ nanos.tdiv 100 ∧ nanos.tdiv 100 ≤ 92233720368547758 := by
    rcases Int.le_total 0 nanos with hn | hn
    · rw [tdiv_pos _ hn]; omega
    · rw [tdiv_neg _ hn]; omega
  have e : (stamp nanos).toNat = (nanos.tdiv 100 + g1582ns100).toNat := by
    unfold stamp
    rw [UInt64.toNat_ofNat', hg]
    omega
  rw [e, hg]
  refine ⟨by omega, ?_⟩
  unfold toTime
  rw [e, hg, if_pos (by omega)]

/-- **C85** What `GetTime` returns converts back to the Unix time it was read at, up to 100 ns: seconds and nanoseconds
add up to it, and the nanoseconds are less than a second. -/
theorem unix_time_round_trip (c : Clock) (nanos : Int) (rnd : UInt8 × UInt8) (h : -2 ^ 63 ≤ nanos ∧ nanos < 2 ^ 63) :
    let r := unixTime (toTime (getTime c nanos rnd).1.1)
    r.1 * 10 ^ 9 + r.2 = nanos.tdiv 100 * 100 ∧ -10 ^ 9 < r.2 ∧ r.2 < 10 ^ 9 ∧
      (0 ≤ nanos → r.1 = nanos / 10 ^ 9 ∧ r.2 = nanos % 10 ^ 9 / 100 * 100) := by
  have e : (getTime c nanos rnd).1.1 = stamp nanos := rfl
  obtain ⟨h1, h2⟩ := stamp_exact nanos h
  have hb : -92233720368547758 ≤ nanos.tdiv 100 ∧ nanos.tdiv 100 ≤ 92233720368547758 := by
    rcases Int.le_total 0 nanos with hn | hn
    · rw [tdiv_pos _ hn]; omega
    · rw [tdiv_neg _ hn]; omega
  have hg : (g1582ns100 : Int) = 141427 * 86400 * 10000000 := by decide
  have e3 : int64 (toTime (stamp nanos) - g1582ns100) = nanos.tdiv 100 := by
    unfold int64
    rw [h2, h1, hg]
    omega
  dsimp only
  unfold unixTime
  rw [e, e3]
  dsimp only
  rw [tmod_eq]
  rcases Int.le_total 0 nanos with hn | hn
  · have h1 : 0 ≤ nanos / 100 := by omega
    rw [tdiv_pos 100 hn, tdiv_pos _ h1]
    refine ⟨by omega, by omega, by omega, fun h0 => ⟨by omega, by omega⟩⟩
  · rw [tdiv_neg 100 hn]
    have h1 : -(-nanos / 100) ≤ 0 := by omega
    rw [tdiv_neg _ h1]
    refine ⟨by omega, by omega, by omega, fun h0 => ?_⟩
    have : nanos = 0 := by omega
    subst this
    decide

/-- 2 March 2023, 12:34:56.7890123 -/
example : unixTime (toTime (getTime ⟨0, 0⟩ 1677760496789012345 (1, 2)).1.1) = (1677760496, 789012300) := by decide

/-- Before 1970 both parts are negative. -/
example : unixTime (toTime (getTime ⟨0, 0⟩ (-1500000000) (1, 2)).1.1) = (-1, -500000000) := by decide

theorem or_shift {a b n : Nat} (h : a < 2 ^ n) : a ||| (b <<< n) = a + b * 2 ^ n := by
  rw [Nat.or_comm, Nat.shiftLeft_eq, Nat.mul_comm, ← Nat.two_pow_add_eq_or_of_lt h, Nat.add_comm]

/-- **C85** The time and clock sequence of a version 1 UUID are read back: all 60 bits of the one, all 14 of the other. -/
theorem v1_fields (time seq : Nat) (node : Bytes) (ht : time < 2 ^ 60) (hs : seq < 2 ^ 14) :
    timeOf (v1 time seq node) = time ∧ clockSequenceOf (v1 time seq node) = seq := by
  have l4 : (beBytes 4 (time % 2 ^ 32)).length = 4 := by simp
  have l2 : ∀ x, (beBytes 2 x).length = 2 := by simp
  have a1 : (v1 time seq node).take 4 = beBytes 4 (time % 2 ^ 32) := by
    simp only [v1, List.append_assoc]
    rw [List.take_append_of_le_length (by omega), List.take_of_length_le (by omega)]
  have d4 : (v1 time seq node).drop 4 = beBytes 2 (time / 2 ^ 32 % 2 ^ 16) ++ (beBytes 2 (1 * 2 ^ 12 + time / 2 ^ 48 % 2 ^ 12) ++
      (beBytes 2 (2 * 2 ^ 14 + seq % 2 ^ 14) ++ node)) := by
    simp only [v1, List.append_assoc]
    rw [List.drop_append_of_le_length (by omega), List.drop_of_length_le (by omega), List.nil_append]
  have d6 : (v1 time seq node).drop 6 = beBytes 2 (1 * 2 ^ 12 + time / 2 ^ 48 % 2 ^ 12) ++
      (beBytes 2 (2 * 2 ^ 14 + seq % 2 ^ 14) ++ node) := by
    rw [show 6 = 4 + 2 from rfl, ← List.drop_drop, d4, List.drop_append_of_le_length (Nat.le_of_eq (l2 _).symm), List.drop_of_length_le (Nat.le_of_eq (l2 _)),
      List.nil_append]
  have d8 : (v1 time seq node).drop 8 = beBytes 2 (2 * 2 ^ 14 + seq % 2 ^ 14) ++ node := by
    rw [show 8 = 6 + 2 from rfl, ← List.drop_drop, d6, List.drop_append_of_le_length (Nat.le_of_eq (l2 _).symm), List.drop_of_length_le (Nat.le_of_eq (l2 _)),
      List.nil_append]
  have t2 : ∀ x r, (beBytes 2 x ++ r).take 2 = beBytes 2 x := by
    intro x r
    rw [List.take_append_of_le_length (Nat.le_of_eq (l2 _).symm), List.take_of_length_le (Nat.le_of_eq (l2 _))]
  have b2 : ∀ x, x < 2 ^ 16 → beNat (beBytes 2 x) = x := by
    intro x hx; rw [beNat_beBytes]; omega
  constructor
  · unfold timeOf
    rw [a1, d4, t2, d6, t2, b2 _ (by omega), b2 _ (by omega), beNat_beBytes,
      show (0xfff : Nat) = 2 ^ 12 - 1 from rfl, Nat.and_two_pow_sub_one_eq_mod]
    rw [or_shift (n := 32) (by omega), or_shift (n := 48) (by omega)]
    omega
  · unfold clockSequenceOf
    rw [d8, t2, b2 _ (by omega), show (0x3fff : Nat) = 2 ^ 14 - 1 from rfl, Nat.and_two_pow_sub_one_eq_mod]
    omega

example : v1 0x1ed1234567890ab 0x2345 [1, 2, 3, 4, 5, 6] =
    [0x56, 0x78, 0x90, 0xab, 0x12, 0x34, 0x11, 0xed, 0xa3, 0x45, 1, 2, 3, 4, 5, 6] := by decide

theorem seq_toNat (n : Nat) (h : n < 2 ^ 14) : (UInt16.ofNat n ||| 0x8000).toNat = n + 2 ^ 15 := by
  rw [UInt16.toNat_or, UInt16.toNat_ofNat', show (0x8000 : UInt16).toNat = 1 <<< 15 from rfl, or_shift (by omega)]
  omega

/-- **C53** (setting) After `SetClockSequence(seq)` with `seq` other than -1, `ClockSequence` returns the lowest 14 bits
of `seq`, whatever was there before; a sequence that differs from the one before is used as it is by the next reading,
even if the clock went back. -/
theorem set_sequence (c : Clock) (seq : Int) (r r' : UInt8 × UInt8) (hs : seq ≠ -1) :
    ((clockSequence (setClockSequence c seq r) r').1.toNat : Int) = seq % 2 ^ 14 ∧
    (clockSequence (setClockSequence c seq r) r').2 = setClockSequence c seq r ∧
    ((setClockSequence c seq r).clockSeq ≠ c.clockSeq → ∀ nanos, -2 ^ 63 ≤ nanos ∧ nanos < 2 ^ 63 →
      (getTime (setClockSequence c seq r) nanos r').1 = (stamp nanos, (setClockSequence c seq r).clockSeq)) := by
  have hlt : (seq % 0x4000).toNat < 2 ^ 14 := by omega
  have hn : (setClockSequence c seq r).clockSeq = UInt16.ofNat (seq % 0x4000).toNat ||| 0x8000 := by
    simp only [setClockSequence, if_neg hs]
  have h0 : (setClockSequence c seq r).clockSeq ≠ 0 := by rw [hn]; exact or_ne_zero _
  refine ⟨?_, ?_, ?_⟩
  · simp only [clockSequence, if_neg h0]
    rw [hn, UInt16.toNat_and, seq_toNat _ hlt, show (0x3fff : UInt16).toNat = 2 ^ 14 - 1 from rfl, Nat.and_two_pow_sub_one_eq_mod]
    omega
  · simp only [clockSequence, if_neg h0]
  · intro hne nanos hb
    have hl : (setClockSequence c seq r).lasttime = 0 := by
      simp only [setClockSequence, if_neg hs]
      rw [if_pos]
      rw [hn] at hne
      exact fun h => hne h.symm
    simp only [getTime, if_neg h0, hl]
    rw [if_neg]
    intro hle
    have := UInt64.le_iff_toNat_le.mp hle
    have e := (stamp_exact nanos hb).1
    have : (0 : UInt64).toNat = 0 := rfl
    have hb' : -92233720368547758 ≤ nanos.tdiv 100 := by
      rcases Int.le_total 0 nanos with hn | hn
      · rw [tdiv_pos _ hn]; omega
      · rw [tdiv_neg _ hn]; omega
    omega

/-- A clock stuck in 1700, with a new sequence. -/
example : (setClockSequence ⟨stamp 5, 0x8001⟩ 77 (0, 0)).clockSeq ≠ 0x8001 ∧
    (getTime (setClockSequence ⟨stamp 5, 0x8001⟩ 77 (0, 0)) 3 (0, 0)).1 = (stamp 3, 0x804d) := by decide

end Iota.Props.UuidTime
