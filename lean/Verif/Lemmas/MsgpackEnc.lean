import Verif.Lemmas.Msgpack

/-! # Lemmas: what each writer writes, its size, and what the matching reader reads -/

namespace Iota.Lemmas.Msgpack
open Iota.Go Iota.Msgpack Iota.Spec.Msgpack

theorem beBytes_one (n : Nat) : beBytes 1 n = [UInt8.ofNat n] := by simp [beBytes]

theorem u8_ofNat_add (c n : Nat) : UInt8.ofNat c + UInt8.ofNat n = UInt8.ofNat (c + n) := by
  apply UInt8.toNat_inj.mp
  simp

theorem writes_byte (n : Nat) : Writes (setU 1 n) [UInt8.ofNat n] :=
  (writes_setU 1 n).cast (beBytes_one n)

theorem writes_head (c k n : Nat) : Writes ((setU 1 c).seq (setU k n)) (UInt8.ofNat c :: beBytes k n) :=
  (writes_byte c).seq (writes_setU k n)

theorem writes_headS (c k : Nat) (v : Int) :
    Writes ((setU 1 c).seq (setS k v)) (UInt8.ofNat c :: beBytes k (toU k v)) :=
  (writes_byte c).seq (writes_setS k v)

theorem or_low {a b : Nat} (k : Nat) (ha : a < 2 ^ k) (hb : b % 2 ^ k = 0) : a ||| b = b + a := by
  have : b = 2 ^ k * (b / 2 ^ k) := (Nat.mul_div_cancel' (Nat.dvd_of_mod_eq_zero hb)).symm
  rw [Nat.or_comm]
  rw [this, Nat.two_pow_add_eq_or_of_lt ha]

theorem reads_head {α : Type} {f : Nat → Rd α} {c : UInt8} {cs : Bytes} {a : α}
    (h : Reads (f c.toNat) cs a) : Reads (getU 1 >>= f) (c :: cs) a :=
  Reads.bind (reads_byte c) h

theorem reads_head1 {α : Type} {f : Nat → Rd α} {c : UInt8} {a : α}
    (h : f c.toNat = pure a) : Reads (getU 1 >>= f) [c] a := by
  have := Reads.pure (α := α) a
  rw [← h] at this
  exact Reads.bind (reads_byte c) this

/-- Evaluate the conditionals of a size function. -/
macro "size_tac" : tactic => `(tactic|
  ((repeat (first | rw [if_pos (by omega)] | rw [if_neg (by omega)])) <;> simp))

/-! ### nil and bool -/

theorem nil_enc : Writes Enc.nil [0xc0] ∧ Reads Dec.isNextNil [0xc0] true := by
  refine ⟨writes_byte 0xc0, ?_⟩
  apply Reads.peek
  have : Reads (do ignore (Iota.Msgpack.discard 1); return true : Rd Bool) [0xc0] true :=
    Reads.bind_pure (reads_discard [0xc0]).ignore (Reads.pure _)
  exact this

theorem bool_enc (b : Bool) : ∃ bs, Writes (Enc.bool b) bs ∧ bs.length = Size.bool b ∧
    (∀ E, Wire E (.bool b) bs) ∧ Reads Dec.bool bs b := by
  cases b with
  | true => exact ⟨[0xc3], writes_byte 0xc3, rfl, fun _ => .true, reads_head1 rfl⟩
  | false => exact ⟨[0xc2], writes_byte 0xc2, rfl, fun _ => .false, reads_head1 rfl⟩

/-! ### integers -/

theorem twos_toU {k : Nat} (hk : k = 1 ∨ k = 2 ∨ k = 4 ∨ k = 8) (v : Int)
    (h : -2 ^ (8 * k - 1) ≤ v ∧ v < 2 ^ (8 * k - 1)) : toU k v = twos k v := by
  rcases hk with rfl | rfl | rfl | rfl <;> (unfold toU twos; simp at *; split <;> omega)

theorem wire_int (j : Nat) (hj : j < 4) (v : Int)
    (h : -2 ^ (8 * 2 ^ j - 1) ≤ v ∧ v < 2 ^ (8 * 2 ^ j - 1)) :
    ∀ E, Wire E (.int v) ((0xd0 + UInt8.ofNat j) :: beBytes (2 ^ j) (toU (2 ^ j) v)) := by
  intro E
  have := Wire.int (E := E) hj h
  unfold num at this
  rw [← twos_toU] at this
  · exact this
  · have : j = 0 ∨ j = 1 ∨ j = 2 ∨ j = 3 := by omega
    rcases this with rfl | rfl | rfl | rfl <;> simp
  · exact h

theorem int_enc (v : Int) (h : i64 v) : ∃ bs, Writes (Enc.int v) bs ∧ bs.length = Size.int v ∧
    (∀ E, Wire E (.int v) bs) ∧ Reads Dec.int64 bs v := by
  unfold i64 at h
  unfold Enc.int
  by_cases h1 : v ≥ 0 ∧ v < 128
  · rw [if_pos h1]
    obtain ⟨n, rfl⟩ := Int.eq_ofNat_of_zero_le h1.1
    have hn : n < 128 := by omega
    refine ⟨_, writes_byte _, by unfold Size.int; size_tac, ?_, reads_head1 ?_⟩
    · have : toU 1 (n : Int) = n := by unfold toU; simp; omega
      rw [this]; exact fun _ => .posfix hn
    · have : toU 1 (n : Int) = n := by unfold toU; simp; omega
      rw [this]
      have hb : (UInt8.ofNat n).toNat = n := by simp; omega
      have hf : isFixedInt n = true := by unfold isFixedInt; simp; omega
      have hs : toS 1 n = n := by unfold toS; simp; omega
      rw [hb, hf, hs]; rfl
  rw [if_neg h1]
  by_cases h2 : v < 0 ∧ v ≥ -32
  · rw [if_pos h2]
    obtain ⟨n, hn⟩ := Int.eq_ofNat_of_zero_le (a := -v) (by omega)
    have hv : v = -(n : Int) := by omega
    have hU : toU 1 v = 256 - n := by rw [hv]; unfold toU; simp; omega
    have hor : toU 1 v ||| 0xe0 = 256 - n := by
      rw [hU]
      have : ∀ m < 33, 1 ≤ m → (256 - m) ||| 0xe0 = 256 - m := by decide
      exact this n (by omega) (by omega)
    refine ⟨_, writes_byte _, by unfold Size.int; size_tac, ?_, reads_head1 ?_⟩
    · rw [hor, hv]; exact fun _ => .negfix (by omega)
    · rw [hor]
      have hb : (UInt8.ofNat (256 - n)).toNat = 256 - n := by simp; omega
      have hf : isNegativeFixedInt (256 - n) = true := by unfold isNegativeFixedInt; simp; omega
      have hs : toS 1 (256 - n) = v := by unfold toS; simp; omega
      rw [hb, hf, hs, Bool.or_true]; rfl
  rw [if_neg h2]
  by_cases h3 : v ≤ 127 ∧ v ≥ -128
  · rw [if_pos h3]
    refine ⟨_, writes_headS _ 1 v, by unfold Size.int; size_tac, wire_int 0 (by decide) v (by simp; omega), ?_⟩
    exact reads_head (f := fun p => _) (reads_getS (k := 1) (by simp) v (by simp; omega))
  rw [if_neg h3]
  by_cases h4 : v ≤ 32767 ∧ v ≥ -32768
  · rw [if_pos h4]
    refine ⟨_, writes_headS _ 2 v, by unfold Size.int; size_tac, wire_int 1 (by decide) v (by simp; omega), ?_⟩
    exact reads_head (f := fun p => _) (reads_getS (k := 2) (by simp) v (by simp; omega))
  rw [if_neg h4]
  by_cases h5 : v ≤ 2147483647 ∧ v ≥ -2147483648
  · rw [if_pos h5]
    refine ⟨_, writes_headS _ 4 v, by unfold Size.int; size_tac, wire_int 2 (by decide) v (by simp; omega), ?_⟩
    exact reads_head (f := fun p => _) (reads_getS (k := 4) (by simp) v (by simp; omega))
  rw [if_neg h5]
  refine ⟨_, writes_headS _ 8 v, by unfold Size.int; size_tac, wire_int 3 (by decide) v (by simp; omega), ?_⟩
  exact reads_head (f := fun p => _) (reads_getS (k := 8) (by simp) v (by simp; omega))

theorem uint_enc (v : Nat) (h : u64 v) : ∃ bs, Writes (Enc.uint v) bs ∧ bs.length = Size.uint v ∧
    (∀ E, Wire E (.int v) bs) ∧ Reads Dec.uint64 bs v := by
  unfold u64 at h
  unfold Enc.uint
  by_cases h1 : v < 128
  · rw [if_pos h1]
    refine ⟨_, writes_byte _, by unfold Size.uint; size_tac, fun _ => .posfix h1, reads_head1 ?_⟩
    have hb : (UInt8.ofNat v).toNat = v := by simp; omega
    have hf : isFixedInt v = true := by unfold isFixedInt; simp; omega
    rw [hb, hf]; rfl
  rw [if_neg h1]
  by_cases h2 : v ≤ 255
  · rw [if_pos h2]
    exact ⟨_, writes_head _ 1 v, by unfold Size.uint; size_tac, fun _ => .uint (j := 0) (by decide) (by simp; omega),
      reads_head (f := fun p => _) (reads_getU_be 1 v (by simp; omega))⟩
  rw [if_neg h2]
  by_cases h3 : v ≤ 65535
  · rw [if_pos h3]
    exact ⟨_, writes_head _ 2 v, by unfold Size.uint; size_tac, fun _ => .uint (j := 1) (by decide) (by simp; omega),
      reads_head (f := fun p => _) (reads_getU_be 2 v (by simp; omega))⟩
  rw [if_neg h3]
  by_cases h4 : v ≤ 4294967295
  · rw [if_pos h4]
    exact ⟨_, writes_head _ 4 v, by unfold Size.uint; size_tac, fun _ => .uint (j := 2) (by decide) (by simp; omega),
      reads_head (f := fun p => _) (reads_getU_be 4 v (by simp; omega))⟩
  rw [if_neg h4]
  exact ⟨_, writes_head _ 8 v, by unfold Size.uint; size_tac, fun _ => .uint (j := 3) (by decide) (by simp; omega),
      reads_head (f := fun p => _) (reads_getU_be 8 v (by simp; omega))⟩

/-! ### floats -/

theorem f32_enc (lib : Lib) (v : Nat) (h : v < 2 ^ 32) : ∃ bs, Writes (Enc.f32 v) bs ∧
    bs.length = Size.f32 v ∧ (∀ E, Wire E (.f32 v) bs) ∧ Reads (Dec.f32 lib) bs v :=
  ⟨_, writes_head _ 4 v, by simp [Size.f32], fun _ => .f32 h,
    reads_head (f := fun p => _) (reads_getU_be 4 v (by simpa using h))⟩

theorem f64_enc (v : Nat) (h : v < 2 ^ 64) : ∃ bs, Writes (Enc.f64 v) bs ∧
    bs.length = Size.f64 v ∧ (∀ E, Wire E (.f64 v) bs) ∧ Reads Dec.f64 bs v :=
  ⟨_, writes_head _ 8 v, by simp [Size.f64], fun _ => .f64 h,
    reads_head (f := fun p => _) (reads_getU_be 8 v (by simpa using h))⟩

/-! ### strings -/

theorem strLen_enc (n : Nat) (h : n < 2 ^ 32) : ∃ hd, Writes (Enc.strLen n) hd ∧
    hd.length = Size.strLen n ∧ StrHead n hd ∧ Reads Dec.strLen hd n := by
  unfold Enc.strLen
  by_cases h1 : n < 32
  · rw [if_pos h1]
    have hor : n ||| 0xa0 = 0xa0 + n := or_low 5 (by simpa using h1) (by decide)
    refine ⟨_, writes_byte _, by unfold Size.strLen; size_tac, ?_, reads_head1 ?_⟩
    · have := StrHead.fix h1
      rw [hor, ← u8_ofNat_add]; exact this
    · rw [hor]
      have hb : (UInt8.ofNat (0xa0 + n)).toNat = 0xa0 + n := by simp; omega
      have hf : isFixedString (0xa0 + n) = true := by unfold isFixedString; simp; omega
      rw [hb, if_pos hf]
      congr 1; omega
  rw [if_neg h1]
  by_cases h2 : n ≤ 255
  · rw [if_pos h2]
    exact ⟨_, writes_head _ 1 n, by unfold Size.strLen; size_tac, .len (j := 0) (by decide) (by simp; omega),
      reads_head (f := fun p => _) (reads_getU_be 1 n (by simp; omega))⟩
  rw [if_neg h2]
  by_cases h3 : n ≤ 65535
  · rw [if_pos h3]
    exact ⟨_, writes_head _ 2 n, by unfold Size.strLen; size_tac, .len (j := 1) (by decide) (by simp; omega),
      reads_head (f := fun p => _) (reads_getU_be 2 n (by simp; omega))⟩
  rw [if_neg h3]
  exact ⟨_, writes_head _ 4 n, by unfold Size.strLen; size_tac, .len (j := 2) (by decide) (by simp; omega),
    reads_head (f := fun p => _) (reads_getU_be 4 n (by simp; omega))⟩

theorem str_enc (s : Bytes) (h : short s) : ∃ bs, Writes (Enc.str s) bs ∧ bs.length = Size.str s ∧
    (∀ E, Wire E (.str s) bs) ∧ Reads Dec.str bs s := by
  unfold short at h
  have hm : s.length % U32 = s.length := Nat.mod_eq_of_lt (by unfold U32; omega)
  obtain ⟨hd, h1, h2, h3, h4⟩ := strLen_enc s.length h
  unfold Enc.str Size.str
  rw [hm]
  exact ⟨hd ++ s, h1.seq (writes_setBytes s h), by simp [h2], fun _ => .str h3, Reads.bind h4 (reads_getBytes s)⟩

/-! ### byte strings -/

theorem binLen_enc (n : Nat) (h : n < 2 ^ 32) : ∃ hd, Writes (Enc.binLen n) hd ∧
    (n ≠ 255 → hd.length = Size.binLen n + 1) ∧ BinHead n hd ∧ Reads Dec.binLen hd n := by
  unfold Enc.binLen
  by_cases h2 : n ≤ 255
  · rw [if_pos h2]
    refine ⟨_, writes_head _ 1 n, ?_, .len (j := 0) (by decide) (by simp; omega),
      reads_head (f := fun p => _) (reads_getU_be 1 n (by simp; omega))⟩
    intro h255
    unfold Size.binLen
    size_tac
  rw [if_neg h2]
  by_cases h3 : n ≤ 65535
  · rw [if_pos h3]
    exact ⟨_, writes_head _ 2 n, fun _ => by unfold Size.binLen; size_tac, .len (j := 1) (by decide) (by simp; omega),
      reads_head (f := fun p => _) (reads_getU_be 2 n (by simp; omega))⟩
  rw [if_neg h3]
  exact ⟨_, writes_head _ 4 n, fun _ => by unfold Size.binLen; size_tac, .len (j := 2) (by decide) (by simp; omega),
    reads_head (f := fun p => _) (reads_getU_be 4 n (by simp; omega))⟩

theorem bytes_enc (s : Bytes) (h : short s) : ∃ bs, Writes (Enc.bytes s) bs ∧
    (not255 s → bs.length = Size.bytes s) ∧ (∀ E, Wire E (.bin s) bs) ∧ Reads Dec.bytes bs s := by
  unfold short at h
  have hm : s.length % U32 = s.length := Nat.mod_eq_of_lt (by unfold U32; omega)
  unfold Enc.bytes Size.bytes
  rw [hm]
  by_cases h0 : s.length = 0
  · have hs : s = [] := List.length_eq_zero_iff.mp h0
    subst hs
    simp only [List.length_nil, if_true]
    refine ⟨_, writes_head _ 1 0, by simp, ?_, ?_⟩
    · intro E
      have := Wire.bin (E := E) (s := []) (.len (j := 0) (n := 0) (by decide) (by simp))
      simpa [num] using this
    · exact Reads.bind_pure (a := 0) (reads_head (f := fun p => _) (reads_getU_be 1 0 (by simp)))
        (reads_getBytes [])
  · rw [if_neg h0, if_neg h0]
    obtain ⟨hd, h1, h2, h3, h4⟩ := binLen_enc s.length h
    refine ⟨hd ++ s, h1.seq (writes_setBytes s h), ?_, fun _ => .bin h3, Reads.bind h4 (reads_getBytes s)⟩
    intro hn
    simp [h2 hn]; omega

/-! ### arrays and maps -/

theorem arraySize_enc (n : Nat) (h : n < 2 ^ 32) : ∃ hd, Writes (Enc.arraySize n) hd ∧
    hd.length = Size.arraySize n ∧ ArrHead n hd ∧ Reads Dec.arraySize hd n := by
  unfold Enc.arraySize
  by_cases h1 : n < 16
  · rw [if_pos h1]
    have hor : n ||| 0x90 = 0x90 + n := or_low 4 (by simpa using h1) (by decide)
    refine ⟨_, writes_byte _, by unfold Size.arraySize; size_tac, ?_, reads_head1 ?_⟩
    · have := ArrHead.fix h1
      rw [hor, ← u8_ofNat_add]; exact this
    · rw [hor]
      have hb : (UInt8.ofNat (0x90 + n)).toNat = 0x90 + n := by simp; omega
      have hf : isFixedArray (0x90 + n) = true := by unfold isFixedArray; simp; omega
      rw [hb, if_pos hf]
      congr 1; omega
  rw [if_neg h1]
  by_cases h3 : n ≤ 65535
  · rw [if_pos h3]
    exact ⟨_, writes_head _ 2 n, by unfold Size.arraySize; size_tac, .a16 (by omega),
      reads_head (f := fun p => _) (reads_getU_be 2 n (by simp; omega))⟩
  rw [if_neg h3]
  exact ⟨_, writes_head _ 4 n, by unfold Size.arraySize; size_tac, .a32 (by omega),
    reads_head (f := fun p => _) (reads_getU_be 4 n (by simp; omega))⟩

theorem mapSize_enc (n : Nat) (h : n < 2 ^ 32) : ∃ hd, Writes (Enc.mapSize n) hd ∧
    hd.length = Size.mapSize n ∧ MapHead n hd ∧ Reads Dec.mapSize hd n := by
  unfold Enc.mapSize
  by_cases h1 : n < 16
  · rw [if_pos h1]
    have hor : n ||| 0x80 = 0x80 + n := or_low 4 (by simpa using h1) (by decide)
    refine ⟨_, writes_byte _, by unfold Size.mapSize; size_tac, ?_, reads_head1 ?_⟩
    · have := MapHead.fix h1
      rw [hor, ← u8_ofNat_add]; exact this
    · rw [hor]
      have hb : (UInt8.ofNat (0x80 + n)).toNat = 0x80 + n := by simp; omega
      have hf : isFixedMap (0x80 + n) = true := by unfold isFixedMap; simp; omega
      rw [hb, if_pos hf]
      congr 1; omega
  rw [if_neg h1]
  by_cases h3 : n ≤ 65535
  · rw [if_pos h3]
    exact ⟨_, writes_head _ 2 n, by unfold Size.mapSize; size_tac, .m16 (by omega),
      reads_head (f := fun p => _) (reads_getU_be 2 n (by simp; omega))⟩
  rw [if_neg h3]
  exact ⟨_, writes_head _ 4 n, by unfold Size.mapSize; size_tac, .m32 (by omega),
    reads_head (f := fun p => _) (reads_getU_be 4 n (by simp; omega))⟩

end Iota.Lemmas.Msgpack
