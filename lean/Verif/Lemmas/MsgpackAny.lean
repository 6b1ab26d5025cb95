import Verif.Lemmas.MsgpackEnc

/-! # Lemmas: timestamps, dynamic values -/

namespace Iota.Lemmas.Msgpack
open Iota.Go Iota.Msgpack Iota.Spec.Msgpack

/-! ### time -/

theorem timeBytes_length (t : Time) : (Enc.timeBytes t).length = Size.timeLen t := by
  unfold Enc.timeBytes Size.timeLen
  split
  · split <;> simp
  · simp

theorem timeLen_cases (t : Time) : Size.timeLen t = 4 ∨ Size.timeLen t = 8 ∨ Size.timeLen t = 12 := by
  unfold Size.timeLen
  split
  · split <;> simp
  · simp

theorem unix_eq (t : Time) (h : i64 t.sec ∧ t.nsec < 10 ^ 9) : Dec.unix t.sec t.nsec = t := by
  unfold Dec.unix
  have h1 : t.nsec / 1000000000 = 0 := by omega
  have h2 : t.nsec % 1000000000 = t.nsec := by omega
  rw [h1, h2]
  have h3 : t.sec + ((0 : Nat) : Int) = t.sec := by simp
  rw [h3, toS_toU (k := 8) (by simp) _ (by simpa [i64] using h.1)]

theorem reads_decodeTime (t : Time) (h : i64 t.sec ∧ t.nsec < 10 ^ 9) :
    Reads (Dec.decodeTime (Enc.timeBytes t).length) (Enc.timeBytes t) t := by
  refine Reads.bind_pure (reads_getBytes _) ?_
  have hs := h.1
  unfold i64 at hs
  have hU : (toU 8 t.sec : Int) = t.sec % 18446744073709551616 := by unfold toU; simp; omega
  have hdec : ∀ t', t' = t → Reads (pure t' : Rd Time) [] t := by rintro _ rfl; exact Reads.pure _
  by_cases h1 : toU 8 t.sec / 2 ^ 34 = 0
  · have hsec : t.sec = (toU 8 t.sec : Nat) := by omega
    by_cases h2 : (t.nsec * 2 ^ 34 % 2 ^ 64 + toU 8 t.sec) / 2 ^ 32 = 0
    · have e : Enc.timeBytes t = beBytes 4 (t.nsec * 2 ^ 34 % 2 ^ 64 + toU 8 t.sec) := by
        unfold Enc.timeBytes; rw [if_pos h1, if_pos h2]
      rw [e, if_pos (by simp)]
      apply hdec
      rw [beNat_beBytes_of_lt (by omega)]
      have hn : t.nsec = 0 := by omega
      have := unix_eq t h
      rw [hn, hsec] at this
      rw [hn]
      simpa using this
    · have e : Enc.timeBytes t = beBytes 8 (t.nsec * 2 ^ 34 % 2 ^ 64 + toU 8 t.sec) := by
        unfold Enc.timeBytes; rw [if_pos h1, if_neg h2]
      rw [e, if_neg (by simp), if_pos (by simp)]
      apply hdec
      rw [beNat_beBytes_of_lt (by omega)]
      have hn : (t.nsec * 2 ^ 34 % 2 ^ 64 + toU 8 t.sec) / 2 ^ 34 = t.nsec := by omega
      have hsm : (t.nsec * 2 ^ 34 % 2 ^ 64 + toU 8 t.sec) % 2 ^ 34 = toU 8 t.sec := by omega
      rw [hn, hsm, ← hsec]
      exact unix_eq t h
  · have e : Enc.timeBytes t = beBytes 4 t.nsec ++ beBytes 8 (toU 8 t.sec) := by
      unfold Enc.timeBytes; rw [if_neg h1]
    have e1 : (beBytes 4 t.nsec ++ beBytes 8 (toU 8 t.sec)).drop 4 = beBytes 8 (toU 8 t.sec) := by
      rw [List.drop_append_of_le_length (by simp)]; simp [List.drop_of_length_le]
    have e2 : (beBytes 4 t.nsec ++ beBytes 8 (toU 8 t.sec)).take 4 = beBytes 4 t.nsec := by
      rw [List.take_append_of_le_length (by simp)]; simp [List.take_of_length_le]
    rw [e, if_neg (by simp), if_neg (by simp), if_pos (by simp), e1, e2]
    apply hdec
    rw [beNat_beBytes_of_lt (toU_lt 8 _), beNat_beBytes_of_lt (by omega),
      toS_toU (k := 8) (by simp) _ (by simpa using hs)]
    exact unix_eq t h

/-- Header of the timestamp extension. -/
theorem ext_enc (n : Nat) (h : n = 4 ∨ n = 8 ∨ n = 12) : ∃ (c : UInt8) (cs : Bytes),
    Writes (Enc.extLen n) (c :: cs) ∧ (c :: cs).length = Size.extLen n ∧ ExtHead n (c :: cs) ∧
    (n ≤ 8 → FixHead n (c :: cs)) ∧
    isString c.toNat = false ∧ Reads (Dec.extLen c.toNat) cs n := by
  rcases h with rfl | rfl | rfl
  · exact ⟨0xd6, [], writes_byte 0xd6, rfl, .fix (j := 2) (by decide),
      fun _ => .fix (j := 2) (by decide), rfl, Reads.pure 4⟩
  · exact ⟨0xd7, [], writes_byte 0xd7, rfl, .fix (j := 3) (by decide),
      fun _ => .fix (j := 3) (by decide), rfl, Reads.pure 8⟩
  · refine ⟨0xc7, [12], writes_setBytes _ (by simp), rfl, ?_, by simp, rfl, ?_⟩
    · exact .len (n := 12) (j := 0) (by decide) (by decide)
    · show Reads (Dec.uintK 1) [12] 12
      exact Reads.bind_pure (a := 12) (reads_head1 rfl) (Reads.pure 12)

theorem time_enc (lib : Lib) (t : Time) (h : i64 t.sec ∧ t.nsec < 10 ^ 9) :
    ∃ bs, Writes (Enc.time t) bs ∧ bs.length = Size.time t ∧
      Wire ExtHead (.ext (-1) (Enc.timeBytes t)) bs ∧
      (Size.timeLen t ≤ 8 → Wire FixHead (.ext (-1) (Enc.timeBytes t)) bs) ∧ Reads (Dec.time lib) bs t := by
  obtain ⟨c, cs, w, sz, hd, hd', hns, hr⟩ := ext_enc _ (timeLen_cases t)
  have hff : beBytes 1 (toU 1 (-1)) = [0xff] := by decide
  have hlen := timeBytes_length t
  refine ⟨(c :: cs) ++ ([0xff] ++ Enc.timeBytes t), ?_, ?_, ?_, ?_, ?_⟩
  · unfold Enc.time
    rw [hlen]
    refine w.seq (Writes.seq ((writes_setS 1 (-1)).cast hff) (writes_setBytes _ ?_))
    rw [hlen]; rcases timeLen_cases t with e | e | e <;> rw [e] <;> decide
  · unfold Size.time
    rw [List.length_append, sz, List.length_append, hlen]; simp
  · have := Wire.ext (E := ExtHead) (tag := -1) (s := Enc.timeBytes t) (h := c :: cs)
      (by rw [hlen]; exact hd) (by decide)
    exact this
  · intro h8
    have := Wire.ext (E := FixHead) (tag := -1) (s := Enc.timeBytes t) (h := c :: cs)
      (by rw [hlen]; exact hd' h8) (by decide)
    exact this
  · rw [List.cons_append]
    apply Reads.peek
    rw [if_neg (by simp [hns])]
    show Reads (Dec.timeExt c.toNat) _ t
    have hd1 := (reads_discard [c]).ignore
    have hlast : Reads (getU 1 >>= fun id => if toS 1 id ≠ -1 ∧ toS 1 id ≠ 13 then
        Rd.fail "msgpack: invalid time ext id" else Dec.decodeTime (Size.timeLen t))
        ([0xff] ++ Enc.timeBytes t) t := by
      refine Reads.bind (reads_byte 0xff) ?_
      rw [if_neg (by decide), ← hlen]
      exact reads_decodeTime t h
    have := Reads.bind (f := fun _ => Dec.extLen c.toNat >>= fun n => getU 1 >>= fun id =>
      if toS 1 id ≠ -1 ∧ toS 1 id ≠ 13 then
        Rd.fail "msgpack: invalid time ext id" else Dec.decodeTime n) hd1
      (Reads.bind (f := fun n => getU 1 >>= fun id =>
        if toS 1 id ≠ -1 ∧ toS 1 id ≠ 13 then
        Rd.fail "msgpack: invalid time ext id" else Dec.decodeTime n) hr hlast)
    exact this

/-! ### dynamic values: writing -/

/-- Lists of scalars. -/
theorem each_enc {α : Type} (f : α → Wr) (sz : α → Nat) (val : α → Val) (l : List α)
    (h : ∀ a ∈ l, ∃ bs, Writes (f a) bs ∧ bs.length = sz a ∧ ∀ E, Wire E (val a) bs) :
    ∃ bs, Writes (Enc.each f l) bs ∧ bs.length = Size.each sz l ∧ ∀ E, Wires E (l.map val) bs := by
  induction l with
  | nil => exact ⟨[], writes_skip, rfl, fun _ => .nil⟩
  | cons a l ih =>
    obtain ⟨x, x1, x2, x3⟩ := h a List.mem_cons_self
    obtain ⟨y, y1, y2, y3⟩ := ih fun b hb => h b (List.mem_cons_of_mem _ hb)
    exact ⟨x ++ y, x1.seq y1, by simp [Size.each, x2, y2], fun E => .cons (x3 E) (y3 E)⟩

theorem eachP_enc (l : List (Bytes × Bytes)) (h : ∀ p ∈ l, short p.1 ∧ short p.2) :
    ∃ bs, Writes (Enc.each (fun p => (Enc.str p.1).seq (Enc.str p.2)) l) bs ∧
      bs.length = Size.each (fun p => Size.str p.1 + Size.str p.2) l ∧
      ∀ E, WirePairs E (l.map fun p => (.str p.1, .str p.2)) bs := by
  induction l with
  | nil => exact ⟨[], writes_skip, rfl, fun _ => .nil⟩
  | cons p l ih =>
    obtain ⟨hp1, hp2⟩ := h p List.mem_cons_self
    obtain ⟨x, x1, x2, x3, _⟩ := str_enc p.1 hp1
    obtain ⟨y, y1, y2, y3, _⟩ := str_enc p.2 hp2
    obtain ⟨z, z1, z2, z3⟩ := ih fun b hb => h b (List.mem_cons_of_mem _ hb)
    exact ⟨x ++ y ++ z, (x1.seq y1).seq z1, by simp [Size.each, x2, y2, z2, Nat.add_assoc],
      by rw [List.append_assoc]; exact fun E => .cons (x3 E) (y3 E) (z3 E)⟩

theorem mod_short {α : Type} {l : List α} (h : short l) : l.length % U32 = l.length :=
  Nat.mod_eq_of_lt (by unfold short at h; unfold U32; omega)

theorem arr_enc {l : List Val} {n : Nat} {w : Wr} {sz : Nat} (hn : n < 2 ^ 32) (hl : l.length = n)
    {P : Prop}
    (h : ∃ bs, Writes w bs ∧ bs.length = sz ∧ (P → ∀ E, Wires E l bs)) :
    ∃ bs, Writes ((Enc.arraySize n).seq w) bs ∧ bs.length = Size.arraySize n + sz ∧
      (P → ∀ E, Wire E (.arr l) bs) := by
  obtain ⟨hd, h1, h2, h3, _⟩ := arraySize_enc n hn
  obtain ⟨bs, b1, b2, b3⟩ := h
  exact ⟨hd ++ bs, h1.seq b1, by simp [h2, b2], fun p E => .arr (hl ▸ h3) (b3 p E)⟩

theorem map_enc {l : List (Val × Val)} {n : Nat} {w : Wr} {sz : Nat} (hn : n < 2 ^ 32) (hl : l.length = n)
    {P : Prop}
    (h : ∃ bs, Writes w bs ∧ bs.length = sz ∧ (P → ∀ E, WirePairs E l bs)) :
    ∃ bs, Writes ((Enc.mapSize n).seq w) bs ∧ bs.length = Size.mapSize n + sz ∧
      (P → ∀ E, Wire E (.map l) bs) := by
  obtain ⟨hd, h1, h2, h3, _⟩ := mapSize_enc n hn
  obtain ⟨bs, b1, b2, b3⟩ := h
  exact ⟨hd ++ bs, h1.seq b1, by simp [h2, b2], fun p E => .map (hl ▸ h3) (b3 p E)⟩

theorem dens_length (l : List Any) : (dens l).length = l.length := by
  induction l with
  | nil => rfl
  | cons v l ih => simp [dens, ih]

theorem denS_length (l : List (Bytes × Any)) : (denS l).length = l.length := by
  induction l with
  | nil => rfl
  | cons v l ih => obtain ⟨k, v⟩ := v; simp [denS, ih]

theorem denI_length (l : List (Int × Any)) : (denI l).length = l.length := by
  induction l with
  | nil => rfl
  | cons v l ih => obtain ⟨k, v⟩ := v; simp [denI, ih]

theorem denU_length (l : List (Nat × Any)) : (denU l).length = l.length := by
  induction l with
  | nil => rfl
  | cons v l ih => obtain ⟨k, v⟩ := v; simp [denU, ih]

theorem denA_length (l : List (Any × Any)) : (denA l).length = l.length := by
  induction l with
  | nil => rfl
  | cons v l ih => obtain ⟨k, v⟩ := v; simp [denA, ih]

theorem weaken {w : Wr} {sz : Nat} {P : Prop} {Q : Bytes → Prop}
    (h : ∃ bs, Writes w bs ∧ bs.length = sz ∧ Q bs) :
    ∃ bs, Writes w bs ∧ bs.length = sz ∧ (P → Q bs) := by
  obtain ⟨bs, h1, h2, h3⟩ := h
  exact ⟨bs, h1, h2, fun _ => h3⟩

mutual
theorem any_enc : (v : Any) → Sized v →
    ∃ bs, Writes (Enc.any v) bs ∧ bs.length = Size.any v ∧ (Plain v → ∀ E, Wire E (den v) bs)
  | .nil, _ => ⟨[0xc0] ++ [0xc0], nil_enc.1.seq nil_enc.1, rfl, fun h => absurd h (by simp [Plain])⟩
  | .codec ops, h => by
    obtain ⟨bs, h1, h2⟩ := ops_enc ops (by simpa [Sized] using h)
    exact ⟨bs, by simpa [Enc.any] using h1, by simpa [Size.any] using h2,
      fun h => absurd h (by simp [Plain])⟩
  | .int k v, h => by
    obtain ⟨bs, h1, h2, h3, _⟩ := int_enc v (by simpa [Sized] using h)
    exact ⟨bs, by simpa [Enc.any] using h1, by simpa [Size.any] using h2, fun _ => by simpa [den] using h3⟩
  | .uint k v, h => by
    obtain ⟨bs, h1, h2, h3, _⟩ := uint_enc v (by simpa [Sized] using h)
    exact ⟨bs, by simpa [Enc.any] using h1, by simpa [Size.any] using h2, fun _ => by simpa [den] using h3⟩
  | .bool b, _ => by
    obtain ⟨bs, h1, h2, h3, _⟩ := bool_enc b
    exact ⟨bs, by simpa [Enc.any] using h1, by simpa [Size.any] using h2, fun _ => by simpa [den] using h3⟩
  | .f32 b, h => by
    obtain ⟨bs, h1, h2, h3, _⟩ := f32_enc ⟨id, fun _ => none⟩ b (by simpa [Sized] using h)
    exact ⟨bs, by simpa [Enc.any] using h1, by simpa [Size.any] using h2, fun _ => by simpa [den] using h3⟩
  | .f64 b, h => by
    obtain ⟨bs, h1, h2, h3, _⟩ := f64_enc b (by simpa [Sized] using h)
    exact ⟨bs, by simpa [Enc.any] using h1, by simpa [Size.any] using h2, fun _ => by simpa [den] using h3⟩
  | .str s, h => by
    obtain ⟨bs, h1, h2, h3, _⟩ := str_enc s (by simpa [Sized] using h)
    exact ⟨bs, by simpa [Enc.any] using h1, by simpa [Size.any] using h2, fun _ => by simpa [den] using h3⟩
  | .time t, h => absurd h (by simp [Sized])
  | .bytes b, h => by
    simp only [Sized] at h
    obtain ⟨bs, h1, h2, h3, _⟩ := bytes_enc b h.1
    exact ⟨bs, by simpa [Enc.any] using h1, by simpa [Size.any] using h2 h.2,
      fun _ => by simpa [den] using h3⟩
  | .anys l, h => by
    simp only [Sized] at h
    simp only [Enc.any, Size.any, den, Plain]
    rw [mod_short h.1]
    exact arr_enc h.1 (dens_length l) (anys_enc l h.2)
  | .strs l, h => by
    simp only [Sized] at h
    simp only [Enc.any, Size.any, den]
    rw [mod_short h.1]
    refine arr_enc h.1 (by simp) (weaken (each_enc _ _ _ l fun s hs => ?_))
    obtain ⟨bs, h1, h2, h3, _⟩ := str_enc s (h.2 s hs)
    exact ⟨bs, h1, h2, h3⟩
  | .times l, h => absurd h (by simp [Sized])
  | .bools l, h => by
    simp only [Sized] at h
    simp only [Enc.any, Size.any, den]
    rw [mod_short h]
    refine arr_enc h (by simp) (weaken (each_enc _ _ _ l fun s hs => ?_))
    obtain ⟨bs, h1, h2, h3, _⟩ := bool_enc s
    exact ⟨bs, h1, h2, h3⟩
  | .ints k l, h => by
    simp only [Sized] at h
    simp only [Enc.any, Size.any, den]
    rw [mod_short h.1]
    refine arr_enc h.1 (by simp) (weaken (each_enc _ _ _ l fun s hs => ?_))
    obtain ⟨bs, h1, h2, h3, _⟩ := int_enc s (h.2 s hs)
    exact ⟨bs, h1, h2, h3⟩
  | .uints k l, h => by
    simp only [Sized] at h
    simp only [Enc.any, Size.any, den]
    rw [mod_short h.1]
    refine arr_enc h.1 (by simp) (weaken (each_enc _ _ _ l fun s hs => ?_))
    obtain ⟨bs, h1, h2, h3, _⟩ := uint_enc s (h.2 s hs)
    exact ⟨bs, h1, h2, h3⟩
  | .mapSS l, h => by
    simp only [Sized] at h
    simp only [Enc.any, Size.any, den]
    rw [mod_short h.1]
    exact map_enc h.1 (by simp) (weaken (eachP_enc l h.2))
  | .mapSA l, h => by
    simp only [Sized] at h
    simp only [Enc.any, Size.any, den, Plain]
    rw [mod_short h.1]
    exact map_enc h.1 (denS_length l) (pairsS_enc l h.2)
  | .mapIA k l, h => by
    simp only [Sized] at h
    simp only [Enc.any, Size.any, den, Plain]
    rw [mod_short h.1]
    exact map_enc h.1 (denI_length l) (pairsI_enc l h.2)
  | .mapUA k l, h => by
    simp only [Sized] at h
    simp only [Enc.any, Size.any, den, Plain]
    rw [mod_short h.1]
    exact map_enc h.1 (denU_length l) (pairsU_enc l h.2)
  | .mapAA l, h => by
    simp only [Sized] at h
    simp only [Enc.any, Size.any, den, Plain]
    rw [mod_short h.1]
    exact map_enc h.1 (denA_length l) (pairsA_enc l h.2)
  | .other, _ => ⟨[], writes_skip, rfl, fun h => absurd h (by simp [Plain])⟩

theorem anys_enc : (l : List Any) → Sizeds l →
    ∃ bs, Writes (Enc.anys l) bs ∧ bs.length = Size.anys l ∧ (Plains l → ∀ E, Wires E (dens l) bs)
  | [], _ => ⟨[], writes_skip, rfl, fun _ _ => .nil⟩
  | v :: l, h => by
    simp only [Sizeds] at h
    obtain ⟨x, x1, x2, x3⟩ := any_enc v h.1
    obtain ⟨y, y1, y2, y3⟩ := anys_enc l h.2
    refine ⟨x ++ y, by simpa [Enc.anys] using x1.seq y1, by simp [Size.anys, x2, y2], fun hp => ?_⟩
    simp only [Plains] at hp
    exact fun E => .cons (x3 hp.1 E) (y3 hp.2 E)

theorem pairsS_enc : (l : List (Bytes × Any)) → SizedS l →
    ∃ bs, Writes (Enc.pairsS l) bs ∧ bs.length = Size.pairsS l ∧ (PlainS l → ∀ E, WirePairs E (denS l) bs)
  | [], _ => ⟨[], writes_skip, rfl, fun _ _ => .nil⟩
  | (k, v) :: l, h => by
    simp only [SizedS] at h
    obtain ⟨k0, k1, k2, k3, _⟩ := str_enc k h.1
    obtain ⟨x, x1, x2, x3⟩ := any_enc v h.2.1
    obtain ⟨y, y1, y2, y3⟩ := pairsS_enc l h.2.2
    refine ⟨k0 ++ (x ++ y), by simpa [Enc.pairsS] using k1.seq (x1.seq y1),
      by simp [Size.pairsS, k2, x2, y2], fun hp => ?_⟩
    simp only [PlainS] at hp
    exact fun E => .cons (k3 E) (x3 hp.1 E) (y3 hp.2 E)

theorem pairsI_enc : (l : List (Int × Any)) → SizedI l →
    ∃ bs, Writes (Enc.pairsI l) bs ∧ bs.length = Size.pairsI l ∧ (PlainI l → ∀ E, WirePairs E (denI l) bs)
  | [], _ => ⟨[], writes_skip, rfl, fun _ _ => .nil⟩
  | (k, v) :: l, h => by
    simp only [SizedI] at h
    obtain ⟨k0, k1, k2, k3, _⟩ := int_enc k h.1
    obtain ⟨x, x1, x2, x3⟩ := any_enc v h.2.1
    obtain ⟨y, y1, y2, y3⟩ := pairsI_enc l h.2.2
    refine ⟨k0 ++ (x ++ y), by simpa [Enc.pairsI] using k1.seq (x1.seq y1),
      by simp [Size.pairsI, k2, x2, y2], fun hp => ?_⟩
    simp only [PlainI] at hp
    exact fun E => .cons (k3 E) (x3 hp.1 E) (y3 hp.2 E)

theorem pairsU_enc : (l : List (Nat × Any)) → SizedU l →
    ∃ bs, Writes (Enc.pairsU l) bs ∧ bs.length = Size.pairsU l ∧ (PlainU l → ∀ E, WirePairs E (denU l) bs)
  | [], _ => ⟨[], writes_skip, rfl, fun _ _ => .nil⟩
  | (k, v) :: l, h => by
    simp only [SizedU] at h
    obtain ⟨k0, k1, k2, k3, _⟩ := uint_enc k h.1
    obtain ⟨x, x1, x2, x3⟩ := any_enc v h.2.1
    obtain ⟨y, y1, y2, y3⟩ := pairsU_enc l h.2.2
    refine ⟨k0 ++ (x ++ y), by simpa [Enc.pairsU] using k1.seq (x1.seq y1),
      by simp [Size.pairsU, k2, x2, y2], fun hp => ?_⟩
    simp only [PlainU] at hp
    exact fun E => .cons (k3 E) (x3 hp.1 E) (y3 hp.2 E)

theorem pairsA_enc : (l : List (Any × Any)) → SizedA l →
    ∃ bs, Writes (Enc.pairsA l) bs ∧ bs.length = Size.pairsA l ∧ (PlainA l → ∀ E, WirePairs E (denA l) bs)
  | [], _ => ⟨[], writes_skip, rfl, fun _ _ => .nil⟩
  | (k, v) :: l, h => by
    simp only [SizedA] at h
    obtain ⟨k0, k1, k2, k3⟩ := any_enc k h.1
    obtain ⟨x, x1, x2, x3⟩ := any_enc v h.2.1
    obtain ⟨y, y1, y2, y3⟩ := pairsA_enc l h.2.2
    refine ⟨k0 ++ (x ++ y), by simpa [Enc.pairsA] using k1.seq (x1.seq y1),
      by simp [Size.pairsA, k2, x2, y2], fun hp => ?_⟩
    simp only [PlainA] at hp
    exact fun E => .cons (k3 hp.1 E) (x3 hp.2.1 E) (y3 hp.2.2 E)

theorem op_enc : (o : Op) → SizedOp o → ∃ bs, Writes (Enc.op o) bs ∧ bs.length = Size.op o
  | .nil, _ => ⟨[0xc0], nil_enc.1, rfl⟩
  | .bool b, _ => by
    obtain ⟨bs, h1, h2, _⟩ := bool_enc b
    exact ⟨bs, by simpa [Enc.op] using h1, by simpa [Size.op] using h2⟩
  | .int v, h => by
    obtain ⟨bs, h1, h2, _⟩ := int_enc v (by simpa [SizedOp] using h)
    exact ⟨bs, by simpa [Enc.op] using h1, by simpa [Size.op] using h2⟩
  | .uint v, h => by
    obtain ⟨bs, h1, h2, _⟩ := uint_enc v (by simpa [SizedOp] using h)
    exact ⟨bs, by simpa [Enc.op] using h1, by simpa [Size.op] using h2⟩
  | .f32 b, h => by
    obtain ⟨bs, h1, h2, _⟩ := f32_enc ⟨id, fun _ => none⟩ b (by simpa [SizedOp] using h)
    exact ⟨bs, by simpa [Enc.op] using h1, by simpa [Size.op] using h2⟩
  | .f64 b, h => by
    obtain ⟨bs, h1, h2, _⟩ := f64_enc b (by simpa [SizedOp] using h)
    exact ⟨bs, by simpa [Enc.op] using h1, by simpa [Size.op] using h2⟩
  | .str s, h => by
    obtain ⟨bs, h1, h2, _⟩ := str_enc s (by simpa [SizedOp] using h)
    exact ⟨bs, by simpa [Enc.op] using h1, by simpa [Size.op] using h2⟩
  | .time t, h => by
    obtain ⟨bs, h1, h2, _⟩ := time_enc ⟨id, fun _ => none⟩ t (by simpa [SizedOp] using h)
    exact ⟨bs, by simpa [Enc.op] using h1, by simpa [Size.op] using h2⟩
  | .bytes b, h => by
    simp only [SizedOp] at h
    obtain ⟨bs, h1, h2, _⟩ := bytes_enc b h.1
    exact ⟨bs, by simpa [Enc.op] using h1, by simpa [Size.op] using h2 h.2⟩
  | .arraySize n, h => by
    obtain ⟨bs, h1, h2, _⟩ := arraySize_enc n (by simpa [SizedOp] using h)
    exact ⟨bs, by simpa [Enc.op] using h1, by simpa [Size.op] using h2⟩
  | .mapSize n, h => by
    obtain ⟨bs, h1, h2, _⟩ := mapSize_enc n (by simpa [SizedOp] using h)
    exact ⟨bs, by simpa [Enc.op] using h1, by simpa [Size.op] using h2⟩
  | .any v, h => by
    obtain ⟨bs, h1, h2, _⟩ := any_enc v (by simpa [SizedOp] using h)
    exact ⟨bs, by simpa [Enc.op] using h1, by simpa [Size.op] using h2⟩

theorem ops_enc : (l : List Op) → SizedOps l → ∃ bs, Writes (Enc.ops l) bs ∧ bs.length = Size.ops l
  | [], _ => ⟨[], writes_skip, rfl⟩
  | o :: l, h => by
    simp only [SizedOps] at h
    obtain ⟨x, x1, x2⟩ := op_enc o h.1
    obtain ⟨y, y1, y2⟩ := ops_enc l h.2
    exact ⟨x ++ y, by simpa [Enc.ops] using x1.seq y1, by simp [Size.ops, x2, y2]⟩
end

end Iota.Lemmas.Msgpack
