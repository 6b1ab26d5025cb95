import Verif.Lemmas.MsgpackAny

/-! # Lemmas: dynamic reader and skip -/

namespace Iota.Lemmas.Msgpack
open Iota.Go Iota.Msgpack Iota.Spec.Msgpack

/-! ### more steps do not change the result -/

theorem any_mono1 (f : Nat) :
    (∀ d r, Dec.any f d = some r → Dec.any (f + 1) d = some r) ∧
    (∀ n acc d r, Dec.array f n acc d = some r → Dec.array (f + 1) n acc d = some r) ∧
    (∀ n m d r, Dec.map f n m d = some r → Dec.map (f + 1) n m d = some r) := by
  induction f with
  | zero => simp [Dec.any, Dec.array, Dec.map]
  | succ f ih =>
    obtain ⟨ha, hl, hm⟩ := ih
    refine ⟨?_, ?_, ?_⟩
    · intro d r h
      rw [Dec.any] at h ⊢
      rcases hh : Dec.anyHead d with ⟨_ | _ | _, d'⟩
      · rename_i s
        rw [hh] at h
        cases s with
        | val v => exact h
        | arr n => exact hl _ _ _ _ h
        | map n => exact hm _ _ _ _ h
      · rw [hh] at h; exact h
      · rw [hh] at h; exact h
    · intro n acc d r h
      cases n with
      | zero => rw [Dec.array] at h ⊢; exact h
      | succ n =>
        rw [Dec.array] at h ⊢
        cases hx : Dec.any f d with
        | none => simp [hx] at h
        | some y =>
          rw [ha _ _ hx]
          rw [hx] at h
          obtain ⟨y, d'⟩ := y
          cases y with
          | ok v => exact hl _ _ _ _ h
          | err e => exact h
          | panic => exact h
    · intro n m d r h
      cases n with
      | zero => rw [Dec.map] at h ⊢; exact h
      | succ n =>
        rw [Dec.map] at h ⊢
        cases hx : Dec.any f d with
        | none => simp [hx] at h
        | some y =>
          rw [ha _ _ hx]
          rw [hx] at h
          obtain ⟨y, d'⟩ := y
          cases y with
          | err e => exact h
          | panic => exact h
          | ok k =>
            dsimp only at h ⊢
            cases hz : Dec.any f d' with
            | none => simp [hz] at h
            | some z =>
              rw [ha _ _ hz]
              rw [hz] at h
              obtain ⟨z, d2⟩ := z
              cases z with
              | err e => exact h
              | panic => exact h
              | ok v =>
                dsimp only at h ⊢
                split at h
                · rw [if_pos ‹_›]; exact h
                · rw [if_neg ‹_›]; exact hm _ _ _ _ h

theorem any_mono {f g : Nat} (hfg : f ≤ g) {d : D} {r} (h : Dec.any f d = some r) : Dec.any g d = some r := by
  induction hfg with
  | refl => exact h
  | step _ ih => exact (any_mono1 _).1 _ _ ih

theorem array_mono {f g : Nat} (hfg : f ≤ g) {n acc} {d : D} {r} (h : Dec.array f n acc d = some r) :
    Dec.array g n acc d = some r := by
  induction hfg with
  | refl => exact h
  | step _ ih => exact (any_mono1 _).2.1 _ _ _ _ ih

theorem map_mono {f g : Nat} (hfg : f ≤ g) {n m} {d : D} {r} (h : Dec.map f n m d = some r) :
    Dec.map g n m d = some r := by
  induction hfg with
  | refl => exact h
  | step _ ih => exact (any_mono1 _).2.2 _ _ _ _ ih

theorem skip_mono1 (f : Nat) :
    (∀ d r, Dec.skip f d = some r → Dec.skip (f + 1) d = some r) ∧
    (∀ n d r, Dec.skipN f n d = some r → Dec.skipN (f + 1) n d = some r) := by
  induction f with
  | zero => simp [Dec.skip, Dec.skipN]
  | succ f ih =>
    obtain ⟨ha, hl⟩ := ih
    refine ⟨?_, ?_⟩
    · intro d r h
      rw [Dec.skip] at h ⊢
      rcases hh : Dec.getSize d with ⟨_ | _ | _, d'⟩
      · rw [hh] at h; exact hl _ _ _ h
      · rw [hh] at h; exact h
      · rw [hh] at h; exact h
    · intro n d r h
      cases n with
      | zero => rw [Dec.skipN] at h ⊢; exact h
      | succ n =>
        rw [Dec.skipN] at h ⊢
        cases hx : Dec.skip f d with
        | none => simp [hx] at h
        | some y =>
          rw [ha _ _ hx]
          rw [hx] at h
          obtain ⟨y, d'⟩ := y
          cases y with
          | ok v => exact hl _ _ _ h
          | err e => exact h
          | panic => exact h

theorem skip_mono {f g : Nat} (hfg : f ≤ g) {d : D} {r} (h : Dec.skip f d = some r) : Dec.skip g d = some r := by
  induction hfg with
  | refl => exact h
  | step _ ih => exact (skip_mono1 _).1 _ _ ih

theorem skipN_mono {f g : Nat} (hfg : f ≤ g) {n} {d : D} {r} (h : Dec.skipN f n d = some r) :
    Dec.skipN g n d = some r := by
  induction hfg with
  | refl => exact h
  | step _ ih => exact (skip_mono1 _).2 _ _ _ ih

/-! ### headers -/

theorem reads_leaf {α : Type} {f : α → Any} {r : Rd α} {bs : Bytes} {a : α} (h : Reads r bs a) :
    Reads (Dec.leaf f r) bs (.val (f a)) := Reads.bind_pure h (Reads.pure _)

theorem reads_arrN {r : Rd Nat} {bs : Bytes} {a : Nat} (h : Reads r bs a) :
    Reads (Dec.arrN r) bs (.arr a) := Reads.bind_pure h (Reads.pure _)

theorem reads_mapN {r : Rd Nat} {bs : Bytes} {a : Nat} (h : Reads r bs a) :
    Reads (Dec.mapN r) bs (.map a) := Reads.bind_pure h (Reads.pure _)

theorem toNat_add (c : UInt8) (n : Nat) (h : c.toNat + n < 256) : (c + UInt8.ofNat n).toNat = c.toNat + n := by
  rw [UInt8.toNat_add, UInt8.toNat_ofNat']
  omega

theorem cases3 {j : Nat} (h : j < 3) : j = 0 ∨ j = 1 ∨ j = 2 := by omega
theorem cases4 {j : Nat} (h : j < 4) : j = 0 ∨ j = 1 ∨ j = 2 ∨ j = 3 := by omega

theorem anyHead_str {s h : Bytes} (hh : StrHead s.length h) : Reads Dec.anyHead (h ++ s) (.val (.str s)) := by
  cases hh with
  | fix hn =>
    refine reads_head (c := 0xa0 + UInt8.ofNat s.length) (cs := s) ?_
    have e : (0xa0 + UInt8.ofNat s.length).toNat = 160 + s.length := toNat_add _ _ (by simp; omega)
    have h1 : isFixedInt (160 + s.length) = false := by unfold isFixedInt; simp; omega
    have h2 : isNegativeFixedInt (160 + s.length) = false := by unfold isNegativeFixedInt; simp; omega
    have h3 : isFixedString (160 + s.length) = true := by unfold isFixedString; simp; omega
    have h4 : (160 + s.length) % 32 = s.length := by omega
    rw [e, h1, h2, h3, h4]
    exact reads_leaf (reads_getBytes s)
  | len hj hn =>
    rcases cases3 hj with rfl | rfl | rfl
    · exact reads_head (f := fun p => _) (reads_leaf (f := Any.str) (r := getU 1 >>= getBytes)
        (Reads.bind (reads_getU_be 1 _ (by simpa using hn)) (reads_getBytes s)))
    · exact reads_head (f := fun p => _) (reads_leaf (f := Any.str) (r := getU 2 >>= getBytes)
        (Reads.bind (reads_getU_be 2 _ (by simpa using hn)) (reads_getBytes s)))
    · exact reads_head (f := fun p => _) (reads_leaf (f := Any.str) (r := getU 4 >>= getBytes)
        (Reads.bind (reads_getU_be 4 _ (by simpa using hn)) (reads_getBytes s)))

theorem anyHead_bin {s h : Bytes} (hh : BinHead s.length h) : Reads Dec.anyHead (h ++ s) (.val (.bytes s)) := by
  cases hh with
  | len hj hn =>
    rcases cases3 hj with rfl | rfl | rfl
    · exact reads_head (f := fun p => _) (reads_leaf (f := Any.bytes) (r := getU 1 >>= getBytes)
        (Reads.bind (reads_getU_be 1 _ (by simpa using hn)) (reads_getBytes s)))
    · exact reads_head (f := fun p => _) (reads_leaf (f := Any.bytes) (r := getU 2 >>= getBytes)
        (Reads.bind (reads_getU_be 2 _ (by simpa using hn)) (reads_getBytes s)))
    · exact reads_head (f := fun p => _) (reads_leaf (f := Any.bytes) (r := getU 4 >>= getBytes)
        (Reads.bind (reads_getU_be 4 _ (by simpa using hn)) (reads_getBytes s)))

theorem anyHead_arr {n : Nat} {h : Bytes} (hh : ArrHead n h) : Reads Dec.anyHead h (.arr n) := by
  cases hh with
  | fix hn =>
    refine reads_head (c := 0x90 + UInt8.ofNat n) (cs := []) ?_
    have e : (0x90 + UInt8.ofNat n).toNat = 144 + n := toNat_add _ _ (by simp; omega)
    have h1 : isFixedInt (144 + n) = false := by unfold isFixedInt; simp; omega
    have h2 : isNegativeFixedInt (144 + n) = false := by unfold isNegativeFixedInt; simp; omega
    have h3 : isFixedString (144 + n) = false := by unfold isFixedString; simp; omega
    have h4 : isFixedArray (144 + n) = true := by unfold isFixedArray; simp; omega
    have h5 : (144 + n) % 16 = n := by omega
    rw [e, h1, h2, h3, h4, h5]
    exact Reads.pure _
  | a16 hn =>
    exact reads_head (f := fun p => _) (reads_arrN (r := getU 2) (reads_getU_be 2 _ (by simpa using hn)))
  | a32 hn =>
    exact reads_head (f := fun p => _) (reads_arrN (r := getU 4) (reads_getU_be 4 _ (by simpa using hn)))

theorem anyHead_map {n : Nat} {h : Bytes} (hh : MapHead n h) : Reads Dec.anyHead h (.map n) := by
  cases hh with
  | fix hn =>
    refine reads_head (c := 0x80 + UInt8.ofNat n) (cs := []) ?_
    have e : (0x80 + UInt8.ofNat n).toNat = 128 + n := toNat_add _ _ (by simp; omega)
    have h1 : isFixedInt (128 + n) = false := by unfold isFixedInt; simp
    have h2 : isNegativeFixedInt (128 + n) = false := by unfold isNegativeFixedInt; simp; omega
    have h3 : isFixedString (128 + n) = false := by unfold isFixedString; simp; omega
    have h4 : isFixedArray (128 + n) = false := by unfold isFixedArray; simp; omega
    have h5 : isFixedMap (128 + n) = true := by unfold isFixedMap; simp; omega
    have h6 : (128 + n) % 16 = n := by omega
    rw [e, h1, h2, h3, h4, h5, h6]
    exact Reads.pure _
  | m16 hn =>
    exact reads_head (f := fun p => _) (reads_mapN (r := getU 2) (reads_getU_be 2 _ (by simpa using hn)))
  | m32 hn =>
    exact reads_head (f := fun p => _) (reads_mapN (r := getU 4) (reads_getU_be 4 _ (by simpa using hn)))

theorem anyHead_posfix {n : Nat} (h : n < 128) :
    Reads Dec.anyHead [UInt8.ofNat n] (.val (.int .i64 n)) := by
  refine reads_head1 ?_
  have e : (UInt8.ofNat n).toNat = n := by simp; omega
  have h1 : isFixedInt n = true := by unfold isFixedInt; simp; omega
  have h2 : toS 1 n = n := by unfold toS; simp; omega
  rw [e, h1, h2]; rfl

theorem anyHead_negfix {n : Nat} (h : 1 ≤ n ∧ n ≤ 32) :
    Reads Dec.anyHead [UInt8.ofNat (256 - n)] (.val (.int .i64 (-n))) := by
  refine reads_head1 ?_
  have e : (UInt8.ofNat (256 - n)).toNat = 256 - n := by simp; omega
  have h1 : isNegativeFixedInt (256 - n) = true := by unfold isNegativeFixedInt; simp; omega
  have h2 : toS 1 (256 - n) = -n := by unfold toS; simp; omega
  rw [e, h1, h2, Bool.or_true]; rfl

theorem anyHead_uint {n j : Nat} (hj : j < 4) (h : n < 256 ^ 2 ^ j) :
    ∃ k, Reads Dec.anyHead (num 0xcc j n) (.val (.uint k n)) := by
  rcases cases4 hj with rfl | rfl | rfl | rfl
  · exact ⟨.u8, reads_head (f := fun p => _) (reads_leaf (r := getU 1) (reads_getU_be 1 n (by simpa using h)))⟩
  · exact ⟨.u16, reads_head (f := fun p => _) (reads_leaf (r := getU 2) (reads_getU_be 2 n (by simpa using h)))⟩
  · exact ⟨.u32, reads_head (f := fun p => _) (reads_leaf (r := getU 4) (reads_getU_be 4 n (by simpa using h)))⟩
  · exact ⟨.u64, reads_head (f := fun p => _) (reads_leaf (r := getU 8) (reads_getU_be 8 n (by simpa using h)))⟩

theorem anyHead_int {i : Int} {j : Nat} (hj : j < 4) (h : -2 ^ (8 * 2 ^ j - 1) ≤ i ∧ i < 2 ^ (8 * 2 ^ j - 1)) :
    ∃ k, Reads Dec.anyHead (num 0xd0 j (twos (2 ^ j) i)) (.val (.int k i)) := by
  have hk : (2:Nat) ^ j = 1 ∨ 2 ^ j = 2 ∨ 2 ^ j = 4 ∨ 2 ^ j = 8 := by
    rcases cases4 hj with rfl | rfl | rfl | rfl <;> simp
  rw [← twos_toU hk i h]
  have hr := reads_getS hk i h
  rcases cases4 hj with rfl | rfl | rfl | rfl
  · exact ⟨.i8, reads_head (f := fun p => _) (reads_leaf (r := getS 1) hr)⟩
  · exact ⟨.i16, reads_head (f := fun p => _) (reads_leaf (r := getS 2) hr)⟩
  · exact ⟨.i32, reads_head (f := fun p => _) (reads_leaf (r := getS 4) hr)⟩
  · exact ⟨.i64, reads_head (f := fun p => _) (reads_leaf (r := getS 8) hr)⟩

/-! ### ReadAny -/

theorem run_leaf {bs : Bytes} {w : Any} (h : Reads Dec.anyHead bs (.val w)) : ReadsRun Dec.any bs w :=
  ⟨1, fun pre rest hlt => by rw [Dec.any, h pre rest hlt]⟩

theorem hashable {k : Any} (h : keyVal (den k)) : Dec.unhashable k = false := by
  cases k <;> simp_all [den, keyVal, Dec.unhashable]

theorem keyEq_den {k k' : Any} (h : keyVal (den k)) (he : Dec.keyEq k' k = true) : den k' = den k := by
  cases k <;> cases k' <;> simp_all [den, keyVal, Dec.keyEq]

theorem mapSet_new (m : List (Any × Any)) (k v : Any) (h : keyVal (den k))
    (hn : ∀ p ∈ m, den p.1 ≠ den k) : Dec.mapSet m k v = m ++ [(k, v)] := by
  induction m with
  | nil => rfl
  | cons p m ih =>
    obtain ⟨k', v'⟩ := p
    rw [Dec.mapSet]
    have : ¬ Dec.keyEq k' k = true := fun he => hn (k', v') List.mem_cons_self (keyEq_den h he)
    rw [if_neg this, ih fun p hp => hn p (List.mem_cons_of_mem _ hp)]
    rfl

theorem denA_append (a b : List (Any × Any)) : denA (a ++ b) = denA a ++ denA b := by
  induction a with
  | nil => rfl
  | cons p a ih => obtain ⟨k, v⟩ := p; simp [denA, ih]

theorem denA_keys (m : List (Any × Any)) : (denA m).map (·.1) = m.map (fun p => den p.1) := by
  induction m with
  | nil => rfl
  | cons p a ih => obtain ⟨k, v⟩ := p; simp [denA, ih]

/-- The elements of an array. -/
def RunArr (bs : Bytes) (ws : List Any) : Prop :=
  ∃ fuel, ∀ acc (pre rest : Bytes), (pre ++ bs ++ rest).length < 2 ^ 32 →
    Dec.array fuel ws.length acc ⟨pre ++ bs ++ rest, pre.length, false⟩ =
      some (.ok (.anys (acc.reverse ++ ws)), ⟨pre ++ bs ++ rest, pre.length + bs.length, false⟩)

/-- The entries of a map, of which the keys are new. -/
def RunMap (bs : Bytes) (ws : List (Any × Any)) : Prop :=
  ∃ fuel, ∀ m (pre rest : Bytes), (pre ++ bs ++ rest).length < 2 ^ 32 →
    ((denA (m ++ ws)).map (·.1)).Nodup →
    Dec.map fuel ws.length m ⟨pre ++ bs ++ rest, pre.length, false⟩ =
      some (.ok (.mapAA (m ++ ws)), ⟨pre ++ bs ++ rest, pre.length + bs.length, false⟩)

theorem runArr_cons {a b : Bytes} {w : Any} {ws : List Any} (h : ReadsRun Dec.any a w) (hs : RunArr b ws) :
    RunArr (a ++ b) (w :: ws) := by
  obtain ⟨f, hf⟩ := h
  obtain ⟨g, hg⟩ := hs
  refine ⟨max f g + 1, fun acc pre rest hlt => ?_⟩
  have h1 := any_mono (Nat.le_max_left f g) (hf pre (b ++ rest) (by simpa using hlt))
  have h2 := array_mono (Nat.le_max_right f g) (hg (w :: acc) (pre ++ a) rest (by simpa using hlt))
  simp only [List.append_assoc, List.length_append, List.length_cons] at h1 h2 ⊢
  rw [Dec.array, h1]
  simp only
  rw [h2]
  simp [Nat.add_assoc]

theorem runMap_cons {a b c : Bytes} {k w : Any} {ws : List (Any × Any)} (hk : ReadsRun Dec.any a k)
    (hkv : keyVal (den k)) (h : ReadsRun Dec.any b w) (hs : RunMap c ws) :
    RunMap (a ++ (b ++ c)) ((k, w) :: ws) := by
  obtain ⟨e, he⟩ := hk
  obtain ⟨f, hf⟩ := h
  obtain ⟨g, hg⟩ := hs
  refine ⟨max e (max f g) + 1, fun m pre rest hlt hnd => ?_⟩
  have h0 := any_mono (g := max e (max f g)) (by omega) (he pre (b ++ c ++ rest) (by simpa using hlt))
  have h1 := any_mono (g := max e (max f g)) (by omega) (hf (pre ++ a) (c ++ rest) (by simpa using hlt))
  have h2 := map_mono (g := max e (max f g)) (by omega)
    (hg (m ++ [(k, w)]) (pre ++ a ++ b) rest (by simpa using hlt) (by simpa using hnd))
  simp only [List.append_assoc, List.length_append, List.length_cons, Nat.add_assoc] at h0 h1 h2 ⊢
  rw [Dec.map, h0]
  simp only
  rw [h1]
  simp only
  rw [hashable hkv, mapSet_new m k w hkv]
  · simp only [Bool.false_eq_true, if_false]
    rw [h2]
    simp [Nat.add_assoc]
  · intro p hp heq
    rw [denA_keys, List.map_append, List.nodup_append] at hnd
    exact hnd.2.2 _ (List.mem_map_of_mem hp) _ (by simp) heq

mutual
theorem any_reads {E} : {v : Val} → {bs : Bytes} → Wire E v bs → Readable v →
    ∃ w, ReadsRun Dec.any bs w ∧ den w = v
  | _, _, .nil, _ => ⟨.nil, run_leaf (reads_head1 rfl), rfl⟩
  | _, _, .false, _ => ⟨.bool false, run_leaf (reads_head1 rfl), rfl⟩
  | _, _, .true, _ => ⟨.bool true, run_leaf (reads_head1 rfl), rfl⟩
  | _, _, .posfix (n := n) h, _ => ⟨.int .i64 n, run_leaf (anyHead_posfix h), rfl⟩
  | _, _, .negfix (n := n) h, _ => ⟨.int .i64 (-n), run_leaf (anyHead_negfix h), rfl⟩
  | _, _, .uint (n := n) hj h, _ =>
    let ⟨k, hk⟩ := anyHead_uint hj h
    ⟨.uint k n, run_leaf hk, rfl⟩
  | _, _, .int (i := i) hj h, _ =>
    let ⟨k, hk⟩ := anyHead_int hj h
    ⟨.int k i, run_leaf hk, rfl⟩
  | _, _, .f32 (n := n) h, _ => ⟨.f32 n, run_leaf (reads_head (f := fun p => _)
      (reads_leaf (r := getU 4) (reads_getU_be 4 n (by simpa using h)))), rfl⟩
  | _, _, .f64 (n := n) h, _ => ⟨.f64 n, run_leaf (reads_head (f := fun p => _)
      (reads_leaf (r := getU 8) (reads_getU_be 8 n (by simpa using h)))), rfl⟩
  | _, _, .str (s := s) hh, _ => ⟨.str s, run_leaf (anyHead_str hh), rfl⟩
  | _, _, .bin (s := s) hh, _ => ⟨.bytes s, run_leaf (anyHead_bin hh), rfl⟩
  | _, _, .arr (l := l) (h := h) (b := b) hh hb, hr => by
    obtain ⟨ws, ⟨f, hf⟩, hd⟩ := arr_reads hb (by simpa [Readable] using hr)
    have hlen : l.length = ws.length := by rw [← hd, dens_length]
    refine ⟨.anys ws, ⟨f + 1, fun pre rest hlt => ?_⟩, by simp [den, hd]⟩
    have h1 := anyHead_arr hh pre (b ++ rest) (by simpa using hlt)
    have h2 := hf [] (pre ++ h) rest (by simpa using hlt)
    simp only [List.append_assoc, List.length_append] at h1 h2 ⊢
    rw [Dec.any, h1]
    simp only
    rw [hlen, h2]
    simp [Nat.add_assoc]
  | _, _, .map (l := l) (h := h) (b := b) hh hb, hr => by
    simp only [Readable] at hr
    obtain ⟨ws, ⟨f, hf⟩, hd⟩ := map_reads hb hr.1
    have hlen : l.length = ws.length := by rw [← hd, denA_length]
    refine ⟨.mapAA ws, ⟨f + 1, fun pre rest hlt => ?_⟩, by simp [den, hd]⟩
    have h1 := anyHead_map hh pre (b ++ rest) (by simpa using hlt)
    have h2 := hf [] (pre ++ h) rest (by simpa using hlt) (by rw [List.nil_append, hd]; exact hr.2)
    simp only [List.append_assoc, List.length_append] at h1 h2 ⊢
    rw [Dec.any, h1]
    simp only
    rw [hlen, h2]
    simp [Nat.add_assoc]
  | _, _, .ext _ _, hr => absurd hr (by simp [Readable])

theorem arr_reads {E} : {l : List Val} → {bs : Bytes} → Wires E l bs → Readables l →
    ∃ ws, RunArr bs ws ∧ dens ws = l
  | _, _, .nil, _ => ⟨[], ⟨1, fun acc pre rest _ => by simp [Dec.array]⟩, rfl⟩
  | _, _, .cons hv hl, hr => by
    simp only [Readables] at hr
    obtain ⟨w, h1, h2⟩ := any_reads hv hr.1
    obtain ⟨ws, h3, h4⟩ := arr_reads hl hr.2
    exact ⟨w :: ws, runArr_cons h1 h3, by simp [dens, h2, h4]⟩

theorem map_reads {E} : {l : List (Val × Val)} → {bs : Bytes} → WirePairs E l bs → ReadableP l →
    ∃ ws, RunMap bs ws ∧ denA ws = l
  | _, _, .nil, _ => ⟨[], ⟨1, fun acc pre rest _ _ => by simp [Dec.map]⟩, rfl⟩
  | _, _, .cons (k := kv) hk hv hl, hr => by
    simp only [ReadableP] at hr
    have hrk : Readable kv := by
      have := hr.1
      cases kv <;> simp_all [keyVal, Readable]
    obtain ⟨k, h1, h2⟩ := any_reads hk hrk
    obtain ⟨w, h3, h4⟩ := any_reads hv hr.2.1
    obtain ⟨ws, h5, h6⟩ := map_reads hl hr.2.2
    exact ⟨(k, w) :: ws, runMap_cons h1 (h2 ▸ hr.1) h3 h5, by simp [denA, h2, h4, h6]⟩
end

/-! ### Skip -/

theorem wire_pos {E v bs} (h : Wire E v bs) : 1 ≤ bs.length := by
  cases h with
  | str hh => cases hh <;> simp [num] <;> omega
  | bin hh => cases hh <;> simp [num] <;> omega
  | arr hh _ => cases hh <;> simp <;> omega
  | map hh _ => cases hh <;> simp <;> omega
  | ext _ _ => simp; omega
  | _ => simp [num]

theorem wirePairs_length {E} : {l : List (Val × Val)} → {bs : Bytes} → WirePairs E l bs → 2 * l.length ≤ bs.length
  | _, _, .nil => by simp
  | _, _, .cons hk hv hl => by
    have h1 := wire_pos hk
    have h2 := wire_pos hv
    have h3 := wirePairs_length hl
    simp; omega

/-- `n` values are skipped. -/
def RunSkip (bs : Bytes) (n : Nat) : Prop :=
  ∃ fuel, ∀ (pre rest : Bytes), (pre ++ bs ++ rest).length < 2 ^ 32 →
    Dec.skipN fuel n ⟨pre ++ bs ++ rest, pre.length, false⟩ =
      some (.ok (), ⟨pre ++ bs ++ rest, pre.length + bs.length, false⟩)

theorem runSkip_cons {a b : Bytes} {n : Nat} (h : ReadsRun Dec.skip a ()) (hs : RunSkip b n) :
    RunSkip (a ++ b) (n + 1) := by
  obtain ⟨f, hf⟩ := h
  obtain ⟨g, hg⟩ := hs
  refine ⟨max f g + 1, fun pre rest hlt => ?_⟩
  have h1 := skip_mono (Nat.le_max_left f g) (hf pre (b ++ rest) (by simpa using hlt))
  have h2 := skipN_mono (Nat.le_max_right f g) (hg (pre ++ a) rest (by simpa using hlt))
  simp only [List.append_assoc, List.length_append, Nat.add_assoc] at h1 h2 ⊢
  rw [Dec.skipN, h1]
  simp only
  rw [h2]

/-- A header followed by `n` values. -/
theorem runSkip_head {h b : Bytes} {n : Nat} (hh : (h ++ b).length < 2 ^ 32 → Reads Dec.getSize h n)
    (hs : RunSkip b n) : ReadsRun Dec.skip (h ++ b) () := by
  obtain ⟨g, hg⟩ := hs
  refine ⟨g + 1, fun pre rest hlt => ?_⟩
  have h1 := hh (by simp at hlt ⊢; omega) pre (b ++ rest) (by simpa using hlt)
  have h2 := hg (pre ++ h) rest (by simpa using hlt)
  simp only [List.append_assoc, List.length_append, Nat.add_assoc] at h1 h2 ⊢
  rw [Dec.skip, h1]
  simp only
  rw [h2]

theorem runSkip_nil : RunSkip [] 0 := ⟨1, fun pre rest _ => by simp [Dec.skipN]⟩

theorem run_size {bs : Bytes} (h : Reads Dec.getSize bs 0) : ReadsRun Dec.skip bs () := by
  have := runSkip_head (h := bs) (b := []) (fun _ => h) runSkip_nil
  simpa using this

/-- `d.reader.Discard(k)` with its error ignored, then 0. -/
theorem reads_disc (bs : Bytes) (n : Nat) (h : n = bs.length) :
    Reads (do ignore (Iota.Msgpack.discard n); return 0 : Rd Nat) bs 0 := by
  subst h
  exact Reads.bind_pure (reads_discard bs).ignore (Reads.pure _)

theorem reads_lenDisc (k : Nat) (s : Bytes) (h : s.length < 256 ^ k) :
    Reads (do let n ← getU k; Iota.Msgpack.discard n; return 0 : Rd Nat) (beBytes k s.length ++ s) 0 := by
  refine Reads.bind (reads_getU_be k _ h) ?_
  exact Reads.bind_pure (reads_discard s) (Reads.pure _)

theorem size_str {s h : Bytes} (hh : StrHead s.length h) : Reads Dec.getSize (h ++ s) 0 := by
  cases hh with
  | fix hn =>
    refine reads_head (c := 0xa0 + UInt8.ofNat s.length) (cs := s) ?_
    have e : (0xa0 + UInt8.ofNat s.length).toNat = 160 + s.length := toNat_add _ _ (by simp; omega)
    have h1 : isFixedInt (160 + s.length) = false := by unfold isFixedInt; simp; omega
    have h2 : isNegativeFixedInt (160 + s.length) = false := by unfold isNegativeFixedInt; simp; omega
    have h3 : isFixedString (160 + s.length) = true := by unfold isFixedString; simp; omega
    have h4 : (160 + s.length) % 32 = s.length := by omega
    rw [e, h1, h2, h3, h4]
    exact reads_disc s _ rfl
  | len hj hn =>
    rcases cases3 hj with rfl | rfl | rfl
    · exact reads_head (f := fun p => _) (reads_lenDisc 1 s (by simpa using hn))
    · exact reads_head (f := fun p => _) (reads_lenDisc 2 s (by simpa using hn))
    · exact reads_head (f := fun p => _) (reads_lenDisc 4 s (by simpa using hn))

theorem size_bin {s h : Bytes} (hh : BinHead s.length h) : Reads Dec.getSize (h ++ s) 0 := by
  cases hh with
  | len hj hn =>
    rcases cases3 hj with rfl | rfl | rfl
    · exact reads_head (f := fun p => _) (reads_lenDisc 1 s (by simpa using hn))
    · exact reads_head (f := fun p => _) (reads_lenDisc 2 s (by simpa using hn))
    · exact reads_head (f := fun p => _) (reads_lenDisc 4 s (by simpa using hn))

theorem size_arr {n : Nat} {h : Bytes} (hh : ArrHead n h) : Reads Dec.getSize h n := by
  cases hh with
  | fix hn =>
    refine reads_head (c := 0x90 + UInt8.ofNat n) (cs := []) ?_
    have e : (0x90 + UInt8.ofNat n).toNat = 144 + n := toNat_add _ _ (by simp; omega)
    have h1 : isFixedInt (144 + n) = false := by unfold isFixedInt; simp; omega
    have h2 : isNegativeFixedInt (144 + n) = false := by unfold isNegativeFixedInt; simp; omega
    have h3 : isFixedString (144 + n) = false := by unfold isFixedString; simp; omega
    have h4 : isFixedArray (144 + n) = true := by unfold isFixedArray; simp; omega
    have h5 : (144 + n) % 16 = n := by omega
    rw [e, h1, h2, h3, h4, h5]
    exact Reads.pure _
  | a16 hn => exact reads_head (f := fun p => _) (reads_getU_be 2 _ (by simpa using hn))
  | a32 hn => exact reads_head (f := fun p => _) (reads_getU_be 4 _ (by simpa using hn))

theorem size_map {n : Nat} {h : Bytes} (hh : MapHead n h) (h2n : 2 * n < 2 ^ 32) :
    Reads Dec.getSize h (2 * n) := by
  cases hh with
  | fix hn =>
    refine reads_head (c := 0x80 + UInt8.ofNat n) (cs := []) ?_
    have e : (0x80 + UInt8.ofNat n).toNat = 128 + n := toNat_add _ _ (by simp; omega)
    have h1 : isFixedInt (128 + n) = false := by unfold isFixedInt; simp
    have h2 : isNegativeFixedInt (128 + n) = false := by unfold isNegativeFixedInt; simp; omega
    have h3 : isFixedString (128 + n) = false := by unfold isFixedString; simp; omega
    have h4 : isFixedArray (128 + n) = false := by unfold isFixedArray; simp; omega
    have h5 : isFixedMap (128 + n) = true := by unfold isFixedMap; simp; omega
    have h6 : (128 + n) % 16 = n := by omega
    rw [e, h1, h2, h3, h4, h5, h6]
    exact Reads.pure _
  | m16 hn =>
    have : Reads (do let n ← getU 2; return 2 * n : Rd Nat) (beBytes 2 n) (2 * n) :=
      Reads.bind_pure (reads_getU_be 2 _ (by simpa using hn)) (Reads.pure _)
    exact reads_head (f := fun p => _) this
  | m32 hn =>
    have : Reads (do let n ← getU 4; return 2 * n % U32 : Rd Nat) (beBytes 4 n) (2 * n) := by
      refine Reads.bind_pure (reads_getU_be 4 _ (by simpa using hn)) ?_
      have e : 2 * n % U32 = 2 * n := Nat.mod_eq_of_lt (by unfold U32; omega)
      rw [e]
      exact Reads.pure _
    exact reads_head (f := fun p => _) this

theorem size_ext {b : UInt8} {s h : Bytes} (hh : FixHead s.length h) : Reads Dec.getSize (h ++ (b :: s)) 0 := by
  generalize hn : s.length = n at hh
  cases hh with
  | fix hj =>
    rename_i j
    have : j = 1 ∨ j = 2 ∨ j = 3 ∨ j = 4 := by omega
    rcases this with rfl | rfl | rfl | rfl
    · exact reads_head (f := fun p => _) (reads_disc (b :: s) 3 (by simp [hn]))
    · exact reads_head (f := fun p => _) (reads_disc (b :: s) 5 (by simp [hn]))
    · exact reads_head (f := fun p => _) (reads_disc (b :: s) 9 (by simp [hn]))
    · exact reads_head (f := fun p => _) (reads_disc (b :: s) 17 (by simp [hn]))

theorem size_posfix {n : Nat} (h : n < 128) : Reads Dec.getSize [UInt8.ofNat n] 0 := by
  refine reads_head1 ?_
  have e : (UInt8.ofNat n).toNat = n := by simp; omega
  have h1 : isFixedInt n = true := by unfold isFixedInt; simp; omega
  rw [e, h1, Bool.or_true]; rfl

theorem size_negfix {n : Nat} (h : 1 ≤ n ∧ n ≤ 32) : Reads Dec.getSize [UInt8.ofNat (256 - n)] 0 := by
  refine reads_head1 ?_
  have e : (UInt8.ofNat (256 - n)).toNat = 256 - n := by simp; omega
  have h1 : isNegativeFixedInt (256 - n) = true := by unfold isNegativeFixedInt; simp; omega
  rw [e, h1]; rfl

theorem size_uint {n j : Nat} (hj : j < 4) : Reads Dec.getSize (num 0xcc j n) 0 := by
  rcases cases4 hj with rfl | rfl | rfl | rfl
  · exact reads_head (f := fun p => _) (reads_disc (beBytes 1 n) 1 (by simp))
  · exact reads_head (f := fun p => _) (reads_disc (beBytes 2 n) 2 (by simp))
  · exact reads_head (f := fun p => _) (reads_disc (beBytes 4 n) 4 (by simp))
  · exact reads_head (f := fun p => _) (reads_disc (beBytes 8 n) 8 (by simp))

theorem size_int {n j : Nat} (hj : j < 4) : Reads Dec.getSize (num 0xd0 j n) 0 := by
  rcases cases4 hj with rfl | rfl | rfl | rfl
  · exact reads_head (f := fun p => _) (reads_disc (beBytes 1 n) 1 (by simp))
  · exact reads_head (f := fun p => _) (reads_disc (beBytes 2 n) 2 (by simp))
  · exact reads_head (f := fun p => _) (reads_disc (beBytes 4 n) 4 (by simp))
  · exact reads_head (f := fun p => _) (reads_disc (beBytes 8 n) 8 (by simp))

mutual
theorem skip_reads : {v : Val} → {bs : Bytes} → Wire FixHead v bs → ReadsRun Dec.skip bs ()
  | _, _, .nil => run_size (reads_head1 rfl)
  | _, _, .false => run_size (reads_head1 rfl)
  | _, _, .true => run_size (reads_head1 rfl)
  | _, _, .posfix h => run_size (size_posfix h)
  | _, _, .negfix h => run_size (size_negfix h)
  | _, _, .uint hj _ => run_size (size_uint hj)
  | _, _, .int hj _ => run_size (size_int hj)
  | _, _, .f32 (n := n) _ => run_size (reads_head (f := fun p => _) (reads_disc (beBytes 4 n) 4 (by simp)))
  | _, _, .f64 (n := n) _ => run_size (reads_head (f := fun p => _) (reads_disc (beBytes 8 n) 8 (by simp)))
  | _, _, .str hh => run_size (size_str hh)
  | _, _, .bin hh => run_size (size_bin hh)
  | _, _, .arr hh hb => runSkip_head (fun _ => size_arr hh) (skips_reads hb)
  | _, _, .map hh hb => runSkip_head (fun hlt => size_map hh (by
      have := wirePairs_length hb
      simp at hlt; omega)) (skipP_reads hb)
  | _, _, .ext hh _ => run_size (size_ext hh)

theorem skips_reads : {l : List Val} → {bs : Bytes} → Wires FixHead l bs → RunSkip bs l.length
  | _, _, .nil => runSkip_nil
  | _, _, .cons hv hl => runSkip_cons (skip_reads hv) (skips_reads hl)

theorem skipP_reads : {l : List (Val × Val)} → {bs : Bytes} → WirePairs FixHead l bs → RunSkip bs (2 * l.length)
  | _, _, .nil => runSkip_nil
  | _, _, .cons hk hv hl => runSkip_cons (skip_reads hk) (runSkip_cons (skip_reads hv) (skipP_reads hl))
end

end Iota.Lemmas.Msgpack
