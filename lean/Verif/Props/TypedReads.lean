import Verif.Props.Interop
import Verif.Spec.Foreign

/-!
# C193: the readers of the Go library and the serializations of other writers
-/

namespace Iota.Props.TypedReads
open Iota.Go Iota.Msgpack Iota.Codegen Iota.Calls Iota.Spec.Msgpack Iota.Spec.Codegen Iota.Lemmas.Msgpack Iota.Lemmas.Codegen
open Iota.Props.Interop Iota.Spec.Foreign

/-! ## Each reader -/

theorem reads_bool {b : Bool} {bs : Bytes} (h : Wire ExtHead (.bool b) bs) : Reads Dec.bool bs b := by
  cases h with
  | false => exact reads_head1 rfl
  | true => exact reads_head1 rfl

theorem reads_bytes {s h : Bytes} (hh : BinHead s.length h) : Reads Dec.bytes (h ++ s) s := by
  refine Reads.bind (?_ : Reads Dec.binLen h s.length) (reads_getBytes s)
  cases hh with
  | len hj hn =>
    rcases cases3 hj with rfl | rfl | rfl
    · exact reads_head (f := fun p => _) (reads_getU_be 1 _ (by simpa using hn))
    · exact reads_head (f := fun p => _) (reads_getU_be 2 _ (by simpa using hn))
    · exact reads_head (f := fun p => _) (reads_getU_be 4 _ (by simpa using hn))

theorem reads_f32 (lib : Lib) {n : Nat} {bs : Bytes} (h : Wire ExtHead (.f32 n) bs) : Reads (Dec.f32 lib) bs n := by
  cases h with
  | f32 h => exact reads_head (f := fun p => _) (reads_getU_be 4 _ (by simpa using h))

theorem reads_f64 {n : Nat} {bs : Bytes} (h : Wire ExtHead (.f64 n) bs) : Reads Dec.f64 bs n := by
  cases h with
  | f64 h => exact reads_head (f := fun p => _) (reads_getU_be 8 _ (by simpa using h))

theorem width_cases {j : Nat} (hj : j < 4) : (2 : Nat) ^ j = 1 ∨ 2 ^ j = 2 ∨ 2 ^ j = 4 ∨ 2 ^ j = 8 := by
  rcases cases4 hj with rfl | rfl | rfl | rfl <;> simp

theorem int64_signed {v : Int} {j : Nat} (hj : j < 4) (h : -2 ^ (8 * 2 ^ j - 1) ≤ v ∧ v < 2 ^ (8 * 2 ^ j - 1)) :
    Reads Dec.int64 (num 0xd0 j (twos (2 ^ j) v)) v := by
  rw [← twos_toU (width_cases hj) v h]
  have hr := reads_getS (width_cases hj) v h
  rcases cases4 hj with rfl | rfl | rfl | rfl
  · exact reads_head (f := fun p => _) hr
  · exact reads_head (f := fun p => _) hr
  · exact reads_head (f := fun p => _) hr
  · exact reads_head (f := fun p => _) hr

theorem int64_posfix {n : Nat} (h : n < 128) : Reads Dec.int64 [UInt8.ofNat n] (n : Int) := by
  refine reads_head1 ?_
  have e : (UInt8.ofNat n).toNat = n := by simp; omega
  have h1 : isFixedInt n = true := by unfold isFixedInt; simp; omega
  have h2 : toS 1 n = n := by unfold toS; simp; omega
  rw [e, h1, h2]; rfl

theorem int64_negfix {n : Nat} (h : 1 ≤ n ∧ n ≤ 32) : Reads Dec.int64 [UInt8.ofNat (256 - n)] (-n : Int) := by
  refine reads_head1 ?_
  have e : (UInt8.ofNat (256 - n)).toNat = 256 - n := by simp; omega
  have h1 : isNegativeFixedInt (256 - n) = true := by unfold isNegativeFixedInt; simp; omega
  have h2 : toS 1 (256 - n) = -n := by unfold toS; simp; omega
  rw [e, h1, h2, Bool.or_true]; rfl

/-- A signed integer is read however it is written, except in the unsigned formats. -/
theorem reads_int64 {v : Int} {bs : Bytes} (h : Wire ExtHead (.int v) bs) (hu : ¬ UnsignedFormat bs) : Reads Dec.int64 bs v := by
  cases h with
  | posfix h => exact int64_posfix h
  | negfix h => exact int64_negfix h
  | uint hj h => exact absurd ⟨_, _, hj, h, rfl⟩ hu
  | int hj h => exact int64_signed hj h

theorem nonNeg_reads {v : Nat} {k : Nat} (hk : k = 1 ∨ k = 2 ∨ k = 4 ∨ k = 8) (h : -2 ^ (8 * k - 1) ≤ (v : Int) ∧ (v : Int) < 2 ^ (8 * k - 1)) :
    Reads (Dec.nonNeg k) (beBytes k (toU k v)) v := by
  have hr := reads_getS hk v h
  have hp : Reads (if ((v : Int)) < 0 then Rd.fail "bad prefix for uint" else return (v : Int).toNat) [] v := by
    rw [if_neg (by omega)]
    exact Reads.pure _
  have := Reads.bind (f := fun v : Int => if v < 0 then Rd.fail "bad prefix for uint" else return v.toNat) hr hp
  rw [List.append_nil] at this
  exact this

/-- An unsigned integer is read however it is written. -/
theorem reads_uint64 {v : Nat} {bs : Bytes} (h : Wire ExtHead (.int v) bs) : Reads Dec.uint64 bs v := by
  generalize hi : (v : Int) = i at h
  cases h with
  | posfix h =>
    rename_i n
    obtain rfl : v = n := by omega
    refine reads_head1 ?_
    have e : (UInt8.ofNat v).toNat = v := by simp; omega
    have h1 : isFixedInt v = true := by unfold isFixedInt; simp; omega
    rw [e, h1]; rfl
  | negfix h => omega
  | uint hj h =>
    rename_i n j
    obtain rfl : v = n := by omega
    rcases cases4 hj with rfl | rfl | rfl | rfl
    · exact reads_head (f := fun p => _) (reads_getU_be 1 _ (by simpa using h))
    · exact reads_head (f := fun p => _) (reads_getU_be 2 _ (by simpa using h))
    · exact reads_head (f := fun p => _) (reads_getU_be 4 _ (by simpa using h))
    · exact reads_head (f := fun p => _) (reads_getU_be 8 _ (by simpa using h))
  | int hj h =>
    rename_i j
    subst hi
    rw [← twos_toU (width_cases hj) _ h]
    have hr := nonNeg_reads (width_cases hj) h
    rcases cases4 hj with rfl | rfl | rfl | rfl
    · exact reads_head (f := fun p => _) hr
    · exact reads_head (f := fun p => _) hr
    · exact reads_head (f := fun p => _) hr
    · exact reads_head (f := fun p => _) hr

theorem reads_map {α β : Type} {r : Rd α} {bs : Bytes} {a : α} (g : α → β) (h : Reads r bs a) : Reads (g <$> r) bs (g a) := by
  intro pre rest hlt
  rw [rd_map, h pre rest hlt]

theorem reads_intK {k : Nat} {v : Int} {bs : Bytes} (h : Reads Dec.int64 bs v) (hv : -2 ^ (8 * k - 1) ≤ v ∧ v < 2 ^ (8 * k - 1)) :
    Reads (Dec.intK k) bs v := by
  have hp : Reads (if v ≤ 2 ^ (8 * k - 1) - 1 ∧ v ≥ -2 ^ (8 * k - 1) then return v else Rd.fail "interger overflow") [] v := by
    rw [if_pos (by constructor <;> omega)]
    exact Reads.pure _
  have := Reads.bind (f := fun v => if v ≤ 2 ^ (8 * k - 1) - 1 ∧ v ≥ -2 ^ (8 * k - 1) then return v else Rd.fail "interger overflow") h hp
  rw [List.append_nil] at this
  exact this

theorem reads_uintK {k : Nat} {v : Nat} {bs : Bytes} (h : Reads Dec.uint64 bs v) (hv : v < 2 ^ (8 * k)) : Reads (Dec.uintK k) bs v := by
  have hp : Reads (if v ≤ 2 ^ (8 * k) - 1 then return v else Rd.fail "interger overflow") [] v := by
    rw [if_pos (by omega)]
    exact Reads.pure _
  have := Reads.bind (f := fun v => if v ≤ 2 ^ (8 * k) - 1 then return v else Rd.fail "interger overflow") h hp
  rw [List.append_nil] at this
  exact this

/-! ## C193 -/

/-- **C193** For all primitive types except time, all values of the type and all their serializations, except those of signed
integers in the formats for unsigned ones: the reader of the type reads the value and consumes exactly the serialization. -/
theorem typed_reads_partial (lib : Lib) (p : Prim) (s : Sc) (h : IsPrim Allow.all p s) (ht : p ≠ .time) (bs : Bytes)
    (hw : Wire ExtHead (scVal s) bs) (hu : Signed p → ¬ UnsignedFormat bs) : Reads (readPrim lib p) bs s := by
  cases p <;> cases s <;> simp only [IsPrim] at h <;> simp only [scVal] at hw
  case str.str =>
    cases hw with
    | str hh => exact reads_map Sc.str (reads_str hh)
  case bool.bool => exact reads_map Sc.bool (reads_bool hw)
  case time.time => exact absurd rfl ht
  case i8.int => exact reads_map Sc.int (reads_intK (k := 1) (reads_int64 hw (hu trivial)) (by simpa using h))
  case i16.int => exact reads_map Sc.int (reads_intK (k := 2) (reads_int64 hw (hu trivial)) (by simpa using h))
  case i32.int => exact reads_map Sc.int (reads_intK (k := 4) (reads_int64 hw (hu trivial)) (by simpa using h))
  case i64.int => exact reads_map Sc.int (reads_int64 hw (hu trivial))
  case u8.uint => exact reads_map Sc.uint (reads_uintK (k := 1) (reads_uint64 hw) (by simpa using h))
  case u16.uint => exact reads_map Sc.uint (reads_uintK (k := 2) (reads_uint64 hw) (by simpa using h))
  case u32.uint => exact reads_map Sc.uint (reads_uintK (k := 4) (reads_uint64 hw) (by simpa using h))
  case u64.uint => exact reads_map Sc.uint (reads_uint64 hw)
  case f32.f32 => exact reads_map Sc.f32 (reads_f32 lib hw)
  case f64.f64 => exact reads_map Sc.f64 (reads_f64 hw)
  case bytes.bytes =>
    cases hw with
    | bin hh => exact reads_map Sc.bytes (reads_bytes hh)

/-- **C193** Not so in the formats for unsigned integers: a signed integer that is written in one of them, as a value that is not
negative may be, is refused. -/
theorem signed_refuted (lib : Lib) (p : Prim) (hp : Signed p) (bs : Bytes) (hu : UnsignedFormat bs) :
    Fails (readPrim lib p) (D.new bs) := by
  obtain ⟨j, n, hj, _, rfl⟩ := hu
  have hlen : (num 0xcc j n).length < 2 ^ 32 := by
    simp only [num, List.length_cons, length_beBytes]
    rcases cases4 hj with rfl | rfl | rfl | rfl <;> decide
  have h64 : Fails Dec.int64 (D.new (num 0xcc j n)) := by
    rcases cases4 hj with rfl | rfl | rfl | rfl
    · exact fails_head hlen (m := "bad prefix for int64") rfl
    · exact fails_head hlen (m := "bad prefix for int64") rfl
    · exact fails_head hlen (m := "bad prefix for int64") rfl
    · exact fails_head hlen (m := "bad prefix for int64") rfl
  cases p <;> simp only [Signed] at hp
  case i8 => exact fails_map (fails_bind h64 _) _
  case i16 => exact fails_map (fails_bind h64 _) _
  case i32 => exact fails_map (fails_bind h64 _) _
  case i64 => exact fails_map h64 _

/-- **C193** Every value of a signed type from 0 on that fits has such a serialization. -/
theorem signed_writable (n : Nat) (h : n < 2 ^ 63) : ∃ bs, Wire ExtHead (.int n) bs ∧ UnsignedFormat bs :=
  ⟨num 0xcc 3 n, .uint (by omega) (by simp; omega), 3, n, by omega, by simp; omega, rfl⟩

/-- **C193** So an argument of a primitive type is understood by the reader of a generated type (C133), under the same condition. -/
theorem understood_prim (env : Env) (lib : Lib) (p : Prim) (s : Sc) (h : IsPrim Allow.all p s) (ht : p ≠ .time) (bs : Bytes)
    (hw : Wire ExtHead (scVal s) bs) (hu : Signed p → ¬ UnsignedFormat bs) : Understood env lib (.prim p) (.sc s) bs := by
  refine ⟨1, fun f hf old _ pre rest hlt => ?_⟩
  obtain ⟨g, rfl⟩ : ∃ g, f = g + 1 := ⟨f - 1, by omega⟩
  have := typed_reads_partial lib p s h ht bs hw hu pre rest hlt
  simp only [readTy, lift, rd_map, this]

/-! ## Whole types -/

theorem reads_arraySize {n : Nat} {h : Bytes} (hh : ArrHead n h) : Reads Dec.arraySize h n := by
  cases hh with
  | fix hn =>
    refine reads_head (c := 0x90 + UInt8.ofNat n) (cs := []) ?_
    have e : (0x90 + UInt8.ofNat n).toNat = 144 + n := toNat_add _ _ (by simp; omega)
    have h4 : isFixedArray (144 + n) = true := by unfold isFixedArray; simp; omega
    have h5 : (144 + n) % 16 = n := by omega
    rw [e, h4, h5]
    exact Reads.pure _
  | a16 hn => exact reads_head (f := fun p => _) (reads_getU_be 2 _ (by simpa using hn))
  | a32 hn => exact reads_head (f := fun p => _) (reads_getU_be 4 _ (by simpa using hn))

theorem decode_stamp {b : Bytes} {t : Time} (h : ∀ t', (if b.length = 4 then some (Dec.unix (beNat b) 0)
    else if b.length = 8 then some (Dec.unix (beNat b % 2 ^ 34 : Nat) (beNat b / 2 ^ 34))
    else if b.length = 12 then some (Dec.unix (toS 8 (beNat (b.drop 4))) (beNat (b.take 4))) else none) = some t' → t' = t)
    (hl : b.length = 4 ∨ b.length = 8 ∨ b.length = 12) : Reads (Dec.decodeTime b.length) b t := by
  refine Reads.bind_pure (reads_getBytes _) ?_
  rcases hl with hl | hl | hl
  · rw [if_pos hl]
    rw [if_pos hl] at h
    rw [h _ rfl]
    exact Reads.pure _
  · rw [if_neg (by omega), if_pos hl]
    rw [if_neg (by omega), if_pos hl] at h
    rw [h _ rfl]
    exact Reads.pure _
  · rw [if_neg (by omega), if_neg (by omega), if_pos hl]
    rw [if_neg (by omega), if_neg (by omega), if_pos hl] at h
    rw [h _ rfl]
    exact Reads.pure _

theorem stamp_reads (lib : Lib) {c : UInt8} {cs b : Bytes} {t : Time} (hns : isString c.toNat = false)
    (hr : Reads (Dec.extLen c.toNat) cs b.length) (hd : Reads (Dec.decodeTime b.length) b t) :
    Reads (Dec.time lib) (c :: (cs ++ ([0xff] ++ b))) t := by
  apply Reads.peek
  rw [if_neg (by simp [hns])]
  show Reads (Dec.timeExt c.toNat) _ t
  have hd1 := (reads_discard [c]).ignore
  have hlast : Reads (getU 1 >>= fun id => if toS 1 id ≠ -1 ∧ toS 1 id ≠ 13 then
      Rd.fail "msgpack: invalid time ext id" else Dec.decodeTime b.length) ([0xff] ++ b) t := by
    refine Reads.bind (reads_byte 0xff) ?_
    rw [if_neg (by decide)]
    exact hd
  have := Reads.bind (f := fun _ => Dec.extLen c.toNat >>= fun n => getU 1 >>= fun id =>
    if toS 1 id ≠ -1 ∧ toS 1 id ≠ 13 then
      Rd.fail "msgpack: invalid time ext id" else Dec.decodeTime n) hd1
    (Reads.bind (f := fun n => getU 1 >>= fun id =>
      if toS 1 id ≠ -1 ∧ toS 1 id ≠ 13 then
      Rd.fail "msgpack: invalid time ext id" else Dec.decodeTime n) hr hlast)
  exact this

/-- **C193** A timestamp is read in each of the three formats of MessagePack. -/
theorem timestamp_reads (lib : Lib) (t : Time) (bs : Bytes) (h : Timestamp t bs) : Reads (Dec.time lib) bs t := by
  cases h with
  | t32 h =>
    rename_i s
    refine stamp_reads lib (c := 0xd6) (cs := []) (b := beBytes 4 s) rfl (by rw [length_beBytes]; exact Reads.pure 4)
      (decode_stamp (fun t' ht => ?_) (by simp))
    rw [if_pos (by simp), beNat_beBytes_of_lt (by omega)] at ht
    rw [← Option.some.inj ht]
    exact unix_eq ⟨s, 0⟩ ⟨by simp only [i64]; omega, (by decide : (0 : Nat) < 10 ^ 9)⟩
  | t64 h =>
    rename_i s n
    refine stamp_reads lib (c := 0xd7) (cs := []) (b := beBytes 8 (n * 2 ^ 34 + s)) rfl (by rw [length_beBytes]; exact Reads.pure 8)
      (decode_stamp (fun t' ht => ?_) (by simp))
    rw [if_neg (by simp), if_pos (by simp), beNat_beBytes_of_lt (by omega)] at ht
    rw [← Option.some.inj ht]
    have e1 : (n * 2 ^ 34 + s) % 2 ^ 34 = s := by omega
    have e2 : (n * 2 ^ 34 + s) / 2 ^ 34 = n := by omega
    rw [e1, e2]
    exact unix_eq ⟨s, n⟩ ⟨by simp only [i64]; omega, h.2⟩
  | t96 h =>
    rename_i s n
    have hs := h.1
    unfold i64 at hs
    have e1 : (beBytes 4 n ++ beBytes 8 (twos 8 s)).drop 4 = beBytes 8 (twos 8 s) := by
      rw [List.drop_append_of_le_length (by simp)]; simp [List.drop_of_length_le]
    have e2 : (beBytes 4 n ++ beBytes 8 (twos 8 s)).take 4 = beBytes 4 n := by
      rw [List.take_append_of_le_length (by simp)]; simp [List.take_of_length_le]
    refine stamp_reads lib (c := 0xc7) (cs := [12]) (b := beBytes 4 n ++ beBytes 8 (twos 8 s)) rfl ?_
      (decode_stamp (fun t' ht => ?_) (by simp))
    · have : (beBytes 4 n ++ beBytes 8 (twos 8 s)).length = 12 := by simp
      rw [this]
      show Reads (Dec.uintK 1) [12] 12
      exact Reads.bind_pure (a := 12) (reads_head1 rfl) (Reads.pure 12)
    · rw [if_neg (by simp), if_neg (by simp), if_pos (by simp), e1, e2, ← twos_toU (k := 8) (by simp) s (by simpa using hs),
        beNat_beBytes_of_lt (toU_lt 8 _), beNat_beBytes_of_lt (by omega), toS_toU (k := 8) (by simp) _ (by simpa using hs)] at ht
      rw [← Option.some.inj ht]
      exact unix_eq ⟨s, n⟩ h

theorem timestamp_wire {t : Time} {bs : Bytes} (h : Timestamp t bs) : ∃ b, Wire ExtHead (.ext (-1) b) bs := by
  cases h with
  | t32 h =>
    rename_i s
    exact ⟨beBytes 4 s, .ext (h := [0xd6]) (by rw [length_beBytes]; exact .fix (j := 2) (by decide)) (by decide)⟩
  | t64 h =>
    rename_i s n
    exact ⟨beBytes 8 (n * 2 ^ 34 + s), .ext (h := [0xd7]) (by rw [length_beBytes]; exact .fix (j := 3) (by decide)) (by decide)⟩
  | t96 h =>
    rename_i s n
    have : (beBytes 4 n ++ beBytes 8 (twos 8 s)).length = 12 := by simp
    exact ⟨beBytes 4 n ++ beBytes 8 (twos 8 s), .ext (h := [0xc7, 12]) (by rw [this]; exact .len (n := 12) (j := 0) (by decide) (by decide))
      (by decide)⟩

theorem serPrim_reads {lib : Lib} {p : Prim} {s : Sc} {bs : Bytes} (h : SerPrim p s bs) : Reads (readPrim lib p) bs s := by
  cases h with
  | plain h1 h2 h3 h4 => exact typed_reads_partial lib p s h1 h2 bs h3 h4
  | time h => exact reads_map Sc.time (timestamp_reads lib _ _ h)

theorem serPrim_wire {p : Prim} {s : Sc} {bs : Bytes} (h : SerPrim p s bs) : ∃ x, x ≠ .nil ∧ Wire ExtHead x bs := by
  cases h with
  | plain h1 h2 h3 h4 => exact ⟨_, scVal_ne s, h3⟩
  | time h =>
    obtain ⟨b, hb⟩ := timestamp_wire h
    exact ⟨_, by simp, hb⟩

theorem serPrim_notNil {p : Prim} {s : Sc} {bs : Bytes} (h : SerPrim p s bs) : NotNil bs := by
  obtain ⟨x, hx, hw⟩ := serPrim_wire h
  exact wire_notNil (fun _ _ => extHead_notNil) hw hx

/-- `readTy` reads `v` from `bs`, not inside or inside an optional. -/
def RT (env : Env) (lib : Lib) (t : Ty) (v : GV) (bs : Bytes) : Prop :=
  ∀ b old, (b = false → old = zero env env.length t) → RR False (fun f => readTy env lib f t b old) bs v

theorem step_known {env : Env} {lib : Lib} {i n : Nat} (hw : WellFormed env) {s : Bytes} {t : Ty} {v : GV} {msg : List (Bytes × GV)}
    {h b c : Bytes} {res : GV} (hs : (s, t) ∈ (env.get i).fields) (hh : StrHead s.length h) (hv : RT env lib t v b)
    (hm : s ∉ msg.map (·.1))
    (hc : RR False (fun f => readFields env lib f (env.get i).fields n (fill env (env.get i).fields (msg ++ [(s, v)]))) c res) :
    RR False (fun f => readFields env lib f (env.get i).fields (n + 1) (fill env (env.get i).fields msg)) ((h ++ s) ++ (b ++ c)) res := by
  refine RR.succ (RR.thn (RR.lift (reads_str hh) loc_str) (g := fun f name => match Codegen.find (env.get i).fields name with
    | none => thn (Dec.skip f) fun _ => readFields env lib f (env.get i).fields n (fill env (env.get i).fields msg)
    | some (j, t) =>
      thn (readTy env lib f t false ((fill env (env.get i).fields msg)[j]?.getD .null)) fun v =>
        readFields env lib f (env.get i).fields n ((fill env (env.get i).fields msg).set j v)) ?_) ?_
  · cases hfd : Codegen.find (env.get i).fields s with
    | none => exact absurd (List.mem_map_of_mem (f := (·.1)) hs) (Lemmas.Codegen.find_none hfd)
    | some p =>
      obtain ⟨j, t'⟩ := p
      have hmem' := List.mem_of_getElem? (find_some hfd)
      have ht : t = t' := by
        have hnd := hw.nodup i
        clear hc hfd
        generalize (env.get i).fields = fs at hs hmem' hnd
        induction fs with
        | nil => cases hs
        | cons q fs ih =>
          obtain ⟨a, u⟩ := q
          simp only [names, List.map_cons, List.nodup_cons] at hnd
          simp only [List.mem_cons, Prod.mk.injEq] at hs hmem'
          rcases hs with ⟨rfl, rfl⟩ | hs
          · rcases hmem' with ⟨_, rfl⟩ | hx
            · rfl
            · exact absurd (List.mem_map_of_mem (f := (·.1)) hx) hnd.1
          · rcases hmem' with ⟨rfl, rfl⟩ | hx
            · exact absurd (List.mem_map_of_mem (f := (·.1)) hs) hnd.1
            · exact ih hs hx hnd.2
      subst ht
      rw [← fill_set env _ _ _ _ _ _ hfd (hw.nodup i) hm] at hc
      simp only
      exact RR.thn (hv false _ (fun _ => fill_get env _ _ _ _ _ hfd hm))
        (g := fun f v => readFields env lib f (env.get i).fields n ((fill env (env.get i).fields msg).set j v)) hc
  · intro f; simp only [readFields]; rfl

theorem step_unknown {env : Env} {lib : Lib} {i n : Nat} {s : Bytes} {x : Val} {cur : List GV} {h b c : Bytes} {res : GV}
    (hs : s ∉ names (env.get i).fields) (hh : StrHead s.length h) (hv : Wire FixHead x b)
    (hc : RR False (fun f => readFields env lib f (env.get i).fields n cur) c res) :
    RR False (fun f => readFields env lib f (env.get i).fields (n + 1) cur) ((h ++ s) ++ (b ++ c)) res := by
  refine RR.succ (RR.thn (RR.lift (reads_str hh) loc_str) (g := fun f name => match Codegen.find (env.get i).fields name with
    | none => thn (Dec.skip f) fun _ => readFields env lib f (env.get i).fields n cur
    | some (j, t) =>
      thn (readTy env lib f t false (cur[j]?.getD .null)) fun v =>
        readFields env lib f (env.get i).fields n (cur.set j v)) ?_) ?_
  · rw [Interop.find_none hs]
    exact RR.thn (RR.skip (skip_reads hv) (fun h => h)) (g := fun f _ => readFields env lib f (env.get i).fields n cur) hc
  · intro f; simp only [readFields]; rfl

theorem named_reads {env : Env} {lib : Lib} (hw : WellFormed env) {n : Nat} {bs : Bytes} {x : GV} (hn : NotNil bs)
    (h : RR False (fun f => Codegen.decode env lib f (env.get n).fields (zeros env (env.get n).fields)) bs x) :
    RT env lib (.named n) x bs := by
  intro b old ho
  cases b with
  | false =>
    rw [ho rfl]
    refine RR.succ h ?_
    intro f
    have hz := fieldsOf_zero hw n
    simp only [readTy]
    cases hd : env.get n with
    | struct fs =>
      rw [hd] at hz
      simp only [Def.fields] at hz ⊢
      rw [hz]
    | union fs => simp [Def.fields]
  | true =>
    obtain ⟨f0, hf⟩ := h
    obtain ⟨c, cs, rfl, hc⟩ := hn
    refine RR.succ (r' := fun f => thn (lift Dec.isNextNil) fun b =>
      if b then done .null else Codegen.decode env lib f (env.get n).fields (zeros env (env.get n).fields)) ?_ ?_
    · refine ⟨f0, fun f hle => ⟨fun pre rest hlt => ?_, fun hK => hK.elim⟩⟩
      simp only [thn, Iota.Codegen.lift, isNextNil_false pre c cs rest hc hlt]
      simp only [Bool.false_eq_true, if_false]
      exact (hf f hle).1 pre rest hlt
    · intro f; simp only [readTy]

theorem rt_prim {env : Env} {lib : Lib} {p : Prim} {s : Sc} {bs : Bytes} (h : SerPrim p s bs) : RT env lib (.prim p) (.sc s) bs := by
  intro b old _
  cases b with
  | false =>
    refine RR.succ (RR.lift (reads_map GV.sc (serPrim_reads h)) (loc_map _ (loc_prim lib p))) ?_
    intro f; simp [readTy]
  | true =>
    refine RR.succ (RR.lift (reads_map ptr (nillable_some (serPrim_reads h) (serPrim_notNil h)))
      (loc_map _ (loc_nillable (loc_prim lib p)))) ?_
    intro f; simp [readTy]

theorem rt_cast {env : Env} {lib : Lib} {p : Prim} {s : Sc} {bs : Bytes} (h : SerPrim p s bs) : RT env lib (.cast p) (.sc s) bs := by
  intro b old _
  cases b with
  | false =>
    refine RR.succ (RR.lift (reads_map GV.sc (serPrim_reads h)) (loc_map _ (loc_prim lib p))) ?_
    intro f; simp [readTy]
  | true =>
    refine RR.succ (RR.lift' (castNillable_reads (serPrim_reads (lib := lib) h) (serPrim_notNil h))
      (castNillable_short (serPrim_reads h) (serPrim_notNil h))) ?_
    intro f; simp [readTy]

theorem rt_list {env : Env} {lib : Lib} {t : Ty} {l : List GV} {n : Nat} {h b : Bytes} (hh : Reads Dec.arraySize h n)
    (hb : RR False (fun f => readList env lib f t n []) b (.list l)) : RT env lib (.list t) (.list l) (h ++ b) := by
  intro c old _
  refine RR.succ (RR.thn (RR.lift hh loc_arraySize) (g := fun f n => readList env lib f t n []) hb) ?_
  intro f; cases c <;> simp [readTy]

theorem rt_map {env : Env} {lib : Lib} {k : Prim} {t : Ty} {l : List (Sc × GV)} {n : Nat} {h b : Bytes} (hh : Reads Dec.mapSize h n)
    (hb : RR False (fun f => readMap env lib f k t n []) b (.map l)) : RT env lib (.map k t) (.map l) (h ++ b) := by
  intro c old _
  refine RR.succ (RR.thn (RR.lift hh loc_mapSize) (g := fun f n => readMap env lib f k t n []) hb) ?_
  intro f; cases c <;> simp [readTy]

theorem rt_obj {env : Env} {lib : Lib} (hw : WellFormed env) {i n : Nat} {v : GV} {h b : Bytes} (hh : MapHead n h)
    (hb : RR False (fun f => readFields env lib f (env.get i).fields n (fill env (env.get i).fields [])) b v) :
    RT env lib (.named i) v (h ++ b) := by
  rw [fill_nil] at hb
  exact named_reads hw (NotNil.append (mapHead_notNil hh) _) (RR.succ (RR.thn (RR.lift (reads_mapSize hh) loc_mapSize)
    (g := fun f m => readFields env lib f (env.get i).fields m (zeros env (env.get i).fields)) hb) (fun f => by simp [Codegen.decode]))

theorem rt_none {env : Env} {lib : Lib} {t : Ty} (h : Pointer t) : RT env lib (.opt t) .null [0xc0] := by
  intro b old hx
  clear hx
  cases t <;> simp only [Pointer] at h
  case prim p =>
    refine RR.succ (r' := fun f => readTy env lib f (.prim p) true old)
      (RR.succ (RR.lift (reads_map ptr (nillable_none (readPrim lib p))) (loc_map _ (loc_nillable (loc_prim lib p)))) ?_) ?_
    · intro f; simp [readTy]
    · intro f; simp [readTy]
  case named n =>
    refine RR.cast (RR.succ (r' := fun f => readTy env lib f (.named n) true old)
      (RR.succ (RR.thn (RR.lift nil_enc.2 loc_isNextNil) (g := fun f b => if b then done GV.null else
        Codegen.decode env lib f (env.get n).fields (zeros env (env.get n).fields)) (cs := []) (b := .null) ?_) ?_) ?_) rfl rfl
    · simp only [if_true]
      exact RR.done _
    · intro f; simp only [readTy]
    · intro f; simp [readTy]

theorem rt_some {env : Env} {lib : Lib} {t : Ty} {v : GV} {bs : Bytes} (h : RT env lib t v bs) : RT env lib (.opt t) v bs :=
  fun _ old _ => (h true old (by simp)).succ (fun f => by simp [readTy])

/-- The loops. -/
def RL (env : Env) (lib : Lib) (t : Ty) (l : List GV) (bs : Bytes) : Prop :=
  ∀ acc, RR False (fun f => readList env lib f t l.length acc) bs (.list (acc ++ l))

def RM (env : Env) (lib : Lib) (k : Prim) (t : Ty) (l : List (Sc × GV)) (bs : Bytes) : Prop :=
  (l.map (·.1)).Nodup → ∀ acc, (∀ x ∈ l.map (·.1), x ∉ acc.map (·.1)) →
    RR False (fun f => readMap env lib f k t l.length acc) bs (.map (acc ++ l))

def RF (env : Env) (lib : Lib) (fs : List (Bytes × Ty)) (n : Nat) (m : List (Bytes × GV)) (bs : Bytes) : Prop :=
  ∀ i, (env.get i).fields = fs → (m.map (·.1)).Nodup → ∀ msg, (∀ s ∈ m.map (·.1), s ∉ msg.map (·.1)) →
    RR False (fun f => readFields env lib f (env.get i).fields n (fill env (env.get i).fields msg)) bs
      (.obj (fill env (env.get i).fields (msg ++ m)))

theorem rl_nil {env : Env} {lib : Lib} {t : Ty} : RL env lib t [] [] := fun acc =>
  (RR.done (GV.list acc)).succ (fun f => by simp [readList]) |>.cast rfl (by simp)

theorem rl_cons {env : Env} {lib : Lib} {t : Ty} {v : GV} {l : List GV} {a b : Bytes} (hv : RT env lib t v a) (hl : RL env lib t l b) :
    RL env lib t (v :: l) (a ++ b) := by
  intro acc
  refine RR.cast (RR.succ (RR.thn (hv false _ (fun _ => rfl)) (g := fun f v => readList env lib f t l.length (acc ++ [v]))
    (hl (acc ++ [v]))) ?_) rfl ?_
  · intro f; simp [readList]
  · simp

theorem rm_nil {env : Env} {lib : Lib} {k : Prim} {t : Ty} : RM env lib k t [] [] := fun _ acc _ =>
  (RR.done (GV.map acc)).succ (fun f => by simp [readMap]) |>.cast rfl (by simp)

theorem rm_cons {env : Env} {lib : Lib} {k : Prim} {t : Ty} {s : Sc} {v : GV} {l : List (Sc × GV)} {a b c : Bytes}
    (hk : SerPrim k s a) (hv : RT env lib t v b) (hl : RM env lib k t l c) : RM env lib k t ((s, v) :: l) (a ++ (b ++ c)) := by
  intro hn acc hacc
  simp only [List.map_cons, List.nodup_cons] at hn
  have hs : s ∉ acc.map (·.1) := hacc s (by simp)
  have hy := hl hn.2 (acc ++ [(s, v)]) (by
    intro k' hk'
    simp only [List.map_append, List.map_cons, List.map_nil, List.mem_append, List.mem_singleton, not_or]
    exact ⟨hacc k' (by simp only [List.map_cons, List.mem_cons]; exact .inr hk'), fun e => hn.1 (e ▸ hk')⟩)
  rw [← mapSet_new v hs] at hy
  refine RR.cast (RR.succ (RR.thn (RR.lift (serPrim_reads hk) (loc_prim lib k))
    (g := fun f key => thn (readTy env lib f t false (zero env env.length t)) fun v => readMap env lib f k t l.length (mapSet acc key v))
    (RR.thn (hv false _ (fun _ => rfl)) (g := fun f v => readMap env lib f k t l.length (mapSet acc s v)) hy)) ?_) rfl ?_
  · intro f; simp [readMap]
  · simp [mapSet_new _ hs]

theorem rf_nil {env : Env} {lib : Lib} {fs : List (Bytes × Ty)} : RF env lib fs 0 [] [] := fun i _ _ msg _ =>
  (RR.done (GV.obj (fill env (env.get i).fields msg))).succ (fun f => by simp [readFields]) |>.cast rfl (by simp)

theorem rf_known {env : Env} {lib : Lib} (hw : WellFormed env) {fs : List (Bytes × Ty)} {n : Nat} {s : Bytes} {t : Ty} {v : GV}
    {m : List (Bytes × GV)} {h b c : Bytes} (hs : (s, t) ∈ fs) (hh : StrHead s.length h) (hv : RT env lib t v b)
    (hl : RF env lib fs n m c) : RF env lib fs (n + 1) ((s, v) :: m) ((h ++ s) ++ (b ++ c)) := by
  intro i hi hn msg hmsg
  simp only [List.map_cons, List.nodup_cons] at hn
  have := hl i hi hn.2 (msg ++ [(s, v)]) (by
    intro s' hs'
    simp only [List.map_append, List.map_cons, List.map_nil, List.mem_append, List.mem_singleton, not_or]
    exact ⟨hmsg s' (by simp only [List.map_cons, List.mem_cons]; exact .inr hs'), fun e => hn.1 (e ▸ hs')⟩)
  exact RR.cast (step_known hw (hi ▸ hs) hh hv (hmsg s (by simp)) this) rfl (by simp)

theorem rf_unknown {env : Env} {lib : Lib} {fs : List (Bytes × Ty)} {n : Nat} {s : Bytes} {x : Val} {m : List (Bytes × GV)}
    {h b c : Bytes} (hs : s ∉ names fs) (hh : StrHead s.length h) (hv : Wire FixHead x b) (hl : RF env lib fs n m c) :
    RF env lib fs (n + 1) m ((h ++ s) ++ (b ++ c)) := fun i hi hn msg hmsg =>
  step_unknown (hi ▸ hs) hh hv (hl i hi hn msg hmsg)

mutual
theorem ser_reads {env : Env} (lib : Lib) (hw : WellFormed env) : {t : Ty} → {v : GV} → {bs : Bytes} → Ser env t v bs → RT env lib t v bs
  | _, _, _, .prim h => rt_prim h
  | _, _, _, .cast h => rt_cast h
  | _, _, _, .list hh hb => rt_list (reads_arraySize hh) (serL_reads lib hw hb [])
  | _, _, _, .map hh hn hb => rt_map (reads_mapSize hh) (serM_reads lib hw hb hn [] (by simp))
  | _, _, _, .nilList => rt_list (h := [0xc0]) (b := []) (n := 0) (reads_head1 rfl) (rl_nil [])
  | _, _, _, .nilMap => rt_map (h := [0xc0]) (b := []) (n := 0) (reads_head1 rfl) (rm_nil (by simp) [] (by simp))
  | _, _, _, .obj hh hn hb => rt_obj hw hh (serF_reads lib hw hb _ rfl hn [] (by simp))
  | _, _, _, .none h => rt_none h
  | _, _, _, .some _ h => rt_some (ser_reads lib hw h)

theorem serL_reads {env : Env} (lib : Lib) (hw : WellFormed env) : {t : Ty} → {l : List GV} → {bs : Bytes} → SerL env t l bs →
    RL env lib t l bs
  | _, _, _, .nil => rl_nil
  | _, _, _, .cons hv hl => rl_cons (ser_reads lib hw hv) (serL_reads lib hw hl)

theorem serM_reads {env : Env} (lib : Lib) (hw : WellFormed env) : {k : Prim} → {t : Ty} → {l : List (Sc × GV)} → {bs : Bytes} →
    SerM env k t l bs → RM env lib k t l bs
  | _, _, _, _, .nil => rm_nil
  | _, _, _, _, .cons hk hv hl => rm_cons hk (ser_reads lib hw hv) (serM_reads lib hw hl)

theorem serF_reads {env : Env} (lib : Lib) (hw : WellFormed env) : {fs : List (Bytes × Ty)} → {n : Nat} → {m : List (Bytes × GV)} →
    {bs : Bytes} → SerF env fs n m bs → RF env lib fs n m bs
  | _, _, _, _, .nil => rf_nil
  | _, _, _, _, .known hs hh hv hl => rf_known hw hs hh (ser_reads lib hw hv) (serF_reads lib hw hl)
  | _, _, _, _, .unknown hs hh hv hl => rf_unknown hs hh hv (serF_reads lib hw hl)
end

/-- **C193** For all type definitions, all types, all values and all their serializations, where signed integers in formats for unsigned
ones are left out, and times are timestamps: the generated reader gives the value and consumes exactly the serialization. -/
theorem foreign_read_partial (env : Env) (hw : WellFormed env) (lib : Lib) (n : Nat) (v : GV) (bs : Bytes)
    (h : Ser env (.named n) v bs) (rest : Bytes) (hl : (bs ++ rest).length < 2 ^ 32) :
    ∃ f0, ∀ f, f0 ≤ f → fromBytes env lib f n (bs ++ rest) = some (.ok v) := by
  obtain ⟨f0, hf⟩ := ser_reads lib hw h false (zero env env.length (.named n)) (fun _ => rfl)
  refine ⟨f0, fun f hle => ?_⟩
  have := (hf f hle).1 [] rest (by simpa using hl)
  simp only [List.nil_append, List.length_nil, Nat.zero_add] at this
  simp only [fromBytes, D.new, this, Option.map_some]

/-- **C193** So the handler of a Go service gets the arguments of a call, for all operations that are not unary, whoever makes the
call and in whatever order the arguments are written. -/
theorem foreign_inputs_partial (env : Env) (lib : Lib) (op : Operation) (hw : WellFormed (defs env op)) (hu : op.unary = false)
    (ha : op.args ≠ []) (vs : List GV) (bs : Bytes) (h : Ser (defs env op) (.named env.length) (.obj vs) bs)
    (hl : bs.length < 2 ^ 32) : ∃ f0, ∀ f, f0 ≤ f → serverReceives env lib f op bs = some (.ok vs) := by
  obtain ⟨f0, hf⟩ := foreign_read_partial (defs env op) hw lib env.length (.obj vs) bs h [] (by simpa using hl)
  refine ⟨f0, fun f hle => ?_⟩
  have he : op.args.isEmpty = false := by cases h : op.args <;> simp_all
  have := hf f hle
  rw [List.append_nil] at this
  simp only [serverReceives, he, hu, Bool.false_eq_true, if_false, this, Option.map_some, Res.bind]

/-! ## The specification describes MessagePack -/

theorem fix_ext : ∀ n h, FixHead n h → ExtHead n h
  | _, _, .fix hj => .fix hj.2

mutual
theorem wire_ext {v : Val} {bs : Bytes} : Wire FixHead v bs → Wire ExtHead v bs
  | .nil => .nil
  | .false => .false
  | .true => .true
  | .posfix h => .posfix h
  | .negfix h => .negfix h
  | .uint hj h => .uint hj h
  | .int hj h => .int hj h
  | .f32 h => .f32 h
  | .f64 h => .f64 h
  | .str hh => .str hh
  | .bin hh => .bin hh
  | .arr hh hb => .arr hh (wires_ext hb)
  | .map hh hb => .map hh (wirePairs_ext hb)
  | .ext hh ht => .ext (fix_ext _ _ hh) ht
theorem wires_ext {l : List Val} {bs : Bytes} : Wires FixHead l bs → Wires ExtHead l bs
  | .nil => .nil
  | .cons hv hl => .cons (wire_ext hv) (wires_ext hl)
theorem wirePairs_ext {l : List (Val × Val)} {bs : Bytes} : WirePairs FixHead l bs → WirePairs ExtHead l bs
  | .nil => .nil
  | .cons hk hv hl => .cons (wire_ext hk) (wire_ext hv) (wirePairs_ext hl)
end

mutual
/-- Whatever the specification allows is one MessagePack value. -/
theorem ser_wire {env : Env} {t : Ty} {v : GV} {bs : Bytes} : Ser env t v bs → ∃ x, Wire ExtHead x bs
  | .prim h => let ⟨x, _, hx⟩ := serPrim_wire h; ⟨x, hx⟩
  | .cast h => let ⟨x, _, hx⟩ := serPrim_wire h; ⟨x, hx⟩
  | .list hh hb => let ⟨l, hl, hw⟩ := serL_wire hb; ⟨.arr l, .arr (hl ▸ hh) hw⟩
  | .map hh _ hb => let ⟨l, hl, hw⟩ := serM_wire hb; ⟨.map l, .map (hl ▸ hh) hw⟩
  | .nilList => ⟨.nil, .nil⟩
  | .nilMap => ⟨.nil, .nil⟩
  | .obj hh _ hb => let ⟨l, hl, hw⟩ := serF_wire hb; ⟨.map l, .map (hl ▸ hh) hw⟩
  | .none _ => ⟨.nil, .nil⟩
  | .some _ h => ser_wire h
theorem serL_wire {env : Env} {t : Ty} {l : List GV} {bs : Bytes} : SerL env t l bs → ∃ xs, l.length = xs.length ∧ Wires ExtHead xs bs
  | .nil => ⟨[], rfl, .nil⟩
  | .cons hv hl => let ⟨x, hx⟩ := ser_wire hv; let ⟨xs, e, hxs⟩ := serL_wire hl; ⟨x :: xs, by simp [e], .cons hx hxs⟩
theorem serM_wire {env : Env} {k : Prim} {t : Ty} {l : List (Sc × GV)} {bs : Bytes} :
    SerM env k t l bs → ∃ xs, l.length = xs.length ∧ WirePairs ExtHead xs bs
  | .nil => ⟨[], rfl, .nil⟩
  | .cons hk hv hl => let ⟨y, _, hy⟩ := serPrim_wire hk; let ⟨x, hx⟩ := ser_wire hv; let ⟨xs, e, hxs⟩ := serM_wire hl
    ⟨(y, x) :: xs, by simp [e], .cons hy hx hxs⟩
theorem serF_wire {env : Env} {fs : List (Bytes × Ty)} {n : Nat} {m : List (Bytes × GV)} {bs : Bytes} :
    SerF env fs n m bs → ∃ xs, n = xs.length ∧ WirePairs ExtHead xs bs
  | .nil => ⟨[], rfl, .nil⟩
  | .known (s := s) _ hh hv hl =>
    let ⟨x, hx⟩ := ser_wire hv; let ⟨xs, e, hxs⟩ := serF_wire hl; ⟨(.str s, x) :: xs, by simp [e], .cons (.str hh) hx hxs⟩
  | .unknown (s := s) _ hh hv hl => let ⟨xs, e, hxs⟩ := serF_wire hl; ⟨(.str s, _) :: xs, by simp [e], .cons (.str hh) (wire_ext hv) hxs⟩
end

/-! ## Every value has such a serialization -/

theorem serPrim_exists {a : Allow} {p : Prim} {s : Sc} (h : IsPrim a p s) : ∃ bs, SerPrim p s bs := by
  have ha : IsPrim Allow.all p s := by
    cases p <;> cases s <;> simp only [IsPrim] at h ⊢ <;> first | exact h | exact trivial | skip
    · exact ⟨h.1, h.2.1, .inl rfl⟩
    · exact ⟨h.1, .inl rfl⟩
  by_cases ht : p = .time
  · subst ht
    cases s <;> simp only [IsPrim] at ha
    exact ⟨_, .time (.t96 ⟨ha.1, ha.2.1⟩)⟩
  · obtain ⟨bs, _, _, hw, hr⟩ := prim_enc ⟨fun x => x, fun _ => none⟩ ha
    refine ⟨bs, .plain ha ht hw fun hs hu => ?_⟩
    obtain ⟨e, d, hf⟩ := signed_refuted ⟨fun x => x, fun _ => none⟩ p hs bs hu
    have hlt : bs.length < 2 ^ 32 := by
      obtain ⟨j, n, hj, _, rfl⟩ := hu
      simp only [num, List.length_cons, length_beBytes]
      rcases cases4 hj with rfl | rfl | rfl | rfl <;> decide
    have := hr [] [] (by simpa using hlt)
    simp only [List.nil_append, List.length_nil, List.append_nil] at this
    simp only [D.new] at hf
    rw [this] at hf
    cases hf

theorem adaptL_length (env : Env) (t : Ty) (l : List GV) : (adaptL env env t l).length = l.length := by
  induction l with
  | nil => rfl
  | cons v l ih => simp [adaptL, ih]

theorem adaptM_keys (env : Env) (t : Ty) (l : List (Sc × GV)) : (adaptM env env t l).map (·.1) = l.map (·.1) := by
  induction l with
  | nil => rfl
  | cons v l ih => obtain ⟨k, v⟩ := v; simp [adaptM, ih]

theorem strHead_exists {s : Bytes} (h : short s) : ∃ b, StrHead s.length b :=
  ⟨_, .len (j := 2) (by decide) (by simpa [short] using h)⟩

mutual
theorem ser_exists {env : Env} (hw : WellFormed env) {a : Allow} (ha : a.nilCast = false) : {t : Ty} → {v : GV} → Typed env a t v →
    ∃ bs, Ser env t (adapt env env t v) bs
  | _, _, .prim h => by
    obtain ⟨bs, hb⟩ := serPrim_exists h
    exact ⟨bs, by simpa [adapt] using Ser.prim hb⟩
  | _, _, .cast h => by
    obtain ⟨bs, hb⟩ := serPrim_exists h
    exact ⟨bs, by simpa [adapt] using Ser.cast hb⟩
  | .list t, _, .nilColl h => ⟨_, by simpa [adapt, Ty.strip] using Ser.nilList (t := t)⟩
  | .map k t, _, .nilColl h => ⟨_, by simpa [adapt, Ty.strip] using Ser.nilMap (k := k) (t := t)⟩
  | .list t, .list l, .list hl h => by
    obtain ⟨b, hb⟩ := serL_exists hw ha h
    have : ArrHead (adaptL env env t l).length (0xdd :: beBytes 4 l.length) := by
      rw [adaptL_length]
      exact .a32 (by simpa [short] using hl)
    exact ⟨_, by simpa [adapt, Ty.strip] using Ser.list this hb⟩
  | .map k t, .map l, .map hl _ hn h => by
    obtain ⟨b, hb⟩ := serM_exists hw ha h
    have hlen : (adaptM env env t l).length = l.length := by
      have := congrArg List.length (adaptM_keys env t l)
      simpa using this
    have : MapHead (adaptM env env t l).length (0xdf :: beBytes 4 l.length) := by
      rw [hlen]
      exact .m32 (by simpa [short] using hl)
    have r := Ser.map this (by rw [adaptM_keys]; exact hn) hb
    exact ⟨_, by simpa [adapt, Ty.strip] using r⟩
  | .named n, .obj vs, .struct hd h => by
    obtain ⟨b, hb, hk⟩ := serF_exists hw ha h (i := n) (fun p hp => by rw [hd]; exact hp)
    have hf := hw.size n
    have hnd := hw.nodup n
    rw [hd] at hf hnd
    have : MapHead _ (0xdf :: beBytes 4 _) := .m32 (by simpa [short] using hf)
    have := Ser.obj this (by rw [hk]; exact hnd) hb
    exact ⟨_, by simpa [adapt, Ty.strip, hd] using this⟩
  | .named n, .obj vs, .union hd h => by
    obtain ⟨b, hb, hk⟩ := serU_exists hw ha h (i := n) (fun p hp => by rw [hd]; exact hp)
    have := Ser.obj (h := [0x81]) (.fix (n := 1) (by decide)) hk hb
    exact ⟨_, by simpa [adapt, Ty.strip, hd] using this⟩
  | .opt t, _, .none h => by
    have := Ser.none (env := env) h
    refine ⟨[0xc0], ?_⟩
    cases t <;> simp only [Pointer] at h <;> simpa [adapt, Ty.strip] using this
  | _, _, .noneCast h => by rw [ha] at h; cases h
  | .opt t, v, .some ht h => by
    obtain ⟨bs, hb⟩ := ser_exists hw ha h
    refine ⟨bs, ?_⟩
    have hs : t.strip = t := by cases t <;> first | rfl | exact absurd rfl (ht _)
    have e : adapt env env (.opt t) v = adapt env env t v := by cases v <;> simp only [adapt, hs, show (Ty.opt t).strip = t from rfl]
    rw [e]
    exact .some ht hb

theorem serL_exists {env : Env} (hw : WellFormed env) {a : Allow} (ha : a.nilCast = false) : {t : Ty} → {l : List GV} →
    TypedL env a t l → ∃ bs, SerL env t (adaptL env env t l) bs
  | _, _, .nil => ⟨[], .nil⟩
  | _, _, .cons hv hl => by
    obtain ⟨x, hx⟩ := ser_exists hw ha hv
    obtain ⟨y, hy⟩ := serL_exists hw ha hl
    exact ⟨x ++ y, by simpa [adaptL] using SerL.cons hx hy⟩

theorem serM_exists {env : Env} (hw : WellFormed env) {a : Allow} (ha : a.nilCast = false) : {k : Prim} → {t : Ty} →
    {l : List (Sc × GV)} → TypedM env a k t l → ∃ bs, SerM env k t (adaptM env env t l) bs
  | _, _, _, .nil => ⟨[], .nil⟩
  | _, _, _, .cons hk hv hl => by
    obtain ⟨z, hz⟩ := serPrim_exists hk
    obtain ⟨x, hx⟩ := ser_exists hw ha hv
    obtain ⟨y, hy⟩ := serM_exists hw ha hl
    exact ⟨_, by simpa [adaptM] using SerM.cons hz hx hy⟩

theorem serF_exists {env : Env} (hw : WellFormed env) {a : Allow} (ha : a.nilCast = false) : {fs : List (Bytes × Ty)} →
    {vs : List GV} → TypedF env a fs vs → ∀ {i : Nat}, (∀ p ∈ fs, p ∈ (env.get i).fields) →
    ∃ bs, SerF env (env.get i).fields fs.length (adaptF env env fs vs) bs ∧ (adaptF env env fs vs).map (·.1) = names fs
  | _, _, .nil, _, _ => ⟨[], by simpa [adaptF] using SerF.nil, by simp [adaptF, names]⟩
  | (n, t) :: fs, _, .cons hv hl, i, hi => by
    obtain ⟨x, hx⟩ := ser_exists hw ha hv
    obtain ⟨y, hy, hk⟩ := serF_exists hw ha hl (i := i) (fun p hp => hi p (List.mem_cons_of_mem _ hp))
    have hm := hi (n, t) List.mem_cons_self
    obtain ⟨h, hh⟩ := strHead_exists (hw.name i n (List.mem_map_of_mem (f := (·.1)) hm))
    exact ⟨_, by simpa [adaptF] using SerF.known hm hh hx hy, by simpa [adaptF, names] using hk⟩

theorem serU_exists {env : Env} (hw : WellFormed env) {a : Allow} (ha : a.nilCast = false) : {fs : List (Bytes × Ty)} →
    {vs : List GV} → TypedU env a fs vs → ∀ {i : Nat}, (∀ p ∈ fs, p ∈ (env.get i).fields) →
    ∃ bs, SerF env (env.get i).fields 1 (adaptU env env fs vs) bs ∧ ((adaptU env env fs vs).map (·.1)).Nodup
  | (n, t) :: fs, v :: _, .here hv hn, i, hi => by
    obtain ⟨x, hx⟩ := ser_exists hw ha hv
    have hm := hi (n, t) List.mem_cons_self
    obtain ⟨h, hh⟩ := strHead_exists (hw.name i n (List.mem_map_of_mem (f := (·.1)) hm))
    have e : adaptU env env ((n, t) :: fs) (v :: fs.map fun _ => .null) = [(n, adapt env env t v)] := by
      cases v <;> first | exact absurd rfl hn | simp [adaptU]
    rw [e]
    exact ⟨_, SerF.known hm hh hx .nil, by simp⟩
  | (n, t) :: fs, _, .there h, i, hi => by
    obtain ⟨b, hb, hk⟩ := serU_exists hw ha h (i := i) (fun p hp => hi p (List.mem_cons_of_mem _ hp))
    exact ⟨b, by simpa [adaptU] using hb, by simpa [adaptU] using hk⟩
end

/-- **C193** Every value of every type without absent optional enums and aliases has a serialization that the specification allows,
up to nil slices and maps, which are empty ones. -/
theorem all_serializable (env : Env) (hw : WellFormed env) (t : Ty) (v : GV) (h : Typed env ⟨false, true, true⟩ t v) :
    ∃ bs, Ser env t (norm env t v) bs := by
  obtain ⟨bs, hb⟩ := ser_exists hw rfl h
  exact ⟨bs, Props.Codegen.adapt_same hw h ▸ hb⟩

/-! ### Cases -/

/-- 200 as an int16, in the format with two bytes. -/
example (lib : Lib) : Reads (readPrim lib .i16) [0xd1, 0, 200] (.int 200) :=
  typed_reads_partial lib .i16 (.int 200) (by simp [IsPrim]) (by decide) _
    (Wire.int (i := 200) (j := 1) (by decide) (by decide)) (by
      rintro _ ⟨j, n, hj, _, h⟩
      have := congrArg List.head? h
      rcases cases4 hj with rfl | rfl | rfl | rfl <;> simp [num] at this <;> exact absurd this (by decide))

/-- The same value in the shortest format. -/
example (lib : Lib) : Fails (readPrim lib .i16) (D.new [0xcc, 200]) :=
  signed_refuted lib .i16 trivial _ ⟨0, 200, by decide, by decide, rfl⟩

example : Wire ExtHead (.int 200) [0xcc, 200] := Wire.uint (n := 200) (j := 0) (by decide) (by decide)

/-- 7 as a uint8, written as a signed number of eight bytes. -/
example (lib : Lib) : Reads (readPrim lib .u8) [0xd3, 0, 0, 0, 0, 0, 0, 0, 7] (.uint 7) :=
  typed_reads_partial lib .u8 (.uint 7) (by simp [IsPrim]) (by decide) _
    (Wire.int (i := 7) (j := 3) (by decide) (by decide)) (fun h => h.elim)

/-- A person of 7 years named "hi": the fields in the other order, the number in two bytes as a signed one, a long header for the name,
and a field "z" that nobody knows. -/
theorem exPerson : Ser exEnv (.named 0) (.obj [.sc (.str [104, 105]), .sc (.uint 7)])
    [0xde, 0, 3, 0xa1, 121, 0xd1, 0, 7, 0xa1, 122, 0x91, 0xc3, 0xa1, 110, 0xd9, 2, 104, 105] := by
  have hn : SerF exEnv (exEnv.get 0).fields 1 [([110], .sc (.str [104, 105]))] _ :=
    .known (s := [110]) (t := .prim .str) (h := [0xa1]) (b := [0xd9, 2] ++ [104, 105]) (c := []) (by simp [exEnv, Env.get, Def.fields])
      (.fix (by decide)) (.prim (.plain (by simp [IsPrim, short]) (by decide) (.str (h := [0xd9, 2]) (.len (j := 0) (by decide) (by decide))) (fun h => h.elim))) .nil
  have hz : SerF exEnv (exEnv.get 0).fields 2 [([110], .sc (.str [104, 105]))] _ :=
    .unknown (s := [122]) (x := .arr [.bool true]) (h := [0xa1]) (b := [0x91] ++ ([0xc3] ++ [])) (by decide) (.fix (by decide))
      (.arr (.fix (by decide)) (.cons .true .nil)) hn
  have hy : SerF exEnv (exEnv.get 0).fields 3 [([121], .sc (.uint 7)), ([110], .sc (.str [104, 105]))] _ :=
    .known (s := [121]) (t := .prim .u8) (h := [0xa1]) (b := [0xd1, 0, 7]) (by simp [exEnv, Env.get, Def.fields]) (.fix (by decide))
      (.prim (.plain (by simp [IsPrim]) (by decide) (Wire.int (i := 7) (j := 1) (by decide) (by decide)) (fun h => h.elim))) hz
  exact .obj (h := [0xde, 0, 3]) (.m16 (n := 3) (by decide)) (by decide) hy

example (lib : Lib) (rest : Bytes) (h : rest.length < 100) := foreign_read_partial exEnv exEnv_wf lib 0 _ _ exPerson rest (by simp; omega)

/-- `say(p: string, q: string)` with "hi" and "", the second one first. -/
example (lib : Lib) : ∃ f0, ∀ f, f0 ≤ f → serverReceives [] lib f exOp
    [0x82, 0xa1, 113, 0xd9, 0, 0xa1, 112, 0xa2, 104, 105] = some (.ok [.sc (.str [104, 105]), .sc (.str [])]) := by
  have hp : SerF (defs [] exOp) ((defs [] exOp).get 0).fields 1 [([112], .sc (.str [104, 105]))] _ :=
    .known (s := [112]) (t := .prim .str) (h := [0xa1]) (b := [0xa2] ++ [104, 105]) (c := []) (by simp [exOp, defs, Operation.args, Env.get, Def.fields, T.ty])
      (.fix (by decide)) (.prim (.plain (by simp [IsPrim, short]) (by decide) (.str (h := [0xa2]) (.fix (by decide))) (fun h => h.elim))) .nil
  have hq : SerF (defs [] exOp) ((defs [] exOp).get 0).fields 2 [([113], .sc (.str [])), ([112], .sc (.str [104, 105]))] _ :=
    .known (s := [113]) (t := .prim .str) (h := [0xa1]) (b := [0xd9, 0] ++ []) (by simp [exOp, defs, Operation.args, Env.get, Def.fields, T.ty])
      (.fix (by decide)) (.prim (.plain (by simp [IsPrim, short]) (by decide) (.str (h := [0xd9, 0]) (.len (j := 0) (by decide) (by decide))) (fun h => h.elim))) hp
  exact foreign_inputs_partial [] lib exOp exOp_wf rfl (by simp [exOp, Operation.args]) _ _
    (.obj (h := [0x82]) (.fix (by decide)) (by decide) hq) (by decide)

/-- One second after the start of 1970, in the format of twelve bytes. -/
example (lib : Lib) : Reads (Dec.time lib) [0xc7, 12, 0xff, 0, 0, 0, 0, 0, 0, 0, 0, 0, 0, 0, 1] ⟨1, 0⟩ :=
  timestamp_reads lib ⟨1, 0⟩ _ (.t96 (s := 1) (n := 0) (by simp [i64]))

end Iota.Props.TypedReads
