import Verif.Spec.Codegen
import Verif.Lemmas.MsgpackAny
import Verif.Props.Msgpack

/-! # Lemmas about generated codecs -/

namespace Iota.Lemmas.Codegen
open Iota.Go Iota.Msgpack Iota.Codegen Iota.Spec.Msgpack Iota.Spec.Codegen Iota.Lemmas.Msgpack

/-! ## Reading with enough steps -/

/-- A call that returns, but no value. -/
def Failed {α : Type} (x : Option (Res α × D)) : Prop := ∃ res d', x = some (res, d') ∧ ∀ a, res ≠ .ok a

/-- `r` fails on `bs` cut short. -/
def Short {α : Type} (r : Dec.Run α) (bs : Bytes) : Prop :=
  ∀ (pre : Bytes) (k : Nat), k < bs.length → (pre ++ bs).length < 2 ^ 32 →
    Failed (r ⟨pre ++ bs.take k, pre.length, false⟩)

/-- With enough steps, and any greater number, `r` reads `a` from `bs`. If `K` holds it fails on any part of
`bs`. -/
def RR (K : Prop) {α : Type} (r : Nat → Dec.Run α) (bs : Bytes) (a : α) : Prop :=
  ∃ f0, ∀ f, f0 ≤ f → (∀ pre rest : Bytes, (pre ++ bs ++ rest).length < 2 ^ 32 →
    r f ⟨pre ++ bs ++ rest, pre.length, false⟩ =
      some (.ok a, ⟨pre ++ bs ++ rest, pre.length + bs.length, false⟩)) ∧ (K → Short (r f) bs)

variable {K : Prop}

theorem short_loc {α : Type} {r : Rd α} {bs : Bytes} {a : α} (h : Reads r bs a) (hl : Loc r) : Short (lift r) bs := by
  intro pre k hk hlt
  have := loc_trunc hl h pre k hk hlt
  exact ⟨_, _, rfl, fun a e => by rw [this] at e; cases e⟩

theorem RR.lift' {α : Type} {r : Rd α} {bs : Bytes} {a : α} (h : Reads r bs a) (hl : Short (lift r) bs) :
    RR K (fun _ => lift r) bs a :=
  ⟨0, fun _ _ => ⟨fun pre rest hlt => by simp only [Iota.Codegen.lift]; rw [h pre rest hlt], fun _ => hl⟩⟩

theorem RR.lift {α : Type} {r : Rd α} {bs : Bytes} {a : α} (h : Reads r bs a) (hl : Loc r) : RR K (fun _ => lift r) bs a :=
  RR.lift' h (short_loc h hl)

theorem RR.done {α : Type} (a : α) : RR K (fun _ => done a) [] a :=
  ⟨0, fun _ _ => ⟨fun pre rest _ => by simp [Iota.Codegen.done], fun _ _ _ hk => absurd hk (Nat.not_lt_zero _)⟩⟩

theorem RR.thn {α β : Type} {r : Nat → Dec.Run α} {g : Nat → α → Dec.Run β} {bs cs : Bytes} {a : α} {b : β}
    (h : RR K r bs a) (h' : RR K (fun f => g f a) cs b) : RR K (fun f => thn (r f) (g f)) (bs ++ cs) b := by
  obtain ⟨f0, hf⟩ := h
  obtain ⟨g0, hg⟩ := h'
  refine ⟨max f0 g0, fun f hle => ⟨fun pre rest hlt => ?_, fun hK pre k hk hlt => ?_⟩⟩
  · have h1 := (hf f (by omega)).1 pre (cs ++ rest) (by simpa using hlt)
    have h2 := (hg f (by omega)).1 (pre ++ bs) rest (by simpa using hlt)
    simp only [List.append_assoc, List.length_append, Nat.add_assoc] at h1 h2 ⊢
    simp only [Iota.Codegen.thn, h1, h2]
  · by_cases hkb : k < bs.length
    · obtain ⟨res, d', e, hn⟩ := (hf f (by omega)).2 hK pre k hkb (by simp at hlt ⊢; omega)
      rw [List.take_append_of_le_length (Nat.le_of_lt hkb)]
      simp only [Iota.Codegen.thn, e]
      cases res with
      | ok x => exact absurd rfl (hn x)
      | err m => exact ⟨_, _, rfl, by simp⟩
      | panic => exact ⟨_, _, rfl, by simp⟩
    · have e : (bs ++ cs).take k = bs ++ cs.take (k - bs.length) := by
        rw [List.take_append, List.take_of_length_le (by omega)]
      rw [e]
      have h1 := (hf f (by omega)).1 pre (cs.take (k - bs.length)) (by simp at hlt hk ⊢; omega)
      have h2 := (hg f (by omega)).2 hK (pre ++ bs) (k - bs.length) (by simp at hk; omega) (by simpa using hlt)
      simp only [List.append_assoc, List.length_append, Nat.add_assoc] at h1 h2 ⊢
      simp only [Iota.Codegen.thn, h1]
      exact h2

theorem RR.succ {α : Type} {r r' : Nat → Dec.Run α} {bs : Bytes} {a : α} (h : RR K r' bs a)
    (he : ∀ f, r (f + 1) = r' f) : RR K r bs a := by
  obtain ⟨f0, hf⟩ := h
  refine ⟨f0 + 1, fun f hle => ?_⟩
  obtain ⟨f, rfl⟩ : ∃ g, f = g + 1 := ⟨f - 1, by omega⟩
  rw [he]
  exact hf f (by omega)

theorem RR.cast {α : Type} {r : Nat → Dec.Run α} {bs cs : Bytes} {a b : α} (h : RR K r bs a) (hb : bs = cs)
    (ha : a = b) : RR K r cs b := hb ▸ ha ▸ h

theorem RR.skip {bs : Bytes} (h : ReadsRun Dec.skip bs ()) (hK : ¬K) : RR K Dec.skip bs () := by
  obtain ⟨f, hf⟩ := h
  exact ⟨f, fun g hle => ⟨fun pre rest hlt => skip_mono hle (hf pre rest hlt), fun h => absurd h hK⟩⟩

theorem loc_map {α β : Type} {r : Rd α} (f : α → β) (h : Loc r) : Loc (f <$> r) := loc_bind h fun _ => loc_pure _

theorem loc_prim (lib : Lib) (p : Prim) : Loc (readPrim lib p) := by
  cases p <;> unfold readPrim <;> first
    | exact loc_map _ loc_str | exact loc_map _ loc_bool | exact loc_map _ (loc_time lib) | exact loc_map _ (loc_intK _)
    | exact loc_map _ (loc_uintK _) | exact loc_map _ loc_int64 | exact loc_map _ loc_uint64
    | exact loc_map _ (loc_f32 lib) | exact loc_map _ loc_f64 | exact loc_map _ loc_bytes

/-! ## Bytes that do not begin with nil -/

def NotNil (bs : Bytes) : Prop := ∃ c cs, bs = c :: cs ∧ c ≠ 0xc0

theorem NotNil.append {a : Bytes} (h : NotNil a) (b : Bytes) : NotNil (a ++ b) := by
  obtain ⟨c, cs, rfl, hc⟩ := h
  exact ⟨c, cs ++ b, rfl, hc⟩

theorem ne_of_toNat {a b : UInt8} (h : a.toNat ≠ b.toNat) : a ≠ b := fun e => h (by rw [e])

theorem isNextNil_false (pre : Bytes) (c : UInt8) (cs rest : Bytes) (hc : c ≠ 0xc0)
    (hlt : (pre ++ (c :: cs) ++ rest).length < 2 ^ 32) :
    Dec.isNextNil ⟨pre ++ (c :: cs) ++ rest, pre.length, false⟩ =
      (.ok false, ⟨pre ++ (c :: cs) ++ rest, pre.length, false⟩) := by
  have hp := peek_eq pre c (cs ++ rest) (by simpa using hlt)
  have hc' : c.toNat ≠ 0xc0 := fun e => hc (UInt8.toNat_inj.mp (by simpa using e))
  simp only [List.append_assoc, List.cons_append] at hp ⊢
  unfold Dec.isNextNil
  rw [rd_bind_ok hp, if_neg hc']
  rfl

theorem nillable_some {α : Type} {r : Rd α} {bs : Bytes} {a : α} (h : Reads r bs a) (hn : NotNil bs) :
    Reads (Dec.nillable r) bs (some a) := by
  obtain ⟨c, cs, rfl, hc⟩ := hn
  intro pre rest hlt
  unfold Dec.nillable
  rw [rd_bind_ok (isNextNil_false pre c cs rest hc hlt)]
  simp only [Bool.false_eq_true, if_false]
  rw [rd_bind_ok (h pre rest hlt)]
  rfl

theorem nillable_none {α : Type} (r : Rd α) : Reads (Dec.nillable r) [0xc0] none := by
  unfold Dec.nillable
  refine Reads.bind_pure nil_enc.2 ?_
  simp only [if_true]
  exact Reads.pure _

theorem mapHead_notNil {n : Nat} {h : Bytes} (hh : MapHead n h) : NotNil h := by
  cases hh with
  | fix h => exact ⟨_, _, rfl, ne_of_toNat (by rw [toNat_add _ _ (by simp; omega)]; simp; omega)⟩
  | m16 h => exact ⟨_, _, rfl, by decide⟩
  | m32 h => exact ⟨_, _, rfl, by decide⟩

theorem num_notNil (c : UInt8) (j n : Nat) (hj : j < 4) (hc : c ∈ [0xc4, 0xc7, 0xcc, 0xd0, 0xd9]) : NotNil (num c j n) := by
  refine ⟨_, _, rfl, ?_⟩
  simp only [List.mem_cons, List.not_mem_nil, or_false] at hc
  rcases cases4 hj with rfl | rfl | rfl | rfl <;> rcases hc with rfl | rfl | rfl | rfl | rfl <;> decide

theorem extHead_notNil {n : Nat} {h : Bytes} (hh : ExtHead n h) : NotNil h := by
  cases hh with
  | fix hj =>
    rename_i j
    refine ⟨_, _, rfl, ?_⟩
    have : j = 0 ∨ j = 1 ∨ j = 2 ∨ j = 3 ∨ j = 4 := by omega
    rcases this with rfl | rfl | rfl | rfl | rfl <;> decide
  | len hj h => exact num_notNil _ _ _ (by omega) (by simp)

theorem fixHead_notNil {n : Nat} {h : Bytes} (hh : FixHead n h) : NotNil h := by
  cases hh with
  | fix hj => exact extHead_notNil (.fix hj.2)

theorem wire_notNil {E : Nat → Bytes → Prop} (hE : ∀ n h, E n h → NotNil h) {v : Val} {bs : Bytes}
    (h : Wire E v bs) (hv : v ≠ .nil) : NotNil bs := by
  cases h with
  | nil => exact absurd rfl hv
  | false => exact ⟨_, _, rfl, by decide⟩
  | true => exact ⟨_, _, rfl, by decide⟩
  | posfix h => exact ⟨_, _, rfl, ne_of_toNat (by simp; omega)⟩
  | negfix h => exact ⟨_, _, rfl, ne_of_toNat (by simp; omega)⟩
  | uint hj h => exact num_notNil _ _ _ hj (by simp)
  | int hj h => exact num_notNil _ _ _ hj (by simp)
  | f32 h => exact ⟨_, _, rfl, by decide⟩
  | f64 h => exact ⟨_, _, rfl, by decide⟩
  | str hh =>
    refine NotNil.append ?_ _
    cases hh with
    | fix h => exact ⟨_, _, rfl, ne_of_toNat (by rw [toNat_add _ _ (by simp; omega)]; simp; omega)⟩
    | len hj h => exact num_notNil _ _ _ (by omega) (by simp)
  | bin hh =>
    refine NotNil.append ?_ _
    cases hh with
    | len hj h => exact num_notNil _ _ _ (by omega) (by simp)
  | arr hh hb =>
    refine NotNil.append ?_ _
    cases hh with
    | fix h => exact ⟨_, _, rfl, ne_of_toNat (by rw [toNat_add _ _ (by simp; omega)]; simp; omega)⟩
    | a16 h => exact ⟨_, _, rfl, by decide⟩
    | a32 h => exact ⟨_, _, rfl, by decide⟩
  | map hh hb => exact NotNil.append (mapHead_notNil hh) _
  | ext hh ht => exact NotNil.append (hE _ _ hh) _

/-- The extension headers that values may have. -/
def EH (a : Allow) : Nat → Bytes → Prop := if a.longTime then ExtHead else FixHead

theorem EH_notNil (a : Allow) (n : Nat) (h : Bytes) (hh : EH a n h) : NotNil h := by
  unfold EH at hh
  split at hh
  · exact extHead_notNil hh
  · exact fixHead_notNil hh

/-! ## Primitive values -/

theorem stamp_eq (t : Time) (h : i64 t.sec ∧ t.nsec < 10 ^ 9) : Enc.timeBytes t = stamp t := by
  have hs := h.1
  unfold i64 at hs
  have hU : (toU 8 t.sec : Int) = t.sec % 18446744073709551616 := by unfold toU; simp; omega
  unfold Enc.timeBytes stamp
  by_cases h1 : 0 ≤ t.sec ∧ t.sec < 2 ^ 34
  · have hsec : toU 8 t.sec = t.sec.toNat := by omega
    have hm : t.nsec * 2 ^ 34 % 2 ^ 64 = t.nsec * 2 ^ 34 := Nat.mod_eq_of_lt (by omega)
    rw [if_pos h1, if_pos (by omega), hsec, hm]
    by_cases h2 : t.nsec = 0 ∧ t.sec < 2 ^ 32
    · rw [if_pos h2, if_pos (by omega), h2.1]
      simp
    · rw [if_neg h2, if_neg (by omega)]
  · rw [if_neg h1, if_neg (by omega)]
    congr 2
    unfold twos
    split <;> omega

/-- For byte strings of 255 bytes the sizer counts one byte more than is written. -/
theorem bytes_fit (s : Bytes) (h : short s) : ∃ bs, Writes (Enc.bytes s) bs ∧ bs.length ≤ Size.bytes s ∧
    (not255 s → bs.length = Size.bytes s) ∧ (∀ E, Wire E (.bin s) bs) ∧ Reads Dec.bytes bs s := by
  by_cases h255 : s.length = 255
  · have hm : s.length % U32 = 255 := by rw [h255]; decide
    have hw : Writes ((setU 1 0xc4).seq (setU 1 255)) (0xc4 :: beBytes 1 255) := writes_head 0xc4 1 255
    refine ⟨(0xc4 :: beBytes 1 255) ++ s, ?_, ?_, fun hn => absurd h255 hn, ?_, ?_⟩
    · unfold Enc.bytes
      rw [hm, if_neg (by decide)]
      exact hw.seq (writes_setBytes s h)
    · unfold Size.bytes Size.binLen
      rw [hm]
      simp [h255]
    · intro E
      refine .bin ?_
      rw [h255]
      exact .len (j := 0) (by decide) (by decide)
    · refine Reads.bind (a := 255) (reads_head (f := fun p => _) (reads_getU_be 1 255 (by decide))) ?_
      rw [← h255]
      exact reads_getBytes s
  · obtain ⟨bs, h1, h2, h3, h4⟩ := bytes_enc s h
    exact ⟨bs, h1, Nat.le_of_eq (h2 h255), h2, h3, h4⟩

theorem prim_enc (lib : Lib) {a : Allow} {p : Prim} {s : Sc} (h : IsPrim a p s) :
    ∃ bs, Writes (Enc.op s.op) bs ∧ (bs.length ≤ Size.op s.op ∧ (a.odd = false → bs.length = Size.op s.op)) ∧ Wire (EH a) (scVal s) bs ∧
      Reads (readPrim lib p) bs s := by
  have hint : ∀ (k : Nat) (v : Int), k = 1 ∨ k = 2 ∨ k = 4 → (-2 ^ (8 * k - 1) ≤ v ∧ v < 2 ^ (8 * k - 1)) →
      ∃ bs, Writes (Enc.int v) bs ∧ (bs.length ≤ Size.int v ∧ (a.odd = false → bs.length = Size.int v)) ∧ Wire (EH a) (.int v) bs ∧
      Reads (Sc.int <$> Dec.intK k) bs (.int v) := by
    intro k v hk hv
    obtain ⟨bs, h1, h2, h3, h4⟩ := int_enc v (by
      unfold i64; rcases hk with rfl | rfl | rfl <;> simp at hv <;> omega)
    refine ⟨bs, h1, ⟨Nat.le_of_eq h2, fun _ => h2⟩, h3 _, Reads.map (Reads.bind_pure h4 ?_)⟩
    rw [if_pos (by rcases hk with rfl | rfl | rfl <;> simp at hv ⊢ <;> omega)]
    exact Reads.pure _
  have huint : ∀ (k : Nat) (v : Nat), k = 1 ∨ k = 2 ∨ k = 4 → v < 2 ^ (8 * k) →
      ∃ bs, Writes (Enc.uint v) bs ∧ (bs.length ≤ Size.uint v ∧ (a.odd = false → bs.length = Size.uint v)) ∧ Wire (EH a) (.int v) bs ∧
      Reads (Sc.uint <$> Dec.uintK k) bs (.uint v) := by
    intro k v hk hv
    obtain ⟨bs, h1, h2, h3, h4⟩ := uint_enc v (by
      unfold u64; rcases hk with rfl | rfl | rfl <;> simp at hv <;> omega)
    refine ⟨bs, h1, ⟨Nat.le_of_eq h2, fun _ => h2⟩, h3 _, Reads.map (Reads.bind_pure h4 ?_)⟩
    rw [if_pos (by rcases hk with rfl | rfl | rfl <;> simp at hv ⊢ <;> omega)]
    exact Reads.pure _
  cases p <;> cases s <;> simp only [IsPrim] at h <;> simp only [Sc.op, Enc.op, Size.op, scVal, readPrim]
  case str.str s =>
    obtain ⟨bs, h1, h2, h3, h4⟩ := str_enc s h
    exact ⟨bs, h1, ⟨Nat.le_of_eq h2, fun _ => h2⟩, h3 _, h4.map⟩
  case bool.bool b =>
    obtain ⟨bs, h1, h2, h3, h4⟩ := bool_enc b
    exact ⟨bs, h1, ⟨Nat.le_of_eq h2, fun _ => h2⟩, h3 _, h4.map⟩
  case time.time t =>
    have ht : i64 t.sec ∧ t.nsec < 10 ^ 9 := ⟨h.1, h.2.1⟩
    obtain ⟨bs, h1, h2, h3, h4, h5⟩ := time_enc lib t ht
    refine ⟨bs, h1, ⟨Nat.le_of_eq h2, fun _ => h2⟩, ?_, h5.map⟩
    rw [← stamp_eq t ht]
    unfold EH
    split
    · exact h3
    · rename_i hl
      refine h4 ?_
      have hs := h.2.2.resolve_left hl
      unfold Size.timeLen toU
      rw [if_pos (by simp; omega)]
      split <;> omega
  case i8.int v => exact hint 1 v (by omega) (by simpa using h)
  case i16.int v => exact hint 2 v (by omega) (by simpa using h)
  case i32.int v => exact hint 4 v (by omega) (by simpa using h)
  case i64.int v =>
    obtain ⟨bs, h1, h2, h3, h4⟩ := int_enc v h
    exact ⟨bs, h1, ⟨Nat.le_of_eq h2, fun _ => h2⟩, h3 _, h4.map⟩
  case u8.uint v => exact huint 1 v (by omega) (by simpa using h)
  case u16.uint v => exact huint 2 v (by omega) (by simpa using h)
  case u32.uint v => exact huint 4 v (by omega) (by simpa using h)
  case u64.uint v =>
    obtain ⟨bs, h1, h2, h3, h4⟩ := uint_enc v h
    exact ⟨bs, h1, ⟨Nat.le_of_eq h2, fun _ => h2⟩, h3 _, h4.map⟩
  case f32.f32 v =>
    obtain ⟨bs, h1, h2, h3, h4⟩ := f32_enc lib v h
    exact ⟨bs, h1, ⟨Nat.le_of_eq h2, fun _ => h2⟩, h3 _, h4.map⟩
  case f64.f64 v =>
    obtain ⟨bs, h1, h2, h3, h4⟩ := f64_enc v h
    exact ⟨bs, h1, ⟨Nat.le_of_eq h2, fun _ => h2⟩, h3 _, h4.map⟩
  case bytes.bytes s =>
    obtain ⟨bs, h1, h0, h2, h3, h4⟩ := bytes_fit s h.1
    refine ⟨bs, h1, ⟨h0, fun ho => h2 ?_⟩, h3 _, h4.map⟩
    exact h.2.resolve_left (by simp [ho])

theorem scVal_ne (s : Sc) : scVal s ≠ .nil := by cases s <;> simp [scVal]

/-! ## Writing -/

theorem ops_seq (x y : List Op) : Enc.ops (x ++ y) = (Enc.ops x).seq (Enc.ops y) := by
  induction x with
  | nil => funext d; simp [Enc.ops, Wr.seq, Wr.skip, Res.bind]
  | cons o x ih =>
    funext d
    simp only [List.cons_append, Enc.ops, ih, Wr.seq]
    cases Enc.op o d <;> rfl

theorem ops_append {x y : List Op} {a b : Bytes} (h : Writes (Enc.ops x) a) (h' : Writes (Enc.ops y) b) :
    Writes (Enc.ops (x ++ y)) (a ++ b) := ops_seq x y ▸ h.seq h'

theorem ops_cons {o : Op} {y : List Op} {a b : Bytes} (h : Writes (Enc.op o) a) (h' : Writes (Enc.ops y) b) :
    Writes (Enc.ops (o :: y)) (a ++ b) := by
  simp only [Enc.ops]
  exact h.seq h'

theorem ops_one {o : Op} {a : Bytes} (h : Writes (Enc.op o) a) : Writes (Enc.ops [o]) a := by
  have := ops_cons h (y := []) (b := []) writes_skip
  simpa using this

theorem sizes_append (x y : List Op) : Size.ops (x ++ y) = Size.ops x + Size.ops y := by
  induction x with
  | nil => simp [Size.ops]
  | cons o x ih => simp [Size.ops, ih, Nat.add_assoc]

/-! ## Names of fields -/

theorem find_none {fs : List (Bytes × Ty)} {n : Bytes} (h : find fs n = none) : n ∉ names fs := by
  induction fs with
  | nil => simp [names]
  | cons p fs ih =>
    obtain ⟨m, t⟩ := p
    simp only [find] at h
    split at h
    · cases h
    · rename_i hne
      simp only [Option.map_eq_none_iff] at h
      simp only [names, List.map_cons, List.mem_cons, not_or]
      exact ⟨fun e => hne e.symm, ih h⟩

theorem find_some {fs : List (Bytes × Ty)} {n : Bytes} {i : Nat} {t : Ty} (h : find fs n = some (i, t)) :
    fs[i]? = some (n, t) := by
  induction fs generalizing i with
  | nil => simp [find] at h
  | cons p fs ih =>
    obtain ⟨m, u⟩ := p
    simp only [find] at h
    split at h
    · rename_i e
      simp only [Option.some.injEq, Prod.mk.injEq] at h
      obtain ⟨rfl, rfl⟩ := h
      simp [e]
    · simp only [Option.map_eq_some_iff] at h
      obtain ⟨⟨j, u'⟩, hj, he⟩ := h
      simp only [Prod.mk.injEq] at he
      obtain ⟨rfl, rfl⟩ := he
      simpa using ih hj

theorem lookup_append_of_none {β : Type} {l l' : List (Bytes × β)} {n : Bytes} (h : l.lookup n = none) :
    (l ++ l').lookup n = l'.lookup n := by
  simp [List.lookup_append, h]

theorem lookup_none {β : Type} {l : List (Bytes × β)} {n : Bytes} (h : n ∉ l.map (·.1)) : l.lookup n = none := by
  induction l with
  | nil => rfl
  | cons p l ih =>
    obtain ⟨m, b⟩ := p
    simp only [List.map_cons, List.mem_cons, not_or] at h
    simp only [List.lookup]
    have : (n == m) = false := by simpa using h.1
    simp only [this, ih h.2]

theorem fill_unknown (env : Env) (fs : List (Bytes × Ty)) (msg : List (Bytes × GV)) (n : Bytes) (x : GV)
    (h : n ∉ names fs) : fill env fs (msg ++ [(n, x)]) = fill env fs msg := by
  unfold fill
  apply List.map_congr_left
  intro p hp
  have hne : p.1 ≠ n := fun e => h (e ▸ List.mem_map_of_mem hp)
  have : (p.1 == n) = false := by simpa using hne
  simp [List.lookup_append, List.lookup, this]

theorem fill_set (env : Env) (fs : List (Bytes × Ty)) (msg : List (Bytes × GV)) (n : Bytes) (x : GV) (i : Nat) (t : Ty)
    (hf : find fs n = some (i, t)) (hd : (names fs).Nodup) (hm : n ∉ msg.map (·.1)) :
    (fill env fs msg).set i x = fill env fs (msg ++ [(n, x)]) := by
  induction fs generalizing i with
  | nil => simp [find] at hf
  | cons p fs ih =>
    obtain ⟨m, u⟩ := p
    simp only [names, List.map_cons, List.nodup_cons] at hd
    simp only [find] at hf
    split at hf
    · rename_i e
      subst e
      simp only [Option.some.injEq, Prod.mk.injEq] at hf
      obtain ⟨rfl, rfl⟩ := hf
      have h1 := fill_unknown env fs msg m x hd.1
      simp only [fill, List.map_cons, List.set_cons_zero] at h1 ⊢
      rw [h1, lookup_append_of_none (lookup_none hm)]
      simp [List.lookup]
    · rename_i hne
      simp only [Option.map_eq_some_iff] at hf
      obtain ⟨⟨j, u'⟩, hj, he⟩ := hf
      simp only [Prod.mk.injEq] at he
      obtain ⟨rfl, rfl⟩ := he
      have h1 := ih j hj hd.2
      simp only [fill, List.map_cons, List.set_cons_succ] at h1 ⊢
      rw [h1]
      have : (m == n) = false := by simpa using hne
      simp [List.lookup_append, List.lookup, this]

theorem fill_get (env : Env) (fs : List (Bytes × Ty)) (msg : List (Bytes × GV)) (n : Bytes) (i : Nat) (t : Ty)
    (hf : find fs n = some (i, t)) (hm : n ∉ msg.map (·.1)) :
    (fill env fs msg)[i]?.getD .null = zero env env.length t := by
  have h := find_some hf
  unfold fill
  rw [List.getElem?_map, h]
  simp [lookup_none hm]

theorem fill_nil (env : Env) (fs : List (Bytes × Ty)) : fill env fs [] = zeros env fs := by
  simp [fill, zeros, List.lookup]

/-! ## Zero values -/

theorem get_ge {env : Env} {n : Nat} (h : env.length ≤ n) : env.get n = .struct [] := by
  unfold Env.get
  rw [List.getElem?_eq_none h]
  rfl

theorem zero_stable {env : Env} {rank : Nat → Nat}
    (hr : ∀ n s m, (s, .named m) ∈ (env.get n).fields → rank m < rank n) :
    ∀ (f g n : Nat), rank n < f → rank n < g → zero env f (.named n) = zero env g (.named n) := by
  intro f
  induction f with
  | zero => intro g n h; omega
  | succ f ih =>
    intro g n hf hg
    obtain ⟨g, rfl⟩ : ∃ k, g = k + 1 := ⟨g - 1, by omega⟩
    simp only [zero]
    congr 1
    apply List.map_congr_left
    intro p hp
    obtain ⟨s, t⟩ := p
    cases t with
    | named m =>
      have := hr n s m hp
      exact ih g m (by omega) (by omega)
    | prim p => cases f <;> cases g <;> simp [zero]
    | cast p => cases f <;> cases g <;> simp [zero]
    | list t => cases f <;> cases g <;> simp [zero]
    | map k t => cases f <;> cases g <;> simp [zero]
    | opt t => cases f <;> cases g <;> simp [zero]

theorem fieldsOf_zero {env : Env} (hw : WellFormed env) (n : Nat) :
    fieldsOf env (env.get n).fields (zero env env.length (.named n)) = zeros env (env.get n).fields := by
  obtain ⟨rank, hr1, hr2⟩ := hw.acyclic
  by_cases hn : env.length ≤ n
  · have hz : zeros env (env.get n).fields = [] := by rw [get_ge hn]; rfl
    rw [hz, get_ge hn]
    cases hl : env.length with
    | zero => simp [zero, fieldsOf, zeros, Def.fields]
    | succ m => simp [zero, fieldsOf, get_ge hn, Def.fields]
  · have hn' : n < env.length := by omega
    have h1 := hr1 n hn'
    cases hl : env.length with
    | zero => omega
    | succ m =>
      simp only [zero, fieldsOf, List.length_map, if_true]
      unfold zeros
      apply List.map_congr_left
      intro p hp
      obtain ⟨s, t⟩ := p
      rw [hl]
      cases t with
      | named k =>
        have := hr2 n s k hp
        exact zero_stable hr2 _ _ _ (by omega) (by omega)
      | prim p => cases m <;> simp [zero]
      | cast p => cases m <;> simp [zero]
      | list t => cases m <;> simp [zero]
      | map k t => cases m <;> simp [zero]
      | opt t => cases m <;> simp [zero]

end Iota.Lemmas.Codegen
