import Verif.Lemmas.MsgpackSafe3

/-! # Lemmas: range errors and truncated input -/

namespace Iota.Lemmas.Msgpack
open Iota.Go Iota.Msgpack Iota.Spec.Msgpack

/-! ### After a range error nothing happens any more -/

def Sticky {α : Type} (r : Rd α) : Prop := ∀ d, d.err = true → r d = (.err rangeError, d)

theorem sticky_check (n : Nat) : Sticky (check n) := fun d h => by simp [check, h]
theorem sticky_bind {α β : Type} {x : Rd α} {f : α → Rd β} (h : Sticky x) : Sticky (x >>= f) := fun d hd =>
  rd_bind_err (h d hd)
theorem sticky_map {α β : Type} {x : Rd α} {f : α → β} (h : Sticky x) : Sticky (f <$> x) := fun d hd => by
  rw [rd_map, h d hd]
theorem sticky_getU (k : Nat) : Sticky (getU k) := sticky_bind (sticky_check _)
theorem sticky_peek : Sticky peek := sticky_bind (sticky_check _)
theorem sticky_head {α : Type} {f : Nat → Rd α} : Sticky (getU 1 >>= f) := sticky_bind (sticky_getU 1)
theorem sticky_int64 : Sticky Dec.int64 := sticky_head
theorem sticky_uint64 : Sticky Dec.uint64 := sticky_head
theorem sticky_isNextNil : Sticky Dec.isNextNil := sticky_bind sticky_peek
theorem sticky_nillable {α : Type} {r : Rd α} : Sticky (Dec.nillable r) := sticky_bind sticky_isNextNil
theorem sticky_rint (w : Width) : Sticky (rint w) := by
  cases w
  · exact sticky_bind sticky_int64
  · exact sticky_bind sticky_int64
  · exact sticky_bind sticky_int64
  · exact sticky_int64
theorem sticky_ruint (w : Width) : Sticky (ruint w) := by
  cases w
  · exact sticky_bind sticky_uint64
  · exact sticky_bind sticky_uint64
  · exact sticky_bind sticky_uint64
  · exact sticky_uint64

theorem sticky_drop {α : Type} {r : Rd α} (h : Sticky r) {d : D} (hd : d.err = true) :
    drop r d = some (.err rangeError, d) := by
  unfold drop
  rw [sticky_map h d hd]

theorem sticky_exec (lib : Lib) (fuel : Nat) (c : Call) {d : D} (hd : d.err = true) :
    c.exec lib (fuel + 1) d = some (.err rangeError, d) := by
  cases c
  case nextNil => exact sticky_drop sticky_isNextNil hd
  case bool => exact sticky_drop sticky_head hd
  case int w => exact sticky_drop (sticky_rint w) hd
  case uint w => exact sticky_drop (sticky_ruint w) hd
  case f32 => exact sticky_drop sticky_head hd
  case f64 => exact sticky_drop sticky_head hd
  case str => exact sticky_drop (sticky_bind sticky_head) hd
  case bytes => exact sticky_drop (sticky_bind sticky_head) hd
  case time => exact sticky_drop (sticky_bind sticky_peek) hd
  case arraySize => exact sticky_drop sticky_head hd
  case mapSize => exact sticky_drop sticky_head hd
  case any =>
    have h : Dec.anyHead d = (.err rangeError, d) := sticky_head d hd
    simp [Call.exec, Dec.any, h]
  case skip =>
    have h : Dec.getSize d = (.err rangeError, d) := sticky_head d hd
    simp [Call.exec, Dec.skip, h]
  all_goals exact sticky_drop sticky_nillable hd

/-! ### A range error is recorded -/

def Marks {α : Type} (r : Rd α) : Prop := ∀ d d', r d = (.err rangeError, d') → d'.err = true

theorem marks_pure {α : Type} (a : α) : Marks (pure a : Rd α) := fun d d' h => by
  have : (Res.ok a, d) = (.err rangeError, d') := h
  simp at this
theorem marks_fail {α : Type} {e : String} (he : e ≠ rangeError) : Marks (Rd.fail e : Rd α) := fun d d' h => by
  simp [Rd.fail] at h
  exact absurd h.1 he
theorem marks_bind {α β : Type} {x : Rd α} {f : α → Rd β} (hx : Marks x) (hf : ∀ a, Marks (f a)) :
    Marks (x >>= f) := fun d d' h => by
  rw [rd_bind] at h
  rcases hr : x d with ⟨a | e | _, d1⟩ <;> rw [hr] at h
  · exact hf a d1 d' h
  · simp at h
    obtain ⟨rfl, rfl⟩ := h
    exact hx d d1 hr
  · simp at h
theorem marks_ite {α : Type} {c : Prop} [Decidable c] {x y : Rd α} (hx : c → Marks x) (hy : ¬c → Marks y) :
    Marks (if c then x else y) := by
  split
  · exact hx ‹_›
  · exact hy ‹_›
theorem marks_check (n : Nat) : Marks (check n) := fun d d' h => by
  unfold check at h
  cases he : d.err with
  | true => simp [he] at h; rw [← h]; exact he
  | false =>
    simp only [he, Bool.false_eq_true, if_false] at h
    split at h
    · simp at h; rw [← h]
    · simp at h
theorem marks_getU (k : Nat) : Marks (getU k) := marks_bind (marks_check k) fun _ d d' h => by
  unfold takeBE at h
  split at h <;> simp at h
theorem marks_getS (k : Nat) : Marks (getS k) := marks_bind (marks_getU k) fun _ => marks_pure _
theorem marks_getBytes (n : Nat) : Marks (getBytes n) := marks_bind (marks_check n) fun _ d d' h => by
  unfold takeSlice at h
  split at h <;> simp at h
theorem marks_peek : Marks peek := marks_bind (marks_check 1) fun _ d d' h => by
  unfold byteHere at h
  split at h <;> simp at h
theorem marks_discard (n : Nat) : Marks (Iota.Msgpack.discard n) := marks_bind (marks_check n) fun _ d d' h => by
  simp [advance] at h
theorem marks_ignore (x : Rd Unit) : Marks (ignore x) := fun d d' h => by
  unfold ignore at h
  split at h <;> simp at h

macro "marks_tac" : tactic => `(tactic| repeat' (with_reducible first
  | apply marks_ite <;> intro _
  | exact marks_pure _ | exact marks_fail (by decide) | exact marks_getU _ | exact marks_getS _
  | exact marks_peek | exact marks_getBytes _ | exact marks_discard _ | exact marks_ignore _
  | refine marks_bind ?_ fun _ => ?_))

theorem marks_isNextNil : Marks Dec.isNextNil := by unfold Dec.isNextNil; marks_tac
theorem marks_nillable {α : Type} {r : Rd α} (h : Marks r) : Marks (Dec.nillable r) :=
  marks_bind marks_isNextNil fun _ => marks_ite (fun _ => marks_pure _) fun _ =>
    marks_bind h fun _ => marks_pure _
theorem marks_bool : Marks Dec.bool := by unfold Dec.bool; marks_tac
theorem marks_int64 : Marks Dec.int64 := by unfold Dec.int64; marks_tac
theorem marks_intK (k : Nat) : Marks (Dec.intK k) := marks_bind marks_int64 fun _ => by marks_tac
theorem marks_nonNeg (k : Nat) : Marks (Dec.nonNeg k) := by unfold Dec.nonNeg; marks_tac
theorem marks_uint64 : Marks Dec.uint64 := by
  unfold Dec.uint64
  marks_tac <;> exact marks_nonNeg _
theorem marks_uintK (k : Nat) : Marks (Dec.uintK k) := marks_bind marks_uint64 fun _ => by marks_tac
theorem marks_f32 (lib : Lib) : Marks (Dec.f32 lib) := by unfold Dec.f32; marks_tac
theorem marks_f64 : Marks Dec.f64 := by unfold Dec.f64; marks_tac
theorem marks_strLen : Marks Dec.strLen := by unfold Dec.strLen; marks_tac
theorem marks_str : Marks Dec.str := marks_bind marks_strLen fun _ => marks_getBytes _
theorem marks_binLen : Marks Dec.binLen := by unfold Dec.binLen; marks_tac
theorem marks_bytes : Marks Dec.bytes := marks_bind marks_binLen fun _ => marks_getBytes _
theorem marks_arraySize : Marks Dec.arraySize := by unfold Dec.arraySize; marks_tac
theorem marks_mapSize : Marks Dec.mapSize := by unfold Dec.mapSize; marks_tac
theorem marks_extLen (c : Nat) : Marks (Dec.extLen c) := by
  unfold Dec.extLen
  marks_tac <;> exact marks_uintK _
theorem marks_decodeTime (n : Nat) : Marks (Dec.decodeTime n) := by unfold Dec.decodeTime; marks_tac
theorem marks_timeExt (p : Nat) : Marks (Dec.timeExt p) :=
  marks_bind (marks_ignore _) fun _ => marks_bind (marks_extLen p) fun _ => marks_bind (marks_getU 1) fun _ =>
    marks_ite (fun _ => marks_fail (by decide)) fun _ => marks_decodeTime _
theorem marks_time (lib : Lib) : Marks (Dec.time lib) :=
  marks_bind marks_peek fun p => marks_ite
    (fun _ => marks_bind marks_str fun s => by
      cases lib.parseTime s with
      | none => exact marks_fail (by decide)
      | some t => exact marks_pure _)
    fun _ => marks_timeExt p
theorem marks_getSize : Marks Dec.getSize := by unfold Dec.getSize; marks_tac
theorem marks_leaf {α : Type} {f : α → Any} {r : Rd α} (h : Marks r) : Marks (Dec.leaf f r) :=
  marks_bind h fun _ => marks_pure _
theorem marks_arrN {r : Rd Nat} (h : Marks r) : Marks (Dec.arrN r) := marks_bind h fun _ => marks_pure _
theorem marks_mapN {r : Rd Nat} (h : Marks r) : Marks (Dec.mapN r) := marks_bind h fun _ => marks_pure _
theorem marks_anyHead : Marks Dec.anyHead := by
  unfold Dec.anyHead
  refine marks_bind (marks_getU 1) fun p => ?_
  have lb : ∀ k, Marks (getU k >>= getBytes) := fun k => marks_bind (marks_getU k) fun _ => marks_getBytes _
  repeat' (with_reducible first
    | apply marks_ite <;> intro _
    | exact marks_pure _ | exact marks_fail (by decide)
    | exact marks_leaf (marks_getU _) | exact marks_leaf (marks_getS _) | exact marks_leaf (marks_getBytes _)
    | exact marks_leaf (lb _) | exact marks_arrN (marks_getU _) | exact marks_mapN (marks_getU _))

theorem marks_rint (w : Width) : Marks (rint w) := by
  cases w
  · exact marks_intK _
  · exact marks_intK _
  · exact marks_intK _
  · exact marks_int64
theorem marks_ruint (w : Width) : Marks (ruint w) := by
  cases w
  · exact marks_uintK _
  · exact marks_uintK _
  · exact marks_uintK _
  · exact marks_uint64

/-- `Marks` for a run. -/
def RMarks {α : Type} (x : Option (Res α × D)) : Prop := ∀ d', x = some (.err rangeError, d') → d'.err = true

theorem skip_marks (f : Nat) : (∀ d, RMarks (Dec.skip f d)) ∧ (∀ n d, RMarks (Dec.skipN f n d)) := by
  induction f with
  | zero => exact ⟨fun d d' h => by simp [Dec.skip] at h, fun n d d' h => by simp [Dec.skipN] at h⟩
  | succ f ih =>
    refine ⟨fun d d' h => ?_, fun n d d' h => ?_⟩
    · rw [Dec.skip] at h
      rcases hg : Dec.getSize d with ⟨n | e | _, d1⟩ <;> rw [hg] at h
      · exact ih.2 _ _ _ h
      · simp at h
        obtain ⟨rfl, rfl⟩ := h
        exact marks_getSize _ _ hg
      · simp at h
    · cases n with
      | zero => simp [Dec.skipN] at h
      | succ n =>
        rw [Dec.skipN] at h
        rcases hg : Dec.skip f d with _ | ⟨u | e | _, d1⟩ <;> rw [hg] at h
        · simp at h
        · exact ih.2 _ _ _ h
        · exact ih.1 d d' (hg.trans h)
        · simp at h

theorem any_marks (f : Nat) : (∀ d, RMarks (Dec.any f d)) ∧ (∀ n acc d, RMarks (Dec.array f n acc d)) ∧
    (∀ n m d, RMarks (Dec.map f n m d)) := by
  induction f with
  | zero => exact ⟨fun d d' h => by simp [Dec.any] at h, fun n acc d d' h => by simp [Dec.array] at h,
      fun n m d d' h => by simp [Dec.map] at h⟩
  | succ f ih =>
    refine ⟨fun d d' h => ?_, fun n acc d d' h => ?_, fun n m d d' h => ?_⟩
    · rw [Dec.any] at h
      rcases hg : Dec.anyHead d with ⟨s | e | _, d1⟩ <;> rw [hg] at h
      · cases s with
        | val v => simp at h
        | arr n => exact ih.2.1 _ _ _ _ h
        | map n => exact ih.2.2 _ _ _ _ h
      · simp at h
        obtain ⟨rfl, rfl⟩ := h
        exact marks_anyHead _ _ hg
      · simp at h
    · cases n with
      | zero => simp [Dec.array] at h
      | succ n =>
        rw [Dec.array] at h
        rcases hg : Dec.any f d with _ | ⟨u | e | _, d1⟩ <;> rw [hg] at h
        · simp at h
        · exact ih.2.1 _ _ _ _ h
        · exact ih.1 d d' (hg.trans h)
        · simp at h
    · cases n with
      | zero => simp [Dec.map] at h
      | succ n =>
        rw [Dec.map] at h
        rcases hg : Dec.any f d with _ | ⟨u | e | _, d1⟩ <;> rw [hg] at h
        · simp at h
        · dsimp only at h
          rcases hg2 : Dec.any f d1 with _ | ⟨w | e | _, d2⟩ <;> rw [hg2] at h
          · simp at h
          · dsimp only at h
            split at h
            · simp at h
            · exact ih.2.2 _ _ _ _ h
          · exact ih.1 d1 d' (hg2.trans h)
          · simp at h
        · exact ih.1 d d' (hg.trans h)
        · simp at h

theorem marks_drop {α : Type} {r : Rd α} (h : Marks r) (d : D) : RMarks (drop r d) := fun d' hr => by
  unfold drop at hr
  rw [rd_map] at hr
  rcases hg : r d with ⟨n | e | _, d1⟩ <;> rw [hg] at hr <;> simp at hr
  obtain ⟨rfl, rfl⟩ := hr
  exact h _ _ hg

theorem marks_exec (lib : Lib) (fuel : Nat) (c : Call) (d : D) : RMarks (c.exec lib fuel d) := by
  cases c
  case nextNil => exact marks_drop marks_isNextNil d
  case bool => exact marks_drop marks_bool d
  case int w => exact marks_drop (marks_rint w) d
  case uint w => exact marks_drop (marks_ruint w) d
  case f32 => exact marks_drop (marks_f32 lib) d
  case f64 => exact marks_drop marks_f64 d
  case str => exact marks_drop marks_str d
  case bytes => exact marks_drop marks_bytes d
  case time => exact marks_drop (marks_time lib) d
  case arraySize => exact marks_drop marks_arraySize d
  case mapSize => exact marks_drop marks_mapSize d
  case any =>
    intro d' h
    simp only [Call.exec] at h
    rcases hg : Dec.any fuel d with _ | ⟨u | e | _, d1⟩ <;> rw [hg] at h <;> simp at h
    obtain ⟨rfl, rfl⟩ := h
    exact (any_marks fuel).1 _ _ hg
  case skip => exact (skip_marks fuel).1 d
  case nilBool => exact marks_drop (marks_nillable marks_bool) d
  case nilInt w => exact marks_drop (marks_nillable (marks_rint w)) d
  case nilUint w => exact marks_drop (marks_nillable (marks_ruint w)) d
  case nilF32 => exact marks_drop (marks_nillable (marks_f32 lib)) d
  case nilF64 => exact marks_drop (marks_nillable marks_f64) d
  case nilStr => exact marks_drop (marks_nillable marks_str) d
  case nilBytes => exact marks_drop (marks_nillable marks_bytes) d
  case nilTime => exact marks_drop (marks_nillable (marks_time lib)) d

/-! ### Truncated input -/

/-- What `r` does on a buffer, unless it runs out of input, it does on every longer buffer. -/
def Loc {α : Type} (r : Rd α) : Prop :=
  ∀ (b x : Bytes) (off : Nat) (res : Res α) (d' : D), off ≤ b.length → (b ++ x).length < 2 ^ 32 →
    r ⟨b, off, false⟩ = (res, d') →
    res = .err rangeError ∨
      (∃ off', off' ≤ b.length ∧ d' = ⟨b, off', false⟩ ∧ r ⟨b ++ x, off, false⟩ = (res, ⟨b ++ x, off', false⟩))

theorem loc_pure {α : Type} (a : α) : Loc (pure a : Rd α) := fun b x off res d' ho _ h => by
  have h' : (Res.ok a, (⟨b, off, false⟩ : D)) = (res, d') := h
  simp at h'
  obtain ⟨rfl, rfl⟩ := h'
  exact .inr ⟨off, ho, rfl, rfl⟩
theorem loc_fail {α : Type} (e : String) : Loc (Rd.fail e : Rd α) := fun b x off res d' ho _ h => by
  simp [Rd.fail] at h
  obtain ⟨rfl, rfl⟩ := h
  exact .inr ⟨off, ho, rfl, rfl⟩
theorem loc_bind {α β : Type} {x : Rd α} {f : α → Rd β} (hx : Loc x) (hf : ∀ a, Loc (f a)) : Loc (x >>= f) :=
  fun b y off res d' ho hl h => by
    rw [rd_bind] at h
    rcases hr : x ⟨b, off, false⟩ with ⟨a | e | _, d1⟩ <;> rw [hr] at h
    · rcases hx b y off _ _ ho hl hr with h1 | ⟨o1, h1, rfl, h2⟩
      · simp at h1
      · rcases hf a b y o1 res d' h1 hl h with h3 | ⟨o2, h3, rfl, h4⟩
        · exact .inl h3
        · exact .inr ⟨o2, h3, rfl, by rw [rd_bind, h2]; exact h4⟩
    · simp at h
      obtain ⟨rfl, rfl⟩ := h
      rcases hx b y off _ _ ho hl hr with h1 | ⟨o1, h1, rfl, h2⟩
      · simp at h1
        exact .inl (by rw [h1])
      · exact .inr ⟨o1, h1, rfl, by rw [rd_bind, h2]⟩
    · simp at h
      obtain ⟨rfl, rfl⟩ := h
      rcases hx b y off _ _ ho hl hr with h1 | ⟨o1, h1, rfl, h2⟩
      · simp at h1
      · exact .inr ⟨o1, h1, rfl, by rw [rd_bind, h2]⟩
theorem loc_ite {α : Type} {c : Prop} [Decidable c] {x y : Rd α} (hx : c → Loc x) (hy : ¬c → Loc y) :
    Loc (if c then x else y) := by
  split
  · exact hx ‹_›
  · exact hy ‹_›

/-- After a successful size check. -/
theorem loc_check {α : Type} (n : Nat) (f : Rd α)
    (hf : ∀ (b x : Bytes) (off : Nat) (res : Res α) (d' : D), off ≤ b.length → (b ++ x).length < 2 ^ 32 →
      (off + n) % U32 ≤ b.length → f ⟨b, off, false⟩ = (res, d') →
      ∃ off', off' ≤ b.length ∧ d' = ⟨b, off', false⟩ ∧ f ⟨b ++ x, off, false⟩ = (res, ⟨b ++ x, off', false⟩)) :
    Loc (check n >>= fun _ => f) := fun b x off res d' ho hl h => by
  have hb : b.length % U32 = b.length := Nat.mod_eq_of_lt (by simp at hl; unfold U32; omega)
  have hbx : (b ++ x).length % U32 = (b ++ x).length := Nat.mod_eq_of_lt (by unfold U32; omega)
  by_cases hc : (off + n) % U32 ≤ b.length
  · have h1 : check n ⟨b, off, false⟩ = (.ok (), ⟨b, off, false⟩) := by
      unfold check
      simp only [Bool.false_eq_true, if_false]
      rw [hb, if_neg (by omega)]
    have h2 : check n ⟨b ++ x, off, false⟩ = (.ok (), ⟨b ++ x, off, false⟩) := by
      unfold check
      simp only [Bool.false_eq_true, if_false]
      rw [hbx, if_neg (by simp; omega)]
    rw [rd_bind_ok h1] at h
    rw [rd_bind_ok h2]
    exact .inr (hf b x off res d' ho hl hc h)
  · have h1 : check n ⟨b, off, false⟩ = (.err rangeError, ⟨b, off, true⟩) := by
      unfold check
      simp only [Bool.false_eq_true, if_false]
      rw [hb, if_pos (by omega)]
    rw [rd_bind_err h1] at h
    simp at h
    exact .inl h.1.symm

theorem loc_getU (k : Nat) (hk : k ≤ 8) : Loc (getU k) := by
  refine loc_check k _ fun b x off res d' ho hl hc h => ?_
  unfold takeBE at h ⊢
  dsimp only at h ⊢
  by_cases h1 : off + k ≤ b.length
  · rw [if_pos h1] at h
    simp at h
    obtain ⟨rfl, rfl⟩ := h
    have hm : (off + k) % U32 = off + k := Nat.mod_eq_of_lt (by simp at hl; unfold U32; omega)
    refine ⟨off + k, h1, by rw [hm], ?_⟩
    rw [if_pos (by simp; omega), hm, List.drop_append_of_le_length ho,
      List.take_append_of_le_length (by simp; omega)]
  · rw [if_neg h1] at h
    simp at h
    obtain ⟨rfl, rfl⟩ := h
    refine ⟨off, ho, rfl, ?_⟩
    rw [if_neg ?_]
    unfold U32 at hc
    simp at hl ⊢
    omega

theorem loc_getS (k : Nat) (hk : k ≤ 8) : Loc (getS k) := loc_bind (loc_getU k hk) fun _ => loc_pure _

theorem loc_getBytes (n : Nat) : Loc (getBytes n) := by
  refine loc_check n _ fun b x off res d' ho hl hc h => ?_
  unfold takeSlice at h ⊢
  dsimp only at h ⊢
  by_cases h1 : off ≤ (off + n) % U32 ∧ (off + n) % U32 ≤ b.length
  · rw [if_pos h1] at h
    simp at h
    obtain ⟨rfl, rfl⟩ := h
    refine ⟨(off + n) % U32, h1.2, rfl, ?_⟩
    rw [if_pos (by simp; omega), List.drop_append_of_le_length ho,
      List.take_append_of_le_length (by simp; omega)]
  · rw [if_neg h1] at h
    simp at h
    obtain ⟨rfl, rfl⟩ := h
    exact ⟨off, ho, rfl, by rw [if_neg (by omega)]⟩

theorem loc_discard (n : Nat) : Loc (Iota.Msgpack.discard n) := by
  refine loc_check n _ fun b x off res d' ho hl hc h => ?_
  simp [advance] at h
  obtain ⟨rfl, rfl⟩ := h
  exact ⟨_, hc, rfl, rfl⟩

theorem loc_peek : Loc peek := by
  refine loc_check 1 _ fun b x off res d' ho hl hc h => ?_
  unfold byteHere at h ⊢
  dsimp only at h ⊢
  rcases Nat.lt_or_ge off b.length with hlt | hge
  · rw [List.getElem?_append_left hlt]
    rw [List.getElem?_eq_getElem hlt] at h ⊢
    simp at h
    obtain ⟨rfl, rfl⟩ := h
    exact ⟨off, ho, rfl, rfl⟩
  · have hx : x = [] := List.eq_nil_of_length_eq_zero (by unfold U32 at hc; simp at hl; omega)
    subst hx
    rw [List.getElem?_eq_none hge] at h
    rw [List.getElem?_eq_none (by simpa using hge)]
    simp at h
    obtain ⟨rfl, rfl⟩ := h
    exact ⟨off, ho, rfl, rfl⟩

/-- After a peek one byte can be discarded. -/
theorem loc_peek_ignore {α : Type} {f : Nat → Rd α} (hf : ∀ p, Loc (f p)) :
    Loc (peek >>= fun p => ignore (Iota.Msgpack.discard 1) >>= fun _ => f p) := by
  have hcom : ∀ d : D, d.err = false → d.off ≤ d.buf.length → d.buf.length < 2 ^ 32 →
      (peek >>= fun p => ignore (Iota.Msgpack.discard 1) >>= fun _ => f p) d =
      (peek >>= fun p => Iota.Msgpack.discard 1 >>= fun _ => f p) d := by
    intro d he ho hl
    rw [rd_bind, rd_bind]
    rcases hp : peek d with ⟨p | e | _, d1⟩
    · have hdd : d1 = d ∧ d.off + 1 ≤ d.buf.length := by
        unfold peek at hp
        rw [rd_bind] at hp
        rcases check_cases 1 d with hc | ⟨hc, _, hle⟩ <;> rw [hc] at hp
        · simp at hp
        · dsimp only at hp
          unfold byteHere at hp
          split at hp
          · rename_i hb
            simp at hp
            refine ⟨hp.2.symm, ?_⟩
            rcases Nat.lt_or_ge d.off d.buf.length with hn | hn
            · exact hn
            · rw [List.getElem?_eq_none hn] at hb
              simp at hb
          · simp at hp
      obtain ⟨rfl, hle⟩ := hdd
      dsimp only
      have hdi : Iota.Msgpack.discard 1 d1 = (.ok (), { d1 with off := (d1.off + 1) % U32 }) := by
        unfold Iota.Msgpack.discard
        rw [rd_bind_ok (check_ok he hle hl)]
        rfl
      have hig : ignore (Iota.Msgpack.discard 1) d1 = (.ok (), { d1 with off := (d1.off + 1) % U32 }) := by
        unfold ignore
        rw [hdi]
      rw [rd_bind_ok hdi, rd_bind_ok hig]
    · rfl
    · rfl
  have hloc : Loc (peek >>= fun p => Iota.Msgpack.discard 1 >>= fun _ => f p) :=
    loc_bind loc_peek fun p => loc_bind (loc_discard 1) fun _ => hf p
  intro b x off res d' ho hl h
  rw [hcom _ rfl ho (by simp at hl ⊢; omega)] at h
  rw [hcom _ rfl (by simp; omega) hl]
  exact hloc b x off res d' ho hl h

macro "loc_tac" : tactic => `(tactic| repeat' (with_reducible first
  | apply loc_ite <;> intro _
  | exact loc_pure _ | exact loc_fail _ | exact loc_getU _ (by decide) | exact loc_getS _ (by decide)
  | exact loc_peek | exact loc_getBytes _ | exact loc_discard _
  | refine loc_bind ?_ fun _ => ?_))

theorem loc_congr {α : Type} {x y : Rd α} (h : Loc x) (e : ∀ d, y d = x d) : Loc y := by
  have : y = x := funext e
  rw [this]; exact h

/-- Both branches start with the peek. -/
theorem loc_peek_ite {α : Type} {c : Nat → Prop} [∀ p, Decidable (c p)] {f g : Nat → Rd α}
    (hf : Loc (peek >>= f)) (hg : Loc (peek >>= g)) : Loc (peek >>= fun p => if c p then f p else g p) := by
  intro b x off res d' ho hl h
  rw [rd_bind] at h
  rcases hp : peek ⟨b, off, false⟩ with ⟨p | e | _, d1⟩ <;> rw [hp] at h
  · rcases loc_peek b x off _ _ ho hl hp with h1 | ⟨o1, h1, rfl, h2⟩
    · simp at h1
    dsimp only at h
    rw [rd_bind_ok h2]
    by_cases hc : c p
    · rw [if_pos hc] at h ⊢
      have := hf b x off res d' ho hl (by rw [rd_bind_ok hp]; exact h)
      rw [rd_bind_ok h2] at this
      exact this
    · rw [if_neg hc] at h ⊢
      have := hg b x off res d' ho hl (by rw [rd_bind_ok hp]; exact h)
      rw [rd_bind_ok h2] at this
      exact this
  · have := hf b x off res d' ho hl (by rw [rd_bind_err hp]; exact h)
    rcases this with h1 | ⟨o1, h1, h3, h2⟩
    · exact .inl h1
    · refine .inr ⟨o1, h1, h3, ?_⟩
      simp at h
      obtain ⟨rfl, rfl⟩ := h
      rcases loc_peek b x off _ _ ho hl hp with h5 | ⟨o5, h5, h6, h7⟩
      · simp at h5
        subst h5
        have := marks_peek _ _ hp
        rw [h3] at this
        simp at this
      · rw [rd_bind_err h7]
        rw [h6] at h3
        simp at h3
        rw [h3]
  · rcases loc_peek b x off _ _ ho hl hp with h5 | ⟨o5, h5, h6, h7⟩
    · simp at h5
    · simp at h
      obtain ⟨rfl, rfl⟩ := h
      exact .inr ⟨o5, h5, h6, by rw [rd_bind, h7]⟩

theorem loc_isNextNil : Loc Dec.isNextNil := by
  unfold Dec.isNextNil
  exact loc_peek_ite (loc_peek_ignore fun _ => loc_pure _) (loc_bind loc_peek fun _ => loc_pure _)
theorem loc_nillable {α : Type} {r : Rd α} (h : Loc r) : Loc (Dec.nillable r) :=
  loc_bind loc_isNextNil fun _ => loc_ite (fun _ => loc_pure _) fun _ => loc_bind h fun _ => loc_pure _
theorem loc_bool : Loc Dec.bool := by unfold Dec.bool; loc_tac
theorem loc_int64 : Loc Dec.int64 := by unfold Dec.int64; loc_tac
theorem loc_intK (k : Nat) : Loc (Dec.intK k) := loc_bind loc_int64 fun _ => by loc_tac
theorem loc_nonNeg (k : Nat) (hk : k ≤ 8) : Loc (Dec.nonNeg k) := loc_bind (loc_getS k hk) fun _ => by loc_tac
theorem loc_uint64 : Loc Dec.uint64 := by
  unfold Dec.uint64
  loc_tac <;> exact loc_nonNeg _ (by decide)
theorem loc_uintK (k : Nat) : Loc (Dec.uintK k) := loc_bind loc_uint64 fun _ => by loc_tac
theorem loc_f32 (lib : Lib) : Loc (Dec.f32 lib) := by unfold Dec.f32; loc_tac
theorem loc_f64 : Loc Dec.f64 := by unfold Dec.f64; loc_tac
theorem loc_strLen : Loc Dec.strLen := by unfold Dec.strLen; loc_tac
theorem loc_str : Loc Dec.str := loc_bind loc_strLen fun _ => loc_getBytes _
theorem loc_binLen : Loc Dec.binLen := by unfold Dec.binLen; loc_tac
theorem loc_bytes : Loc Dec.bytes := loc_bind loc_binLen fun _ => loc_getBytes _
theorem loc_arraySize : Loc Dec.arraySize := by unfold Dec.arraySize; loc_tac
theorem loc_mapSize : Loc Dec.mapSize := by unfold Dec.mapSize; loc_tac
theorem loc_extLen (c : Nat) : Loc (Dec.extLen c) := by
  unfold Dec.extLen
  loc_tac <;> exact loc_uintK _
theorem loc_decodeTime (n : Nat) : Loc (Dec.decodeTime n) := by unfold Dec.decodeTime; loc_tac
theorem loc_time (lib : Lib) : Loc (Dec.time lib) := by
  unfold Dec.time
  refine loc_peek_ite (loc_bind loc_peek fun _ => loc_bind loc_str fun s => ?_) ?_
  · cases lib.parseTime s with
    | none => exact loc_fail _
    | some t => exact loc_pure _
  · exact loc_peek_ignore fun p => loc_bind (loc_extLen p) fun n => loc_bind (loc_getU 1 (by decide)) fun _ =>
      loc_ite (fun _ => loc_fail _) fun _ => loc_decodeTime n
theorem loc_leaf {α : Type} {f : α → Any} {r : Rd α} (h : Loc r) : Loc (Dec.leaf f r) :=
  loc_bind h fun _ => loc_pure _
theorem loc_arrN {r : Rd Nat} (h : Loc r) : Loc (Dec.arrN r) := loc_bind h fun _ => loc_pure _
theorem loc_mapN {r : Rd Nat} (h : Loc r) : Loc (Dec.mapN r) := loc_bind h fun _ => loc_pure _
theorem loc_anyHead : Loc Dec.anyHead := by
  unfold Dec.anyHead
  refine loc_bind (loc_getU 1 (by decide)) fun p => ?_
  have lb : ∀ k, k ≤ 8 → Loc (getU k >>= getBytes) := fun k hk => loc_bind (loc_getU k hk) fun _ => loc_getBytes _
  repeat' (with_reducible first
    | apply loc_ite <;> intro _
    | exact loc_pure _ | exact loc_fail _
    | exact loc_leaf (loc_getU _ (by decide)) | exact loc_leaf (loc_getS _ (by decide))
    | exact loc_leaf (loc_getBytes _)
    | exact loc_leaf (lb _ (by decide)) | exact loc_arrN (loc_getU _ (by decide))
    | exact loc_mapN (loc_getU _ (by decide)))
theorem loc_rint (w : Width) : Loc (rint w) := by
  cases w
  · exact loc_intK _
  · exact loc_intK _
  · exact loc_intK _
  · exact loc_int64
theorem loc_ruint (w : Width) : Loc (ruint w) := by
  cases w
  · exact loc_uintK _
  · exact loc_uintK _
  · exact loc_uintK _
  · exact loc_uint64

/-- If a reader reads `bs`, it reports a range error on every strict prefix of `bs`. -/
theorem loc_trunc {α : Type} {r : Rd α} (hl : Loc r) {bs : Bytes} {a : α} (hr : Reads r bs a) (pre : Bytes) (k : Nat)
    (hk : k < bs.length) (hlt : (pre ++ bs).length < 2 ^ 32) :
    (r ⟨pre ++ bs.take k, pre.length, false⟩).1 = .err rangeError := by
  have e : pre ++ bs.take k ++ bs.drop k = pre ++ bs := by simp
  rcases hl (pre ++ bs.take k) (bs.drop k) pre.length _ _ (by simp) (by rw [e]; exact hlt) rfl with h | ⟨o, h1, _, h3⟩
  · exact h
  · exfalso
    have h4 := hr pre [] (by simpa using hlt)
    rw [e] at h3
    simp only [List.append_nil] at h4
    rw [h4] at h3
    simp at h3 h1
    omega

/-- `Loc` for a run that returns. -/
def RLoc {α : Type} (r : Dec.Run α) : Prop :=
  ∀ (b x : Bytes) (off : Nat) (res : Res α) (d' : D), off ≤ b.length → (b ++ x).length < 2 ^ 32 →
    r ⟨b, off, false⟩ = some (res, d') →
    res = .err rangeError ∨
      (∃ off', off' ≤ b.length ∧ d' = ⟨b, off', false⟩ ∧ r ⟨b ++ x, off, false⟩ = some (res, ⟨b ++ x, off', false⟩))

theorem rloc_any (f : Nat) : RLoc (Dec.any f) ∧ (∀ n acc, RLoc (Dec.array f n acc)) ∧ (∀ n m, RLoc (Dec.map f n m)) := by
  induction f with
  | zero =>
    exact ⟨fun b x o r d' _ _ h => by simp [Dec.any] at h, fun n acc b x o r d' _ _ h => by simp [Dec.array] at h,
      fun n m b x o r d' _ _ h => by simp [Dec.map] at h⟩
  | succ f ih =>
    refine ⟨?_, ?_, ?_⟩
    · intro b x off res d' ho hl h
      rw [Dec.any] at h
      rcases hg : Dec.anyHead ⟨b, off, false⟩ with ⟨s | e | _, d1⟩ <;> rw [hg] at h <;>
        have hq := loc_anyHead b x off _ _ ho hl hg
      · rcases hq with h1 | ⟨o1, h1, rfl, h2⟩
        · simp at h1
        cases s with
        | val v =>
          simp at h
          obtain ⟨rfl, rfl⟩ := h
          exact .inr ⟨o1, h1, rfl, by rw [Dec.any, h2]⟩
        | arr n =>
          rcases ih.2.1 n [] b x o1 res d' h1 hl h with h3 | ⟨o2, h3, h4, h5⟩
          · exact .inl h3
          · exact .inr ⟨o2, h3, h4, by rw [Dec.any, h2]; exact h5⟩
        | map n =>
          rcases ih.2.2 n [] b x o1 res d' h1 hl h with h3 | ⟨o2, h3, h4, h5⟩
          · exact .inl h3
          · exact .inr ⟨o2, h3, h4, by rw [Dec.any, h2]; exact h5⟩
      · simp at h
        obtain ⟨rfl, rfl⟩ := h
        rcases hq with h1 | ⟨o1, h1, rfl, h2⟩
        · simp at h1
          exact .inl (by rw [h1])
        · exact .inr ⟨o1, h1, rfl, by rw [Dec.any, h2]⟩
      · simp at h
        obtain ⟨rfl, rfl⟩ := h
        rcases hq with h1 | ⟨o1, h1, rfl, h2⟩
        · simp at h1
        · exact .inr ⟨o1, h1, rfl, by rw [Dec.any, h2]⟩
    · intro n acc b x off res d' ho hl h
      cases n with
      | zero =>
        simp [Dec.array] at h
        obtain ⟨rfl, rfl⟩ := h
        exact .inr ⟨off, ho, rfl, by simp [Dec.array]⟩
      | succ n =>
        rw [Dec.array] at h
        rcases hg : Dec.any f ⟨b, off, false⟩ with _ | ⟨s | e | _, d1⟩ <;> rw [hg] at h
        · simp at h
        · rcases ih.1 b x off _ _ ho hl hg with h1 | ⟨o1, h1, rfl, h2⟩
          · simp at h1
          rcases ih.2.1 n (s :: acc) b x o1 res d' h1 hl h with h3 | ⟨o2, h3, h4, h5⟩
          · exact .inl h3
          · exact .inr ⟨o2, h3, h4, by rw [Dec.array, h2]; exact h5⟩
        · simp at h
          obtain ⟨rfl, rfl⟩ := h
          rcases ih.1 b x off _ _ ho hl hg with h1 | ⟨o1, h1, rfl, h2⟩
          · exact .inl h1
          · exact .inr ⟨o1, h1, rfl, by rw [Dec.array, h2]⟩
        · simp at h
          obtain ⟨rfl, rfl⟩ := h
          rcases ih.1 b x off _ _ ho hl hg with h1 | ⟨o1, h1, rfl, h2⟩
          · exact .inl h1
          · exact .inr ⟨o1, h1, rfl, by rw [Dec.array, h2]⟩
    · intro n m b x off res d' ho hl h
      cases n with
      | zero =>
        simp [Dec.map] at h
        obtain ⟨rfl, rfl⟩ := h
        exact .inr ⟨off, ho, rfl, by simp [Dec.map]⟩
      | succ n =>
        rw [Dec.map] at h
        rcases hg : Dec.any f ⟨b, off, false⟩ with _ | ⟨k | e | _, d1⟩ <;> rw [hg] at h
        · simp at h
        · rcases ih.1 b x off _ _ ho hl hg with h1 | ⟨o1, h1, rfl, h2⟩
          · simp at h1
          dsimp only at h
          rcases hg2 : Dec.any f ⟨b, o1, false⟩ with _ | ⟨v | e | _, d2⟩ <;> rw [hg2] at h
          · simp at h
          · rcases ih.1 b x o1 _ _ h1 hl hg2 with h3 | ⟨o2, h3, rfl, h4⟩
            · simp at h3
            dsimp only at h
            by_cases hu : Dec.unhashable k = true
            · rw [if_pos hu] at h
              simp at h
              obtain ⟨rfl, rfl⟩ := h
              refine .inr ⟨o2, h3, rfl, ?_⟩
              rw [Dec.map, h2]
              dsimp only
              rw [h4]
              simp [hu]
            · rw [if_neg hu] at h
              rcases ih.2.2 n (Dec.mapSet m k v) b x o2 res d' h3 hl h with h5 | ⟨o3, h5, h6, h7⟩
              · exact .inl h5
              · refine .inr ⟨o3, h5, h6, ?_⟩
                rw [Dec.map, h2]
                dsimp only
                rw [h4]
                simp [hu, h7]
          all_goals
            simp at h
            obtain ⟨rfl, rfl⟩ := h
            rcases ih.1 b x o1 _ _ h1 hl hg2 with h3 | ⟨o2, h3, rfl, h4⟩
            · exact .inl h3
            · refine .inr ⟨o2, h3, rfl, ?_⟩
              rw [Dec.map, h2]
              dsimp only
              rw [h4]
        all_goals
          simp at h
          obtain ⟨rfl, rfl⟩ := h
          rcases ih.1 b x off _ _ ho hl hg with h1 | ⟨o1, h1, rfl, h2⟩
          · exact .inl h1
          · exact .inr ⟨o1, h1, rfl, by rw [Dec.map, h2]⟩

end Iota.Lemmas.Msgpack
