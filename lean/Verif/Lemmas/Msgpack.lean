import Verif.Spec.Msgpack

/-! # Lemmas about the MessagePack model: writing and reading at a position -/

namespace Iota.Lemmas.Msgpack
open Iota.Go Iota.Msgpack Iota.Spec.Msgpack

/-! ## Writing -/

theorem check_ok {d : D} {n : Nat} (he : d.err = false) (hn : d.off + n ≤ d.buf.length)
    (hb : d.buf.length < 2 ^ 32) : check n d = (.ok (), d) := by
  unfold check
  rw [he]
  simp only [Bool.false_eq_true, if_false]
  rw [if_neg]
  unfold U32
  omega

theorem take_left_append (a b : Bytes) : (a ++ b).take a.length = a := by simp
theorem drop_left_append (a b : Bytes) : (a ++ b).drop a.length = b := by simp

theorem writes_setRaw (bs : Bytes) : Writes (setRaw bs) bs := by
  intro pre old post hl hlt
  unfold setRaw
  rw [check_ok rfl (by simp at *; omega) hlt]
  simp only
  simp only [List.append_assoc, List.length_append] at *
  rw [if_pos (by omega)]
  have e1 : (pre ++ (old ++ post)).take pre.length = pre := by simp
  have e2 : (pre ++ (old ++ post)).drop (pre.length + bs.length) = post := by
    rw [← List.drop_drop, List.drop_left, ← hl, List.drop_left]
  rw [e1, e2, Nat.mod_eq_of_lt (by unfold U32; omega)]

theorem writes_setU (k n : Nat) : Writes (setU k n) (beBytes k n) := writes_setRaw _
theorem writes_setS (k : Nat) (v : Int) : Writes (setS k v) (beBytes k (toU k v)) := writes_setRaw _

theorem writes_setBytes (bs : Bytes) (h : bs.length < 2 ^ 32) : Writes (setBytes bs) bs := by
  intro pre old post hl hlt
  unfold setBytes
  have hm : bs.length % U32 = bs.length := Nat.mod_eq_of_lt (by unfold U32; omega)
  rw [hm, check_ok rfl (by simp at *; omega) hlt]
  simp only
  simp only [List.append_assoc, List.length_append] at *
  rw [if_pos (by omega)]
  have e1 : (pre ++ (old ++ post)).take pre.length = pre := by simp
  have e2 : (pre ++ (old ++ post)).drop (pre.length + bs.length) = post := by
    rw [← List.drop_drop, List.drop_left, ← hl, List.drop_left]
  rw [e1, e2, Nat.mod_eq_of_lt (by unfold U32; omega)]
  rw [List.take_of_length_le (by simp; omega)]

theorem writes_skip : Writes Wr.skip [] := by
  intro pre old post hl _
  have : old = [] := by simpa using hl
  simp [Wr.skip, this]

theorem _root_.Iota.Spec.Msgpack.Writes.seq {a b : Wr} {x y : Bytes} (ha : Writes a x) (hb : Writes b y) :
    Writes (a.seq b) (x ++ y) := by
  intro pre old post hl hlt
  simp only [List.length_append] at hl hlt
  have e : old = old.take x.length ++ old.drop x.length := (List.take_append_drop _ _).symm
  have h1 : (old.take x.length).length = x.length := by simp; omega
  have h2 : (old.drop x.length).length = y.length := by simp; omega
  have ha' := ha pre (old.take x.length) (old.drop x.length ++ post) h1 (by simp at *; omega)
  have hb' := hb (pre ++ x) (old.drop x.length) post h2 (by simp at *; omega)
  unfold Wr.seq
  have e3 : pre ++ old ++ post =
      pre ++ old.take x.length ++ (old.drop x.length ++ post) := by
    conv => lhs; rw [e]
    simp only [List.append_assoc]
  rw [e3, ha']
  simp only [Res.bind]
  have e4 : pre ++ x ++ (old.drop x.length ++ post) = pre ++ x ++ old.drop x.length ++ post := by simp
  rw [e4]
  simp only [List.length_append] at hb' ⊢
  rw [hb']
  simp [Nat.add_assoc]

theorem _root_.Iota.Spec.Msgpack.Writes.cast {a : Wr} {x y : Bytes} (ha : Writes a x) (h : x = y) : Writes a y := h ▸ ha

theorem writes_each {α : Type} (f : α → Wr) (g : α → Bytes) (l : List α)
    (h : ∀ a ∈ l, Writes (f a) (g a)) : Writes (Enc.each f l) (l.flatMap g) := by
  induction l with
  | nil => exact writes_skip
  | cons a l ih =>
    simp only [Enc.each, List.flatMap_cons]
    exact (h a List.mem_cons_self).seq (ih fun x hx => h x (List.mem_cons_of_mem _ hx))

/-- A write from the start of a zeroed buffer of the right size. -/
theorem _root_.Iota.Spec.Msgpack.Writes.start {w : Wr} {bs : Bytes} (h : Writes w bs) (hlt : bs.length < 2 ^ 32) :
    withBuffer bs.length w = .ok ⟨bs, bs.length, false⟩ := by
  have := h [] (List.replicate bs.length 0) [] (by simp) (by simpa using hlt)
  unfold withBuffer D.new
  rw [Nat.mod_eq_of_lt (by unfold U32; omega)]
  simpa using this

/-! ## Reading -/

@[simp] theorem rd_pure {α : Type} (a : α) (d : D) : (pure a : Rd α) d = (.ok a, d) := rfl

theorem rd_bind {α β : Type} (x : Rd α) (f : α → Rd β) (d : D) :
    (x >>= f) d = match x d with
      | (.ok a, d') => f a d'
      | (.err e, d') => (.err e, d')
      | (.panic, d') => (.panic, d') := rfl

theorem rd_map {α β : Type} (x : Rd α) (f : α → β) (d : D) :
    (f <$> x) d = match x d with
      | (.ok a, d') => (.ok (f a), d')
      | (.err e, d') => (.err e, d')
      | (.panic, d') => (.panic, d') := rfl

theorem rd_bind_ok {α β : Type} {x : Rd α} {f : α → Rd β} {d d' : D} {a : α}
    (h : x d = (.ok a, d')) : (x >>= f) d = f a d' := by rw [rd_bind, h]

theorem rd_bind_err {α β : Type} {x : Rd α} {f : α → Rd β} {d d' : D} {e : String}
    (h : x d = (.err e, d')) : (x >>= f) d = (.err e, d') := by rw [rd_bind, h]

theorem _root_.Iota.Spec.Msgpack.Reads.pure {α : Type} (a : α) : Reads (pure a : Rd α) [] a := by
  intro pre rest _; simp

theorem _root_.Iota.Spec.Msgpack.Reads.bind {α β : Type} {x : Rd α} {f : α → Rd β} {bs cs : Bytes} {a : α} {b : β}
    (hx : Reads x bs a) (hf : Reads (f a) cs b) : Reads (x >>= f) (bs ++ cs) b := by
  intro pre rest hlt
  have h1 := hx pre (cs ++ rest) (by simpa using hlt)
  have h2 := hf (pre ++ bs) rest (by simpa using hlt)
  have e : pre ++ (bs ++ cs) ++ rest = pre ++ bs ++ (cs ++ rest) := by simp
  rw [e, rd_bind_ok h1]
  have e2 : pre ++ bs ++ (cs ++ rest) = pre ++ bs ++ cs ++ rest := by simp
  rw [e2]
  simp only [List.length_append] at h2 ⊢
  rw [h2]
  simp [Nat.add_assoc]

/-- The last step of a reader consumes nothing. -/
theorem _root_.Iota.Spec.Msgpack.Reads.bind_pure {α β : Type} {x : Rd α} {f : α → Rd β} {bs : Bytes} {a : α} {b : β}
    (hx : Reads x bs a) (hf : Reads (f a) [] b) : Reads (x >>= f) bs b := by
  simpa using Reads.bind hx hf

theorem _root_.Iota.Spec.Msgpack.Reads.map {α β : Type} {x : Rd α} {f : α → β} {bs : Bytes} {a : α}
    (hx : Reads x bs a) : Reads (f <$> x) bs (f a) := by
  intro pre rest hlt
  rw [rd_map, hx pre rest hlt]

theorem _root_.Iota.Spec.Msgpack.Reads.congr {α : Type} {x : Rd α} {bs cs : Bytes} {a b : α} (hx : Reads x bs a) (h : bs = cs)
    (ha : a = b) : Reads x cs b := h ▸ ha ▸ hx

theorem reads_check {n : Nat} {pre bs rest : Bytes} (hn : n = bs.length)
    (hlt : (pre ++ bs ++ rest).length < 2 ^ 32) :
    check n ⟨pre ++ bs ++ rest, pre.length, false⟩ = (.ok (), ⟨pre ++ bs ++ rest, pre.length, false⟩) := by
  apply check_ok rfl _ hlt
  simp; omega

theorem reads_getU (bs : Bytes) : Reads (getU bs.length) bs (beNat bs) := by
  intro pre rest hlt
  unfold getU
  rw [rd_bind_ok (reads_check rfl hlt)]
  unfold takeBE
  simp only [List.length_append] at *
  rw [if_pos (by omega), Nat.mod_eq_of_lt (by unfold U32; omega)]
  congr
  · have : pre ++ bs ++ rest = pre ++ (bs ++ rest) := by simp
    rw [this, List.drop_left, List.take_left]

theorem reads_getU_be (k n : Nat) (h : n < 256 ^ k) : Reads (getU k) (beBytes k n) n := by
  have := reads_getU (beBytes k n)
  rw [length_beBytes, beNat_beBytes_of_lt h] at this
  exact this

theorem reads_byte (b : UInt8) : Reads (getU 1) [b] b.toNat := by
  have := reads_getU [b]
  simpa [beNat] using this

theorem reads_getBytes (bs : Bytes) : Reads (getBytes bs.length) bs bs := by
  intro pre rest hlt
  unfold getBytes
  rw [rd_bind_ok (reads_check rfl hlt)]
  unfold takeSlice
  simp only [List.length_append] at *
  have hm : (pre.length + bs.length) % U32 = pre.length + bs.length :=
    Nat.mod_eq_of_lt (by unfold U32; omega)
  rw [hm]
  rw [if_pos (by omega)]
  congr
  · have : pre ++ bs ++ rest = pre ++ (bs ++ rest) := by simp
    rw [this, List.drop_left, Nat.add_sub_cancel_left, List.take_left]

theorem reads_discard (bs : Bytes) : Reads (Iota.Msgpack.discard bs.length) bs () := by
  intro pre rest hlt
  unfold Iota.Msgpack.discard
  rw [rd_bind_ok (reads_check rfl hlt)]
  simp only [List.length_append] at *
  unfold advance
  have hm : (pre.length + bs.length) % U32 = pre.length + bs.length :=
    Nat.mod_eq_of_lt (by unfold U32; omega)
  simp only [hm]

theorem _root_.Iota.Spec.Msgpack.Reads.ignore {x : Rd Unit} {bs : Bytes} (h : Reads x bs ()) : Reads (ignore x) bs () := by
  intro pre rest hlt
  unfold Iota.Msgpack.ignore
  rw [h pre rest hlt]

/-- Looking at the next byte. -/
theorem peek_eq (pre : Bytes) (b : UInt8) (rest : Bytes) (hlt : (pre ++ b :: rest).length < 2 ^ 32) :
    peek ⟨pre ++ b :: rest, pre.length, false⟩ = (.ok b.toNat, ⟨pre ++ b :: rest, pre.length, false⟩) := by
  unfold peek
  have : pre ++ b :: rest = pre ++ [b] ++ rest := by simp
  rw [rd_bind_ok (by rw [this]; exact reads_check (n := 1) rfl (by simpa using hlt))]
  simp [byteHere]

/-- A reader that looks at the next byte first. -/
theorem _root_.Iota.Spec.Msgpack.Reads.peek {α : Type} {f : Nat → Rd α} {b : UInt8} {cs : Bytes} {a : α}
    (h : Reads (f b.toNat) (b :: cs) a) : Reads (Iota.Msgpack.peek >>= f) (b :: cs) a := by
  intro pre rest hlt
  have e : pre ++ b :: cs ++ rest = pre ++ b :: (cs ++ rest) := by simp
  have hp := peek_eq pre b (cs ++ rest) (by simpa using hlt)
  rw [← e] at hp
  rw [rd_bind_ok hp]
  exact h pre rest hlt

theorem reads_ite {α : Type} {c : Prop} [Decidable c] {x y : Rd α} {bs : Bytes} {a : α}
    (hp : c → Reads x bs a) (hn : ¬c → Reads y bs a) : Reads (if c then x else y) bs a := by
  split
  · exact hp ‹_›
  · exact hn ‹_›

/-! ## Signed numbers -/

theorem pow_8 (k : Nat) : (2 : Nat) ^ (8 * k) = 256 ^ k := by
  rw [Nat.pow_mul]

theorem toU_lt (k : Nat) (v : Int) : toU k v < 256 ^ k := by
  unfold toU
  have hp : (0 : Int) < 2 ^ (8 * k) := Int.pow_pos (by decide)
  have h := Int.emod_lt_of_pos v hp
  have h0 := Int.emod_nonneg v (Int.ne_of_gt hp)
  have : ((v % 2 ^ (8 * k)).toNat : Int) < ((256 ^ k : Nat) : Int) := by
    rw [Int.toNat_of_nonneg h0]
    have : ((256 ^ k : Nat) : Int) = 2 ^ (8 * k) := by
      rw [← pow_8]; simp
    rw [this]; exact h
  exact_mod_cast this

theorem toS_toU {k : Nat} (hk : k = 1 ∨ k = 2 ∨ k = 4 ∨ k = 8) (v : Int)
    (h : -2 ^ (8 * k - 1) ≤ v ∧ v < 2 ^ (8 * k - 1)) : toS k (toU k v) = v := by
  rcases hk with rfl | rfl | rfl | rfl <;> (unfold toS toU; simp at *; omega)

theorem reads_getS {k : Nat} (hk : k = 1 ∨ k = 2 ∨ k = 4 ∨ k = 8) (v : Int)
    (h : -2 ^ (8 * k - 1) ≤ v ∧ v < 2 ^ (8 * k - 1)) : Reads (getS k) (beBytes k (toU k v)) v := by
  refine Reads.congr (Reads.bind_pure (reads_getU_be k (toU k v) (toU_lt k v)) (Reads.pure _)) rfl ?_
  exact toS_toU hk v h

end Iota.Lemmas.Msgpack
