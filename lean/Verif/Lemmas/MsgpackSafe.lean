import Verif.Lemmas.MsgpackDec

/-! # Lemmas: hostile input -/

namespace Iota.Lemmas.Msgpack
open Iota.Go Iota.Msgpack Iota.Spec.Msgpack

/-! ### basic readers -/

theorem check_cases (n : Nat) (d : D) :
    check n d = (.err rangeError, { d with err := true }) ∨
    (check n d = (.ok (), d) ∧ d.err = false ∧ (d.off + n) % U32 ≤ d.buf.length % U32) := by
  unfold check
  by_cases he : d.err = true
  · left
    rw [if_pos he]
    cases d; simp_all
  · rw [if_neg he]
    split
    · left; rfl
    · right; exact ⟨rfl, by simpa using he, by omega⟩

theorem inv_off {d : D} (h : InBuf d) : d.off ≤ d.buf.length ∧ d.buf.length < 2 ^ 32 - 65535 := by
  unfold InBuf at h; omega

theorem inv_err {d : D} (h : InBuf d) : InBuf { d with err := true } := h

theorem getU_cases {k : Nat} (hk : k ≤ 8) {d : D} (h : InBuf d) :
    getU k d = (.err rangeError, { d with err := true }) ∨
    (getU k d = (.ok (beNat ((d.buf.drop d.off).take k)), { d with off := d.off + k }) ∧ d.err = false ∧
      d.off + k ≤ d.buf.length) := by
  have hi := inv_off h
  unfold getU
  rcases check_cases k d with hc | ⟨hc, he, hle⟩
  · left; rw [rd_bind_err hc]
  · right
    have e1 : (d.off + k) % U32 = d.off + k := Nat.mod_eq_of_lt (by unfold U32; omega)
    have e2 : d.buf.length % U32 = d.buf.length := Nat.mod_eq_of_lt (by unfold U32; omega)
    rw [e1, e2] at hle
    rw [rd_bind_ok hc]
    unfold takeBE
    rw [if_pos hle, e1]
    exact ⟨rfl, he, hle⟩

theorem getBytes_cases {n : Nat} (hn : n < 2 ^ 32) {d : D} (h : InBuf d) :
    getBytes n d = (.err rangeError, { d with err := true }) ∨
    (getBytes n d = (.panic, d) ∧ 2 ^ 32 ≤ d.off + n) ∨
    (getBytes n d = (.ok ((d.buf.drop d.off).take n), { d with off := d.off + n }) ∧ d.err = false ∧
      d.off + n ≤ d.buf.length) := by
  have hi := inv_off h
  unfold getBytes
  rcases check_cases n d with hc | ⟨hc, he, hle⟩
  · left; rw [rd_bind_err hc]
  · right
    have e2 : d.buf.length % U32 = d.buf.length := Nat.mod_eq_of_lt (by unfold U32; omega)
    rw [e2] at hle
    rw [rd_bind_ok hc]
    unfold takeSlice
    by_cases hw : d.off + n < 2 ^ 32
    · right
      have e1 : (d.off + n) % U32 = d.off + n := Nat.mod_eq_of_lt (by unfold U32; omega)
      rw [e1] at hle ⊢
      rw [if_pos ⟨by omega, hle⟩]
      refine ⟨?_, he, hle⟩
      rw [Nat.add_sub_cancel_left]
    · left
      rw [if_neg]
      · exact ⟨rfl, by omega⟩
      · unfold U32; omega

theorem discard_cases {n : Nat} (hn : n < 2 ^ 32) {d : D} (h : InBuf d) (hw : d.off + n < 2 ^ 32) :
    Iota.Msgpack.discard n d = (.err rangeError, { d with err := true }) ∨
    (Iota.Msgpack.discard n d = (.ok (), { d with off := d.off + n }) ∧ d.err = false ∧
      d.off + n ≤ d.buf.length) := by
  have hi := inv_off h
  unfold Iota.Msgpack.discard
  rcases check_cases n d with hc | ⟨hc, he, hle⟩
  · left; rw [rd_bind_err hc]
  · right
    have e2 : d.buf.length % U32 = d.buf.length := Nat.mod_eq_of_lt (by unfold U32; omega)
    have e1 : (d.off + n) % U32 = d.off + n := Nat.mod_eq_of_lt (by unfold U32; omega)
    rw [e1, e2] at hle
    rw [rd_bind_ok hc]
    unfold advance
    rw [e1]
    exact ⟨rfl, he, hle⟩

theorem peek_cases {d : D} (h : InBuf d) :
    peek d = (.err rangeError, { d with err := true }) ∨
    (∃ c : UInt8, peek d = (.ok c.toNat, d) ∧ d.buf[d.off]? = some c ∧ d.err = false) := by
  have hi := inv_off h
  unfold peek
  rcases check_cases 1 d with hc | ⟨hc, he, hle⟩
  · left; rw [rd_bind_err hc]
  · right
    have e2 : d.buf.length % U32 = d.buf.length := Nat.mod_eq_of_lt (by unfold U32; omega)
    have e1 : (d.off + 1) % U32 = d.off + 1 := Nat.mod_eq_of_lt (by unfold U32; omega)
    rw [e1, e2] at hle
    rw [rd_bind_ok hc]
    unfold byteHere
    have hlt : d.off < d.buf.length := by omega
    have : d.buf[d.off]? = some d.buf[d.off] := List.getElem?_eq_getElem hlt
    exact ⟨d.buf[d.off], by rw [this], this, he⟩

/-- The first byte of a value. -/
theorem getU1_cases {d : D} (h : InBuf d) :
    getU 1 d = (.err rangeError, { d with err := true }) ∨
    (∃ c : UInt8, getU 1 d = (.ok c.toNat, { d with off := d.off + 1 }) ∧ d.buf[d.off]? = some c ∧
      d.err = false ∧ d.off + 1 ≤ d.buf.length ∧ d.buf.drop d.off = c :: d.buf.drop (d.off + 1)) := by
  rcases getU_cases (k := 1) (by decide) h with hc | ⟨hc, he, hle⟩
  · exact .inl hc
  · right
    have hlt : d.off < d.buf.length := by omega
    have hd : d.buf.drop d.off = d.buf[d.off] :: d.buf.drop (d.off + 1) := List.drop_eq_getElem_cons hlt
    refine ⟨d.buf[d.off], ?_, List.getElem?_eq_getElem hlt, he, hle, hd⟩
    rw [hc]
    have e : beNat ((d.buf.drop d.off).take 1) = d.buf[d.off].toNat := by
      have := congrArg (fun l => beNat (List.take 1 l)) hd
      refine this.trans ?_
      rw [List.take_succ_cons, List.take_zero]
      simp [beNat]
    rw [e]

/-! ### progress and absence of panics -/

/-- The reader stays inside the buffer and does not move backwards. -/
def Prog (T : Bytes → Prop) {α : Type} (r : Rd α) : Prop :=
  ∀ d, InBuf d → T d.buf → InBuf (r d).2 ∧ (r d).2.buf = d.buf ∧ d.off ≤ (r d).2.off

/-- The reader does not panic. -/
def NP (T : Bytes → Prop) {α : Type} (r : Rd α) : Prop :=
  ∀ d, InBuf d → T d.buf → (r d).1 ≠ .panic

theorem prog_pure {T} {α : Type} (a : α) : Prog T (pure a : Rd α) := fun _ h _ => ⟨h, rfl, Nat.le_refl _⟩
theorem prog_fail {T} {α : Type} (e : String) : Prog T (Rd.fail e : Rd α) := fun _ h _ => ⟨h, rfl, Nat.le_refl _⟩
theorem np_pure {T} {α : Type} (a : α) : NP T (pure a : Rd α) := fun _ _ _ => nofun
theorem np_fail {T} {α : Type} (e : String) : NP T (Rd.fail e : Rd α) := fun _ _ _ => nofun

theorem prog_bind {T} {α β : Type} {x : Rd α} {f : α → Rd β} (hx : Prog T x) (hf : ∀ a, Prog T (f a)) :
    Prog T (x >>= f) := by
  intro d h ht
  have h1 := hx d h ht
  rw [rd_bind]
  rcases hr : x d with ⟨_ | _ | _, d'⟩ <;> rw [hr] at h1
  · rename_i a
    have h2 := hf a d' h1.1 (h1.2.1 ▸ ht)
    exact ⟨h2.1, h2.2.1.trans h1.2.1, Nat.le_trans h1.2.2 h2.2.2⟩
  · exact h1
  · exact h1

theorem np_bind {T} {α β : Type} {x : Rd α} {f : α → Rd β} (hp : Prog T x) (hx : NP T x)
    (hf : ∀ a, NP T (f a)) : NP T (x >>= f) := by
  intro d h ht
  have h1 := hx d h ht
  have h2 := hp d h ht
  rw [rd_bind]
  rcases hr : x d with ⟨_ | _ | _, d'⟩ <;> rw [hr] at h1 h2
  · exact hf _ d' h2.1 (h2.2.1 ▸ ht)
  · simp
  · exact absurd rfl h1

theorem prog_ite {T} {α : Type} {c : Prop} [Decidable c] {x y : Rd α} (hx : c → Prog T x) (hy : ¬c → Prog T y) :
    Prog T (if c then x else y) := by 
  split
  · exact hx ‹_›
  · exact hy ‹_›

theorem np_ite {T} {α : Type} {c : Prop} [Decidable c] {x y : Rd α} (hx : c → NP T x) (hy : ¬c → NP T y) :
    NP T (if c then x else y) := by 
  split
  · exact hx ‹_›
  · exact hy ‹_›

theorem prog_getU {T} {k : Nat} (hk : k ≤ 8) : Prog T (getU k) := by
  intro d h _
  rcases getU_cases hk h with hc | ⟨hc, _, hle⟩ <;> rw [hc]
  · exact ⟨h, rfl, Nat.le_refl _⟩
  · exact ⟨⟨hle, h.2⟩, rfl, Nat.le_add_right _ _⟩

theorem np_getU {T} {k : Nat} (hk : k ≤ 8) : NP T (getU k) := by
  intro d h _
  rcases getU_cases hk h with hc | ⟨hc, _, hle⟩ <;> rw [hc] <;> simp

theorem prog_getS {T} {k : Nat} (hk : k ≤ 8) : Prog T (getS k) := prog_bind (prog_getU hk) fun _ => prog_pure _
theorem np_getS {T} {k : Nat} (hk : k ≤ 8) : NP T (getS k) :=
  np_bind (prog_getU hk) (np_getU hk) fun _ => np_pure _

theorem prog_peek {T} : Prog T peek := by
  intro d h _
  rcases peek_cases h with hc | ⟨c, hc, _⟩ <;> rw [hc] <;> exact ⟨h, rfl, Nat.le_refl _⟩

theorem np_peek {T} : NP T peek := by
  intro d h _
  rcases peek_cases h with hc | ⟨c, hc, _⟩ <;> rw [hc] <;> simp

/-- `getBytes` of a length that fits in 32 bits at every position. -/
theorem prog_getBytes {T} {n : Nat} (hn : n < 2 ^ 32) : Prog T (getBytes n) := by
  intro d h _
  rcases getBytes_cases hn h with hc | ⟨hc, _⟩ | ⟨hc, _, hle⟩ <;> rw [hc]
  · exact ⟨h, rfl, Nat.le_refl _⟩
  · exact ⟨h, rfl, Nat.le_refl _⟩
  · exact ⟨⟨hle, h.2⟩, rfl, Nat.le_add_right _ _⟩

theorem np_getBytes_at {n : Nat} (hn : n < 2 ^ 32) {d : D} (h : InBuf d) (hw : d.off + n < 2 ^ 32) :
    (getBytes n d).1 ≠ .panic := by
  rcases getBytes_cases hn h with hc | ⟨hc, _⟩ | ⟨hc, _, hle⟩ <;> rw [hc]
  · simp
  · omega
  · simp

theorem np_getBytes_small {T} {n : Nat} (hn : n < 65536) : NP T (getBytes n) := by
  intro d h _
  have := inv_off h
  exact np_getBytes_at (by omega) h (by omega)

theorem beNat_take_lt (k : Nat) (b : Bytes) : beNat (b.take k) < 256 ^ k := by
  have h1 := beNat_lt (b.take k)
  have h2 : 256 ^ (b.take k).length ≤ 256 ^ k := Nat.pow_le_pow_right (by decide) (by simp; omega)
  omega

/-- A length of `k` bytes, then that many bytes. -/
theorem prog_lenBytes {T} {k : Nat} (hk : k ≤ 4) : Prog T (getU k >>= getBytes) := by
  intro d h ht
  rw [rd_bind]
  rcases getU_cases (k := k) (by omega) h with hc | ⟨hc, _, hle⟩ <;> rw [hc]
  · exact ⟨h, rfl, Nat.le_refl _⟩
  · have hlt := beNat_take_lt k (d.buf.drop d.off)
    have : 256 ^ k ≤ 256 ^ 4 := Nat.pow_le_pow_right (by decide) hk
    have h2 := prog_getBytes (T := T) (n := beNat ((d.buf.drop d.off).take k)) (by omega)
      { d with off := d.off + k } ⟨hle, h.2⟩ ht
    exact ⟨h2.1, h2.2.1, Nat.le_trans (Nat.le_add_right _ _) h2.2.2⟩

/-- The same after a header byte, without overflow. -/
theorem np_lenBytes_at {k : Nat} (hk : k ≤ 4) {d : D} (h : InBuf d)
    (hw : beNat ((d.buf.drop d.off).take k) + d.buf.length < 2 ^ 32) :
    ((getU k >>= getBytes) d).1 ≠ .panic := by
  rw [rd_bind]
  rcases getU_cases (k := k) (by omega) h with hc | ⟨hc, _, hle⟩ <;> rw [hc]
  · simp
  · have h2 := inv_off h
    exact np_getBytes_at (by omega) (d := { d with off := d.off + k }) ⟨hle, h.2⟩ (by simp; omega)

/-- Reading a header byte and going on with it. -/
theorem np_head {T} {α : Type} {f : Nat → Rd α}
    (hf : ∀ (c : UInt8) (d : D), InBuf d → T d.buf → 1 ≤ d.off → d.buf[d.off - 1]? = some c →
      (f c.toNat d).1 ≠ .panic) : NP T (getU 1 >>= f) := by
  intro d h ht
  rw [rd_bind]
  rcases getU1_cases h with hc | ⟨c, hc, hb, he, hle, _⟩ <;> rw [hc]
  · simp
  · exact hf c { d with off := d.off + 1 } ⟨hle, h.2⟩ ht (by simp) (by simpa using hb)


/-! ### integers -/

theorem intAt_cons (c : UInt8) (r : Bytes) : intAt (c :: r) =
    if c < 0x80 then some ((c.toNat : Int), r)
    else if 0xe0 ≤ c then some ((c.toNat : Int) - 256, r)
    else if 0xcc ≤ c ∧ c ≤ 0xcf then
      if r.length < 2 ^ (c - 0xcc).toNat then none
      else some ((beNat (r.take (2 ^ (c - 0xcc).toNat)) : Int), r.drop (2 ^ (c - 0xcc).toNat))
    else if 0xd0 ≤ c ∧ c ≤ 0xd3 then
      if r.length < 2 ^ (c - 0xd0).toNat then none
      else
        some (if beNat (r.take (2 ^ (c - 0xd0).toNat)) < 256 ^ 2 ^ (c - 0xd0).toNat / 2
              then (beNat (r.take (2 ^ (c - 0xd0).toNat)) : Int)
              else beNat (r.take (2 ^ (c - 0xd0).toNat)) - 256 ^ 2 ^ (c - 0xd0).toNat,
          r.drop (2 ^ (c - 0xd0).toNat))
    else none := rfl

theorem intAt_fix {c : UInt8} {r : Bytes} (h : (isFixedInt c.toNat || isNegativeFixedInt c.toNat) = true) :
    intAt (c :: r) = some (toS 1 c.toNat, r) := by
  have hlt := c.toNat_lt
  unfold isFixedInt isNegativeFixedInt at h
  simp only [Bool.or_eq_true, decide_eq_true_eq] at h
  rw [intAt_cons]
  by_cases h1 : c.toNat < 128
  · have e : toS 1 c.toNat = c.toNat := by unfold toS; simp; omega
    rw [if_pos (by rw [UInt8.lt_iff_toNat_lt]; exact h1), e]
  · have e : toS 1 c.toNat = (c.toNat : Int) - 256 := by unfold toS; simp; omega
    rw [if_neg (by rw [UInt8.lt_iff_toNat_lt]; exact h1), if_pos (by rw [UInt8.le_iff_toNat_le]; simp; omega), e]

theorem intAt_u {j : Nat} (hj : j < 4) (r : Bytes) (h : 2 ^ j ≤ r.length) :
    intAt ((0xcc + UInt8.ofNat j) :: r) = some ((beNat (r.take (2 ^ j)) : Int), r.drop (2 ^ j)) := by
  rcases cases4 hj with rfl | rfl | rfl | rfl <;>
    (rw [intAt_cons, if_neg (by decide), if_neg (by decide), if_pos (by decide),
       if_neg (by exact Nat.not_lt.mpr h)]
     rfl)

theorem intAt_s {j : Nat} (hj : j < 4) (r : Bytes) (h : 2 ^ j ≤ r.length) :
    intAt ((0xd0 + UInt8.ofNat j) :: r) = some (toS (2 ^ j) (beNat (r.take (2 ^ j))), r.drop (2 ^ j)) := by
  rcases cases4 hj with rfl | rfl | rfl | rfl <;>
    (rw [intAt_cons, if_neg (by decide), if_neg (by decide), if_neg (by decide), if_pos (by decide),
       if_neg (by exact Nat.not_lt.mpr h)]
     rfl)

theorem getU_ok {k : Nat} {d d' : D} (h : d.buf.length < 2 ^ 32) {n : Nat} (hr : getU k d = (.ok n, d')) :
    n = beNat ((d.buf.drop d.off).take k) ∧ d' = { d with off := d.off + k } ∧ d.off + k ≤ d.buf.length ∧
      d.err = false := by
  unfold getU at hr
  rcases check_cases k d with hc | ⟨hc, he, _⟩
  · rw [rd_bind_err hc] at hr; simp at hr
  · rw [rd_bind_ok hc] at hr
    unfold takeBE at hr
    split at hr
    · rename_i hle
      have e : (d.off + k) % U32 = d.off + k := Nat.mod_eq_of_lt (by unfold U32; omega)
      rw [e] at hr
      simp at hr
      exact ⟨hr.1.symm, hr.2.symm, hle, he⟩
    · simp at hr

theorem getU1_ok {d d' : D} (h : d.buf.length < 2 ^ 32) {n : Nat} (hr : getU 1 d = (.ok n, d')) :
    ∃ c : UInt8, n = c.toNat ∧ d' = { d with off := d.off + 1 } ∧ d.buf[d.off]? = some c ∧ d.err = false ∧
      d.off + 1 ≤ d.buf.length ∧ d.buf.drop d.off = c :: d.buf.drop (d.off + 1) := by
  obtain ⟨h1, h2, h3, h4⟩ := getU_ok h hr
  have hlt : d.off < d.buf.length := by omega
  have hd : d.buf.drop d.off = d.buf[d.off] :: d.buf.drop (d.off + 1) := List.drop_eq_getElem_cons hlt
  refine ⟨d.buf[d.off], ?_, h2, List.getElem?_eq_getElem hlt, h4, h3, hd⟩
  rw [h1]
  have := congrArg (fun l => beNat (List.take 1 l)) hd
  refine this.trans ?_
  rw [List.take_succ_cons, List.take_zero]
  simp [beNat]

theorem getS_ok {k : Nat} {d d' : D} (h : d.buf.length < 2 ^ 32) {v : Int} (hr : getS k d = (.ok v, d')) :
    v = toS k (beNat ((d.buf.drop d.off).take k)) ∧ d' = { d with off := d.off + k } ∧
      d.off + k ≤ d.buf.length := by
  unfold getS at hr
  rw [rd_bind] at hr
  rcases hg : getU k d with ⟨n | e | _, d1⟩ <;> rw [hg] at hr
  · obtain ⟨h1, h2, h3, _⟩ := getU_ok h hg
    have : (Res.ok (toS k n), d1) = (.ok v, d') := hr
    simp at this
    exact ⟨by rw [← this.1, h1], by rw [← this.2, h2], h3⟩
  · simp at hr
  · simp at hr

/-- What a successful integer read must have found. -/
def IntOk (d : D) (v : Int) (d' : D) : Prop :=
  intAt (d.buf.drop d.off) = some (v, d'.buf.drop d'.off) ∧ d'.buf = d.buf ∧ d.err = false ∧
    d'.off ≤ d.buf.length

theorem tail_u {d : D} {j : Nat} (hj : j < 4) {c : UInt8} (hcj : c = 0xcc + UInt8.ofNat j)
    (hd : d.buf.drop d.off = c :: d.buf.drop (d.off + 1)) (h : d.buf.length < 2 ^ 32)
    (he : d.err = false) {n : Nat} {d' : D}
    (hr : getU (2 ^ j) { d with off := d.off + 1 } = (.ok n, d')) : IntOk d n d' := by
  obtain ⟨h1, h2, h3, _⟩ := getU_ok (d := { d with off := d.off + 1 }) h hr
  subst hcj h2
  refine ⟨?_, rfl, he, h3⟩
  rw [hd, intAt_u hj _ (by simp at h3 ⊢; omega), h1]
  simp

theorem tail_s {d : D} {j : Nat} (hj : j < 4) {c : UInt8} (hcj : c = 0xd0 + UInt8.ofNat j)
    (hd : d.buf.drop d.off = c :: d.buf.drop (d.off + 1)) (h : d.buf.length < 2 ^ 32)
    (he : d.err = false) {v : Int} {d' : D}
    (hr : getS (2 ^ j) { d with off := d.off + 1 } = (.ok v, d')) : IntOk d v d' := by
  obtain ⟨h1, h2, h3⟩ := getS_ok (d := { d with off := d.off + 1 }) h hr
  subst hcj h2
  refine ⟨?_, rfl, he, h3⟩
  rw [hd, intAt_s hj _ (by simp at h3 ⊢; omega), h1]
  simp

theorem byte_eq {c : UInt8} {n : Nat} (h : c.toNat = n) : c = UInt8.ofNat n := by
  rw [← h]; simp

theorem int64_ok {d d' : D} (h : d.buf.length < 2 ^ 32) {v : Int} (hr : Dec.int64 d = (.ok v, d')) : IntOk d v d' := by
  unfold Dec.int64 at hr
  rw [rd_bind] at hr
  rcases hg : getU 1 d with ⟨p | e | _, d1⟩ <;> rw [hg] at hr
  rotate_left
  · simp at hr
  · simp at hr
  · obtain ⟨c, rfl, rfl, hb, he, hle, hd⟩ := getU1_ok h hg
    have hi := h
    dsimp only at hr
    split at hr
    · rename_i hf
      have : (Res.ok (toS 1 c.toNat), ({ d with off := d.off + 1 } : D)) = (.ok v, d') := hr
      simp at this
      obtain ⟨rfl, rfl⟩ := this
      exact ⟨by rw [hd, intAt_fix hf], rfl, he, hle⟩
    split at hr
    · exact tail_s (j := 0) (by decide) (byte_eq ‹_›) hd hi he hr
    split at hr
    · exact tail_s (j := 1) (by decide) (byte_eq ‹_›) hd hi he hr
    split at hr
    · exact tail_s (j := 2) (by decide) (byte_eq ‹_›) hd hi he hr
    split at hr
    · exact tail_s (j := 3) (by decide) (byte_eq ‹_›) hd hi he hr
    · simp [Rd.fail] at hr

theorem nonNeg_ok {k : Nat} {d d' : D} {n : Nat} (hr : Dec.nonNeg k d = (.ok n, d')) :
    getS k d = (.ok (n : Int), d') := by
  unfold Dec.nonNeg at hr
  rw [rd_bind] at hr
  rcases hg : getS k d with ⟨v | e | _, d1⟩ <;> rw [hg] at hr
  · dsimp only at hr
    split at hr
    · simp [Rd.fail] at hr
    · have : (Res.ok v.toNat, d1) = (.ok n, d') := hr
      simp at this
      obtain ⟨h1, rfl⟩ := this
      have : v = (n : Int) := by omega
      rw [this]
  · simp at hr
  · simp at hr

theorem uint64_ok {d d' : D} (h : d.buf.length < 2 ^ 32) {v : Nat} (hr : Dec.uint64 d = (.ok v, d')) : IntOk d v d' := by
  unfold Dec.uint64 at hr
  rw [rd_bind] at hr
  rcases hg : getU 1 d with ⟨p | e | _, d1⟩ <;> rw [hg] at hr
  rotate_left
  · simp at hr
  · simp at hr
  · obtain ⟨c, rfl, rfl, hb, he, hle, hd⟩ := getU1_ok h hg
    have hi := h
    dsimp only at hr
    split at hr
    · rename_i hf
      have : (Res.ok c.toNat, ({ d with off := d.off + 1 } : D)) = (.ok v, d') := hr
      simp at this
      obtain ⟨rfl, rfl⟩ := this
      refine ⟨?_, rfl, he, hle⟩
      rw [hd, intAt_fix (by rw [hf]; rfl)]
      have : toS 1 c.toNat = c.toNat := by
        unfold isFixedInt at hf
        unfold toS
        simp at hf ⊢
        omega
      rw [this]
    split at hr
    · rename_i hf
      split at hr
      · simp [Rd.fail] at hr
      · rename_i hnn
        have : (Res.ok (toS 1 c.toNat).toNat, ({ d with off := d.off + 1 } : D)) = (.ok v, d') := hr
        simp at this
        obtain ⟨h1, rfl⟩ := this
        have h2 : toS 1 c.toNat = (v : Int) := by omega
        exact ⟨by rw [hd, intAt_fix (by rw [hf, Bool.or_true]), h2], rfl, he, hle⟩
    split at hr
    · exact tail_u (j := 0) (by decide) (byte_eq ‹_›) hd hi he hr
    split at hr
    · exact tail_u (j := 1) (by decide) (byte_eq ‹_›) hd hi he hr
    split at hr
    · exact tail_u (j := 2) (by decide) (byte_eq ‹_›) hd hi he hr
    split at hr
    · exact tail_u (j := 3) (by decide) (byte_eq ‹_›) hd hi he hr
    split at hr
    · exact tail_s (j := 0) (by decide) (byte_eq ‹_›) hd hi he (nonNeg_ok hr)
    split at hr
    · exact tail_s (j := 1) (by decide) (byte_eq ‹_›) hd hi he (nonNeg_ok hr)
    split at hr
    · exact tail_s (j := 2) (by decide) (byte_eq ‹_›) hd hi he (nonNeg_ok hr)
    split at hr
    · exact tail_s (j := 3) (by decide) (byte_eq ‹_›) hd hi he (nonNeg_ok hr)
    · simp [Rd.fail] at hr

theorem intK_ok {k : Nat} {d d' : D} (h : d.buf.length < 2 ^ 32) {v : Int} (hr : Dec.intK k d = (.ok v, d')) :
    IntOk d v d' ∧ -2 ^ (8 * k - 1) ≤ v ∧ v < 2 ^ (8 * k - 1) := by
  unfold Dec.intK at hr
  rw [rd_bind] at hr
  rcases hg : Dec.int64 d with ⟨w | e | _, d1⟩ <;> rw [hg] at hr
  · dsimp only at hr
    split at hr
    · have : (Res.ok w, d1) = (.ok v, d') := hr
      simp at this
      obtain ⟨rfl, rfl⟩ := this
      exact ⟨int64_ok h hg, by omega, by omega⟩
    · simp [Rd.fail] at hr
  · simp at hr
  · simp at hr

theorem uintK_ok {k : Nat} {d d' : D} (h : d.buf.length < 2 ^ 32) {v : Nat} (hr : Dec.uintK k d = (.ok v, d')) :
    IntOk d v d' ∧ v < 2 ^ (8 * k) := by
  unfold Dec.uintK at hr
  rw [rd_bind] at hr
  rcases hg : Dec.uint64 d with ⟨w | e | _, d1⟩ <;> rw [hg] at hr
  · dsimp only at hr
    split at hr
    · have : (Res.ok w, d1) = (.ok v, d') := hr
      simp at this
      obtain ⟨rfl, rfl⟩ := this
      have : 0 < 2 ^ (8 * k) := Nat.two_pow_pos _
      exact ⟨uint64_ok h hg, by omega⟩
    · simp [Rd.fail] at hr
  · simp at hr
  · simp at hr

/-! ### ranges -/

theorem getU_range {k : Nat} {d d' : D} {n : Nat} (hr : getU k d = (.ok n, d')) : n < 256 ^ k := by
  unfold getU at hr
  rw [rd_bind] at hr
  rcases hc : check k d with ⟨_ | _ | _, d1⟩ <;> rw [hc] at hr <;> dsimp only at hr
  · unfold takeBE at hr
    split at hr <;> simp at hr
    rw [← hr.1]
    exact beNat_take_lt _ _
  · simp at hr
  · simp at hr

theorem getS_range {k : Nat} (hk : k = 1 ∨ k = 2 ∨ k = 4 ∨ k = 8) {d d' : D} {v : Int} (hr : getS k d = (.ok v, d')) :
    -2 ^ (8 * k - 1) ≤ v ∧ v < 2 ^ (8 * k - 1) := by
  unfold getS at hr
  rw [rd_bind] at hr
  rcases hg : getU k d with ⟨n | _ | _, d1⟩ <;> rw [hg] at hr
  · have h1 : (Res.ok (toS k n), d1) = (.ok v, d') := hr
    simp at h1
    have h2 := getU_range hg
    rw [← h1.1]
    unfold toS
    rcases hk with rfl | rfl | rfl | rfl <;> simp at h2 ⊢ <;> split <;> omega
  · simp at hr
  · simp at hr

theorem int64_range {d d' : D} {v : Int} (hr : Dec.int64 d = (.ok v, d')) : -2 ^ 63 ≤ v ∧ v < 2 ^ 63 := by
  unfold Dec.int64 at hr
  rw [rd_bind] at hr
  rcases hg : getU 1 d with ⟨p | e | _, d1⟩ <;> rw [hg] at hr
  · have hp := getU_range hg
    dsimp only at hr
    split at hr
    · have h1 : (Res.ok (toS 1 p), d1) = (.ok v, d') := hr
      simp at h1
      rw [← h1.1]
      unfold toS
      simp at hp ⊢
      split <;> omega
    split at hr
    · have := getS_range (by simp) hr; simp at this; omega
    split at hr
    · have := getS_range (by simp) hr; simp at this; omega
    split at hr
    · have := getS_range (by simp) hr; simp at this; omega
    split at hr
    · have := getS_range (by simp) hr; simpa using this
    · simp [Rd.fail] at hr
  · simp at hr
  · simp at hr

theorem nonNeg_range {k : Nat} (hk : k = 1 ∨ k = 2 ∨ k = 4 ∨ k = 8) {d d' : D} {v : Nat} (hr : Dec.nonNeg k d = (.ok v, d')) :
    v < 2 ^ 64 := by
  have h1 := getS_range hk (nonNeg_ok hr)
  rcases hk with rfl | rfl | rfl | rfl <;> simp at h1 <;> omega

theorem uint64_range {d d' : D} {v : Nat} (hr : Dec.uint64 d = (.ok v, d')) : v < 2 ^ 64 := by
  unfold Dec.uint64 at hr
  rw [rd_bind] at hr
  rcases hg : getU 1 d with ⟨p | e | _, d1⟩ <;> rw [hg] at hr
  · have hp := getU_range hg
    dsimp only at hr
    split at hr
    · have h1 : (Res.ok p, d1) = (.ok v, d') := hr
      simp at h1 hp
      omega
    split at hr
    · split at hr
      · simp [Rd.fail] at hr
      · have h1 : (Res.ok (toS 1 p).toNat, d1) = (.ok v, d') := hr
        simp at h1 hp
        have : toS 1 p ≤ 256 := by unfold toS; split <;> omega
        omega
    split at hr
    · have := getU_range hr; simp at this; omega
    split at hr
    · have := getU_range hr; simp at this; omega
    split at hr
    · have := getU_range hr; simp at this; omega
    split at hr
    · have := getU_range hr; simpa using this
    split at hr
    · exact nonNeg_range (by simp) hr
    split at hr
    · exact nonNeg_range (by simp) hr
    split at hr
    · exact nonNeg_range (by simp) hr
    split at hr
    · exact nonNeg_range (by simp) hr
    · simp [Rd.fail] at hr
  · simp at hr
  · simp at hr

/-! ### the typed readers stay inside the buffer -/

macro "prog_tac" : tactic => `(tactic| repeat' (with_reducible first
  | apply prog_ite <;> intro _
  | exact prog_pure _ | exact prog_fail _ | exact prog_getU (by decide) | exact prog_getS (by decide)
  | exact prog_peek | exact prog_lenBytes (by decide)
  | exact prog_getBytes (by omega)
  | refine prog_bind ?_ fun _ => ?_))

theorem prog_bool {T} : Prog T Dec.bool := by unfold Dec.bool; prog_tac
theorem prog_int64 {T} : Prog T Dec.int64 := by unfold Dec.int64; prog_tac
theorem prog_intK {T k} : Prog T (Dec.intK k) := prog_bind prog_int64 fun _ => by prog_tac
theorem prog_nonNeg {T k} (hk : k ≤ 8) : Prog T (Dec.nonNeg k) := prog_bind (prog_getS hk) fun _ => by prog_tac
theorem prog_uint64 {T} : Prog T Dec.uint64 := by
  unfold Dec.uint64
  prog_tac <;> exact prog_nonNeg (by decide)
theorem prog_uintK {T k} : Prog T (Dec.uintK k) := prog_bind prog_uint64 fun _ => by prog_tac
theorem prog_f32 {T} (lib : Lib) : Prog T (Dec.f32 lib) := by unfold Dec.f32; prog_tac
theorem prog_f64 {T} : Prog T Dec.f64 := by unfold Dec.f64; prog_tac
theorem prog_strLen {T} : Prog T Dec.strLen := by unfold Dec.strLen; prog_tac
theorem prog_binLen {T} : Prog T Dec.binLen := by unfold Dec.binLen; prog_tac
theorem prog_arraySize {T} : Prog T Dec.arraySize := by unfold Dec.arraySize; prog_tac
theorem prog_mapSize {T} : Prog T Dec.mapSize := by unfold Dec.mapSize; prog_tac
theorem prog_extLen {T} (c : Nat) : Prog T (Dec.extLen c) := by
  unfold Dec.extLen
  prog_tac <;> exact prog_uintK

theorem prog_discard {T} {n : Nat} (hn : n < 65536) : Prog T (Iota.Msgpack.discard n) := by
  intro d h _
  have hi := inv_off h
  rcases discard_cases (n := n) (by omega) h (by omega) with hc | ⟨hc, _, hle⟩ <;> rw [hc]
  · exact ⟨h, rfl, Nat.le_refl _⟩
  · exact ⟨⟨hle, h.2⟩, rfl, Nat.le_add_right _ _⟩

theorem np_discard {T} {n : Nat} : NP T (Iota.Msgpack.discard n) := by
  intro d h _
  unfold Iota.Msgpack.discard
  rcases check_cases n d with hc | ⟨hc, he, hle⟩
  · rw [rd_bind_err hc]; simp
  · rw [rd_bind_ok hc]; simp [advance]

theorem prog_ignore {T} {x : Rd Unit} (h : Prog T x) : Prog T (ignore x) := by
  intro d hd ht
  have h1 := h d hd ht
  unfold ignore
  rcases hr : x d with ⟨_ | _ | _, d'⟩ <;> rw [hr] at h1 <;> exact h1

theorem np_ignore {T} {x : Rd Unit} (h : NP T x) : NP T (ignore x) := by
  intro d hd ht
  have h1 := h d hd ht
  unfold ignore
  rcases hr : x d with ⟨_ | _ | _, d'⟩ <;> rw [hr] at h1 <;> simp at h1 ⊢

theorem prog_isNextNil {T} : Prog T Dec.isNextNil := by
  unfold Dec.isNextNil
  refine prog_bind prog_peek fun _ => prog_ite (fun _ => ?_) (fun _ => prog_pure _)
  exact prog_bind (prog_ignore (prog_discard (by decide))) fun _ => prog_pure _

theorem np_isNextNil {T} : NP T Dec.isNextNil := by
  unfold Dec.isNextNil
  refine np_bind prog_peek np_peek fun _ => np_ite (fun _ => ?_) (fun _ => np_pure _)
  exact np_bind (prog_ignore (prog_discard (by decide))) (np_ignore np_discard) fun _ => np_pure _

theorem prog_nillable {T} {α : Type} {r : Rd α} (h : Prog T r) : Prog T (Dec.nillable r) := by
  unfold Dec.nillable
  refine prog_bind prog_isNextNil fun _ => prog_ite (fun _ => prog_pure _) (fun _ => ?_)
  exact prog_bind h fun _ => prog_pure _

theorem np_nillable {T} {α : Type} {r : Rd α} (h : Prog T r) (hn : NP T r) : NP T (Dec.nillable r) := by
  unfold Dec.nillable
  refine np_bind prog_isNextNil np_isNextNil fun _ => np_ite (fun _ => np_pure _) (fun _ => ?_)
  exact np_bind h hn fun _ => np_pure _

macro "np_tac" : tactic => `(tactic| repeat' (with_reducible first
  | apply np_ite <;> intro _
  | exact np_pure _ | exact np_fail _ | exact np_getU (by decide) | exact np_getS (by decide)
  | exact np_peek | exact prog_getU (by decide) | exact prog_getS (by decide) | exact prog_peek
  | refine np_bind ?_ ?_ fun _ => ?_))

theorem np_bool {T} : NP T Dec.bool := by unfold Dec.bool; np_tac
theorem np_int64 {T} : NP T Dec.int64 := by unfold Dec.int64; np_tac
theorem np_intK {T k} : NP T (Dec.intK k) := np_bind prog_int64 np_int64 fun _ => by np_tac
theorem np_nonNeg {T k} (hk : k ≤ 8) : NP T (Dec.nonNeg k) :=
  np_bind (prog_getS hk) (np_getS hk) fun _ => by np_tac
theorem np_uint64 {T} : NP T Dec.uint64 := by
  unfold Dec.uint64
  np_tac <;> exact np_nonNeg (by decide)
theorem np_uintK {T k} : NP T (Dec.uintK k) := np_bind prog_uint64 np_uint64 fun _ => by np_tac
theorem np_f32 {T} (lib : Lib) : NP T (Dec.f32 lib) := by unfold Dec.f32; np_tac
theorem np_f64 {T} : NP T Dec.f64 := by unfold Dec.f64; np_tac
theorem np_strLen {T} : NP T Dec.strLen := by unfold Dec.strLen; np_tac
theorem np_binLen {T} : NP T Dec.binLen := by unfold Dec.binLen; np_tac
theorem np_arraySize {T} : NP T Dec.arraySize := by unfold Dec.arraySize; np_tac
theorem np_mapSize {T} : NP T Dec.mapSize := by unfold Dec.mapSize; np_tac
theorem np_extLen {T} (c : Nat) : NP T (Dec.extLen c) := by
  unfold Dec.extLen
  np_tac <;> exact np_uintK

end Iota.Lemmas.Msgpack
