import Verif.Model.Sections
import Verif.Spec.Sections

/-!
# C54: custom sections
-/

namespace Iota.Props.Sections
open Go Iota.Sections Iota.Spec.Sections

theorem bind_ok {α β : Type} {x : Res α} {f : α → Res β} {b : β} : (x >>= f) = .ok b ↔ ∃ a, x = .ok a ∧ f a = .ok b := by
  constructor
  · intro h
    cases x with
    | ok a => exact ⟨a, rfl, h⟩
    | err e => cases h
    | panic => cases h
  · rintro ⟨a, rfl, h⟩; exact h

theorem leb_pos {n : Nat} {bs : Bytes} (h : Leb n bs) : 0 < bs.length := by cases h <;> simp

/-- Decoding of a number, with bytes read before. -/
theorem decode_leb {n : Nat} {bs : Bytes} (h : Leb n bs) (i acc : Nat) (r : Bytes) (hi : i + bs.length ≤ 5)
    (hn : n * 128 ^ i < 2 ^ 32) : decodeUint32 i acc (bs ++ r) = .ok (acc + n * 128 ^ i, i + bs.length, r) := by
  induction h generalizing i acc with
  | @last b h =>
    simp only [List.length_singleton] at hi
    simp only [List.cons_append, List.nil_append, decodeUint32]
    rw [if_neg (by omega), if_pos h, if_neg]
    · rfl
    · rintro ⟨rfl, hb⟩
      have : (16 : Nat) * 128 ^ 4 ≤ b.toNat * 128 ^ 4 := Nat.mul_le_mul_right _ hb
      omega
  | @more b n bs h t ih =>
    have hb := b.toNat_lt
    have hp := leb_pos t
    simp only [List.length_cons] at hi
    have e : (b.toNat - 128 + 128 * n) * 128 ^ i = (b.toNat - 128) * 128 ^ i + n * 128 ^ (i + 1) := by
      rw [Nat.add_mul, Nat.pow_succ, Nat.mul_comm 128 n, Nat.mul_assoc, Nat.mul_comm 128]
    rw [e] at hn ⊢
    simp only [List.cons_append, decodeUint32]
    rw [if_neg (by omega), if_neg (by omega), ih (i + 1) _ (by omega) (by omega), show b.toNat % 128 = b.toNat - 128 by omega]
    simp only [List.length_cons]
    congr 2
    · omega
    · congr 1; omega

theorem decode_u32 {n : Nat} {bs : Bytes} (h : U32 n bs) (r : Bytes) : decodeUint32 0 0 (bs ++ r) = .ok (n, bs.length, r) := by
  have := decode_leb h.1 0 0 r (by have := h.2.1; omega) (by have := h.2.2; simpa using this)
  simpa using this

/-- Only numbers are decoded. -/
theorem decode_sound (bs : Bytes) (i acc n k : Nat) (r : Bytes) (hi : i ≤ 5) (hacc : acc < 128 ^ i)
    (h : decodeUint32 i acc bs = .ok (n, k, r)) :
    ∃ m p, bs = p ++ r ∧ Leb m p ∧ k = i + p.length ∧ k ≤ 5 ∧ n = acc + m * 128 ^ i ∧ n < 2 ^ 32 := by
  induction bs generalizing i acc with
  | nil => cases h
  | cons b bs ih =>
    have hb := b.toNat_lt
    unfold decodeUint32 at h
    split at h
    · cases h
    · rename_i h5
      split at h
      · rename_i hl
        split at h
        · cases h
        · rename_i ho
          cases h
          refine ⟨b.toNat, [b], rfl, .last hl, rfl, by omega, rfl, ?_⟩
          have hm : i = 0 ∨ i = 1 ∨ i = 2 ∨ i = 3 ∨ i = 4 := by omega
          rcases hm with rfl | rfl | rfl | rfl | rfl <;> omega
      · rename_i hl
        have hm : i = 0 ∨ i = 1 ∨ i = 2 ∨ i = 3 ∨ i = 4 := by omega
        obtain ⟨m, p, rfl, h1, h2, h3, h4, h6⟩ := ih (i + 1) (acc + b.toNat % 128 * 128 ^ i) (by omega) (by
          rcases hm with rfl | rfl | rfl | rfl | rfl <;> omega) h
        refine ⟨_, b :: p, rfl, .more (by omega) h1, by simp; omega, h3, ?_, h6⟩
        rw [h4, show b.toNat % 128 = b.toNat - 128 by omega, Nat.add_mul, Nat.pow_succ, Nat.mul_comm 128 m, Nat.mul_assoc m,
          Nat.mul_comm 128]
        omega

theorem decode_u32_sound {bs r : Bytes} {n k : Nat} (h : decodeUint32 0 0 bs = .ok (n, k, r)) :
    ∃ p, bs = p ++ r ∧ U32 n p ∧ k = p.length := by
  obtain ⟨m, p, h1, h2, h3, h4, h5, h6⟩ := decode_sound bs 0 0 n k r (by omega) (by omega) h
  have : n = m := by omega
  subst this
  exact ⟨p, h1, ⟨h2, by omega, h6⟩, by omega⟩

/-- One section is read exactly. -/
theorem body_custom (valid : Bytes → Bool) (wanted : List Bytes) (m : Map) (name data ln r : Bytes) (size : Nat)
    (hn : U32 name.length ln) (hs : size = (ln ++ name ++ data).length) (h32 : size < 2 ^ 32) (hv : valid name = true)
    (he : name ∈ wanted → data ++ r ≠ []) :
    body valid wanted m 0 size (ln ++ name ++ data ++ r) = .ok (if name ∈ wanted then m.put name data else m, r) := by
  have hd : decodeUTF8 valid (ln ++ name ++ data ++ r) = .ok (name, name.length + ln.length, data ++ r) := by
    unfold decodeUTF8
    rw [List.append_assoc, List.append_assoc, decode_u32 hn, Res.ok_bind]
    simp only [readFull]
    rw [if_pos (by simp), Res.ok_bind]
    simp only [List.take_left', List.drop_left']
    rw [if_pos hv, Nat.mod_eq_of_lt]
    · rfl
    · simp at hs; omega
  simp at hs
  unfold body
  rw [if_pos rfl, hd, Res.ok_bind]
  simp only
  rw [if_neg (by omega), show size - (name.length + ln.length) = data.length by omega]
  by_cases hw : name ∈ wanted
  · rw [if_pos hw, if_pos hw, decodeCustomSection, if_neg (he hw)]
    simp
  · rw [if_neg hw, if_neg hw, copyN, if_pos (by simp)]
    simp

theorem body_other (valid : Bytes → Bool) (wanted : List Bytes) (m : Map) (id : UInt8) (content r : Bytes) (hid : id ≠ 0) :
    body valid wanted m id content.length (content ++ r) = .ok (m, r) := by
  unfold body
  rw [if_neg hid, copyN, if_pos (by simp)]
  simp

/-- What a section adds to the result. -/
def after (wanted : List Bytes) (m : Map) : Section → Map
  | .custom n d => if n ∈ wanted then m.put n d else m
  | .other _ _ => m

theorem sections_nil {valid : Bytes → Bool} {ss : List Section} {bs : Bytes} (h : IsSections valid ss bs) (hb : bs = []) : ss = [] := by
  cases h with
  | nil => rfl
  | cons h t => cases h <;> simp at hb

theorem loop_sections (valid : Bytes → Bool) (wanted : List Bytes) (ss : List Section) (bs : Bytes) (h : IsSections valid ss bs)
    (hne : ¬ EmptyLast wanted ss) (fuel : Nat) (hf : bs.length ≤ fuel) (m : Map) :
    loop valid wanted fuel m bs = .ok (ss.foldl (after wanted) m) := by
  induction h generalizing fuel m with
  | nil => cases fuel <;> rfl
  | @cons s ss b bs h t ih =>
    have hne' : ¬ EmptyLast wanted ss := by
      rintro ⟨init, name, rfl, hw⟩
      exact hne ⟨s :: init, name, rfl, hw⟩
    cases h with
    | @custom name data ln ls hn hs hv =>
      cases fuel with
      | zero => simp at hf
      | succ fuel =>
        have hp := leb_pos hs.1
        generalize hsz : (ln ++ name ++ data).length = size at hs
        simp only [List.cons_append, List.append_assoc] at hf ⊢
        rw [loop, decode_u32 hs, Res.ok_bind]
        simp only
        have := body_custom valid wanted m name data ln bs _ hn hsz.symm hs.2.2 hv (by
          intro hw hnil
          obtain ⟨rfl, rfl⟩ := List.append_eq_nil_iff.mp hnil
          cases sections_nil t rfl
          exact hne ⟨[], name, rfl, hw⟩)
        simp only [List.append_assoc] at this
        rw [this, Res.ok_bind]
        simp only
        rw [if_pos (by simp at hsz ⊢; omega), ih hne' fuel (by simp at hf; omega)]
        rfl
    | @other id content ls hid hs =>
      cases fuel with
      | zero => simp at hf
      | succ fuel =>
        have hp := leb_pos hs.1
        simp only [List.cons_append, List.append_assoc] at hf ⊢
        rw [loop, decode_u32 hs, Res.ok_bind]
        simp only
        rw [body_other _ _ _ _ _ _ hid, Res.ok_bind]
        simp only
        rw [if_pos (by simp), ih hne' fuel (by simp at hf; omega)]
        rfl

theorem fold_content (wanted : List Bytes) (ss : List Section) (m : Map) (name : Bytes) :
    ss.foldl (after wanted) m name = if name ∈ wanted then (content name ss).or (m name) else m name := by
  induction ss generalizing m with
  | nil => simp [content]
  | cons s ss ih =>
    rw [List.foldl_cons, ih]
    cases s with
    | other id c => rfl
    | custom n d =>
      simp only [after, content]
      by_cases hn : n = name
      · subst hn
        by_cases hw : n ∈ wanted
        · simp only [if_pos hw, Map.put, if_true]
          cases content n ss <;> rfl
        · simp only [if_neg hw]
      · by_cases hw : n ∈ wanted
        · simp only [if_pos hw, Map.put, if_neg (fun h : name = n => hn h.symm), if_neg hn]
          split
          · cases content name ss <;> rfl
          · rfl
        · simp only [if_neg hw, if_neg hn]
          split
          · cases content name ss <;> rfl
          · rfl

/-- **C54** (part) Reading a well-formed binary gives for each wanted name the contents of the (last) custom section
of this name, and nothing for other names; unless the binary ends with a wanted section without contents. -/
theorem sections_read_partial (valid : Bytes → Bool) (wanted : List Bytes) (ss : List Section) (bs : Bytes)
    (h : IsModule valid ss bs) (hne : ¬ EmptyLast wanted ss) :
    ∃ m, read valid bs wanted = .ok m ∧ ∀ name, m name = if name ∈ wanted then content name ss else none := by
  obtain ⟨body, rfl, hb⟩ := h
  refine ⟨ss.foldl (after wanted) (fun _ => none), ?_, ?_⟩
  · unfold Iota.Sections.read
    rw [if_neg (by simp), if_neg (by simp)]
    exact loop_sections valid wanted ss body hb hne _ (by simp; omega) _
  · intro name
    rw [fold_content]
    simp

/-- **C54** (part) Whatever is read without an error is well-formed, and the result is what the sections say. The
binary is smaller than 4 GiB. -/
theorem sections_read_sound (valid : Bytes → Bool) (wanted : List Bytes) (bs : Bytes) (m : Map) (hlen : bs.length < 2 ^ 32)
    (h : read valid bs wanted = .ok m) :
    ∃ ss, IsModule valid ss bs ∧ ∀ name, m name = if name ∈ wanted then content name ss else none := by
  have key : ∀ (fuel : Nat) (m0 m : Map) (bs : Bytes), bs.length < 2 ^ 32 → loop valid wanted fuel m0 bs = .ok m →
      ∃ ss, IsSections valid ss bs ∧ m = ss.foldl (after wanted) m0 := by
    intro fuel
    induction fuel with
    | zero =>
      intro m0 m bs hl h
      cases bs with
      | nil => cases h; exact ⟨[], .nil, rfl⟩
      | cons b bs => cases h
    | succ fuel ih =>
      intro m0 m bs hl h
      cases bs with
      | nil => cases h; exact ⟨[], .nil, rfl⟩
      | cons id bs =>
        rw [loop] at h
        obtain ⟨⟨size, k, r⟩, h1, h0⟩ := bind_ok.mp h
        clear h
        obtain ⟨⟨m1, r'⟩, h2, h⟩ := bind_ok.mp h0
        clear h0
        simp only at h h2
        obtain ⟨ls, rfl, hs, _⟩ := decode_u32_sound h1
        split at h
        · rename_i hsz
          simp at hl
          have hsec : ∃ s b, r = b ++ r' ∧ IsSection valid s (id :: ls ++ b) ∧ m1 = after wanted m0 s := by
            unfold body at h2
            split at h2
            · rename_i hid
              subst hid
              obtain ⟨⟨name, nameSize, q⟩, h3, h2⟩ := bind_ok.mp h2
              simp only at h2
              unfold decodeUTF8 at h3
              obtain ⟨⟨nsz, ssz, q1⟩, h4, h3⟩ := bind_ok.mp h3
              obtain ⟨⟨nm, q2⟩, h5, h3⟩ := bind_ok.mp h3
              simp only at h3 h5
              obtain ⟨ln, rfl, hn, rfl⟩ := decode_u32_sound h4
              unfold readFull at h5
              split at h5
              · rename_i hle
                cases h5
                split at h3
                · rename_i hv
                  cases h3
                  obtain ⟨nm, q, rfl, hq⟩ := exists_split q1 hle
                  subst hq
                  simp only [List.take_left', List.drop_left'] at h2 hv
                  simp at hl hsz
                  rw [Nat.mod_eq_of_lt (by omega)] at h2
                  split at h2
                  · cases h2
                  · rename_i hge
                    have fin : ∀ (data : Bytes), q = data ++ r' → m1 = (if nm ∈ wanted then m0.put nm data else m0) →
                        ∃ s b, ln ++ (nm ++ q) = b ++ r' ∧ IsSection valid s (0 :: ls ++ b) ∧ m1 = after wanted m0 s := by
                      intro data hd hm
                      refine ⟨.custom nm data, ln ++ nm ++ data, by simp [hd], .custom hn ?_ hv, hm⟩
                      subst hd
                      have e : size = (ln ++ nm ++ data).length := by simp at hsz ⊢; omega
                      rw [← e]; exact hs
                    split at h2
                    · rename_i hw
                      obtain ⟨⟨data, q'⟩, h6, h2⟩ := bind_ok.mp h2
                      cases h2
                      unfold decodeCustomSection at h6
                      split at h6
                      · cases h6
                      · cases h6
                        have hlt : size - (nm.length + ln.length) ≤ q.length := by
                          simp at hsz
                          omega
                        refine fin (q.take (size - (nm.length + ln.length))) (by simp) ?_
                        rw [if_pos hw, Nat.sub_eq_zero_of_le hlt]
                        simp
                    · rename_i hw
                      obtain ⟨q', h6, h2⟩ := bind_ok.mp h2
                      cases h2
                      unfold copyN at h6
                      split at h6
                      · cases h6
                        exact fin (q.take (size - (nm.length + ln.length))) (by simp) (by rw [if_neg hw])
                      · cases h6
                · cases h3
              · cases h5
            · rename_i hid
              obtain ⟨q, h3, h2⟩ := bind_ok.mp h2
              cases h2
              unfold copyN at h3
              split at h3
              · rename_i hle
                cases h3
                refine ⟨.other id (r.take size), r.take size, by simp, .other hid ?_, rfl⟩
                rw [List.length_take, Nat.min_eq_left hle]
                exact hs
              · cases h3
          obtain ⟨s, b, rfl, hb, rfl⟩ := hsec
          obtain ⟨ss, hss, hm⟩ := ih _ _ _ (by simp at hl; omega) h
          refine ⟨s :: ss, ?_, hm⟩
          have := IsSections.cons hb hss
          simpa using this
        · cases h
  unfold Iota.Sections.read at h
  split at h
  · cases h
  · rename_i hm
    split at h
    · cases h
    · rename_i hv
      have hm : bs.take 4 = [0x00, 0x61, 0x73, 0x6d] := Decidable.byContradiction hm
      have hv : (bs.drop 4).take 4 = [0x01, 0x00, 0x00, 0x00] := Decidable.byContradiction hv
      obtain ⟨ss, h1, h2⟩ := key _ _ _ _ (by simp; omega) h
      refine ⟨ss, ⟨bs.drop 8, ?_, h1⟩, ?_⟩
      · have e1 := List.take_append_drop 4 bs
        have e2 := List.take_append_drop 4 (bs.drop 4)
        rw [List.drop_drop, hv] at e2
        rw [hm, ← e2] at e1
        exact e1.symm
      · intro name
        rw [h2, fold_content]
        simp

/-- **C54** fails in full: a wanted section without contents at the end of the binary is an error. -/
theorem empty_last_refuted :
    ∃ ss bs name, IsModule (fun _ => true) ss bs ∧ content name ss = some [] ∧ ∃ e, read (fun _ => true) bs [name] = .err e := by
  refine ⟨[.custom [0x61] []], _, [0x61], ⟨_, rfl, .cons (.custom (ln := [1]) (ls := [2]) ?_ ?_ rfl) .nil⟩, rfl, "EOF", by rfl⟩
  · exact ⟨.last (b := 1) (by decide), by decide, by decide⟩
  · exact ⟨.last (b := 2) (by decide), by decide, by decide⟩

/-- A module with a wanted section, an unwanted one and another kind of section. -/
example : ∃ bs, IsModule (fun _ => true) [.custom [0x61] [7, 8], .other 1 [0], .custom [0x62] [9]] bs ∧
    ¬ EmptyLast [[0x61]] [.custom [0x61] [7, 8], .other 1 [0], .custom [0x62] [9]] := by
  refine ⟨_, ⟨_, rfl, .cons (.custom (ln := [1]) (ls := [4]) ?_ ?_ rfl) (.cons (.other (ls := [1]) (by decide) ?_)
    (.cons (.custom (ln := [1]) (ls := [3]) ?_ ?_ rfl) .nil))⟩, ?_⟩
  · exact ⟨.last (b := 1) (by decide), by decide, by decide⟩
  · exact ⟨.last (b := 4) (by decide), by decide, by decide⟩
  · exact ⟨.last (b := 1) (by decide), by decide, by decide⟩
  · exact ⟨.last (b := 1) (by decide), by decide, by decide⟩
  · exact ⟨.last (b := 3) (by decide), by decide, by decide⟩
  · rintro ⟨init, name, h, _⟩
    have := congrArg List.getLast? h
    simp at this

end Iota.Props.Sections
