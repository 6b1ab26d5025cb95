import Verif.Lemmas.MsgpackSafe

/-! # Lemmas: hostile input, values with lengths -/

namespace Iota.Lemmas.Msgpack
open Iota.Go Iota.Msgpack Iota.Spec.Msgpack

theorem small {d : D} (h : InBuf d) : d.buf.length < 2 ^ 32 := by have := inv_off h; omega

theorem prog_bindI {T} {α β : Type} {x : Rd α} {f : α → Rd β} (hx : Prog T x)
    (hf : ∀ d a d', InBuf d → x d = (.ok a, d') → Prog T (f a)) : Prog T (x >>= f) := by
  intro d h ht
  have h1 := hx d h ht
  rw [rd_bind]
  rcases hr : x d with ⟨_ | _ | _, d'⟩ <;> rw [hr] at h1
  · rename_i a
    have h2 := hf d a d' h hr d' h1.1 (h1.2.1 ▸ ht)
    exact ⟨h2.1, h2.2.1.trans h1.2.1, Nat.le_trans h1.2.2 h2.2.2⟩
  · exact h1
  · exact h1

theorem np_bind_at {α β : Type} {x : Rd α} {f : α → Rd β} {d : D} (hx : (x d).1 ≠ .panic)
    (hf : ∀ a d', x d = (.ok a, d') → (f a d').1 ≠ .panic) : ((x >>= f) d).1 ≠ .panic := by
  rw [rd_bind]
  rcases hr : x d with ⟨_ | _ | _, d'⟩ <;> rw [hr] at hx
  · exact hf _ _ hr
  · simp
  · exact absurd rfl hx

/-! ### lengths -/

theorem getU_lt {k : Nat} {d d' : D} (h : InBuf d) {n : Nat} (hr : getU k d = (.ok n, d')) : n < 256 ^ k := by
  rw [(getU_ok (small h) hr).1]
  exact beNat_take_lt _ _

/-- A length field after a header byte. -/
theorem len_bound {k : Nat} {d d' : D} {c : UInt8} (h : InBuf { d with off := d.off + 1 }) {n : Nat}
    (hk : k = 1 ∨ k = 2 ∨ (k = 4 ∧ (c = 0xdb ∨ c = 0xdd ∨ c = 0xc6))) (hc : d.buf[d.off]? = some c)
    (hr : getU k { d with off := d.off + 1 } = (.ok n, d')) :
    n < 2 ^ 32 ∧ (Tame d.buf → n + d.buf.length < 2 ^ 32) := by
  have hlt := getU_lt h hr
  have hi := inv_off h
  rcases hk with rfl | rfl | ⟨rfl, hc4⟩
  · simp at hlt hi; omega
  · simp at hlt hi; omega
  · refine ⟨by simpa using hlt, fun ht => ?_⟩
    have := (ht d.off c hc).1 hc4
    rw [← (getU_ok (small h) hr).1] at this
    exact this

theorem strLen_bound {d d1 : D} (h : InBuf d) {n : Nat} (hr : Dec.strLen d = (.ok n, d1)) :
    n < 2 ^ 32 ∧ (Tame d.buf → n + d.buf.length < 2 ^ 32) := by
  have hi := inv_off h
  unfold Dec.strLen at hr
  rw [rd_bind] at hr
  rcases hg : getU 1 d with ⟨p | e | _, d2⟩ <;> rw [hg] at hr
  rotate_left
  · simp at hr
  · simp at hr
  obtain ⟨c, rfl, rfl, hb, he, hle, hd⟩ := getU1_ok (small h) hg
  have h1 : InBuf { d with off := d.off + 1 } := ⟨hle, h.2⟩
  dsimp only at hr
  split at hr
  · have : c.toNat % 32 = n := by
      have : (Res.ok (c.toNat % 32), ({ d with off := d.off + 1 } : D)) = (.ok n, d1) := hr
      simp at this; exact this.1
    omega
  split at hr
  · have : c.toNat % 16 = n := by
      have : (Res.ok (c.toNat % 16), ({ d with off := d.off + 1 } : D)) = (.ok n, d1) := hr
      simp at this; exact this.1
    omega
  split at hr
  · exact len_bound h1 (by simp) hb hr
  split at hr
  · exact len_bound h1 (by simp) hb hr
  split at hr
  · rename_i hc
    refine len_bound h1 (.inr (.inr ⟨rfl, ?_⟩)) hb hr
    rcases hc with hc | hc
    · exact .inl (byte_eq hc)
    · exact .inr (.inl (byte_eq hc))
  · simp [Rd.fail] at hr

theorem binLen_bound {d d1 : D} (h : InBuf d) {n : Nat} (hr : Dec.binLen d = (.ok n, d1)) :
    n < 2 ^ 32 ∧ (Tame d.buf → n + d.buf.length < 2 ^ 32) := by
  have hi := inv_off h
  unfold Dec.binLen at hr
  rw [rd_bind] at hr
  rcases hg : getU 1 d with ⟨p | e | _, d2⟩ <;> rw [hg] at hr
  rotate_left
  · simp at hr
  · simp at hr
  obtain ⟨c, rfl, rfl, hb, he, hle, hd⟩ := getU1_ok (small h) hg
  have h1 : InBuf { d with off := d.off + 1 } := ⟨hle, h.2⟩
  dsimp only at hr
  split at hr
  · have : c.toNat % 16 = n := by
      have : (Res.ok (c.toNat % 16), ({ d with off := d.off + 1 } : D)) = (.ok n, d1) := hr
      simp at this; exact this.1
    omega
  split at hr
  · have : 0 = n := by
      have : (Res.ok 0, ({ d with off := d.off + 1 } : D)) = (.ok n, d1) := hr
      simp at this; exact this.1
    omega
  split at hr
  · exact len_bound h1 (by simp) hb hr
  split at hr
  · exact len_bound h1 (by simp) hb hr
  split at hr
  · rename_i hc
    exact len_bound h1 (.inr (.inr ⟨rfl, .inr (.inr (byte_eq hc))⟩)) hb hr
  · simp [Rd.fail] at hr

theorem prog_str {T} : Prog T Dec.str :=
  prog_bindI prog_strLen fun _ _ _ h hr => prog_getBytes (strLen_bound h hr).1

theorem prog_bytes {T} : Prog T Dec.bytes :=
  prog_bindI prog_binLen fun _ _ _ h hr => prog_getBytes (binLen_bound h hr).1

theorem np_len {x : Rd Nat} (hp : Prog Tame x) (hx : NP Tame x)
    (hb : ∀ d n d1, InBuf d → x d = (.ok n, d1) → n < 2 ^ 32 ∧ (Tame d.buf → n + d.buf.length < 2 ^ 32)) :
    NP Tame (x >>= getBytes) := by
  intro d h ht
  refine np_bind_at (hx d h ht) fun n d1 hr => ?_
  have h1 := hp d h ht
  rw [hr] at h1
  obtain ⟨h2, h3⟩ := hb d n d1 h hr
  have h4 := inv_off h1.1
  have h5 : d1.buf = d.buf := h1.2.1
  have := h3 ht
  exact np_getBytes_at h2 h1.1 (by simp at h4; rw [h5] at h4; omega)

theorem np_str : NP Tame Dec.str := np_len prog_strLen np_strLen fun _ _ _ h hr => strLen_bound h hr
theorem np_bytes : NP Tame Dec.bytes := np_len prog_binLen np_binLen fun _ _ _ h hr => binLen_bound h hr

/-! ### time -/

theorem extLen_bound {p : Nat} {d d1 : D} (h : InBuf d) {n : Nat} (hr : Dec.extLen p d = (.ok n, d1)) :
    n < 2 ^ 32 ∧ ∀ i (c : UInt8), p = c.toNat → d.off = i + 1 → d.buf[i]? = some c → Tame d.buf →
      n + d.buf.length < 2 ^ 32 := by
  have hi := inv_off h
  unfold Dec.extLen at hr
  have hlit : ∀ m : Nat, m ≤ 16 → (pure m : Rd Nat) d = (.ok n, d1) → n ≤ 16 := by
    intro m hm hh
    have : (Res.ok m, d) = (.ok n, d1) := hh
    simp at this; omega
  have hsm : n ≤ 65535 → n < 2 ^ 32 ∧ ∀ i (c : UInt8), p = c.toNat → d.off = i + 1 → d.buf[i]? = some c →
      Tame d.buf → n + d.buf.length < 2 ^ 32 := fun hn => ⟨by omega, fun _ _ _ _ _ _ => by omega⟩
  split at hr
  · exact hsm (by have := hlit 1 (by decide) hr; omega)
  split at hr
  · exact hsm (by have := hlit 2 (by decide) hr; omega)
  split at hr
  · exact hsm (by have := hlit 4 (by decide) hr; omega)
  split at hr
  · exact hsm (by have := hlit 8 (by decide) hr; omega)
  split at hr
  · exact hsm (by have := hlit 16 (by decide) hr; omega)
  split at hr
  · exact hsm (by have := (uintK_ok (small h) hr).2; simp at this; omega)
  split at hr
  · exact hsm (by have := (uintK_ok (small h) hr).2; simp at this; omega)
  split at hr
  · rename_i hp
    obtain ⟨⟨h1, _⟩, h2⟩ := uintK_ok (small h) hr
    refine ⟨by simpa using h2, fun i c hc hoff hb ht => ?_⟩
    have := (ht i c hb).2 (byte_eq (hc ▸ hp)) n _ (by rw [← hoff]; exact h1)
    omega
  · simp [Rd.fail] at hr

theorem prog_decodeTime {T} {n : Nat} (hn : n < 2 ^ 32) : Prog T (Dec.decodeTime n) := by
  unfold Dec.decodeTime
  refine prog_bind (prog_getBytes hn) fun _ => ?_
  prog_tac

theorem prog_timeExt {T} (p : Nat) : Prog T (Dec.timeExt p) := by
  unfold Dec.timeExt
  refine prog_bind (prog_ignore (prog_discard (by decide))) fun _ => ?_
  refine prog_bindI (prog_extLen p) fun d n d1 h hr => ?_
  refine prog_bind (prog_getU (by decide)) fun _ => ?_
  exact prog_ite (fun _ => prog_fail _) fun _ => prog_decodeTime (extLen_bound h hr).1

theorem prog_time {T} (lib : Lib) : Prog T (Dec.time lib) := by
  unfold Dec.time
  refine prog_bind prog_peek fun p => prog_ite (fun _ => ?_) fun _ => prog_timeExt p
  refine prog_bind prog_str fun s => ?_
  cases lib.parseTime s with
  | none => exact prog_fail _
  | some t => exact prog_pure _

theorem np_decodeTime_at {n : Nat} (hn : n < 2 ^ 32) {d : D} (h : InBuf d) (hw : d.off + n < 2 ^ 32) :
    (Dec.decodeTime n d).1 ≠ .panic := by
  unfold Dec.decodeTime
  refine np_bind_at (np_getBytes_at hn h hw) fun b d' _ => ?_
  split
  · nofun
  split
  · nofun
  split
  · nofun
  · nofun

theorem np_timeExt_at {d : D} (h : InBuf d) (ht : Tame d.buf) (c : UInt8) (hc : d.buf[d.off]? = some c)
    (he : d.err = false) : (Dec.timeExt c.toNat d).1 ≠ .panic := by
  have hlt : d.off < d.buf.length := by
    rcases Nat.lt_or_ge d.off d.buf.length with hn | hn
    · exact hn
    · rw [List.getElem?_eq_none hn] at hc
      simp at hc
  have hi := inv_off h
  have h1 : InBuf { d with off := d.off + 1 } := ⟨hlt, h.2⟩
  have hdisc : ignore (Iota.Msgpack.discard 1) d = (.ok (), { d with off := d.off + 1 }) := by
    unfold ignore Iota.Msgpack.discard
    rw [rd_bind_ok (check_ok he (by omega) (small h))]
    unfold advance
    have : (d.off + 1) % U32 = d.off + 1 := Nat.mod_eq_of_lt (by unfold U32; omega)
    rw [this]
  unfold Dec.timeExt
  refine np_bind_at (by rw [hdisc]; simp) fun _ d1 hr => ?_
  rw [hdisc] at hr
  simp at hr
  subst hr
  refine np_bind_at (np_extLen (T := Tame) _ _ h1 ht) fun n d2 hr => ?_
  obtain ⟨hn, hw⟩ := extLen_bound h1 hr
  have hw := hw d.off c rfl rfl hc ht
  have p2 := prog_extLen (T := Tame) c.toNat _ h1 ht
  rw [hr] at p2
  refine np_bind_at (np_getU (T := Tame) (by decide) _ p2.1 (p2.2.1 ▸ ht)) fun id d3 hr3 => ?_
  have p3 := prog_getU (T := Tame) (k := 1) (by decide) _ p2.1 (p2.2.1 ▸ ht)
  rw [hr3] at p3
  split
  · nofun
  · have h4 := inv_off p3.1
    have h5 : d3.buf = d.buf := p3.2.1.trans p2.2.1
    exact np_decodeTime_at hn p3.1 (by simp at h4; rw [h5] at h4; simp at hw; omega)

theorem np_time (lib : Lib) : NP Tame (Dec.time lib) := by
  intro d h ht
  unfold Dec.time
  refine np_bind_at (np_peek (T := Tame) d h ht) fun p d1 hr => ?_
  rcases peek_cases h with hc | ⟨c, hc, hb, he⟩ <;> rw [hc] at hr
  · simp at hr
  · simp at hr
    obtain ⟨rfl, rfl⟩ := hr
    split
    · refine np_bind_at (np_str d h ht) fun s d2 _ => ?_
      cases lib.parseTime s <;> nofun
    · exact np_timeExt_at h ht c hb he

/-! ### ReadAny -/

theorem prog_leaf {T} {α : Type} {f : α → Any} {r : Rd α} (h : Prog T r) : Prog T (Dec.leaf f r) :=
  prog_bind h fun _ => prog_pure _
theorem prog_arrN {T} {r : Rd Nat} (h : Prog T r) : Prog T (Dec.arrN r) := prog_bind h fun _ => prog_pure _
theorem prog_mapN {T} {r : Rd Nat} (h : Prog T r) : Prog T (Dec.mapN r) := prog_bind h fun _ => prog_pure _

/-- Reading a header byte moves on by one. -/
theorem adv_head {T} {α : Type} {f : Nat → Rd α} (hf : ∀ p, Prog T (f p)) {d d' : D} {a : α} (h : InBuf d)
    (ht : T d.buf) (hr : (getU 1 >>= f) d = (.ok a, d')) :
    InBuf d' ∧ d'.buf = d.buf ∧ d.off < d'.off := by
  rw [rd_bind] at hr
  rcases getU1_cases h with hc | ⟨c, hc, hb, he, hle, _⟩ <;> rw [hc] at hr
  · simp at hr
  · have := hf c.toNat { d with off := d.off + 1 } ⟨hle, h.2⟩ ht
    dsimp only at hr
    rw [hr] at this
    exact ⟨this.1, this.2.1, this.2.2⟩

/-- The body of `anyHead` after the prefix. -/
theorem anyHead_eq : ∃ f, Dec.anyHead = getU 1 >>= f ∧ ∀ T p, Prog T (f p) := by
  refine ⟨_, rfl, fun T p => ?_⟩
  have hlt : p % 32 < 2 ^ 32 := by omega
  repeat' (with_reducible first
    | apply prog_ite <;> intro _
    | exact prog_pure _ | exact prog_fail _
    | exact prog_leaf (prog_getU (by decide)) | exact prog_leaf (prog_getS (by decide))
    | exact prog_leaf (prog_lenBytes (by decide)) | exact prog_leaf (prog_getBytes hlt)
    | exact prog_arrN (prog_getU (by decide)) | exact prog_mapN (prog_getU (by decide)))

theorem prog_anyHead {T} : Prog T Dec.anyHead := by
  obtain ⟨f, hf, hp⟩ := anyHead_eq
  rw [hf]
  exact prog_bind (prog_getU (by decide)) (hp T)

theorem adv_anyHead {d d' : D} {s : Dec.Step} (h : InBuf d) (hr : Dec.anyHead d = (.ok s, d')) :
    InBuf d' ∧ d'.buf = d.buf ∧ d.off < d'.off := by
  obtain ⟨f, hf, hp⟩ := anyHead_eq
  rw [hf] at hr
  exact adv_head (T := fun _ => True) (hp _) h trivial hr

theorem np_leaf_at {α : Type} {f : α → Any} {r : Rd α} {d : D} (h : (r d).1 ≠ .panic) :
    (Dec.leaf f r d).1 ≠ .panic := np_bind_at h fun _ _ _ => nofun
theorem np_arrN_at {r : Rd Nat} {d : D} (h : (r d).1 ≠ .panic) : (Dec.arrN r d).1 ≠ .panic :=
  np_bind_at h fun _ _ _ => nofun
theorem np_mapN_at {r : Rd Nat} {d : D} (h : (r d).1 ≠ .panic) : (Dec.mapN r d).1 ≠ .panic :=
  np_bind_at h fun _ _ _ => nofun

theorem np_lenBytes_small {k : Nat} (hk : k ≤ 2) {d : D} (h : InBuf d) : ((getU k >>= getBytes) d).1 ≠ .panic := by
  have h1 := beNat_take_lt k (d.buf.drop d.off)
  have h2 : 256 ^ k ≤ 256 ^ 2 := Nat.pow_le_pow_right (by decide) hk
  have h3 := inv_off h
  exact np_lenBytes_at (by omega) h (by omega)

theorem np_lenBytes_tame {c : UInt8} {d : D} (h : InBuf d) (ht : Tame d.buf) (h1 : 1 ≤ d.off)
    (hc : d.buf[d.off - 1]? = some c) (hcc : c = 0xdb ∨ c = 0xdd ∨ c = 0xc6) :
    ((getU 4 >>= getBytes) d).1 ≠ .panic := by
  have := (ht _ c hc).1 hcc
  rw [Nat.sub_add_cancel h1] at this
  exact np_lenBytes_at (by decide) h this

theorem np_ite_at {α : Type} {c : Prop} [Decidable c] {x y : Rd α} {d : D} (hx : c → (x d).1 ≠ .panic)
    (hy : ¬ c → (y d).1 ≠ .panic) : ((if c then x else y) d).1 ≠ .panic := by
  split
  · exact hx ‹_›
  · exact hy ‹_›
theorem np_pure_at {α : Type} {a : α} {d : D} : ((pure a : Rd α) d).1 ≠ .panic := nofun
theorem np_fail_at {α : Type} {e : String} {d : D} : ((Rd.fail e : Rd α) d).1 ≠ .panic := nofun

theorem np_anyHead : NP Tame Dec.anyHead := by
  refine np_head fun c d h ht h1 hc => ?_
  have U : ∀ k, k ≤ 8 → (getU k d).1 ≠ .panic := fun k hk => np_getU (T := Tame) hk d h ht
  have S : ∀ k, k ≤ 8 → (getS k d).1 ≠ .panic := fun k hk => np_getS (T := Tame) hk d h ht
  have B : (getBytes (c.toNat % 32) d).1 ≠ .panic := np_getBytes_small (T := Tame) (by omega) d h ht
  repeat' (with_reducible first
    | apply np_ite_at <;> intro _
    | exact np_leaf_at B
    | exact np_leaf_at (S _ (by decide))
    | exact np_leaf_at (U _ (by decide))
    | exact np_arrN_at (U _ (by decide))
    | exact np_mapN_at (U _ (by decide))
    | exact np_leaf_at (np_lenBytes_small (by decide) h)
    | exact np_leaf_at (np_lenBytes_tame h ht h1 hc (.inl (byte_eq (by assumption))))
    | exact np_leaf_at (np_lenBytes_tame h ht h1 hc (.inr (.inr (byte_eq (by assumption)))))
    | exact np_pure_at
    | exact np_fail_at)

end Iota.Lemmas.Msgpack
