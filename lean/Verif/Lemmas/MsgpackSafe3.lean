import Verif.Lemmas.MsgpackSafe2
import Verif.Lemmas.MsgpackDec

/-! # Lemmas: hostile input, `ReadAny` and `Skip` -/

namespace Iota.Lemmas.Msgpack
open Iota.Go Iota.Msgpack Iota.Spec.Msgpack

/-- A run that stays in the buffer and does not go back. -/
def PA {α : Type} (x : Res α × D) (d : D) : Prop := InBuf x.2 ∧ x.2.buf = d.buf ∧ d.off ≤ x.2.off

theorem pa_bind {α β : Type} {x : Rd α} {f : α → Rd β} {d : D} (hx : PA (x d) d)
    (hf : ∀ a d', x d = (.ok a, d') → PA (x d) d → PA (f a d') d') : PA ((x >>= f) d) d := by
  rw [rd_bind]
  have hx' := hx
  rcases hr : x d with ⟨a | _ | _, d'⟩ <;> rw [hr] at hx
  · have h2 := hf _ _ hr hx'
    exact ⟨h2.1, h2.2.1.trans hx.2.1, Nat.le_trans hx.2.2 h2.2.2⟩
  · exact hx
  · exact hx

theorem pa_ite {α : Type} {c : Prop} [Decidable c] {x y : Rd α} {d : D} (hx : c → PA (x d) d)
    (hy : ¬ c → PA (y d) d) : PA ((if c then x else y) d) d := by
  split
  · exact hx ‹_›
  · exact hy ‹_›

theorem prog_pa {α : Type} {r : Rd α} (h : Prog (fun _ => True) r) {d : D} (hi : InBuf d) : PA (r d) d := h d hi trivial

theorem pa_lenDisc {k : Nat} {d : D} (hk : k ≤ 4) (h : InBuf d) (hw : beNat ((d.buf.drop d.off).take k) + d.buf.length < 2 ^ 32) :
    PA ((getU k >>= fun n => Iota.Msgpack.discard n >>= fun _ => (pure 0 : Rd Nat)) d) d := by
  refine pa_bind (prog_pa (prog_getU (by omega)) h) fun n d1 hr hp => ?_
  rw [hr] at hp
  have hn := (getU_ok (small h) hr).1
  have h1 := inv_off hp.1
  have hb : d1.buf = d.buf := hp.2.1
  have h2 := beNat_take_lt k (d.buf.drop d.off)
  have h3 : 256 ^ k ≤ 256 ^ 4 := Nat.pow_le_pow_right (by decide) hk
  have hp1 : InBuf d1 := hp.1
  refine pa_bind ?_ fun _ d2 hr2 hp2 => ?_
  · have h1 : d1.off ≤ d.buf.length := by rw [← hb]; exact h1.1
    rcases discard_cases (n := n) (by omega) hp1 (by omega) with hc | ⟨hc, _, hl⟩ <;> rw [hc]
    · exact ⟨hp.1, rfl, Nat.le_refl _⟩
    · exact ⟨⟨hl, hp.1.2⟩, rfl, Nat.le_add_right _ _⟩
  · rw [hr2] at hp2
    exact ⟨hp2.1, rfl, Nat.le_refl _⟩

theorem pa_lenDisc_small {k : Nat} {d : D} (hk : k ≤ 2) (h : InBuf d) :
    PA ((getU k >>= fun n => Iota.Msgpack.discard n >>= fun _ => (pure 0 : Rd Nat)) d) d := by
  have h1 := beNat_take_lt k (d.buf.drop d.off)
  have h2 : 256 ^ k ≤ 256 ^ 2 := Nat.pow_le_pow_right (by decide) hk
  have h3 := inv_off h
  exact pa_lenDisc (by omega) h (by omega)

theorem prog_disc0 {T} {n : Nat} (hn : n < 65536) :
    Prog T (ignore (Iota.Msgpack.discard n) >>= fun _ => (pure 0 : Rd Nat)) :=
  prog_bind (prog_ignore (prog_discard hn)) fun _ => prog_pure _

/-- The remaining readers of `getSize` do not depend on the place. -/
theorem getSize_step {d d' : D} {r : Res Nat} (h : InBuf d) (ht : Tame d.buf) (hr : Dec.getSize d = (r, d')) :
    InBuf d' ∧ d'.buf = d.buf ∧ d.off ≤ d'.off ∧ (∀ n, r = .ok n → d.off < d'.off) := by
  unfold Dec.getSize at hr
  rw [rd_bind] at hr
  rcases getU1_cases h with hc | ⟨c, hc, hb, he, hle, _⟩ <;> rw [hc] at hr
  · simp at hr
    obtain ⟨rfl, rfl⟩ := hr
    exact ⟨h, rfl, Nat.le_refl _, by simp⟩
  · have h1 : InBuf { d with off := d.off + 1 } := ⟨hle, h.2⟩
    dsimp only at hr
    suffices hs : PA (r, d') ({ d with off := d.off + 1 } : D) by
      have := hs.2.2
      exact ⟨hs.1, hs.2.1, by simp at this; omega, fun _ _ => by simp at this; omega⟩
    rw [← hr]
    have L4 : (c.toNat = 0xdb ∨ c.toNat = 0xc6) →
        PA ((getU 4 >>= fun n => Iota.Msgpack.discard n >>= fun _ => (pure 0 : Rd Nat)) { d with off := d.off + 1 })
          { d with off := d.off + 1 } := by
      intro hh
      refine pa_lenDisc (by decide) h1 ((ht d.off c hb).1 ?_)
      rcases hh with hh | hh
      · exact .inl (byte_eq hh)
      · exact .inr (.inr (byte_eq hh))
    have hlt : c.toNat % 32 < 65536 := by omega
    repeat' (with_reducible first
      | apply pa_ite <;> intro _
      | exact prog_pa (prog_pure _) h1
      | exact prog_pa (prog_fail _) h1
      | exact L4 (by assumption)
      | exact pa_lenDisc_small (by decide) h1
      | exact prog_pa (prog_disc0 hlt) h1
      | exact prog_pa (prog_disc0 (by decide)) h1
      | exact prog_pa (prog_getU (by decide)) h1
      | exact prog_pa (prog_bind (prog_getU (by decide)) fun _ => prog_pure _) h1)

theorem np_getSize {T} : NP T Dec.getSize := by
  unfold Dec.getSize
  refine np_bind (prog_getU (by decide)) (np_getU (by decide)) fun p => ?_
  have B : ∀ k, k ≤ 8 → NP T (getU k >>= fun n => Iota.Msgpack.discard n >>= fun _ => (pure 0 : Rd Nat)) :=
    fun k hk => np_bind (prog_getU hk) (np_getU hk) fun n d h ht =>
      np_bind_at (np_discard (T := T) d h ht) fun _ _ _ => nofun
  have C : ∀ n, NP T (ignore (Iota.Msgpack.discard n) >>= fun _ => (pure 0 : Rd Nat)) :=
    fun n d h ht => np_bind_at (np_ignore np_discard d h ht) fun _ _ _ => nofun
  repeat' (with_reducible first
    | apply np_ite <;> intro _
    | exact np_pure _ | exact np_fail _
    | exact B _ (by decide)
    | exact C _
    | exact np_getU (by decide)
    | exact np_bind (prog_getU (by decide)) (np_getU (by decide)) fun _ => np_pure _)

/-! ### Skip -/

/-- What `Skip` does in a tame buffer. -/
def SkipOk (d : D) (x : Option (Res Unit × D)) : Prop :=
  ∀ r d', x = some (r, d') → r ≠ .panic ∧ InBuf d' ∧ d'.buf = d.buf ∧ d.off ≤ d'.off

theorem skip_step (f : Nat) :
    (∀ d, InBuf d → Tame d.buf →
      SkipOk d (Dec.skip f d) ∧ (∀ u d', Dec.skip f d = some (.ok u, d') → d.off < d'.off) ∧
      (2 * (d.buf.length - d.off) + 1 ≤ f → Dec.skip f d ≠ none)) ∧
    (∀ n d, InBuf d → Tame d.buf →
      SkipOk d (Dec.skipN f n d) ∧
      (2 * (d.buf.length - d.off) + 2 ≤ f → Dec.skipN f n d ≠ none)) := by
  induction f with
  | zero =>
    refine ⟨fun d _ _ => ⟨?_, ?_, ?_⟩, fun n d _ _ => ⟨?_, ?_⟩⟩
    · intro r d' h; simp [Dec.skip] at h
    · intro u d' h; simp [Dec.skip] at h
    · intro h; omega
    · intro r d' h; simp [Dec.skipN] at h
    · intro h; omega
  | succ f ih =>
    obtain ⟨ih1, ih2⟩ := ih
    refine ⟨fun d hi ht => ?_, fun n d hi ht => ?_⟩
    · have hnp := np_getSize (T := Tame) d hi ht
      rw [Dec.skip]
      rcases hg : Dec.getSize d with ⟨n | e | _, d1⟩ <;> rw [hg] at hnp
      · obtain ⟨h1, h2, h3, h4⟩ := getSize_step hi ht hg
        have h4 := h4 n rfl
        obtain ⟨k1, k2⟩ := ih2 n d1 h1 (h2 ▸ ht)
        refine ⟨?_, ?_, ?_⟩
        · intro r d' h
          obtain ⟨a, b, c, e⟩ := k1 r d' h
          exact ⟨a, b, c.trans h2, by omega⟩
        · intro u d' h
          obtain ⟨a, b, c, e⟩ := k1 _ d' h
          omega
        · intro hf
          have := h1.1
          rw [h2] at k2 this
          exact k2 (by omega)
      · obtain ⟨h1, h2, h3, _⟩ := getSize_step hi ht hg
        refine ⟨?_, ?_, by simp⟩
        · intro r d' h
          simp at h
          obtain ⟨rfl, rfl⟩ := h
          exact ⟨by simp, h1, h2, h3⟩
        · intro u d' h
          simp at h
      · exact absurd rfl hnp
    · cases n with
      | zero =>
        rw [Dec.skipN]
        refine ⟨?_, by simp⟩
        intro r d' h
        simp at h
        obtain ⟨rfl, rfl⟩ := h
        exact ⟨by simp, hi, rfl, Nat.le_refl _⟩
      | succ n =>
        obtain ⟨a1, a2, a3⟩ := ih1 d hi ht
        rw [Dec.skipN]
        rcases hg : Dec.skip f d with _ | ⟨u | e | _, d1⟩
        · refine ⟨fun r d' h => by simp at h, fun hf => ?_⟩
          exact absurd hg (a3 (by omega))
        · obtain ⟨b1, b2, b3, b4⟩ := a1 _ _ hg
          have b5 := a2 _ _ hg
          obtain ⟨k1, k2⟩ := ih2 n d1 b2 (b3 ▸ ht)
          refine ⟨?_, ?_⟩
          · intro r d' h
            obtain ⟨a, b, c, e⟩ := k1 r d' h
            exact ⟨a, b, c.trans b3, by omega⟩
          · intro hf
            have := b2.1
            rw [b3] at k2 this
            exact k2 (by omega)
        · refine ⟨?_, by simp⟩
          intro r d' h
          simp at h
          obtain ⟨rfl, rfl⟩ := h
          exact a1 _ _ hg
        · exact absurd rfl (a1 _ _ hg).1

/-! ### ReadAny -/

/-- What the first byte says about the value that follows. -/
def StepHdr (c : UInt8) : Dec.Step → Prop
  | .val v => Dec.unhashable v = true → sliceHdr c
  | .arr _ => sliceHdr c
  | .map _ => mapHdr c

theorem leaf_ok {α : Type} {f : α → Any} {r : Rd α} {d d' : D} {s : Dec.Step} (h : Dec.leaf f r d = (.ok s, d')) :
    ∃ a, s = .val (f a) := by
  unfold Dec.leaf at h
  rw [rd_bind] at h
  rcases hx : r d with ⟨a | _ | _, d1⟩ <;> rw [hx] at h
  · have : (Res.ok (Dec.Step.val (f a)), d1) = (.ok s, d') := h
    simp at this
    exact ⟨a, this.1.symm⟩
  · simp at h
  · simp at h

theorem arrN_ok {r : Rd Nat} {d d' : D} {s : Dec.Step} (h : Dec.arrN r d = (.ok s, d')) : ∃ n, s = .arr n := by
  unfold Dec.arrN at h
  rw [rd_bind] at h
  rcases hx : r d with ⟨a | _ | _, d1⟩ <;> rw [hx] at h
  · have : (Res.ok (Dec.Step.arr a), d1) = (.ok s, d') := h
    simp at this
    exact ⟨a, this.1.symm⟩
  · simp at h
  · simp at h

theorem mapN_ok {r : Rd Nat} {d d' : D} {s : Dec.Step} (h : Dec.mapN r d = (.ok s, d')) : ∃ n, s = .map n := by
  unfold Dec.mapN at h
  rw [rd_bind] at h
  rcases hx : r d with ⟨a | _ | _, d1⟩ <;> rw [hx] at h
  · have : (Res.ok (Dec.Step.map a), d1) = (.ok s, d') := h
    simp at this
    exact ⟨a, this.1.symm⟩
  · simp at h
  · simp at h

/-- A reader all of whose results fit the header `c`. -/
def Fit (c : UInt8) (r : Rd Dec.Step) : Prop := ∀ d s d', r d = (.ok s, d') → StepHdr c s

theorem fit_ite {b : UInt8} {c : Prop} [Decidable c] {x y : Rd Dec.Step} (hx : c → Fit b x) (hy : ¬ c → Fit b y) :
    Fit b (if c then x else y) := by
  split
  · exact hx ‹_›
  · exact hy ‹_›
theorem fit_pure {b : UInt8} {s : Dec.Step} (h : StepHdr b s) : Fit b (pure s) := by
  intro d s' d' hr
  have : (Res.ok s, d) = (.ok s', d') := hr
  simp at this
  exact this.1 ▸ h
theorem fit_fail {b : UInt8} {e : String} : Fit b (Rd.fail e) := by
  intro d s' d' hr
  simp [Rd.fail] at hr
theorem fit_leaf {b : UInt8} {α : Type} {f : α → Any} {r : Rd α} (h : ∀ a, StepHdr b (.val (f a))) :
    Fit b (Dec.leaf f r) := by
  intro d s d' hr
  obtain ⟨a, rfl⟩ := leaf_ok hr
  exact h a
theorem fit_slice {b : UInt8} {α : Type} {f : α → Any} {r : Rd α} (h : sliceHdr b) : Fit b (Dec.leaf f r) :=
  fit_leaf fun _ _ => h
theorem fit_arr {b : UInt8} {n : Nat} (h : sliceHdr b) : Fit b (pure (.arr n)) := fit_pure h
theorem fit_map {b : UInt8} {n : Nat} (h : mapHdr b) : Fit b (pure (.map n)) := fit_pure h
theorem fit_arrN {b : UInt8} {r : Rd Nat} (h : sliceHdr b) : Fit b (Dec.arrN r) := by
  intro d s d' hr
  obtain ⟨a, rfl⟩ := arrN_ok hr
  exact h
theorem fit_mapN {b : UInt8} {r : Rd Nat} (h : mapHdr b) : Fit b (Dec.mapN r) := by
  intro d s d' hr
  obtain ⟨a, rfl⟩ := mapN_ok hr
  exact h

theorem hdr_fixArr {c : UInt8} (h : isFixedArray c.toNat = true) : sliceHdr c := by
  unfold isFixedArray at h
  unfold sliceHdr
  simp only [UInt8.le_iff_toNat_le]
  simp at h ⊢
  omega
theorem hdr_fixMap {c : UInt8} (h : isFixedMap c.toNat = true) : mapHdr c := by
  unfold isFixedMap at h
  unfold mapHdr
  simp only [UInt8.le_iff_toNat_le]
  simp at h ⊢
  omega
theorem hdr_slice {c : UInt8} {n : Nat} (h : c.toNat = n) (hn : sliceHdr (UInt8.ofNat n)) : sliceHdr c := byte_eq h ▸ hn
theorem hdr_map {c : UInt8} {n : Nat} (h : c.toNat = n) (hn : mapHdr (UInt8.ofNat n)) : mapHdr c := byte_eq h ▸ hn
theorem map_slice {c : UInt8} (h : mapHdr c) : sliceHdr c := by
  unfold mapHdr at h
  unfold sliceHdr
  simp only [UInt8.le_iff_toNat_le, ← UInt8.toNat_inj] at h ⊢
  simp at h ⊢
  omega

instance (c : UInt8) : Decidable (sliceHdr c) := by unfold sliceHdr; infer_instance
instance (c : UInt8) : Decidable (mapHdr c) := by unfold mapHdr; infer_instance

theorem anyHead_hdr {d d' : D} {s : Dec.Step} (h : InBuf d) (hr : Dec.anyHead d = (.ok s, d')) :
    ∃ c, d.buf[d.off]? = some c ∧ StepHdr c s := by
  unfold Dec.anyHead at hr
  rw [rd_bind] at hr
  rcases getU1_cases h with hc | ⟨c, hc, hb, he, hle, _⟩ <;> rw [hc] at hr
  · simp at hr
  refine ⟨c, hb, ?_⟩
  dsimp only at hr
  refine (show Fit c _ from ?_) _ _ _ hr
  have nv : ∀ v : Any, Dec.unhashable v = false → StepHdr c (.val v) := fun v hv hu => by
    rw [hv] at hu; simp at hu
  have fI : ∀ k r, Fit c (Dec.leaf (.int k) r) := fun k r => fit_leaf fun _ => nv _ rfl
  have fU : ∀ k r, Fit c (Dec.leaf (.uint k) r) := fun k r => fit_leaf fun _ => nv _ rfl
  have f3 : ∀ r, Fit c (Dec.leaf .f32 r) := fun r => fit_leaf fun _ => nv _ rfl
  have f6 : ∀ r, Fit c (Dec.leaf .f64 r) := fun r => fit_leaf fun _ => nv _ rfl
  have fS : ∀ r, Fit c (Dec.leaf .str r) := fun r => fit_leaf fun _ => nv _ rfl
  have pI : ∀ k v, Fit c (pure (.val (.int k v))) := fun k v => fit_pure (nv _ rfl)
  have pN : Fit c (pure (.val .nil)) := fit_pure (nv _ rfl)
  have pB : ∀ v, Fit c (pure (.val (.bool v))) := fun v => fit_pure (nv _ rfl)
  repeat' (with_reducible first
    | apply fit_ite <;> intro _
    | exact fit_fail
    | exact fI _ _ | exact fU _ _ | exact f3 _ | exact f6 _ | exact fS _ | exact pI _ _ | exact pN | exact pB _
    | exact fit_arrN (hdr_slice (by assumption) (by decide))
    | exact fit_mapN (hdr_map (by assumption) (by decide))
    | exact fit_arr (hdr_fixArr (by assumption))
    | exact fit_map (hdr_fixMap (by assumption))
    | exact fit_slice (hdr_slice (by assumption) (by decide)))

/-- A map header followed, later, by the header of a value that cannot be a key. -/
def BadKey (b : Bytes) : Prop :=
  ∃ (i j : Nat) (c e : UInt8), i < j ∧ b[i]? = some c ∧ b[j]? = some e ∧ mapHdr c ∧ sliceHdr e

/-- What `ReadAny` does: it stays in the buffer; and in a tame buffer it panics only on a bad key. -/
def AnyOk (d : D) (x : Option (Res Any × D)) : Prop :=
  ∀ r d', x = some (r, d') → InBuf d' ∧ d'.buf = d.buf ∧ d.off ≤ d'.off ∧ (Tame d.buf → r = .panic → BadKey d.buf)

theorem any_step (f : Nat) :
    (∀ d, InBuf d →
      AnyOk d (Dec.any f d) ∧
      (∀ v d', Dec.any f d = some (.ok v, d') → d.off < d'.off ∧
        (Dec.unhashable v = true → ∃ c, d.buf[d.off]? = some c ∧ sliceHdr c)) ∧
      (2 * (d.buf.length - d.off) + 1 ≤ f → Dec.any f d ≠ none)) ∧
    (∀ n acc d, InBuf d →
      AnyOk d (Dec.array f n acc d) ∧
      (2 * (d.buf.length - d.off) + 2 ≤ f → Dec.array f n acc d ≠ none)) ∧
    (∀ n m d, InBuf d → (∃ i c, i < d.off ∧ d.buf[i]? = some c ∧ mapHdr c) →
      AnyOk d (Dec.map f n m d) ∧
      (2 * (d.buf.length - d.off) + 2 ≤ f → Dec.map f n m d ≠ none)) := by
  induction f with
  | zero =>
    refine ⟨fun d _ => ⟨?_, ?_, ?_⟩, fun n acc d _ => ⟨?_, ?_⟩, fun n m d _ _ => ⟨?_, ?_⟩⟩
    · intro r d' h; simp [Dec.any] at h
    · intro u d' h; simp [Dec.any] at h
    · intro h; omega
    · intro r d' h; simp [Dec.array] at h
    · intro h; omega
    · intro r d' h; simp [Dec.map] at h
    · intro h; omega
  | succ f ih =>
    obtain ⟨ih1, ih2, ih3⟩ := ih
    refine ⟨fun d hi => ?_, fun n acc d hi => ?_, fun n m d hi hm => ?_⟩
    · have hnp := np_anyHead d hi
      have hpr := prog_anyHead (T := fun _ => True) d hi trivial
      rw [Dec.any]
      rcases hg : Dec.anyHead d with ⟨s | e | _, d1⟩ <;> rw [hg] at hnp hpr
      · obtain ⟨h1, h2, h3⟩ := adv_anyHead hi hg
        obtain ⟨c, hc, hs⟩ := anyHead_hdr hi hg
        have hlen := h1.1
        rw [h2] at hlen
        cases s with
        | val v =>
          refine ⟨?_, ?_, by simp⟩
          · intro r d' h
            simp at h
            obtain ⟨rfl, rfl⟩ := h
            exact ⟨h1, h2, by omega, by simp⟩
          · intro v' d' h
            simp at h
            obtain ⟨rfl, rfl⟩ := h
            exact ⟨h3, fun hu => ⟨c, hc, hs hu⟩⟩
        | arr n =>
          obtain ⟨k1, k2⟩ := ih2 n [] d1 h1
          refine ⟨?_, ?_, ?_⟩
          · intro r d' h
            obtain ⟨a, b, c, e⟩ := k1 r d' h
            rw [h2] at e
            exact ⟨a, b.trans h2, by omega, e⟩
          · intro v' d' h
            obtain ⟨a, b, _, e⟩ := k1 _ d' h
            exact ⟨by omega, fun _ => ⟨c, hc, hs⟩⟩
          · intro hf
            rw [h2] at k2
            exact k2 (by omega)
        | map n =>
          obtain ⟨k1, k2⟩ := ih3 n [] d1 h1 ⟨d.off, c, h3, by rw [h2]; exact hc, hs⟩
          refine ⟨?_, ?_, ?_⟩
          · intro r d' h
            obtain ⟨a, b, c, e⟩ := k1 r d' h
            rw [h2] at e
            exact ⟨a, b.trans h2, by omega, e⟩
          · intro v' d' h
            obtain ⟨a, b, _, e⟩ := k1 _ d' h
            exact ⟨by omega, fun _ => ⟨c, hc, map_slice hs⟩⟩
          · intro hf
            rw [h2] at k2
            exact k2 (by omega)
      · refine ⟨?_, ?_, by simp⟩
        · intro r d' h
          simp at h
          obtain ⟨rfl, rfl⟩ := h
          exact ⟨hpr.1, hpr.2.1, hpr.2.2, by simp⟩
        · intro u d' h
          simp at h
      · refine ⟨?_, ?_, by simp⟩
        · intro r d' h
          simp at h
          obtain ⟨rfl, rfl⟩ := h
          exact ⟨hpr.1, hpr.2.1, hpr.2.2, fun ht => absurd rfl (hnp ht)⟩
        · intro u d' h
          simp at h
    · cases n with
      | zero =>
        rw [Dec.array]
        refine ⟨?_, by simp⟩
        intro r d' h
        simp at h
        obtain ⟨rfl, rfl⟩ := h
        exact ⟨hi, rfl, Nat.le_refl _, by simp⟩
      | succ n =>
        obtain ⟨a1, a2, a3⟩ := ih1 d hi
        rw [Dec.array]
        rcases hg : Dec.any f d with _ | ⟨v | e | _, d1⟩
        · refine ⟨fun r d' h => by simp at h, fun hf => ?_⟩
          exact absurd hg (a3 (by omega))
        · obtain ⟨b2, b3, b4, _⟩ := a1 _ _ hg
          have b5 := (a2 _ _ hg).1
          obtain ⟨k1, k2⟩ := ih2 n (v :: acc) d1 b2
          refine ⟨?_, ?_⟩
          · intro r d' h
            obtain ⟨a, b, c, e⟩ := k1 r d' h
            rw [b3] at e
            exact ⟨a, b.trans b3, by omega, e⟩
          · intro hf
            have := b2.1
            rw [b3] at k2 this
            exact k2 (by omega)
        · refine ⟨?_, by simp⟩
          intro r d' h
          simp at h
          obtain ⟨rfl, rfl⟩ := h
          exact a1 _ _ hg
        · refine ⟨?_, by simp⟩
          intro r d' h
          simp at h
          obtain ⟨rfl, rfl⟩ := h
          exact a1 _ _ hg
    · cases n with
      | zero =>
        rw [Dec.map]
        refine ⟨?_, by simp⟩
        intro r d' h
        simp at h
        obtain ⟨rfl, rfl⟩ := h
        exact ⟨hi, rfl, Nat.le_refl _, by simp⟩
      | succ n =>
        obtain ⟨i, cm, hlt, hcm, hmh⟩ := hm
        obtain ⟨a1, a2, a3⟩ := ih1 d hi
        rw [Dec.map]
        rcases hg : Dec.any f d with _ | ⟨v | e | _, d1⟩
        · refine ⟨fun r d' h => by simp at h, fun hf => ?_⟩
          exact absurd hg (a3 (by omega))
        · obtain ⟨b2, b3, b4, _⟩ := a1 _ _ hg
          obtain ⟨b5, b6⟩ := a2 _ _ hg
          have hlen := b2.1
          rw [b3] at hlen
          obtain ⟨c1, c2, c3⟩ := ih1 d1 b2
          dsimp only
          rcases hg2 : Dec.any f d1 with _ | ⟨w | e | _, d2⟩
          · refine ⟨fun r d' h => by simp at h, fun hf => ?_⟩
            rw [b3] at c3
            exact absurd hg2 (c3 (by omega))
          · obtain ⟨e2, e3, e4, _⟩ := c1 _ _ hg2
            have e5 := (c2 _ _ hg2).1
            have hbuf : d2.buf = d.buf := e3.trans b3
            have hlen2 := e2.1
            rw [hbuf] at hlen2
            cases hu : Dec.unhashable v with
            | true =>
              obtain ⟨cs, hcs, hsl⟩ := b6 hu
              simp only [if_true]
              refine ⟨?_, by simp⟩
              intro r d' h
              simp at h
              obtain ⟨rfl, rfl⟩ := h
              exact ⟨e2, hbuf, by omega, fun _ _ => ⟨i, d.off, cm, cs, hlt, hcm, hcs, hmh, hsl⟩⟩
            | false =>
              simp only [Bool.false_eq_true, if_false]
              obtain ⟨k1, k2⟩ := ih3 n (Dec.mapSet m v w) d2 e2 ⟨i, cm, by omega, by rw [hbuf]; exact hcm, hmh⟩
              refine ⟨?_, ?_⟩
              · intro r d' h
                obtain ⟨a, b, c, e⟩ := k1 r d' h
                rw [hbuf] at e
                exact ⟨a, b.trans hbuf, by omega, e⟩
              · intro hf
                rw [hbuf] at k2
                exact k2 (by omega)
          all_goals
            refine ⟨?_, by simp⟩
            intro r d' h
            simp at h
            obtain ⟨rfl, rfl⟩ := h
            obtain ⟨a, b, c, e⟩ := c1 _ _ hg2
            rw [b3] at e
            exact ⟨a, b.trans b3, by omega, e⟩
        · refine ⟨?_, by simp⟩
          intro r d' h
          simp at h
          obtain ⟨rfl, rfl⟩ := h
          exact a1 _ _ hg
        · refine ⟨?_, by simp⟩
          intro r d' h
          simp at h
          obtain ⟨rfl, rfl⟩ := h
          exact a1 _ _ hg

end Iota.Lemmas.Msgpack
