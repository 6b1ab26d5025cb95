import Verif.Lemmas.Codegen

/-! # What a generated decoder does with any bytes -/

namespace Iota.Lemmas.Codegen
open Iota.Go Iota.Msgpack Iota.Codegen Iota.Spec.Msgpack Iota.Spec.Codegen Iota.Lemmas.Msgpack

/-! ## Readers -/

/-- A successful call moves on. -/
def AdvRd {α : Type} (r : Rd α) : Prop := ∀ d, InBuf d → Tame d.buf → ∀ a d', r d = (.ok a, d') → d.off < d'.off

structure SafeRd {α : Type} (r : Rd α) : Prop where
  prog : Prog Tame r
  np : NP Tame r
  adv : AdvRd r

theorem adv_getU1 {α : Type} {f : Nat → Rd α} (hf : ∀ p, Prog Tame (f p)) : AdvRd (getU 1 >>= f) :=
  fun _ h ht _ _ hr => (adv_head hf h ht hr).2.2

theorem adv_left {α β : Type} {x : Rd α} {f : α → Rd β} (hp : Prog Tame x) (hx : AdvRd x)
    (hf : ∀ d a d', InBuf d → x d = (.ok a, d') → Prog Tame (f a)) : AdvRd (x >>= f) := by
  intro d h ht b d' e
  rw [rd_bind] at e
  rcases hr : x d with ⟨a | m | _, d1⟩ <;> rw [hr] at e
  · have h1 := hx d h ht a d1 hr
    have h2 := hp d h ht
    rw [hr] at h2
    have h3 := hf d a d1 h hr d1 h2.1 (h2.2.1 ▸ ht)
    dsimp only at e
    rw [e] at h3
    have := h3.2.2
    simp only at this
    omega
  · simp at e
  · simp at e

theorem adv_right {α β : Type} {x : Rd α} {f : α → Rd β} (hp : Prog Tame x) (hf : ∀ a, AdvRd (f a)) : AdvRd (x >>= f) := by
  intro d h ht b d' e
  rw [rd_bind] at e
  rcases hr : x d with ⟨a | m | _, d1⟩ <;> rw [hr] at e
  · have h2 := hp d h ht
    rw [hr] at h2
    have h3 := hf a d1 h2.1 (h2.2.1 ▸ ht) b d' e
    have := h2.2.2
    simp only at this
    omega
  · simp at e
  · simp at e

theorem adv_ite {α : Type} {c : Prop} [Decidable c] {x y : Rd α} (hx : AdvRd x) (hy : AdvRd y) :
    AdvRd (if c then x else y) := by
  split <;> assumption

theorem adv_fail {α : Type} (e : String) : AdvRd (Rd.fail e : Rd α) := by
  intro d _ _ a d' h
  simp [Rd.fail] at h

theorem SafeRd.map {α β : Type} {r : Rd α} (h : SafeRd r) (f : α → β) : SafeRd (f <$> r) :=
  ⟨prog_bind h.prog fun _ => prog_pure _, np_bind h.prog h.np fun _ => np_pure _,
    adv_left h.prog h.adv fun _ _ _ _ _ => prog_pure _⟩

theorem safe_bool : SafeRd Dec.bool := ⟨prog_bool, np_bool, adv_getU1 fun _ => by prog_tac⟩
theorem safe_int64 : SafeRd Dec.int64 := ⟨prog_int64, np_int64, adv_getU1 fun _ => by prog_tac⟩
theorem safe_intK (k : Nat) : SafeRd (Dec.intK k) :=
  ⟨prog_intK, np_intK, adv_left prog_int64 safe_int64.adv fun _ _ _ _ _ => by prog_tac⟩
theorem safe_uint64 : SafeRd Dec.uint64 :=
  ⟨prog_uint64, np_uint64, adv_getU1 fun _ => by prog_tac <;> exact prog_nonNeg (by decide)⟩
theorem safe_uintK (k : Nat) : SafeRd (Dec.uintK k) :=
  ⟨prog_uintK, np_uintK, adv_left prog_uint64 safe_uint64.adv fun _ _ _ _ _ => by prog_tac⟩
theorem safe_f32 (lib : Lib) : SafeRd (Dec.f32 lib) := ⟨prog_f32 lib, np_f32 lib, adv_getU1 fun _ => by prog_tac⟩
theorem safe_f64 : SafeRd Dec.f64 := ⟨prog_f64, np_f64, adv_getU1 fun _ => by prog_tac⟩
theorem safe_strLen : SafeRd Dec.strLen := ⟨prog_strLen, np_strLen, adv_getU1 fun _ => by prog_tac⟩
theorem safe_binLen : SafeRd Dec.binLen := ⟨prog_binLen, np_binLen, adv_getU1 fun _ => by prog_tac⟩
theorem safe_arraySize : SafeRd Dec.arraySize := ⟨prog_arraySize, np_arraySize, adv_getU1 fun _ => by prog_tac⟩
theorem safe_mapSize : SafeRd Dec.mapSize := ⟨prog_mapSize, np_mapSize, adv_getU1 fun _ => by prog_tac⟩
theorem safe_str : SafeRd Dec.str :=
  ⟨prog_str, np_str, adv_left prog_strLen safe_strLen.adv fun _ _ _ h hr => prog_getBytes (strLen_bound h hr).1⟩
theorem safe_bytes : SafeRd Dec.bytes :=
  ⟨prog_bytes, np_bytes, adv_left prog_binLen safe_binLen.adv fun _ _ _ h hr => prog_getBytes (binLen_bound h hr).1⟩

theorem adv_timeExt (p : Nat) : AdvRd (Dec.timeExt p) := by
  unfold Dec.timeExt
  refine adv_right (prog_ignore (prog_discard (by decide))) fun _ => ?_
  intro d h ht a d' e
  rw [rd_bind] at e
  have h1 := prog_extLen (T := Tame) p d h ht
  rcases hr : Dec.extLen p d with ⟨n | m | _, d1⟩ <;> rw [hr] at e h1
  · have := adv_getU1 (f := fun v => if toS 1 v ≠ -1 ∧ toS 1 v ≠ 13 then
      Rd.fail "msgpack: invalid time ext id" else Dec.decodeTime n) (fun _ => prog_ite (fun _ => prog_fail _) fun _ => prog_decodeTime (extLen_bound h hr).1) d1 h1.1 (h1.2.1 ▸ ht) a d' e
    have h2 := h1.2.2
    simp only at h2
    omega
  · simp at e
  · simp at e

theorem safe_time (lib : Lib) : SafeRd (Dec.time lib) := by
  refine ⟨prog_time lib, np_time lib, ?_⟩
  unfold Dec.time
  refine adv_right prog_peek fun p => adv_ite ?_ (adv_timeExt p)
  refine adv_left prog_str safe_str.adv fun _ s _ _ _ => ?_
  cases lib.parseTime s with
  | none => exact prog_fail _
  | some t => exact prog_pure _

theorem safe_prim (lib : Lib) (p : Prim) : SafeRd (readPrim lib p) := by
  cases p <;> unfold readPrim <;> first
    | exact safe_str.map _ | exact safe_bool.map _ | exact (safe_time lib).map _ | exact (safe_intK _).map _
    | exact (safe_uintK _).map _ | exact safe_int64.map _ | exact safe_uint64.map _
    | exact (safe_f32 lib).map _ | exact safe_f64.map _ | exact safe_bytes.map _

theorem isNextNil_true {d d' : D} (h : InBuf d) (hr : Dec.isNextNil d = (.ok true, d')) : d.off < d'.off := by
  unfold Dec.isNextNil at hr
  rw [rd_bind] at hr
  rcases peek_cases h with hp | ⟨c, hp, hb, he⟩ <;> rw [hp] at hr
  · simp at hr
  · dsimp only at hr
    split at hr
    · have hlt : d.off < d.buf.length := by
        rcases Nat.lt_or_ge d.off d.buf.length with hl | hl
        · exact hl
        · rw [List.getElem?_eq_none hl] at hb
          simp at hb
      have hi := inv_off h
      rcases discard_cases (n := 1) (by decide) h (by omega) with hc | ⟨hc, _, _⟩
      · exfalso
        rcases check_cases 1 d with hk | ⟨hk, _, _⟩
        · unfold check at hk
          have e2 : d.buf.length % U32 = d.buf.length := Nat.mod_eq_of_lt (by unfold U32; omega)
          have e1 : (d.off + 1) % U32 = d.off + 1 := Nat.mod_eq_of_lt (by unfold U32; omega)
          rw [e1, e2, if_neg (by simp [he]), if_neg (by omega)] at hk
          simp at hk
        · unfold Iota.Msgpack.discard at hc
          rw [rd_bind_ok hk] at hc
          simp [advance] at hc
      · rw [rd_bind] at hr
        simp only [ignore, hc] at hr
        have : d' = { d with off := d.off + 1 } := by
          have := congrArg Prod.snd hr
          exact this.symm
        rw [this]
        exact Nat.lt_succ_self _
    · have := congrArg Prod.fst hr
      simp [pure, Rd.pure] at this

theorem safe_nillable {α : Type} {r : Rd α} (h : SafeRd r) : SafeRd (Dec.nillable r) := by
  refine ⟨prog_nillable h.prog, np_nillable h.prog h.np, ?_⟩
  intro d hi ht a d' e
  unfold Dec.nillable at e
  rw [rd_bind] at e
  have h1 := prog_isNextNil (T := Tame) d hi ht
  rcases hr : Dec.isNextNil d with ⟨b | m | _, d1⟩ <;> rw [hr] at e h1
  · cases b with
    | true =>
      have h2 := isNextNil_true hi hr
      have h3 : d' = d1 := (congrArg Prod.snd e).symm
      rw [h3]
      exact h2
    | false =>
      have h2 := (h.map some).adv d1 h1.1 (h1.2.1 ▸ ht) a d' e
      have h3 := h1.2.2
      simp only at h3
      omega
  · simp at e
  · simp at e

/-! ## Runs -/

/-- What a call that began at `d` returned, if it did: no panic, and the decoder is inside the buffer. -/
def Ok {α : Type} (d : D) (x : Option (Res α × D)) : Prop :=
  ∀ r d', x = some (r, d') → r ≠ .panic ∧ InBuf d' ∧ d'.buf = d.buf ∧ d.off ≤ d'.off

/-- If it succeeded it has read something. -/
def Adv {α : Type} (d : D) (x : Option (Res α × D)) : Prop := ∀ a d', x = some (.ok a, d') → d.off < d'.off

theorem ok_lift {α : Type} {r : Rd α} (hp : Prog Tame r) (hn : NP Tame r) {d : D} (h : InBuf d) (ht : Tame d.buf) :
    Ok d (lift r d) := by
  intro x d' e
  have h1 := hp d h ht
  have h2 := hn d h ht
  simp only [Iota.Codegen.lift, Option.some.injEq] at e
  rw [e] at h1 h2
  exact ⟨h2, h1⟩

theorem adv_lift {α : Type} {r : Rd α} (hr : AdvRd r) {d : D} (h : InBuf d) (ht : Tame d.buf) : Adv d (lift r d) := by
  intro a d' e
  simp only [Iota.Codegen.lift, Option.some.injEq] at e
  exact hr d h ht a d' e

theorem ok_done {α : Type} (a : α) {d : D} (h : InBuf d) : Ok d (done a d) := by
  intro x d' e
  simp only [done, Option.some.injEq, Prod.mk.injEq] at e
  obtain ⟨rfl, rfl⟩ := e
  exact ⟨by simp, h, rfl, Nat.le_refl _⟩

theorem ok_thn {α β : Type} {r : Dec.Run α} {g : α → Dec.Run β} {d : D} (hr : Ok d (r d))
    (hg : ∀ a d', r d = some (.ok a, d') → Ok d' (g a d')) : Ok d (thn r g d) := by
  intro x d' e
  unfold thn at e
  rcases hx : r d with _ | ⟨a | m | _, d1⟩ <;> rw [hx] at e
  · simp at e
  · obtain ⟨_, h2, h3, h4⟩ := hr _ _ hx
    obtain ⟨k1, k2, k3, k4⟩ := hg a d1 hx x d' e
    exact ⟨k1, k2, k3.trans h3, Nat.le_trans h4 k4⟩
  · simp only [Option.some.injEq, Prod.mk.injEq] at e
    obtain ⟨rfl, rfl⟩ := e
    exact ⟨by simp, (hr _ _ hx).2⟩
  · exact absurd rfl (hr _ _ hx).1

theorem adv_thn {α β : Type} {r : Dec.Run α} {g : α → Dec.Run β} {d : D} (hr : Adv d (r d))
    (hg : ∀ a d', r d = some (.ok a, d') → Ok d' (g a d')) : Adv d (thn r g d) := by
  intro x d' e
  unfold thn at e
  rcases hx : r d with _ | ⟨a | m | _, d1⟩ <;> rw [hx] at e
  · simp at e
  · have h1 := hr _ _ hx
    obtain ⟨_, _, _, k4⟩ := hg a d1 hx (.ok x) d' e
    omega
  · simp at e
  · simp at e

theorem ret_thn {α β : Type} {r : Dec.Run α} {g : α → Dec.Run β} {d : D} (hr : r d ≠ none)
    (hg : ∀ a d', r d = some (.ok a, d') → g a d' ≠ none) : thn r g d ≠ none := by
  unfold thn
  rcases hx : r d with _ | ⟨a | m | _, d1⟩
  · exact absurd hx hr
  · exact hg a d1 hx
  · simp
  · simp

/-- What is left to read. -/
def rem (d : D) : Nat := d.buf.length - d.off

theorem rem_lt {d d' : D} (h : InBuf d') (hb : d'.buf = d.buf) (ho : d.off < d'.off) : rem d' + 1 ≤ rem d := by
  have := h.1
  unfold rem
  rw [hb] at this ⊢
  omega

/-- The product in the bounds of the number of steps. -/
theorem step_lt {W a b : Nat} (h : a + 1 ≤ b) : (W + 4) * a + (W + 4) ≤ (W + 4) * b := by
  have := Nat.mul_le_mul_left (W + 4) h
  rw [Nat.mul_add] at this
  omega

theorem noOptCast_opt {t : Ty} (h : NoOptCast (.opt t)) : NoOptCast t ∧ ∀ p, t ≠ .cast p := by
  cases t <;> simp_all [NoOptCast]

theorem skip_ok {f : Nat} {d : D} (h : InBuf d) (ht : Tame d.buf) :
    Ok d (Dec.skip f d) ∧ (2 * rem d + 1 ≤ f → Dec.skip f d ≠ none) := by
  obtain ⟨h1, _, h3⟩ := (skip_step f).1 d h ht
  exact ⟨h1, h3⟩

section
variable {env : Env} {lib : Lib} {W : Nat}

/-- Safety of a call at `d` that has read something on success and returns if there are enough steps. -/
def Call3 {α : Type} (d : D) (x : Option (Res α × D)) (enough : Prop) : Prop :=
  Ok d x ∧ Adv d x ∧ (enough → x ≠ none)

def Call2 {α : Type} (d : D) (x : Option (Res α × D)) (enough : Prop) : Prop :=
  Ok d x ∧ (enough → x ≠ none)

def SafeT (env : Env) (lib : Lib) (W f : Nat) : Prop :=
  ∀ t b old d, InBuf d → Tame d.buf → NoOptCast t → (b = true → ∀ p, t ≠ .cast p) → nesting t ≤ W →
    Call3 d (readTy env lib f t b old d) ((W + 4) * rem d + nesting t + 3 ≤ f)

def SafeL (env : Env) (lib : Lib) (W f : Nat) : Prop :=
  ∀ t n acc d, InBuf d → Tame d.buf → NoOptCast t → nesting t ≤ W →
    Call2 d (readList env lib f t n acc d) ((W + 4) * rem d + W + 4 ≤ f)

def SafeM (env : Env) (lib : Lib) (W f : Nat) : Prop :=
  ∀ k t n acc d, InBuf d → Tame d.buf → NoOptCast t → nesting t ≤ W →
    Call2 d (readMap env lib f k t n acc d) ((W + 4) * rem d + W + 4 ≤ f)

def SafeD (env : Env) (lib : Lib) (W f : Nat) : Prop :=
  ∀ m cur d, InBuf d → Tame d.buf →
    Call3 d (decode env lib f (env.get m).fields cur d) ((W + 4) * rem d + 2 ≤ f)

def SafeF (env : Env) (lib : Lib) (W f : Nat) : Prop :=
  ∀ m n cur d, InBuf d → Tame d.buf →
    Call2 d (readFields env lib f (env.get m).fields n cur d) ((W + 4) * rem d + W + 5 ≤ f)

theorem call3_lift {α : Type} {r : Rd α} (hr : SafeRd r) {d : D} (h : InBuf d) (ht : Tame d.buf) (e : Prop) :
    Call3 d (lift r d) e :=
  ⟨ok_lift hr.prog hr.np h ht, adv_lift hr.adv h ht, fun _ => by simp [Iota.Codegen.lift]⟩

/-- A reader and then something else. -/
theorem call3_thn {α β : Type} {r : Dec.Run α} {g : α → Dec.Run β} {d : D} {e e1 : Prop}
    (hr : Call3 d (r d) e1) (h1 : e → e1)
    (hg : ∀ a d', r d = some (.ok a, d') → InBuf d' → d'.buf = d.buf → rem d' + 1 ≤ rem d → ∃ e2, Call2 d' (g a d') e2 ∧ (e → e2)) :
    Call3 d (thn r g d) e := by
  have hg' : ∀ a d', r d = some (.ok a, d') → ∃ e2, Call2 d' (g a d') e2 ∧ (e → e2) := by
    intro a d' hx
    obtain ⟨_, h2, h3, _⟩ := hr.1 _ _ hx
    exact hg a d' hx h2 h3 (rem_lt h2 h3 (hr.2.1 _ _ hx))
  refine ⟨ok_thn hr.1 ?_, adv_thn hr.2.1 ?_, fun he => ret_thn (hr.2.2 (h1 he)) ?_⟩
  · intro a d' hx
    obtain ⟨e2, h2, _⟩ := hg' a d' hx
    exact h2.1
  · intro a d' hx
    obtain ⟨e2, h2, _⟩ := hg' a d' hx
    exact h2.1
  · intro a d' hx
    obtain ⟨e2, h2, h3⟩ := hg' a d' hx
    exact h2.2 (h3 he)

theorem Call3.two {α : Type} {d : D} {x : Option (Res α × D)} {e : Prop} (h : Call3 d x e) : Call2 d x e := ⟨h.1, h.2.2⟩

theorem Call2.imp {α : Type} {d : D} {x : Option (Res α × D)} {e e' : Prop} (h : Call2 d x e) (he : e' → e) :
    Call2 d x e' := ⟨h.1, fun x => h.2 (he x)⟩

theorem Call3.imp {α : Type} {d : D} {x : Option (Res α × D)} {e e' : Prop} (h : Call3 d x e) (he : e' → e) :
    Call3 d x e' := ⟨h.1, h.2.1, fun x => h.2.2 (he x)⟩

theorem safe_all (hC : NoOptCasts env) (hW : ∀ n, ∀ p ∈ (env.get n).fields, nesting p.2 ≤ W) (f : Nat) :
    SafeT env lib W f ∧ SafeL env lib W f ∧ SafeM env lib W f ∧ SafeD env lib W f ∧ SafeF env lib W f := by
  induction f with
  | zero =>
    refine ⟨?_, ?_, ?_, ?_, ?_⟩
    · intro t b old d _ _ _ _ _
      exact ⟨by intro r d' h; simp [readTy] at h, by intro r d' h; simp [readTy] at h, by omega⟩
    · intro t n acc d _ _ _ _
      exact ⟨by intro r d' h; simp [readList] at h, by omega⟩
    · intro k t n acc d _ _ _ _
      exact ⟨by intro r d' h; simp [readMap] at h, by omega⟩
    · intro m cur d _ _
      exact ⟨by intro r d' h; simp [decode] at h, by intro r d' h; simp [decode] at h, by omega⟩
    · intro m n cur d _ _
      exact ⟨by intro r d' h; simp [readFields] at h, by omega⟩
  | succ f ih =>
    obtain ⟨iT, iL, iM, iD, iF⟩ := ih
    refine ⟨?_, ?_, ?_, ?_, ?_⟩
    · intro t b old d hi ht hc hb hn
      cases t with
      | prim p =>
        cases b with
        | false => simp only [readTy]; exact call3_lift ((safe_prim lib p).map _) hi ht _
        | true => simp only [readTy]; exact call3_lift ((safe_nillable (safe_prim lib p)).map _) hi ht _
      | cast p =>
        cases b with
        | false => simp only [readTy]; exact call3_lift ((safe_prim lib p).map _) hi ht _
        | true => exact absurd rfl (hb rfl p)
      | named m =>
        cases b with
        | false =>
          simp only [readTy]
          cases hd : env.get m with
          | struct fs =>
            have := iD m (fieldsOf env fs old) d hi ht
            rw [hd] at this
            exact this.imp (by simp only [nesting]; omega)
          | union fs =>
            have := iD m (zeros env fs) d hi ht
            rw [hd] at this
            exact this.imp (by simp only [nesting]; omega)
        | true =>
          simp only [readTy]
          have hok := ok_lift prog_isNextNil np_isNextNil hi ht
          have hD := fun d' (h1 : InBuf d') (h2 : d'.buf = d.buf) => iD m (zeros env (env.get m).fields) d' h1 (h2 ▸ ht)
          refine ⟨ok_thn hok ?_, ?_, fun he => ret_thn (by simp [Iota.Codegen.lift]) ?_⟩
          · intro x d' hx
            obtain ⟨_, h2, h3, _⟩ := hok _ _ hx
            cases x with
            | true => exact ok_done _ h2
            | false => exact (hD d' h2 h3).1
          · intro v d' e
            unfold thn at e
            rcases hx : lift Dec.isNextNil d with _ | ⟨x | msg | _, d1⟩ <;> rw [hx] at e
            · simp at e
            · obtain ⟨_, h2, h3, h4⟩ := hok _ _ hx
              cases x with
              | true =>
                simp only [Iota.Codegen.lift, Option.some.injEq] at hx
                have := isNextNil_true hi hx
                simp only [if_true, done, Option.some.injEq, Prod.mk.injEq] at e
                obtain ⟨_, rfl⟩ := e
                exact this
              | false =>
                have := (hD d1 h2 h3).2.1 v d' e
                omega
            · simp at e
            · simp at e
          · intro x d' hx
            obtain ⟨_, h2, h3, h4⟩ := hok _ _ hx
            cases x with
            | true => simp [done]
            | false =>
              refine (hD d' h2 h3).2.2 ?_
              have hle : rem d' ≤ rem d := by unfold rem; rw [h3]; omega
              have := Nat.mul_le_mul_left (W + 4) hle
              simp only [nesting] at he
              omega
      | list t =>
        simp only [readTy]
        refine call3_thn (call3_lift safe_arraySize hi ht True) (fun _ => trivial) fun n d' _ h2 h3 h4 =>
          ⟨_, iL t n [] d' h2 (h3 ▸ ht) hc (by simp only [nesting] at hn; omega), fun he => ?_⟩
        have := step_lt (W := W) h4
        simp only [nesting] at he
        omega
      | map k t =>
        simp only [readTy]
        refine call3_thn (call3_lift safe_mapSize hi ht True) (fun _ => trivial) fun n d' _ h2 h3 h4 =>
          ⟨_, iM k t n [] d' h2 (h3 ▸ ht) hc (by simp only [nesting] at hn; omega), fun he => ?_⟩
        have := step_lt (W := W) h4
        simp only [nesting] at he
        omega
      | opt t =>
        obtain ⟨h1, h2⟩ := noOptCast_opt hc
        simp only [readTy]
        simp only [nesting] at hn
        exact (iT t true old d hi ht h1 (fun _ => h2) (by omega)).imp (by simp only [nesting]; omega)
    · intro t n acc d hi ht hc hn
      cases n with
      | zero => simp only [readList]; exact ⟨ok_done _ hi, fun _ => by simp [done]⟩
      | succ n =>
        simp only [readList]
        refine (call3_thn (iT t false _ d hi ht hc (by simp) hn) (by omega) fun v d' _ h2 h3 h4 =>
          ⟨_, iL t n (acc ++ [v]) d' h2 (h3 ▸ ht) hc hn, fun he => ?_⟩).two
        have := step_lt (W := W) h4
        omega
    · intro k t n acc d hi ht hc hn
      cases n with
      | zero => simp only [readMap]; exact ⟨ok_done _ hi, fun _ => by simp [done]⟩
      | succ n =>
        simp only [readMap]
        refine (call3_thn (call3_lift (safe_prim lib k) hi ht True) (fun _ => trivial) fun key d1 _ h2 h3 h4 => ?_).two
        have s1 := step_lt (W := W) h4
        refine ⟨(W + 4) * rem d + W + 4 ≤ f + 1, (call3_thn (iT t false _ d1 h2 (h3 ▸ ht) hc (by simp) hn) (by omega) fun v d' _ g2 g3 g4 =>
          ⟨_, iM k t n (mapSet acc key v) d' g2 (g3 ▸ h3 ▸ ht) hc hn, fun he => ?_⟩).two, fun he => he⟩
        have := step_lt (W := W) g4
        omega
    · intro m cur d hi ht
      simp only [decode]
      refine call3_thn (call3_lift safe_mapSize hi ht True) (fun _ => trivial) fun n d' _ h2 h3 h4 =>
        ⟨_, iF m n cur d' h2 (h3 ▸ ht), fun he => ?_⟩
      have := step_lt (W := W) h4
      omega
    · intro m n cur d hi ht
      cases n with
      | zero => simp only [readFields]; exact ⟨ok_done _ hi, fun _ => by simp [done]⟩
      | succ n =>
        simp only [readFields]
        refine (call3_thn (call3_lift safe_str hi ht True) (fun _ => trivial) fun name d1 _ h2 h3 h4 => ?_).two
        have s1 := step_lt (W := W) h4
        have s2 : 2 * rem d1 ≤ (W + 4) * rem d1 := Nat.mul_le_mul_right _ (by omega)
        refine ⟨(W + 4) * rem d + W + 5 ≤ f + 1, ?_, fun he => he⟩
        cases hf : find (env.get m).fields name with
        | none =>
          simp only
          obtain ⟨k1, k2⟩ := skip_ok (f := f) h2 (h3 ▸ ht)
          have hk : ∀ u d', Dec.skip f d1 = some (.ok u, d') → Call2 d' (readFields env lib f (env.get m).fields n cur d') ((W + 4) * rem d + W + 5 ≤ f + 1) := by
            intro u d' hx
            obtain ⟨_, g2, g3, g4⟩ := k1 _ _ hx
            refine (iF m n cur d' g2 (g3 ▸ h3 ▸ ht)).imp fun he => ?_
            have hle : rem d' ≤ rem d1 := by unfold rem; rw [g3]; omega
            have := Nat.mul_le_mul_left (W + 4) hle
            omega
          exact ⟨ok_thn k1 fun u d' hx => (hk u d' hx).1,
            fun he => ret_thn (k2 (by omega)) fun u d' hx => (hk u d' hx).2 he⟩
        | some q =>
          obtain ⟨i, t⟩ := q
          simp only
          have hmem := List.mem_of_getElem? (find_some hf)
          refine (call3_thn (iT t false _ d1 h2 (h3 ▸ ht) (hC m _ hmem) (by simp) (hW m _ hmem))
            (by have := hW m _ hmem; simp only at this; omega) fun v d' _ g2 g3 g4 =>
            ⟨_, iF m n (cur.set i v) d' g2 (g3 ▸ h3 ▸ ht), fun he => ?_⟩).two
          have := step_lt (W := W) g4
          omega

end

end Iota.Lemmas.Codegen
