import Verif.Lemmas.CodegenRead
import Verif.Lemmas.CodegenSafe

/-! # C96 – C101: generated codecs -/

namespace Iota.Props.Codegen
open Iota.Go Iota.Msgpack Iota.Codegen Iota.Spec.Msgpack Iota.Spec.Codegen Iota.Lemmas.Msgpack Iota.Lemmas.Codegen

/-! ## Reading with the definitions of the writer -/

theorem lookup_head {β : Type} (n : Bytes) (x : β) (l : List (Bytes × β)) : List.lookup n ((n, x) :: l) = some x := by
  simp [List.lookup]

/-- A field of the message that is not among the fields makes no difference. -/
theorem fill_cons_unknown (env : Env) (fs : List (Bytes × Ty)) (msg : List (Bytes × GV)) (n : Bytes) (x : GV)
    (h : n ∉ names fs) : fill env fs ((n, x) :: msg) = fill env fs msg := by
  unfold fill
  apply List.map_congr_left
  intro p hp
  have hne : p.1 ≠ n := fun e => h (e ▸ List.mem_map_of_mem hp)
  have : (p.1 == n) = false := by simpa using hne
  simp [List.lookup, this]

theorem zero_opt (env : Env) (f : Nat) (t : Ty) : zero env f (.opt t) = .null := by cases f <;> rfl

theorem fill_empty_opts (env : Env) (fs : List (Bytes × Ty)) (h : ∀ p ∈ fs, ∃ t, p.2 = .opt t) :
    fill env fs [] = fs.map fun _ => .null := by
  rw [fill_nil]
  unfold zeros
  apply List.map_congr_left
  intro p hp
  obtain ⟨t, ht⟩ := h p hp
  rw [ht, zero_opt]

theorem normU_nulls (env : Env) (fs : List (Bytes × Ty)) :
    normU env fs (fs.map fun _ => .null) = fs.map fun _ => .null := by
  induction fs with
  | nil => rfl
  | cons p fs ih => simp [normU, ih]

variable {env : Env} {a : Allow}

mutual
theorem adapt_same (hw : WellFormed env) : {t : Ty} → {v : GV} → Typed env a t v → adapt env env t v = norm env t v
  | _, _, .prim h => by simp [adapt, norm]
  | _, _, .cast h => by simp [adapt, norm]
  | t, _, .nilColl h => by cases t <;> simp only [Collection] at h <;> simp [adapt, norm]
  | _, _, .list hl h => by simp [adapt, norm, Ty.strip, adaptL_same hw h]
  | _, _, .map hl _ hn h => by simp [adapt, norm, Ty.strip, adaptM_same hw h]
  | .named n, .obj vs, .struct (fs := fs) hd h => by
    have hfs : (env.get n).fields = fs := by rw [hd]; rfl
    have := adaptF_same hw h (hfs ▸ hw.nodup n)
    simp only [adapt, norm, Ty.strip, hd, Def.fields, this]
  | .named n, .obj vs, .union (fs := fs) hd h => by
    have hfs : (env.get n).fields = fs := by rw [hd]; rfl
    have := adaptU_same hw h (hfs ▸ hw.nodup n) (hw.member n fs hd)
    simp only [adapt, norm, Ty.strip, hd, Def.fields, this]
  | _, _, .none h => by simp [adapt, norm]
  | _, _, .noneCast h => by simp [adapt, norm]
  | .opt t, v, .some ht h => by
    have hs : t.strip = t := by cases t <;> first | rfl | exact absurd rfl (ht _)
    have hs' : (Ty.opt t).strip = t := rfl
    have e1 : adapt env env (.opt t) v = adapt env env t v := by cases v <;> simp only [adapt, hs, hs']
    have e2 : norm env (.opt t) v = norm env t v := by cases v <;> simp only [norm, hs, hs']
    rw [e1, e2, adapt_same hw h]

theorem adaptL_same (hw : WellFormed env) : {t : Ty} → {l : List GV} → TypedL env a t l → adaptL env env t l = normL env t l
  | _, _, .nil => by simp [adaptL, normL]
  | _, _, .cons hv hl => by simp [adaptL, normL, adapt_same hw hv, adaptL_same hw hl]

theorem adaptM_same (hw : WellFormed env) : {k : Prim} → {t : Ty} → {l : List (Sc × GV)} → TypedM env a k t l →
    adaptM env env t l = normM env t l
  | _, _, _, .nil => by simp [adaptM, normM]
  | _, _, _, .cons hk hv hl => by simp [adaptM, normM, adapt_same hw hv, adaptM_same hw hl]

theorem adaptF_same (hw : WellFormed env) : {fs : List (Bytes × Ty)} → {vs : List GV} → TypedF env a fs vs →
    (names fs).Nodup → fill env fs (adaptF env env fs vs) = normF env fs vs
  | _, _, .nil, _ => by simp [adaptF, normF, fill]
  | (n, t) :: fs, v :: vs, .cons hv hl, hd => by
    simp only [names, List.map_cons, List.nodup_cons] at hd
    have h1 := fill_cons_unknown env fs (adaptF env env fs vs) n (adapt env env t v) hd.1
    have h2 := adaptF_same hw hl hd.2
    simp only [adaptF, normF]
    rw [← h2, ← h1, ← adapt_same hw hv]
    simp [fill, List.lookup]

theorem adaptU_same (hw : WellFormed env) : {fs : List (Bytes × Ty)} → {vs : List GV} → TypedU env a fs vs →
    (names fs).Nodup → (∀ p ∈ fs, ∃ t, p.2 = .opt t) → fill env fs (adaptU env env fs vs) = normU env fs vs
  | (n, t) :: fs, v :: _, .here hv hn, hd, ho => by
    simp only [names, List.map_cons, List.nodup_cons] at hd
    have e1 : adaptU env env ((n, t) :: fs) (v :: fs.map fun _ => .null) = [(n, adapt env env t v)] := by
      cases v <;> first | exact absurd rfl hn | simp [adaptU]
    have e2 : normU env ((n, t) :: fs) (v :: fs.map fun _ => .null) = norm env t v :: fs.map fun _ => .null := by
      cases v <;> first | exact absurd rfl hn | simp [normU, normU_nulls]
    have h1 := fill_cons_unknown env fs [] n (adapt env env t v) hd.1
    rw [fill_empty_opts env fs (fun p hp => ho p (by simp [hp]))] at h1
    rw [e1, e2, ← h1, ← adapt_same hw hv]
    simp [fill, List.lookup]
  | (n, t) :: fs, _ :: vs, .there h, hd, ho => by
    simp only [names, List.map_cons, List.nodup_cons] at hd
    have h1 := adaptU_same hw h hd.2 (fun p hp => ho p (by simp [hp]))
    obtain ⟨t', ht⟩ := ho (n, t) (by simp)
    simp only at ht
    subst ht
    have hl : (adaptU env env fs vs).lookup n = none := by
      refine lookup_none fun hmem => hd.1 ?_
      have : ∀ (fs : List (Bytes × Ty)) (vs : List GV), ∀ m ∈ (adaptU env env fs vs).map (·.1), m ∈ names fs := by
        intro fs
        induction fs with
        | nil => intro vs m hm; simp [adaptU] at hm
        | cons p fs ih =>
          intro vs m hm
          cases vs with
          | nil => simp [adaptU] at hm
          | cons v vs =>
            cases v <;> simp only [adaptU, List.map_cons, List.map_nil, List.mem_singleton] at hm <;>
              simp only [names, List.map_cons, List.mem_cons]
            · exact .inr (ih vs m hm)
            all_goals exact .inl hm
      exact this fs vs n hmem
    simp only [adaptU, normU, ← h1]
    simp [fill, hl, zero_opt]
end

/-! ## More values -/

theorem prim_mono {a b : Allow} (h1 : a.longTime = true → b.longTime = true) (h2 : a.odd = true → b.odd = true) {p : Prim}
    {s : Sc} (h : IsPrim a p s) : IsPrim b p s := by
  cases p <;> cases s <;> simp only [IsPrim] at h ⊢ <;> first | exact h | skip
  · exact ⟨h.1, h.2.1, h.2.2.imp h1 fun x => x⟩
  · exact ⟨h.1, h.2.imp h2 fun x => x⟩

section
variable {env : Env} {a b : Allow}

mutual
theorem typed_mono (h0 : a.nilCast = true → b.nilCast = true) (h1 : a.longTime = true → b.longTime = true)
    (h2 : a.odd = true → b.odd = true) : {t : Ty} → {v : GV} → Typed env a t v → Typed env b t v
  | _, _, .prim h => .prim (prim_mono h1 h2 h)
  | _, _, .cast h => .cast (prim_mono h1 h2 h)
  | _, _, .nilColl h => .nilColl h
  | _, _, .list hl h => .list hl (typedL_mono h0 h1 h2 h)
  | _, _, .map hl hk hn h => .map hl hk hn (typedM_mono h0 h1 h2 h)
  | _, _, .struct hd h => .struct hd (typedF_mono h0 h1 h2 h)
  | _, _, .union hd h => .union hd (typedU_mono h0 h1 h2 h)
  | _, _, .none h => .none h
  | _, _, .noneCast h => .noneCast (h0 h)
  | _, _, .some ht h => .some ht (typed_mono h0 h1 h2 h)

theorem typedL_mono (h0 : a.nilCast = true → b.nilCast = true) (h1 : a.longTime = true → b.longTime = true)
    (h2 : a.odd = true → b.odd = true) : {t : Ty} → {l : List GV} → TypedL env a t l → TypedL env b t l
  | _, _, .nil => .nil
  | _, _, .cons hv hl => .cons (typed_mono h0 h1 h2 hv) (typedL_mono h0 h1 h2 hl)

theorem typedM_mono (h0 : a.nilCast = true → b.nilCast = true) (h1 : a.longTime = true → b.longTime = true)
    (h2 : a.odd = true → b.odd = true) : {k : Prim} → {t : Ty} → {l : List (Sc × GV)} → TypedM env a k t l →
    TypedM env b k t l
  | _, _, _, .nil => .nil
  | _, _, _, .cons hk hv hl => .cons (prim_mono h1 h2 hk) (typed_mono h0 h1 h2 hv) (typedM_mono h0 h1 h2 hl)

theorem typedF_mono (h0 : a.nilCast = true → b.nilCast = true) (h1 : a.longTime = true → b.longTime = true)
    (h2 : a.odd = true → b.odd = true) : {fs : List (Bytes × Ty)} → {vs : List GV} → TypedF env a fs vs → TypedF env b fs vs
  | _, _, .nil => .nil
  | _, _, .cons hv hl => .cons (typed_mono h0 h1 h2 hv) (typedF_mono h0 h1 h2 hl)

theorem typedU_mono (h0 : a.nilCast = true → b.nilCast = true) (h1 : a.longTime = true → b.longTime = true)
    (h2 : a.odd = true → b.odd = true) : {fs : List (Bytes × Ty)} → {vs : List GV} → TypedU env a fs vs → TypedU env b fs vs
  | _, _, .here hv hn => .here (typed_mono h0 h1 h2 hv) hn
  | _, _, .there h => .there (typedU_mono h0 h1 h2 h)
end
end

/-! ## Sizes -/

theorem reorder_null {v v' : GV} (h : Reorder v v') : v = .null ↔ v' = .null := by
  induction h with
  | refl v => exact Iff.rfl
  | trans _ _ ih ih' => exact ih.trans ih'
  | map h => simp
  | inList h => simp
  | inMap h => simp
  | inObj h => simp

theorem writeList_append (env : Env) (t : Ty) (x y : List GV) :
    writeList env t (x ++ y) = writeList env t x ++ writeList env t y := by
  induction x with
  | nil => simp [writeList]
  | cons v x ih => simp [writeList, ih]

theorem writeMap_append (env : Env) (t : Ty) (x y : List (Sc × GV)) :
    writeMap env t (x ++ y) = writeMap env t x ++ writeMap env t y := by
  induction x with
  | nil => simp [writeMap]
  | cons v x ih => obtain ⟨k, v⟩ := v; simp [writeMap, ih]

theorem writeMap_perm (env : Env) (t : Ty) {l l' : List (Sc × GV)} (h : l.Perm l') :
    Size.ops (writeMap env t l) = Size.ops (writeMap env t l') := by
  induction h with
  | nil => rfl
  | cons p h ih =>
    obtain ⟨k, v⟩ := p
    simp only [writeMap, Size.ops, sizes_append, ih]
  | swap p q l =>
    obtain ⟨k, v⟩ := p
    obtain ⟨k', v'⟩ := q
    simp only [writeMap, Size.ops, sizes_append]
    omega
  | trans _ _ ih ih' => exact ih.trans ih'

theorem writeFields_in (env : Env) {v v' : GV} (h : ∀ t, Size.ops (write env t v) = Size.ops (write env t v')) (y : List GV) :
    ∀ (x : List GV) (fs : List (Bytes × Ty)),
      Size.ops (writeFields env fs (x ++ v :: y)) = Size.ops (writeFields env fs (x ++ v' :: y))
  | [], [] => by simp [writeFields]
  | [], (n, t) :: fs => by simp [writeFields, Size.ops, sizes_append, h]
  | u :: x, [] => by simp [writeFields]
  | u :: x, (n, t) :: fs => by
    have := writeFields_in env h y x fs
    simp [writeFields, Size.ops, sizes_append, this]

theorem writeUnion_in (env : Env) {v v' : GV} (h : ∀ t, Size.ops (write env t v) = Size.ops (write env t v'))
    (hn : v = .null ↔ v' = .null) (y : List GV) :
    ∀ (x : List GV) (fs : List (Bytes × Ty)),
      Size.ops (writeUnion env fs (x ++ v :: y)) = Size.ops (writeUnion env fs (x ++ v' :: y))
  | [], [] => by simp [writeUnion]
  | [], (n, t) :: fs => by
    have e : ∀ u : GV, u ≠ .null → writeUnion env ((n, t) :: fs) (u :: y) = .mapSize 1 :: .str n :: write env t u := by
      intro u hu
      cases u <;> first | exact absurd rfl hu | simp [writeUnion]
    by_cases hv : v = .null
    · rw [hv, hn.mp hv]
    · simp only [List.nil_append]
      rw [e v hv, e v' fun hv' => hv (hn.mpr hv')]
      simp [Size.ops, h]
  | u :: x, [] => by simp [writeUnion]
  | u :: x, (n, t) :: fs => by
    have := writeUnion_in env h hn y x fs
    cases u <;> simp [writeUnion, this]

/-- The size does not depend on the order in which the entries of maps are visited. -/
theorem reorder_size (env : Env) {v v' : GV} (h : Reorder v v') : ∀ t, Size.ops (write env t v) = Size.ops (write env t v') := by
  induction h with
  | refl v => exact fun _ => rfl
  | trans _ _ ih ih' => exact fun t => (ih t).trans (ih' t)
  | map h =>
    intro t
    simp only [write, h.length_eq]
    cases t.strip <;> simp [Size.ops, writeMap_perm env _ h]
  | inList h ih =>
    intro t
    simp only [write]
    cases t.strip <;> simp [Size.ops, writeList_append, writeList, sizes_append, ih]
  | inMap h ih =>
    intro t
    simp only [write]
    cases t.strip <;> simp [Size.ops, writeMap_append, writeMap, sizes_append, ih]
  | @inObj x y v v' h ih =>
    intro t
    simp only [write]
    cases t.strip with
    | named n =>
      simp only
      cases env.get n with
      | struct fs => simp only [Size.ops, writeFields_in env ih y x fs]
      | union fs => simp only [writeUnion_in env ih (reorder_null h) y x fs]
    | _ => rfl

/-- A buffer that is large enough is filled from its start. -/
theorem withBuffer_fits {w : Wr} {bs : Bytes} (h : Writes w bs) {n : Nat} (hn : bs.length ≤ n) (hlt : n < 2 ^ 32) :
    withBuffer n w = .ok ⟨bs ++ List.replicate (n - bs.length) 0, bs.length, false⟩ := by
  have := h [] (List.replicate bs.length 0) (List.replicate (n - bs.length) 0) (by simp) (by simp; omega)
  have hr : List.replicate n (0 : UInt8) = List.replicate bs.length 0 ++ List.replicate (n - bs.length) 0 := by
    rw [List.replicate_append_replicate]; congr 1; omega
  unfold withBuffer D.new
  rw [Nat.mod_eq_of_lt hlt, hr]
  simpa using this

/-- What `ToBytes` makes and `Decode` reads. -/
theorem through (lib : Lib) {a : Allow} {w r : Env} (hf : Fit a w r) {n : Nat} {v v' : GV} (hr : Reorder v v')
    (ht : Typed w a (.named n) v') (hlt : Size.ops (write w (.named n) v) < 2 ^ 32) :
    ∃ bs rest, Codegen.toBytes w (.named n) v v' = .ok (bs ++ rest) ∧ Wire (EH a) (valOf w (.named n) v') bs ∧
      (a.odd = false → rest = []) ∧
      (a.nilCast = false → ∃ f0, ∀ f, f0 ≤ f →
        fromBytes r lib f n (bs ++ rest) = some (.ok (adapt w r (.named n) v'))) := by
  obtain ⟨bs, h1, h2, h3, h4⟩ := good (lib := lib) hf ht
  have hs := reorder_size w hr (.named n)
  have hw := withBuffer_fits h1 (n := Size.ops (write w (.named n) v)) (hs ▸ h2.1) hlt
  refine ⟨bs, List.replicate (Size.ops (write w (.named n) v) - bs.length) 0, ?_, h3, ?_, ?_⟩
  · unfold Codegen.toBytes
    rw [hw]
  · intro ho
    have := h2.2 ho
    rw [hs, this]
    simp
  · intro hnc
    obtain ⟨f0, hf0⟩ := h4 hnc false _ (fun _ => rfl)
    refine ⟨f0, fun f hle => ?_⟩
    unfold fromBytes D.new
    have := (hf0 f hle).1 [] (List.replicate (Size.ops (write w (.named n) v) - bs.length) 0) (by
      have := hs ▸ h2.1
      simp; omega)
    simp only [List.nil_append, List.length_nil] at this
    rw [this]
    rfl

theorem compatible_refl (hw : WellFormed env) : Compatible env env := by
  intro n
  refine ⟨?_, Iff.rfl⟩
  intro s t t' h h'
  have hd := hw.nodup n
  generalize (env.get n).fields = fs at h h' hd
  induction fs with
  | nil => simp at h
  | cons p fs ih =>
    simp only [names, List.map_cons, List.nodup_cons] at hd
    rcases List.mem_cons.mp h with rfl | h1 <;> rcases List.mem_cons.mp h' with h2 | h2
    · simpa using h2.symm
    · exact absurd (List.mem_map_of_mem (f := (·.1)) h2) hd.1
    · subst h2
      exact absurd (List.mem_map_of_mem (f := (·.1)) h1) hd.1
    · exact ih h1 h2 hd.2

theorem fit_refl (hw : WellFormed env) (a : Allow) : Fit a env env :=
  ⟨hw, hw, compatible_refl hw, fun _ _ _ h => h⟩

/-! ## C96: round trip -/

/-- **C96** (part) For all type definitions and all values without absent optional enums or aliases:
`ToBytes` succeeds, whatever the orders are in which the entries of maps are visited, and `Decode` returns
the same value, in which only nil slices and maps have become empty ones. -/
theorem codec_round_trip_partial (lib : Lib) (env : Env) (hw : WellFormed env) (n : Nat) (v v' : GV) (hr : Reorder v v')
    (ht : Typed env ⟨false, true, true⟩ (.named n) v') (hlt : Size.ops (write env (.named n) v) < 2 ^ 32) :
    ∃ bs, Codegen.toBytes env (.named n) v v' = .ok bs ∧
      ∃ f0, ∀ f, f0 ≤ f → fromBytes env lib f n bs = some (.ok (norm env (.named n) v')) := by
  obtain ⟨bs, rest, h1, _, _, h4⟩ := through lib (fit_refl hw _) hr ht hlt
  exact ⟨_, h1, adapt_same hw ht ▸ h4 rfl⟩

/-- **C98** For all type definitions and all values: `ToBytes` makes a MessagePack map of the fields by
name, or of the member of a union that is present, with the values as the MessagePack values of their types,
and nothing else, except that zero bytes follow if there are byte strings of 255 bytes. -/
theorem codec_wire (env : Env) (hw : WellFormed env) (n : Nat) (v v' : GV) (hr : Reorder v v')
    (ht : Typed env Allow.all (.named n) v') (hlt : Size.ops (write env (.named n) v) < 2 ^ 32) :
    ∃ bs k, Codegen.toBytes env (.named n) v v' = .ok (bs ++ List.replicate k 0) ∧
      Wire ExtHead (valOf env (.named n) v') bs ∧ (Typed env ⟨true, true, false⟩ (.named n) v' → k = 0) := by
  obtain ⟨bs, h1, h2, h3, _⟩ := good (lib := ⟨fun x => x, fun _ => none⟩) (fit_refl hw Allow.all) ht
  have hs := reorder_size env hr (.named n)
  have hwb := withBuffer_fits h1 (n := Size.ops (write env (.named n) v)) (hs ▸ h2.1) hlt
  refine ⟨bs, Size.ops (write env (.named n) v) - bs.length, ?_, h3, ?_⟩
  · unfold Codegen.toBytes
    rw [hwb]
  · intro ht'
    obtain ⟨bs', g1, g2, _, _⟩ := good (lib := ⟨fun x => x, fun _ => none⟩) (fit_refl hw ⟨true, true, false⟩) ht'
    have := g2.2 rfl
    have e1 := withBuffer_fits h1 (n := Size.ops (write env (.named n) v)) (hs ▸ h2.1) hlt
    have e2 := withBuffer_fits g1 (n := Size.ops (write env (.named n) v)) (hs ▸ g2.1) hlt
    rw [e1] at e2
    simp only [Res.ok.injEq, D.mk.injEq] at e2
    rw [hs]
    omega

/-- A type with an optional enum. -/
def optEnum : Env := [.struct [([101], .opt (.cast .i32))]]

theorem optEnum_wf : WellFormed optEnum := by
  refine ⟨fun n => ?_, fun n => ?_, fun n => ?_, fun n fs h => ?_, fun _ => 0, fun n h => Nat.zero_lt_one, fun n s m h => ?_⟩ <;>
    rcases n with _ | n <;> simp_all [optEnum, Env.get, Def.fields, names, short]

/-- **C96** is false of the code: a type with an optional enum cannot be read back if the enum is absent,
the decoder panics. -/
theorem optional_enum_refuted (lib : Lib) :
    WellFormed optEnum ∧ Typed optEnum Allow.all (.named 0) (.obj [.null]) ∧
      ∃ bs, Codegen.toBytes optEnum (.named 0) (.obj [.null]) (.obj [.null]) = .ok bs ∧
        ∀ f, 5 ≤ f → fromBytes optEnum lib f 0 bs = some .panic := by
  refine ⟨optEnum_wf, .struct rfl (.cons (.noneCast rfl) .nil), [129, 161, 101, 192], rfl, ?_⟩
  intro f hf
  obtain ⟨f, rfl⟩ : ∃ g, f = g + 5 := ⟨f - 5, by omega⟩
  have h1 : Dec.mapSize (D.new [129, 161, 101, 192]) = (.ok 1, ⟨[129, 161, 101, 192], 1, false⟩) := by decide +kernel
  have h2 : Dec.str ⟨[129, 161, 101, 192], 1, false⟩ = (.ok [101], ⟨[129, 161, 101, 192], 3, false⟩) := by decide +kernel
  have h3 : Dec.isNextNil ⟨[129, 161, 101, 192], 3, false⟩ = (.ok true, ⟨[129, 161, 101, 192], 4, false⟩) := by decide +kernel
  have h4 : castNillable lib .i32 ⟨[129, 161, 101, 192], 3, false⟩ = (.panic, ⟨[129, 161, 101, 192], 4, false⟩) := by
    unfold castNillable Dec.nillable
    rw [rd_bind_ok h3]
    rfl
  simp [fromBytes, readTy, decode, readFields, Env.get, thn, lift, find, optEnum, h1, h2, h4]

/-! A type with all kinds of fields, a union and a type that contains them. -/

def sample : Env :=
  [.struct [([97], .prim .str), ([98], .opt (.named 1)), ([99], .list (.opt (.prim .u8))), ([100], .map .str (.cast .i32))],
   .union [([120], .opt (.prim .i64)), ([121], .opt (.named 0))],
   .struct [([109], .named 0), ([110], .named 1), ([111], .opt (.prim .time))]]

theorem sample_wf : WellFormed sample := by
  refine ⟨fun n => ?_, fun n => ?_, fun n => ?_, fun n fs h => ?_, fun n => if n = 2 then 1 else 0, fun n h => ?_, fun n s m h => ?_⟩
  all_goals rcases n with _ | _ | _ | n
  all_goals simp_all [sample, Env.get, Def.fields, names, short]
  all_goals first
    | (subst h; simp; intro x y h; rcases h with ⟨_, rfl⟩ | ⟨_, rfl⟩ <;> exact ⟨_, rfl⟩) | (subst h; simp) | omega | (split <;> omega)
    | (intro x y h; rcases h with ⟨_, rfl⟩ | ⟨_, rfl⟩ <;> exact ⟨_, rfl⟩)

def sampleValue : GV :=
  .obj [.obj [.sc (.str [104, 105]), .null, .list [.sc (.uint 7), .null], .map [(.str [49], .sc (.int 1)), (.str [50], .sc (.int (-2)))]],
    .obj [.null, .obj [.sc (.str []), .obj [.sc (.int 5), .null], .null, .null]], .null]

theorem sample_typed : Typed sample ⟨false, false, false⟩ (.named 2) sampleValue := by
  refine .struct rfl (.cons (.struct rfl (.cons (.prim (by simp [IsPrim, short])) (.cons (.none trivial)
    (.cons (.list (by simp [short]) (.cons (.some nofun (.prim (by simp [IsPrim]))) (.cons (.none trivial) .nil)))
      (.cons (.map (by simp [short]) trivial (by decide) (.cons (by simp [IsPrim, short]) (.cast (by simp [IsPrim]))
        (.cons (by simp [IsPrim, short]) (.cast (by simp [IsPrim])) .nil))) .nil))))) (.cons (.union rfl (.there ?_)) (.cons (.none trivial) .nil)))
  refine .here (.some nofun (.struct rfl (.cons (.prim (by simp [IsPrim, short])) (.cons (.some nofun (.union rfl
    (.here (.some nofun (.prim (by simp [IsPrim]))) nofun))) (.cons (.nilColl trivial) (.cons (.nilColl trivial) .nil)))))) nofun

/-! The value is encoded and decoded; the nil slice and map have become empty ones. -/

example (lib : Lib) : ∃ bs, Codegen.toBytes sample (.named 2) sampleValue sampleValue = .ok bs ∧
    ∃ f0, ∀ f, f0 ≤ f → fromBytes sample lib f 2 bs = some (.ok (
      .obj [.obj [.sc (.str [104, 105]), .null, .list [.sc (.uint 7), .null], .map [(.str [49], .sc (.int 1)), (.str [50], .sc (.int (-2)))]],
        .obj [.null, .obj [.sc (.str []), .obj [.sc (.int 5), .null], .list [], .map []]], .null])) :=
  codec_round_trip_partial lib sample sample_wf 2 sampleValue sampleValue (.refl _)
    (typed_mono (by simp) (by simp) (by simp) sample_typed) (by decide +kernel)

/-! ## C97: evolution -/

/-- **C97** (part) A message written with one version of the definitions and read with another, in which
types have gained and lost fields and their order has changed: common fields keep their values, fields that
the writer does not know have zero values, fields that the reader does not know are passed over. If the
reader does not know all fields, the value must not contain a time that needs 12 bytes. -/
theorem evolution_partial (lib : Lib) (w r : Env) (hw : WellFormed w) (hr : WellFormed r) (hc : Compatible w r)
    (long : Bool) (hk : long = true → Knows w r) (n : Nat) (v v' : GV) (ho : Reorder v v')
    (ht : Typed w ⟨false, long, true⟩ (.named n) v') (hlt : Size.ops (write w (.named n) v) < 2 ^ 32) :
    ∃ bs, Codegen.toBytes w (.named n) v v' = .ok bs ∧
      ∃ f0, ∀ f, f0 ≤ f → fromBytes r lib f n bs = some (.ok (adapt w r (.named n) v')) := by
  obtain ⟨bs, rest, h1, _, _, h4⟩ := through lib ⟨hw, hr, hc, hk⟩ ho ht hlt
  exact ⟨_, h1, h4 rfl⟩

def olderEnv : Env := [.struct [([98], .prim .u8), ([100], .prim .str)]]
def newerEnv : Env := [.struct [([97], .prim .time), ([98], .prim .u8)]]

theorem older_wf : WellFormed olderEnv := by
  refine ⟨fun n => ?_, fun n => ?_, fun n => ?_, fun n fs h => ?_, fun _ => 0, fun n h => Nat.zero_lt_one, fun n s m h => ?_⟩ <;>
    rcases n with _ | n <;> simp_all [olderEnv, Env.get, Def.fields, names, short]
theorem newer_wf : WellFormed newerEnv := by
  refine ⟨fun n => ?_, fun n => ?_, fun n => ?_, fun n fs h => ?_, fun _ => 0, fun n h => Nat.zero_lt_one, fun n s m h => ?_⟩ <;>
    rcases n with _ | n <;> simp_all [newerEnv, Env.get, Def.fields, names, short]
theorem newer_older : Compatible newerEnv olderEnv := by
  intro n
  rcases n with _ | n
  · refine ⟨?_, by simp [newerEnv, olderEnv, Env.get]⟩
    intro s t t' h h'
    simp only [newerEnv, olderEnv, Env.get, Def.fields, List.getElem?_cons_zero, Option.getD_some, List.mem_cons,
      Prod.mk.injEq, List.not_mem_nil, or_false] at h h'
    rcases h with ⟨rfl, rfl⟩ | ⟨rfl, rfl⟩ <;> rcases h' with ⟨h1, rfl⟩ | ⟨h1, rfl⟩ <;> first | rfl | (simp at h1)
  · simp [newerEnv, olderEnv, Env.get, Def.fields]

/-- The newer version has a field `a` more and a field `d` less. -/
example (lib : Lib) : ∃ bs, Codegen.toBytes newerEnv (.named 0) (.obj [.sc (.time ⟨1, 0⟩), .sc (.uint 7)]) (.obj [.sc (.time ⟨1, 0⟩), .sc (.uint 7)]) = .ok bs ∧
    ∃ f0, ∀ f, f0 ≤ f → fromBytes olderEnv lib f 0 bs = some (.ok (.obj [.sc (.uint 7), .sc (.str [])])) :=
  evolution_partial lib newerEnv olderEnv newer_wf older_wf newer_older false nofun 0 _ _ (.refl _)
    (.struct rfl (.cons (.prim (by simp [IsPrim, i64])) (.cons (.prim (by simp [IsPrim])) .nil))) (by decide +kernel)

/-- **C97** is false of the code: an unknown field whose value is a time before 1970 makes the message
unreadable, as `Skip` does not know the extension header of 12 bytes. -/
theorem evolution_long_time_refuted (lib : Lib) :
    ∃ v bs, Typed newerEnv ⟨false, true, false⟩ (.named 0) v ∧ Codegen.toBytes newerEnv (.named 0) v v = .ok bs ∧
      ∀ f, 8 ≤ f → ∃ e, fromBytes olderEnv lib f 0 bs = some (.err e) := by
  refine ⟨.obj [.sc (.time ⟨-1, 0⟩), .sc (.uint 7)], [130, 161, 97, 199, 12, 255, 0, 0, 0, 0, 255, 255, 255, 255, 255, 255, 255, 255, 161, 98, 7],
    .struct rfl (.cons (.prim (by simp [IsPrim, i64])) (.cons (.prim (by simp [IsPrim])) .nil)), by decide +kernel, ?_⟩
  intro f hf
  obtain ⟨f, rfl⟩ : ∃ g, f = g + 8 := ⟨f - 8, by omega⟩
  generalize hb : ([130, 161, 97, 199, 12, 255, 0, 0, 0, 0, 255, 255, 255, 255, 255, 255, 255, 255, 161, 98, 7] : Bytes) = b
  have h1 : Dec.mapSize (D.new b) = (.ok 2, ⟨b, 1, false⟩) := by subst hb; decide +kernel
  have h2 : Dec.str ⟨b, 1, false⟩ = (.ok [97], ⟨b, 3, false⟩) := by subst hb; decide +kernel
  have h3 : Dec.skip 5 ⟨b, 3, false⟩ = some (.err "bad prefix", ⟨b, 4, false⟩) := by subst hb; decide +kernel
  have h3' := skip_mono (g := f + 5) (by omega) h3
  refine ⟨"bad prefix", ?_⟩
  simp [fromBytes, readTy, decode, readFields, Env.get, thn, lift, find, olderEnv, h1, h2, h3']

/-! ## C98: format -/

/-- What another implementation of MessagePack sees of the sample. -/
example : ∃ bs, Codegen.toBytes sample (.named 2) sampleValue sampleValue = .ok bs ∧
    Wire ExtHead (.map [
      (.str [109], .map [(.str [97], .str [104, 105]), (.str [98], .nil), (.str [99], .arr [.int 7, .nil]),
        (.str [100], .map [(.str [49], .int 1), (.str [50], .int (-2))])]),
      (.str [110], .map [(.str [121], .map [(.str [97], .str []), (.str [98], .map [(.str [120], .int 5)]),
        (.str [99], .arr []), (.str [100], .map [])])]),
      (.str [111], .nil)]) bs := by
  obtain ⟨bs, k, h1, h2, h3⟩ := codec_wire sample sample_wf 2 sampleValue sampleValue (.refl _)
    (typed_mono (by simp) (by simp) (by simp) sample_typed) (by decide +kernel)
  have := h3 (typed_mono (by simp) (by simp) (by simp) sample_typed)
  subst this
  exact ⟨bs, by simpa using h1, h2⟩

/-! ## C99: unions -/

/-- The value with all members but the first that is present removed. -/
def firstOnly : List GV → List GV
  | [] => []
  | .null :: vs => .null :: firstOnly vs
  | v :: vs => v :: vs.map fun _ => .null

theorem writeUnion_first (env : Env) : ∀ (fs : List (Bytes × Ty)) (vs : List GV),
    writeUnion env fs vs = writeUnion env fs (firstOnly vs)
  | [], [] => rfl
  | [], v :: vs => by cases v <;> simp [writeUnion, firstOnly]
  | _ :: _, [] => rfl
  | (n, t) :: fs, v :: vs => by
    have := writeUnion_first env fs vs
    cases v <;> simp [writeUnion, firstOnly, this]

/-- **C99** A union with several members set is written as if only the first of them were: the others are
lost. -/
theorem union_first_member (env : Env) (n : Nat) (fs : List (Bytes × Ty)) (hd : env.get n = .union fs) (vs : List GV) :
    write env (.named n) (.obj vs) = write env (.named n) (.obj (firstOnly vs)) ∧
    Codegen.toBytes env (.named n) (.obj vs) (.obj vs) =
      Codegen.toBytes env (.named n) (.obj (firstOnly vs)) (.obj (firstOnly vs)) := by
  have h : write env (.named n) (.obj vs) = write env (.named n) (.obj (firstOnly vs)) := by
    simp only [write, Ty.strip, hd]
    exact writeUnion_first env fs vs
  exact ⟨h, by unfold Codegen.toBytes; rw [h]⟩

/-- **C99** (part) Exactly the first member that is present comes back. -/
theorem union_round_trip_partial (lib : Lib) (env : Env) (hw : WellFormed env) (n : Nat) (fs gs : List (Bytes × Ty)) (name : Bytes)
    (t : Ty) (hd : env.get n = .union (fs ++ (name, t) :: gs)) (v : GV) (us : List GV) (hu : us.length = gs.length)
    (hv : v ≠ .null) (ht : Typed env ⟨false, true, true⟩ t v)
    (hlt : Size.ops (write env (.named n) (.obj (fs.map (fun _ => .null) ++ v :: us))) < 2 ^ 32) :
    ∃ bs, Codegen.toBytes env (.named n) (.obj (fs.map (fun _ => .null) ++ v :: us)) (.obj (fs.map (fun _ => .null) ++ v :: us)) = .ok bs ∧
      ∃ f0, ∀ f, f0 ≤ f → fromBytes env lib f n bs =
        some (.ok (.obj (fs.map (fun _ => .null) ++ norm env t v :: gs.map fun _ => .null))) := by
  have hfirst : ∀ (fs : List (Bytes × Ty)), firstOnly (fs.map (fun _ => .null) ++ v :: us) = fs.map (fun _ => .null) ++ v :: gs.map fun _ => .null := by
    intro fs
    induction fs with
    | nil =>
      have : us.map (fun _ => GV.null) = gs.map fun _ => .null := by
        rw [List.map_const', List.map_const', hu]
      cases v <;> first | exact absurd rfl hv | simp [firstOnly, this]
    | cons p fs ih => simp [firstOnly, ih]
  have hT : ∀ fs : List (Bytes × Ty), TypedU env ⟨false, true, true⟩ (fs ++ (name, t) :: gs) (fs.map (fun _ => .null) ++ v :: gs.map fun _ => .null) := by
    intro fs
    induction fs with
    | nil => exact .here ht hv
    | cons p fs ih => exact .there ih
  have hN : ∀ fs : List (Bytes × Ty), normU env (fs ++ (name, t) :: gs) (fs.map (fun _ => .null) ++ v :: gs.map fun _ => .null) =
      fs.map (fun _ => .null) ++ norm env t v :: gs.map fun _ => .null := by
    intro fs
    induction fs with
    | nil =>
      have e : normU env ((name, t) :: gs) (v :: gs.map fun _ => .null) = norm env t v :: normU env gs (gs.map fun _ => .null) := by
        cases v <;> first | exact absurd rfl hv | simp [normU]
      simp [e, normU_nulls]
    | cons p fs ih => simp [normU, ih]
  obtain ⟨e1, e2⟩ := union_first_member env n _ hd (fs.map (fun _ => .null) ++ v :: us)
  rw [e2]
  rw [e1] at hlt
  rw [hfirst] at hlt ⊢
  have := codec_round_trip_partial lib env hw n _ _ (.refl _) (.union hd (hT fs)) hlt
  simpa [norm, Ty.strip, hd, hN] using this

/-- **C99** A union without a member is written as nil and comes back without a member. -/
theorem union_empty (lib : Lib) (env : Env) (n : Nat) (fs : List (Bytes × Ty)) (hd : env.get n = .union fs) (hw : WellFormed env) :
    Codegen.toBytes env (.named n) (.obj (fs.map fun _ => .null)) (.obj (fs.map fun _ => .null)) = .ok [0xc0] ∧
      ∀ f, 3 ≤ f → fromBytes env lib f n [0xc0] = some (.ok (.obj (fs.map fun _ => .null))) := by
  have e : writeUnion env fs (fs.map fun _ => .null) = [.nil] := by
    clear hd
    induction fs with
    | nil => simp [writeUnion]
    | cons p fs ih => simp [writeUnion, ih]
  constructor
  · unfold Codegen.toBytes
    simp only [write, Ty.strip, hd, e]
    rfl
  · intro f hf
    obtain ⟨f, rfl⟩ : ∃ g, f = g + 3 := ⟨f - 3, by omega⟩
    have h1 : Dec.mapSize (D.new [0xc0]) = (.ok 0, ⟨[0xc0], 1, false⟩) := by decide +kernel
    have hz : zeros env fs = fs.map fun _ => .null := by
      rw [← fill_nil]
      exact fill_empty_opts env fs (hw.member n fs hd)
    simp [fromBytes, readTy, hd, decode, readFields, thn, lift, h1, done, hz]

/-- Two members: the second is lost. -/
example (lib : Lib) : ∃ bs, Codegen.toBytes sample (.named 1) (.obj [.sc (.int 5), .obj [.sc (.str []), .null, .null, .null]])
      (.obj [.sc (.int 5), .obj [.sc (.str []), .null, .null, .null]]) = .ok bs ∧
    ∃ f0, ∀ f, f0 ≤ f → fromBytes sample lib f 1 bs = some (.ok (.obj [.sc (.int 5), .null])) :=
  union_round_trip_partial lib sample sample_wf 1 [] _ [120] _ rfl (.sc (.int 5)) [.obj [.sc (.str []), .null, .null, .null]] rfl nofun
    (.some nofun (.prim (by simp [IsPrim]))) (by decide +kernel)

example (lib : Lib) : ∀ f, 3 ≤ f → fromBytes sample lib f 1 [0xc0] = some (.ok (.obj [.null, .null])) :=
  (union_empty lib sample 1 _ rfl sample_wf).2

/-! ## C100: any bytes -/

/-- There is a bound for the nesting in the fields of finitely many types. -/
theorem nesting_bound (env : Env) : ∃ W, ∀ n, ∀ p ∈ (env.get n).fields, nesting p.2 ≤ W := by
  induction env with
  | nil => exact ⟨0, fun n p h => by simp [Env.get, Def.fields] at h⟩
  | cons d env ih =>
    obtain ⟨W, hW⟩ := ih
    have hd : ∃ V, ∀ p ∈ d.fields, nesting p.2 ≤ V := by
      generalize d.fields = fs
      induction fs with
      | nil => exact ⟨0, by simp⟩
      | cons q fs ih =>
        obtain ⟨V, hV⟩ := ih
        refine ⟨max (nesting q.2) V, fun p hp => ?_⟩
        rcases List.mem_cons.mp hp with rfl | hp
        · omega
        · have := hV p hp
          omega
    obtain ⟨V, hV⟩ := hd
    refine ⟨max V W, fun n p hp => ?_⟩
    cases n with
    | zero =>
      have := hV p (by simpa [Env.get] using hp)
      omega
    | succ n =>
      have := hW n p (by simpa [Env.get] using hp)
      omega

/-- **C100** (part) For all type definitions without optional enums or aliases and all bytes in which no
32-bit length is so large that adding it to a position overflows: `Decode` returns a value or an error after
a number of calls that is proportional to the number of bytes. It does not panic. -/
theorem decode_safe_partial (lib : Lib) (env : Env) (hC : NoOptCasts env) (W : Nat)
    (hW : ∀ n, ∀ p ∈ (env.get n).fields, nesting p.2 ≤ W) (n : Nat) (b : Bytes) (hb : b.length + 65536 ≤ 2 ^ 32) (ht : Tame b)
    (fuel : Nat) (hf : (W + 4) * b.length + 3 ≤ fuel) :
    ∃ r, fromBytes env lib fuel n b = some r ∧ r ≠ .panic := by
  obtain ⟨h1, _, h3⟩ := (safe_all (lib := lib) hC hW fuel).1 (.named n) false (zero env env.length (.named n)) (D.new b)
    ⟨Nat.zero_le _, hb⟩ ht trivial (by simp) (Nat.zero_le _)
  unfold fromBytes
  rcases hx : readTy env lib fuel (.named n) false (zero env env.length (.named n)) (D.new b) with _ | ⟨r, d'⟩
  · refine absurd hx (h3 ?_)
    simpa [rem, D.new, nesting] using hf
  · exact ⟨r, rfl, (h1 r d' hx).1⟩

/-- **C100** is false of the code: a message with a string in the place of an optional enum makes the decoder
panic. -/
theorem decode_panic_refuted (lib : Lib) : ∃ b, Tame b ∧ ∀ f, 5 ≤ f → fromBytes optEnum lib f 0 b = some .panic := by
  refine ⟨[129, 161, 101, 161, 120], ?_, ?_⟩
  · intro i c h
    rcases i with _ | _ | _ | _ | _ | i <;> simp at h <;> subst h <;> simp
  · intro f hf
    obtain ⟨f, rfl⟩ : ∃ g, f = g + 5 := ⟨f - 5, by omega⟩
    generalize hb : ([129, 161, 101, 161, 120] : Bytes) = b
    have h1 : Dec.mapSize (D.new b) = (.ok 1, ⟨b, 1, false⟩) := by subst hb; decide +kernel
    have h2 : Dec.str ⟨b, 1, false⟩ = (.ok [101], ⟨b, 3, false⟩) := by subst hb; decide +kernel
    have h3 : Dec.isNextNil ⟨b, 3, false⟩ = (.ok false, ⟨b, 3, false⟩) := by subst hb; decide +kernel
    have h5 : Dec.intK 4 ⟨b, 3, false⟩ = (.err "bad prefix for int64", ⟨b, 4, false⟩) := by subst hb; decide +kernel
    have h4 : castNillable lib .i32 ⟨b, 3, false⟩ = (.panic, ⟨b, 4, false⟩) := by
      unfold castNillable Dec.nillable
      rw [rd_bind_ok h3]
      simp only [Bool.false_eq_true, if_false, rd_bind, readPrim, rd_map, h5]
    simp [fromBytes, readTy, decode, readFields, Env.get, thn, lift, find, optEnum, h1, h2, h4]

/-- The definitions of the sample have optional fields, but no optional enums. -/
theorem sample_noOptCasts : NoOptCasts sample := by
  intro n p hp
  rcases n with _ | _ | _ | n <;> simp [sample, Env.get, Def.fields] at hp
  · rcases hp with rfl | rfl | rfl | rfl <;> simp [NoOptCast]
  · rcases hp with rfl | rfl <;> simp [NoOptCast]
  · rcases hp with rfl | rfl | rfl <;> simp [NoOptCast]

/-- A map of 2^32 - 1 entries that are not there. -/
example (lib : Lib) : ∃ W, ∀ fuel, (W + 4) * 5 + 3 ≤ fuel → ∃ r, fromBytes sample lib fuel 0 [0xdf, 0xff, 0xff, 0xff, 0xff] = some r ∧ r ≠ .panic := by
  obtain ⟨W, hW⟩ := nesting_bound sample
  refine ⟨W, fun fuel hf => decode_safe_partial lib sample sample_noOptCasts W hW 0 _ (by decide) ?_ fuel hf⟩
  intro i c h
  rcases i with _ | _ | _ | _ | _ | i <;> simp at h <;> subst h <;> simp

/-! ## C101: messages cut short -/

/-- **C101** (part) A message of a writer all of whose fields the reader knows, cut short anywhere, is not
accepted: `Decode` returns and not with a value. If there are no optional enums and no large lengths it
returns an error. -/
theorem truncated_rejected_partial (lib : Lib) (w r : Env) (hw : WellFormed w) (hr : WellFormed r) (hc : Compatible w r)
    (hk : Knows w r) (n : Nat) (v v' : GV) (ho : Reorder v v')
    (ht : Typed w ⟨false, true, false⟩ (.named n) v') (hlt : Size.ops (write w (.named n) v) < 2 ^ 32) :
    ∃ bs, Codegen.toBytes w (.named n) v v' = .ok bs ∧ ∃ f0, ∀ f, f0 ≤ f → ∀ k, k < bs.length →
      ∃ x, fromBytes r lib f n (bs.take k) = some x ∧ (∀ y, x ≠ .ok y) ∧
        (NoOptCasts r → Tame (bs.take k) → bs.length + 65536 ≤ 2 ^ 32 → ∃ e, x = .err e) := by
  obtain ⟨bs, h1, h2, _, h4⟩ := good (lib := lib) (a := ⟨false, true, false⟩) ⟨hw, hr, hc, fun _ => hk⟩ ht
  have hs := reorder_size w ho (.named n)
  have hwb := withBuffer_fits h1 (n := Size.ops (write w (.named n) v)) (hs ▸ h2.1) hlt
  have hl := h2.2 rfl
  refine ⟨bs, ?_, ?_⟩
  · unfold Codegen.toBytes
    rw [hwb, hs, hl]
    simp
  · obtain ⟨f0, hf0⟩ := h4 rfl false _ (fun _ => rfl)
    obtain ⟨W, hW⟩ := nesting_bound r
    refine ⟨f0, fun f hle k hkl => ?_⟩
    obtain ⟨x, d', e, hx⟩ := (hf0 f hle).2 hk [] k hkl (by simpa using (by omega : bs.length < 2 ^ 32))
    refine ⟨x, by simpa [fromBytes, D.new] using congrArg (Option.map (·.1)) e, hx, fun hC hT hb => ?_⟩
    have hok := ((safe_all (lib := lib) hC hW f).1 (.named n) false (zero r r.length (.named n)) (D.new (bs.take k))
      ⟨Nat.zero_le _, by simp [D.new]; omega⟩ hT trivial (by simp) (Nat.zero_le _)).1 x d' e
    cases x with
    | ok y => exact absurd rfl (hx y)
    | err m => exact ⟨m, rfl⟩
    | panic => exact absurd rfl hok.1

/-- **C101** is false of the code: a message cut short in a field that the reader does not know is
accepted, as `Skip` ignores the end of the buffer. -/
theorem truncated_unknown_refuted (lib : Lib) :
    ∃ w r v bs, WellFormed w ∧ WellFormed r ∧ Compatible w r ∧ Typed w ⟨false, false, false⟩ (.named 0) v ∧
      Codegen.toBytes w (.named 0) v v = .ok bs ∧ bs.length = 12 ∧
      ∀ f, 8 ≤ f → fromBytes r lib f 0 (bs.take 4) = some (.ok (.obj [])) := by
  refine ⟨[.struct [([98], .prim .f64)]], [.struct []], .obj [.sc (.f64 0)], [129, 161, 98, 203, 0, 0, 0, 0, 0, 0, 0, 0], ?_, ?_, ?_,
    .struct rfl (.cons (.prim (by simp [IsPrim])) .nil), rfl, rfl, ?_⟩
  · refine ⟨fun n => ?_, fun n => ?_, fun n => ?_, fun n fs h => ?_, fun _ => 0, fun n h => Nat.zero_lt_one, fun n s m h => ?_⟩ <;>
      rcases n with _ | n <;> simp_all [Env.get, Def.fields, names, short]
  · refine ⟨fun n => ?_, fun n => ?_, fun n => ?_, fun n fs h => ?_, fun _ => 0, fun n h => Nat.zero_lt_one, fun n s m h => ?_⟩ <;>
      rcases n with _ | n <;> simp_all [Env.get, Def.fields, names, short]
  · intro n
    rcases n with _ | n <;> simp [Env.get, Def.fields]
  · intro f hf
    obtain ⟨f, rfl⟩ : ∃ g, f = g + 8 := ⟨f - 8, by omega⟩
    generalize hb : ([129, 161, 98, 203, 0, 0, 0, 0, 0, 0, 0, 0] : Bytes).take 4 = b
    have h1 : Dec.mapSize (D.new b) = (.ok 1, ⟨b, 1, false⟩) := by subst hb; decide +kernel
    have h2 : Dec.str ⟨b, 1, false⟩ = (.ok [98], ⟨b, 3, false⟩) := by subst hb; decide +kernel
    have h3 : Dec.skip 5 ⟨b, 3, false⟩ = some (.ok (), ⟨b, 4, true⟩) := by subst hb; decide +kernel
    have h3' := skip_mono (g := f + 5) (by omega) h3
    simp [fromBytes, readTy, decode, readFields, Env.get, thn, lift, find, h1, h2, h3', done, fieldsOf, zero, zeros, Def.fields]

/-- The sample without its last byte. -/
example (lib : Lib) : ∃ bs, Codegen.toBytes sample (.named 2) sampleValue sampleValue = .ok bs ∧
    ∃ f0, ∀ f, f0 ≤ f → ∀ k, k < bs.length → ∃ x, fromBytes sample lib f 2 (bs.take k) = some x ∧ (∀ y, x ≠ .ok y) ∧
      (NoOptCasts sample → Tame (bs.take k) → bs.length + 65536 ≤ 2 ^ 32 → ∃ e, x = .err e) :=
  truncated_rejected_partial lib sample sample sample_wf sample_wf (compatible_refl sample_wf) (fun _ _ h => h) 2 _ _ (.refl _)
    (typed_mono (by simp) (by simp) (by simp) sample_typed) (by decide +kernel)

end Iota.Props.Codegen
