import Verif.Model.Calls
import Verif.Props.Codegen
import Verif.Props.Transform

/-!
# C112-C114: the two ends of a generated call
-/

namespace Iota.Props.Calls
open Iota.Go Iota.Msgpack Iota.Codegen Iota.Calls Iota.Spec.Msgpack Iota.Spec.Codegen Iota.Lemmas.Msgpack Iota.Lemmas.Codegen Iota.Props.Codegen

/-! ## Specification -/

/-- Types of a unary parameter that both ends can be generated for. -/
def GoodArg : T → Prop
  | .enum => True
  | .obj _ => True
  | .prim p => p ≠ .time
  | _ => False

/-- Types of the elements of a stream parameter. -/
def GoodIn : T → Prop
  | .enum => True
  | .obj _ => True
  | .aliasObj _ => True
  | .alias p => p = .str
  | .prim p => p = .str ∨ p = .bool ∨ p = .bytes
  | _ => False

/-- Types of results, or of the elements of results that are streams. -/
def GoodRet (stream : Bool) : T → Prop
  | .void => stream = false
  | .prim _ => True
  | .enum => True
  | .alias p => p = .str
  | .aliasObj _ => True
  | .obj _ => stream = false
  | .list (.named _) => stream = false
  | _ => False

/-- The operations that both ends can be generated for. -/
structure Writable (receiver : String) (op : Operation) : Prop where
  /-- at most one stream parameter, and it is the last one -/
  last : op.params.map (·.stream) = op.args.map (fun _ => false) ++ (if op.streamIn.isSome then [true] else [])
  arg : op.unary = true → ∀ p, op.args.head? = some p → GoodArg p.ty
  input : ∀ t, op.streamIn = some t → GoodIn t
  /-- with a stream parameter the result is a stream -/
  output : op.streamIn.isSome = true → op.streamOut = true
  ret : GoodRet op.streamOut op.ret
  name : ∀ p ∈ op.params, clash receiver op p = false

/-- What can be handed to the generated code: a `void` is nothing. Enums and aliases are not optional and
absent (C96). -/
def TypedT (env : Env) : T → GV → Prop
  | .void, v => v = .null
  | t, v => Typed env ⟨false, true, true⟩ t.ty v

/-- What comes out at the other end: the same value, in which nil slices and maps have become empty ones. -/
def seen (env : Env) : T → GV → GV
  | .void, _ => .null
  | t, v => norm env t.ty v

/-- If the value is a time, `time.Parse` gives it back from what `Format` made of it, as it does for the years
0 to 9999. -/
def Times (lib : Lib) (format : Time → Bytes) (v : GV) : Prop :=
  ∀ t, v = .sc (.time t) → lib.parseTime (format t) = some t ∧ (format t).length < 2 ^ 16

/-! ## One value -/

theorem through_ty (lib : Lib) {env : Env} (hw : WellFormed env) {t : Ty} {v v' : GV} (hr : Reorder v v')
    (ht : Typed env ⟨false, true, true⟩ t v') (hlt : Size.ops (write env t v) < 2 ^ 32) :
    ∃ bs, Codegen.toBytes env t v v' = .ok bs ∧
      ∃ f0, ∀ f, f0 ≤ f → (readTy env lib f t false (zero env env.length t) (D.new bs)).map (·.1) = some (.ok (norm env t v')) := by
  obtain ⟨bs, h1, h2, h3, h4⟩ := good (lib := lib) (fit_refl hw _) ht
  have hs := reorder_size env hr t
  have hwb := withBuffer_fits h1 (n := Size.ops (write env t v)) (hs ▸ h2.1) hlt
  refine ⟨bs ++ List.replicate (Size.ops (write env t v) - bs.length) 0, ?_, ?_⟩
  · unfold Codegen.toBytes
    rw [hwb]
  · obtain ⟨f0, hf0⟩ := h4 rfl false _ (fun _ => rfl)
    refine ⟨f0, fun f hle => ?_⟩
    unfold D.new
    have := (hf0 f hle).1 [] (List.replicate (Size.ops (write env t v) - bs.length) 0) (by
      have := hs ▸ h2.1
      simp; omega)
    simp only [List.nil_append, List.length_nil] at this
    rw [this, adapt_same hw ht]
    rfl

theorem slice_loop (lib : Lib) {env : Env} (hw : WellFormed env) {t : Ty} : ∀ {l : List GV}, TypedL env ⟨false, true, true⟩ t l →
    ∃ bs, Writes (Enc.ops (writeList env t l)) bs ∧ bs.length ≤ Size.ops (writeList env t l) ∧
      ∃ f0, ∀ f, f0 ≤ f → ∀ pre rest acc, (pre ++ bs ++ rest).length < 2 ^ 32 →
        sliceLoop env lib f t l.length acc ⟨pre ++ bs ++ rest, pre.length, false⟩ = some (.ok (.list (acc ++ normL env t l)))
  | [], _ => ⟨[], by simpa [writeList, Enc.ops] using writes_skip, by simp [writeList, Size.ops], 0, fun f _ pre rest acc _ => by
      simp [sliceLoop, normL]⟩
  | v :: l, .cons hv hl => by
    obtain ⟨x, x1, x2, x3, x4⟩ := good (lib := lib) (fit_refl hw _) hv
    obtain ⟨y, y1, y2, f1, y3⟩ := slice_loop lib hw hl
    obtain ⟨f0, hf0⟩ := x4 rfl false _ (fun _ => rfl)
    refine ⟨x ++ y, by simpa [writeList] using ops_append x1 y1, ?_, max f0 f1, fun f hf pre rest acc hlt => ?_⟩
    · simp only [writeList, sizes_append, List.length_append, Nat.add_zero]
      have := x2.1
      omega
    · have h1 := (hf0 f (by omega)).1 pre (y ++ rest) (by simpa [List.append_assoc] using hlt)
      have h2 := y3 f (by omega) (pre ++ x) rest (acc ++ [norm env t v]) (by simpa [List.append_assoc] using hlt)
      simp only [List.append_assoc, List.length_append] at h1 h2 ⊢
      simp only [List.length_cons, sliceLoop, h1, adapt_same hw hv]
      rw [h2]
      simp [normL]

theorem slice_through (lib : Lib) {env : Env} (hw : WellFormed env) {t : Ty} {v v' : GV} (hr : Reorder v v')
    (ht : Typed env ⟨false, true, true⟩ (.list t) v') (hlt : Size.ops (write env (.list t) v) < 2 ^ 32) :
    ∃ bs, Codegen.toBytes env (.list t) v v' = .ok bs ∧
      ∃ f0, ∀ f, f0 ≤ f → Calls.decode env lib f (.slice t) bs = some (.ok (norm env (.list t) v')) := by
  have hs := reorder_size env hr (.list t)
  have key : ∃ bs n, Writes (Enc.ops (write env (.list t) v')) bs ∧ bs.length ≤ Size.ops (write env (.list t) v') ∧
      ∃ hd b, bs = hd ++ b ∧ Reads Dec.arraySize hd n ∧ ∃ f0, ∀ f, f0 ≤ f → ∀ pre rest, (pre ++ b ++ rest).length < 2 ^ 32 →
        sliceLoop env lib f t n [] ⟨pre ++ b ++ rest, pre.length, false⟩ = some (.ok (norm env (.list t) v')) := by
    cases ht with
    | list hl h =>
      rename_i l
      obtain ⟨b, b1, b2, f0, b3⟩ := slice_loop lib hw h
      obtain ⟨hd, g1, g2, g3, g4⟩ := arraySize_enc l.length hl
      have hm := mod_short hl
      refine ⟨hd ++ b, l.length, ?_, ?_, hd, b, rfl, g4, f0, fun f hf pre rest hlt => ?_⟩
      · simp only [write, Ty.strip, hm]
        exact ops_cons g1 b1
      · simp only [write, Ty.strip, Size.ops, Size.op, hm, List.length_append]
        omega
      · rw [b3 f hf pre rest [] hlt]
        simp [norm, Ty.strip]
    | nilColl h =>
      obtain ⟨hd, g1, g2, g3, g4⟩ := arraySize_enc 0 (by decide)
      refine ⟨hd, 0, ?_, ?_, hd, [], by simp, g4, 0, fun f hf pre rest hlt => ?_⟩
      · simpa [write, Ty.strip, writeNull] using ops_one (o := .arraySize 0) (by simpa [Enc.op] using g1)
      · simp [write, Ty.strip, writeNull, Size.ops, Size.op, g2]
      · simp [sliceLoop, norm, Ty.strip]
  obtain ⟨bs, n, h1, h2, hd, b, rfl, h3, f0, h4⟩ := key
  have hwb := withBuffer_fits h1 (n := Size.ops (write env (.list t) v)) (hs ▸ h2) hlt
  have hlen : (hd ++ b ++ List.replicate (Size.ops (write env (.list t) v) - (hd ++ b).length) 0).length < 2 ^ 32 := by
    have : (hd ++ b).length ≤ Size.ops (write env (.list t) v) := hs ▸ h2
    simp only [List.length_append, List.length_replicate] at *
    omega
  refine ⟨_, by unfold Codegen.toBytes; rw [hwb], f0, fun f hf => ?_⟩
  have ha := h3 [] (b ++ List.replicate (Size.ops (write env (.list t) v) - (hd ++ b).length) 0) (by
    simpa [List.append_assoc] using hlen)
  have hb := h4 f hf hd (List.replicate (Size.ops (write env (.list t) v) - (hd ++ b).length) 0) hlen
  simp only [List.nil_append, List.length_nil, Nat.zero_add] at ha
  simp only [Calls.decode, D.new]
  rw [List.append_assoc, ha]
  simp only
  rw [← List.append_assoc, hb]

theorem prim_through (lib : Lib) {env : Env} (hw : WellFormed env) {t : Ty} {p : Prim} {v : GV} (htp : t = .prim p ∨ t = .cast p)
    (ht : Typed env ⟨false, true, true⟩ t v) (hlt : Size.ops (write env t v) < 2 ^ 32) :
    ∃ s bs, v = .sc s ∧ Msgpack.toBytes [s.op] = .ok bs ∧ norm env t v = .sc s ∧
      (readPrim lib p (D.new bs)).1 = .ok s := by
  have hv : ∃ s, v = .sc s := by
    rcases htp with rfl | rfl
    · cases ht with
      | prim h => exact ⟨_, rfl⟩
      | nilColl h => simp [Collection] at h
    · cases ht with
      | cast h => exact ⟨_, rfl⟩
      | nilColl h => simp [Collection] at h
  obtain ⟨s, rfl⟩ := hv
  obtain ⟨bs, h1, f0, h2⟩ := through_ty lib hw (.refl _) ht hlt
  refine ⟨s, bs, rfl, ?_, by simp [norm], ?_⟩
  · rw [← h1]
    rcases htp with rfl | rfl <;> simp only [Codegen.toBytes, Msgpack.toBytes, write] <;>
      cases withBuffer (Size.ops [s.op]) (Enc.ops [s.op]) <;> rfl
  · have := h2 (f0 + 1) (by omega)
    have hrd : readTy env lib (f0 + 1) t false (zero env env.length t) = lift (GV.sc <$> readPrim lib p) := by
      rcases htp with rfl | rfl <;> simp [readTy]
    rw [hrd] at this
    simp only [lift, Option.map_some, Option.some.injEq, norm] at this
    rw [rd_map] at this
    split at this <;> simp_all

/-! ## Steps -/

theorem lookup_mem {β : Type} {x : String} {b : β} : ∀ {l : List (String × β)}, l.lookup x = some b → (x, b) ∈ l
  | (y, c) :: l, h => by
    rw [List.lookup_cons] at h
    split at h
    · simp_all
    · exact List.mem_cons_of_mem _ (lookup_mem h)

theorem generics_time {x : String} : generics.lookup x ≠ some .time := fun h => by
  have := lookup_mem h
  simp [generics] at this

theorem toBytes_time {x : String} : toBytesFns.lookup x ≠ some .time := fun h => by
  have := lookup_mem h
  simp [toBytesFns] at this

theorem lookup_transforms {x : String} {t : T} (h : transforms.lookup x = some t) : t = .void ∨ ∃ p, t = .prim p := by
  have := lookup_mem h
  simp only [transforms, List.mem_cons, Prod.mk.injEq, List.not_mem_nil, or_false] at this
  rcases this with h | h | h | h | h | h | h | h | h | h | h | h | h | h | h <;> simp [h.2]

/-- The primitive type behind a type. -/
def base : T → Option Prim
  | .prim p => some p
  | .enum => some .i32
  | .alias p => some p
  | _ => none

theorem prim_ty {t : T} {p : Prim} (hb : base t = some p) : t.ty = .prim p ∨ t.ty = .cast p := by
  cases t <;> simp_all [base, T.ty]

/-- An accepted step for a primitive type, an enum or an alias has its primitive type. -/
theorem accepts_prim {s : Step} {t : T} {p : Prim} (h : accepts s t = true) (hb : base t = some p) :
    s.type = some (.prim p) ∨ s = .read t.ty := by
  cases s <;> cases t <;> simp_all [accepts, base, Step.type]
  all_goals
    have := lookup_transforms h
    simp at this

theorem accepts_named {s : Step} {t : T} {n : Nat} (ht : t = .obj n ∨ t = .aliasObj n) (h : accepts s t = true) :
    s = .codec n ∨ s = .read (.named n) := by
  rcases ht with rfl | rfl <;> cases s <;> simp [accepts, T.ty] at h
  all_goals first | (simp [h]; done) | (have := lookup_transforms h; simp at this)

theorem accepts_list {s : Step} {e : Ty} (h : accepts s (.list e) = true) : s = .slice e ∨ s = .read (.list e) := by
  cases s <;> simp [accepts, T.ty] at h
  · have := lookup_transforms h
    simp at this
  · rename_i t
    cases t <;> cases e <;> simp at h
    simp [h]
  · simp [h]

theorem accepts_map {s : Step} {k : Prim} {e : Ty} (h : accepts s (.map k e) = true) : s = .read (.map k e) := by
  cases s <;> simp [accepts, T.ty] at h
  · have := lookup_transforms h
    simp at this
  · simp [h]

theorem accepts_opt {s : Step} {e : Ty} (h : accepts s (.opt e) = true) : s = .read (.opt e) := by
  cases s <;> simp [accepts, T.ty] at h
  · have := lookup_transforms h
    simp at this
  · simp [h]

theorem encode_prim (env : Env) (format : Time → Bytes) {s : Step} {p : Prim} (h : s.type = some (.prim p))
    (ht : p ≠ .time) (v : GV) (x : Sc) : encode env format s v (.sc x) = some (Msgpack.toBytes [x.op]) := by
  cases s <;> simp only [Step.type, reduceCtorEq] at h <;> unfold encode Step.type <;> simp only [h] <;>
    (cases p <;> first | rfl | exact absurd rfl ht)

theorem decode_prim (env : Env) (lib : Lib) (f : Nat) {s : Step} {p : Prim} (h : s.type = some (.prim p))
    (ht : p ≠ .time) (bs : Bytes) :
    Calls.decode env lib f s bs = some ((readPrim lib p (D.new bs)).1.bind fun s => .ok (.sc s)) := by
  cases s <;> simp only [Step.type, reduceCtorEq] at h <;> unfold Calls.decode Step.type <;> simp only [h] <;>
    (cases p <;> first | rfl | exact absurd rfl ht)

/-- Whatever steps the two ends use for a type: if the compiler accepts them, the value arrives. A time must
not be read as a field. -/
theorem agree {lib : Lib} {format : Time → Bytes} {env : Env} (hw : WellFormed env) {t : T} {se sd : Step}
    (he : accepts se t = true) (hd : accepts sd t = true) (hr : ∀ x, se ≠ .read x) (htime : base t = some .time → ∀ x, sd ≠ .read x)
    {v v' : GV} (hf : base t = some .time → Times lib format v') (ho : Reorder v v') (ht : TypedT env t v')
    (hlt : Size.ops (write env t.ty v) < 2 ^ 32) :
    ∃ bs, encode env format se v v' = some (.ok bs) ∧
      ∃ f0, ∀ f, f0 ≤ f → Calls.decode env lib f sd bs = some (.ok (seen env t v')) := by
  have hs := reorder_size env ho t.ty
  by_cases hv : t = .void
  · subst hv
    have h1 : se.type = some .void := by cases se <;> simp_all [accepts, Step.type]
    have h2 : sd.type = some .void := by cases sd <;> simp_all [accepts, Step.type]
    refine ⟨[], ?_, 0, fun f _ => ?_⟩
    · cases se <;> simp_all [Step.type, encode]
    · cases sd <;> simp_all [Step.type, Calls.decode, seen]
  have ht' : Typed env ⟨false, true, true⟩ t.ty v' := by cases t <;> simp_all [TypedT]
  have hseen : seen env t v' = norm env t.ty v' := by cases t <;> simp_all [seen]
  rw [hseen]
  have hread : ∀ x, sd = .read x → x = t.ty := by
    rintro x rfl
    cases t <;> simp_all [accepts]
  cases hb : base t with
  | some p =>
    have hse : se.type = some (.prim p) := (accepts_prim he hb).resolve_right (hr _)
    obtain ⟨x, bs, rfl, h1, h2, h3⟩ := prim_through lib hw (prim_ty hb) ht' (hs ▸ hlt)
    by_cases hp : p = .time
    · subst hp
      have hsd : sd.type = some (.prim .time) := (accepts_prim hd hb).resolve_right (htime hb _)
      have hx : ∃ t, x = .time t := by
        rcases prim_ty hb with h | h <;> rw [h] at ht'
        · cases ht' with
          | prim h => cases x <;> simp [IsPrim] at h; exact ⟨_, rfl⟩
        · cases ht' with
          | cast h => cases x <;> simp [IsPrim] at h; exact ⟨_, rfl⟩
      obtain ⟨tm, rfl⟩ := hx
      obtain ⟨hfp, hfs⟩ := hf hb tm rfl
      obtain ⟨raw, g1, g2⟩ := Props.Transform.time_inverse_partial lib format tm hfp
        (by
          unfold Size.str Size.strLen
          rw [Nat.mod_eq_of_lt (by unfold U32; omega)]
          split <;> (try split) <;> (try split) <;> omega) (by unfold short; omega)
      refine ⟨raw, ?_, 0, fun f _ => ?_⟩
      · have : Msgpack.toBytes [.str (format tm)] = .ok raw := g1
        cases se <;> simp only [Step.type, reduceCtorEq] at hse <;> unfold encode Step.type <;> simp only [hse, this]
      · have : (Transform.time lib fun _ => []).decode raw = .ok tm := g2
        rw [h2]
        cases sd <;> simp only [Step.type, reduceCtorEq] at hsd <;> unfold Calls.decode Step.type <;> simp only [hsd, this] <;> rfl
    · rcases accepts_prim hd hb with h | h
      · refine ⟨bs, by rw [encode_prim env format hse hp, h1], 0, fun f _ => ?_⟩
        rw [decode_prim env lib f h hp, h3, h2]
        rfl
      · subst h
        obtain ⟨bs', g1, f0, g2⟩ := through_ty lib hw (.refl _) ht' (hs ▸ hlt)
        refine ⟨bs', ?_, f0, fun f hf => g2 f hf⟩
        rw [encode_prim env format hse hp, ← g1]
        rcases prim_ty hb with h | h <;> rw [h] <;> simp only [Codegen.toBytes, Msgpack.toBytes, write] <;>
          cases withBuffer (Size.ops [x.op]) (Enc.ops [x.op]) <;> rfl
  | none =>
    obtain ⟨bs, g1, f0, g2⟩ := through_ty lib hw ho ht' hlt
    have hnamed : ∀ n, t.ty = .named n → (t = .obj n ∨ t = .aliasObj n) →
        ∃ bs, encode env format se v v' = some (.ok bs) ∧
          ∃ f0, ∀ f, f0 ≤ f → Calls.decode env lib f sd bs = some (.ok (norm env t.ty v')) := by
      intro n hn htn
      have h1 : se = .codec n := (accepts_named htn he).resolve_right (hr _)
      have h2 := accepts_named htn hd
      rw [hn] at g1 g2 ⊢
      refine ⟨bs, by rw [h1]; simp only [encode, g1], f0, fun f hf => ?_⟩
      rcases h2 with rfl | rfl
      · simp only [Calls.decode, fromBytes]; exact g2 f hf
      · simp only [Calls.decode]; exact g2 f hf
    cases t with
    | void => exact absurd rfl hv
    | prim p => simp [base] at hb
    | enum => simp [base] at hb
    | alias p => simp [base] at hb
    | aliasObj n => exact hnamed n rfl (.inr rfl)
    | obj n => exact hnamed n rfl (.inl rfl)
    | list e =>
      have h1 : se = .slice e := (accepts_list he).resolve_right (hr _)
      have h2 := accepts_list hd
      simp only [T.ty] at ht' hlt g1 g2 ⊢
      rcases h2 with rfl | rfl
      · obtain ⟨bs, k1, f0, k2⟩ := slice_through lib hw ho ht' hlt
        exact ⟨bs, by rw [h1]; simp only [encode, k1], f0, k2⟩
      · exact ⟨bs, by rw [h1]; simp only [encode, g1], f0, fun f hf => by simp only [Calls.decode]; exact g2 f hf⟩
    | map k e => exact absurd (accepts_map he) (hr _)
    | opt e => exact absurd (accepts_opt he) (hr _)

/-! ## C113: what can be generated -/

theorem args_false (op : Operation) : op.args.map (·.stream) = op.args.map (fun _ => false) := by
  apply List.map_congr_left
  intro p hp
  simpa [Operation.args] using (List.mem_filter.mp hp).2

theorem streams_true (op : Operation) : op.streams.map (·.stream) = op.streams.map (fun _ => true) := by
  apply List.map_congr_left
  intro p hp
  simpa [Operation.streams] using (List.mem_filter.mp hp).2

theorem streams_length (op : Operation) (h : op.streams.length ≤ 1) :
    op.streams.map (fun _ => true) = if op.streamIn.isSome then [true] else [] := by
  unfold Operation.streamIn
  generalize op.streams = l at h
  match l, h with
  | [], _ => rfl
  | [_], _ => rfl
  | _ :: _ :: _, h => simp at h

theorem count_true (l : List Param) : (l.map (·.stream)).count true = (l.filter fun p => p.stream).length := by
  induction l with
  | nil => rfl
  | cons p l ih =>
    rw [List.map_cons, List.count_cons, List.filter_cons, ih]
    cases h : p.stream <;> simp

theorem last_iff (op : Operation) :
    (op.streams.length ≤ 1 ∧ (op.args ++ op.streams).map (·.stream) = op.params.map (·.stream)) ↔
      op.params.map (·.stream) = op.args.map (fun _ => false) ++ (if op.streamIn.isSome then [true] else []) := by
  constructor
  · rintro ⟨h1, h2⟩
    rw [← h2, List.map_append, args_false, streams_true, streams_length op h1]
  · intro h
    have hl : op.streams.length ≤ 1 := by
      have := congrArg (List.count true) h
      rw [count_true, List.count_append] at this
      have h0 : List.count true (op.args.map fun _ => false) = 0 := by
        rw [List.count_eq_zero]; simp
      have h1 : List.count true (if op.streamIn.isSome = true then [true] else []) ≤ 1 := by split <;> simp
      unfold Operation.streams
      omega
    refine ⟨hl, ?_⟩
    rw [h, List.map_append, args_false, streams_true, streams_length op hl]

theorem arg_iff (t : T) : (accepts (serverArg t) t = true ∧ accepts (clientArg t) t = true) ↔ GoodArg t := by
  cases t with
  | prim p => cases p <;> simp only [GoodArg] <;> decide
  | alias p => cases p <;> simp only [GoodArg] <;> decide
  | enum => simp only [GoodArg]; decide
  | void => simp only [GoodArg]; decide
  | _ => simp [accepts, serverArg, clientArg, GoodArg]

theorem in_iff (t : T) : (accepts (serverIn t) t = true ∧ accepts (clientIn t) t = true) ↔ GoodIn t := by
  cases t with
  | prim p => cases p <;> simp only [GoodIn] <;> decide
  | alias p => cases p <;> simp only [GoodIn] <;> decide
  | enum => simp only [GoodIn]; decide
  | void => simp only [GoodIn]; decide
  | _ => simp [accepts, serverIn, clientIn, GoodIn]

theorem res_iff (op : Operation) :
    (((serverResult op).1 = declared op ∧ (serverResult op).1 = wrapped op ∧ accepts (serverResult op).2 op.ret = true) ∧
      (clientResult op).1 = (callStyle op).rx ∧ (clientResult op).1 = declared op ∧ accepts (clientResult op).2 op.ret = true) ↔
      (op.streamIn.isSome = true → op.streamOut = true) ∧ GoodRet op.streamOut op.ret := by
  unfold serverResult clientResult returns declared wrapped callStyle package
  generalize op.streamIn.isSome = i
  cases i <;> cases op.streamOut <;> cases op.ret with
  | prim p => cases p <;> simp only [GoodRet] <;> decide
  | alias p => cases p <;> simp only [GoodRet] <;> decide
  | enum => simp only [GoodRet]; decide
  | void => simp only [GoodRet]; decide
  | list t => cases t <;> simp [accepts, GoodRet, Style.rx]
  | _ => simp [accepts, GoodRet, Style.rx]

/-- **C113** (part) For exactly these operations the compiler accepts both ends: there is at most one
stream parameter, the last one, and then the result is a stream too; the types of a unary parameter, of the
elements of the stream parameter and of the result are in the lists `GoodArg`, `GoodIn` and `GoodRet`; and no
parameter has a name that the generated code uses for itself. -/
theorem compiles_iff_partial (receiver : String) (op : Operation) :
    (serverCompiles op = true ∧ clientCompiles receiver op = true) ↔ Writable receiver op := by
  have hl := last_iff op
  have hr := res_iff op
  unfold serverCompiles clientCompiles
  simp only [Bool.and_eq_true, decide_eq_true_eq, beq_iff_eq, Bool.or_eq_true, List.all_eq_true, Bool.not_eq_true']
  constructor
  · rintro ⟨⟨⟨⟨⟨⟨s1, s2⟩, s3⟩, s4⟩, s5⟩, ⟨s6, s7⟩, s8⟩, ⟨⟨⟨⟨c1, c2⟩, c3⟩, c4⟩, ⟨c5, c6⟩, c7⟩⟩
    obtain ⟨r1, r2⟩ := hr.mp ⟨⟨s6, s7, s8⟩, c5, c6, c7⟩
    refine ⟨hl.mp ⟨s1, s2⟩, fun hu p hp => ?_, fun t ht => ?_, r1, r2, c2⟩
    · rw [if_pos hu, hp] at s4 c3
      exact (arg_iff _).mp ⟨by simpa using s4, by simpa using c3⟩
    · rw [ht] at s5 c4
      exact (in_iff _).mp ⟨by simpa using s5, by simpa using c4⟩
  · rintro ⟨w1, w2, w3, w4, w5, w6⟩
    obtain ⟨s1, s2⟩ := hl.mpr w1
    obtain ⟨⟨s6, s7, s8⟩, c5, c6, c7⟩ := hr.mpr ⟨w4, w5⟩
    have ha : (if op.unary = true then op.args.head?.all fun p => accepts (serverArg p.ty) p.ty else true) = true ∧
        (if op.unary = true then op.args.head?.all fun p => accepts (clientArg p.ty) p.ty else true) = true := by
      by_cases hu : op.unary = true
      · rw [if_pos hu, if_pos hu]
        cases hp : op.args.head? with
        | none => simp
        | some p =>
          obtain ⟨h1, h2⟩ := (arg_iff _).mpr (w2 hu p hp)
          simp [h1, h2]
      · rw [if_neg hu, if_neg hu]; simp
    have hi : (op.streamIn.all fun t => accepts (serverIn t) t) = true ∧ (op.streamIn.all fun t => accepts (clientIn t) t) = true := by
      cases ht : op.streamIn with
      | none => simp
      | some t =>
        obtain ⟨h1, h2⟩ := (in_iff _).mpr (w3 t ht)
        simp [h1, h2]
    refine ⟨⟨⟨⟨⟨⟨s1, s2⟩, .inr ?_⟩, ha.1⟩, hi.1⟩, ⟨s6, s7⟩, s8⟩, ⟨⟨⟨⟨s1, w6⟩, ha.2⟩, hi.2⟩, ⟨c5, c6⟩, c7⟩⟩
    unfold package wrapped
    cases h1 : op.streamIn.isSome <;> cases h2 : op.streamOut <;> simp_all

/-- An operation with two parameters whose result is a list of values of type 3. -/
def sampleOp : Operation :=
  ⟨"find", false, [⟨[97], "a", false, .prim .time⟩, ⟨[98], "b", false, .opt (.cast .i32)⟩], false, .list (.named 3)⟩

/-- A channel of enums in and strings out. -/
def sampleChannel : Operation :=
  ⟨"follow", true, [⟨[97], "a", false, .obj 1⟩, ⟨[98], "b", true, .enum⟩], true, .alias .str⟩

example : Writable "r" sampleOp ∧ Writable "r" sampleChannel :=
  ⟨(compiles_iff_partial _ _).mp (by decide), (compiles_iff_partial _ _).mp (by decide)⟩

/-- **C113** is false: no operation whose result is a stream of values of a type has a wrapper that compiles.
-/
theorem object_stream_refuted (op : Operation) (n : Nat) (ho : op.streamOut = true) (hr : op.ret = .obj n) :
    serverCompiles op = false := by
  unfold serverCompiles serverResult
  simp [hr, ho, accepts]

/-- **C113** is false: nor has any with a stream parameter and a result that is no stream, at either end. -/
theorem collect_refuted (receiver : String) (op : Operation) (hi : op.streamIn.isSome = true) (ho : op.streamOut = false) :
    serverCompiles op = false ∧ clientCompiles receiver op = false := by
  have h1 : declared op = .mono := by simp [declared, ho]
  have h2 : wrapped op = .flux := by simp [wrapped, hi]
  have h3 : (callStyle op).rx = .flux := by simp [callStyle, hi, Style.rx]
  constructor
  · unfold serverCompiles
    rw [h1, h2]
    cases (serverResult op).1 <;> simp
  · unfold clientCompiles
    rw [h1, h3]
    cases (clientResult op).1 <;> simp

/-- **C113** is false: an importing function whose only parameter, in brackets, is an alias, a list, a map or
a time does not compile. -/
theorem unary_refuted (receiver : String) (op : Operation) (p : Param) (hu : op.unary = true) (hp : op.args.head? = some p)
    (ht : (∃ q, p.ty = .alias q) ∨ (∃ n, p.ty = .aliasObj n) ∨ (∃ t, p.ty = .list t) ∨ (∃ k t, p.ty = .map k t) ∨ p.ty = .prim .time) :
    clientCompiles receiver op = false := by
  have h : accepts (clientArg p.ty) p.ty = false := by
    rcases ht with ⟨q, h⟩ | ⟨n, h⟩ | ⟨t, h⟩ | ⟨k, t, h⟩ | h <;> rw [h] <;> first | rfl | (simp [clientArg, accepts]; done) | decide
  unfold clientCompiles
  rw [if_pos hu, hp]
  simp [h]

/-- **C113** is false: an importing function that sends a stream of numbers does not compile. -/
theorem number_stream_refuted (receiver : String) (op : Operation) (p : Prim) (hi : op.streamIn = some (.prim p))
    (hp : p ≠ .str ∧ p ≠ .bool ∧ p ≠ .bytes) : clientCompiles receiver op = false := by
  have h : accepts (clientIn (.prim p)) (.prim p) = false := by
    cases p <;> first | (simp at hp; done) | decide
  unfold clientCompiles
  simp [hi, h]

/-- **C113** is false: a result that is a list of anything but values of a type, a map, or an alias of anything
but a string, does not compile at either end. -/
theorem result_refuted (receiver : String) (op : Operation)
    (hr : (∃ t, op.ret = .list t ∧ ∀ n, t ≠ .named n) ∨ (∃ k t, op.ret = .map k t) ∨ (∃ q, op.ret = .alias q ∧ q ≠ .str)) :
    serverCompiles op = false ∧ clientCompiles receiver op = false := by
  have hs : accepts (serverResult op).2 op.ret = false := by
    rcases hr with ⟨t, h, ht⟩ | ⟨k, t, h⟩ | ⟨q, h, hq⟩
    · simp only [serverResult, h]
      cases t <;> simp [accepts] at ht ⊢
    · simp [serverResult, h, accepts]
    · simp only [serverResult, h]
      cases q <;> first | exact absurd rfl hq | decide
  have hc : accepts (clientResult op).2 op.ret = false := by
    unfold clientResult returns
    rcases hr with ⟨t, h, ht⟩ | ⟨k, t, h⟩ | ⟨q, h, hq⟩ <;> rw [h] <;>
      cases op.streamIn.isSome <;> cases op.streamOut <;> simp
    all_goals first
      | rfl
      | (cases t <;> simp [accepts, transforms] at ht ⊢; done)
      | (simp [accepts, transforms]; done)
      | (cases q <;> first | exact absurd rfl hq | decide)
  exact ⟨by unfold serverCompiles; simp [hs], by unfold clientCompiles; simp [hc]⟩

example : ∃ op : Operation, op.streamOut = true ∧ op.ret = .obj 0 ∧ clientCompiles "r" op = true :=
  ⟨⟨"all", false, [], true, .obj 0⟩, rfl, rfl, by decide⟩
example : ∃ op : Operation, op.unary = true ∧ serverCompiles op = true ∧
    ∃ p, op.args.head? = some p ∧ p.ty = .alias .str :=
  ⟨⟨"get", true, [⟨[97], "a", false, .alias .str⟩], false, .void⟩, rfl, by decide, _, rfl, rfl⟩
example : ∃ op : Operation, op.streamIn = some (.prim .i32) ∧ serverCompiles op = true :=
  ⟨⟨"sum", false, [⟨[97], "a", true, .prim .i32⟩], true, .prim .i32⟩, rfl, by decide⟩

/-! ## C114: names of parameters -/

/-- **C114** is false: a parameter named `stream`, `metadata`, `payload`, `future` or like the first letter of
the interface keeps an importing function from compiling, whatever its type. -/
theorem names_refuted (receiver : String) (op : Operation) (p : Param) (hp : p ∈ op.params)
    (hn : p.ident = "stream" ∨ p.ident = "metadata" ∨ p.ident = "payload" ∨ p.ident = "future" ∨
      (p.ident = receiver ∧ receiver ≠ "ok" ∧ receiver ≠ "payloadData")) : clientCompiles receiver op = false := by
  have h : clash receiver op p = true := by
    unfold clash reserved
    rcases hn with h | h | h | h | ⟨h, h1, h2⟩ <;> simp [h]
    simp [h1, h2]
  unfold clientCompiles
  have : (op.params.all fun p => !clash receiver op p) = false := by
    rw [List.all_eq_false]
    exact ⟨p, hp, by simp [h]⟩
  simp [this]

/-- A parameter without its name in Go. -/
def nameless (p : Param) : Bytes × Bool × T := (p.name, p.stream, p.ty)

theorem nameless_filter (b : Bool) (l : List Param) :
    (l.filter fun p => p.stream == b).map nameless = (l.map nameless).filter fun p => p.2.1 == b := by
  induction l with
  | nil => rfl
  | cons p l ih => simp only [List.filter_cons, List.map_cons, nameless] at *; split <;> simp_all [nameless]

theorem nameless_args {op op' : Operation} (h : op'.params.map nameless = op.params.map nameless) :
    op'.args.map nameless = op.args.map nameless ∧ op'.streams.map nameless = op.streams.map nameless := by
  have e1 : ∀ op : Operation, op.args = op.params.filter fun p => p.stream == false := fun op => by
    unfold Operation.args; congr 1; funext p; cases p.stream <;> rfl
  have e2 : ∀ op : Operation, op.streams = op.params.filter fun p => p.stream == true := fun op => by
    unfold Operation.streams; congr 1; funext p; cases p.stream <;> rfl
  rw [e1, e1, e2, e2, nameless_filter, nameless_filter, nameless_filter, nameless_filter, h]
  exact ⟨rfl, rfl⟩

theorem nameless_stream {l l' : List Param} (h : l'.map nameless = l.map nameless) :
    l'.map (·.stream) = l.map (·.stream) ∧ l'.isEmpty = l.isEmpty ∧ l'.length = l.length ∧
      ∀ {β : Type} (f : T → β), (l'.head?.map fun p => f p.ty) = l.head?.map fun p => f p.ty := by
  refine ⟨?_, ?_, ?_, fun f => ?_⟩
  · have := congrArg (List.map fun x : Bytes × Bool × T => x.2.1) h
    rwa [List.map_map, List.map_map] at this
  · have := congrArg List.isEmpty h
    simpa using this
  · have := congrArg List.length h
    simpa using this
  · have := congrArg (fun l : List (Bytes × Bool × T) => l.head?.map fun x => f x.2.2) h
    simpa [nameless, Function.comp_def] using this

theorem all_map {α : Type} (o : Option α) (f : α → Bool) : o.all f = ((o.map f).all fun x => x) := by
  cases o <;> rfl

/-- **C114** (part) Wrappers do not depend on the names of parameters, and importing functions only on whether
there is one among those that the generated code uses for itself. -/
theorem names_partial (receiver : String) (op op' : Operation)
    (h1 : op'.unary = op.unary) (h2 : op'.streamOut = op.streamOut) (h3 : op'.ret = op.ret)
    (h4 : op'.params.map (fun p => (p.name, p.stream, p.ty)) = op.params.map (fun p => (p.name, p.stream, p.ty)))
    (hfree : ∀ p ∈ op'.params, p.ident ∉ [receiver, "ctx", "payloadData", "metadata", "stream", "ok", "proxy", "binary",
      "payload", "pl", "gCaller", "future", "transform", "err", "msgpack", "request", "mono", "flux"]) :
    serverCompiles op' = serverCompiles op ∧ (clientCompiles receiver op = true → clientCompiles receiver op' = true) := by
  obtain ⟨ha, hs⟩ := nameless_args (op := op) (op' := op') h4
  obtain ⟨a1, a2, a3, a4⟩ := nameless_stream ha
  obtain ⟨s1, s2, s3, s4⟩ := nameless_stream hs
  obtain ⟨p1, p2, p3, p4⟩ := nameless_stream (l := op.params) (l' := op'.params) h4
  have hin : op'.streamIn = op.streamIn := s4 fun t => t
  have hpk : package op' = package op := by unfold package; rw [h2]
  have hwr : wrapped op' = wrapped op := by unfold wrapped; rw [h2, hin]
  have hde : declared op' = declared op := by unfold declared; rw [h2]
  have hst : callStyle op' = callStyle op := by unfold callStyle; rw [h2, hin]
  have hsr : serverResult op' = serverResult op := by unfold serverResult; rw [h3, h2, hpk]
  have hcr : clientResult op' = clientResult op := by unfold clientResult returns; rw [h3, h2, hpk, hin]
  have hfree' : (op'.params.all fun p => !clash receiver op' p) = true := by
    rw [List.all_eq_true]
    intro p hp
    have := hfree p hp
    have hnot : (reserved receiver op').contains p.ident = false := by
      rw [Bool.eq_false_iff]
      intro hc
      apply this
      rw [List.contains_iff_mem] at hc
      unfold reserved at hc
      simp only [List.mem_append, List.mem_cons, List.not_mem_nil, or_false] at hc ⊢
      rcases hc with ((hc | hc) | hc) | hc
      · rcases hc with hc | hc | hc | hc | hc | hc | hc | hc | hc | hc | hc | hc | hc <;> simp [hc]
      · split at hc <;> simp at hc
        rcases hc with hc | hc <;> simp [hc]
      · split at hc <;> simp at hc
        simp [hc]
      · split at hc <;> simp at hc <;> simp [hc]
    unfold clash
    rw [hnot]
    rfl
  constructor
  · unfold serverCompiles
    rw [List.map_append, List.map_append, a1, s1, p1, s3, a2, hpk, hwr, hde, hsr, hin, h1, h3]
    rw [all_map op'.args.head?, all_map op.args.head?, a4 fun t => accepts (serverArg t) t]
  · unfold clientCompiles
    rw [hfree', s3, hst, hde, hcr, hin, h1, h3]
    rw [all_map op'.args.head?, all_map op.args.head?, a4 fun t => accepts (clientArg t) t]
    simp only [Bool.and_eq_true]
    rintro ⟨⟨⟨⟨h1, h2⟩, h3⟩, h4⟩, h5⟩
    exact ⟨⟨⟨⟨h1, trivial⟩, h3⟩, h4⟩, h5⟩

example : clientCompiles "r" { sampleOp with params := [⟨[97], "a", false, .prim .time⟩, ⟨[98], "stream", false, .opt (.cast .i32)⟩] } = false ∧
    clientCompiles "a" sampleOp = false ∧ clientCompiles "r" sampleOp = true := by decide

/-! ## C112: both ends mean the same -/

/-- **C112** The exporting and the importing end name the same operation of the same kind. -/
theorem same_operation (ns : String) (iface : Option String) (op : Operation) :
    serverExport ns iface op = clientImport ns iface op ∧ wrapperStyle op = callStyle op ∧
      (clientImport ns iface op).2.2 = op.name ∧
      (callStyle op = .requestChannel ↔ ∃ p ∈ op.params, p.stream = true) ∧
      (callStyle op = .requestStream ↔ op.streamOut = true ∧ ∀ p ∈ op.params, p.stream = false) := by
  have hi : op.streamIn.isSome = true ↔ ∃ p ∈ op.params, p.stream = true := by
    unfold Operation.streamIn Operation.streams
    rw [Option.isSome_map, List.isSome_head?]
    simp
  refine ⟨rfl, rfl, rfl, ?_, ?_⟩
  · rw [← hi]
    unfold callStyle
    cases op.streamIn.isSome <;> cases op.streamOut <;> simp
  · have : (∀ p ∈ op.params, p.stream = false) ↔ op.streamIn.isSome = false := by
      rw [Bool.eq_false_iff, Ne, hi]
      simp
    rw [this]
    unfold callStyle
    cases op.streamIn.isSome <;> cases op.streamOut <;> simp

example : serverExport "shop" (some "Cart") sampleChannel = (.requestChannel, "shop.Cart", "follow") := by decide

theorem client_parts {receiver : String} {op : Operation} (h : clientCompiles receiver op = true) :
    (op.unary = true → ∀ p, op.args.head? = some p → accepts (clientArg p.ty) p.ty = true) ∧
    (∀ t, op.streamIn = some t → accepts (clientIn t) t = true) ∧ accepts (clientResult op).2 op.ret = true := by
  unfold clientCompiles at h
  simp only [Bool.and_eq_true] at h
  obtain ⟨⟨⟨⟨_, _⟩, h3⟩, h4⟩, ⟨_, _⟩, h5⟩ := h
  refine ⟨fun hu p hp => ?_, fun t ht => ?_, h5⟩
  · rw [if_pos hu, hp] at h3; simpa using h3
  · rw [ht] at h4; simpa using h4

theorem server_parts {op : Operation} (h : serverCompiles op = true) :
    (op.unary = true → ∀ p, op.args.head? = some p → accepts (serverArg p.ty) p.ty = true) ∧
    (∀ t, op.streamIn = some t → accepts (serverIn t) t = true) ∧ accepts (serverResult op).2 op.ret = true := by
  unfold serverCompiles at h
  simp only [Bool.and_eq_true] at h
  obtain ⟨⟨⟨⟨⟨_, _⟩, _⟩, h3⟩, h4⟩, ⟨_, _⟩, h5⟩ := h
  refine ⟨fun hu p hp => ?_, fun t ht => ?_, h5⟩
  · rw [if_pos hu, hp] at h3; simpa using h3
  · rw [ht] at h4; simpa using h4

theorem no_read (t : T) (op : Operation) :
    (∀ x, clientArg t ≠ .read x) ∧ (∀ x, clientIn t ≠ .read x) ∧ (∀ x, serverIn t ≠ .read x) ∧
      (∀ x, (serverResult op).2 ≠ .read x) ∧ ∀ x, (clientResult op).2 ≠ .read x := by
  refine ⟨fun x => ?_, fun x => ?_, fun x => ?_, fun x => ?_, fun x => ?_⟩
  · cases t <;> simp [clientArg]
  · cases t <;> simp [clientIn]
  · cases t <;> simp [serverIn]
  · unfold serverResult
    cases op.ret <;> simp
    split <;> simp
  · unfold clientResult
    split <;> simp

/-- **C112** (part) If both ends compile: whatever the handler returns, or emits into a stream of results,
arrives at the caller as it was, except that nil slices and maps have become empty ones. -/
theorem result_arrives_partial {lib : Lib} {format : Time → Bytes} {env : Env} (hw : WellFormed env)
    (receiver : String) (op : Operation) (hs : serverCompiles op = true) (hc : clientCompiles receiver op = true)
    (v v' : GV) (hf : Times lib format v') (ho : Reorder v v') (ht : TypedT env op.ret v') (hlt : Size.ops (write env op.ret.ty v) < 2 ^ 32) :
    ∃ bs, encode env format (serverResult op).2 v v' = some (.ok bs) ∧
      ∃ f0, ∀ f, f0 ≤ f → Calls.decode env lib f (clientResult op).2 bs = some (.ok (seen env op.ret v')) :=
  agree hw (server_parts hs).2.2 (client_parts hc).2.2 (no_read op.ret op).2.2.2.1
    (fun _ => (no_read op.ret op).2.2.2.2) (fun _ => hf) ho ht hlt

/-- **C112** (part) If both ends compile: whatever the caller puts into the stream parameter arrives at the
handler as it was, except that nil slices and maps have become empty ones. -/
theorem element_arrives_partial {lib : Lib} {format : Time → Bytes} {env : Env} (hw : WellFormed env)
    (receiver : String) (op : Operation) (hs : serverCompiles op = true) (hc : clientCompiles receiver op = true)
    (t : T) (hi : op.streamIn = some t)
    (v v' : GV) (hf : Times lib format v') (ho : Reorder v v') (ht : TypedT env t v') (hlt : Size.ops (write env t.ty v) < 2 ^ 32) :
    ∃ bs, encode env format (clientIn t) v v' = some (.ok bs) ∧
      ∃ f0, ∀ f, f0 ≤ f → Calls.decode env lib f (serverIn t) bs = some (.ok (seen env t v')) :=
  agree hw ((client_parts hc).2.1 t hi) ((server_parts hs).2.1 t hi) (no_read t op).2.1
    (fun _ => (no_read t op).2.2.1) (fun _ => hf) ho ht hlt

theorem reorder_one {w w' : GV} (h : Reorder w w') : ∀ v', w' = .obj [v'] → ∃ v, w = .obj [v] ∧ Reorder v v' := by
  induction h with
  | refl w => exact fun v hv => ⟨v, hv, .refl _⟩
  | trans _ _ ih ih' =>
    intro v hv
    obtain ⟨u, hu, h1⟩ := ih' v hv
    obtain ⟨u', hu', h2⟩ := ih u hu
    exact ⟨u', hu', h2.trans h1⟩
  | map h => intro v hv; cases hv
  | inList h => intro v hv; cases hv
  | inMap h => intro v hv; cases hv
  | inObj h ih =>
    rename_i a b x x'
    intro v hv
    cases a with
    | nil =>
      simp only [List.nil_append, GV.obj.injEq, List.cons.injEq] at hv
      obtain ⟨rfl, rfl⟩ := hv
      exact ⟨x, rfl, h⟩
    | cons y a => simp at hv

/-- **C112** (part) If both ends compile: the handler is called with the arguments of the caller, in which nil
slices and maps have become empty ones. `unary` means that there is only one. -/
theorem args_arrive_partial (lib : Lib) (format : Time → Bytes) {env : Env} (receiver : String)
    (op : Operation) (hw : WellFormed (defs env op)) (hu : op.unary = true → op.args.length ≤ 1)
    (hs : serverCompiles op = true) (hc : clientCompiles receiver op = true) (vs vs' : List GV) (ho : Reorder (.obj vs) (.obj vs'))
    (ht : TypedF (defs env op) ⟨false, true, true⟩ (op.args.map fun p => (p.name, p.ty.ty)) vs')
    (hlt : Size.ops (writeFields (defs env op) (op.args.map fun p => (p.name, p.ty.ty)) vs) + 5 < 2 ^ 32) :
    ∃ bs, clientSends env format op vs vs' = some (.ok bs) ∧
      ∃ f0, ∀ f, f0 ≤ f → serverReceives env lib f op bs =
        some (.ok (normF (defs env op) (op.args.map fun p => (p.name, p.ty.ty)) vs')) := by
  by_cases hempty : op.args = []
  · rw [hempty] at ht ⊢
    cases ht
    exact ⟨[], by simp [clientSends, hempty], 0, fun f _ => by simp [serverReceives, hempty, normF]⟩
  have hne : op.args.isEmpty = false := by cases h : op.args <;> simp_all
  by_cases hun : op.unary = true
  · have hd : defs env op = env := by simp [defs, hun]
    obtain ⟨p, hp⟩ : ∃ p, op.args = [p] := by
      have := hu hun
      match h : op.args, this with
      | [], _ => exact absurd h hempty
      | [p], _ => exact ⟨p, rfl⟩
      | _ :: _ :: _, hle => simp at hle
    rw [hd, hp] at ht hlt ⊢
    rw [hd] at hw
    simp only [List.map_cons, List.map_nil] at ht hlt ⊢
    cases ht with
    | cons hv hl =>
      cases hl
      rename_i v'
      obtain ⟨v, hv1, hv2⟩ := reorder_one ho v' rfl
      cases hv1
      have hca := (client_parts hc).1 hun p (by rw [hp]; rfl)
      have hsa := (server_parts hs).1 hun p (by rw [hp]; rfl)
      have hnv : p.ty ≠ .void := by intro h; rw [h] at hca; simp [clientArg, accepts] at hca
      have htime : base p.ty ≠ some .time := by
        intro h
        cases hpt : p.ty with
        | prim q =>
          rw [hpt] at h hca
          simp only [base, Option.some.injEq] at h
          subst h
          exact absurd hca (by decide)
        | alias q => rw [hpt] at hca; simp [clientArg, accepts] at hca
        | enum => rw [hpt] at h; simp [base] at h
        | void => rw [hpt] at h; simp [base] at h
        | _ => rw [hpt] at h; simp [base] at h
      obtain ⟨bs, h1, f0, h2⟩ := agree (lib := lib) (format := format) hw hca hsa (no_read p.ty op).1 (fun h => absurd h htime)
        (fun h => absurd h htime) hv2
        (by cases hpt : p.ty <;> first | exact absurd hpt hnv | (rw [hpt] at hv; exact hv))
        (by
          simp only [writeFields, Size.ops, sizes_append] at hlt
          omega)
      refine ⟨bs, ?_, f0, fun f hle => ?_⟩
      · simp only [clientSends, hp, List.isEmpty_cons, Bool.false_eq_true, if_false, if_pos hun]
        exact h1
      · simp only [serverReceives, hp, List.isEmpty_cons, Bool.false_eq_true, if_false, if_pos hun]
        rw [h2 f hle]
        have : seen env p.ty v' = norm env p.ty.ty v' := by
          cases hpt : p.ty <;> first | exact absurd hpt hnv | rfl
        simp [normF, this, Res.bind]
  · have hd : defs env op = env ++ [.struct (op.args.map fun p => (p.name, p.ty.ty))] := by
      simp [defs, hne, hun]
    have hget : (defs env op).get env.length = .struct (op.args.map fun p => (p.name, p.ty.ty)) := by
      rw [hd]
      simp [Env.get]
    have hsize : Size.ops (write (defs env op) (.named env.length) (.obj vs)) < 2 ^ 32 := by
      have hms : ∀ n, Size.mapSize n ≤ 5 := by
        intro n
        unfold Size.mapSize
        split <;> (try split) <;> omega
      have := hms ((op.args.map fun p => (p.name, p.ty.ty)).length % U32)
      simp only [write, Ty.strip, hget, Size.ops, Size.op]
      omega
    obtain ⟨bs, h1, f0, h2⟩ := codec_round_trip_partial lib (defs env op) hw env.length (.obj vs) (.obj vs') ho (.struct hget ht) hsize
    refine ⟨bs, ?_, f0, fun f hle => ?_⟩
    · simp only [clientSends, hne, Bool.false_eq_true, if_false, if_neg hun]
      rw [h1]
    · simp only [serverReceives, hne, Bool.false_eq_true, if_false, if_neg hun]
      rw [h2 f hle]
      simp [norm, Ty.strip, hget, Res.bind]

/-- Type 0 has a number and a list of strings. -/
def shopEnv : Env := [.struct [([110], .prim .u8), ([108], .list (.prim .str))]]

theorem shop_wf : WellFormed shopEnv := by
  refine ⟨fun n => ?_, fun n => ?_, fun n => ?_, fun n fs h => ?_, fun _ => 0, fun n h => Nat.zero_lt_one, fun n s m h => ?_⟩ <;>
    rcases n with _ | n <;> simp_all [shopEnv, Env.get, Def.fields, names, short]

/-- An operation with a unary parameter of type 0 and a list of such as its result. -/
def buy : Operation := ⟨"buy", true, [⟨[97], "a", false, .obj 0⟩], false, .list (.named 0)⟩

example (lib : Lib) (format : Time → Bytes) :
    ∃ bs, clientSends shopEnv format buy [.obj [.sc (.uint 7), .null]] [.obj [.sc (.uint 7), .null]] = some (.ok bs) ∧
      ∃ f0, ∀ f, f0 ≤ f → serverReceives shopEnv lib f buy bs = some (.ok [.obj [.sc (.uint 7), .list []]]) := by
  have := args_arrive_partial lib format "s" buy (env := shopEnv) shop_wf (by decide) (by decide) (by decide)
    [.obj [.sc (.uint 7), .null]] [.obj [.sc (.uint 7), .null]] (.refl _)
    (.cons (.struct rfl (.cons (.prim (by simp [IsPrim])) (.cons (.nilColl (by simp [Collection])) .nil))) .nil) (by decide +kernel)
  simpa [normF, norm, buy, Operation.args, T.ty, Ty.strip, shopEnv, Env.get, defs] using this

example (lib : Lib) (format : Time → Bytes) :
    ∃ bs, encode shopEnv format (serverResult buy).2 (.list [.obj [.sc (.uint 7), .null]]) (.list [.obj [.sc (.uint 7), .null]]) = some (.ok bs) ∧
      ∃ f0, ∀ f, f0 ≤ f → Calls.decode shopEnv lib f (clientResult buy).2 bs =
        some (.ok (.list [.obj [.sc (.uint 7), .list []]])) := by
  have := result_arrives_partial (lib := lib) (format := format) shop_wf "s" buy (by decide) (by decide)
    (.list [.obj [.sc (.uint 7), .null]]) (.list [.obj [.sc (.uint 7), .null]]) (fun _ h => nomatch h) (.refl _)
    (.list (by simp [short]) (.cons (.struct rfl (.cons (.prim (by simp [IsPrim])) (.cons (.nilColl (by simp [Collection])) .nil))) .nil))
    (by decide +kernel)
  simpa [seen, normF, normL, norm, buy, T.ty, Ty.strip, shopEnv, Env.get] using this

example (lib : Lib) (format : Time → Bytes) :
    ∃ bs, encode shopEnv format (clientIn .enum) (.sc (.int 5)) (.sc (.int 5)) = some (.ok bs) ∧
      ∃ f0, ∀ f, f0 ≤ f → Calls.decode shopEnv lib f (serverIn .enum) bs = some (.ok (.sc (.int 5))) := by
  have := element_arrives_partial (lib := lib) (format := format) shop_wf "r" sampleChannel (by decide) (by decide) .enum rfl
    (.sc (.int 5)) (.sc (.int 5)) (fun _ h => nomatch h) (.refl _) (.cast (by simp [IsPrim])) (by decide +kernel)
  simpa [seen, norm, T.ty] using this

/-- An operation with two parameters. -/
def sell : Operation := ⟨"sell", false, [⟨[110], "n", false, .prim .u8⟩, ⟨[108], "l", false, .list (.prim .str)⟩], false, .void⟩

theorem sell_wf : WellFormed (defs [] sell) := shop_wf

example (lib : Lib) (format : Time → Bytes) :
    ∃ bs, clientSends [] format sell [.sc (.uint 7), .null] [.sc (.uint 7), .null] = some (.ok bs) ∧
      ∃ f0, ∀ f, f0 ≤ f → serverReceives [] lib f sell bs = some (.ok [.sc (.uint 7), .list []]) := by
  have := args_arrive_partial lib format "s" sell (env := []) sell_wf (by decide) (by decide) (by decide)
    [.sc (.uint 7), .null] [.sc (.uint 7), .null] (.refl _)
    (.cons (.prim (by simp [IsPrim])) (.cons (.nilColl (by simp [Collection, T.ty])) .nil)) (by decide +kernel)
  simpa [normF, norm, sell, Operation.args, T.ty, Ty.strip, Env.get, defs] using this

/-- A result that is a time, with a `Format` and a `Parse` that know only this one. -/
example : ∃ lib : Lib, ∃ format : Time → Bytes, Times lib format (.sc (.time ⟨5, 7⟩)) ∧
    ∃ bs, encode shopEnv format (serverResult ⟨"now", false, [], false, .prim .time⟩).2 (.sc (.time ⟨5, 7⟩)) (.sc (.time ⟨5, 7⟩)) = some (.ok bs) ∧
      ∃ f0, ∀ f, f0 ≤ f → Calls.decode shopEnv lib f (clientResult ⟨"now", false, [], false, .prim .time⟩).2 bs =
        some (.ok (.sc (.time ⟨5, 7⟩))) := by
  have hf : Times ⟨fun x => x, fun _ => some ⟨5, 7⟩⟩ (fun _ => [49]) (.sc (.time ⟨5, 7⟩)) := by
    intro t h
    cases h
    exact ⟨rfl, by decide⟩
  refine ⟨_, _, hf, ?_⟩
  have := result_arrives_partial shop_wf "s" ⟨"now", false, [], false, .prim .time⟩ (by decide) (by decide)
    _ _ hf (.refl _) (.prim (by simp [IsPrim, i64])) (by decide +kernel)
  simpa [seen, norm, T.ty] using this

end Iota.Props.Calls
