import Verif.Lemmas.Codegen

/-! # What a generated decoder makes of what a generated encoder writes -/

namespace Iota.Lemmas.Codegen
open Iota.Go Iota.Msgpack Iota.Codegen Iota.Spec.Msgpack Iota.Spec.Codegen Iota.Lemmas.Msgpack

/-- Writer and reader fit together. -/
structure Fit (a : Allow) (w r : Env) : Prop where
  hw : WellFormed w
  hr : WellFormed r
  hc : Compatible w r
  hk : a.longTime = true → Knows w r

def Good (lib : Lib) (a : Allow) (w r : Env) (t : Ty) (v : GV) : Prop :=
  ∃ bs, Writes (Enc.ops (write w t v)) bs ∧ (bs.length ≤ Size.ops (write w t v) ∧ (a.odd = false → bs.length = Size.ops (write w t v))) ∧
    Wire (EH a) (valOf w t v) bs ∧
    (a.nilCast = false → ∀ b old, (b = false → old = zero r r.length t) → RR (Knows w r) (fun f => readTy r lib f t b old) bs (adapt w r t v))

def GoodL (lib : Lib) (a : Allow) (w r : Env) (t : Ty) (l : List GV) : Prop :=
  ∃ bs, Writes (Enc.ops (writeList w t l)) bs ∧ (bs.length ≤ Size.ops (writeList w t l) ∧ (a.odd = false → bs.length = Size.ops (writeList w t l))) ∧
    Wires (EH a) (valsOf w t l) bs ∧
    (a.nilCast = false → ∀ acc, RR (Knows w r) (fun f => readList r lib f t l.length acc) bs (.list (acc ++ adaptL w r t l)))

def GoodM (lib : Lib) (a : Allow) (w r : Env) (k : Prim) (t : Ty) (l : List (Sc × GV)) : Prop :=
  ∃ bs, Writes (Enc.ops (writeMap w t l)) bs ∧ (bs.length ≤ Size.ops (writeMap w t l) ∧ (a.odd = false → bs.length = Size.ops (writeMap w t l))) ∧
    WirePairs (EH a) (entriesOf w t l) bs ∧
    (a.nilCast = false → (l.map (·.1)).Nodup → ∀ acc, (∀ k ∈ l.map (·.1), k ∉ acc.map (·.1)) →
      RR (Knows w r) (fun f => readMap r lib f k t l.length acc) bs (.map (acc ++ adaptM w r t l)))

def GoodF (lib : Lib) (a : Allow) (w r : Env) (fs : List (Bytes × Ty)) (vs : List GV) : Prop :=
  ∃ bs, Writes (Enc.ops (writeFields w fs vs)) bs ∧ (bs.length ≤ Size.ops (writeFields w fs vs) ∧ (a.odd = false → bs.length = Size.ops (writeFields w fs vs))) ∧
    WirePairs (EH a) (fieldsVal w fs vs) bs ∧ (fieldsVal w fs vs).length = fs.length ∧
    (a.nilCast = false → ∀ n, (∀ p ∈ fs, p ∈ (w.get n).fields) → (names fs).Nodup → ∀ msg, (∀ s ∈ names fs, s ∉ msg.map (·.1)) →
      RR (Knows w r) (fun f => readFields r lib f (r.get n).fields fs.length (fill r (r.get n).fields msg)) bs
        (.obj (fill r (r.get n).fields (msg ++ adaptF w r fs vs))))

def GoodU (lib : Lib) (a : Allow) (w r : Env) (fs : List (Bytes × Ty)) (vs : List GV) : Prop :=
  ∃ bs, Writes (Enc.ops (writeUnion w fs vs)) bs ∧ (bs.length ≤ Size.ops (writeUnion w fs vs) ∧ (a.odd = false → bs.length = Size.ops (writeUnion w fs vs))) ∧
    Wire (EH a) (.map (memberVal w fs vs)) bs ∧
    (a.nilCast = false → ∀ n, (∀ p ∈ fs, p ∈ (w.get n).fields) →
      RR (Knows w r) (fun f => decode r lib f (r.get n).fields (zeros r (r.get n).fields)) bs
        (.obj (fill r (r.get n).fields (adaptU w r fs vs))))

variable {lib : Lib} {a : Allow} {w r : Env}

theorem castNillable_reads {p : Prim} {s : Sc} {bs : Bytes} (h : Reads (readPrim lib p) bs s) (hn : NotNil bs) :
    Reads (castNillable lib p) bs (.sc s) := by
  intro pre rest hlt
  unfold castNillable
  rw [nillable_some h hn pre rest hlt]

theorem castNillable_short {p : Prim} {s : Sc} {bs : Bytes} (h : Reads (readPrim lib p) bs s) (hn : NotNil bs) :
    Short (lift (castNillable lib p)) bs := by
  intro pre k hk hlt
  have := loc_trunc (loc_nillable (loc_prim lib p)) (nillable_some h hn) pre k hk hlt
  refine ⟨_, _, rfl, fun a => ?_⟩
  rcases hr : Dec.nillable (readPrim lib p) ⟨pre ++ bs.take k, pre.length, false⟩ with ⟨x, d'⟩
  rw [hr] at this
  simp only at this
  subst this
  simp

theorem good_prim {p : Prim} {s : Sc} (h : IsPrim a p s) : Good lib a w r (.prim p) (.sc s) := by
  obtain ⟨bs, h1, h2, h3, h4⟩ := prim_enc lib h
  refine ⟨bs, ?_, ?_, ?_, ?_⟩
  · simpa [write] using ops_one h1
  · simp only [write, Size.ops, List.length_append, Nat.add_zero]
    obtain ⟨h2a, h2b⟩ := h2
    refine ⟨by omega, fun ho => ?_⟩
    have h2c := h2b ho
    omega
  · simpa [valOf] using h3
  · intro hnc b old _
    have hn := wire_notNil (EH_notNil a) h3 (scVal_ne s)
    cases b with
    | false =>
      refine RR.cast (RR.succ (RR.lift (h4.map (f := GV.sc)) (loc_map _ (loc_prim lib p))) ?_) rfl ?_
      · intro f; simp [readTy]
      · simp [adapt]
    | true =>
      refine RR.cast (RR.succ (RR.lift ((nillable_some h4 hn).map (f := ptr)) (loc_map _ (loc_nillable (loc_prim lib p)))) ?_) rfl ?_
      · intro f; simp [readTy]
      · simp [adapt, ptr]

theorem good_cast {p : Prim} {s : Sc} (h : IsPrim a p s) : Good lib a w r (.cast p) (.sc s) := by
  obtain ⟨bs, h1, h2, h3, h4⟩ := prim_enc lib h
  refine ⟨bs, ?_, ?_, ?_, ?_⟩
  · simpa [write] using ops_one h1
  · simp only [write, Size.ops, List.length_append, Nat.add_zero]
    obtain ⟨h2a, h2b⟩ := h2
    refine ⟨by omega, fun ho => ?_⟩
    have h2c := h2b ho
    omega
  · simpa [valOf] using h3
  · intro hnc b old _
    have hn := wire_notNil (EH_notNil a) h3 (scVal_ne s)
    cases b with
    | false =>
      refine RR.cast (RR.succ (RR.lift (h4.map (f := GV.sc)) (loc_map _ (loc_prim lib p))) ?_) rfl ?_
      · intro f; simp [readTy]
      · simp [adapt]
    | true =>
      refine RR.cast (RR.succ (RR.lift' (castNillable_reads h4 hn) (castNillable_short h4 hn)) ?_) rfl ?_
      · intro f; simp [readTy]
      · simp [adapt]

theorem good_list {t : Ty} {l : List GV} (hl : short l) (h : GoodL lib a w r t l) : Good lib a w r (.list t) (.list l) := by
  obtain ⟨bs, h1, h2, h3, h4⟩ := h
  obtain ⟨hd, g1, g2, g3, g4⟩ := arraySize_enc l.length hl
  have hm := mod_short hl
  have hv : (valsOf w t l).length = l.length := by
    clear h1 h2 h3 h4 g1 g2 g3 g4 hm hl
    induction l with
    | nil => rfl
    | cons v l ih => simp [valsOf, ih]
  refine ⟨hd ++ bs, ?_, ?_, ?_, ?_⟩
  · simp only [write, Ty.strip, hm]
    exact ops_cons g1 h1
  · simp only [write, Ty.strip, Size.ops, Size.op, hm, List.length_append, Nat.add_zero]
    obtain ⟨h2a, h2b⟩ := h2
    refine ⟨by omega, fun ho => ?_⟩
    have h2c := h2b ho
    omega
  · simp only [valOf, Ty.strip]
    exact .arr (hv ▸ g3) h3
  · intro hnc b old _
    refine RR.cast (RR.succ (RR.thn (RR.lift g4 loc_arraySize) (g := fun f n => readList r lib f t n []) (h4 hnc [])) ?_) rfl ?_
    · intro f; cases b <;> simp [readTy]
    · simp [adapt, Ty.strip]

theorem good_map {k : Prim} {t : Ty} {l : List (Sc × GV)} (hl : short l) (hn : (l.map (·.1)).Nodup)
    (h : GoodM lib a w r k t l) : Good lib a w r (.map k t) (.map l) := by
  obtain ⟨bs, h1, h2, h3, h4⟩ := h
  obtain ⟨hd, g1, g2, g3, g4⟩ := mapSize_enc l.length hl
  have hm := mod_short hl
  have hv : (entriesOf w t l).length = l.length := by
    clear h1 h2 h3 h4 g1 g2 g3 g4 hm hl hn
    induction l with
    | nil => rfl
    | cons v l ih => obtain ⟨x, v⟩ := v; simp [entriesOf, ih]
  refine ⟨hd ++ bs, ?_, ?_, ?_, ?_⟩
  · simp only [write, Ty.strip, hm]
    exact ops_cons g1 h1
  · simp only [write, Ty.strip, Size.ops, Size.op, hm, List.length_append, Nat.add_zero]
    obtain ⟨h2a, h2b⟩ := h2
    refine ⟨by omega, fun ho => ?_⟩
    have h2c := h2b ho
    omega
  · simp only [valOf, Ty.strip]
    exact .map (hv ▸ g3) h3
  · intro hnc b old _
    refine RR.cast (RR.succ (RR.thn (RR.lift g4 loc_mapSize) (g := fun f n => readMap r lib f k t n []) (h4 hnc hn [] (by simp))) ?_) rfl ?_
    · intro f; cases b <;> simp [readTy]
    · simp [adapt, Ty.strip]

theorem goodL_nil {t : Ty} : GoodL lib a w r t [] :=
  ⟨[], by simpa [writeList, Enc.ops] using writes_skip, by simp [writeList, Size.ops], by simpa [valsOf] using .nil,
    fun _ acc => (RR.done (GV.list acc)).succ (fun f => by simp [readList]) |>.cast rfl (by simp [adaptL])⟩

theorem goodL_cons {t : Ty} {v : GV} {l : List GV} (h : Good lib a w r t v) (hl : GoodL lib a w r t l) :
    GoodL lib a w r t (v :: l) := by
  obtain ⟨x, x1, x2, x3, x4⟩ := h
  obtain ⟨y, y1, y2, y3, y4⟩ := hl
  refine ⟨x ++ y, ?_, ?_, ?_, ?_⟩
  · simpa [writeList] using ops_append x1 y1
  · simp only [writeList, sizes_append, List.length_append, Nat.add_zero]
    obtain ⟨x2a, x2b⟩ := x2
    obtain ⟨y2a, y2b⟩ := y2
    refine ⟨by omega, fun ho => ?_⟩
    have x2c := x2b ho
    have y2c := y2b ho
    omega
  · simp only [valsOf]
    exact .cons x3 y3
  · intro hnc acc
    refine RR.cast (RR.succ (RR.thn (x4 hnc false _ (fun _ => rfl)) (g := fun f v => readList r lib f t l.length (acc ++ [v]))
      (y4 hnc (acc ++ [_]))) ?_) rfl ?_
    · intro f; simp [readList]
    · simp [adaptL]

theorem goodM_nil {k : Prim} {t : Ty} : GoodM lib a w r k t [] :=
  ⟨[], by simpa [writeMap, Enc.ops] using writes_skip, by simp [writeMap, Size.ops], by simpa [entriesOf] using .nil,
    fun _ _ acc _ => (RR.done (GV.map acc)).succ (fun f => by simp [readMap]) |>.cast rfl (by simp [adaptM])⟩

theorem mapSet_new {l : List (Sc × GV)} {k : Sc} (v : GV) (h : k ∉ l.map (·.1)) : mapSet l k v = l ++ [(k, v)] := by
  induction l with
  | nil => rfl
  | cons p l ih =>
    obtain ⟨k', v'⟩ := p
    simp only [List.map_cons, List.mem_cons, not_or] at h
    simp only [mapSet, if_neg (fun e : k' = k => h.1 e.symm), ih h.2, List.cons_append]

theorem goodM_cons {k : Prim} {t : Ty} {s : Sc} {v : GV} {l : List (Sc × GV)} (hk : IsPrim a k s)
    (h : Good lib a w r t v) (hl : GoodM lib a w r k t l) : GoodM lib a w r k t ((s, v) :: l) := by
  obtain ⟨z, z1, z2, z3, z4⟩ := prim_enc lib hk
  obtain ⟨x, x1, x2, x3, x4⟩ := h
  obtain ⟨y, y1, y2, y3, y4⟩ := hl
  refine ⟨z ++ (x ++ y), ?_, ?_, ?_, ?_⟩
  · simpa [writeMap] using ops_cons z1 (ops_append x1 y1)
  · simp only [writeMap, Size.ops, sizes_append, List.length_append, Nat.add_zero]
    obtain ⟨x2a, x2b⟩ := x2
    obtain ⟨y2a, y2b⟩ := y2
    obtain ⟨z2a, z2b⟩ := z2
    refine ⟨by omega, fun ho => ?_⟩
    have x2c := x2b ho
    have y2c := y2b ho
    have z2c := z2b ho
    omega
  · simp only [entriesOf]
    exact .cons z3 x3 y3
  · intro hnc hn acc hacc
    simp only [List.map_cons, List.nodup_cons] at hn
    have hs : s ∉ acc.map (·.1) := hacc s (by simp)
    have hy := y4 hnc hn.2 (acc ++ [(s, adapt w r t v)]) (by
      intro k' hk'
      simp only [List.map_append, List.map_cons, List.map_nil, List.mem_append, List.mem_singleton, not_or]
      exact ⟨hacc k' (by simp [hk']), fun e => hn.1 (e ▸ hk')⟩)
    rw [← mapSet_new (adapt w r t v) hs] at hy
    refine RR.cast (RR.succ (RR.thn (RR.lift z4 (loc_prim lib k))
      (g := fun f key => thn (readTy r lib f t false (zero r r.length t)) fun v => readMap r lib f k t l.length (mapSet acc key v))
      (RR.thn (x4 hnc false _ (fun _ => rfl)) (g := fun f v => readMap r lib f k t l.length (mapSet acc s v)) hy)) ?_) rfl ?_
    · intro f; simp [readMap]
    · simp [adaptM, mapSet_new _ hs]

/-- One field of a message. -/
theorem field_step (hf : Fit a w r) {n : Nat} {s : Bytes} {t : Ty} {v : GV} {x y : Bytes}
    (hmem : (s, t) ∈ (w.get n).fields) (x4 : Reads Dec.str x s) (y3 : Wire (EH a) (valOf w t v) y)
    (y4 : ∀ b old, (b = false → old = zero r r.length t) → RR (Knows w r) (fun f => readTy r lib f t b old) y (adapt w r t v))
    {msg : List (Bytes × GV)} {m : Nat} {cs : Bytes} {res : GV} (hm : s ∉ msg.map (·.1))
    (hcs : RR (Knows w r) (fun f => readFields r lib f (r.get n).fields m
      (fill r (r.get n).fields (msg ++ [(s, adapt w r t v)]))) cs res) :
    RR (Knows w r) (fun f => readFields r lib f (r.get n).fields (m + 1) (fill r (r.get n).fields msg)) (x ++ (y ++ cs)) res := by
  have hs : s ∈ names (w.get n).fields := List.mem_map_of_mem (f := (·.1)) hmem
  cases hfd : find (r.get n).fields s with
  | none =>
    have hu := find_none hfd
    have hl : a.longTime = false := by
      cases hl : a.longTime with
      | false => rfl
      | true => exact absurd (hf.hk hl n s hs) hu
    have hskip : RR (Knows w r) Dec.skip y () := by
      refine RR.skip (skip_reads (v := valOf w t v) ?_) fun hk => hu (hk n s hs)
      have := y3
      unfold EH at this
      rw [hl] at this
      exact this
    rw [fill_unknown _ _ _ _ _ hu] at hcs
    refine RR.succ (RR.thn (RR.lift x4 loc_str) (g := fun f name => match find (r.get n).fields name with
      | none => thn (Dec.skip f) fun _ => readFields r lib f (r.get n).fields m (fill r (r.get n).fields msg)
      | some (i, t) =>
        thn (readTy r lib f t false ((fill r (r.get n).fields msg)[i]?.getD .null)) fun v =>
          readFields r lib f (r.get n).fields m ((fill r (r.get n).fields msg).set i v)) ?_) ?_
    · simp only [hfd]
      exact RR.thn hskip (g := fun f _ => readFields r lib f (r.get n).fields m (fill r (r.get n).fields msg)) hcs
    · intro f; simp only [readFields]; rfl
  | some p =>
    obtain ⟨i, t'⟩ := p
    have ht : t = t' := (hf.hc n).1 s t t' hmem (List.mem_of_getElem? (find_some hfd))
    subst ht
    rw [← fill_set r _ _ _ _ _ _ hfd (hf.hr.nodup n) hm] at hcs
    refine RR.succ (RR.thn (RR.lift x4 loc_str) (g := fun f name => match find (r.get n).fields name with
      | none => thn (Dec.skip f) fun _ => readFields r lib f (r.get n).fields m (fill r (r.get n).fields msg)
      | some (i, t) =>
        thn (readTy r lib f t false ((fill r (r.get n).fields msg)[i]?.getD .null)) fun v =>
          readFields r lib f (r.get n).fields m ((fill r (r.get n).fields msg).set i v)) ?_) ?_
    · simp only [hfd]
      exact RR.thn (y4 false _ (fun _ => fill_get r _ _ _ _ _ hfd hm))
        (g := fun f v => readFields r lib f (r.get n).fields m ((fill r (r.get n).fields msg).set i v)) hcs
    · intro f; simp only [readFields]; rfl

theorem goodF_nil : GoodF lib a w r [] [] :=
  ⟨[], by simpa [writeFields, Enc.ops] using writes_skip, by simp [writeFields, Size.ops],
    by simpa [fieldsVal] using .nil, by simp [fieldsVal],
    fun _ n _ _ msg _ => (RR.done (GV.obj (fill r (r.get n).fields msg))).succ (fun f => by simp [readFields]) |>.cast rfl (by simp [adaptF])⟩

theorem goodF_cons (hf : Fit a w r) {s : Bytes} {t : Ty} {v : GV} {fs : List (Bytes × Ty)} {vs : List GV}
    (hs : short s) (h : Good lib a w r t v) (hl : GoodF lib a w r fs vs) :
    GoodF lib a w r ((s, t) :: fs) (v :: vs) := by
  obtain ⟨y, y1, y2, y3, y4, y5⟩ := hl
  obtain ⟨z, z1, z2, z3, z4⟩ := h
  obtain ⟨x, x1, x2, x3, x4⟩ := str_enc s hs
  refine ⟨x ++ (z ++ y), ?_, ?_, ?_, ?_, ?_⟩
  · simpa [writeFields] using ops_cons (o := .str s) (by simpa [Enc.op] using x1) (ops_append z1 y1)
  · simp only [writeFields, Size.ops, Size.op, sizes_append, List.length_append, Nat.add_zero]
    obtain ⟨z2a, z2b⟩ := z2
    obtain ⟨y2a, y2b⟩ := y2
    refine ⟨by omega, fun ho => ?_⟩
    have z2c := z2b ho
    have y2c := y2b ho
    omega
  · simp only [fieldsVal]
    exact .cons (x3 _) z3 y3
  · simp [fieldsVal, y4]
  · intro hnc n hsub hnd msg hmsg
    simp only [names, List.map_cons, List.nodup_cons] at hnd
    have hy := y5 hnc n (fun p hp => hsub p (by simp [hp])) hnd.2 (msg ++ [(s, adapt w r t v)]) (by
      intro s' hs'
      simp only [List.map_append, List.map_cons, List.map_nil, List.mem_append, List.mem_singleton, not_or]
      exact ⟨hmsg s' (by simp only [names, List.map_cons, List.mem_cons]; exact .inr hs'), fun e => hnd.1 (e ▸ hs')⟩)
    refine RR.cast (field_step hf (hsub (s, t) (by simp)) x4 z3 (z4 hnc) (hmsg s (by simp [names])) hy) rfl ?_
    simp [adaptF]

theorem goodU_here (hf : Fit a w r) {s : Bytes} {t : Ty} {v : GV} {fs : List (Bytes × Ty)} {vs : List GV}
    (hs : short s) (hn : v ≠ .null) (h : Good lib a w r t v) :
    GoodU lib a w r ((s, t) :: fs) (v :: vs) := by
  obtain ⟨z, z1, z2, z3, z4⟩ := h
  obtain ⟨x, x1, x2, x3, x4⟩ := str_enc s hs
  obtain ⟨hd, g1, g2, g3, g4⟩ := mapSize_enc 1 (by decide)
  have e1 : writeUnion w ((s, t) :: fs) (v :: vs) = .mapSize 1 :: .str s :: write w t v := by
    cases v <;> first | exact absurd rfl hn | simp [writeUnion]
  have e2 : memberVal w ((s, t) :: fs) (v :: vs) = [(.str s, valOf w t v)] := by
    cases v <;> first | exact absurd rfl hn | simp [memberVal]
  have e3 : adaptU w r ((s, t) :: fs) (v :: vs) = [(s, adapt w r t v)] := by
    cases v <;> first | exact absurd rfl hn | simp [adaptU]
  unfold GoodU
  rw [e1, e2, e3]
  refine ⟨hd ++ (x ++ z), ?_, ?_, ?_, ?_⟩
  · exact ops_cons (o := .mapSize 1) (by simpa [Enc.op] using g1) (ops_cons (o := .str s) (by simpa [Enc.op] using x1) z1)
  · simp only [Size.ops, Size.op, List.length_append, Nat.add_zero]
    obtain ⟨z2a, z2b⟩ := z2
    refine ⟨by omega, fun ho => ?_⟩
    have z2c := z2b ho
    omega
  · refine .map g3 ?_
    have := WirePairs.cons (x3 (EH a)) z3 WirePairs.nil
    simpa using this
  · intro hnc n hsub
    have hdone : RR (Knows w r) (fun f => readFields r lib f (r.get n).fields 0
        (fill r (r.get n).fields ([] ++ [(s, adapt w r t v)]))) [] (.obj (fill r (r.get n).fields [(s, adapt w r t v)])) :=
      (RR.done _).succ (fun f => by simp [readFields])
    have := field_step hf (hsub (s, t) (by simp)) x4 z3 (z4 hnc) (msg := []) (by simp) hdone
    rw [fill_nil] at this
    refine RR.cast (RR.succ (RR.thn (RR.lift g4 loc_mapSize)
      (g := fun f m => readFields r lib f (r.get n).fields m (zeros r (r.get n).fields)) this) ?_) (by simp) rfl
    intro f; simp [decode]

theorem goodU_there {p : Bytes × Ty} {fs : List (Bytes × Ty)} {vs : List GV} (h : GoodU lib a w r fs vs) :
    GoodU lib a w r (p :: fs) (.null :: vs) := by
  obtain ⟨y, y1, y2, y3, y4⟩ := h
  refine ⟨y, by simpa [writeUnion] using y1, by simpa [writeUnion] using y2, by simpa [memberVal] using y3, ?_⟩
  intro hnc n hsub
  simpa [adaptU] using y4 hnc n (fun q hq => hsub q (by simp [hq]))

/-- Both ways to read a type, from what `Decode` of a new value reads. -/
theorem readTy_named (hr : WellFormed r) {n : Nat} {bs : Bytes} {x : GV} (hn : NotNil bs)
    (h : RR (Knows w r) (fun f => decode r lib f (r.get n).fields (zeros r (r.get n).fields)) bs x) (b : Bool) (old : GV)
    (ho : b = false → old = zero r r.length (.named n)) : RR (Knows w r) (fun f => readTy r lib f (.named n) b old) bs x := by
  cases b with
  | false =>
    rw [ho rfl]
    refine RR.succ h ?_
    intro f
    have hz := fieldsOf_zero hr n
    simp only [readTy]
    cases hd : r.get n with
    | struct fs =>
      rw [hd] at hz
      simp only [Def.fields] at hz ⊢
      rw [hz]
    | union fs => simp [Def.fields]
  | true =>
    obtain ⟨f0, hf⟩ := h
    obtain ⟨c, cs, rfl, hc⟩ := hn
    refine RR.succ (r' := fun f => thn (lift Dec.isNextNil) fun b =>
      if b then done .null else decode r lib f (r.get n).fields (zeros r (r.get n).fields)) ?_ ?_
    · refine ⟨f0, fun f hle => ⟨fun pre rest hlt => ?_, fun hK pre k hk hlt => ?_⟩⟩
      · simp only [thn, Iota.Codegen.lift, isNextNil_false pre c cs rest hc hlt]
        simp only [Bool.false_eq_true, if_false]
        exact (hf f hle).1 pre rest hlt
      · cases k with
        | zero =>
          have := loc_trunc loc_isNextNil (bs := [0xc0]) nil_enc.2 pre 0 (by simp) (by simp at hlt ⊢; omega)
          rcases hr : Dec.isNextNil ⟨pre ++ (c :: cs).take 0, pre.length, false⟩ with ⟨x, d'⟩
          simp only [List.take_zero] at hr this
          rw [hr] at this
          simp only at this
          subst this
          refine ⟨.err rangeError, d', ?_, by simp⟩
          simp only [thn, Iota.Codegen.lift, List.take_zero, hr]
        | succ k =>
          have h1 := isNextNil_false pre c (cs.take k) [] hc (by simp at hk hlt ⊢; omega)
          have h2 := (hf f hle).2 hK pre (k + 1) hk hlt
          simp only [List.take_succ_cons, List.append_nil] at h1 h2 ⊢
          simp only [thn, Iota.Codegen.lift, h1]
          simpa using h2
    · intro f; simp only [readTy]

theorem good_struct (hf : Fit a w r) {n : Nat} {fs : List (Bytes × Ty)} {vs : List GV} (hd : w.get n = .struct fs)
    (h : GoodF lib a w r fs vs) : Good lib a w r (.named n) (.obj vs) := by
  obtain ⟨y, y1, y2, y3, y4, y5⟩ := h
  have hfs : (w.get n).fields = fs := by rw [hd]; rfl
  have hl : short fs := hfs ▸ hf.hw.size n
  obtain ⟨hd', g1, g2, g3, g4⟩ := mapSize_enc fs.length hl
  have hm := mod_short hl
  refine ⟨hd' ++ y, ?_, ?_, ?_, ?_⟩
  · simp only [write, Ty.strip, hd, hm]
    exact ops_cons (o := .mapSize fs.length) (by simpa [Enc.op] using g1) y1
  · simp only [write, Ty.strip, hd, Size.ops, Size.op, hm, List.length_append, Nat.add_zero]
    obtain ⟨y2a, y2b⟩ := y2
    refine ⟨by omega, fun ho => ?_⟩
    have y2c := y2b ho
    omega
  · simp only [valOf, Ty.strip, hd]
    exact .map (y4 ▸ g3) y3
  · intro hnc b old ho
    refine readTy_named hf.hr (NotNil.append (mapHead_notNil g3) _) ?_ b old ho
    have := y5 hnc n (fun p hp => hfs ▸ hp) (hfs ▸ hf.hw.nodup n) [] (by simp)
    rw [fill_nil] at this
    refine RR.cast (RR.succ (RR.thn (RR.lift g4 loc_mapSize)
      (g := fun f m => readFields r lib f (r.get n).fields m (zeros r (r.get n).fields)) this) ?_) rfl ?_
    · intro f; simp [decode]
    · simp [adapt, Ty.strip, hd]

theorem good_union (hf : Fit a w r) {n : Nat} {fs : List (Bytes × Ty)} {vs : List GV} (hd : w.get n = .union fs)
    (h : GoodU lib a w r fs vs) : Good lib a w r (.named n) (.obj vs) := by
  obtain ⟨y, y1, y2, y3, y4⟩ := h
  have hfs : (w.get n).fields = fs := by rw [hd]; rfl
  refine ⟨y, ?_, ?_, ?_, ?_⟩
  · simpa [write, Ty.strip, hd] using y1
  · simpa [write, Ty.strip, hd] using y2
  · simpa [valOf, Ty.strip, hd] using y3
  · intro hnc b old ho
    refine readTy_named hf.hr (wire_notNil (EH_notNil a) y3 (by simp)) ?_ b old ho
    have := y4 hnc n (fun p hp => hfs ▸ hp)
    simpa [adapt, Ty.strip, hd] using this

theorem good_none {t : Ty} (h : Pointer t) : Good lib a w r (.opt t) .null := by
  refine ⟨[0xc0], ?_, ?_, ?_, ?_⟩
  · cases t <;> simp only [Pointer] at h <;>
      simpa [write, Ty.strip, writeNull] using ops_one (o := .nil) (by simpa [Enc.op] using nil_enc.1)
  · cases t <;> simp only [Pointer] at h <;> simp [write, Ty.strip, writeNull, Size.ops, Size.op, Size.nil]
  · cases t <;> simp only [Pointer] at h <;> simpa [valOf, Ty.strip] using .nil
  · intro hnc b old hold
    clear hold
    cases t <;> simp only [Pointer] at h
    case prim p =>
      refine RR.cast (RR.succ (r' := fun f => readTy r lib f (.prim p) true old)
        (RR.succ (RR.lift ((nillable_none (readPrim lib p)).map (f := ptr)) (loc_map _ (loc_nillable (loc_prim lib p)))) ?_) ?_) rfl ?_
      · intro f; simp [readTy]
      · intro f; simp [readTy]
      · simp [adapt, Ty.strip, ptr]
    case named n =>
      refine RR.cast (RR.succ (r' := fun f => readTy r lib f (.named n) true old)
        (RR.succ (RR.thn (RR.lift nil_enc.2 loc_isNextNil) (g := fun f b => if b then done GV.null else
          decode r lib f (r.get n).fields (zeros r (r.get n).fields)) (cs := []) (b := .null) ?_) ?_) ?_) rfl ?_
      · simp only [if_true]
        exact RR.done _
      · intro f; simp only [readTy]
      · intro f; simp [readTy]
      · simp [adapt, Ty.strip]

theorem good_noneCast {p : Prim} (h : a.nilCast = true) : Good lib a w r (.opt (.cast p)) .null := by
  refine ⟨[0xc0], ?_, ?_, ?_, ?_⟩
  · simpa [write, Ty.strip, writeNull] using ops_one (o := .nil) (by simpa [Enc.op] using nil_enc.1)
  · simp [write, Ty.strip, writeNull, Size.ops, Size.op, Size.nil]
  · simpa [valOf, Ty.strip] using .nil
  · intro hnc
    simp [h] at hnc

theorem good_some {t : Ty} {v : GV} (ht : ∀ t', t ≠ .opt t') (h : Good lib a w r t v) : Good lib a w r (.opt t) v := by
  have hs : t.strip = t := by
    cases t <;> first | rfl | exact absurd rfl (ht _)
  have hs' : (Ty.opt t).strip = t := rfl
  obtain ⟨bs, h1, h2, h3, h4⟩ := h
  have e1 : write w (.opt t) v = write w t v := by cases v <;> simp only [write, hs, hs']
  have e2 : valOf w (.opt t) v = valOf w t v := by cases v <;> simp only [valOf, hs, hs']
  have e3 : adapt w r (.opt t) v = adapt w r t v := by cases v <;> simp only [adapt, hs, hs']
  refine ⟨bs, e1 ▸ h1, by rw [e1]; exact h2, e2 ▸ h3, ?_⟩
  intro hnc b old _
  rw [e3]
  exact (h4 hnc true old (by simp)).succ (fun f => by simp [readTy])

theorem good_nilColl {t : Ty} (h : Collection t) : Good lib a w r t .null := by
  cases t <;> simp only [Collection] at h
  case list t =>
    obtain ⟨bs, h1, h2, h3, h4⟩ := good_list (lib := lib) (a := a) (w := w) (r := r) (t := t) (l := []) (by simp [short]) goodL_nil
    refine ⟨bs, ?_, ?_, ?_, ?_⟩
    · simpa [write, Ty.strip, writeNull, writeList] using h1
    · simpa [write, Ty.strip, writeNull, writeList] using h2
    · simpa [valOf, Ty.strip, valsOf] using h3
    · intro hnc b old ho
      refine RR.cast (h4 hnc b old ho) rfl ?_
      simp [adapt, Ty.strip, adaptL]
  case map k t =>
    obtain ⟨bs, h1, h2, h3, h4⟩ := good_map (lib := lib) (a := a) (w := w) (r := r) (k := k) (t := t) (l := []) (by simp [short])
      (by simp) goodM_nil
    refine ⟨bs, ?_, ?_, ?_, ?_⟩
    · simpa [write, Ty.strip, writeNull, writeMap] using h1
    · simpa [write, Ty.strip, writeNull, writeMap] using h2
    · simpa [valOf, Ty.strip, entriesOf] using h3
    · intro hnc b old ho
      refine RR.cast (h4 hnc b old ho) rfl ?_
      simp [adapt, Ty.strip, adaptM]

theorem names_short (hw : WellFormed w) {n : Nat} {fs : List (Bytes × Ty)} (h : (w.get n).fields = fs) :
    ∀ p ∈ fs, short p.1 := fun p hp => hw.name n p.1 (h ▸ List.mem_map_of_mem hp)

mutual
theorem good (hf : Fit a w r) : {t : Ty} → {v : GV} → Typed w a t v → Good lib a w r t v
  | _, _, .prim h => good_prim h
  | _, _, .cast h => good_cast h
  | _, _, .nilColl h => good_nilColl h
  | _, _, .list hl h => good_list hl (goodL hf h)
  | _, _, .map hl _ hn h => good_map hl hn (goodM hf h)
  | _, _, .struct hd h => good_struct hf hd (goodF hf h (names_short hf.hw (by rw [hd]; rfl)))
  | _, _, .union hd h => good_union hf hd (goodU hf h (names_short hf.hw (by rw [hd]; rfl)))
  | _, _, .none h => good_none h
  | _, _, .noneCast h => good_noneCast h
  | _, _, .some ht h => good_some ht (good hf h)

theorem goodL (hf : Fit a w r) : {t : Ty} → {l : List GV} → TypedL w a t l → GoodL lib a w r t l
  | _, _, .nil => goodL_nil
  | _, _, .cons hv hl => goodL_cons (good hf hv) (goodL hf hl)

theorem goodM (hf : Fit a w r) : {k : Prim} → {t : Ty} → {l : List (Sc × GV)} → TypedM w a k t l → GoodM lib a w r k t l
  | _, _, _, .nil => goodM_nil
  | _, _, _, .cons hk hv hl => goodM_cons hk (good hf hv) (goodM hf hl)

theorem goodF (hf : Fit a w r) : {fs : List (Bytes × Ty)} → {vs : List GV} → TypedF w a fs vs → (∀ p ∈ fs, short p.1) →
    GoodF lib a w r fs vs
  | _, _, .nil, _ => goodF_nil
  | _, _, .cons hv hl, hs => goodF_cons hf (hs _ List.mem_cons_self) (good hf hv)
      (goodF hf hl fun p hp => hs p (List.mem_cons_of_mem _ hp))

theorem goodU (hf : Fit a w r) : {fs : List (Bytes × Ty)} → {vs : List GV} → TypedU w a fs vs → (∀ p ∈ fs, short p.1) →
    GoodU lib a w r fs vs
  | _, _, .here hv hn, hs => goodU_here hf (hs _ List.mem_cons_self) hn (good hf hv)
  | _, _, .there h, hs => goodU_there (goodU hf h fun p hp => hs p (List.mem_cons_of_mem _ hp))
end

end Iota.Lemmas.Codegen
