import Verif.Spec.Invoke
import Verif.Props.CodegenDup

/-!
# C182: calling an operation with JSON arguments
-/

namespace Iota.Props.Invoke
open Iota.Go Iota.Msgpack Iota.Codegen Iota.Spec.Msgpack Iota.Spec.Codegen Iota.Lemmas.Msgpack Iota.Lemmas.Codegen Iota.Invoke
open Iota.Spec.Invoke Iota.Props.Codegen Iota.Props.CodegenDup

variable {env : Env} {lib : Lib}

/-! ## Heads -/

theorem strHead_is {n : Nat} {hd : Bytes} (h : StrHead n hd) (hl : hd.length = Size.strLen n) : hd = strHead n := by
  unfold Size.strLen at hl
  unfold strHead
  cases h with
  | fix h => rw [if_pos h]
  | len hj h =>
    rename_i j
    have hj' : j = 0 ∨ j = 1 ∨ j = 2 := by omega
    rcases hj' with rfl | rfl | rfl <;> simp [num] at h hl ⊢ <;> (repeat' split at hl) <;> simp at hl <;>
      (repeat' split) <;> first | omega | rfl

theorem arrHead_is {n : Nat} {hd : Bytes} (h : ArrHead n hd) (hl : hd.length = Size.arraySize n) : hd = arrHead n := by
  unfold Size.arraySize at hl
  unfold arrHead
  cases h <;> simp at hl ⊢ <;> (repeat' split at hl) <;> simp at hl <;> (repeat' split) <;> first | omega | rfl

theorem mapHead_is {n : Nat} {hd : Bytes} (h : MapHead n hd) (hl : hd.length = Size.mapSize n) : hd = mapHead n := by
  unfold Size.mapSize at hl
  unfold mapHead
  cases h <;> simp at hl ⊢ <;> (repeat' split at hl) <;> simp at hl <;> (repeat' split) <;> first | omega | rfl

theorem str_head {n : Nat} (h : n < 2 ^ 32) : StrHead n (strHead n) ∧ Reads Dec.strLen (strHead n) n := by
  obtain ⟨hd, _, h2, h3, h4⟩ := strLen_enc n h
  exact strHead_is h3 h2 ▸ ⟨h3, h4⟩

theorem arr_head {n : Nat} (h : n < 2 ^ 32) : ArrHead n (arrHead n) ∧ Reads Dec.arraySize (arrHead n) n := by
  obtain ⟨hd, _, h2, h3, h4⟩ := arraySize_enc n h
  exact arrHead_is h3 h2 ▸ ⟨h3, h4⟩

theorem map_head {n : Nat} (h : n < 2 ^ 32) : MapHead n (mapHead n) ∧ Reads Dec.mapSize (mapHead n) n := by
  obtain ⟨hd, _, h2, h3, h4⟩ := mapSize_enc n h
  exact mapHead_is h3 h2 ▸ ⟨h3, h4⟩

theorem str_reads {s : Bytes} (h : s.length < 2 ^ 32) : Reads Dec.str (strHead s.length ++ s) s := by
  obtain ⟨bs, _, h2, h3, h4⟩ := str_enc s h
  cases h3 FixHead with
  | str hh =>
    have hm : s.length % U32 = s.length := Nat.mod_eq_of_lt (by unfold U32; omega)
    rw [strHead_is hh (by simp only [Size.str, hm, List.length_append] at h2; omega)] at h4
    exact h4

theorem heads_pos (n : Nat) : 1 ≤ (strHead n).length ∧ 1 ≤ (arrHead n).length ∧ 1 ≤ (mapHead n).length := by
  unfold strHead arrHead mapHead
  refine ⟨?_, ?_, ?_⟩ <;> (repeat' split) <;> simp

/-! ## Every JSON value can be skipped -/

mutual
/-- What is written for a value. -/
def val : J → Val
  | .null => .nil
  | .bool b => .bool b
  | .num b => .f64 b.toNat
  | .str s => .str s
  | .arr l => .arr (vals l)
  | .obj l => .map (pairs l)

def vals : List J → List Val
  | [] => []
  | j :: l => val j :: vals l

def pairs : List (Bytes × J) → List (Val × Val)
  | [] => []
  | (k, j) :: l => (.str k, val j) :: pairs l
end

theorem vals_length : (l : List J) → (vals l).length = l.length
  | [] => rfl
  | _ :: l => by simp [vals, vals_length l]

theorem pairs_length : (l : List (Bytes × J)) → (pairs l).length = l.length
  | [] => rfl
  | (_, _) :: l => by simp [pairs, pairs_length l]

theorem marshal_pos (j : J) : 1 ≤ (marshal j).length := by
  cases j with
  | bool b => cases b <;> simp [marshal]
  | str s => have := (heads_pos s.length).1; simp [marshal]; omega
  | arr l => have := (heads_pos l.length).2.1; simp [marshal]; omega
  | obj l => have := (heads_pos l.length).2.2; simp [marshal]; omega
  | _ => simp [marshal]

theorem marshalL_length : (l : List J) → l.length ≤ (marshalL l).length
  | [] => by simp
  | j :: l => by
    have := marshalL_length l
    have := marshal_pos j
    simp [marshalL]
    omega

theorem marshalM_length : (l : List (Bytes × J)) → l.length ≤ (marshalM l).length
  | [] => by simp
  | (_, j) :: l => by
    have := marshalM_length l
    have := marshal_pos j
    simp [marshalM]
    omega

mutual
theorem wire : (j : J) → (marshal j).length < 2 ^ 32 → Wire FixHead (val j) (marshal j)
  | .null, _ => .nil
  | .bool true, _ => .true
  | .bool false, _ => .false
  | .num b, _ => by simp only [val, marshal]; exact .f64 b.toNat_lt
  | .str s, h => by
    simp only [marshal, List.length_append] at h
    simp only [val, marshal]
    exact .str (str_head (by omega)).1
  | .arr l, h => by
    have := marshalL_length l
    simp only [marshal, List.length_append] at h
    simp only [val, marshal]
    exact .arr (by rw [vals_length]; exact (arr_head (by omega)).1) (wireL l (by omega))
  | .obj l, h => by
    have := marshalM_length l
    simp only [marshal, List.length_append] at h
    simp only [val, marshal]
    exact .map (by rw [pairs_length]; exact (map_head (by omega)).1) (wireM l (by omega))

theorem wireL : (l : List J) → (marshalL l).length < 2 ^ 32 → Wires FixHead (vals l) (marshalL l)
  | [], _ => .nil
  | j :: l, h => by
    simp only [marshalL, List.length_append] at h
    simp only [vals, marshalL]
    exact .cons (wire j (by omega)) (wireL l (by omega))

theorem wireM : (l : List (Bytes × J)) → (marshalM l).length < 2 ^ 32 → WirePairs FixHead (pairs l) (marshalM l)
  | [], _ => .nil
  | (k, j) :: l, h => by
    simp only [marshalM, List.length_append] at h
    simp only [pairs, marshalM]
    exact .cons (.str (str_head (by omega)).1) (wire j (by omega)) (wireM l (by omega))
end

theorem fixHead_notNil (n : Nat) (h : Bytes) (hh : FixHead n h) : NotNil h := by
  cases hh with
  | fix hj =>
    rename_i j
    have : j = 1 ∨ j = 2 ∨ j = 3 ∨ j = 4 := by omega
    rcases this with rfl | rfl | rfl | rfl <;> exact ⟨_, _, rfl, by decide⟩

theorem notNil {j : J} (h : (marshal j).length < 2 ^ 32) (hj : j ≠ .null) : NotNil (marshal j) := by
  refine wire_notNil fixHead_notNil (wire j h) ?_
  cases j <;> simp [val] at hj ⊢

theorem skips {j : J} (h : (marshal j).length < 2 ^ 32) : RR False Dec.skip (marshal j) () :=
  RR.skip (skip_reads (wire j h)) id

/-! ## Reading -/

/-- The value is read, whether or not it is optional. -/
def ReadsAs (env : Env) (lib : Lib) (t : Ty) (j : J) (v : GV) : Prop :=
  ∀ b old, (b = false → old = zero env env.length t) → RR False (fun f => readTy env lib f t b old) (marshal j) v

theorem reads_prim {p : Prim} {j : J} {s : Sc} (h : Reads (readPrim lib p) (marshal j) s) (hn : NotNil (marshal j)) :
    ReadsAs env lib (.prim p) j (.sc s) := by
  intro b old _
  cases b with
  | false =>
    exact RR.succ (RR.lift (h.map (f := GV.sc)) (loc_map _ (loc_prim lib p))) fun f => by simp [readTy]
  | true =>
    exact RR.succ (RR.lift ((nillable_some h hn).map (f := ptr)) (loc_map _ (loc_nillable (loc_prim lib p)))) fun f => by simp [readTy]

theorem stands_prim {p : Prim} {j : J} {v : GV} (h : Stands env (.prim p) j v) (hb : (marshal j).length < 2 ^ 32) :
    ∃ s, v = .sc s ∧ Reads (readPrim lib p) (marshal j) s ∧ NotNil (marshal j) := by
  cases h with
  | str =>
    rename_i s
    refine ⟨.str s, rfl, ?_, notNil hb (by simp)⟩
    simp only [marshal, List.length_append] at hb ⊢
    exact (str_reads (by omega)).map
  | bool =>
    rename_i b
    refine ⟨.bool b, rfl, ?_, notNil hb (by simp)⟩
    cases b with
    | true => exact (show Reads Dec.bool [0xc3] true from reads_head1 rfl).map
    | false => exact (show Reads Dec.bool [0xc2] false from reads_head1 rfl).map
  | f64 =>
    rename_i n
    refine ⟨.f64 n.toNat, rfl, ?_, notNil hb (by simp)⟩
    simp only [marshal]
    exact (show Reads Dec.f64 (0xcb :: beBytes 8 n.toNat) n.toNat from
      reads_head (f := fun p => _) (reads_getU_be 8 _ (by have := n.toNat_lt; simpa using this))).map

theorem reads_cast {p : Prim} {j : J} {s : Sc} (h : Reads (readPrim lib p) (marshal j) s) (hn : NotNil (marshal j)) :
    ReadsAs env lib (.cast p) j (.sc s) := by
  intro b old _
  cases b with
  | false =>
    exact RR.succ (RR.lift (h.map (f := GV.sc)) (loc_map _ (loc_prim lib p))) fun f => by simp [readTy]
  | true =>
    exact RR.succ (RR.lift' (castNillable_reads h hn) (castNillable_short h hn)) fun f => by simp [readTy]

theorem reads_named (hw : WellFormed env) {n : Nat} {j : J} {x : GV} (hn : NotNil (marshal j))
    (h : RR False (fun f => decode env lib f (env.get n).fields (zeros env (env.get n).fields)) (marshal j) x) :
    ReadsAs env lib (.named n) j x := by
  intro b old ho
  cases b with
  | false =>
    rw [ho rfl]
    refine RR.succ h ?_
    intro f
    have hz := fieldsOf_zero hw n
    simp only [readTy]
    cases hd : env.get n with
    | struct fs =>
      rw [hd] at hz
      simp only [Def.fields] at hz ⊢
      rw [hz]
    | union fs => simp [Def.fields]
  | true =>
    obtain ⟨f0, hf⟩ := h
    obtain ⟨c, cs, he, hc⟩ := hn
    rw [he] at hf ⊢
    refine RR.succ (r' := fun f => thn (lift Dec.isNextNil) fun b =>
      if b then done .null else decode env lib f (env.get n).fields (zeros env (env.get n).fields)) ?_ ?_
    · refine ⟨f0, fun f hle => ⟨fun pre rest hlt => ?_, fun hK => hK.elim⟩⟩
      simp only [thn, Iota.Codegen.lift, isNextNil_false pre c cs rest hc hlt]
      simp only [Bool.false_eq_true, if_false]
      exact (hf f hle).1 pre rest hlt
    · intro f; simp [readTy]

theorem reads_null {t : Ty} (h : Pointer t) : ReadsAs env lib (.opt t) .null .null := by
  intro b old _
  refine RR.succ (r' := fun f => readTy env lib f t true old) ?_ (fun f => by simp [readTy])
  cases t with
  | prim p =>
    exact RR.succ (RR.lift ((nillable_none (readPrim lib p)).map (f := ptr)) (loc_map _ (loc_nillable (loc_prim lib p)))) fun f => by
      simp [readTy]
  | named n =>
    refine RR.succ (r' := fun f => thn (lift Dec.isNextNil) fun b =>
      if b then done .null else decode env lib f (env.get n).fields (zeros env (env.get n).fields)) ?_ (fun f => by simp [readTy])
    have := RR.thn (K := False) (RR.lift nil_enc.2 loc_isNextNil) (g := fun f b =>
      if b then done GV.null else decode env lib f (env.get n).fields (zeros env (env.get n).fields)) (RR.done GV.null)
    simpa [marshal] using this
  | _ => exact absurd h (by simp [Pointer])

theorem marshalM_mem {args : List (Bytes × J)} {s : Bytes} {j : J} (h : (s, j) ∈ args) : (marshal j).length ≤ (marshalM args).length := by
  induction args with
  | nil => simp at h
  | cons p args ih =>
    obtain ⟨s', j'⟩ := p
    simp only [marshalM, List.length_append]
    rcases List.mem_cons.mp h with h | h
    · cases h
      omega
    · have := ih h
      omega

theorem nodup_value {args : List (Bytes × J)} (hn : (args.map (·.1)).Nodup) {s : Bytes} {j j' : J} (h : (s, j) ∈ args) (h' : (s, j') ∈ args) :
    j = j' := by
  induction args with
  | nil => simp at h
  | cons p args ih =>
    simp only [List.map_cons, List.nodup_cons] at hn
    rcases List.mem_cons.mp h with e | h
    · rcases List.mem_cons.mp h' with e' | h'
      · rw [← e] at e'
        cases e'
        rfl
      · rw [← e] at hn
        exact absurd (List.mem_map_of_mem (f := (·.1)) h') hn.1
    · rcases List.mem_cons.mp h' with e' | h'
      · rw [← e'] at hn
        exact absurd (List.mem_map_of_mem (f := (·.1)) h) hn.1
      · exact ih hn.2 h h'

/-- The loop over the entries of an object: `cur` are the values so far, `rest` the entries to come. -/
theorem reads_fields {fs : List (Bytes × Ty)} (hd : (names fs).Nodup) {vs : List GV} (hlen : vs.length = fs.length) (rest : List (Bytes × J))
    (hb : (marshalM rest).length < 2 ^ 32) (hn : (rest.map (·.1)).Nodup)
    (hg : ∀ (i : Nat) (s : Bytes) (t : Ty) (j : J), fs[i]? = some (s, t) → (s, j) ∈ rest → ∃ v, vs[i]? = some v ∧ ReadsAs env lib t j v) :
    ∀ cur, cur.length = fs.length →
      (∀ (i : Nat) (s : Bytes) (t : Ty), fs[i]? = some (s, t) → s ∈ rest.map (·.1) → cur[i]? = some (zero env env.length t)) →
      (∀ (i : Nat) (s : Bytes) (t : Ty), fs[i]? = some (s, t) → s ∉ rest.map (·.1) → cur[i]? = vs[i]?) →
      RR False (fun f => readFields env lib f fs rest.length cur) (marshalM rest) (.obj vs) := by
  induction rest with
  | nil =>
    intro cur hc _ h2
    have he : cur = vs := by
      apply List.ext_getElem?
      intro i
      by_cases hi : i < fs.length
      · exact h2 i fs[i].1 fs[i].2 (by simp [hi]) (by simp)
      · rw [List.getElem?_eq_none (by omega), List.getElem?_eq_none (by omega)]
    subst he
    exact (RR.done (GV.obj cur)).succ (fun f => by simp [readFields])
  | cons p rest ih =>
    obtain ⟨s, j⟩ := p
    intro cur hc h1 h2
    simp only [marshalM, List.length_append] at hb
    simp only [List.map_cons, List.nodup_cons] at hn
    have hs := str_reads (s := s) (by omega)
    have ih' := ih (by omega) hn.2 (fun i s' t j' hi hm => hg i s' t j' hi (by simp [hm]))
    simp only [marshalM]
    refine RR.succ (RR.thn (RR.lift hs loc_str) (g := fun f name => match find fs name with
      | none => thn (Dec.skip f) fun _ => readFields env lib f fs rest.length cur
      | some (i, t) =>
        thn (readTy env lib f t false (cur[i]?.getD .null)) fun v =>
          readFields env lib f fs rest.length (cur.set i v)) ?_) (fun f => by simp only [readFields, List.length_cons]; rfl)
    cases hf : find fs s with
    | none =>
      simp only
      refine RR.thn (skips (by omega)) (g := fun f _ => readFields env lib f fs rest.length cur) (ih' cur hc ?_ ?_)
      · intro i s' t hi hm
        exact h1 i s' t hi (by simp [hm])
      · intro i s' t hi hm
        refine h2 i s' t hi ?_
        simp only [List.map_cons, List.mem_cons, not_or]
        refine ⟨?_, hm⟩
        rintro rfl
        obtain ⟨k, hk⟩ := find_of_mem (List.mem_of_getElem? hi) hd
        rw [hf] at hk
        cases hk
    | some q =>
      obtain ⟨i, t⟩ := q
      simp only
      have hi := find_some hf
      obtain ⟨v, hv, hr⟩ := hg i s t j hi (by simp)
      have hz := h1 i s t hi (by simp)
      rw [hz]
      simp only [Option.getD_some]
      have hlt : i < cur.length := by
        rcases Nat.lt_or_ge i cur.length with h | h
        · exact h
        · rw [List.getElem?_eq_none h] at hz; cases hz
      have hne : ∀ (k : Nat) (s' : Bytes) (t' : Ty), fs[k]? = some (s', t') → s' ≠ s → i ≠ k := by
        rintro k s' t' hk hne rfl
        rw [hi] at hk
        simp at hk
        exact hne hk.1.symm
      refine RR.thn (hr false _ (fun _ => rfl)) (g := fun f v => readFields env lib f fs rest.length (cur.set i v)) (ih' _ (by simp [hc]) ?_ ?_)
      · intro k s' t' hk hm
        have : s' ≠ s := by rintro rfl; exact hn.1 hm
        rw [List.getElem?_set_ne (hne k s' t' hk this)]
        exact h1 k s' t' hk (by simp [hm])
      · intro k s' t' hk hm
        by_cases he : s' = s
        · subst he
          have hik : k = i := by
            have hn1 : (names fs)[k]? = some s' := by simp [names, hk]
            have hn2 : (names fs)[i]? = some s' := by simp [names, hi]
            exact (List.getElem?_inj (by simpa [names] using (by omega : i < fs.length)) hd).mp (hn2.trans hn1.symm) |>.symm
          subst hik
          rw [List.getElem?_set_self hlt, hv]
        · rw [List.getElem?_set_ne (hne k s' t' hk he)]
          exact h2 k s' t' hk (by simp [he, hm])

mutual
theorem stands_reads (hw : WellFormed env) : {t : Ty} → {j : J} → {v : GV} → Stands env t j v → (marshal j).length < 2 ^ 32 →
    ReadsAs env lib t j v
  | _, _, _, .str, hb => by
    obtain ⟨s, e, h1, h2⟩ := stands_prim (lib := lib) (env := env) .str hb
    rw [e]
    exact reads_prim h1 h2
  | _, _, _, .bool, hb => by
    obtain ⟨s, e, h1, h2⟩ := stands_prim (lib := lib) (env := env) .bool hb
    rw [e]
    exact reads_prim h1 h2
  | _, _, _, .f64, hb => by
    obtain ⟨s, e, h1, h2⟩ := stands_prim (lib := lib) (env := env) .f64 hb
    rw [e]
    exact reads_prim h1 h2
  | _, _, _, .cast h, hb => by
    obtain ⟨s, e, h1, h2⟩ := stands_prim (lib := lib) h hb
    rw [e]
    exact reads_cast h1 h2
  | _, _, _, .list (t := t) (l := l) h, hb => by
    have := marshalL_length l
    simp only [marshal, List.length_append] at hb
    intro b old _
    simp only [marshal]
    refine RR.succ (RR.thn (RR.lift (arr_head (by omega)).2 loc_arraySize) (g := fun f n => readList env lib f t n [])
      (standsL_reads hw h (by omega) [])) ?_
    intro f; cases b <;> simp [readTy]
  | _, _, _, .map (t := t) (l := l) hn h, hb => by
    have := marshalM_length l
    simp only [marshal, List.length_append] at hb
    intro b old _
    simp only [marshal]
    refine RR.succ (RR.thn (RR.lift (map_head (by omega)).2 loc_mapSize) (g := fun f n => readMap env lib f .str t n [])
      (standsM_reads hw h (by omega) hn [] (by simp))) ?_
    intro f; cases b <;> simp [readTy]
  | _, _, _, .fields (n := n) (args := args) (vs := vs) hn h, hb => by
    refine reads_named hw (notNil hb (by simp)) ?_
    have := marshalM_length args
    simp only [marshal, List.length_append] at hb ⊢
    refine RR.succ (RR.thn (RR.lift (map_head (by omega)).2 loc_mapSize)
      (g := fun f m => readFields env lib f (env.get n).fields m (zeros env (env.get n).fields)) ?_) (fun f => by simp [decode])
    obtain ⟨h0, h1, h2⟩ := standsF_reads hw h (by omega)
    refine reads_fields (hw.nodup n) h0 args (by omega) hn ?_ _ (by simp [zeros]) ?_ ?_
    · intro i s t j hi hm
      exact h1 hn i s t j hi hm
    · intro i s t hi _
      simp [zeros, hi]
    · intro i s t hi hm
      rw [h2 i s t hi hm]
      simp [zeros, hi]
  | _, _, _, .none h, _ => reads_null h
  | _, _, _, .some (t := t) ht h, hb => by
    intro b old _
    refine RR.succ (r' := fun f => readTy env lib f t true old) ?_ (fun f => by simp [readTy])
    exact stands_reads hw h hb true old (by simp)

theorem standsL_reads (hw : WellFormed env) : {t : Ty} → {l : List J} → {vs : List GV} → StandsL env t l vs → (marshalL l).length < 2 ^ 32 →
    ∀ acc, RR False (fun f => readList env lib f t l.length acc) (marshalL l) (.list (acc ++ vs))
  | _, _, _, .nil, _ => fun acc => (RR.done (GV.list acc)).succ (fun f => by simp [readList]) |>.cast rfl (by simp)
  | t, _, _, .cons (l := l) (vs := vs) (v := v) hv hl, hb => fun acc => by
    simp only [marshalL, List.length_append] at hb
    refine RR.cast (RR.succ (RR.thn (stands_reads hw hv (by omega) false _ (fun _ => rfl))
      (g := fun f v => readList env lib f t l.length (acc ++ [v])) (standsL_reads hw hl (by omega) (acc ++ [v]))) ?_) ?_ ?_
    · intro f; simp [readList]
    · simp [marshalL]
    · simp

theorem standsM_reads (hw : WellFormed env) : {t : Ty} → {l : List (Bytes × J)} → {m : List (Sc × GV)} → StandsM env t l m →
    (marshalM l).length < 2 ^ 32 → (l.map (·.1)).Nodup → ∀ acc : List (Sc × GV), (∀ k ∈ l.map (·.1), Sc.str k ∉ acc.map (·.1)) →
    RR False (fun f => readMap env lib f .str t l.length acc) (marshalM l) (.map (acc ++ m))
  | _, _, _, .nil, _ => fun _ acc _ => (RR.done (GV.map acc)).succ (fun f => by simp [readMap]) |>.cast rfl (by simp)
  | t, _, _, .cons (l := l) (m := m) (k := k) (v := v) hv hl, hb => fun hn acc hacc => by
    simp only [marshalM, List.length_append] at hb
    simp only [List.map_cons, List.nodup_cons] at hn
    have hs : Sc.str k ∉ acc.map (·.1) := hacc k (by simp)
    have hy := standsM_reads hw hl (by omega) hn.2 (acc ++ [(.str k, v)]) (by
      intro k' hk'
      simp only [List.map_append, List.map_cons, List.map_nil, List.mem_append, List.mem_singleton, not_or]
      refine ⟨hacc k' (by simp [hk']), fun e => ?_⟩
      cases e
      exact hn.1 hk')
    rw [← mapSet_new v hs] at hy
    refine RR.cast (RR.succ (RR.thn (RR.lift (show Reads (readPrim lib .str) _ (Sc.str k) from (str_reads (s := k) (by omega)).map) (loc_prim lib .str))
      (g := fun f key => thn (readTy env lib f t false (zero env env.length t)) fun v => readMap env lib f .str t l.length (mapSet acc key v))
      (RR.thn (stands_reads hw hv (by omega) false _ (fun _ => rfl)) (g := fun f v => readMap env lib f .str t l.length (mapSet acc (.str k) v)) hy)) ?_) ?_ ?_
    · intro f; simp [readMap]
    · simp [marshalM]
    · simp [mapSet_new _ hs]

theorem standsF_reads (hw : WellFormed env) : {args : List (Bytes × J)} → {fs : List (Bytes × Ty)} → {vs : List GV} → StandsF env args fs vs →
    (marshalM args).length < 2 ^ 32 → vs.length = fs.length ∧
      ((args.map (·.1)).Nodup → ∀ (i : Nat) (s : Bytes) (t : Ty) (j : J), fs[i]? = some (s, t) → (s, j) ∈ args → ∃ v, vs[i]? = some v ∧ ReadsAs env lib t j v) ∧
      (∀ (i : Nat) (s : Bytes) (t : Ty), fs[i]? = some (s, t) → s ∉ args.map (·.1) → vs[i]? = some (zero env env.length t))
  | _, _, _, .nil, _ => ⟨rfl, by simp, by simp⟩
  | args, _, _, .given (s := s) (t := t) (j := j) hs hv h, hb => by
    obtain ⟨h0, h1, h2⟩ := standsF_reads hw h hb
    have hj : ReadsAs env lib t j _ := stands_reads hw hv (by have := marshalM_mem hs; omega)
    refine ⟨by simp [h0], fun hn i s' t' j' hi hm => ?_, fun i s' t' hi hm => ?_⟩
    · cases i with
      | zero =>
        simp at hi
        obtain ⟨rfl, rfl⟩ := hi
        rw [nodup_value hn hm hs]
        exact ⟨_, rfl, hj⟩
      | succ i => exact h1 hn i s' t' j' (by simpa using hi) hm
    · cases i with
      | zero =>
        simp at hi
        obtain ⟨rfl, rfl⟩ := hi
        exact absurd (List.mem_map_of_mem (f := (·.1)) hs) hm
      | succ i => exact h2 i s' t' (by simpa using hi) hm
  | args, _, _, .absent (s := s) (t := t) hs h, hb => by
    obtain ⟨h0, h1, h2⟩ := standsF_reads hw h hb
    refine ⟨by simp [h0], fun hn i s' t' j' hi hm => ?_, fun i s' t' hi hm => ?_⟩
    · cases i with
      | zero =>
        simp at hi
        obtain ⟨rfl, rfl⟩ := hi
        exact absurd (List.mem_map_of_mem (f := (·.1)) hm) hs
      | succ i => exact h1 hn i s' t' j' (by simpa using hi) hm
    · cases i with
      | zero =>
        simp at hi
        obtain ⟨rfl, rfl⟩ := hi
        rfl
      | succ i => exact h2 i s' t' (by simpa using hi) hm
end

/-! ## The command -/

theorem decoded (lib : Lib) (hw : WellFormed env) {n : Nat} {j : J} {v : GV} (h : Stands env (.named n) j v)
    (hb : (marshal j).length < 2 ^ 32) : ∃ f0, ∀ f, f0 ≤ f → fromBytes env lib f n (marshal j) = some (.ok v) := by
  obtain ⟨f0, hf⟩ := stands_reads (lib := lib) hw h hb false _ (fun _ => rfl)
  refine ⟨f0, fun f hle => ?_⟩
  have := (hf f hle).1 [] [] (by simpa using hb)
  simp only [List.nil_append, List.append_nil, List.length_nil] at this
  unfold fromBytes D.new
  rw [this]
  rfl

/-- **C182**, part of the claim: an operation of the mesh is called with the values for which the JSON input stands, whatever
order the keys of its objects have and whether or not there are others, and what it returns is printed. Missing:
arguments that are numbers of other types, see `integers_refuted`, bytes, times, optional enums that are null, and how
failures are reported, see `unknown_reported_refuted` and `failure_reported_refuted`. -/
theorem invoke_runs_partial (lib : Lib) (hw : WellFormed env) {n : Nat} {j : J} {v : GV} (h : Stands env (.named n) j v)
    (hb : (marshal j).length < 2 ^ 32) : ∃ f0, ∀ f, f0 ≤ f →
      ∀ (handler : GV → Res Bytes) (unmarshal : Bytes → Option J) (exports : Exports) (ns op out : Bytes) (r : J),
        exports ns op = some (serve env lib f n handler) → handler v = .ok out → unmarshal out = some r →
          run unmarshal (.ok exports) (some j) ns op = .printed r := by
  obtain ⟨f0, hf⟩ := decoded lib hw h hb
  refine ⟨f0, fun f hle handler unmarshal exports ns op out r h1 h2 h3 => ?_⟩
  simp [run, call, h1, serve, hf f hle, h2, h3]

/-- The arguments of an operation: a name, a list of numbers, another struct and an optional flag. -/
def greet : Env := [.struct [([110], .prim .str), ([108], .list (.prim .f64)), ([105], .named 1), ([102], .opt (.prim .bool))],
  .struct [([120], .prim .bool), ([121], .prim .str)]]

/-- The hypotheses are met by an object with its keys in another order, one that is unknown, and one missing in the inner
object: `{"i": {"x": true}, "z": null, "f": null, "l": [0], "n": "a"}`. -/
example : Stands greet (.named 0)
    (.obj [([105], .obj [([120], .bool true)]), ([122], .null), ([102], .null), ([108], .arr [.num 0]), ([110], .str [97])])
    (.obj [.sc (.str [97]), .list [.sc (.f64 0)], .obj [.sc (.bool true), .sc (.str [])], .null]) := by
  refine .fields (by decide) (.given (j := .str [97]) (by simp) .str (.given (j := .arr [.num 0]) (by simp) (.list (.cons .f64 .nil))
    (.given (j := .obj [([120], .bool true)]) (by simp) (.fields (by decide) ?_) (.given (j := .null) (by simp) (.none trivial) .nil))))
  exact .given (j := .bool true) (by simp) .bool (.absent (t := .prim .str) (by decide) .nil)

theorem greet_wf : WellFormed greet := by
  have hg : ∀ n, greet.get n = .struct [([110], .prim .str), ([108], .list (.prim .f64)), ([105], .named 1), ([102], .opt (.prim .bool))] ∧ n = 0 ∨
      greet.get n = .struct [([120], .prim .bool), ([121], .prim .str)] ∧ n = 1 ∨ greet.get n = .struct [] ∧ 2 ≤ n := by
    intro n
    rcases n with _ | _ | n
    · exact Or.inl ⟨rfl, rfl⟩
    · exact Or.inr (Or.inl ⟨rfl, rfl⟩)
    · exact Or.inr (Or.inr ⟨rfl, by omega⟩)
  refine ⟨fun n => ?_, fun n => ?_, fun n => ?_, fun n fs h => ?_, ⟨fun n => 1 - n, fun n h => ?_, fun n s m h => ?_⟩⟩
  · rcases hg n with ⟨h, _⟩ | ⟨h, _⟩ | ⟨h, _⟩ <;> rw [h] <;> decide
  · rcases hg n with ⟨h, _⟩ | ⟨h, _⟩ | ⟨h, _⟩ <;> rw [h] <;> simp [Def.fields, short]
  · rcases hg n with ⟨h, _⟩ | ⟨h, _⟩ | ⟨h, _⟩ <;> rw [h] <;> simp [Def.fields, names, short]
  · rcases hg n with ⟨h', _⟩ | ⟨h', _⟩ | ⟨h', _⟩ <;> rw [h'] at h <;> cases h
  · simp [greet]; omega
  · rcases hg n with ⟨h', hn⟩ | ⟨h', _⟩ | ⟨h', _⟩ <;> rw [h'] at h <;> simp [Def.fields] at h
    obtain ⟨_, rfl⟩ := h
    subst hn
    decide

/-- What is printed is an answer of the operation that was named, to a request with the MessagePack of the input. -/
theorem invoke_prints {unmarshal : Bytes → Option J} {loaded : Res Exports} {stdin : Option J} {ns op : Bytes} {r : J}
    (h : run unmarshal loaded stdin ns op = .printed r) :
    ∃ exports j g out, loaded = .ok exports ∧ stdin = some j ∧ exports ns op = some g ∧ g (marshal j) = .ok out ∧ unmarshal out = some r := by
  unfold run at h
  split at h
  · cases h
  · cases h
  · rename_i exports
    split at h
    · cases h
    · rename_i j
      unfold call at h
      split at h
      · cases h
      · rename_i g hg
        split at h
        · rename_i out ho
          split at h
          · rename_i j' hj
            cases h
            exact ⟨exports, j, g, out, rfl, rfl, hg, ho, hj⟩
          · cases h
        · cases h
        · cases h

/-- **C182**, failures, part of the claim: modules that cannot be loaded, input that is not JSON and a response that is not
MessagePack are reported. -/
theorem input_reported_partial (unmarshal : Bytes → Option J) (ns op : Bytes) :
    (∀ e stdin, Reported (run unmarshal (.err e) stdin ns op)) ∧
    (∀ exports, Reported (run unmarshal (.ok exports) none ns op)) ∧
    (∀ exports j g out, exports ns op = some g → g (marshal j) = .ok out → unmarshal out = none →
      Reported (run unmarshal (.ok exports) (some j) ns op)) :=
  ⟨fun _ _ => trivial, fun _ => trivial, fun exports j g out h1 h2 h3 => by simp [run, call, h1, h2, h3, Reported]⟩

/-- **C182** is false of the code for an operation that no module has: the command crashes, whatever the input. -/
theorem unknown_reported_refuted (unmarshal : Bytes → Option J) (exports : Exports) (ns op : Bytes) (h : exports ns op = none) (j : J) :
    run unmarshal (.ok exports) (some j) ns op = .crashed ∧ ¬Reported (run unmarshal (.ok exports) (some j) ns op) := by
  simp [run, call, h, Reported]

/-- **C182** is false of the code for an operation that fails: the command crashes. -/
theorem failure_reported_refuted (lib : Lib) (hw : WellFormed env) {n : Nat} {j : J} {v : GV} (h : Stands env (.named n) j v)
    (hb : (marshal j).length < 2 ^ 32) : ∃ f0, ∀ f, f0 ≤ f →
      ∀ (handler : GV → Res Bytes) (unmarshal : Bytes → Option J) (exports : Exports) (ns op : Bytes) (e : String),
        exports ns op = some (serve env lib f n handler) → handler v = .err e →
          run unmarshal (.ok exports) (some j) ns op = .crashed ∧ ¬Reported (run unmarshal (.ok exports) (some j) ns op) := by
  obtain ⟨f0, hf⟩ := decoded lib hw h hb
  refine ⟨f0, fun f hle handler unmarshal exports ns op e h1 h2 => ?_⟩
  simp [run, call, h1, serve, hf f hle, h2, Reported]

/-- The types of integers. -/
def Integer : Prim → Prop
  | .i8 | .u8 | .i16 | .u16 | .i32 | .u32 | .i64 | .u64 => True
  | _ => False

theorem integer_fails (lib : Lib) {p : Prim} (h : Integer p) (pre cs : Bytes) (hb : (pre ++ 0xcb :: cs).length < 2 ^ 32) :
    ∃ e d, readPrim lib p ⟨pre ++ 0xcb :: cs, pre.length, false⟩ = (.err e, d) := by
  have hg := reads_byte 0xcb pre cs (by simpa using hb)
  simp only [List.append_assoc, List.singleton_append] at hg
  have h1 : ∃ e d, Dec.int64 ⟨pre ++ 0xcb :: cs, pre.length, false⟩ = (.err e, d) := by
    unfold Dec.int64
    rw [rd_bind_ok hg]
    exact ⟨_, _, rfl⟩
  have h2 : ∃ e d, Dec.uint64 ⟨pre ++ 0xcb :: cs, pre.length, false⟩ = (.err e, d) := by
    unfold Dec.uint64
    rw [rd_bind_ok hg]
    exact ⟨_, _, rfl⟩
  obtain ⟨e1, d1, h1⟩ := h1
  obtain ⟨e2, d2, h2⟩ := h2
  cases p <;> first
    | exact absurd h id
    | (refine ⟨e1, d1, ?_⟩; simp only [readPrim, rd_map, Dec.intK, rd_bind_err h1, h1]; done)
    | (refine ⟨e2, d2, ?_⟩; simp only [readPrim, rd_map, Dec.uintK, rd_bind_err h2, h2]; done)

theorem integer_refused (lib : Lib) (hw : WellFormed env) {n : Nat} {s : Bytes} {p : Prim} (hp : Integer p) (hs : (s, .prim p) ∈ (env.get n).fields)
    (b : UInt64) (rest : List (Bytes × J)) (hb : (marshal (.obj ((s, .num b) :: rest))).length < 2 ^ 32) (f : Nat) (v : GV) :
    fromBytes env lib f n (marshal (.obj ((s, .num b) :: rest))) ≠ some (.ok v) := by
  have hm := marshalM_length rest
  simp only [marshal, marshalM, List.length_append, List.length_cons] at hb
  obtain ⟨i, hi⟩ := find_of_mem hs (hw.nodup n)
  have r1 := (map_head (n := rest.length + 1) (by omega)).2 [] (strHead s.length ++ s ++ (0xcb :: beBytes 8 b.toNat ++ marshalM rest))
    (by simp only [List.length_append, List.length_cons, List.length_nil]; omega)
  have r2 := str_reads (s := s) (by omega) (mapHead (rest.length + 1)) (0xcb :: beBytes 8 b.toNat ++ marshalM rest)
    (by simp only [List.length_append, List.length_cons]; omega)
  obtain ⟨e, d, r3⟩ := integer_fails lib hp (mapHead (rest.length + 1) ++ (strHead s.length ++ s)) (beBytes 8 b.toNat ++ marshalM rest)
    (by simp only [List.length_append, List.length_cons]; omega)
  have hbs : marshal (.obj ((s, .num b) :: rest)) = mapHead (rest.length + 1) ++ (strHead s.length ++ s) ++ (0xcb :: (beBytes 8 b.toNat ++ marshalM rest)) := by
    simp [marshal, marshalM]
  simp only [List.nil_append, List.length_nil, Nat.zero_add] at r1
  have hlen : (mapHead (rest.length + 1) ++ (strHead s.length ++ s)).length = (mapHead (rest.length + 1)).length + (strHead s.length ++ s).length := by
    simp
  rw [hlen] at r3
  rw [hbs]
  simp only [← List.append_assoc, List.cons_append] at r1 r2 r3 ⊢
  generalize hB : (mapHead (rest.length + 1) ++ strHead s.length ++ s ++ 0xcb :: (beBytes 8 b.toNat ++ marshalM rest) : Bytes) = B at r1 r2 r3 ⊢
  have hd : ∀ f cur, decode env lib f (env.get n).fields cur (D.new B) = none ∨
      ∃ d', decode env lib f (env.get n).fields cur (D.new B) = some (.err e, d') := by
    intro f cur
    cases f with
    | zero => exact Or.inl rfl
    | succ f =>
      simp only [decode, thn, lift, D.new, r1]
      cases f with
      | zero => exact Or.inl rfl
      | succ f =>
        simp only [readFields, thn, lift, r2, hi]
        cases f with
        | zero => exact Or.inl rfl
        | succ f =>
          refine Or.inr ⟨d, ?_⟩
          simp only [readTy, lift, rd_map, r3]
  unfold fromBytes
  cases f with
  | zero => simp [readTy]
  | succ f =>
    simp only [readTy]
    cases hg : env.get n with
    | struct fs =>
      have := hd f (fieldsOf env fs (zero env env.length (.named n)))
      rw [hg] at this
      simp only [Def.fields] at this
      rcases this with h | ⟨d', h⟩ <;> simp [h]
    | union fs =>
      have := hd f (zeros env fs)
      rw [hg] at this
      simp only [Def.fields] at this
      rcases this with h | ⟨d', h⟩ <;> simp [h]

/-- **C182** is false of the code for an argument that is an integer: whatever number is given for it, `1` say, an operation is
never called and the command crashes. The argument is the first that the encoder visits here, so it may be the only one. -/
theorem integers_refuted (lib : Lib) (hw : WellFormed env) {n : Nat} {s : Bytes} {p : Prim} (hp : Integer p) (hs : (s, .prim p) ∈ (env.get n).fields)
    (b : UInt64) (rest : List (Bytes × J)) (hb : (marshal (.obj ((s, .num b) :: rest))).length < 2 ^ 32) (f : Nat)
    (handler : GV → Res Bytes) (unmarshal : Bytes → Option J) (exports : Exports) (ns op : Bytes)
    (h : exports ns op = some (serve env lib f n handler)) :
    run unmarshal (.ok exports) (some (.obj ((s, .num b) :: rest))) ns op = .crashed := by
  have hr := integer_refused lib hw hp hs b rest hb f
  simp only [run, call, h, serve]
  cases hx : fromBytes env lib f n (marshal (.obj ((s, .num b) :: rest))) with
  | none => rfl
  | some x =>
    cases x with
    | ok v => exact absurd hx (hr v)
    | err e => rfl
    | panic => rfl

/-- The hypotheses are met by an operation with a number of people as its only argument, and `{"n": 1}`. -/
example : (([110], .prim .u32) : Bytes × Ty) ∈ (Env.get [.struct [([110], .prim .u32)]] 0).fields ∧
    (marshal (.obj [([110], .num 0x3ff0000000000000)])).length < 2 ^ 32 := by
  refine ⟨by simp [Env.get, Def.fields], by decide +kernel⟩

end Iota.Props.Invoke
