import Verif.Props.Codegen

/-!
# C111: keys and fields that occur more than once in a message
-/

namespace Iota.Props.CodegenDup
open Iota.Go Iota.Msgpack Iota.Codegen Iota.Spec.Msgpack Iota.Spec.Codegen Iota.Lemmas.Msgpack Iota.Lemmas.Codegen Iota.Props.Codegen

/-- What the flags of `Allow` are here: no absent optional enums. -/
abbrev fine : Allow := ⟨false, true, true⟩

/-- The value of the last entry with this key. -/
def last (l : List (Sc × GV)) (k : Sc) : Option GV := (l.reverse.find? fun p => p.1 == k).map (·.2)

theorem last_cons (p : Sc × GV) (l : List (Sc × GV)) (k : Sc) :
    last (p :: l) k = (last l k).or (if p.1 = k then some p.2 else none) := by
  unfold last
  rw [List.reverse_cons, List.find?_append]
  cases h : List.find? (fun p => p.1 == k) l.reverse with
  | some q => simp
  | none => simp [List.find?_cons]; split <;> simp_all

def value (m : List (Sc × GV)) (k : Sc) : Option GV := (m.find? fun p => p.1 == k).map (·.2)

theorem mapSet_value (m : List (Sc × GV)) (k k' : Sc) (v : GV) :
    value (mapSet m k v) k' = if k = k' then some v else value m k' := by
  induction m with
  | nil => simp only [mapSet, value, List.find?_cons, List.find?_nil]; split <;> simp_all
  | cons p m ih =>
    obtain ⟨a, b⟩ := p
    simp only [mapSet]
    split
    · rename_i h
      subst h
      simp only [value, List.find?_cons]
      by_cases h : a = k' <;> simp [h, show (a == k') = decide (a = k') from rfl]
    · rename_i h
      unfold value at ih ⊢
      simp only [List.find?_cons]
      by_cases h' : a = k'
      · subst h'
        rw [if_neg (fun e => h e.symm)]
        simp
      · have : (a == k') = false := by simp [h']
        simp only [this]
        exact ih

theorem mapSet_keys (m : List (Sc × GV)) (k : Sc) (v : GV) (h : (m.map (·.1)).Nodup) :
    ((mapSet m k v).map (·.1)).Nodup ∧ ∀ x, x ∈ (mapSet m k v).map (·.1) ↔ x = k ∨ x ∈ m.map (·.1) := by
  induction m with
  | nil => simp [mapSet]
  | cons p m ih =>
    obtain ⟨a, b⟩ := p
    simp only [List.map_cons, List.nodup_cons] at h
    simp only [mapSet]
    split
    · rename_i e
      subst e
      simp only [List.map_cons, List.nodup_cons]
      exact ⟨h, fun x => by simp⟩
    · rename_i e
      obtain ⟨h1, h2⟩ := ih h.2
      simp only [List.map_cons, List.nodup_cons, List.mem_cons, h2]
      exact ⟨⟨fun hx => hx.elim (fun hx => e hx) h.1, h1⟩, fun x => by
        constructor
        · rintro (h | h | h) <;> simp [h]
        · rintro (h | h | h) <;> simp [h]⟩

/-- Entries put into a map one after the other. -/
def setAll (m : List (Sc × GV)) : List (Sc × GV) → List (Sc × GV)
  | [] => m
  | p :: l => setAll (mapSet m p.1 p.2) l

theorem setAll_value (m l : List (Sc × GV)) (k : Sc) : value (setAll m l) k = (last l k).or (value m k) := by
  induction l generalizing m with
  | nil => rfl
  | cons p l ih =>
    rw [setAll, ih, mapSet_value, last_cons, Option.or_assoc]
    congr 1
    split <;> simp

theorem setAll_keys (m l : List (Sc × GV)) (h : (m.map (·.1)).Nodup) : ((setAll m l).map (·.1)).Nodup := by
  induction l generalizing m with
  | nil => exact h
  | cons p l ih => exact ih _ (mapSet_keys m p.1 p.2 h).1

variable {lib : Lib} {env : Env}

/-- The entries of a map, read one after the other into `acc`. -/
theorem entries_read (hw : WellFormed env) {k : Prim} {t : Ty} {l : List (Sc × GV)} (h : TypedM env fine k t l) :
    ∃ bs, Writes (Enc.ops (writeMap env t l)) bs ∧ WirePairs (EH fine) (entriesOf env t l) bs ∧
      ∀ acc, RR True (fun f => readMap env lib f k t l.length acc) bs (.map (setAll acc (adaptM env env t l))) := by
  induction l with
  | nil =>
    exact ⟨[], by simpa [writeMap, Enc.ops] using writes_skip, by simpa [entriesOf] using .nil,
      fun acc => (RR.done (GV.map acc)).succ (fun f => by simp [readMap]) |>.cast rfl (by simp [adaptM, setAll])⟩
  | cons p l ih =>
    obtain ⟨s, v⟩ := p
    cases h with
    | cons hk hv hl =>
      obtain ⟨z, z1, z2, z3, z4⟩ := prim_enc lib hk
      obtain ⟨x, x1, x2, x3, x4⟩ := good (lib := lib) (fit_refl hw fine) hv
      obtain ⟨y, y1, y3, y4⟩ := ih hl
      refine ⟨z ++ (x ++ y), ?_, ?_, ?_⟩
      · simpa [writeMap] using ops_cons z1 (ops_append x1 y1)
      · simp only [entriesOf]
        exact .cons z3 x3 y3
      · intro acc
        have hx : RR True (fun f => readTy env lib f t false (zero env env.length t)) x (adapt env env t v) := by
          obtain ⟨f0, hf0⟩ := x4 rfl false _ (fun _ => rfl)
          exact ⟨f0, fun f hle => ⟨(hf0 f hle).1, fun _ => (hf0 f hle).2 (fun _ _ h => h)⟩⟩
        refine RR.cast (RR.succ (RR.thn (RR.lift z4 (loc_prim lib k))
          (g := fun f key => thn (readTy env lib f t false (zero env env.length t)) fun v => readMap env lib f k t l.length (mapSet acc key v))
          (RR.thn hx (g := fun f v => readMap env lib f k t l.length (mapSet acc s v)) (y4 (mapSet acc s (adapt env env t v))))) ?_) rfl ?_
        · intro f; simp [readMap]
        · simp [adaptM, setAll]

theorem adaptM_last (hw : WellFormed env) {k : Prim} {t : Ty} {l : List (Sc × GV)} (h : TypedM env fine k t l) (key : Sc) :
    last (adaptM env env t l) key = (last l key).map (norm env t) := by
  induction l with
  | nil => rfl
  | cons p l ih =>
    obtain ⟨s, v⟩ := p
    cases h with
    | cons hk hv hl =>
      rw [adaptM, last_cons, last_cons, ih hl, adapt_same hw hv]
      cases last l key with
      | some y => simp
      | none => simp only [Option.none_or, Option.map_none]; split <;> rfl

/-- **C111**, for maps: whatever entries a message has for a map, with keys that may occur more than once, the decoded
map has each key once, with the value of its last entry, and no other key. -/
theorem repeated_keys_last (lib : Lib) (hw : WellFormed env) {k : Prim} {t : Ty} {l : List (Sc × GV)} (hl : short l)
    (h : TypedM env fine k t l) :
    ∃ bs, Writes (Enc.ops (write env (.map k t) (.map l))) bs ∧ Wire (EH fine) (.map (entriesOf env t l)) bs ∧
      ∃ m, (m.map (·.1)).Nodup ∧ (∀ key, value m key = (last l key).map (norm env t)) ∧
        ∃ f0, ∀ f, f0 ≤ f → ∀ (b : Bool) (old : GV) (pre rest : Bytes), (pre ++ bs ++ rest).length < 2 ^ 32 →
          readTy env lib f (.map k t) b old ⟨pre ++ bs ++ rest, pre.length, false⟩ =
            some (.ok (.map m), ⟨pre ++ bs ++ rest, pre.length + bs.length, false⟩) := by
  obtain ⟨y, y1, y3, y4⟩ := entries_read (lib := lib) hw h
  obtain ⟨hd, g1, g2, g3, g4⟩ := mapSize_enc l.length hl
  have hm := mod_short hl
  have hv : (entriesOf env t l).length = l.length := by
    clear h y4 y3 y1 hl g1 g2 g3 g4 hm
    induction l with
    | nil => rfl
    | cons v l ih => obtain ⟨x, v⟩ := v; simp [entriesOf, ih]
  refine ⟨hd ++ y, ?_, ?_, setAll [] (adaptM env env t l), setAll_keys _ _ (by simp), fun key => ?_, ?_⟩
  · simp only [write, Ty.strip, hm]
    exact ops_cons g1 y1
  · exact .map (hv ▸ g3) y3
  · rw [setAll_value, adaptM_last hw h]
    simp [value]
  · obtain ⟨f0, hf0⟩ := RR.thn (RR.lift g4 loc_mapSize) (g := fun f n => readMap env lib f k t n []) (y4 [])
    refine ⟨f0 + 1, fun f hle b old pre rest hlt => ?_⟩
    obtain ⟨g, rfl⟩ : ∃ g, f = g + 1 := ⟨f - 1, by omega⟩
    have := (hf0 g (by omega)).1 pre rest hlt
    cases b <;> simpa [readTy] using this

/-- The hypotheses are met by a map with a repeated key. -/
example : TypedM sample fine .str (.prim .u8) [(.str [97], .sc (.uint 1)), (.str [98], .sc (.uint 2)), (.str [97], .sc (.uint 3))] ∧
    last [(.str [97], .sc (.uint 1)), (.str [98], .sc (.uint 2)), (.str [97], .sc (.uint 3))] (.str [97]) = some (.sc (.uint 3)) :=
  ⟨.cons (by simp [IsPrim, short]) (.prim (by simp [IsPrim])) (.cons (by simp [IsPrim, short]) (.prim (by simp [IsPrim]))
    (.cons (by simp [IsPrim, short]) (.prim (by simp [IsPrim])) .nil)), rfl⟩

/-! ## Fields -/

/-- A field of a message: its name, type and value. -/
abbrev Entry := Bytes × Ty × GV

/-- What is written for the fields of a message. -/
def writeEntries (env : Env) : List Entry → List Op
  | [] => []
  | (s, t, v) :: l => .str s :: (write env t v ++ writeEntries env l)

/-- The value of the last field of this name. -/
def lastField (l : List Entry) (s : Bytes) : Option GV := (l.reverse.find? fun e => e.1 == s).map (·.2.2)

theorem lastField_cons (e : Entry) (l : List Entry) (s : Bytes) :
    lastField (e :: l) s = (lastField l s).or (if e.1 = s then some e.2.2 else none) := by
  unfold lastField
  rw [List.reverse_cons, List.find?_append]
  cases h : List.find? (fun p => p.1 == s) l.reverse with
  | some q => simp
  | none => simp [List.find?_cons]; split <;> simp_all

/-- The type is not a type with fields: such fields are decoded into the value that is there already. -/
def NotStruct (env : Env) : Ty → Prop
  | .named n => ∃ fs, env.get n = .union fs
  | _ => True

theorem readTy_old (t : Ty) (b : Bool) (ht : b = false → NotStruct env t) (f : Nat) (old old' : GV) :
    readTy env lib f t b old = readTy env lib f t b old' := by
  induction t generalizing f b with
  | named n =>
    cases f with
    | zero => rfl
    | succ f =>
      cases b with
      | false =>
        obtain ⟨fs, h⟩ := ht rfl
        simp only [readTy, h]
      | true => simp only [readTy]
  | opt t ih =>
    cases f with
    | zero => rfl
    | succ f =>
      simp only [readTy]
      exact ih true (by simp) f
  | _ => cases f <;> cases b <;> first | rfl | simp only [readTy]

/-- What the fields of a message make of the fields of the receiver. -/
def putAll (env : Env) (fs : List (Bytes × Ty)) (cur : List GV) : List Entry → List GV
  | [] => cur
  | (s, t, v) :: l =>
    putAll env fs (match find fs s with
      | some (i, _) => cur.set i (norm env t v)
      | none => cur) l

/-- A field of the type, with a value that another encoder may have written. -/
def Known (env : Env) (fs : List (Bytes × Ty)) (e : Entry) : Prop :=
  (e.1, e.2.1) ∈ fs ∧ short e.1 ∧ NotStruct env e.2.1 ∧ Typed env fine e.2.1 e.2.2

theorem find_of_mem {fs : List (Bytes × Ty)} {s : Bytes} {t : Ty} (h : (s, t) ∈ fs) (hd : (names fs).Nodup) :
    ∃ i, find fs s = some (i, t) := by
  induction fs with
  | nil => simp at h
  | cons p fs ih =>
    obtain ⟨m, u⟩ := p
    simp only [names, List.map_cons, List.nodup_cons] at hd
    simp only [find]
    rcases List.mem_cons.mp h with h | h
    · cases h
      exact ⟨0, by simp⟩
    · obtain ⟨i, hi⟩ := ih h hd.2
      rw [if_neg (fun e : m = s => hd.1 (e ▸ List.mem_map_of_mem (f := (·.1)) h)), hi]
      exact ⟨i + 1, rfl⟩

theorem fields_read (hw : WellFormed env) {fs : List (Bytes × Ty)} (hd : (names fs).Nodup) {l : List Entry}
    (h : ∀ e ∈ l, Known env fs e) :
    ∃ bs, Writes (Enc.ops (writeEntries env l)) bs ∧
      ∀ cur, RR True (fun f => readFields env lib f fs l.length cur) bs (.obj (putAll env fs cur l)) := by
  induction l with
  | nil =>
    exact ⟨[], by simpa [writeEntries, Enc.ops] using writes_skip,
      fun cur => (RR.done (GV.obj cur)).succ (fun f => by simp [readFields]) |>.cast rfl (by simp [putAll])⟩
  | cons e l ih =>
    obtain ⟨s, t, v⟩ := e
    obtain ⟨h1, h2, h3, h4⟩ := h (s, t, v) (by simp)
    obtain ⟨i, hi⟩ := find_of_mem h1 hd
    obtain ⟨x, x1, x2, x3, x4⟩ := str_enc s h2
    obtain ⟨z, z1, z2, z3, z4⟩ := good (lib := lib) (fit_refl hw fine) h4
    obtain ⟨y, y1, y4⟩ := ih (fun e he => h e (by simp [he]))
    refine ⟨x ++ (z ++ y), ?_, fun cur => ?_⟩
    · simpa [writeEntries] using ops_cons (o := .str s) (by simpa [Enc.op] using x1) (ops_append z1 y1)
    · have hz : RR True (fun f => readTy env lib f t false (cur[i]?.getD .null)) z (norm env t v) := by
        obtain ⟨f0, hf0⟩ := z4 rfl false _ (fun _ => rfl)
        refine ⟨f0, fun f hle => ?_⟩
        dsimp only
        rw [readTy_old t false (fun _ => h3) f _ (zero env env.length t), ← adapt_same hw h4]
        exact ⟨(hf0 f hle).1, fun _ => (hf0 f hle).2 (fun _ _ h => h)⟩
      refine RR.succ (RR.thn (RR.lift x4 loc_str) (g := fun f name => match find fs name with
        | none => thn (Dec.skip f) fun _ => readFields env lib f fs l.length cur
        | some (i, t) =>
          thn (readTy env lib f t false (cur[i]?.getD .null)) fun v =>
            readFields env lib f fs l.length (cur.set i v)) ?_) ?_
      · simp only [hi]
        refine RR.cast (RR.thn hz (g := fun f v => readFields env lib f fs l.length (cur.set i v)) (y4 _)) rfl ?_
        simp [putAll, hi]
      · intro f; simp only [readFields, List.length_cons]; rfl

theorem putAll_length (fs : List (Bytes × Ty)) (l : List Entry) (cur : List GV) : (putAll env fs cur l).length = cur.length := by
  induction l generalizing cur with
  | nil => rfl
  | cons e l ih =>
    obtain ⟨s, t, v⟩ := e
    rw [putAll, ih]
    split <;> simp

theorem putAll_value {fs : List (Bytes × Ty)} (hd : (names fs).Nodup) (l : List Entry) (hl : ∀ e ∈ l, (e.1, e.2.1) ∈ fs) (cur : List GV)
    (hc : cur.length = fs.length) (i : Nat) (s : Bytes) (t : Ty) (hi : fs[i]? = some (s, t)) :
    (putAll env fs cur l)[i]? = ((lastField l s).map (norm env t)).or cur[i]? := by
  induction l generalizing cur with
  | nil => rfl
  | cons e l ih =>
    obtain ⟨s', t', v⟩ := e
    have hm := hl (s', t', v) (by simp)
    obtain ⟨j, hj⟩ := find_of_mem hm hd
    have hj' := find_some hj
    have hlt : i < fs.length := by
      rcases Nat.lt_or_ge i fs.length with h | h
      · exact h
      · rw [List.getElem?_eq_none h] at hi; cases hi
    rw [putAll, ih (fun e he => hl e (by simp [he])) _ (by simp [hj, hc]), lastField_cons]
    simp only [hj]
    by_cases hs : s' = s
    · subst hs
      have hij : j = i ∧ t' = t := by
        obtain ⟨j', hj2⟩ := find_of_mem (List.mem_of_getElem? hi) hd
        have hn : (names fs)[i]? = some s' := by simp [names, hi]
        have hn' : (names fs)[j]? = some s' := by simp [names, hj']
        have e : i = j := (List.getElem?_inj (by simpa [names] using hlt) hd).mp (hn.trans hn'.symm)
        subst e
        rw [hi] at hj'
        simp at hj'
        exact ⟨rfl, hj'.symm⟩
      obtain ⟨rfl, rfl⟩ := hij
      cases lastField l s' with
      | some x => simp
      | none => simp [List.getElem?_set, hc, hlt]
    · have hij : j ≠ i := by
        rintro rfl
        rw [hi] at hj'
        simp at hj'
        exact hs hj'.1.symm
      cases lastField l s with
      | some x => simp
      | none => simp [hs, List.getElem?_set, hij]

/-- **C111**, for fields, part of the claim: whatever fields of a type a message has, with names that may
occur more than once and in any order, each field of the decoded value is that of its last occurrence, and those that do
not occur have their zero value. Missing: fields whose type has fields itself, see `repeated_struct_refuted`. -/
theorem repeated_fields_last_partial (lib : Lib) (hw : WellFormed env) (n : Nat) {l : List Entry} (hl : short l)
    (h : ∀ e ∈ l, Known env (env.get n).fields e) :
    ∃ bs, Writes (Enc.ops (.mapSize l.length :: writeEntries env l)) bs ∧
      (bs.length < 2 ^ 32 → ∃ vs, vs.length = (env.get n).fields.length ∧
        (∀ (i : Nat) (s : Bytes) (t : Ty), (env.get n).fields[i]? = some (s, t) →
          vs[i]? = some (((lastField l s).map (norm env t)).getD (zero env env.length t))) ∧
        ∃ f0, ∀ f, f0 ≤ f → fromBytes env lib f n bs = some (.ok (.obj vs))) := by
  obtain ⟨y, y1, y4⟩ := fields_read (lib := lib) hw (hw.nodup n) h
  obtain ⟨hd, g1, g2, g3, g4⟩ := mapSize_enc l.length hl
  refine ⟨hd ++ y, ops_cons (o := .mapSize l.length) (by simpa [Enc.op] using g1) y1, fun hlt => ?_⟩
  have hzl : (zeros env (env.get n).fields).length = (env.get n).fields.length := by simp [zeros]
  refine ⟨putAll env (env.get n).fields (zeros env (env.get n).fields) l, by rw [putAll_length, hzl], ?_, ?_⟩
  · intro i s t hi
    rw [putAll_value (hw.nodup n) l (fun e he => (h e he).1) _ hzl i s t hi]
    cases lastField l s with
    | some x => simp
    | none => simp [zeros, hi]
  · have hn : NotNil (hd ++ y) := NotNil.append (mapHead_notNil g3) _
    have := RR.succ (r := fun f => decode env lib f (env.get n).fields (zeros env (env.get n).fields)) (RR.thn (RR.lift g4 loc_mapSize)
      (g := fun f m => readFields env lib f (env.get n).fields m (zeros env (env.get n).fields)) (y4 _)) (fun f => by simp [decode])
    have hk : RR (Knows env env) (fun f => decode env lib f (env.get n).fields (zeros env (env.get n).fields)) (hd ++ y)
        (.obj (putAll env (env.get n).fields (zeros env (env.get n).fields) l)) := by
      obtain ⟨f0, hf0⟩ := this
      exact ⟨f0, fun f hle => ⟨(hf0 f hle).1, fun _ => (hf0 f hle).2 trivial⟩⟩
    obtain ⟨f0, hf0⟩ := readTy_named hw hn hk false _ (fun _ => rfl)
    refine ⟨f0, fun f hle => ?_⟩
    have := (hf0 f hle).1 [] [] (by simpa using hlt)
    simp only [List.nil_append, List.append_nil, List.length_nil] at this
    unfold fromBytes D.new
    rw [this]
    rfl

/-- The hypotheses are met by a message in which a field occurs twice. -/
example : ∀ e ∈ ([([98], .prim .u8, .sc (.uint 1)), ([100], .prim .str, .sc (.str [120])), ([98], .prim .u8, .sc (.uint 2))] : List Entry),
    Known olderEnv (olderEnv.get 0).fields e := by
  intro e he
  simp at he
  rcases he with rfl | rfl | rfl <;>
    exact ⟨by simp [olderEnv, Env.get, Def.fields], by simp [short], trivial, .prim (by simp [IsPrim, short])⟩

/-- Two types, of which one has a field of the other. -/
def nested : Env := [.struct [([97], .named 1)], .struct [([120], .prim .u8), ([121], .prim .u8)]]

/-- **C111** is false of the code for a field whose type has fields: `{a: {x: 1}, a: {y: 2}}` is decoded as
`{a: {x: 1, y: 2}}`, although the last `a` has no `x`. -/
theorem repeated_struct_refuted (lib : Lib) : ∀ f, 9 ≤ f →
    fromBytes nested lib f 0 [130, 161, 97, 129, 161, 120, 1, 161, 97, 129, 161, 121, 2] =
      some (.ok (.obj [.obj [.sc (.uint 1), .sc (.uint 2)]])) ∧
    fromBytes nested lib f 0 [129, 161, 97, 129, 161, 121, 2] =
      some (.ok (.obj [.obj [.sc (.uint 0), .sc (.uint 2)]])) := by
  intro f hf
  obtain ⟨f, rfl⟩ : ∃ g, f = g + 9 := ⟨f - 9, by omega⟩
  constructor
  · generalize hb : ([130, 161, 97, 129, 161, 120, 1, 161, 97, 129, 161, 121, 2] : Bytes) = b
    have h1 : Dec.mapSize (D.new b) = (.ok 2, ⟨b, 1, false⟩) := by subst hb; decide +kernel
    have h2 : Dec.str ⟨b, 1, false⟩ = (.ok [97], ⟨b, 3, false⟩) := by subst hb; decide +kernel
    have h3 : Dec.mapSize ⟨b, 3, false⟩ = (.ok 1, ⟨b, 4, false⟩) := by subst hb; decide +kernel
    have h4 : Dec.str ⟨b, 4, false⟩ = (.ok [120], ⟨b, 6, false⟩) := by subst hb; decide +kernel
    have h5 : Dec.uintK 1 ⟨b, 6, false⟩ = (.ok 1, ⟨b, 7, false⟩) := by subst hb; decide +kernel
    have h6 : Dec.str ⟨b, 7, false⟩ = (.ok [97], ⟨b, 9, false⟩) := by subst hb; decide +kernel
    have h7 : Dec.mapSize ⟨b, 9, false⟩ = (.ok 1, ⟨b, 10, false⟩) := by subst hb; decide +kernel
    have h8 : Dec.str ⟨b, 10, false⟩ = (.ok [121], ⟨b, 12, false⟩) := by subst hb; decide +kernel
    have h9 : Dec.uintK 1 ⟨b, 12, false⟩ = (.ok 2, ⟨b, 13, false⟩) := by subst hb; decide +kernel
    simp [fromBytes, readTy, decode, readFields, Env.get, thn, lift, find, nested, h1, h2, h3, h4, h6, h7, h8,
      done, fieldsOf, zero, Def.fields, readPrim, rd_map, h5, h9, zeroPrim]
  · generalize hb : ([129, 161, 97, 129, 161, 121, 2] : Bytes) = b
    have h1 : Dec.mapSize (D.new b) = (.ok 1, ⟨b, 1, false⟩) := by subst hb; decide +kernel
    have h2 : Dec.str ⟨b, 1, false⟩ = (.ok [97], ⟨b, 3, false⟩) := by subst hb; decide +kernel
    have h3 : Dec.mapSize ⟨b, 3, false⟩ = (.ok 1, ⟨b, 4, false⟩) := by subst hb; decide +kernel
    have h4 : Dec.str ⟨b, 4, false⟩ = (.ok [121], ⟨b, 6, false⟩) := by subst hb; decide +kernel
    have h5 : Dec.uintK 1 ⟨b, 6, false⟩ = (.ok 2, ⟨b, 7, false⟩) := by subst hb; decide +kernel
    simp [fromBytes, readTy, decode, readFields, Env.get, thn, lift, find, nested, h1, h2, h3, h4,
      done, fieldsOf, zero, Def.fields, readPrim, rd_map, h5, zeroPrim]

end Iota.Props.CodegenDup
