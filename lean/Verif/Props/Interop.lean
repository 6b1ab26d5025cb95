import Verif.Props.Calls
import Verif.Props.CodegenZero
import Verif.Model.RustCodegen

/-!
# C133: a client generated in Rust and a service generated in Go

The Rust generator writes one struct `Inputs` for the parameters of every operation, each field under the name of its
parameter, and sends it (`/repo/codegen/src/rust/visitors/provider-visitor.ts:98-134` and `148-182`), whether the operation
is unary or not. What `wasmrs_guest::serialize` writes for a struct is decided by a package that is not in the repository;
from the names given to the fields it is taken to be a map from names to values. No more than that is assumed: any standard
serialization of the map.
-/

namespace Iota.Props.Interop
open Iota.Go Iota.Msgpack Iota.Codegen Iota.Calls Iota.Spec.Msgpack Iota.Spec.Codegen Iota.Lemmas.Msgpack Iota.Lemmas.Codegen
open Iota.Props.CodegenZero (Zero ZeroOf zero_zero)

/-- The message of a function generated in Rust for an operation with the only parameter `name`.
provider-visitor.ts:98-106, 114-117 -/
def RustSends (name : Bytes) (v : Val) (bs : Bytes) : Prop := Wire FixHead (.map [(.str name, v)]) bs

theorem reads_mapSize {n : Nat} {h : Bytes} (hh : MapHead n h) : Reads Dec.mapSize h n := by
  cases hh with
  | fix hn =>
    refine reads_head (c := 0x80 + UInt8.ofNat n) (cs := []) ?_
    have e : (0x80 + UInt8.ofNat n).toNat = 128 + n := toNat_add _ _ (by simp; omega)
    have h5 : isFixedMap (128 + n) = true := by unfold isFixedMap; simp; omega
    have h6 : (128 + n) % 16 = n := by omega
    rw [e, h5, h6]
    exact Reads.pure _
  | m16 hn => exact reads_head (f := fun p => _) (reads_getU_be 2 _ (by simpa using hn))
  | m32 hn => exact reads_head (f := fun p => _) (reads_getU_be 4 _ (by simpa using hn))

theorem reads_strLen {n : Nat} {h : Bytes} (hh : StrHead n h) : Reads Dec.strLen h n := by
  cases hh with
  | fix hn =>
    refine reads_head (c := 0xa0 + UInt8.ofNat n) (cs := []) ?_
    have e : (0xa0 + UInt8.ofNat n).toNat = 160 + n := toNat_add _ _ (by simp; omega)
    have h5 : isFixedString (160 + n) = true := by unfold isFixedString; simp; omega
    have h6 : (160 + n) % 32 = n := by omega
    rw [e, h5, h6]
    exact Reads.pure _
  | len hj hn =>
    rcases cases3 hj with rfl | rfl | rfl
    · exact reads_head (f := fun p => _) (reads_getU_be 1 _ (by simpa using hn))
    · exact reads_head (f := fun p => _) (reads_getU_be 2 _ (by simpa using hn))
    · exact reads_head (f := fun p => _) (reads_getU_be 4 _ (by simpa using hn))

theorem reads_str {s h : Bytes} (hh : StrHead s.length h) : Reads Dec.str (h ++ s) s :=
  Reads.bind (reads_strLen hh) (reads_getBytes s)

theorem find_none {fs : List (Bytes × Ty)} {name : Bytes} (h : name ∉ names fs) : Codegen.find fs name = none := by
  induction fs with
  | nil => rfl
  | cons p fs ih =>
    obtain ⟨n, t⟩ := p
    simp only [names, List.map_cons, List.mem_cons, not_or] at h
    rw [Codegen.find, if_neg (fun e => h.1 e.symm), ih h.2]
    rfl

theorem decode_unknown (env : Env) (lib : Lib) (fs : List (Bytes × Ty)) (cur : List GV) {name : Bytes} {v : Val} {bs : Bytes}
    (hb : RustSends name v bs) (hlt : bs.length < 2 ^ 32) (hn : name ∉ names fs) :
    ∃ f0, ∀ f, f0 ≤ f → ∃ d, Codegen.decode env lib f fs cur (D.new bs) = some (.ok (.obj cur), d) := by
  unfold RustSends at hb
  cases hb with
  | map hh hp =>
    rename_i h b
    cases hp with
    | cons hk hv hl =>
      rename_i kb vb cb
      cases hl
      cases hk with
      | str hs =>
        rename_i hs'
        obtain ⟨f0, hf⟩ := skip_reads hv
        refine ⟨f0 + 3, fun f hle => ?_⟩
        obtain ⟨g, rfl⟩ : ∃ g, f = g + 3 := ⟨f - 3, by omega⟩
        have e1 := reads_mapSize hh [] ((hs' ++ name) ++ (vb ++ [])) (by simpa using hlt)
        have e2 := reads_str hs h vb (by simpa [Nat.add_assoc] using hlt)
        have e3 := skip_mono (show f0 ≤ g + 1 by omega) (hf (h ++ (hs' ++ name)) [] (by simpa [Nat.add_assoc] using hlt))
        simp only [List.append_assoc, List.nil_append, List.append_nil, List.length_append, List.length_nil, Nat.zero_add,
          List.length_cons] at e1 e2 e3
        simp only [Codegen.decode, readFields, thn, lift, D.new, List.append_nil, List.append_assoc]
        rw [e1]
        simp only [List.length_singleton, readFields, thn, lift]
        rw [e2]
        simp only [find_none hn, thn]
        rw [e3]
        exact ⟨_, rfl⟩

theorem zeros_zero {env : Env} (hw : WellFormed env) (n : Nat) : Zero env (.named n) (.obj (zeros env (env.get n).fields)) := by
  refine .named (by simp [zeros]) fun i s t v hi hv => ?_
  unfold zeros at hv
  rw [List.getElem?_map, hi] at hv
  simp only [Option.map_some, Option.some.injEq] at hv
  subst hv
  exact zero_zero hw (List.mem_of_getElem? hi)

/-- **C133 is false of the code**: if the only parameter of a unary operation is a value of a type and its name is not that
of a field of the type, then whatever value is sent, the handler is called with a value all of whose fields are zero, without
an error. -/
theorem unary_object_refuted (env : Env) (hw : WellFormed env) (lib : Lib) (op : Operation) (p : Param) (n : Nat)
    (hu : op.unary = true) (hp : op.args.head? = some p) (ht : p.ty = .obj n) (hn : p.name ∉ names (env.get n).fields)
    (v : Val) (bs : Bytes) (hb : RustSends p.name v bs) (hlt : bs.length < 2 ^ 32) :
    ∃ f0, ∀ f, f0 ≤ f → ∃ z, serverReceives env lib f op bs = some (.ok [z]) ∧
      ∃ vs, z = .obj vs ∧ vs.length = (env.get n).fields.length ∧
        ∀ (i : Nat) s t x, (env.get n).fields[i]? = some (s, t) → vs[i]? = some x → Zero env t x := by
  have key : ∀ cur, Zero env (.named n) (.obj cur) → ∃ f0, ∀ f, f0 ≤ f → ∃ d,
      Codegen.decode env lib f (env.get n).fields cur (D.new bs) = some (.ok (.obj cur), d) :=
    fun cur _ => decode_unknown env lib _ cur hb hlt hn
  have hcur : ∃ cur, Zero env (.named n) (.obj cur) ∧ ∀ f, readTy env lib (f + 1) (.named n) false (zero env env.length (.named n)) =
      Codegen.decode env lib f (env.get n).fields cur := by
    cases hd : env.get n with
    | union fs =>
      have := zeros_zero hw n
      rw [hd] at this
      exact ⟨_, this, fun f => by simp only [readTy, hd, Def.fields]⟩
    | struct fs =>
      refine ⟨fieldsOf env fs (zero env env.length (.named n)), ?_, fun f => by simp only [readTy, hd, Def.fields]⟩
      have hz := zeros_zero hw n
      rw [hd] at hz
      obtain ⟨rank, hr1, hr2⟩ := hw.acyclic
      by_cases hlen : n < env.length
      · have hzn := CodegenZero.zero_named hr2 env.length n (hr1 n hlen)
        generalize zero env env.length (.named n) = z at hzn
        cases hzn with
        | named hl h =>
          rename_i vs
          unfold fieldsOf
          rw [hd] at hl
          simp only [Def.fields] at hl
          simp only [hl, if_true]
          exact .named (by rw [hd]; exact hl) h
      · have : fs = [] := by
          have h0 := get_ge (env := env) (n := n) (by omega)
          rw [hd] at h0
          simpa using h0
        subst this
        have : fieldsOf env [] (zero env env.length (.named n)) = [] := by
          unfold fieldsOf
          split
          · split
            · rename_i h; simpa using h
            · rfl
          · rfl
        rw [this]
        exact .named (by rw [hd]; rfl) (fun i s t v _ hv => by simp at hv)
  obtain ⟨cur, hz, hrd⟩ := hcur
  obtain ⟨f0, hf⟩ := key cur hz
  refine ⟨f0 + 1, fun f hle => ?_⟩
  obtain ⟨g, rfl⟩ : ∃ g, f = g + 1 := ⟨f - 1, by omega⟩
  obtain ⟨d, hd⟩ := hf g (by omega)
  refine ⟨.obj cur, ?_, cur, rfl, ?_⟩
  · unfold serverReceives
    cases ha : op.args with
    | nil => rw [ha] at hp; cases hp
    | cons q l =>
      rw [ha] at hp
      obtain rfl : q = p := by simpa using hp
      simp only [List.isEmpty_cons, Bool.false_eq_true, if_false, hu, if_true, ht, serverArg, Calls.decode, fromBytes, hrd, hd]
      rfl
  · cases hz with
    | named hl h => exact ⟨hl, h⟩

/-- Reading fails at the first byte. -/
def Fails {α : Type} (r : Rd α) (d : D) : Prop := ∃ e d', r d = (.err e, d')

theorem fails_bind {α β : Type} {r : Rd α} {d : D} (h : Fails r d) (f : α → Rd β) : Fails (r >>= f) d := by
  obtain ⟨e, d', h⟩ := h
  exact ⟨e, d', by show Rd.bind r f d = _; unfold Rd.bind; rw [h]⟩

theorem fails_map {α β : Type} {r : Rd α} {d : D} (h : Fails r d) (f : α → β) : Fails (f <$> r) d := fails_bind h _

theorem fails_head {α : Type} {c : UInt8} {cs : Bytes} (hlt : (c :: cs).length < 2 ^ 32) {f : Nat → Rd α} {m : String}
    (h : f c.toNat = Rd.fail m) : Fails (getU 1 >>= f) (D.new (c :: cs)) := by
  have g := reads_byte c [] cs (by simpa using hlt)
  have := rd_bind_ok (f := f) g
  rw [h] at this
  exact ⟨_, _, this⟩

theorem fails_time (lib : Lib) {c : UInt8} {cs : Bytes} (hlt : (c :: cs).length < 2 ^ 32) (hs : isString c.toNat = false)
    {m : String} (he : Dec.extLen c.toNat = Rd.fail m) : Fails (Dec.time lib) (D.new (c :: cs)) := by
  have hp := peek_eq [] c cs (by simpa using hlt)
  have h1 : Dec.time lib (D.new (c :: cs)) = Dec.timeExt c.toNat (D.new (c :: cs)) := by
    unfold Dec.time
    rw [show D.new (c :: cs) = ⟨[] ++ c :: cs, ([] : Bytes).length, false⟩ from rfl, rd_bind_ok hp, hs]
    rfl
  have h2 : ∃ d', ignore (discard 1) (D.new (c :: cs)) = (.ok (), d') := by
    unfold ignore
    split
    · rename_i h
      have hc := reads_check (n := 1) (pre := []) (bs := [c]) (rest := cs) rfl (by simpa using hlt)
      have h3 : discard 1 (D.new (c :: cs)) = advance 1 (D.new (c :: cs)) := by
        unfold Iota.Msgpack.discard
        exact rd_bind_ok hc
      rw [h3] at h
      simp [advance] at h
    · exact ⟨_, rfl⟩
  obtain ⟨d', h2⟩ := h2
  unfold Fails
  rw [h1]
  refine ⟨m, d', ?_⟩
  unfold Dec.timeExt
  rw [rd_bind_ok h2, he]
  rfl

/-- **C133 is false of the code**: if the only parameter of a unary operation is a primitive value, a call is refused
whatever value is sent. -/
theorem unary_prim_refuted (env : Env) (lib : Lib) (op : Operation) (p : Param) (q : Prim)
    (hu : op.unary = true) (hp : op.args.head? = some p) (ht : p.ty = .prim q)
    (v : Val) (bs : Bytes) (hb : RustSends p.name v bs) (hlt : bs.length < 2 ^ 32) (f : Nat) :
    ∃ e, serverReceives env lib (f + 1) op bs = some (.err e) := by
  have hhead : ∃ c cs, bs = c :: cs ∧ (c = 0x81 ∨ c = 0xde ∨ c = 0xdf) := by
    unfold RustSends at hb
    cases hb with
    | map hh _ =>
      cases hh with
      | fix _ => exact ⟨_, _, rfl, .inl rfl⟩
      | m16 _ => exact ⟨_, _, rfl, .inr (.inl rfl)⟩
      | m32 _ => exact ⟨_, _, rfl, .inr (.inr rfl)⟩
  obtain ⟨c, cs, rfl, hc⟩ := hhead
  have hf : Fails (readPrim lib q) (D.new (c :: cs)) := by
    rcases hc with rfl | rfl | rfl <;> cases q <;> simp only [readPrim] <;> apply fails_map
    all_goals first
      | exact fails_head hlt rfl
      | exact fails_time lib hlt rfl rfl
      | exact fails_bind (fails_head hlt rfl) _
      | exact fails_bind (fails_bind (fails_head hlt rfl) _) _
  obtain ⟨e, d, h⟩ := hf
  refine ⟨e, ?_⟩
  unfold serverReceives
  cases ha : op.args with
  | nil => rw [ha] at hp; cases hp
  | cons q' l =>
    rw [ha] at hp
    obtain rfl : q' = p := by simpa using hp
    have hm : (GV.sc <$> readPrim lib q) (D.new (c :: cs)) = (.err e, d) := by
      show Rd.bind _ _ _ = _
      unfold Rd.bind
      rw [h]
    simp only [List.isEmpty_cons, Bool.false_eq_true, if_false, hu, if_true, ht, serverArg, Calls.decode, T.ty, readTy, lift]
    rw [hm]
    rfl

/-- A value of the type `t` that the generated reader understands: with enough steps it reads exactly these bytes as `v`, if
the variable had the zero value of its type before. -/
def Understood (env : Env) (lib : Lib) (t : Ty) (v : GV) (bs : Bytes) : Prop :=
  ∃ f0, ∀ f, f0 ≤ f → ∀ old, Zero env t old → ∀ pre rest : Bytes, (pre ++ bs ++ rest).length < 2 ^ 32 →
    readTy env lib f t false old ⟨pre ++ bs ++ rest, pre.length, false⟩ =
      some (.ok v, ⟨pre ++ bs ++ rest, pre.length + bs.length, false⟩)

/-- The fields of `Inputs` one after the other, each after its name. -/
inductive Inputs (env : Env) (lib : Lib) : List (Bytes × Ty) → List GV → Bytes → Prop
  | nil : Inputs env lib [] [] []
  | cons {name h vb b : Bytes} {t : Ty} {v : GV} {fs : List (Bytes × Ty)} {vs : List GV} (hh : StrHead name.length h)
      (hv : Understood env lib t v vb) (hl : Inputs env lib fs vs b) :
      Inputs env lib ((name, t) :: fs) (v :: vs) (h ++ (name ++ (vb ++ b)))

theorem find_at (pre : List (Bytes × Ty)) (name : Bytes) (t : Ty) (post : List (Bytes × Ty))
    (h : (names (pre ++ (name, t) :: post)).Nodup) : Codegen.find (pre ++ (name, t) :: post) name = some (pre.length, t) := by
  induction pre with
  | nil => simp [Codegen.find]
  | cons p pre ih =>
    obtain ⟨n, t'⟩ := p
    simp only [List.cons_append, names, List.map_cons, List.nodup_cons] at h
    have hne : n ≠ name := by
      rintro rfl
      exact h.1 (by simp)
    rw [List.cons_append, Codegen.find, if_neg hne, ih h.2]
    rfl

theorem inputs_loop (env : Env) (lib : Lib) : ∀ {fs : List (Bytes × Ty)} {vs : List GV} {b : Bytes}, Inputs env lib fs vs b →
    ∃ f0, ∀ f, f0 ≤ f → ∀ (pf : List (Bytes × Ty)) (pv cur : List GV), (names (pf ++ fs)).Nodup → pv.length = pf.length →
      cur.length = fs.length → (∀ (i : Nat) s t x, fs[i]? = some (s, t) → cur[i]? = some x → Zero env t x) →
      ∀ pre rest : Bytes, (pre ++ b ++ rest).length < 2 ^ 32 →
        ∃ d, readFields env lib f (pf ++ fs) fs.length (pv ++ cur) ⟨pre ++ b ++ rest, pre.length, false⟩ =
          some (.ok (.obj (pv ++ vs)), d)
  | [], _, _, .nil => ⟨1, fun f hf pf pv cur _ _ hc _ pre rest _ => by
      obtain ⟨g, rfl⟩ : ∃ g, f = g + 1 := ⟨f - 1, by omega⟩
      have : cur = [] := List.length_eq_zero_iff.mp hc
      subst this
      refine ⟨⟨pre ++ [] ++ rest, pre.length, false⟩, ?_⟩
      simp only [List.length_nil, readFields, done]⟩
  | (name, t) :: fs, _ :: _, _, .cons (h := h) (vb := vb) (b := b) (v := v) (vs := vs) hh hv hl => by
    obtain ⟨f1, h1⟩ := hv
    obtain ⟨f2, h2⟩ := inputs_loop env lib hl
    refine ⟨max f1 f2 + 1, fun f hf pf pv cur hnd hpl hcl hz pre rest hlt => ?_⟩
    obtain ⟨g, rfl⟩ : ∃ g, f = g + 1 := ⟨f - 1, by omega⟩
    cases cur with
    | nil => simp at hcl
    | cons c cur =>
      have e1 := reads_str hh pre (vb ++ (b ++ rest)) (by simpa [Nat.add_assoc] using hlt)
      have e2 := h1 g (by omega) c (hz 0 name t c rfl rfl) (pre ++ (h ++ name)) (b ++ rest) (by simpa [Nat.add_assoc] using hlt)
      obtain ⟨d, e3⟩ := h2 g (by omega) (pf ++ [(name, t)]) (pv ++ [v]) cur (by simpa using hnd) (by simp [hpl])
        (by simpa using hcl) (fun i s t x hi hx => hz (i + 1) s t x (by simpa using hi) (by simpa using hx))
        (pre ++ (h ++ name) ++ vb) rest (by simpa [Nat.add_assoc] using hlt)
      refine ⟨d, ?_⟩
      have hget : (pv ++ c :: cur)[pf.length]?.getD .null = c := by
        rw [← hpl, List.getElem?_append_right (by omega)]
        simp
      have hset : (pv ++ c :: cur).set pf.length v = pv ++ [v] ++ cur := by
        rw [← hpl, List.set_append_right _ _ (by omega)]
        simp
      simp only [List.append_assoc, List.length_append, Nat.add_assoc, List.cons_append, List.nil_append] at e1 e2 e3
      simp only [List.length_cons, readFields, thn, lift, List.append_assoc]
      rw [e1]
      simp only [find_at pf name t fs hnd, hget, List.append_assoc, thn]
      rw [e2]
      simp only [hset, List.append_assoc, List.cons_append, List.nil_append]
      exact e3

/-- **C133 (partial)** If the operation is not unary, the handler is called with exactly the arguments that were sent,
provided that the values themselves are written in a way that Go reads. Missing: unary operations, see
`unary_object_refuted` and `unary_prim_refuted`. -/
theorem inputs_arrive_partial (env : Env) (lib : Lib) (op : Operation) (hw : WellFormed (defs env op)) (hu : op.unary = false)
    (hne : op.args ≠ []) (vs : List GV) (h b : Bytes) (hh : MapHead op.args.length h)
    (hi : Inputs (defs env op) lib (op.args.map fun p => (p.name, p.ty.ty)) vs b) (hlt : (h ++ b).length < 2 ^ 32) :
    ∃ f0, ∀ f, f0 ≤ f → serverReceives env lib f op (h ++ b) = some (.ok vs) := by
  have he : op.args.isEmpty = false := by cases ha : op.args <;> simp_all
  have hdefs : defs env op = env ++ [.struct (op.args.map fun p => (p.name, p.ty.ty))] := by simp [defs, he, hu]
  have hget : (defs env op).get env.length = .struct (op.args.map fun p => (p.name, p.ty.ty)) := by
    rw [hdefs]; simp [Env.get]
  have hnd := hw.nodup env.length
  rw [hget] at hnd
  simp only [Def.fields] at hnd
  obtain ⟨rank, hr1, hr2⟩ := hw.acyclic
  have hzn := CodegenZero.zero_named hr2 (defs env op).length env.length (hr1 _ (by rw [hdefs]; simp))
  obtain ⟨f0, hf⟩ := inputs_loop (defs env op) lib hi
  refine ⟨f0 + 2, fun f hle => ?_⟩
  obtain ⟨g, rfl⟩ : ∃ g, f = g + 2 := ⟨f - 2, by omega⟩
  have hz : ∃ cur, fieldsOf (defs env op) (op.args.map fun p => (p.name, p.ty.ty))
      (zero (defs env op) (defs env op).length (.named env.length)) = cur ∧ cur.length = (op.args.map fun p => (p.name, p.ty.ty)).length ∧
      ∀ (i : Nat) s t x, (op.args.map fun p => (p.name, p.ty.ty))[i]? = some (s, t) → cur[i]? = some x → Zero (defs env op) t x := by
    generalize zero (defs env op) (defs env op).length (.named env.length) = z at hzn
    cases hzn with
    | named hl h =>
      rename_i zs
      rw [hget] at hl h
      simp only [Def.fields] at hl h
      refine ⟨zs, ?_, hl, h⟩
      unfold fieldsOf
      simp only [hl, if_true]
  obtain ⟨cur, hc1, hc2, hc3⟩ := hz
  have e1 := reads_mapSize hh [] b (by simpa using hlt)
  obtain ⟨d, e2⟩ := hf g (by omega) [] [] cur (by simpa using hnd) rfl hc2 hc3 h [] (by simpa using hlt)
  simp only [List.nil_append, List.append_nil, List.length_nil, Nat.zero_add, List.length_map] at e1 e2
  unfold serverReceives
  rw [he, hu]
  simp only [Bool.false_eq_true, if_false, fromBytes, readTy, hget, hc1, Codegen.decode, thn, lift, D.new]
  rw [e1]
  simp only
  rw [e2]
  rfl

/-! ## Examples -/

/-- A type with a name and a number of years. -/
def exEnv : Env := [.struct [([110], .prim .str), ([121], .prim .u8)]]

theorem exEnv_get (n : Nat) : (Env.get exEnv n).fields = [] ∨ n = 0 := by
  cases n with
  | zero => exact .inr rfl
  | succ n => exact .inl rfl

/-- `greet[p: Person]` -/
def exUnary : Operation := ⟨"greet", true, [⟨[112], "p", false, .obj 0⟩], false, .prim .str⟩

/-- `{"p": {"n": "hi", "y": 7}}` -/
theorem exSent : RustSends [112] (.map [(.str [110], .str [104, 105]), (.str [121], .int 7)])
    [0x81, 0xa1, 112, 0x82, 0xa1, 110, 0xa2, 104, 105, 0xa1, 121, 7] := by
  unfold RustSends
  have k1 : Wire FixHead (.str [110]) [0xa1, 110] := .str (s := [110]) (.fix (by decide))
  have k2 : Wire FixHead (.str [121]) [0xa1, 121] := .str (s := [121]) (.fix (by decide))
  have k3 : Wire FixHead (.str [112]) [0xa1, 112] := .str (s := [112]) (.fix (by decide))
  have v1 : Wire FixHead (.str [104, 105]) [0xa2, 104, 105] := .str (s := [104, 105]) (.fix (by decide))
  have v2 : Wire FixHead (.int (7 : Nat)) [7] := .posfix (n := 7) (by decide)
  have m : Wire FixHead (.map [(.str [110], .str [104, 105]), (.str [121], .int (7 : Nat))])
      [0x82, 0xa1, 110, 0xa2, 104, 105, 0xa1, 121, 7] := .map (.fix (by decide)) (.cons k1 v1 (.cons k2 v2 .nil))
  exact .map (.fix (by decide)) (.cons k3 m .nil)

/-- The person that arrives has no name and is 0 years old. -/
example : serverReceives exEnv ⟨fun n => n, fun _ => none⟩ 20 exUnary [0x81, 0xa1, 112, 0x82, 0xa1, 110, 0xa2, 104, 105, 0xa1, 121, 7] =
    some (.ok [.obj [.sc (.str []), .sc (.uint 0)]]) := rfl

theorem exEnv_wf : WellFormed exEnv := by
  refine ⟨fun n => ?_, fun n => ?_, fun n s hs => ?_, fun n fs h => ?_, fun _ => 0, fun n h => ?_, fun n s m h => ?_⟩
  · rcases exEnv_get n with h | rfl
    · rw [h]; decide
    · decide
  · rcases exEnv_get n with h | rfl
    · rw [h]; simp [short]
    · simp [short, exEnv, Env.get, Def.fields]
  · rcases exEnv_get n with h | rfl
    · rw [h] at hs; cases hs
    · simp [exEnv, Env.get, Def.fields, names] at hs
      rcases hs with rfl | rfl <;> simp [short]
  · rcases exEnv_get n with h' | rfl
    · rw [h] at h'
      simp only [Def.fields] at h'
      subst h'
      exact fun p hp => absurd hp List.not_mem_nil
    · simp [exEnv, Env.get] at h
  · simp [exEnv]
  · rcases exEnv_get n with h' | rfl
    · rw [h'] at h; cases h
    · simp [exEnv, Env.get, Def.fields] at h

example (lib : Lib) := unary_object_refuted exEnv exEnv_wf lib exUnary _ 0 rfl rfl rfl (by decide) _ _ exSent (by decide)

/-- `say[p: string]` -/
example (lib : Lib) : ∃ e, serverReceives [] lib 9 ⟨"say", true, [⟨[112], "p", false, .prim .str⟩], false, .prim .str⟩
    [0x81, 0xa1, 112, 0xa2, 104, 105] = some (.err e) :=
  unary_prim_refuted [] lib _ ⟨[112], "p", false, .prim .str⟩ .str rfl rfl rfl (.str [104, 105]) _
    (by
      have k3 : Wire FixHead (.str [112]) [0xa1, 112] := .str (s := [112]) (.fix (by decide))
      have v1 : Wire FixHead (.str [104, 105]) [0xa2, 104, 105] := .str (s := [104, 105]) (.fix (by decide))
      exact .map (.fix (by decide)) (.cons k3 v1 .nil)) (by decide) 8

/-- Strings are understood, however their length is written. -/
theorem understood_str (env : Env) (lib : Lib) {s h : Bytes} (hh : StrHead s.length h) :
    Understood env lib (.prim .str) (.sc (.str s)) (h ++ s) := by
  refine ⟨1, fun f hf old _ pre rest hlt => ?_⟩
  obtain ⟨g, rfl⟩ : ∃ g, f = g + 1 := ⟨f - 1, by omega⟩
  have := reads_str hh pre rest hlt
  simp only [readTy, lift, readPrim, rd_map, this]

/-- `say(p: string, q: string)` with "hi" and "", the second one with a long header. -/
def exOp : Operation := ⟨"say", false, [⟨[112], "p", false, .prim .str⟩, ⟨[113], "q", false, .prim .str⟩], false, .prim .str⟩

theorem exOp_get (n : Nat) : (Env.get (defs [] exOp) n).fields = [] ∨ n = 0 := by
  cases n with
  | zero => exact .inr rfl
  | succ n => exact .inl rfl

theorem exOp_wf : WellFormed (defs [] exOp) := by
  have h0 : (Env.get (defs [] exOp) 0) = .struct [([112], .prim .str), ([113], .prim .str)] := rfl
  refine ⟨fun n => ?_, fun n => ?_, fun n s hs => ?_, fun n fs h => ?_, fun _ => 0, fun n h => ?_, fun n s m h => ?_⟩
  · rcases exOp_get n with h | rfl
    · rw [h]; decide
    · decide
  · rcases exOp_get n with h | rfl
    · rw [h]; simp [short]
    · rw [h0]; simp [short, Def.fields]
  · rcases exOp_get n with h | rfl
    · rw [h] at hs; cases hs
    · rw [h0] at hs
      simp [Def.fields, names] at hs
      rcases hs with rfl | rfl <;> simp [short]
  · rcases exOp_get n with h' | rfl
    · rw [h] at h'
      simp only [Def.fields] at h'
      subst h'
      exact fun p hp => absurd hp List.not_mem_nil
    · rw [h0] at h; cases h
  · exact Nat.lt_of_le_of_lt (Nat.zero_le _) h
  · rcases exOp_get n with h' | rfl
    · rw [h'] at h; cases h
    · rw [h0] at h; simp [Def.fields] at h

example (lib : Lib) : ∃ f0, ∀ f, f0 ≤ f → serverReceives [] lib f exOp
    [0x82, 0xa1, 112, 0xa2, 104, 105, 0xa1, 113, 0xd9, 0] = some (.ok [.sc (.str [104, 105]), .sc (.str [])]) :=
  inputs_arrive_partial [] lib exOp exOp_wf rfl (by simp [exOp, Operation.args]) _ [0x82] _ (.fix (by decide))
    (.cons (name := [112]) (h := [0xa1]) (vb := [0xa2] ++ [104, 105]) (.fix (by decide)) (understood_str _ lib (.fix (by decide)))
      (.cons (name := [113]) (h := [0xa1]) (vb := [0xd9, 0] ++ []) (.fix (by decide))
        (understood_str _ lib (.len (j := 0) (by decide) (by decide))) .nil)) (by decide)

end Iota.Props.Interop
