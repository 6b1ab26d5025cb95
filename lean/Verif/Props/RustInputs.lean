import Verif.Model.RustInputs
import Verif.Props.Calls

/-!
# C189: a client generated in Go and a service generated in Rust
-/

namespace Iota.Props.RustInputs
open Iota.Go Iota.Msgpack Iota.Codegen Iota.Calls Iota.Spec.Msgpack Iota.Spec.Codegen Iota.Lemmas.Msgpack Iota.Lemmas.Codegen
open Iota.Spec.Reader Iota.RustInputs

/-! ## The reader agrees with the format -/

theorem chunk_append (s r : Bytes) : chunk s.length (s ++ r) = some (s, r) := by
  simp [chunk]

theorem number_append (k n : Nat) (h : n < 256 ^ k) (r : Bytes) : number k (beBytes k n ++ r) = some (n, r) := by
  have := chunk_append (beBytes k n) r
  rw [length_beBytes] at this
  rw [number, this]
  simp [beNat_beBytes_of_lt h]

theorem body_append (g : Bytes → Val) (s r : Bytes) : body g s.length (s ++ r) = .val (g s) r := by
  rw [body, chunk_append]

theorem fixed_append (g : Nat → Val) (k n : Nat) (h : n < 256 ^ k) (r : Bytes) : fixed k g (beBytes k n ++ r) = .val (g n) r := by
  rw [fixed, number_append k n h]

theorem sized_append (g : Nat → Bytes → Hd) (k n : Nat) (h : n < 256 ^ k) (r : Bytes) : sized k g (beBytes k n ++ r) = g n r := by
  rw [sized, number_append k n h]

theorem signed_twos (k : Nat) (hk : k = 1 ∨ k = 2 ∨ k = 4 ∨ k = 8) (i : Int) (h : -2 ^ (8 * k - 1) ≤ i ∧ i < 2 ^ (8 * k - 1)) :
    signed k (twos k i) = i ∧ twos k i < 256 ^ k := by
  unfold signed twos
  rcases hk with rfl | rfl | rfl | rfl <;> simp only [Nat.reduceMul, Nat.reduceSub, Int.reducePow, Nat.reducePow] at h ⊢ <;>
    (split <;> (constructor <;> (try split) <;> omega))

theorem extBody_append (s r : Bytes) (tag : Int) (ht : -128 ≤ tag ∧ tag < 128) :
    extBody s.length (UInt8.ofNat (twos 1 tag) :: (s ++ r)) = .val (.ext tag s) r := by
  obtain ⟨h1, h2⟩ := signed_twos 1 (.inl rfl) tag (by simpa using ht)
  rw [extBody, body_append, UInt8.toNat_ofNat', Nat.mod_eq_of_lt (by simpa using h2), h1]

theorem num_cons (c : UInt8) (j n : Nat) (r : Bytes) : num c j n ++ r = (c + UInt8.ofNat j) :: (beBytes (2 ^ j) n ++ r) := rfl

theorem head_str (s h r : Bytes) (hh : StrHead s.length h) : headOf (h ++ s ++ r) = .val (.str s) r := by
  cases hh with
  | fix hl =>
    have e : (0xa0 + UInt8.ofNat s.length).toNat = 160 + s.length := toNat_add _ _ (by simp; omega)
    simp only [List.cons_append, List.nil_append, headOf, e]
    repeat rw [if_neg (by omega)]
    rw [if_pos (by omega), Nat.add_sub_cancel_left, body_append]
  | len hj h =>
    rename_i j
    rw [List.append_assoc, num_cons]
    have e : (0xd9 + UInt8.ofNat j).toNat = 217 + j := toNat_add _ _ (by simp; omega)
    simp only [headOf, e]
    repeat rw [if_neg (by omega)]
    rw [if_pos (by omega), Nat.add_sub_cancel_left, sized_append _ _ _ h, body_append]

theorem head_bin (s h r : Bytes) (hh : BinHead s.length h) : headOf (h ++ s ++ r) = .val (.bin s) r := by
  cases hh with
  | len hj h =>
    rename_i j
    rw [List.append_assoc, num_cons]
    have e : (0xc4 + UInt8.ofNat j).toNat = 196 + j := toNat_add _ _ (by simp; omega)
    simp only [headOf, e]
    repeat rw [if_neg (by omega)]
    rw [if_pos (by omega), Nat.add_sub_cancel_left, sized_append _ _ _ h, body_append]

theorem head_arr (n : Nat) (h r : Bytes) (hh : ArrHead n h) : headOf (h ++ r) = .arr n r := by
  cases hh with
  | fix hl =>
    have e : (0x90 + UInt8.ofNat n).toNat = 144 + n := toNat_add _ _ (by simp; omega)
    simp only [List.cons_append, List.nil_append, headOf, e]
    repeat rw [if_neg (by omega)]
    rw [if_pos (by omega), Nat.add_sub_cancel_left]
  | a16 h => exact sized_append _ 2 n (by simpa using h) r
  | a32 h => exact sized_append _ 4 n (by simpa using h) r

theorem head_map (n : Nat) (h r : Bytes) (hh : MapHead n h) : headOf (h ++ r) = .map n r := by
  cases hh with
  | fix hl =>
    have e : (0x80 + UInt8.ofNat n).toNat = 128 + n := toNat_add _ _ (by simp; omega)
    simp only [List.cons_append, List.nil_append, headOf, e]
    repeat rw [if_neg (by omega)]
    rw [if_pos (by omega), Nat.add_sub_cancel_left]
  | m16 h => exact sized_append _ 2 n (by simpa using h) r
  | m32 h => exact sized_append _ 4 n (by simpa using h) r

theorem head_ext (tag : Int) (s h r : Bytes) (hh : ExtHead s.length h) (ht : -128 ≤ tag ∧ tag < 128) :
    headOf (h ++ (UInt8.ofNat (twos 1 tag) :: s) ++ r) = .val (.ext tag s) r := by
  generalize hn : s.length = n at hh
  cases hh with
  | fix hj =>
    rename_i j
    have := extBody_append s r tag ht
    rw [hn] at this
    have e : (0xd4 + UInt8.ofNat j).toNat = 212 + j := toNat_add _ _ (by simp; omega)
    simp only [List.cons_append, List.nil_append, headOf, e]
    repeat rw [if_neg (by omega)]
    rw [if_pos (by omega), Nat.add_sub_cancel_left, this]
  | len hj h =>
    rename_i j
    rw [List.append_assoc, num_cons]
    have := extBody_append s r tag ht
    rw [hn] at this
    have e : (0xc7 + UInt8.ofNat j).toNat = 199 + j := toNat_add _ _ (by simp; omega)
    simp only [headOf, e]
    repeat rw [if_neg (by omega)]
    rw [if_pos (by omega), Nat.add_sub_cancel_left, sized_append _ _ _ h]
    exact this

theorem parse_val {bs r : Bytes} {v : Val} (h : headOf bs = .val v r) (f : Nat) : parse (f + 1) bs = some (v, r) := by
  rw [parse, h]

/-- The two halves of entries. -/
def flat : List (Val × Val) → List Val
  | [] => []
  | (k, v) :: l => k :: v :: flat l

theorem pairUp_flat (l : List (Val × Val)) : pairUp (flat l) = l := by
  induction l with
  | nil => rfl
  | cons e l ih => obtain ⟨k, v⟩ := e; rw [flat, pairUp, ih]

theorem leaf {bs : Bytes} {v : Val} (h : ∀ r, headOf (bs ++ r) = .val v r) :
    ∃ f0, ∀ f, f0 ≤ f → ∀ r, parse f (bs ++ r) = some (v, r) := by
  refine ⟨1, fun f hf r => ?_⟩
  obtain ⟨g, rfl⟩ : ∃ g, f = g + 1 := ⟨f - 1, by omega⟩
  exact parse_val (h r) g

theorem many_cons {p : Bytes → Option (Val × Bytes)} {a b r : Bytes} {v : Val} {l : List Val} {n : Nat}
    (h1 : ∀ r, p (a ++ r) = some (v, r)) (h2 : ∀ r, many p n (b ++ r) = some (l, r)) :
    many p (n + 1) (a ++ (b ++ r)) = some (v :: l, r) := by
  rw [many, h1]
  simp [h2]

mutual
/-- The reader reads every serialization of a value, with whatever follows. -/
theorem parse_wire : {v : Val} → {bs : Bytes} → Wire ExtHead v bs → ∃ f0, ∀ f, f0 ≤ f → ∀ r, parse f (bs ++ r) = some (v, r)
  | _, _, .nil => leaf fun _ => rfl
  | _, _, .false => leaf fun _ => rfl
  | _, _, .true => leaf fun _ => rfl
  | _, _, .posfix (n := n) h => leaf fun r => by
      have e : (UInt8.ofNat n).toNat = n := by rw [UInt8.toNat_ofNat']; omega
      simp only [List.cons_append, List.nil_append, headOf, e]
      rw [if_pos h]
  | _, _, .negfix (n := n) h => leaf fun r => by
      have e : (UInt8.ofNat (256 - n)).toNat = 256 - n := by rw [UInt8.toNat_ofNat']; omega
      simp only [List.cons_append, List.nil_append, headOf, e]
      repeat rw [if_neg (by omega)]
      rw [show ((256 - n : Nat) : Int) - 256 = -(n : Int) by omega]
  | _, _, .uint (n := n) (j := j) hj h => leaf fun r => by
      rw [num_cons]
      have e : (0xcc + UInt8.ofNat j).toNat = 204 + j := toNat_add _ _ (by simp; omega)
      simp only [headOf, e]
      repeat rw [if_neg (by omega)]
      rw [if_pos (by omega), Nat.add_sub_cancel_left, fixed_append _ _ _ h]
  | _, _, .int (i := i) (j := j) hj h => leaf fun r => by
      rw [num_cons]
      have e : (0xd0 + UInt8.ofNat j).toNat = 208 + j := toNat_add _ _ (by simp; omega)
      obtain ⟨h1, h2⟩ := signed_twos (2 ^ j) (by rcases cases4 hj with rfl | rfl | rfl | rfl <;> simp) i h
      simp only [headOf, e]
      repeat rw [if_neg (by omega)]
      rw [if_pos (by omega), Nat.add_sub_cancel_left, fixed_append _ _ _ h2, h1]
  | _, _, .f32 h => leaf fun r => fixed_append _ 4 _ (by simpa using h) r
  | _, _, .f64 h => leaf fun r => fixed_append _ 8 _ (by simpa using h) r
  | _, _, .str hh => leaf fun r => head_str _ _ r hh
  | _, _, .bin hh => leaf fun r => head_bin _ _ r hh
  | _, _, .arr (l := l) (h := h) (b := b) hh hb => by
      obtain ⟨f0, hf⟩ := parse_wires hb
      refine ⟨f0 + 1, fun f hle r => ?_⟩
      obtain ⟨g, rfl⟩ : ∃ g, f = g + 1 := ⟨f - 1, by omega⟩
      rw [List.append_assoc, parse, head_arr _ _ _ hh]
      simp [hf g (by omega) r]
  | _, _, .map (l := l) (h := h) (b := b) hh hb => by
      obtain ⟨f0, hf⟩ := parse_pairs hb
      refine ⟨f0 + 1, fun f hle r => ?_⟩
      obtain ⟨g, rfl⟩ : ∃ g, f = g + 1 := ⟨f - 1, by omega⟩
      rw [List.append_assoc, parse, head_map _ _ _ hh]
      simp [hf g (by omega) r, pairUp_flat]
  | _, _, .ext hh ht => leaf fun r => head_ext _ _ _ r hh ht

theorem parse_wires : {l : List Val} → {b : Bytes} → Wires ExtHead l b →
    ∃ f0, ∀ f, f0 ≤ f → ∀ r, many (parse f) l.length (b ++ r) = some (l, r)
  | _, _, .nil => ⟨0, fun _ _ _ => rfl⟩
  | _, _, .cons hv hl => by
      obtain ⟨f1, h1⟩ := parse_wire hv
      obtain ⟨f2, h2⟩ := parse_wires hl
      refine ⟨f1 + f2, fun f hle r => ?_⟩
      rw [List.append_assoc]
      exact many_cons (h1 f (by omega)) (h2 f (by omega))

theorem parse_pairs : {l : List (Val × Val)} → {b : Bytes} → WirePairs ExtHead l b →
    ∃ f0, ∀ f, f0 ≤ f → ∀ r, many (parse f) (2 * l.length) (b ++ r) = some (flat l, r)
  | _, _, .nil => ⟨0, fun _ _ _ => rfl⟩
  | _, _, .cons (a := a) (b := b) (c := c) hk hv hl => by
      obtain ⟨f1, h1⟩ := parse_wire hk
      obtain ⟨f2, h2⟩ := parse_wire hv
      obtain ⟨f3, h3⟩ := parse_pairs hl
      refine ⟨f1 + f2 + f3, fun f hle r => ?_⟩
      rw [List.append_assoc, List.append_assoc, List.length_cons, Nat.mul_add]
      have := many_cons (r := r) (h2 f (by omega)) (h3 f (by omega))
      rw [show 2 * 1 = 1 + 1 from rfl, ← Nat.add_assoc]
      rw [many, h1 f (by omega)]
      simp [this, flat]
end

/-- MessagePack is unambiguous: no bytes are a serialization of two values, even if something follows. -/
theorem wire_unique {v v' : Val} {bs bs' r r' : Bytes} (h : Wire ExtHead v bs) (h' : Wire ExtHead v' bs')
    (e : bs ++ r = bs' ++ r') : v = v' ∧ r = r' := by
  obtain ⟨f1, h1⟩ := parse_wire h
  obtain ⟨f2, h2⟩ := parse_wire h'
  have a := h1 (f1 + f2) (by omega) r
  have b := h2 (f1 + f2) (by omega) r'
  rw [e, b] at a
  simpa using (Option.some.inj a).symm

/-! ## C189 -/

/-- The arguments as MessagePack values, in order. -/
def argVals (env : Env) : List (Bytes × Ty) → List GV → List Val
  | (_, t) :: fs, v :: vs => valOf env t v :: argVals env fs vs
  | _, _ => []

theorem keys_fieldsVal (env : Env) : ∀ (fs : List (Bytes × Ty)) (vs : List GV) (e : Val × Val), e ∈ fieldsVal env fs vs →
    ∃ n ∈ names fs, e.1 = .str n
  | [], _, e, h => by simp [fieldsVal] at h
  | (n, t) :: fs, [], e, h => by simp [fieldsVal] at h
  | (n, t) :: fs, v :: vs, e, h => by
      simp only [fieldsVal, List.mem_cons] at h
      rcases h with rfl | h
      · exact ⟨n, by simp [names], rfl⟩
      · obtain ⟨m, h1, h2⟩ := keys_fieldsVal env fs vs e h
        exact ⟨m, by simp only [names, List.map_cons, List.mem_cons] at h1 ⊢; exact .inr h1, h2⟩

theorem keys_memberVal (env : Env) : ∀ (fs : List (Bytes × Ty)) (vs : List GV) (e : Val × Val), e ∈ memberVal env fs vs →
    ∃ n ∈ names fs, e.1 = .str n
  | [], _, e, h => by simp [memberVal] at h
  | (n, t) :: fs, [], e, h => by simp [memberVal] at h
  | (n, t) :: fs, v :: vs, e, h => by
      by_cases hv : v = .null
      · subst hv
        simp only [memberVal] at h
        obtain ⟨m, h1, h2⟩ := keys_memberVal env fs vs e h
        exact ⟨m, by simp only [names, List.map_cons, List.mem_cons] at h1 ⊢; exact .inr h1, h2⟩
      · have : memberVal env ((n, t) :: fs) (v :: vs) = [(.str n, valOf env t v)] := by
          cases v <;> first | exact absurd rfl hv | simp [memberVal]
        rw [this] at h
        simp only [List.mem_singleton] at h
        subst h
        exact ⟨n, by simp [names], rfl⟩

/-- A field that no entry is named after has no value. -/
theorem field_none {entries : List (Val × Val)} {n : Bytes} (h : ∀ e ∈ entries, isName n e.1 = false) : field entries n = none := by
  have : entries.filter (fun e => isName n e.1) = [] := by
    rw [List.filter_eq_nil_iff]
    intro e he
    simp [h e he]
  simp [field, this]

theorem fields_found {env : Env} {a : Allow} : ∀ {fs : List (Bytes × Ty)} {vs : List GV} (_ : TypedF env a fs vs) (pre : List (Val × Val)),
    (names fs).Nodup → (∀ e ∈ pre, ∀ n ∈ names fs, isName n e.1 = false) →
    fields (pre ++ fieldsVal env fs vs) (names fs) = some (argVals env fs vs)
  | _, _, .nil, pre, _, _ => by simp [names, fields, argVals]
  | (n, t) :: fs, v :: vs, .cons _ hl, pre, hn, hp => by
      have hn' : n ∉ names fs ∧ (names fs).Nodup := by simpa [names] using hn
      have hrest := fields_found hl (pre ++ [(.str n, valOf env t v)]) hn'.2 (by
        intro e he m hm
        rcases List.mem_append.mp he with he | he
        · exact hp e he m (by simp only [names, List.map_cons, List.mem_cons] at hm ⊢; exact .inr hm)
        · simp only [List.mem_singleton] at he
          subst he
          simp only [isName, beq_eq_false_iff_ne, ne_eq]
          rintro rfl
          exact hn'.1 hm)
      have h1 : pre.filter (fun e => isName n e.1) = [] := by
        rw [List.filter_eq_nil_iff]
        intro e he
        simp [hp e he n (by simp [names])]
      have h2 : (fieldsVal env fs vs).filter (fun e => isName n e.1) = [] := by
        rw [List.filter_eq_nil_iff]
        intro e he
        obtain ⟨m, hm, hk⟩ := keys_fieldsVal env fs vs e he
        rw [hk]
        simp only [isName, beq_iff_eq]
        rintro rfl
        exact hn'.1 hm
      have h3 : field (pre ++ fieldsVal env ((n, t) :: fs) (v :: vs)) n = some (valOf env t v) := by
        have hself : isName n (.str n) = true := by simp [isName]
        rw [field, fieldsVal, List.filter_append, h1, List.filter_cons, if_pos hself, h2]
        rfl
      have h4 : fields (pre ++ fieldsVal env ((n, t) :: fs) (v :: vs)) (names fs) = some (argVals env fs vs) := by
        rw [← hrest]
        simp [fieldsVal]
      show fields _ (n :: names fs) = _
      rw [fields, h3, h4]
      rfl

/-- What is read of data that begins with a map. -/
theorem inputs_map {l : List (Val × Val)} {bs : Bytes} (h : Wire ExtHead (.map l) bs) :
    ∃ f0, ∀ f, f0 ≤ f → ∀ r ps, inputs f ps (bs ++ r) = fields l ps := by
  obtain ⟨f0, h0⟩ := parse_wire h
  exact ⟨f0, fun f hle r ps => by rw [inputs, h0 f hle r]⟩

/-- What is read of data that begins with anything else. -/
theorem inputs_other {v : Val} {bs : Bytes} (h : Wire ExtHead v bs) (hv : ∀ l, v ≠ .map l) :
    ∃ f0, ∀ f, f0 ≤ f → ∀ r ps, inputs f ps (bs ++ r) = none := by
  obtain ⟨f0, h0⟩ := parse_wire h
  refine ⟨f0, fun f hle r ps => ?_⟩
  rw [inputs, h0 f hle r]
  cases v <;> first | rfl | exact absurd rfl (hv _)

/-- **C189** For all operations with arguments in the ordinary form, and all values for them: what a client generated in Go sends is
read by a service generated in Rust as exactly these arguments, each under its own name. -/
theorem go_args_read_partial (format : Time → Bytes) {env : Env} (op : Operation) (hw : WellFormed (defs env op))
    (hu : op.unary = false) (hs : ∀ p ∈ op.params, p.stream = false) (hne : op.params ≠ []) (vs vs' : List GV)
    (ho : Reorder (.obj vs) (.obj vs'))
    (ht : TypedF (defs env op) Allow.all (op.params.map fun p => (p.name, p.ty.ty)) vs')
    (hlt : Size.ops (write (defs env op) (.named env.length) (.obj vs)) < 2 ^ 32) :
    ∃ bs, clientSends env format op vs vs' = some (.ok bs) ∧
      ∃ f0, ∀ f, f0 ≤ f → inputs f (op.params.map (·.name)) bs =
        some (argVals (defs env op) (op.params.map fun p => (p.name, p.ty.ty)) vs') := by
  have hargs : op.args = op.params := by
    rw [Operation.args, List.filter_eq_self]
    intro p hp
    simp [hs p hp]
  have hemp : op.args.isEmpty = false := by
    rw [hargs]
    cases h : op.params with
    | nil => exact absurd h hne
    | cons _ _ => rfl
  have hget : (defs env op).get env.length = .struct (op.params.map fun p => (p.name, p.ty.ty)) := by
    have hd : defs env op = env ++ [.struct (op.params.map fun p => (p.name, p.ty.ty))] := by
      rw [defs, hemp, hu, hargs]
      rfl
    rw [hd]
    simp [Env.get]
  obtain ⟨bs, k, h1, h2, _⟩ := Props.Codegen.codec_wire (defs env op) hw env.length (.obj vs) (.obj vs') ho (.struct hget ht) hlt
  have hval : valOf (defs env op) (.named env.length) (.obj vs') =
      .map (fieldsVal (defs env op) (op.params.map fun p => (p.name, p.ty.ty)) vs') := by
    simp [valOf, Ty.strip, hget]
  rw [hval] at h2
  obtain ⟨f0, h0⟩ := inputs_map h2
  refine ⟨bs ++ List.replicate k 0, ?_, f0, fun f hle => ?_⟩
  · simp only [clientSends, hemp, hu, Bool.false_eq_true, if_false]
    rw [h1]
  · rw [h0 f hle]
    have hnd := hw.nodup env.length
    rw [hget] at hnd
    have := fields_found ht [] hnd (fun _ h => nomatch h)
    simp only [names, List.map_map, List.nil_append] at this
    exact this

/-- **C189** Not so for an operation in the unary form whose argument is a type without a field of the name of the parameter: the Go
client sends the fields of the argument, the Rust service looks for the parameter among them, and every call fails. -/
theorem unary_object_refuted (format : Time → Bytes) {env : Env} (op : Operation) (p : Param) (n : Nat) (hw : WellFormed env)
    (hu : op.unary = true) (hp : op.params = [p]) (hs : p.stream = false) (hty : p.ty = .obj n)
    (hno : p.name ∉ names (env.get n).fields) (v v' : GV) (ho : Reorder v v') (ht : Typed env Allow.all (.named n) v')
    (hlt : Size.ops (write env (.named n) v) < 2 ^ 32) :
    ∃ bs, clientSends env format op [v] [v'] = some (.ok bs) ∧ ∃ f0, ∀ f, f0 ≤ f → inputs f [p.name] bs = none := by
  obtain ⟨bs, k, h1, h2, _⟩ := Props.Codegen.codec_wire env hw n v v' ho ht hlt
  have hargs : op.args = [p] := by simp [Operation.args, hp, hs]
  have hsend : clientSends env format op [v] [v'] = some (.ok (bs ++ List.replicate k 0)) := by
    simp [clientSends, hargs, hu, hty, clientArg, encode, h1]
  have hmap : ∃ l, valOf env (.named n) v' = .map l ∧ ∀ e ∈ l, ∃ m ∈ names (env.get n).fields, e.1 = .str m := by
    cases ht with
    | nilColl h => simp [Collection] at h
    | struct hg hf =>
      refine ⟨_, by simp only [valOf, Ty.strip, hg]; rfl, ?_⟩
      intro e he
      rw [hg]
      exact keys_fieldsVal env _ _ e he
    | union hg _ =>
      refine ⟨_, by simp only [valOf, Ty.strip, hg]; rfl, ?_⟩
      intro e he
      rw [hg]
      exact keys_memberVal env _ _ e he
  obtain ⟨l, hl, hk⟩ := hmap
  rw [hl] at h2
  obtain ⟨f0, h0⟩ := inputs_map h2
  refine ⟨_, hsend, f0, fun f hle => ?_⟩
  rw [h0 f hle, fields, field_none]
  intro e he
  obtain ⟨m, hm, hke⟩ := hk e he
  rw [hke]
  simp only [isName, beq_eq_false_iff_ne, ne_eq]
  rintro rfl
  exact hno hm

/-- **C189** Nor for one whose argument is a primitive: the Go client sends the value alone. -/
theorem unary_prim_refuted (format : Time → Bytes) {env : Env} (op : Operation) (p : Param) (q : Prim) (hw : WellFormed env)
    (hu : op.unary = true) (hp : op.params = [p]) (hs : p.stream = false) (hty : p.ty = .prim q)
    (hc : accepts (clientArg p.ty) p.ty = true) (v v' : GV) (ht : Typed env Allow.all (.prim q) v')
    (hlt : Size.ops (write env (.prim q) v') < 2 ^ 32) :
    ∃ bs, clientSends env format op [v] [v'] = some (.ok bs) ∧ ∃ f0, ∀ f, f0 ≤ f → inputs f [p.name] bs = none := by
  have hargs : op.args = [p] := by simp [Operation.args, hp, hs]
  have hq : q ≠ .time := by
    rintro rfl
    rw [hty] at hc
    exact absurd hc (by decide)
  obtain ⟨x, rfl⟩ : ∃ x, v' = .sc x := by
    cases ht with
    | prim h => exact ⟨_, rfl⟩
    | nilColl h => simp [Collection] at h
  have htype : (clientArg p.ty).type = some (.prim q) := by
    rcases Props.Calls.accepts_prim hc (p := q) (by rw [hty]; rfl) with h | h
    · exact h
    · rw [hty] at h
      simp [clientArg] at h
  obtain ⟨bs, h1, h2, h3, _⟩ := good (lib := ⟨fun x => x, fun _ => none⟩) (Props.Codegen.fit_refl hw Allow.all) ht
  have hwb := Props.Codegen.withBuffer_fits h1 h2.1 hlt
  have hv : valOf env (.prim q) (.sc x) = scVal x := by simp [valOf]
  rw [hv] at h3
  obtain ⟨f0, h0⟩ := inputs_other h3 (by cases x <;> simp [scVal])
  refine ⟨bs ++ List.replicate (Size.ops (write env (.prim q) (.sc x)) - bs.length) 0, ?_, f0, fun f hle => h0 f hle _ _⟩
  simp only [clientSends, hargs, List.isEmpty_cons, Bool.false_eq_true, if_false, if_pos hu]
  rw [Props.Calls.encode_prim env format htype hq]
  simp only [write] at hwb ⊢
  simp only [Msgpack.toBytes, hwb]

/-- **C189** Nor for an operation without arguments: the Go client sends no data, which is no MessagePack value, so every call fails. -/
theorem no_args_refuted (format : Time → Bytes) (env : Env) (op : Operation) (h : op.params = []) (vs vs' : List GV) :
    clientSends env format op vs vs' = some (.ok []) ∧ ∀ f, inputs f (op.params.map (·.name)) [] = none := by
  refine ⟨by simp [clientSends, Operation.args, h], fun f => ?_⟩
  cases f <;> simp [inputs, parse, headOf]

theorem field_mem {entries : List (Val × Val)} {n : Bytes} {v : Val} (h : field entries n = some v) : (.str n, v) ∈ entries := by
  unfold field at h
  cases hf : entries.filter fun e => isName n e.1 with
  | nil => rw [hf] at h; cases h
  | cons e l =>
    rw [hf] at h
    cases l with
    | cons _ _ => cases h
    | nil =>
      obtain ⟨k, x⟩ := e
      simp only [Option.some.injEq] at h
      subst h
      have hm : (k, x) ∈ entries.filter fun e => isName n e.1 := by rw [hf]; exact List.mem_singleton.mpr rfl
      rw [List.mem_filter] at hm
      cases k <;> simp [isName] at hm
      exact hm.2 ▸ hm.1

theorem fields_all {entries : List (Val × Val)} : ∀ {params : List Bytes} {vs : List Val}, fields entries params = some vs →
    vs.length = params.length ∧ ∀ (i : Nat) n v, params[i]? = some n → vs[i]? = some v → (.str n, v) ∈ entries
  | [], vs, h => by
    simp only [fields, Option.some.injEq] at h
    subst h
    exact ⟨rfl, fun i n v hi => by simp at hi⟩
  | p :: ps, vs, h => by
    simp only [fields] at h
    cases hp : field entries p with
    | none => rw [hp] at h; simp at h
    | some x =>
      cases hs : fields entries ps with
      | none => rw [hp, hs] at h; simp at h
      | some xs =>
        rw [hp, hs] at h
        simp only [Option.some.injEq] at h
        subst h
        obtain ⟨h1, h2⟩ := fields_all hs
        refine ⟨by simp [h1], fun i n v hi hv => ?_⟩
        cases i with
        | zero =>
          simp only [List.getElem?_cons_zero, Option.some.injEq] at hi hv
          subst hi hv
          exact field_mem hp
        | succ i => exact h2 i n v (by simpa using hi) (by simpa using hv)

/-- **C189** Whatever data arrives: if the implementation is called, it is given one value for each parameter, and each is in the data
under the name of the parameter. -/
theorem inputs_all (fuel : Nat) (params : List Bytes) (data : Bytes) (vs : List Val) (h : inputs fuel params data = some vs) :
    vs.length = params.length ∧ ∃ entries rest, parse fuel data = some (.map entries, rest) ∧
      ∀ (i : Nat) n v, params[i]? = some n → vs[i]? = some v → (.str n, v) ∈ entries := by
  unfold inputs at h
  cases hp : parse fuel data with
  | none => rw [hp] at h; cases h
  | some x =>
    obtain ⟨x, rest⟩ := x
    rw [hp] at h
    cases x <;> simp only [reduceCtorEq] at h
    case map entries =>
      obtain ⟨h1, h2⟩ := fields_all h
      exact ⟨h1, entries, rest, rfl, h2⟩

/-! ### Cases -/

example (format : Time → Bytes) :
    ∃ bs, clientSends [] format Props.Calls.sell [.sc (.uint 7), .null] [.sc (.uint 7), .null] = some (.ok bs) ∧
      ∃ f0, ∀ f, f0 ≤ f → inputs f [[110], [108]] bs = some [.int 7, .arr []] := by
  have := go_args_read_partial format Props.Calls.sell (env := []) Props.Calls.sell_wf rfl (by simp [Props.Calls.sell])
    (by simp [Props.Calls.sell]) [.sc (.uint 7), .null] [.sc (.uint 7), .null] (.refl _)
    (.cons (.prim (by simp [IsPrim])) (.cons (.nilColl (by simp [T.ty, Collection])) .nil)) (by decide +kernel)
  simpa [argVals, valOf, scVal, Props.Calls.sell, T.ty, Ty.strip] using this

example (format : Time → Bytes) :
    ∃ bs, clientSends Props.Calls.shopEnv format Props.Calls.buy [.obj [.sc (.uint 7), .null]] [.obj [.sc (.uint 7), .null]] =
        some (.ok bs) ∧ ∃ f0, ∀ f, f0 ≤ f → inputs f [[97]] bs = none :=
  unary_object_refuted format Props.Calls.buy ⟨[97], "a", false, .obj 0⟩ 0 Props.Calls.shop_wf rfl rfl rfl rfl (by decide)
    (.obj [.sc (.uint 7), .null]) (.obj [.sc (.uint 7), .null]) (.refl _)
    (.struct rfl (.cons (.prim (by simp [IsPrim])) (.cons (.nilColl (by simp [Collection])) .nil))) (by decide +kernel)

/-- An operation with a unary parameter that is a string. -/
def greet : Operation := ⟨"greet", true, [⟨[110], "n", false, .prim .str⟩], false, .prim .str⟩

example (format : Time → Bytes) :
    ∃ bs, clientSends Props.Calls.shopEnv format greet [.sc (.str [104, 105])] [.sc (.str [104, 105])] = some (.ok bs) ∧
      ∃ f0, ∀ f, f0 ≤ f → inputs f [[110]] bs = none :=
  unary_prim_refuted format greet ⟨[110], "n", false, .prim .str⟩ .str Props.Calls.shop_wf rfl rfl rfl rfl (by decide)
    (.sc (.str [104, 105])) (.sc (.str [104, 105])) (.prim (by simp [IsPrim, short])) (by decide +kernel)

example (format : Time → Bytes) : clientSends [] format ⟨"ping", false, [], false, .void⟩ [] [] = some (.ok []) ∧
    ∀ f, inputs f [] [] = none := no_args_refuted format [] ⟨"ping", false, [], false, .void⟩ rfl [] []

/-- `{"q": nil, "p": true}` for the parameters `p` and `q`. -/
example : ∃ f, inputs f [[112], [113]] [0x82, 0xa1, 113, 0xc0, 0xa1, 112, 0xc3] = some [.bool true, .nil] := by
  have k1 : Wire ExtHead (.str [113]) [0xa1, 113] := .str (s := [113]) (.fix (by decide))
  have k2 : Wire ExtHead (.str [112]) [0xa1, 112] := .str (s := [112]) (.fix (by decide))
  have m : Wire ExtHead (.map [(.str [113], .nil), (.str [112], .bool true)]) [0x82, 0xa1, 113, 0xc0, 0xa1, 112, 0xc3] :=
    .map (.fix (by decide)) (.cons k1 .nil (.cons k2 .true .nil))
  obtain ⟨f0, h⟩ := inputs_map m
  exact ⟨f0, (h f0 (Nat.le_refl _) [] [[112], [113]]).trans rfl⟩

end Iota.Props.RustInputs
