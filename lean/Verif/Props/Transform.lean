import Verif.Model.Transform
import Verif.Props.Msgpack

/-!
# C57: transforms are inverse pairs; C78: they report payloads that were cut off
-/

namespace Iota.Props.Transform
open Iota.Go Iota.Msgpack Iota.Transform Iota.Spec.Msgpack Iota.Lemmas.Msgpack

/-- Decoding what was encoded gives the value. -/
def Inverse {α : Type} (t : Transform α) (v : α) : Prop :=
  ∃ raw, t.encode v = .ok raw ∧ t.decode raw = .ok v

/-- The calls and the reader fit together, and the buffer is large enough. -/
def Fits {α : Type} (ops : List Op) (rd : Rd α) (v : α) : Prop :=
  ∃ bs, Writes (Enc.ops ops) bs ∧ bs.length ≤ Size.ops ops ∧ Reads rd bs v

theorem toBytes_larger {ops : List Op} {bs : Bytes} (h : Writes (Enc.ops ops) bs) (hl : bs.length ≤ Size.ops ops)
    (hlt : Size.ops ops < 2 ^ 32) : toBytes ops = .ok (bs ++ List.replicate (Size.ops ops - bs.length) 0) := by
  have := h [] (List.replicate bs.length 0) (List.replicate (Size.ops ops - bs.length) 0) (by simp) (by simp; omega)
  unfold toBytes withBuffer D.new
  rw [Nat.mod_eq_of_lt (by unfold U32; omega)]
  simp only [List.nil_append, List.length_nil, Nat.zero_add] at this
  rw [List.replicate_append_replicate, show bs.length + (Size.ops ops - bs.length) = Size.ops ops by omega] at this
  rw [this]

theorem reads_start {α : Type} {rd : Rd α} {bs : Bytes} {v : α} (h : Reads rd bs v) (r : Bytes) (hlt : (bs ++ r).length < 2 ^ 32) :
    rd (D.new (bs ++ r)) = (.ok v, ⟨bs ++ r, bs.length, false⟩) := by
  have := h [] r (by simpa using hlt)
  simpa [D.new] using this

theorem fits_inverse {α : Type} {op : α → Op} {rd : Rd α} {v : α} (h : Fits [op v] rd v) (hlt : Size.op (op v) < 2 ^ 32) :
    Inverse (single op rd) v := by
  obtain ⟨bs, h1, h2, h3⟩ := h
  have hs : Size.ops [op v] = Size.op (op v) := by simp [Size.ops]
  refine ⟨_, toBytes_larger h1 h2 (by omega), ?_⟩
  show (rd (D.new _)).1 = _
  rw [reads_start h3 _ (by simp; omega)]

theorem fits_one {α : Type} {o : Op} {rd : Rd α} {v : α} {bs : Bytes} (h1 : Writes (Enc.op o) bs) (h2 : bs.length ≤ Size.op o)
    (h3 : Reads rd bs v) : Fits [o] rd v := by
  refine ⟨bs, ?_, by simpa [Size.ops] using h2, h3⟩
  have := h1.seq writes_skip
  simpa [Enc.ops] using this

theorem writes_length {w : Wr} {x y : Bytes} (hx : Writes w x) (hy : Writes w y) (lx : x.length < 2 ^ 31) (ly : y.length < 2 ^ 31) :
    x.length = y.length := by
  have h1 := hx [] (List.replicate x.length 0) (List.replicate y.length 0) (by simp) (by simp; omega)
  have h2 := hy [] (List.replicate y.length 0) (List.replicate x.length 0) (by simp) (by simp; omega)
  simp only [List.nil_append, List.replicate_append_replicate] at h1 h2
  rw [Nat.add_comm y.length x.length, h1] at h2
  injection h2 with h2
  injection h2 with _ h2 _
  simpa using h2

theorem bytes_fits (b : Bytes) (h : short b) : Fits [.bytes b] Dec.bytes b := by
  obtain ⟨bs, h1, h2, h3, h4⟩ := bytes_enc b h
  refine fits_one (o := .bytes b) (by simpa [Enc.op] using h1) ?_ h4
  show bs.length ≤ Size.bytes b
  by_cases hb : b.length = 255
  · have w : Writes (Enc.bytes b) ((beBytes 1 0xc4 ++ beBytes 1 255) ++ b) := by
      unfold Enc.bytes
      rw [hb, if_neg (by decide)]
      unfold Enc.binLen
      rw [if_pos (by decide)]
      exact ((writes_setU 1 0xc4).seq (writes_setU 1 255)).seq (writes_setBytes b (by omega))
    have hs : Size.bytes b = 258 := by
      unfold Size.bytes
      rw [hb]; decide
    have hl : bs.length < 2 ^ 31 := by
      have := h3 ExtHead
      cases this with
      | bin hh => cases hh with | @len j hj hn =>
        have : (2:Nat) ^ j ≤ 2 ^ 2 := Nat.pow_le_pow_right (by decide) (by omega)
        simp [num]
        omega
    have := writes_length h1 w hl (by simp; omega)
    simp at this
    omega
  · exact Nat.le_of_eq (h2 hb)

/-- **C57** Strings. -/
theorem string_inverse (s : Bytes) (h : Size.str s < 2 ^ 32) (hs : short s) : Inverse string s := by
  obtain ⟨bs, h1, h2, _, h3⟩ := str_enc s hs
  exact fits_inverse (op := .str) (fits_one (o := .str s) (by simpa [Enc.op] using h1) (by simp [Size.op, h2]) h3) (by simpa [Size.op] using h)

/-- **C57** Byte strings. -/
theorem bytes_inverse (b : Bytes) (h : Size.bytes b < 2 ^ 32) (hs : short b) : Inverse Iota.Transform.bytes b :=
  fits_inverse (op := .bytes) (bytes_fits b hs) (by simpa [Size.op] using h)

/-- **C57** Booleans. -/
theorem bool_inverse (b : Bool) : Inverse Iota.Transform.bool b := by
  obtain ⟨bs, h1, h2, _, h3⟩ := bool_enc b
  exact fits_inverse (op := .bool) (fits_one (o := .bool b) (by simpa [Enc.op] using h1) (by simp [Size.op, h2]) h3)
    (by simp [Size.op, Size.bool])

theorem int_small (v : Int) : Size.int v < 2 ^ 32 := by
  unfold Size.int
  repeat' split
  all_goals decide

theorem uint_small (v : Nat) : Size.uint v < 2 ^ 32 := by
  unfold Size.uint
  repeat' split
  all_goals decide

theorem int_fits (w : Width) (v : Int) (h : (Item.int w v).ok) : Fits [.int v] (rint w) v := by
  have h' : i64 v := by
    unfold i64
    cases w <;> simp [Item.ok, Width.bytes] at h <;> omega
  obtain ⟨bs, h1, h2, _, h3⟩ := int_enc v h'
  exact fits_one (o := .int v) (by simpa [Enc.op] using h1) (by simp [Size.op, h2]) (Iota.Props.Msgpack.rint_reads h h3)

theorem uint_fits (w : Width) (v : Nat) (h : (Item.uint w v).ok) : Fits [.uint v] (ruint w) v := by
  have h' : u64 v := by
    unfold u64
    cases w <;> simp [Item.ok, Width.bytes] at h <;> omega
  obtain ⟨bs, h1, h2, _, h3⟩ := uint_enc v h'
  exact fits_one (o := .uint v) (by simpa [Enc.op] using h1) (by simp [Size.op, h2]) (Iota.Props.Msgpack.ruint_reads h h3)

/-- **C57** Signed integers of all widths. -/
theorem int_inverse (v : Int) :
    (-2 ^ 63 ≤ v ∧ v < 2 ^ 63 → Inverse int64 v) ∧ (-2 ^ 31 ≤ v ∧ v < 2 ^ 31 → Inverse int32 v) ∧
    (-2 ^ 15 ≤ v ∧ v < 2 ^ 15 → Inverse int16 v) ∧ (-2 ^ 7 ≤ v ∧ v < 2 ^ 7 → Inverse int8 v) :=
  ⟨fun h => fits_inverse (op := .int) (int_fits .w64 v h) (by simpa [Size.op] using int_small v),
   fun h => fits_inverse (op := .int) (int_fits .w32 v h) (by simpa [Size.op] using int_small v),
   fun h => fits_inverse (op := .int) (int_fits .w16 v h) (by simpa [Size.op] using int_small v),
   fun h => fits_inverse (op := .int) (int_fits .w8 v h) (by simpa [Size.op] using int_small v)⟩

/-- **C57** Unsigned integers of all widths. -/
theorem uint_inverse (v : Nat) :
    (v < 2 ^ 64 → Inverse uint64 v) ∧ (v < 2 ^ 32 → Inverse uint32 v) ∧
    (v < 2 ^ 16 → Inverse uint16 v) ∧ (v < 2 ^ 8 → Inverse uint8 v) :=
  ⟨fun h => fits_inverse (op := .uint) (uint_fits .w64 v h) (by simpa [Size.op] using uint_small v),
   fun h => fits_inverse (op := .uint) (uint_fits .w32 v h) (by simpa [Size.op] using uint_small v),
   fun h => fits_inverse (op := .uint) (uint_fits .w16 v h) (by simpa [Size.op] using uint_small v),
   fun h => fits_inverse (op := .uint) (uint_fits .w8 v h) (by simpa [Size.op] using uint_small v)⟩

/-- **C57** Floating-point numbers, bit by bit. -/
theorem float_inverse (lib : Lib) (v : Nat) : (v < 2 ^ 64 → Inverse float64 v) ∧ (v < 2 ^ 32 → Inverse (float32 lib) v) := by
  refine ⟨fun h => ?_, fun h => ?_⟩
  · obtain ⟨bs, h1, h2, _, h3⟩ := f64_enc v h
    exact fits_inverse (op := .f64) (fits_one (o := .f64 v) (by simpa [Enc.op] using h1) (by simp [Size.op, h2]) h3)
      (by simp [Size.op, Size.f64])
  · obtain ⟨bs, h1, h2, _, h3⟩ := f32_enc lib v h
    exact fits_inverse (op := .f32) (fits_one (o := .f32 v) (by simpa [Enc.op] using h1) (by simp [Size.op, h2]) h3)
      (by simp [Size.op, Size.f32])

/-- **C57** Nothing. -/
theorem void_inverse : Inverse void () := ⟨_, rfl, rfl⟩

/-- **C57** (part) Times for which `time.Parse` undoes `Format`. Which these are: `GoTime.time_inverse_partial`. -/
theorem time_inverse_partial (lib : Lib) (format : Time → Bytes) (t : Time) (hf : lib.parseTime (format t) = some t)
    (h : Size.str (format t) < 2 ^ 32) (hs : short (format t)) : Inverse (Iota.Transform.time lib format) t := by
  obtain ⟨raw, h1, h2⟩ := string_inverse (format t) h hs
  refine ⟨raw, h1, ?_⟩
  show (do let s ← (Dec.str (D.new raw)).1; _) = _
  rw [show (Dec.str (D.new raw)).1 = .ok (format t) from h2, Res.ok_bind, hf]

/-- **C57** A user type whose `Encode` and `Decode` fit together. -/
theorem codec_inverse {α : Type} (c : Codec α) (v : α) (h : Fits (c.enc v) c.dec v) (hlt : Size.ops (c.enc v) < 2 ^ 32) :
    Inverse (codec c) v := by
  obtain ⟨bs, h1, h2, h3⟩ := h
  refine ⟨_, toBytes_larger h1 h2 hlt, ?_⟩
  show (c.dec (D.new _)).1 = _
  rw [reads_start h3 _ (by simp; omega)]

theorem ops_append (a b : List Op) : Size.ops (a ++ b) = Size.ops a + Size.ops b := by
  induction a with
  | nil => simp [Size.ops]
  | cons o a ih => simp [Size.ops, ih, Nat.add_assoc]

theorem enc_append (a b : List Op) {x y : Bytes} (hx : Writes (Enc.ops a) x) (hy : Writes (Enc.ops b) y) :
    Writes (Enc.ops (a ++ b)) (x ++ y) := by
  have e : Enc.ops (a ++ b) = (Enc.ops a).seq (Enc.ops b) := by
    induction a generalizing x with
    | nil => funext d; simp [Enc.ops, Wr.seq, Wr.skip, Res.bind]
    | cons o a ih =>
      have : ∀ a, Enc.ops (a ++ b) = (Enc.ops a).seq (Enc.ops b) := by
        intro a
        induction a with
        | nil => funext d; simp [Enc.ops, Wr.seq, Wr.skip, Res.bind]
        | cons o a ih =>
          funext d
          simp only [List.cons_append, Enc.ops, ih, Wr.seq]
          cases Enc.op o d <;> rfl
      exact this (o :: a)
  rw [e]
  exact hx.seq hy

theorem slice_fits {α : Type} (c : Codec α) (zero : α) (l : List α) (h : ∀ v ∈ l, Fits (c.enc v) c.dec v) :
    ∃ bs, Writes (Enc.ops (l.flatMap c.enc)) bs ∧ bs.length ≤ Size.ops (l.flatMap c.enc) ∧
      ∀ pre rest : Bytes, (pre ++ bs ++ rest).length < 2 ^ 32 →
        sliceLoop c zero l.length ⟨pre ++ bs ++ rest, pre.length, false⟩ = .ok l := by
  induction l with
  | nil => exact ⟨[], writes_skip, by simp, fun _ _ _ => rfl⟩
  | cons v l ih =>
    obtain ⟨x, x1, x2, x3⟩ := h v List.mem_cons_self
    obtain ⟨y, y1, y2, y3⟩ := ih fun w hw => h w (List.mem_cons_of_mem _ hw)
    refine ⟨x ++ y, enc_append _ _ x1 y1, ?_, ?_⟩
    · rw [List.flatMap_cons, ops_append, List.length_append]; omega
    · intro pre rest hlt
      have h1 := x3 pre (y ++ rest) (by simpa using hlt)
      have h2 := y3 (pre ++ x) rest (by simpa using hlt)
      rw [show pre ++ (x ++ y) ++ rest = pre ++ x ++ (y ++ rest) by simp, List.length_cons, sliceLoop, h1]
      simp only
      rw [show pre ++ x ++ (y ++ rest) = pre ++ x ++ y ++ rest by simp]
      rw [List.length_append] at h2
      rw [h2]
      rfl

/-- **C57** Slices of a user type whose `Encode` and `Decode` fit together on the elements. -/
theorem slice_inverse {α : Type} (c : Codec α) (zero : α) (l : List α) (h : ∀ v ∈ l, Fits (c.enc v) c.dec v)
    (hlt : Size.arraySize l.length + Size.ops (l.flatMap c.enc) < 2 ^ 32) (hs : short l) : Inverse (slice c zero) l := by
  obtain ⟨y, y1, y2, y3⟩ := slice_fits c zero l h
  obtain ⟨x, x1, x2, _, x3⟩ := arraySize_enc l.length hs
  have hm : l.length % U32 = l.length := Nat.mod_eq_of_lt hs
  have w : Writes (Enc.ops (.arraySize (l.length % U32) :: l.flatMap c.enc)) (x ++ y) := by
    rw [hm]
    have := x1.seq y1
    simpa [Enc.ops, Enc.op] using this
  have sz : Size.ops (.arraySize (l.length % U32) :: l.flatMap c.enc) = Size.arraySize l.length + Size.ops (l.flatMap c.enc) := by
    rw [hm]; simp [Size.ops, Size.op]
  refine ⟨_, toBytes_larger w (by rw [sz, List.length_append]; omega) (by omega), ?_⟩
  rw [sz]
  generalize hr : List.replicate _ (0 : UInt8) = r
  have hrl : (x ++ y ++ r).length < 2 ^ 32 := by rw [← hr]; simp; omega
  have h1 := reads_start x3 (y ++ r) (by simpa using hrl)
  show (match Dec.arraySize (D.new (x ++ y ++ r)) with
    | (.ok n, d) => sliceLoop c zero n d
    | (.err _, _) => .ok []
    | (.panic, _) => .panic) = _
  rw [List.append_assoc, h1]
  simp only
  rw [← List.append_assoc]
  exact y3 x r hrl

/-- **C57** An instance sent as a handle is found under the handle that is received. -/
theorem interface_inverse {T : Type} (m : Registry.Live T) (addr : UInt64) (inst : T) :
    ∃ raw, (interfaceEncode m addr inst).1 = .ok raw ∧ ∃ h : Nat, uint64.decode raw = .ok h ∧
      (interfaceEncode m addr inst).2.lookup (UInt64.ofNat h) = some inst := by
  obtain ⟨raw, h1, h2⟩ := (uint_inverse addr.toNat).1 addr.toNat_lt
  refine ⟨raw, h1, _, h2, ?_⟩
  simp [interfaceEncode, Registry.Live.put, Registry.Live.lookup]

/-- A type with two fields, as generated code writes it. -/
def pairCodec : Codec (Int × Bytes) :=
  ⟨fun v => [.int v.1, .bytes v.2], do
    let a ← Dec.int64
    let b ← Dec.bytes
    return (a, b)⟩

example (a : Int) (b : Bytes) (ha : -2 ^ 63 ≤ a ∧ a < 2 ^ 63) (hb : short b) : Fits (pairCodec.enc (a, b)) pairCodec.dec (a, b) := by
  obtain ⟨x, x1, x2, x3⟩ := int_fits .w64 a ha
  obtain ⟨y, y1, y2, y3⟩ := bytes_fits b hb
  refine ⟨x ++ y, enc_append [.int a] [.bytes b] x1 y1, ?_, ?_⟩
  · have := ops_append [.int a] [.bytes b]
    simp only [pairCodec, List.length_append, List.cons_append, List.nil_append] at this ⊢
    omega
  · exact Reads.bind x3 (Reads.bind_pure y3 (Reads.pure _))

/-! ## C78: errors -/

/-- Every payload cut off before its end is reported. -/
def Cut {α : Type} (t : Transform α) (v : α) : Prop :=
  ∃ raw, t.encode v = .ok raw ∧ ∀ k, k < raw.length → ∃ e, t.decode (raw.take k) = .err e

/-- The calls and the reader fit together, and the buffer has just the right size. -/
def Exact {α : Type} (ops : List Op) (rd : Rd α) (v : α) : Prop :=
  ∃ bs, Writes (Enc.ops ops) bs ∧ bs.length = Size.ops ops ∧ Reads rd bs v

theorem exact_one {α : Type} {o : Op} {rd : Rd α} {v : α} {bs : Bytes} (h1 : Writes (Enc.op o) bs) (h2 : bs.length = Size.op o)
    (h3 : Reads rd bs v) : Exact [o] rd v := by
  refine ⟨bs, ?_, by simpa [Size.ops] using h2, h3⟩
  have := h1.seq writes_skip
  simpa [Enc.ops] using this

/-- **C78** (part) A user type: what its `Encode` writes, cut off anywhere, is reported by `Decode`, if `Decode`
returns the errors of its reads (`Loc`) and the sizes are right. -/
theorem codec_cut_partial {α : Type} (c : Codec α) (v : α) (hl : Loc c.dec) (h : Exact (c.enc v) c.dec v)
    (hlt : Size.ops (c.enc v) < 2 ^ 32) : Cut (codec c) v := by
  obtain ⟨bs, h1, h2, h3⟩ := h
  have ht := toBytes_larger h1 (Nat.le_of_eq h2) hlt
  rw [h2, Nat.sub_self, List.replicate_zero, List.append_nil] at ht
  refine ⟨bs, ht, fun k hk => ⟨rangeError, ?_⟩⟩
  exact loc_trunc hl h3 [] k hk (by simpa using (by omega : bs.length < 2 ^ 32))

theorem single_cut {α : Type} {op : α → Op} {rd : Rd α} {v : α} (hl : Loc rd) (h : Exact [op v] rd v)
    (hlt : Size.op (op v) < 2 ^ 32) : Cut (single op rd) v :=
  codec_cut_partial ⟨fun v => [op v], rd⟩ v hl h (by simpa [Size.ops] using hlt)

/-- **C78** (part) Strings, booleans, numbers and byte strings (except those of 255 bytes, whose payload is longer
than what is written). -/
theorem string_cut_partial (s : Bytes) (h : Size.str s < 2 ^ 32) (hs : short s) : Cut string s := by
  obtain ⟨bs, h1, h2, _, h3⟩ := str_enc s hs
  exact single_cut (op := .str) loc_str (exact_one (o := .str s) (by simpa [Enc.op] using h1) (by simp [Size.op, h2]) h3)
    (by simpa [Size.op] using h)

theorem bytes_cut_partial (b : Bytes) (h : Size.bytes b < 2 ^ 32) (hs : short b) (hb : b.length ≠ 255) :
    Cut Iota.Transform.bytes b := by
  obtain ⟨bs, h1, h2, _, h3⟩ := bytes_enc b hs
  exact single_cut (op := .bytes) loc_bytes (exact_one (o := .bytes b) (by simpa [Enc.op] using h1) (by simp [Size.op, h2 hb]) h3)
    (by simpa [Size.op] using h)

theorem bool_cut_partial (b : Bool) : Cut Iota.Transform.bool b := by
  obtain ⟨bs, h1, h2, _, h3⟩ := bool_enc b
  exact single_cut (op := .bool) loc_bool (exact_one (o := .bool b) (by simpa [Enc.op] using h1) (by simp [Size.op, h2]) h3)
    (by simp [Size.op, Size.bool])

theorem int_exact (w : Width) (v : Int) (h : (Item.int w v).ok) : Exact [.int v] (rint w) v := by
  have h' : i64 v := by
    unfold i64
    cases w <;> simp [Item.ok, Width.bytes] at h <;> omega
  obtain ⟨bs, h1, h2, _, h3⟩ := int_enc v h'
  exact exact_one (o := .int v) (by simpa [Enc.op] using h1) (by simp [Size.op, h2]) (Iota.Props.Msgpack.rint_reads h h3)

theorem uint_exact (w : Width) (v : Nat) (h : (Item.uint w v).ok) : Exact [.uint v] (ruint w) v := by
  have h' : u64 v := by
    unfold u64
    cases w <;> simp [Item.ok, Width.bytes] at h <;> omega
  obtain ⟨bs, h1, h2, _, h3⟩ := uint_enc v h'
  exact exact_one (o := .uint v) (by simpa [Enc.op] using h1) (by simp [Size.op, h2]) (Iota.Props.Msgpack.ruint_reads h h3)

theorem int_cut_partial (v : Int) :
    (-2 ^ 63 ≤ v ∧ v < 2 ^ 63 → Cut int64 v) ∧ (-2 ^ 31 ≤ v ∧ v < 2 ^ 31 → Cut int32 v) ∧
    (-2 ^ 15 ≤ v ∧ v < 2 ^ 15 → Cut int16 v) ∧ (-2 ^ 7 ≤ v ∧ v < 2 ^ 7 → Cut int8 v) :=
  ⟨fun h => single_cut (op := .int) loc_int64 (int_exact .w64 v h) (by simpa [Size.op] using int_small v),
   fun h => single_cut (op := .int) (loc_intK 4) (int_exact .w32 v h) (by simpa [Size.op] using int_small v),
   fun h => single_cut (op := .int) (loc_intK 2) (int_exact .w16 v h) (by simpa [Size.op] using int_small v),
   fun h => single_cut (op := .int) (loc_intK 1) (int_exact .w8 v h) (by simpa [Size.op] using int_small v)⟩

theorem uint_cut_partial (v : Nat) :
    (v < 2 ^ 64 → Cut uint64 v) ∧ (v < 2 ^ 32 → Cut uint32 v) ∧
    (v < 2 ^ 16 → Cut uint16 v) ∧ (v < 2 ^ 8 → Cut uint8 v) :=
  ⟨fun h => single_cut (op := .uint) loc_uint64 (uint_exact .w64 v h) (by simpa [Size.op] using uint_small v),
   fun h => single_cut (op := .uint) (loc_uintK 4) (uint_exact .w32 v h) (by simpa [Size.op] using uint_small v),
   fun h => single_cut (op := .uint) (loc_uintK 2) (uint_exact .w16 v h) (by simpa [Size.op] using uint_small v),
   fun h => single_cut (op := .uint) (loc_uintK 1) (uint_exact .w8 v h) (by simpa [Size.op] using uint_small v)⟩

theorem float_cut_partial (lib : Lib) (v : Nat) : (v < 2 ^ 64 → Cut float64 v) ∧ (v < 2 ^ 32 → Cut (float32 lib) v) := by
  refine ⟨fun h => ?_, fun h => ?_⟩
  · obtain ⟨bs, h1, h2, _, h3⟩ := f64_enc v h
    exact single_cut (op := .f64) loc_f64 (exact_one (o := .f64 v) (by simpa [Enc.op] using h1) (by simp [Size.op, h2]) h3)
      (by simp [Size.op, Size.f64])
  · obtain ⟨bs, h1, h2, _, h3⟩ := f32_enc lib v h
    exact single_cut (op := .f32) (loc_f32 lib) (exact_one (o := .f32 v) (by simpa [Enc.op] using h1) (by simp [Size.op, h2]) h3)
      (by simp [Size.op, Size.f32])

/-- A string of four bytes, cut after three of its five. -/
example : string.encode [1, 2, 3, 4] = .ok [0xa4, 1, 2, 3, 4] ∧ ∃ e, string.decode [0xa4, 1, 2] = .err e :=
  ⟨by rfl, _, rfl⟩

theorem sliceLoop_never_errs {α : Type} (c : Codec α) (zero : α) (n : Nat) (d : D) (e : String) :
    sliceLoop c zero n d ≠ .err e := by
  induction n generalizing d with
  | zero => intro h; cases h
  | succ n ih =>
    intro h
    unfold sliceLoop at h
    split at h
    · rename_i a d' _
      cases hr : sliceLoop c zero n d' with
      | ok l => rw [hr] at h; cases h
      | err e' => exact (absurd hr (fun hr => by
          rw [hr] at h
          have h : (Res.err e' : Res (List α)) = .err e := h
          cases h
          exact ih d' hr))
      | panic => rw [hr] at h; cases h
    · rename_i e' d' _
      cases hr : sliceLoop c zero n d' with
      | ok l => rw [hr] at h; cases h
      | err e' => exact (absurd hr (fun hr => by
          rw [hr] at h
          have h : (Res.err e' : Res (List α)) = .err e := h
          cases h
          exact ih d' hr))
      | panic => rw [hr] at h; cases h
    · cases h

/-- **C78** fails for slices: `SliceDecode` reports no error for any payload, and a payload that ends before the
first of two announced elements is decoded to two elements nobody sent. -/
theorem slice_errors_lost_refuted {α : Type} (c : Codec α) (zero : α) :
    (∀ raw e, (slice c zero).decode raw ≠ .err e) ∧
      ∀ e, (∀ d : D, c.dec d = (.err e, d)) → (slice c zero).decode [0x92] = .ok [zero, zero] := by
  constructor
  · intro raw e h
    simp only [slice] at h
    split at h
    · exact sliceLoop_never_errs _ _ _ _ _ h
    · cases h
    · cases h
  · intro e hd
    have h : Dec.arraySize (D.new [0x92]) = (.ok 2, ⟨[0x92], 1, false⟩) := by rfl
    simp only [slice, h, sliceLoop, hd]
    rfl

/-- With the codec of the example above. -/
example : (slice pairCodec (0, [])).decode [0x92] = .ok [(0, []), (0, [])] ∧ ∃ e, (codec pairCodec).decode [] = .err e :=
  ⟨by rfl, _, rfl⟩

end Iota.Props.Transform
