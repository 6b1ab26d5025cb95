import Verif.Lemmas.MsgpackAny
import Verif.Lemmas.MsgpackSticky
import Verif.Model.Convert

/-! # C23 – C30, C56: MessagePack -/

namespace Iota.Props.Msgpack
open Iota.Go Iota.Msgpack Iota.Spec.Msgpack Iota.Lemmas.Msgpack

/-! ## C23, C30: typed values -/

theorem rint_reads {w : Width} {v : Int} (h : (Item.int w v).ok) {bs : Bytes} (hr : Reads Dec.int64 bs v) :
    Reads (rint w) bs v := by
  simp only [Item.ok] at h
  cases w with
  | w64 => exact hr
  | _ =>
    refine Reads.bind_pure hr ?_
    simp only [Width.bytes] at h
    rw [if_pos (by constructor <;> simp [Width.bytes] at h ⊢ <;> omega)]
    exact Reads.pure _

theorem ruint_reads {w : Width} {v : Nat} (h : (Item.uint w v).ok) {bs : Bytes} (hr : Reads Dec.uint64 bs v) :
    Reads (ruint w) bs v := by
  simp only [Item.ok] at h
  cases w with
  | w64 => exact hr
  | _ =>
    refine Reads.bind_pure hr ?_
    simp only [Width.bytes] at h
    rw [if_pos (by simp [Width.bytes] at h ⊢; omega)]
    exact Reads.pure _

/-- **C23**, **C30** Whatever typed value is written, at whatever place of a buffer: the matching reader
reads the same value there and consumes exactly what was written, whatever precedes and follows. Times
are included. -/
theorem item_round_trip (lib : Lib) (i : Item) (h : i.ok) :
    ∃ bs, Writes (Enc.op i.op) bs ∧ Reads (i.read lib) bs (some i) := by
  cases i with
  | nil => exact ⟨_, nil_enc.1, nil_enc.2.map⟩
  | bool b =>
    obtain ⟨bs, h1, _, _, h2⟩ := bool_enc b
    exact ⟨bs, h1, h2.map⟩
  | int w v =>
    have h' : i64 v := by
      unfold i64
      cases w <;> simp [Item.ok, Width.bytes] at h <;> omega
    obtain ⟨bs, h1, _, _, h2⟩ := int_enc v h'
    exact ⟨bs, h1, (rint_reads h h2).map⟩
  | uint w v =>
    have h' : u64 v := by
      unfold u64
      cases w <;> simp [Item.ok, Width.bytes] at h <;> omega
    obtain ⟨bs, h1, _, _, h2⟩ := uint_enc v h'
    exact ⟨bs, h1, (ruint_reads h h2).map⟩
  | f32 v =>
    obtain ⟨bs, h1, _, _, h2⟩ := f32_enc lib v h
    exact ⟨bs, h1, h2.map⟩
  | f64 v =>
    obtain ⟨bs, h1, _, _, h2⟩ := f64_enc v h
    exact ⟨bs, h1, h2.map⟩
  | str s =>
    obtain ⟨bs, h1, _, _, h2⟩ := str_enc s h
    exact ⟨bs, h1, h2.map⟩
  | bytes s =>
    obtain ⟨bs, h1, _, _, h2⟩ := bytes_enc s h
    exact ⟨bs, h1, h2.map⟩
  | time t =>
    obtain ⟨bs, h1, _, _, _, h2⟩ := time_enc lib t h
    exact ⟨bs, h1, h2.map⟩
  | arraySize n =>
    obtain ⟨bs, h1, _, _, h2⟩ := arraySize_enc n h
    exact ⟨bs, h1, h2.map⟩
  | mapSize n =>
    obtain ⟨bs, h1, _, _, h2⟩ := mapSize_enc n h
    exact ⟨bs, h1, h2.map⟩

/-- **C23** A sequence of typed values is read back by the same sequence of calls. -/
theorem items_round_trip (lib : Lib) (l : List Item) (h : ∀ i ∈ l, i.ok) :
    ∃ bs, Writes (Enc.ops (l.map Item.op)) bs ∧ Reads (readAll lib l) bs (l.map some) := by
  induction l with
  | nil => exact ⟨[], writes_skip, Reads.pure _⟩
  | cons i l ih =>
    obtain ⟨x, x1, x2⟩ := item_round_trip lib i (h i List.mem_cons_self)
    obtain ⟨y, y1, y2⟩ := ih fun j hj => h j (List.mem_cons_of_mem _ hj)
    refine ⟨x ++ y, ?_, ?_⟩
    · have := x1.seq y1
      simpa [Enc.ops] using this
    · exact Reads.bind x2 (Reads.bind_pure y2 (Reads.pure _))

/-- **C30** Seconds anywhere in 64 bits and every nanosecond survive. -/
theorem time_round_trip (lib : Lib) (t : Time) (h : i64 t.sec ∧ t.nsec < 10 ^ 9) :
    ∃ bs, Writes (Enc.time t) bs ∧ bs.length = Size.time t ∧ Reads (Dec.time lib) bs t := by
  obtain ⟨bs, h1, h2, _, _, h3⟩ := time_enc lib t h
  exact ⟨bs, h1, h2, h3⟩

example : (Item.int .w16 (-32768)).ok ∧ (Item.uint .w64 (2 ^ 64 - 1)).ok ∧ (Item.bytes [1, 2]).ok ∧
    (Item.time ⟨-62135596801, 999999999⟩).ok := by
  refine ⟨by simp [Item.ok, Width.bytes], by simp [Item.ok, Width.bytes], by simp [Item.ok, short],
    by simp [Item.ok, i64]⟩

/-! ## C24: sizes -/

theorem starts {ops : List Op} {bs : Bytes} (hw : Writes (Enc.ops ops) bs) (hs : bs.length = Size.ops ops)
    (hlt : Size.ops ops < 2 ^ 32) : toBytes ops = .ok bs := by
  have h1 := hw.start (by omega)
  unfold toBytes
  rw [← hs, h1]

/-- **C24** (part) Except for byte strings of exactly 255 bytes and times inside dynamic values: for every
sequence of writer calls the computed size is the number of bytes written, so the buffer is filled
exactly. -/
theorem sizes_exact_partial (ops : List Op) (h : SizedOps ops) (hlt : Size.ops ops < 2 ^ 32) :
    ∃ bs, Writes (Enc.ops ops) bs ∧ bs.length = Size.ops ops ∧ toBytes ops = .ok bs := by
  obtain ⟨bs, h1, h2⟩ := ops_enc ops h
  exact ⟨bs, h1, h2, starts h1 h2 hlt⟩

theorem sizeds_append (a b : List Any) : Sizeds (a ++ b) ↔ Sizeds a ∧ Sizeds b := by
  induction a with
  | nil => simp [Sizeds]
  | cons v a ih => simp [Sizeds, ih, and_assoc]
theorem sizedS_append (a b : List (Bytes × Any)) : SizedS (a ++ b) ↔ SizedS a ∧ SizedS b := by
  induction a with
  | nil => simp [SizedS]
  | cons v a ih => obtain ⟨k, v⟩ := v; simp [SizedS, ih, and_assoc]
theorem sizedI_append (a b : List (Int × Any)) : SizedI (a ++ b) ↔ SizedI a ∧ SizedI b := by
  induction a with
  | nil => simp [SizedI]
  | cons v a ih => obtain ⟨k, v⟩ := v; simp [SizedI, ih, and_assoc]
theorem sizedU_append (a b : List (Nat × Any)) : SizedU (a ++ b) ↔ SizedU a ∧ SizedU b := by
  induction a with
  | nil => simp [SizedU]
  | cons v a ih => obtain ⟨k, v⟩ := v; simp [SizedU, ih, and_assoc]
theorem sizedA_append (a b : List (Any × Any)) : SizedA (a ++ b) ↔ SizedA a ∧ SizedA b := by
  induction a with
  | nil => simp [SizedA]
  | cons v a ih => obtain ⟨k, v⟩ := v; simp [SizedA, ih, and_assoc]

theorem anys_append (a b : List Any) : Size.anys (a ++ b) = Size.anys a + Size.anys b := by
  induction a with
  | nil => simp [Size.anys]
  | cons v a ih => simp [Size.anys, ih, Nat.add_assoc]
theorem pairsS_append (a b : List (Bytes × Any)) : Size.pairsS (a ++ b) = Size.pairsS a + Size.pairsS b := by
  induction a with
  | nil => simp [Size.pairsS]
  | cons v a ih => obtain ⟨k, v⟩ := v; simp [Size.pairsS, ih, Nat.add_assoc]
theorem pairsI_append (a b : List (Int × Any)) : Size.pairsI (a ++ b) = Size.pairsI a + Size.pairsI b := by
  induction a with
  | nil => simp [Size.pairsI]
  | cons v a ih => obtain ⟨k, v⟩ := v; simp [Size.pairsI, ih, Nat.add_assoc]
theorem pairsU_append (a b : List (Nat × Any)) : Size.pairsU (a ++ b) = Size.pairsU a + Size.pairsU b := by
  induction a with
  | nil => simp [Size.pairsU]
  | cons v a ih => obtain ⟨k, v⟩ := v; simp [Size.pairsU, ih, Nat.add_assoc]
theorem pairsA_append (a b : List (Any × Any)) : Size.pairsA (a ++ b) = Size.pairsA a + Size.pairsA b := by
  induction a with
  | nil => simp [Size.pairsA]
  | cons v a ih => obtain ⟨k, v⟩ := v; simp [Size.pairsA, ih, Nat.add_assoc]

theorem each_perm {α : Type} (f : α → Nat) {l l' : List α} (h : l.Perm l') : Size.each f l = Size.each f l' := by
  induction h with
  | nil => rfl
  | cons x _ ih => simp [Size.each, ih]
  | swap x y l => simp [Size.each]; omega
  | trans _ _ ih ih' => exact ih.trans ih'

theorem permS {l l' : List (Bytes × Any)} (h : l.Perm l') :
    (SizedS l → SizedS l') ∧ Size.pairsS l = Size.pairsS l' := by
  have h1 : ∀ l : List (Bytes × Any), SizedS l ↔ ∀ p ∈ l, short p.1 ∧ Sized p.2 := by
    intro l
    induction l with
    | nil => simp [SizedS]
    | cons p l ih => obtain ⟨k, v⟩ := p; simp [SizedS, ih, and_assoc]
  have h2 : ∀ l : List (Bytes × Any), Size.pairsS l = Size.each (fun p => Size.str p.1 + Size.any p.2) l := by
    intro l
    induction l with
    | nil => rfl
    | cons p l ih => obtain ⟨k, v⟩ := p; simp [Size.pairsS, Size.each, ih, Nat.add_assoc]
  rw [h1, h1, h2, h2, each_perm _ h]
  exact ⟨fun hs p hp => hs p (h.mem_iff.mpr hp), rfl⟩

theorem permI {l l' : List (Int × Any)} (h : l.Perm l') :
    (SizedI l → SizedI l') ∧ Size.pairsI l = Size.pairsI l' := by
  have h1 : ∀ l : List (Int × Any), SizedI l ↔ ∀ p ∈ l, i64 p.1 ∧ Sized p.2 := by
    intro l
    induction l with
    | nil => simp [SizedI]
    | cons p l ih => obtain ⟨k, v⟩ := p; simp [SizedI, ih, and_assoc]
  have h2 : ∀ l : List (Int × Any), Size.pairsI l = Size.each (fun p => Size.int p.1 + Size.any p.2) l := by
    intro l
    induction l with
    | nil => rfl
    | cons p l ih => obtain ⟨k, v⟩ := p; simp [Size.pairsI, Size.each, ih, Nat.add_assoc]
  rw [h1, h1, h2, h2, each_perm _ h]
  exact ⟨fun hs p hp => hs p (h.mem_iff.mpr hp), rfl⟩

theorem permU {l l' : List (Nat × Any)} (h : l.Perm l') :
    (SizedU l → SizedU l') ∧ Size.pairsU l = Size.pairsU l' := by
  have h1 : ∀ l : List (Nat × Any), SizedU l ↔ ∀ p ∈ l, u64 p.1 ∧ Sized p.2 := by
    intro l
    induction l with
    | nil => simp [SizedU]
    | cons p l ih => obtain ⟨k, v⟩ := p; simp [SizedU, ih, and_assoc]
  have h2 : ∀ l : List (Nat × Any), Size.pairsU l = Size.each (fun p => Size.uint p.1 + Size.any p.2) l := by
    intro l
    induction l with
    | nil => rfl
    | cons p l ih => obtain ⟨k, v⟩ := p; simp [Size.pairsU, Size.each, ih, Nat.add_assoc]
  rw [h1, h1, h2, h2, each_perm _ h]
  exact ⟨fun hs p hp => hs p (h.mem_iff.mpr hp), rfl⟩

theorem permA {l l' : List (Any × Any)} (h : l.Perm l') :
    (SizedA l → SizedA l') ∧ Size.pairsA l = Size.pairsA l' := by
  have h1 : ∀ l : List (Any × Any), SizedA l ↔ ∀ p ∈ l, Sized p.1 ∧ Sized p.2 := by
    intro l
    induction l with
    | nil => simp [SizedA]
    | cons p l ih => obtain ⟨k, v⟩ := p; simp [SizedA, ih, and_assoc]
  have h2 : ∀ l : List (Any × Any), Size.pairsA l = Size.each (fun p => Size.any p.1 + Size.any p.2) l := by
    intro l
    induction l with
    | nil => rfl
    | cons p l ih => obtain ⟨k, v⟩ := p; simp [Size.pairsA, Size.each, ih, Nat.add_assoc]
  rw [h1, h1, h2, h2, each_perm _ h]
  exact ⟨fun hs p hp => hs p (h.mem_iff.mpr hp), rfl⟩

/-- The size does not depend on the order of map entries. -/
theorem size_reorder {v v' : Any} (h : Reorder v v') : (Sized v → Sized v') ∧ Size.any v = Size.any v' := by
  induction h with
  | refl v => exact ⟨id, rfl⟩
  | trans _ _ ih ih' => exact ⟨fun h => ih'.1 (ih.1 h), ih.2.trans ih'.2⟩
  | mapSS h =>
    refine ⟨fun hs => ?_, ?_⟩
    · simp only [Sized, short] at hs ⊢
      exact ⟨h.length_eq ▸ hs.1, fun p hp => hs.2 p (h.mem_iff.mpr hp)⟩
    · simp only [Size.any, h.length_eq]
      rw [each_perm _ h]
  | mapSA h =>
    have hp := permS h
    refine ⟨fun hs => ?_, ?_⟩
    · simp only [Sized, short] at hs ⊢
      exact ⟨h.length_eq ▸ hs.1, hp.1 hs.2⟩
    · simp only [Size.any, h.length_eq, hp.2]
  | mapIA h =>
    have hp := permI h
    refine ⟨fun hs => ?_, ?_⟩
    · simp only [Sized, short] at hs ⊢
      exact ⟨h.length_eq ▸ hs.1, hp.1 hs.2⟩
    · simp only [Size.any, h.length_eq, hp.2]
  | mapUA h =>
    have hp := permU h
    refine ⟨fun hs => ?_, ?_⟩
    · simp only [Sized, short] at hs ⊢
      exact ⟨h.length_eq ▸ hs.1, hp.1 hs.2⟩
    · simp only [Size.any, h.length_eq, hp.2]
  | mapAA h =>
    have hp := permA h
    refine ⟨fun hs => ?_, ?_⟩
    · simp only [Sized, short] at hs ⊢
      exact ⟨h.length_eq ▸ hs.1, hp.1 hs.2⟩
    · simp only [Size.any, h.length_eq, hp.2]
  | inAnys _ ih =>
    simp only [Sized, sizeds_append, Sizeds, short, List.length_append, List.length_cons, Size.any, anys_append,
      Size.anys, ih.2, and_true]
    exact fun hs => ⟨hs.1, hs.2.1, ih.1 hs.2.2.1, hs.2.2.2⟩
  | inSA _ ih =>
    simp only [Sized, sizedS_append, SizedS, short, List.length_append, List.length_cons, Size.any, pairsS_append,
      Size.pairsS, ih.2, and_true]
    exact fun hs => ⟨hs.1, hs.2.1, hs.2.2.1, ih.1 hs.2.2.2.1, hs.2.2.2.2⟩
  | inIA _ ih =>
    simp only [Sized, sizedI_append, SizedI, short, List.length_append, List.length_cons, Size.any, pairsI_append,
      Size.pairsI, ih.2, and_true]
    exact fun hs => ⟨hs.1, hs.2.1, hs.2.2.1, ih.1 hs.2.2.2.1, hs.2.2.2.2⟩
  | inUA _ ih =>
    simp only [Sized, sizedU_append, SizedU, short, List.length_append, List.length_cons, Size.any, pairsU_append,
      Size.pairsU, ih.2, and_true]
    exact fun hs => ⟨hs.1, hs.2.1, hs.2.2.1, ih.1 hs.2.2.2.1, hs.2.2.2.2⟩
  | inAA _ ih =>
    simp only [Sized, sizedA_append, SizedA, short, List.length_append, List.length_cons, Size.any, pairsA_append,
      Size.pairsA, ih.2, and_true]
    exact fun hs => ⟨hs.1, hs.2.1, hs.2.2.1, ih.1 hs.2.2.2.1, hs.2.2.2.2⟩

/-- **C24** (part) The same for dynamic values, even though sizer and encoder may visit the entries of
maps in different orders. -/
theorem any_sizes_exact_partial (v v' : Any) (h : Sized v) (ho : Reorder v v') (hlt : Size.any v < 2 ^ 32) :
    ∃ bs, Writes (Enc.any v') bs ∧ bs.length = Size.any v ∧ anyToBytes v v' = .ok bs := by
  obtain ⟨h1, h2⟩ := size_reorder ho
  obtain ⟨bs, h3, h4, _⟩ := any_enc v' (h1 h)
  refine ⟨bs, h3, by omega, ?_⟩
  have h5 := h3.start (by omega)
  unfold anyToBytes
  rw [h2, ← h4, h5]
  rfl

example : Reorder (.anys [.mapSA [([0x61], .bool true), ([0x62], .nil)]])
      (.anys [.mapSA [([0x62], .nil), ([0x61], .bool true)]]) ∧
    Sized (.anys [.mapSA [([0x61], .bool true), ([0x62], .nil)]]) :=
  ⟨.inAnys (a := []) (.mapSA (.swap _ _ _)), by simp [Sized, Sizeds, SizedS, short]⟩

/-- **C24** is false of the code for byte strings of 255 bytes: the sizer (sizer.go `writeBinLength`) counts
one byte more than the encoder writes, and the message ends in a stray zero. -/
theorem sizes_exact_refuted :
    toBytes [.bytes (List.replicate 255 1)] = .ok (0xc4 :: 0xff :: (List.replicate 255 1 ++ [0])) ∧
    ¬ ∃ bs, Writes (Enc.ops [.bytes (List.replicate 255 1)]) bs ∧
      bs.length = Size.ops [.bytes (List.replicate 255 1)] := by
  refine ⟨by decide +kernel, ?_⟩
  rintro ⟨bs, h1, h2⟩
  have h3 : Size.ops [.bytes (List.replicate 255 1)] = 258 := by decide +kernel
  rw [h3] at h2
  have h4 := h1.start (by omega)
  rw [h2] at h4
  have h5 : (withBuffer 258 (Enc.ops [.bytes (List.replicate 255 1)])).bind (fun d => .ok d.off) = .ok 257 := by
    decide +kernel
  rw [h4] at h5
  simp [Res.bind] at h5

/-- **C24** is false of the code for times in dynamic values: the sizer counts them, the encoder has no
case for them, and the message consists of zeros. -/
theorem any_time_refuted : anyToBytes (.time ⟨1, 0⟩) (.time ⟨1, 0⟩) = .ok [0, 0, 0, 0, 0, 0] := by
  decide +kernel

/-! ## C25: dynamic values -/

/-- **C25** (part) A dynamic value without nil, codecs and times inside, with sizes as in C24 and map keys
that are distinct scalars (no floats): `AnyToBytes` succeeds, and `ReadAny` on the message returns a value
that denotes the same and consumes the whole message. -/
theorem any_round_trip_partial (v v' : Any) (ho : Reorder v v') (hs : Sized v) (hp : Plain v') (hr : Readable (den v'))
    (hlt : Size.any v < 2 ^ 32) :
    ∃ bs, anyToBytes v v' = .ok bs ∧
      ∃ fuel w, Dec.any fuel (D.new bs) = some (.ok w, ⟨bs, bs.length, false⟩) ∧ den w = den v' := by
  obtain ⟨h1, h2⟩ := size_reorder ho
  obtain ⟨bs, h3, h4, h5⟩ := any_enc v' (h1 hs)
  refine ⟨bs, ?_, ?_⟩
  · have h6 := h3.start (by omega)
    unfold anyToBytes
    rw [h2, ← h4, h6]
    rfl
  · obtain ⟨w, ⟨fuel, hw⟩, hd⟩ := any_reads (h5 hp ExtHead) hr
    refine ⟨fuel, w, ?_, hd⟩
    have := hw [] [] (by simp; omega)
    simpa [D.new] using this

/-- The same inside a larger message: whatever precedes and follows. -/
theorem any_round_trip_in_context_partial (v : Any) (hs : Sized v) (hp : Plain v) (hr : Readable (den v)) :
    ∃ bs w, Writes (Enc.any v) bs ∧ ReadsRun Dec.any bs w ∧ den w = den v := by
  obtain ⟨bs, h3, h4, h5⟩ := any_enc v hs
  obtain ⟨w, h6, h7⟩ := any_reads (h5 hp ExtHead) hr
  exact ⟨bs, w, h3, h6, h7⟩

example : Sized (.mapSA [([0x61], .anys [.int .i32 (-7), .f64 0]), ([0x62], .bytes [1, 2, 3])]) ∧
    Plain (.mapSA [([0x61], .anys [.int .i32 (-7), .f64 0]), ([0x62], .bytes [1, 2, 3])]) ∧
    Readable (den (.mapSA [([0x61], .anys [.int .i32 (-7), .f64 0]), ([0x62], .bytes [1, 2, 3])])) := by
  refine ⟨by simp [Sized, SizedS, Sizeds, short, i64, not255], by simp [Plain, PlainS, Plains], ?_⟩
  simp [den, denS, dens, Readable, ReadableP, Readables, keyVal]

/-- **C25** is false of the code for nil: `WriteAny(nil)` writes two nils (encoder.go:315-317 has no
return), so the array `[nil, 1]` comes back as `[nil, nil]`, with a byte left over. -/
theorem any_round_trip_refuted :
    anyToBytes (.anys [.nil, .int .i64 1]) (.anys [.nil, .int .i64 1]) = .ok [0x92, 0xc0, 0xc0, 0x01] ∧
    Dec.any 9 (D.new [0x92, 0xc0, 0xc0, 0x01]) =
      some (.ok (.anys [.nil, .nil]), ⟨[0x92, 0xc0, 0xc0, 0x01], 3, false⟩) := by
  constructor
  · decide +kernel
  · rfl

/-! ## C26: integers -/

/-- **C26** Whenever a signed reader of any width succeeds, on any bytes, the value is the mathematical
value of the integer encoded at that place, in the range of the width, and the reader has consumed
exactly that integer. -/
theorem int_not_truncated (w : Width) (d d' : D) (v : Int) (hlen : d.buf.length < 2 ^ 32)
    (h : rint w d = (.ok v, d')) :
    intAt (d.buf.drop d.off) = some (v, d.buf.drop d'.off) ∧ d'.buf = d.buf ∧
      -2 ^ (8 * w.bytes - 1) ≤ v ∧ v < 2 ^ (8 * w.bytes - 1) := by
  have key : ∀ k, Dec.intK k d = (.ok v, d') → intAt (d.buf.drop d.off) = some (v, d.buf.drop d'.off) ∧ d'.buf = d.buf ∧
      -2 ^ (8 * k - 1) ≤ v ∧ v < 2 ^ (8 * k - 1) := by
    intro k hk
    obtain ⟨⟨a, b, _, _⟩, c⟩ := intK_ok hlen hk
    rw [b] at a
    exact ⟨a, b, c⟩
  cases w with
  | w64 =>
    obtain ⟨a, b, _, _⟩ := int64_ok hlen h
    rw [b] at a
    exact ⟨a, b, int64_range h⟩
  | w8 => exact key _ h
  | w16 => exact key _ h
  | w32 => exact key _ h

/-- **C26** The same for the unsigned readers. -/
theorem uint_not_truncated (w : Width) (d d' : D) (v : Nat) (hlen : d.buf.length < 2 ^ 32)
    (h : ruint w d = (.ok v, d')) :
    intAt (d.buf.drop d.off) = some ((v : Int), d.buf.drop d'.off) ∧ d'.buf = d.buf ∧ v < 2 ^ (8 * w.bytes) := by
  have key : ∀ k, Dec.uintK k d = (.ok v, d') → intAt (d.buf.drop d.off) = some ((v : Int), d.buf.drop d'.off) ∧
      d'.buf = d.buf ∧ v < 2 ^ (8 * k) := by
    intro k hk
    obtain ⟨⟨a, b, _, _⟩, c⟩ := uintK_ok hlen hk
    rw [b] at a
    exact ⟨a, b, c⟩
  cases w with
  | w64 =>
    obtain ⟨a, b, _, _⟩ := uint64_ok hlen h
    rw [b] at a
    exact ⟨a, b, uint64_range h⟩
  | w8 => exact key _ h
  | w16 => exact key _ h
  | w32 => exact key _ h

example : rint .w8 (D.new [0xd1, 0xff, 0x80, 7]) = (.ok (-128), ⟨[0xd1, 0xff, 0x80, 7], 3, false⟩) := by decide
example : (rint .w8 (D.new [0xd1, 0xff, 0x7f])).1 = .err "interger overflow" := by decide
example : ruint .w16 (D.new [0xd2, 0, 0, 0xff, 0xff]) = (.ok 65535, ⟨[0xd2, 0, 0, 0xff, 0xff], 5, false⟩) := by decide

/-! ## C27: hostile input -/

/-- A call that returns without a panic and stays in the buffer. -/
def Safe (d : D) (x : Option (Res Unit × D)) : Prop :=
  ∃ r d', x = some (r, d') ∧ r ≠ .panic ∧ InBuf d' ∧ d'.buf = d.buf ∧ d.off ≤ d'.off

theorem safe_drop {T} {α : Type} {r : Rd α} (hp : Prog T r) (hn : NP T r) {d : D} (h : InBuf d) (ht : T d.buf) :
    Safe d (drop r d) := by
  have h1 := hp d h ht
  have h2 := hn d h ht
  have hm : drop r d = some (((fun _ => ()) <$> r) d) := rfl
  rw [hm, rd_map]
  rcases hr : r d with ⟨a | e | _, d'⟩ <;> rw [hr] at h1 h2
  · exact ⟨_, _, rfl, nofun, h1⟩
  · exact ⟨_, _, rfl, nofun, h1⟩
  · exact absurd rfl h2

theorem prog_rint {T} (w : Width) : Prog T (rint w) := by
  cases w <;> first | exact prog_intK | exact prog_int64
theorem np_rint {T} (w : Width) : NP T (rint w) := by
  cases w <;> first | exact np_intK | exact np_int64
theorem prog_ruint {T} (w : Width) : Prog T (ruint w) := by
  cases w <;> first | exact prog_uintK | exact prog_uint64
theorem np_ruint {T} (w : Width) : NP T (ruint w) := by
  cases w <;> first | exact np_uintK | exact np_uint64

theorem scalar_safe (lib : Lib) (fuel : Nat) (c : Call) (hc : c.scalar = true) (d : D) (h : InBuf d) :
    Safe d (c.exec lib fuel d) := by
  cases c
  case str | bytes | time | any | skip | nilStr | nilBytes | nilTime => simp [Call.scalar] at hc
  case nextNil => exact safe_drop (T := fun _ => True) prog_isNextNil np_isNextNil h trivial
  case bool => exact safe_drop (T := fun _ => True) prog_bool np_bool h trivial
  case int w => exact safe_drop (T := fun _ => True) (prog_rint w) (np_rint w) h trivial
  case uint w => exact safe_drop (T := fun _ => True) (prog_ruint w) (np_ruint w) h trivial
  case f32 => exact safe_drop (T := fun _ => True) (prog_f32 lib) (np_f32 lib) h trivial
  case f64 => exact safe_drop (T := fun _ => True) prog_f64 np_f64 h trivial
  case arraySize => exact safe_drop (T := fun _ => True) prog_arraySize np_arraySize h trivial
  case mapSize => exact safe_drop (T := fun _ => True) prog_mapSize np_mapSize h trivial
  case nilBool => exact safe_drop (T := fun _ => True) (prog_nillable prog_bool) (np_nillable prog_bool np_bool) h trivial
  case nilInt w =>
    exact safe_drop (T := fun _ => True) (prog_nillable (prog_rint w)) (np_nillable (prog_rint w) (np_rint w)) h trivial
  case nilUint w =>
    exact safe_drop (T := fun _ => True) (prog_nillable (prog_ruint w)) (np_nillable (prog_ruint w) (np_ruint w)) h trivial
  case nilF32 =>
    exact safe_drop (T := fun _ => True) (prog_nillable (prog_f32 lib)) (np_nillable (prog_f32 lib) (np_f32 lib)) h trivial
  case nilF64 => exact safe_drop (T := fun _ => True) (prog_nillable prog_f64) (np_nillable prog_f64 np_f64) h trivial

theorem typed_safe (lib : Lib) (fuel : Nat) (c : Call) (hc : c.typed = true) (d : D) (h : InBuf d) (ht : Tame d.buf) :
    Safe d (c.exec lib fuel d) := by
  cases hs : c.scalar with
  | true => exact scalar_safe lib fuel c hs d h
  | false =>
    cases c <;> simp [Call.scalar] at hs <;> simp [Call.typed] at hc
    case str => exact safe_drop prog_str np_str h ht
    case bytes => exact safe_drop prog_bytes np_bytes h ht
    case time => exact safe_drop (prog_time lib) (np_time lib) h ht
    case nilStr => exact safe_drop (prog_nillable prog_str) (np_nillable prog_str np_str) h ht
    case nilBytes => exact safe_drop (prog_nillable prog_bytes) (np_nillable prog_bytes np_bytes) h ht
    case nilTime =>
      exact safe_drop (prog_nillable (prog_time lib)) (np_nillable (prog_time lib) (np_time lib)) h ht

theorem call_safe (lib : Lib) (fuel : Nat) (c : Call) (d : D) (h : InBuf d) (ht : Tame d.buf) (hk : KeysTame d.buf)
    (hf : 2 * d.buf.length + 1 ≤ fuel) : Safe d (c.exec lib fuel d) := by
  cases hc : c.typed with
  | true => exact typed_safe lib fuel c hc d h ht
  | false =>
    cases c <;> simp [Call.typed] at hc
    case any =>
      obtain ⟨h1, _, h3⟩ := (any_step fuel).1 d h
      rcases hg : Dec.any fuel d with _ | ⟨r, d'⟩
      · exact absurd hg (h3 (by omega))
      · obtain ⟨a, b, c, e⟩ := h1 r d' hg
        simp only [Call.exec, hg, Option.map]
        refine ⟨_, _, rfl, ?_, a, b, c⟩
        rcases r with v | m | _
        · nofun
        · nofun
        · obtain ⟨i, j, c, f, h1, h2, h3, h4, h5⟩ := e ht rfl
          exact absurd h5 (hk i j c f h1 h2 h3 h4)
    case skip =>
      obtain ⟨h1, _, h3⟩ := (skip_step fuel).1 d h ht
      rcases hg : Dec.skip fuel d with _ | ⟨r, d'⟩
      · exact absurd hg (h3 (by omega))
      · exact ⟨r, d', hg, h1 r d' hg⟩

theorem all_safe (lib : Lib) (fuel : Nat) (P : Call → Prop) (b : Bytes)
    (hP : ∀ c, P c → ∀ d, InBuf d → d.buf = b → Safe d (c.exec lib fuel d)) (cs : List Call) (hcs : ∀ c ∈ cs, P c) :
    ∀ d, InBuf d → d.buf = b →
      ∃ rs d', execAll lib fuel cs d = some (rs, d') ∧ (∀ r ∈ rs, r ≠ .panic) ∧ d'.buf = b ∧ d'.off ≤ b.length := by
  induction cs with
  | nil => exact fun d h hb => ⟨[], d, rfl, by simp, hb, hb ▸ h.1⟩
  | cons c cs ih =>
    intro d h hb
    obtain ⟨r, d1, h1, h2, h3, h4, _⟩ := hP c (hcs c List.mem_cons_self) d h hb
    obtain ⟨rs, d', g1, g2, g3⟩ := ih (fun c hc => hcs c (List.mem_cons_of_mem _ hc)) d1 h3 (h4.trans hb)
    refine ⟨r :: rs, d', by simp [execAll, h1, g1], ?_, g3⟩
    intro x hx
    rcases List.mem_cons.mp hx with rfl | hx
    · exact h2
    · exact g2 x hx

/-- **C27** (part) On any bytes at all (up to 4 GiB minus 64 KiB): no sequence of calls that read booleans,
integers, floats, array and map sizes or nil, also after errors, panics or leaves the buffer. -/
theorem scalars_safe_partial (lib : Lib) (b : Bytes) (hb : b.length + 65536 ≤ 2 ^ 32) (cs : List Call)
    (hc : ∀ c ∈ cs, c.scalar = true) :
    ∃ rs d', execAll lib 0 cs (D.new b) = some (rs, d') ∧ (∀ r ∈ rs, r ≠ .panic) ∧ d'.buf = b ∧ d'.off ≤ b.length :=
  all_safe lib 0 (fun c => c.scalar = true) b (fun c hc d h _ => scalar_safe lib 0 c hc d h) cs hc (D.new b)
    ⟨Nat.zero_le _, hb⟩ rfl

/-- **C27** (part) If moreover no 32-bit length in the bytes is so large that adding it to a position
overflows 32 bits, the same holds for all typed calls. -/
theorem typed_calls_safe_partial (lib : Lib) (b : Bytes) (hb : b.length + 65536 ≤ 2 ^ 32) (ht : Tame b) (cs : List Call)
    (hc : ∀ c ∈ cs, c.typed = true) :
    ∃ rs d', execAll lib 0 cs (D.new b) = some (rs, d') ∧ (∀ r ∈ rs, r ≠ .panic) ∧ d'.buf = b ∧ d'.off ≤ b.length :=
  all_safe lib 0 (fun c => c.typed = true) b (fun c hc d h hd => typed_safe lib 0 c hc d h (hd ▸ ht)) cs hc (D.new b)
    ⟨Nat.zero_le _, hb⟩ rfl

/-- **C27** (part) If moreover no header of an array, map or byte string follows a map header, the same
holds for all calls, and all of them return: `ReadAny` and `Skip` make at most about two calls per
byte. -/
theorem calls_safe_partial (lib : Lib) (b : Bytes) (hb : b.length + 65536 ≤ 2 ^ 32) (ht : Tame b) (hk : KeysTame b)
    (cs : List Call) (fuel : Nat) (hf : 2 * b.length + 1 ≤ fuel) :
    ∃ rs d', execAll lib fuel cs (D.new b) = some (rs, d') ∧ (∀ r ∈ rs, r ≠ .panic) ∧ d'.buf = b ∧ d'.off ≤ b.length :=
  all_safe lib fuel (fun _ => True) b
    (fun c _ d h hd => call_safe lib fuel c d h (hd ▸ ht) (hd ▸ hk) (by rw [hd]; exact hf)) cs (fun _ _ => trivial)
    (D.new b) ⟨Nat.zero_le _, hb⟩ rfl

/-- **C27** (part) `ReadAny` returns on any bytes and leaves the decoder inside the buffer. -/
theorem any_returns_partial (b : Bytes) (hb : b.length + 65536 ≤ 2 ^ 32) :
    ∃ r d', Dec.any (2 * b.length + 1) (D.new b) = some (r, d') ∧ d'.buf = b ∧ d'.off ≤ b.length := by
  have hi : InBuf (D.new b) := ⟨Nat.zero_le _, hb⟩
  obtain ⟨h1, _, h3⟩ := (any_step (2 * b.length + 1)).1 (D.new b) hi
  rcases hg : Dec.any (2 * b.length + 1) (D.new b) with _ | ⟨r, d'⟩
  · exact absurd hg (h3 (by simp [D.new]))
  · obtain ⟨a, c, e, _⟩ := h1 r d' hg
    exact ⟨r, d', rfl, c, by rw [show b = d'.buf from c.symm]; exact a.1⟩

/-- **C27** Truncated input: what the encoder wrote for a typed value, cut short anywhere, is reported as
a range error by the reader. -/
theorem truncated_reported (lib : Lib) (i : Item) (h : i.ok) :
    ∃ bs, Writes (Enc.op i.op) bs ∧ ∀ (pre : Bytes) (k : Nat), k < bs.length → (pre ++ bs).length < 2 ^ 32 →
      (i.read lib ⟨pre ++ bs.take k, pre.length, false⟩).1 = .err rangeError := by
  obtain ⟨bs, h1, h2⟩ := item_round_trip lib i h
  refine ⟨bs, h1, fun pre k hk hlt => ?_⟩
  have hm : ∀ {α : Type} {r : Rd α} (f : α → Option Item), Loc r → Loc (f <$> r) := fun f hr => loc_bind hr fun _ => loc_pure _
  refine loc_trunc ?_ h2 pre k hk hlt
  cases i with
  | nil => exact hm _ loc_isNextNil
  | bool b => exact hm _ loc_bool
  | int w v => exact hm _ (loc_rint w)
  | uint w v => exact hm _ (loc_ruint w)
  | f32 v => exact hm _ (loc_f32 lib)
  | f64 v => exact hm _ loc_f64
  | str v => exact hm _ loc_str
  | bytes v => exact hm _ loc_bytes
  | time v => exact hm _ (loc_time lib)
  | arraySize v => exact hm _ loc_arraySize
  | mapSize v => exact hm _ loc_mapSize

/-- **C27** Truncated input: any serialization of any value that `ReadAny` can read, cut short anywhere,
is reported as a range error by `ReadAny`. -/
theorem any_truncated_reported {E : Nat → Bytes → Prop} (v : Val) (bs : Bytes) (hw : Wire E v bs) (hr : Readable v)
    (hb : bs.length + 65536 ≤ 2 ^ 32) (k : Nat) (hk : k < bs.length) :
    ∃ fuel d', Dec.any fuel (D.new (bs.take k)) = some (.err rangeError, d') := by
  obtain ⟨w, ⟨f, hf⟩, _⟩ := any_reads hw hr
  have hb' : (bs.take k).length + 65536 ≤ 2 ^ 32 := by simp; omega
  obtain ⟨r, d', h1, _, _⟩ := any_returns_partial (bs.take k) hb'
  have h2 := any_mono (Nat.le_max_left (2 * (bs.take k).length + 1) f) h1
  have h3 := hf [] [] (by simp; omega)
  have h4 := any_mono (Nat.le_max_right (2 * (bs.take k).length + 1) f) h3
  refine ⟨max (2 * (bs.take k).length + 1) f, d', ?_⟩
  rcases (rloc_any _).1 (bs.take k) (bs.drop k) 0 r d' (Nat.zero_le _) (by simp; omega) h2 with h5 | ⟨o, h5, h6, h7⟩
  · rw [← h5]; exact h2
  · exfalso
    rw [List.take_append_drop] at h7
    simp only [List.nil_append, List.append_nil, List.length_nil] at h4
    rw [h4] at h7
    simp at h7 h5
    omega

/-- **C27** is false of the code: a byte string with a length near 2^32 makes `ReadByteArray` panic, as
position plus length wraps around in `checkBufferSize` (data_reader.go:239-249). -/
theorem bytes_panic_refuted : (Dec.bytes (D.new [0xc6, 0xff, 0xff, 0xff, 0xff])).1 = .panic := by decide +kernel

/-- **C27** is false of the code: a map with an array as key makes `ReadAny` panic. -/
theorem key_panic_refuted : (Dec.any 9 (D.new [0x81, 0x90, 0x00])).map (·.1) = some .panic := rfl

/-- **C27** is false of the code: on these six bytes `Skip` never returns. The string length wraps the
position around to 0. -/
theorem skip_diverges_refuted : ∀ fuel, Dec.skip fuel (D.new [0x92, 0xdb, 0xff, 0xff, 0xff, 0xfa]) = none := by
  have h0 : Dec.getSize (D.new [0x92, 0xdb, 0xff, 0xff, 0xff, 0xfa]) =
      (.ok 2, ⟨[0x92, 0xdb, 0xff, 0xff, 0xff, 0xfa], 1, false⟩) := by decide +kernel
  have h1 : Dec.getSize ⟨[0x92, 0xdb, 0xff, 0xff, 0xff, 0xfa], 1, false⟩ =
      (.ok 0, D.new [0x92, 0xdb, 0xff, 0xff, 0xff, 0xfa]) := by decide +kernel
  intro fuel
  induction fuel using Nat.strongRecOn with
  | ind fuel ih =>
    match fuel with
    | 0 => rfl
    | 1 => simp [Dec.skip, h0, Dec.skipN]
    | 2 => simp [Dec.skip, h0, Dec.skipN]
    | 3 => simp [Dec.skip, h0, h1, Dec.skipN]
    | n + 4 =>
      have := ih (n + 1) (by omega)
      rw [Dec.skip, h0]
      dsimp only
      rw [Dec.skipN, Dec.skip, h1]
      dsimp only
      rw [Dec.skipN]
      dsimp only
      rw [Dec.skipN, this]

/-- **C27** is false of the code: `Skip` reports success on a truncated float, as it ignores the error of
`Discard` (decoder.go:656). -/
theorem skip_truncated_refuted : (Dec.skip 9 (D.new [0xcb])).map (·.1) = some (.ok ()) := rfl

/-- The conditions are met by ordinary messages. -/
example : Tame [0x93, 0xdb, 0, 0, 0, 2, 0x61, 0x62, 0xc6, 0, 0, 0, 1, 9, 0x07] := by
  intro i c hc
  have hi : i < 15 := by
    rcases Nat.lt_or_ge i 15 with h | h
    · exact h
    · rw [List.getElem?_eq_none (by simpa using h)] at hc; simp at hc
  refine ⟨?_, fun h => ?_⟩
  · rcases i with _ | _ | _ | _ | _ | _ | _ | _ | _ | _ | _ | _ | _ | _ | _ | i <;> simp at hc <;> subst hc <;>
      first
      | omega
      | decide
  · subst h
    rcases i with _ | _ | _ | _ | _ | _ | _ | _ | _ | _ | _ | _ | _ | _ | _ | i <;> simp at hc

example : KeysTame [0x82, 0xa1, 0x61, 0x07, 0xa1, 0x62, 0xc3] := by
  intro i j c e hij hi hj _ hs
  rcases j with _ | _ | _ | _ | _ | _ | _ | j <;> simp at hj <;> first | omega | (subst hj; revert hs; decide)

/-! ## C28: errors stick -/

/-- **C28** A call that fails because the input has run out leaves a mark, and from then on every call, in
any sequence, fails and changes nothing. -/
theorem range_errors_stick (lib : Lib) (fuel : Nat) (c : Call) (d d' : D)
    (h : c.exec lib fuel d = some (.err rangeError, d')) (fuel' : Nat) (cs : List Call) :
    execAll lib (fuel' + 1) cs d' = some (List.replicate cs.length (.err rangeError), d') := by
  have he := marks_exec lib fuel c d d' h
  induction cs with
  | nil => rfl
  | cons c cs ih =>
    simp [execAll, sticky_exec lib fuel' c he, ih, List.replicate_succ]

example : Call.exec ⟨id, fun _ => none⟩ 1 .str (D.new [0xa3, 0x61]) = some (.err rangeError, ⟨[0xa3, 0x61], 1, true⟩) := by
  decide

/-! ## C29: skipping -/

/-- **C29** (part) `Skip` consumes exactly one value, for every serialization of every value, in any of the
forms MessagePack allows, except extensions of one byte or with an explicit length. -/
theorem skip_exact_partial (v : Val) (bs : Bytes) (h : Wire FixHead v bs) : ReadsRun Dec.skip bs () := skip_reads h

/-- **C29** (part) In particular for what the encoder writes for dynamic values. -/
theorem skip_any_partial (v : Any) (hs : Sized v) (hp : Plain v) :
    ∃ bs, Writes (Enc.any v) bs ∧ ReadsRun Dec.skip bs () := by
  obtain ⟨bs, h1, _, h3⟩ := any_enc v hs
  exact ⟨bs, h1, skip_reads (h3 hp FixHead)⟩

/-- **C29** (part) And for typed values, including times that fit the 4- and 8-byte forms. -/
theorem skip_item_partial (i : Item) (h : i.ok) (ha : ∀ n, i ≠ .arraySize n ∧ i ≠ .mapSize n)
    (ht : ∀ t, i = .time t → Size.timeLen t ≤ 8) :
    ∃ bs, Writes (Enc.op i.op) bs ∧ ReadsRun Dec.skip bs () := by
  cases i with
  | nil => exact ⟨_, nil_enc.1, skip_reads .nil⟩
  | bool b =>
    obtain ⟨bs, h1, _, h2, _⟩ := bool_enc b
    exact ⟨bs, h1, skip_reads (h2 _)⟩
  | int w v =>
    have h' : i64 v := by
      unfold i64
      cases w <;> simp [Item.ok, Width.bytes] at h <;> omega
    obtain ⟨bs, h1, _, h2, _⟩ := int_enc v h'
    exact ⟨bs, h1, skip_reads (h2 _)⟩
  | uint w v =>
    have h' : u64 v := by
      unfold u64
      cases w <;> simp [Item.ok, Width.bytes] at h <;> omega
    obtain ⟨bs, h1, _, h2, _⟩ := uint_enc v h'
    exact ⟨bs, h1, skip_reads (h2 _)⟩
  | f32 v =>
    obtain ⟨bs, h1, _, h2, _⟩ := f32_enc ⟨id, fun _ => none⟩ v h
    exact ⟨bs, h1, skip_reads (h2 _)⟩
  | f64 v =>
    obtain ⟨bs, h1, _, h2, _⟩ := f64_enc v h
    exact ⟨bs, h1, skip_reads (h2 _)⟩
  | str s =>
    obtain ⟨bs, h1, _, h2, _⟩ := str_enc s h
    exact ⟨bs, h1, skip_reads (h2 _)⟩
  | bytes s =>
    obtain ⟨bs, h1, _, h2, _⟩ := bytes_enc s h
    exact ⟨bs, h1, skip_reads (h2 _)⟩
  | time t =>
    obtain ⟨bs, h1, _, _, h2, _⟩ := time_enc ⟨id, fun _ => none⟩ t h
    exact ⟨bs, h1, skip_reads (h2 (ht t rfl))⟩
  | arraySize n => exact absurd rfl (ha n).1
  | mapSize n => exact absurd rfl (ha n).2

/-- **C29** is false of the code for times that need 12 bytes: the encoder writes them, `Skip` rejects
them. -/
theorem skip_time_refuted :
    toBytes [.time ⟨-1, 0⟩] =
      .ok [0xc7, 12, 0xff, 0, 0, 0, 0, 0xff, 0xff, 0xff, 0xff, 0xff, 0xff, 0xff, 0xff] ∧
    (Dec.skip 9 (D.new [0xc7, 12, 0xff, 0, 0, 0, 0, 0xff, 0xff, 0xff, 0xff, 0xff, 0xff, 0xff, 0xff])).map (·.1) =
      some (.err "bad prefix") := by
  constructor
  · decide +kernel
  · rfl

/-! ## C56: optional values -/

theorem wire_head {E : Nat → Bytes → Prop} (hE : ∀ n h, E n h → ∃ c cs, h = c :: cs ∧ c ≠ 0xc0) {v : Val} {bs : Bytes}
    (hw : Wire E v bs) (hv : v ≠ .nil) : ∃ c cs, bs = c :: cs ∧ c ≠ 0xc0 := by
  cases hw with
  | nil => exact absurd rfl hv
  | false => exact ⟨_, _, rfl, by decide⟩
  | true => exact ⟨_, _, rfl, by decide⟩
  | posfix h =>
    refine ⟨_, _, rfl, fun he => ?_⟩
    have := congrArg UInt8.toNat he
    simp at this
    omega
  | negfix h =>
    refine ⟨_, _, rfl, fun he => ?_⟩
    have := congrArg UInt8.toNat he
    simp at this
    omega
  | uint hj h =>
    refine ⟨_, _, rfl, ?_⟩
    rcases cases4 hj with rfl | rfl | rfl | rfl <;> decide
  | int hj h =>
    refine ⟨_, _, rfl, ?_⟩
    rcases cases4 hj with rfl | rfl | rfl | rfl <;> decide
  | f32 h => exact ⟨_, _, rfl, by decide⟩
  | f64 h => exact ⟨_, _, rfl, by decide⟩
  | str hh =>
    cases hh with
    | fix h =>
      refine ⟨_, _, rfl, fun he => ?_⟩
      have := congrArg UInt8.toNat he
      rw [toNat_add _ _ (by simp; omega)] at this
      simp at this
      omega
    | len hj h =>
      refine ⟨_, _, rfl, ?_⟩
      rcases cases3 hj with rfl | rfl | rfl <;> decide
  | bin hh =>
    cases hh with
    | len hj h =>
      refine ⟨_, _, rfl, ?_⟩
      rcases cases3 hj with rfl | rfl | rfl <;> decide
  | arr hh _ =>
    cases hh with
    | fix h =>
      refine ⟨_, _, rfl, fun he => ?_⟩
      have := congrArg UInt8.toNat he
      rw [toNat_add _ _ (by simp; omega)] at this
      simp at this
      omega
    | a16 h => exact ⟨_, _, rfl, by decide⟩
    | a32 h => exact ⟨_, _, rfl, by decide⟩
  | map hh _ =>
    cases hh with
    | fix h =>
      refine ⟨_, _, rfl, fun he => ?_⟩
      have := congrArg UInt8.toNat he
      rw [toNat_add _ _ (by simp; omega)] at this
      simp at this
      omega
    | m16 h => exact ⟨_, _, rfl, by decide⟩
    | m32 h => exact ⟨_, _, rfl, by decide⟩
  | ext hh _ =>
    obtain ⟨c, cs, rfl, hc⟩ := hE _ _ hh
    exact ⟨c, _, rfl, hc⟩

theorem extHead_ne {n : Nat} {h : Bytes} (hh : ExtHead n h) : ∃ c cs, h = c :: cs ∧ c ≠ 0xc0 := by
  cases hh with
  | fix hj =>
    rename_i j
    refine ⟨_, _, rfl, ?_⟩
    have : j = 0 ∨ j = 1 ∨ j = 2 ∨ j = 3 ∨ j = 4 := by omega
    rcases this with rfl | rfl | rfl | rfl | rfl <;> decide
  | len hj h =>
    refine ⟨_, _, rfl, ?_⟩
    rcases cases3 hj with rfl | rfl | rfl <;> decide

theorem nillable_some {α : Type} {r : Rd α} {c : UInt8} {cs : Bytes} {a : α} (hc : c ≠ 0xc0) (h : Reads r (c :: cs) a) :
    Reads (Dec.nillable r) (c :: cs) (some a) := by
  have hn : c.toNat ≠ 0xc0 := fun he => hc (byte_eq he)
  intro pre rest hlt
  have hp : Dec.isNextNil ⟨pre ++ (c :: cs) ++ rest, pre.length, false⟩ =
      (.ok false, ⟨pre ++ (c :: cs) ++ rest, pre.length, false⟩) := by
    unfold Dec.isNextNil
    have e : pre ++ (c :: cs) ++ rest = pre ++ c :: (cs ++ rest) := by simp
    rw [e] at hlt ⊢
    rw [rd_bind_ok (peek_eq pre c (cs ++ rest) hlt), if_neg hn]
    rfl
  unfold Dec.nillable
  rw [rd_bind_ok hp]
  simp only [Bool.false_eq_true, if_false]
  rw [rd_bind_ok (h pre rest hlt)]
  rfl

theorem nillable_none {α : Type} {r : Rd α} : Reads (Dec.nillable r) [0xc0] none := by
  unfold Dec.nillable
  exact Reads.bind_pure nil_enc.2 (Reads.pure _)

/-- The writer call for an optional value. encoder.go:31-37 and alike -/
def optOp : Option Item → Op
  | none => .nil
  | some i => i.op

/-- **C56** (part) Optional values of all types: an absent value is written as nil and read as absent, a
present one is read as present with the same value, by `ReadNillableX`, which consumes exactly what was
written. `k` gives the type of the value. -/
theorem optional_round_trip_partial (lib : Lib) (o : Option Item) (k : Item) (ho : ∀ i ∈ o, i.ok ∧ i ≠ .nil ∧ ∀ n, i ≠ .arraySize n ∧ i ≠ .mapSize n)
    (hk : ∀ i ∈ o, i.read lib = k.read lib) :
    ∃ bs, Writes (Enc.op (optOp o)) bs ∧ Reads (Dec.nillable (k.read lib)) bs (o.map some) := by
  cases o with
  | none => exact ⟨[0xc0], nil_enc.1, nillable_none⟩
  | some i =>
    obtain ⟨h, hnil, ha⟩ := ho i rfl
    rw [← hk i rfl]
    suffices hh : ∃ bs, Writes (Enc.op i.op) bs ∧ Reads (i.read lib) bs (some i) ∧ ∃ c cs, bs = c :: cs ∧ c ≠ 0xc0 by
      obtain ⟨bs, h1, h2, c, cs, rfl, h3⟩ := hh
      exact ⟨_, h1, nillable_some h3 h2⟩
    have W : ∀ {v : Val} {bs : Bytes}, (∀ E, Wire E v bs) → v ≠ .nil → ∃ c cs, bs = c :: cs ∧ c ≠ 0xc0 :=
      fun hw hv => wire_head (E := ExtHead) (fun _ _ h => extHead_ne h) (hw ExtHead) hv
    cases i with
    | nil => exact absurd rfl hnil
    | bool b =>
      obtain ⟨bs, h1, _, h3, h2⟩ := bool_enc b
      exact ⟨bs, h1, h2.map, W h3 (fun h => nomatch h)⟩
    | int w v =>
      have h' : i64 v := by
        unfold i64
        cases w <;> simp [Item.ok, Width.bytes] at h <;> omega
      obtain ⟨bs, h1, _, h3, h2⟩ := int_enc v h'
      exact ⟨bs, h1, (rint_reads h h2).map, W h3 (fun h => nomatch h)⟩
    | uint w v =>
      have h' : u64 v := by
        unfold u64
        cases w <;> simp [Item.ok, Width.bytes] at h <;> omega
      obtain ⟨bs, h1, _, h3, h2⟩ := uint_enc v h'
      exact ⟨bs, h1, (ruint_reads h h2).map, W h3 (fun h => nomatch h)⟩
    | f32 v =>
      obtain ⟨bs, h1, _, h3, h2⟩ := f32_enc lib v h
      exact ⟨bs, h1, h2.map, W h3 (fun h => nomatch h)⟩
    | f64 v =>
      obtain ⟨bs, h1, _, h3, h2⟩ := f64_enc v h
      exact ⟨bs, h1, h2.map, W h3 (fun h => nomatch h)⟩
    | str s =>
      obtain ⟨bs, h1, _, h3, h2⟩ := str_enc s h
      exact ⟨bs, h1, h2.map, W h3 (fun h => nomatch h)⟩
    | bytes s =>
      obtain ⟨bs, h1, _, h3, h2⟩ := bytes_enc s h
      exact ⟨bs, h1, h2.map, W h3 (fun h => nomatch h)⟩
    | time t =>
      obtain ⟨bs, h1, _, h3, _, h2⟩ := time_enc lib t h
      exact ⟨bs, h1, h2.map, wire_head (fun _ _ h => extHead_ne h) h3 (fun h => nomatch h)⟩
    | arraySize n => exact absurd rfl (ha n).1
    | mapSize n => exact absurd rfl (ha n).2

/-- **C56** is false of the code where the optional value is converted to a named type: on nil, and on
every error, `convert.NillableString`, `NillableBool` and `NillableNumeric` read through a nil
pointer. -/
theorem convert_nil_refuted {α β : Type} (conv : α → β) (r : Rd α) (pre rest : Bytes)
    (hlt : (pre ++ [0xc0] ++ rest).length < 2 ^ 32) :
    Convert.readNillable conv r ⟨pre ++ [0xc0] ++ rest, pre.length, false⟩ = .panic := by
  unfold Convert.readNillable
  rw [nillable_none pre rest hlt]
  rfl

theorem convert_error_refuted {α β : Type} (conv : α → β) (r : Rd α) (d : D) (e : String)
    (h : (Dec.nillable r d).1 = .err e) : Convert.readNillable conv r d = .panic := by
  unfold Convert.readNillable
  rw [h]
  rfl

/-- **C56** (part) A present value is converted, and `convert.NillableParse` treats absence and errors
correctly. -/
theorem convert_some_partial {α β : Type} (conv : α → β) {r : Rd α} {c : UInt8} {cs : Bytes} {a : α} (hc : c ≠ 0xc0)
    (h : Reads r (c :: cs) a) (pre rest : Bytes) (hlt : (pre ++ c :: cs ++ rest).length < 2 ^ 32) :
    Convert.readNillable conv r ⟨pre ++ c :: cs ++ rest, pre.length, false⟩ = .ok (some (conv a), none) := by
  unfold Convert.readNillable
  rw [nillable_some hc h pre rest hlt]
  rfl

theorem parse_nil {α β : Type} (fn : α → Except String β) (r : Rd α) (pre rest : Bytes)
    (hlt : (pre ++ [0xc0] ++ rest).length < 2 ^ 32) :
    Convert.readParse fn r ⟨pre ++ [0xc0] ++ rest, pre.length, false⟩ = .ok (none, none) := by
  unfold Convert.readParse
  rw [nillable_none pre rest hlt]
  rfl

theorem parse_some {α β : Type} (fn : α → Except String β) {r : Rd α} {c : UInt8} {cs : Bytes} {a : α} (hc : c ≠ 0xc0)
    (h : Reads r (c :: cs) a) (pre rest : Bytes) (hlt : (pre ++ c :: cs ++ rest).length < 2 ^ 32) (b : β)
    (hb : fn a = .ok b) :
    Convert.readParse fn r ⟨pre ++ c :: cs ++ rest, pre.length, false⟩ = .ok (some b, none) := by
  unfold Convert.readParse
  rw [nillable_some hc h pre rest hlt]
  simp [Convert.results, Convert.nillableParse, hb]

/-- **C56** A value that is present but does not parse is reported, with the parser's error and no value. -/
theorem parse_bad {α β : Type} (fn : α → Except String β) {r : Rd α} {c : UInt8} {cs : Bytes} {a : α} (hc : c ≠ 0xc0)
    (h : Reads r (c :: cs) a) (pre rest : Bytes) (hlt : (pre ++ c :: cs ++ rest).length < 2 ^ 32) (e : String)
    (hb : fn a = .error e) :
    Convert.readParse fn r ⟨pre ++ c :: cs ++ rest, pre.length, false⟩ = .ok (none, some e) := by
  unfold Convert.readParse
  rw [nillable_some hc h pre rest hlt]
  simp [Convert.results, Convert.nillableParse, hb]

/-- **C56** An error of the reader is reported, and the parser does not run. -/
theorem parse_error {α β : Type} (fn : α → Except String β) (r : Rd α) (d : D) (e : String)
    (h : (Dec.nillable r d).1 = .err e) : Convert.readParse fn r d = .ok (none, some e) := by
  unfold Convert.readParse
  rw [h]
  rfl

/-- A reader that fails: nothing is left to read. -/
example : ∃ e, Convert.readParse (β := Nat) (fun (_ : Bool) => .ok 1) Dec.bool ⟨[], 0, false⟩ = .ok (none, some e) :=
  ⟨_, parse_error _ _ _ _ rfl⟩

/-- A value that does not parse. -/
example : Convert.readParse (β := Nat) (fun (b : Bool) => if b then .ok 1 else .error "no") Dec.bool ⟨[0xc2], 0, false⟩ =
    .ok (none, some "no") := rfl

end Iota.Props.Msgpack
