import Verif.Model.RustOperations
import Verif.Props.Operations

/-!
# C70: operation tables between Go and Rust modules
-/

namespace Iota.Props.RustOperations
open Go Iota.Spec.Operations Iota.Props.Operations

/-- What a Rust operation says, with its direction. -/
def den (dir : UInt8) (o : Rust.Op) : Entry := ⟨o.kind, dir, o.index.toNat, o.ns, o.op⟩

/-- A Rust value: the kind is one of the four, the names are UTF-8 and short enough for the format. -/
structure Valid (o : Rust.Op) : Prop where
  kind : 1 ≤ o.kind.toNat ∧ o.kind.toNat ≤ 4
  ns : Rust.isUtf8 o.ns = true
  op : Rust.isUtf8 o.op = true
  nsLen : o.ns.length < 2 ^ 16
  opLen : o.op.length < 2 ^ 16

theorem encodeOp_entry (dir : UInt8) (o : Rust.Op) (h1 : o.ns.length < 2 ^ 16) (h2 : o.op.length < 2 ^ 16) :
    Rust.encodeOp dir o = entry (den dir o) [] := by
  simp [Rust.encodeOp, entry, den, lenStr, be16, u16_small h1, u16_small h2, be32]

theorem entries_flatten (dir : UInt8) (l : List Rust.Op) (h : ∀ o ∈ l, Valid o) (r : List (Entry × Bytes)) :
    (l.map (Rust.encodeOp dir)).flatten ++ entries r = entries (l.map (fun o => (den dir o, [])) ++ r) := by
  induction l with
  | nil => rfl
  | cons o l ih =>
    have v := h o List.mem_cons_self
    simp only [List.map_cons, List.flatten_cons, List.cons_append, entries, List.append_assoc]
    rw [ih fun o ho => h o (List.mem_cons_of_mem _ ho), encodeOp_entry dir o v.nsLen v.opLen]

/-- The entries of a Rust list, in the order in which they are written: exports (direction 1), then imports (2). -/
def listEntries (l : Rust.OpList) : List (Entry × Bytes) :=
  l.exports.map (fun o => (den 1 o, [])) ++ l.imports.map (fun o => (den 2 o, []))

/-- The Rust encoder writes the format. -/
theorem encodeOps_format (l : Rust.OpList) (h : ∀ o ∈ l.exports ++ l.imports, Valid o)
    (hn : l.imports.length + l.exports.length < 2 ^ 32) : Rust.encodeOps l = table (listEntries l) := by
  unfold Rust.encodeOps table
  have e : be32 (UInt32.ofNat (l.imports.length + l.exports.length)) = beBytes 4 (listEntries l).length := by
    rw [be32]
    congr 1
    simp [listEntries]
    omega
  have h2 := entries_flatten 2 l.imports (fun o ho => h o (List.mem_append_right _ ho)) []
  have h1 := entries_flatten 1 l.exports (fun o ho => h o (List.mem_append_left _ ho))
    (l.imports.map (fun o => (den 2 o, [])))
  simp only [List.append_nil, entries] at h2
  rw [e, h2, List.append_assoc, h1]
  simp [Rust.opMagic, listEntries, be16]

/-- What a Go module reads from a Rust module's list. -/
def toGo (dir : UInt8) (o : Rust.Op) : Operations.Operation := ⟨o.index, o.kind, dir, o.ns, o.op⟩

/-- **C70 (partial)** A Go peer reads every list a Rust module publishes: exports with direction 1, then imports with
direction 2, each with the same index, kind, namespace and name. -/
theorem rust_to_go_partial (l : Rust.OpList) (h : ∀ o ∈ l.exports ++ l.imports, Valid o)
    (hn : l.imports.length + l.exports.length < 2 ^ 32) (r : Bytes) :
    Operations.fromBytes (Rust.encodeOps l ++ r) = .ok (l.exports.map (toGo 1) ++ l.imports.map (toGo 2)) := by
  rw [encodeOps_format l h hn, fromBytes_format _ r (by simp [listEntries]; omega)]
  · simp [listEntries, ofEntry, den, Function.comp_def]
    rfl
  · intro x hx
    have key : ∀ (dir : UInt8) (o : Rust.Op), Valid o → (den dir o).fits := fun dir o v =>
      ⟨by simpa [den] using o.index.toNat_lt, v.nsLen, v.opLen⟩
    simp only [listEntries, List.mem_append, List.mem_map] at hx
    rcases hx with ⟨o, ho, rfl⟩ | ⟨o, ho, rfl⟩
    · exact ⟨key 1 o (h o (List.mem_append_left _ ho)), by simp⟩
    · exact ⟨key 2 o (h o (List.mem_append_right _ ho)), by simp⟩

/-! ## The Rust reader -/

theorem splitTo_append {a b : Bytes} {n : Nat} (h : n = a.length) : Rust.splitTo (a ++ b) n = .ok (a, b) := by
  subst h; simp [Rust.splitTo]

theorem fromU16_be {n : Nat} (h : n < 2 ^ 16) : ∃ v, Rust.fromU16 (beBytes 2 n) = .ok v ∧ v.toNat = n := by
  refine ⟨UInt16.ofNat n, ?_, u16_small h⟩
  rw [Rust.fromU16, if_pos (by simp), beNat_beBytes_of_lt (by omega)]

theorem fromU32_be {n : Nat} (h : n < 2 ^ 32) : Rust.fromU32 (beBytes 4 n) = .ok (UInt32.ofNat n) := by
  rw [Rust.fromU32, if_pos (by simp), beNat_beBytes_of_lt (by omega)]

/-- The operation an entry describes. -/
def opOf (e : Entry) : Rust.Op := ⟨UInt32.ofNat e.index, e.type, e.ns, e.name⟩

/-- What the Rust reader demands of an entry. -/
structure Readable (e : Entry) : Prop where
  fits : e.fits
  kind : 1 ≤ e.type.toNat ∧ e.type.toNat ≤ 4
  ns : Rust.isUtf8 e.ns = true
  name : Rust.isUtf8 e.name = true

/-- One operation is read, but the bytes of its reserved field are left in the buffer. -/
theorem decodeOp_entry (e : Entry) (h : Readable e) (res r : Bytes) (hr : res.length < 2 ^ 16) :
    Rust.decodeOp (entry e res ++ r) = .ok (e.direction, opOf e, res ++ r) := by
  obtain ⟨⟨h0, h1, h2⟩, hk, hn, ho⟩ := h
  have hx : entry e res ++ r = [e.type] ++ ([e.direction] ++ (beBytes 4 e.index ++ (beBytes 2 e.ns.length ++ (e.ns ++
      (beBytes 2 e.name.length ++ (e.name ++ (beBytes 2 res.length ++ (res ++ r)))))))) := by
    simp [entry, lenStr]
  obtain ⟨v1, g1, k1⟩ := fromU16_be h1
  obtain ⟨v2, g2, k2⟩ := fromU16_be h2
  obtain ⟨v3, g3, _⟩ := fromU16_be hr
  have i1 : index [e.type] 0 = .ok e.type := rfl
  have i2 : index [e.direction] 0 = .ok e.direction := rfl
  rw [hx, Rust.decodeOp, splitTo_append (by rfl), Res.ok_bind, i1, Res.ok_bind, if_pos hk, splitTo_append (by rfl), Res.ok_bind, i2,
    Res.ok_bind, splitTo_append (by simp), Res.ok_bind, fromU32_be h0, Res.ok_bind, splitTo_append (by simp), Res.ok_bind, g1,
    Res.ok_bind, splitTo_append k1, Res.ok_bind, if_pos hn, splitTo_append (by simp), Res.ok_bind, g2, Res.ok_bind,
    splitTo_append k2, Res.ok_bind, if_pos ho, splitTo_append (by simp), Res.ok_bind, g3, Res.ok_bind]
  rfl

/-- Entries in the order of a table, sorted into exports and imports. -/
def sorted (l : List Entry) : Rust.OpList :=
  ⟨(l.filter (fun e => e.direction ≠ 1)).map opOf, (l.filter (fun e => e.direction = 1)).map opOf⟩

theorem decodeLoop_entries (l : List Entry) (h : ∀ e ∈ l, Readable e) (r : Bytes) (a : Rust.OpList) :
    Rust.decodeLoop l.length (entries (l.map (fun e => (e, []))) ++ r) a =
      .ok ⟨a.imports ++ (sorted l).imports, a.exports ++ (sorted l).exports⟩ := by
  induction l generalizing a with
  | nil => simp [Rust.decodeLoop, sorted]
  | cons e l ih =>
    simp only [List.map_cons, entries, List.length_cons, Rust.decodeLoop, List.append_assoc]
    rw [decodeOp_entry e (h e List.mem_cons_self) [] _ (by simp)]
    simp only [Res.ok_bind, List.nil_append]
    rw [ih fun e he => h e (List.mem_cons_of_mem _ he)]
    by_cases hd : e.direction = 1
    · simp [hd, Rust.addExport, sorted]
    · simp [hd, Rust.addImport, sorted]

/-- The Rust reader reads every table in the format whose reserved fields are empty. -/
theorem decodeOps_format (l : List Entry) (h : ∀ e ∈ l, Readable e) (hn : l.length < 2 ^ 32) (r : Bytes) :
    Rust.decodeOps (table (l.map (fun e => (e, []))) ++ r) = .ok (sorted l) := by
  have hx : table (l.map (fun e => (e, []))) ++ r =
      Rust.opMagic ++ (beBytes 2 1 ++ (beBytes 4 l.length ++ (entries (l.map (fun e => (e, []))) ++ r))) := by
    simp [table, Rust.opMagic]
  obtain ⟨v, g, k⟩ := fromU16_be (n := 1) (by decide)
  have hv : v = 1 := UInt16.toNat_inj.mp k
  subst hv
  rw [hx, Rust.decodeOps, splitTo_append (by rfl), Res.ok_bind, if_neg (by simp), splitTo_append (by simp), Res.ok_bind, g,
    Res.ok_bind, if_neg (by simp), splitTo_append (by simp), Res.ok_bind, fromU32_be hn, Res.ok_bind,
    show (UInt32.ofNat l.length).toNat = l.length by simp; omega, decodeLoop_entries l h r]
  simp

/-- **C70 (partial)** A Rust peer reads every table a Go module publishes, provided the kinds are the four known ones and
the names are UTF-8: each operation with the same index, kind, namespace and name, in the same order, among the exports
if its direction is 1 and among the imports otherwise. -/
theorem go_to_rust_partial (t : Operations.Table) (h : ∀ o ∈ t, o.ns.length < 2 ^ 16 ∧ o.op.length < 2 ^ 16)
    (hs : 10 + (t.map fun o => 12 + o.ns.length + o.op.length).sum < 2 ^ 32)
    (hk : ∀ o ∈ t, 1 ≤ o.type.toNat ∧ o.type.toNat ≤ 4) (hu : ∀ o ∈ t, Rust.isUtf8 o.ns = true ∧ Rust.isUtf8 o.op = true)
    (r : Bytes) :
    ∃ bs, Operations.toBytes t = .ok bs ∧ Rust.decodeOps (bs ++ r) = .ok
      ⟨(t.filter (fun o => o.direction ≠ 1)).map fun o => ⟨o.index, o.type, o.ns, o.op⟩,
       (t.filter (fun o => o.direction = 1)).map fun o => ⟨o.index, o.type, o.ns, o.op⟩⟩ := by
  refine ⟨_, toBytes_format t h hs, ?_⟩
  have hn : t.length < 2 ^ 32 := by
    have : t.length ≤ (t.map fun o => 12 + o.ns.length + o.op.length).sum := by
      clear hs h hk hu
      induction t with
      | nil => simp
      | cons o t ih => simp; omega
    omega
  have := decodeOps_format (t.map Operations.den) (by
    intro e he
    obtain ⟨o, ho, rfl⟩ := List.mem_map.mp he
    exact ⟨⟨by simpa [Operations.den] using o.index.toNat_lt, h o ho⟩, hk o ho, (hu o ho).1, (hu o ho).2⟩) (by simpa using hn) r
  rw [List.map_map] at this
  rw [show (fun o => (Operations.den o, ([] : Bytes))) = ((fun e => (e, [])) ∘ Operations.den) by rfl, this]
  simp only [sorted, List.filter_map, List.map_map]
  simp [Function.comp_def, opOf, Operations.den]
  exact ⟨rfl, rfl⟩

/-- **C70 (partial)** A Rust module reads back its own list. -/
theorem rust_round_trip (l : Rust.OpList) (h : ∀ o ∈ l.exports ++ l.imports, Valid o)
    (hn : l.imports.length + l.exports.length < 2 ^ 32) (r : Bytes) : Rust.decodeOps (Rust.encodeOps l ++ r) = .ok l := by
  rw [encodeOps_format l h hn]
  have e : listEntries l = (l.exports.map (den 1) ++ l.imports.map (den 2)).map (fun e => (e, [])) := by
    simp [listEntries, Function.comp_def]
  rw [e, decodeOps_format _ _ (by simp; omega) r]
  · have f1 : ∀ x : List Rust.Op, (x.map (den 1)).filter (fun e => decide (e.direction ≠ 1)) = [] := by
      intro x; simp [List.filter_eq_nil_iff, den]
    have f2 : ∀ x : List Rust.Op, (x.map (den 1)).filter (fun e => decide (e.direction = 1)) = x.map (den 1) := by
      intro x; simp [List.filter_eq_self, den]
    have f3 : ∀ x : List Rust.Op, (x.map (den 2)).filter (fun e => decide (e.direction ≠ 1)) = x.map (den 2) := by
      intro x; simp [List.filter_eq_self, den]
    have f4 : ∀ x : List Rust.Op, (x.map (den 2)).filter (fun e => decide (e.direction = 1)) = [] := by
      intro x; simp [List.filter_eq_nil_iff, den]
    have g : ∀ (d : UInt8) (x : List Rust.Op), (x.map (den d)).map opOf = x := by
      intro d x
      rw [List.map_map]
      conv => rhs; rw [← List.map_id x]
      apply List.map_congr_left
      intro o _
      simp [opOf, den]
    simp only [sorted, List.filter_append, f1, f2, f3, f4, List.nil_append, List.append_nil, g]
  · intro e he
    have key : ∀ (d : UInt8) (o : Rust.Op), Valid o → Readable (den d o) := fun d o v =>
      ⟨⟨by simpa [den] using o.index.toNat_lt, v.nsLen, v.opLen⟩, v.kind, v.ns, v.op⟩
    simp only [List.mem_append, List.mem_map] at he
    rcases he with ⟨o, ho, rfl⟩ | ⟨o, ho, rfl⟩
    · exact key 1 o (h o (List.mem_append_left _ ho))
    · exact key 2 o (h o (List.mem_append_right _ ho))

example : Valid ⟨7, 4, [0x61], [0x62, 0x63]⟩ :=
  ⟨by decide, by decide +kernel, by decide +kernel, by decide, by decide⟩

/-- **C70 is false of the code**: a table with a non-empty reserved field, which the format allows and the Go reader
skips, throws the Rust reader out of step. Here the second operation is read from the reserved bytes of the first. -/
theorem reserved_refuted : ∃ l : List (Entry × Bytes), (∀ x ∈ l, x.1.fits) ∧
    Operations.fromBytes (table l) = .ok [⟨7, 1, 1, [], []⟩, ⟨8, 2, 1, [], []⟩] ∧
    Rust.decodeOps (table l) = .ok ⟨[], [⟨7, 1, [], []⟩, ⟨9, 3, [], []⟩]⟩ :=
  ⟨[(⟨1, 1, 7, [], []⟩, [3, 1, 0, 0, 0, 9, 0, 0, 0, 0, 0, 0]), (⟨2, 1, 8, [], []⟩, [])], by simp [Entry.fits],
    by decide +kernel, by decide +kernel⟩

/-- **C70 is false of the code**: an operation of a kind outside the known four, which a Go peer reads, crashes the Rust
reader; and a name that is not UTF-8 makes the whole table unreadable. -/
theorem kind_refuted : ∃ t, (∃ bs, Operations.toBytes t = .ok bs ∧ Operations.fromBytes bs = .ok t ∧
    Rust.decodeOps bs = .panic) :=
  ⟨[⟨7, 5, 1, [], []⟩], _, rfl, by decide +kernel, by decide +kernel⟩

theorem name_refuted : ∃ t, (∃ bs, Operations.toBytes t = .ok bs ∧ Operations.fromBytes bs = .ok t ∧
    ∃ e, Rust.decodeOps bs = .err e) :=
  ⟨[⟨7, 1, 1, [0x61], [0x62]⟩, ⟨8, 1, 1, [0xff], []⟩], _, rfl, by decide +kernel, "Utf8String", by decide +kernel⟩

/-- **C70** (lookup) The index found for a name is that of the first operation with that name, and none is found exactly
if there is no such operation. -/
theorem lookup_first (l : List Rust.Op) (ns op : Bytes) :
    (Rust.getOp l ns op = none ↔ ∀ o ∈ l, ¬ (o.ns = ns ∧ o.op = op)) ∧
    ∀ i, Rust.getOp l ns op = some i → ∃ a o b, l = a ++ o :: b ∧ o.ns = ns ∧ o.op = op ∧ o.index = i ∧
      ∀ o' ∈ a, ¬ (o'.ns = ns ∧ o'.op = op) := by
  unfold Rust.getOp
  constructor
  · simp
  · intro i hi
    obtain ⟨o, ho, rfl⟩ := Option.map_eq_some_iff.mp hi
    obtain ⟨h1, a, b, h2, h3⟩ := List.find?_eq_some_iff_append.mp ho
    refine ⟨a, o, b, h2, ?_, ?_, rfl, ?_⟩
    · simp at h1; exact h1.1
    · simp at h1; exact h1.2
    · intro o' ho'
      have h4 := h3 o' ho'
      simp at h4
      rintro ⟨x, y⟩
      exact h4.elim (· x) (· y)

/-- **C70** Only lists that say to be of version 1 of the format are read. -/
theorem rust_reads_version_1 (b : Bytes) (l : Rust.OpList) (h : Rust.decodeOps b = .ok l) :
    ∃ r, b = [0x00, 0x77, 0x72, 0x73, 0x00, 0x01] ++ r := by
  match b with
  | [] | [_] | [_, _] | [_, _, _] => simp [Rust.decodeOps, Rust.splitTo] at h
  | [a, b, c, d] | [a, b, c, d, _] =>
    simp [Rust.decodeOps, Rust.splitTo] at h
    split at h <;> cases h
  | a :: b :: c :: d :: x :: y :: r =>
    simp [Rust.decodeOps, Rust.splitTo] at h
    split at h
    · rename_i hm
      by_cases hv : UInt16.ofNat (beNat [x, y]) = 1
      · have hv := congrArg UInt16.toNat hv
        simp [beNat] at hv
        have hx := x.toNat_lt
        have hy := y.toNat_lt
        have e1 : x = 0 := UInt8.toNat_inj.1 (by simp; omega)
        have e2 : y = 1 := UInt8.toNat_inj.1 (by simp; omega)
        simp only [Rust.opMagic, List.cons.injEq] at hm
        obtain ⟨rfl, rfl, rfl, rfl, _⟩ := hm
        subst e1; subst e2
        exact ⟨r, rfl⟩
      · rw [Rust.fromU16, if_pos (by rfl), Res.ok_bind, if_neg hv] at h; cases h
    · cases h

example : ∃ l, Rust.decodeOps ([0x00, 0x77, 0x72, 0x73, 0x00, 0x01] ++ [0, 0, 0, 0]) = .ok l := ⟨_, rfl⟩

end Iota.Props.RustOperations
