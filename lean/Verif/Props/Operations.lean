import Verif.Model.Operations
import Verif.Spec.Operations

/-!
# C31, C58: operation tables
-/

namespace Iota.Props.Operations
open Go Iota.Operations Iota.Spec.Operations

/-- What the model's operation says. -/
def den (o : Operation) : Entry := ⟨o.type, o.direction, o.index.toNat, o.ns, o.op⟩

/-- Names short enough for the format. -/
def Fits (o : Operation) : Prop := o.ns.length < 2 ^ 16 ∧ o.op.length < 2 ^ 16

def wire (o : Operation) : Bytes := entry (den o) []

theorem length_wire (o : Operation) : (wire o).length = 12 + o.ns.length + o.op.length := by
  simp [wire, entry, den, lenStr]; omega

theorem length_entries (t : Table) :
    (entries (t.map fun o => (den o, []))).length = (t.map fun o => 12 + o.ns.length + o.op.length).sum := by
  induction t with
  | nil => rfl
  | cons o t ih =>
    have := length_wire o
    simp only [wire] at this
    simp [entries, ih, this]

theorem size_eq (t : Table) (h : 10 + (t.map fun o => 12 + o.ns.length + o.op.length).sum < 2 ^ 32) :
    (size t).toNat = 10 + (t.map fun o => 12 + o.ns.length + o.op.length).sum := by
  induction t with
  | nil => rfl
  | cons o t ih =>
    simp only [List.map_cons, List.sum_cons] at h ⊢
    simp only [size, UInt32.toNat_add, UInt32.toNat_ofNat']
    rw [ih (by omega)]
    omega

theorem putAt_len {c : Cur} {off : Nat} {bs : Bytes} (p o r : Bytes) (hr : c.rest = p ++ o ++ r) (hp : off = p.length)
    (ho : o.length = bs.length) : c.putAt off bs = .ok ⟨c.done, p ++ bs ++ r⟩ := by
  obtain ⟨d, r'⟩ := c
  simp only at hr
  subst hr hp
  exact Cur.putAt_append d p o r bs ho

theorem u16_small {n : Nat} (h : n < 2 ^ 16) : (UInt16.ofNat n).toNat = n := by
  simp; omega

theorem writeOp_eq (o : Operation) (h : Fits o) (d z r : Bytes) (hz : z.length = (wire o).length) :
    writeOp ⟨d, z ++ r⟩ o = .ok ⟨d ++ wire o, r⟩ := by
  obtain ⟨h1, h2⟩ := h
  rw [length_wire] at hz
  obtain ⟨z1, z, rfl, l1⟩ := exists_split z (n := 1) (by omega)
  simp only [List.length_append] at hz
  obtain ⟨z2, z, rfl, l2⟩ := exists_split z (n := 1) (by omega)
  simp only [List.length_append] at hz
  obtain ⟨z3, z, rfl, l3⟩ := exists_split z (n := 4) (by omega)
  simp only [List.length_append] at hz
  obtain ⟨z4, z, rfl, l4⟩ := exists_split z (n := 2) (by omega)
  simp only [List.length_append] at hz
  obtain ⟨z5, z, rfl, l5⟩ := exists_split z (n := o.ns.length) (by omega)
  simp only [List.length_append] at hz
  obtain ⟨z6, z, rfl, l6⟩ := exists_split z (n := 2) (by omega)
  simp only [List.length_append] at hz
  obtain ⟨z7, z8, rfl, l7⟩ := exists_split z (n := o.op.length) (by omega)
  simp only [List.length_append] at hz
  have l8 : z8.length = 2 := by omega
  unfold writeOp
  rw [putAt_len [] z1 (z2 ++ z3 ++ z4 ++ z5 ++ z6 ++ z7 ++ z8 ++ r) (by simp) (by rfl) (by simp [l1])]
  simp only [Res.ok_bind]
  rw [putAt_len [o.type] z2 (z3 ++ z4 ++ z5 ++ z6 ++ z7 ++ z8 ++ r) (by simp) (by rfl) (by simp [l2])]
  simp only [Res.ok_bind]
  rw [putAt_len [o.type, o.direction] z3 (z4 ++ z5 ++ z6 ++ z7 ++ z8 ++ r) (by simp) (by rfl) (by simp [l3])]
  simp only [Res.ok_bind]
  rw [show [o.type, o.direction] ++ be32 o.index ++ (z4 ++ z5 ++ z6 ++ z7 ++ z8 ++ r) =
    ([o.type, o.direction] ++ be32 o.index) ++ (z4 ++ z5 ++ z6 ++ z7 ++ z8 ++ r) by simp]
  rw [Cur.adv_append _ _ _ (by simp)]
  simp only [Res.ok_bind]
  rw [putAt_len [] z4 (z5 ++ z6 ++ z7 ++ z8 ++ r) (by simp) (by rfl) (by simp [l4])]
  simp only [Res.ok_bind]
  rw [List.nil_append, Cur.adv_append _ _ _ (by simp)]
  simp only [Res.ok_bind]
  rw [show z5 ++ z6 ++ z7 ++ z8 ++ r = z5 ++ (z6 ++ z7 ++ z8 ++ r) by simp, Cur.copy_append _ _ _ _ l5,
    Cur.adv_append _ _ _ (u16_small h1)]
  simp only [Res.ok_bind]
  rw [putAt_len [] z6 (z7 ++ z8 ++ r) (by simp) (by rfl) (by simp [l6])]
  simp only [Res.ok_bind]
  rw [List.nil_append, Cur.adv_append _ _ _ (by simp)]
  simp only [Res.ok_bind]
  rw [show z7 ++ z8 ++ r = z7 ++ (z8 ++ r) by simp, Cur.copy_append _ _ _ _ l7, Cur.adv_append _ _ _ (u16_small h2)]
  simp only [Res.ok_bind]
  rw [putAt_len [] z8 r (by simp) (by rfl) (by simp [l8])]
  simp only [Res.ok_bind]
  rw [List.nil_append, Cur.adv_append _ _ _ (by simp)]
  have e1 : be16 (UInt16.ofNat o.ns.length) = beBytes 2 o.ns.length := by rw [be16, u16_small h1]
  have e2 : be16 (UInt16.ofNat o.op.length) = beBytes 2 o.op.length := by rw [be16, u16_small h2]
  rw [e1, e2]
  simp [wire, entry, den, lenStr, be32, be16]

theorem writeOps_eq (t : Table) (h : ∀ o ∈ t, Fits o) (d z : Bytes)
    (hz : z.length = (entries (t.map fun o => (den o, []))).length) :
    writeOps ⟨d, z⟩ t = .ok ⟨d ++ entries (t.map fun o => (den o, [])), []⟩ := by
  induction t generalizing d z with
  | nil =>
    have : z = [] := List.length_eq_zero_iff.mp hz
    simp [writeOps, this, entries]
  | cons o t ih =>
    simp only [List.map_cons, entries, List.length_append] at hz ⊢
    obtain ⟨a, b, rfl, ha⟩ := exists_split z (n := (wire o).length) (by simp only [wire]; omega)
    simp only [List.length_append] at hz
    rw [writeOps, writeOp_eq o (h o List.mem_cons_self) d a b ha, Res.ok_bind,
      ih (fun o ho => h o (List.mem_cons_of_mem _ ho)) _ _ (by simp only [wire] at ha; omega)]
    simp [wire]

/-- `ToBytes` writes exactly the format, with empty reserved fields. -/
theorem toBytes_format (t : Table) (h : ∀ o ∈ t, Fits o)
    (hs : 10 + (t.map fun o => 12 + o.ns.length + o.op.length).sum < 2 ^ 32) :
    toBytes t = .ok (table (t.map fun o => (den o, []))) := by
  have hn : t.length < 2 ^ 32 := by
    have : t.length ≤ (t.map fun o => 12 + o.ns.length + o.op.length).sum := by
      clear hs h
      induction t with
      | nil => simp
      | cons o t ih => simp; omega
    omega
  unfold toBytes
  have hz := size_eq t hs
  rw [← length_entries] at hz
  rw [hz, Cur.start]
  obtain ⟨z1, z, hzz, l1⟩ := exists_split (List.replicate (10 + (entries (t.map fun o => (den o, []))).length) (0 : UInt8))
    (n := 4) (by simp; omega)
  rw [hzz]
  have hzl := congrArg List.length hzz
  simp only [List.length_replicate, List.length_append] at hzl
  clear hzz
  obtain ⟨z2, z, rfl, l2⟩ := exists_split z (n := 2) (by omega)
  simp only [List.length_append] at hzl
  obtain ⟨z3, z4, rfl, l3⟩ := exists_split z (n := 4) (by omega)
  simp only [List.length_append] at hzl
  rw [Cur.copy_append _ _ _ _ (by rw [l1]; rfl), Cur.adv_append _ _ _ (by rfl)]
  simp only [Res.ok_bind]
  rw [putAt_len [] z2 (z3 ++ z4) (by simp) (by rfl) (by simp [l2])]
  simp only [Res.ok_bind]
  rw [List.nil_append, Cur.adv_append _ _ _ (by simp)]
  simp only [Res.ok_bind]
  rw [putAt_len [] z3 z4 (by simp) (by rfl) (by simp [l3])]
  simp only [Res.ok_bind]
  rw [List.nil_append, Cur.adv_append _ _ _ (by simp)]
  simp only [Res.ok_bind]
  rw [writeOps_eq t h _ z4 (by omega)]
  have e : be32 (UInt32.ofNat t.length) = beBytes 4 t.length := by
    rw [be32]; congr 1; simp; omega
  rw [e]
  simp [Cur.buf, table, magic, be16]

theorem slice_at {p o r : Bytes} {lo hi : Nat} (hl : lo = p.length) (hh : hi = p.length + o.length) :
    slice (p ++ o ++ r) lo hi = .ok o := by
  subst hl hh
  unfold slice
  rw [if_pos (by simp)]
  congr 1
  rw [show p.length + o.length = (p ++ o).length by simp, List.take_left]
  simp

theorem sliceTo_append {a b : Bytes} {n : Nat} (h : n = a.length) : sliceTo (a ++ b) n = .ok a := by
  subst h; simp [sliceTo]

theorem sliceFrom_append {a b : Bytes} {n : Nat} (h : n = a.length) : sliceFrom (a ++ b) n = .ok b := by
  subst h; simp [sliceFrom]

theorem getU16_be {n : Nat} (h : n < 2 ^ 16) (r : Bytes) : ∃ v, getU16 (beBytes 2 n ++ r) = .ok v ∧ v.toNat = n := by
  refine ⟨UInt16.ofNat n, ?_, u16_small h⟩
  have : beBytes 2 n = be16 (UInt16.ofNat n) := by rw [be16, u16_small h]
  rw [this, getU16_be16_append]

theorem getU32_be {n : Nat} (h : n < 2 ^ 32) (r : Bytes) : getU32 (beBytes 4 n ++ r) = .ok (UInt32.ofNat n) := by
  have : beBytes 4 n = be32 (UInt32.ofNat n) := by rw [be32]; congr 1; simp; omega
  rw [this, getU32_be32_append]

/-- The operation an entry describes. -/
def ofEntry (e : Entry) : Operation := ⟨UInt32.ofNat e.index, e.type, e.direction, e.ns, e.name⟩

/-- An operation up to the length of the reserved field. -/
def head (e : Entry) : Bytes := e.type :: e.direction :: beBytes 4 e.index ++ lenStr e.ns ++ lenStr e.name

theorem readOp_head (e : Entry) (h : e.fits) (len : UInt16) (tail : Bytes) (hl : (2 + len).toNat ≤ 2 + tail.length) :
    readOp (head e ++ (be16 len ++ tail)) = .ok (ofEntry e, (be16 len ++ tail).drop (2 + len).toNat) := by
  obtain ⟨h0, h1, h2⟩ := h
  have hr : ∀ r : Bytes, head e ++ r = [e.type, e.direction] ++ beBytes 4 e.index ++ beBytes 2 e.ns.length ++ e.ns ++
      beBytes 2 e.name.length ++ e.name ++ r := by simp [head, lenStr]
  have i7 : getU16 (be16 len ++ tail) = .ok len := getU16_be16_append len tail
  have i8 : sliceFrom (be16 len ++ tail) (2 + len).toNat = .ok ((be16 len ++ tail).drop (2 + len).toNat) := by
    rw [sliceFrom, if_pos (by simpa using hl)]
  generalize hR : (be16 len ++ tail).drop (2 + len).toNat = R at i8 ⊢
  generalize be16 len ++ tail = r at i7 i8 ⊢
  unfold readOp
  have i0 : index (head e ++ r) 0 = .ok e.type := by simp [head, index]
  have i1 : index (head e ++ r) 1 = .ok e.direction := by simp [head, index]
  have i2 : (slice (head e ++ r) 2 6 >>= getU32) = .ok (UInt32.ofNat e.index) := by
    rw [show head e ++ r = [e.type, e.direction] ++ beBytes 4 e.index ++ (lenStr e.ns ++ lenStr e.name ++ r) by simp [head],
      slice_at (by rfl) (by simp), Res.ok_bind, ← List.append_nil (beBytes 4 e.index), getU32_be h0]
  obtain ⟨v1, g1, k1⟩ := getU16_be h1 []
  obtain ⟨v2, g2, k2⟩ := getU16_be h2 []
  have i3 : (slice (head e ++ r) 6 8 >>= getU16) = .ok v1 := by
    rw [show head e ++ r =
      ([e.type, e.direction] ++ beBytes 4 e.index) ++ beBytes 2 e.ns.length ++ (e.ns ++ lenStr e.name ++ r)
      by simp [head, lenStr], slice_at (by simp) (by simp), Res.ok_bind]
    rw [List.append_nil] at g1
    exact g1
  have i4 : sliceFrom (head e ++ r) 8 = .ok (e.ns ++ (lenStr e.name ++ r)) := by
    rw [show head e ++ r = (e.type :: e.direction :: beBytes 4 e.index ++ beBytes 2 e.ns.length) ++
      (e.ns ++ (lenStr e.name ++ r)) by simp [head, lenStr]]
    exact sliceFrom_append (by simp)
  have i5 : (slice (lenStr e.name ++ r) 0 2 >>= getU16) = .ok v2 := by
    rw [show lenStr e.name ++ r = [] ++ beBytes 2 e.name.length ++ (e.name ++ r)
      by simp [lenStr], slice_at (by rfl) (by simp), Res.ok_bind]
    rw [List.append_nil] at g2
    exact g2
  have i6 : sliceFrom (lenStr e.name ++ r) 2 = .ok (e.name ++ r) := by
    rw [show lenStr e.name ++ r = beBytes 2 e.name.length ++ (e.name ++ r) by simp [lenStr]]
    exact sliceFrom_append (by simp)
  rw [i0, Res.ok_bind, i1, Res.ok_bind, i2, Res.ok_bind, i3, Res.ok_bind, i4, Res.ok_bind, sliceTo_append k1, Res.ok_bind,
    sliceFrom_append k1, Res.ok_bind, i5, Res.ok_bind, i6, Res.ok_bind, sliceTo_append k2, Res.ok_bind,
    sliceFrom_append k2, Res.ok_bind, i7, Res.ok_bind, i8, Res.ok_bind]
  rfl

theorem entry_head (e : Entry) (res r : Bytes) (hr : res.length < 2 ^ 16) :
    entry e res ++ r = head e ++ (be16 (UInt16.ofNat res.length) ++ (res ++ r)) := by
  rw [be16, u16_small hr]
  simp [entry, head, lenStr]

theorem readOp_eq (e : Entry) (res r : Bytes) (h : e.fits) (hr : res.length < 2 ^ 16 - 2) :
    readOp (entry e res ++ r) = .ok (ofEntry e, r) := by
  have e2 : (2 + UInt16.ofNat res.length).toNat = 2 + res.length := by
    rw [UInt16.toNat_add, u16_small (by omega)]
    exact Nat.mod_eq_of_lt (by have : (2 : UInt16).toNat = 2 := rfl; omega)
  rw [entry_head e res r (by omega), readOp_head e h _ _ (by rw [e2]; simp)]
  rw [e2, ← List.append_assoc, List.drop_left' (by simp)]

theorem readOps_eq (l : List (Entry × Bytes)) (r : Bytes) (h : ∀ x ∈ l, x.1.fits ∧ x.2.length < 2 ^ 16 - 2) :
    readOps l.length (entries l ++ r) = .ok (l.map fun x => ofEntry x.1) := by
  induction l with
  | nil => rfl
  | cons x l ih =>
    obtain ⟨h1, h2⟩ := h x List.mem_cons_self
    simp only [entries, List.length_cons, readOps, List.append_assoc]
    rw [readOp_eq x.1 x.2 _ h1 h2]
    simp only [Res.ok_bind, ih fun y hy => h y (List.mem_cons_of_mem _ hy)]
    rfl

/-- **C31** (reader) `FromBytes` reads every table in the format as the operations it describes, whatever is
in the reserved fields and whatever follows the table. -/
theorem fromBytes_format (l : List (Entry × Bytes)) (r : Bytes) (hn : l.length < 2 ^ 32)
    (h : ∀ x ∈ l, x.1.fits ∧ x.2.length < 2 ^ 16 - 2) :
    fromBytes (table l ++ r) = .ok (l.map fun x => ofEntry x.1) := by
  unfold fromBytes
  have a0 : slice (table l ++ r) 0 4 = .ok magic := by
    rw [show table l ++ r = [] ++ magic ++ (beBytes 2 1 ++ beBytes 4 l.length ++ entries l ++ r) by simp [table, magic]]
    exact slice_at rfl rfl
  have a1 : sliceFrom (table l ++ r) 4 = .ok (beBytes 2 1 ++ (beBytes 4 l.length ++ (entries l ++ r))) := by
    rw [show table l ++ r = magic ++ (beBytes 2 1 ++ (beBytes 4 l.length ++ (entries l ++ r))) by simp [table, magic]]
    exact sliceFrom_append rfl
  obtain ⟨v, g, k⟩ := getU16_be (n := 1) (by decide) (beBytes 4 l.length ++ (entries l ++ r))
  have hv : v = 1 := UInt16.toNat_inj.mp k
  subst hv
  rw [a0, Res.ok_bind, if_neg (by simp), a1, Res.ok_bind, g, Res.ok_bind, if_neg (by simp), sliceFrom_append (by simp),
    Res.ok_bind, getU32_be hn, Res.ok_bind, sliceFrom_append (by simp), Res.ok_bind]
  rw [show (UInt32.ofNat l.length).toNat = l.length by simp; omega]
  exact readOps_eq l r h

/-- **C31** Every table whose names are shorter than 2^16 bytes (and which fits in 4 GiB) is written without
a panic and read back as the same list of operations, whatever follows it in memory. -/
theorem table_round_trip (t : Table) (h : ∀ o ∈ t, o.ns.length < 2 ^ 16 ∧ o.op.length < 2 ^ 16)
    (hs : 10 + (t.map fun o => 12 + o.ns.length + o.op.length).sum < 2 ^ 32) :
    ∃ bs, toBytes t = .ok bs ∧ ∀ r, fromBytes (bs ++ r) = .ok t := by
  refine ⟨_, toBytes_format t h hs, fun r => ?_⟩
  have hn : t.length < 2 ^ 32 := by
    have : t.length ≤ (t.map fun o => 12 + o.ns.length + o.op.length).sum := by
      clear hs h
      induction t with
      | nil => simp
      | cons o t ih => simp; omega
    omega
  rw [fromBytes_format _ r (by simpa using hn)]
  · simp only [List.map_map]
    congr 1
    conv => rhs; rw [← List.map_id t]
    apply List.map_congr_left
    intro o _
    simp [ofEntry, den]
  · intro x hx
    obtain ⟨o, ho, rfl⟩ := List.mem_map.mp hx
    refine ⟨⟨?_, h o ho⟩, by simp⟩
    simpa [den] using o.index.toNat_lt

example : toBytes [⟨7, 1, 1, [0x61, 0x62], [0x63]⟩, ⟨0, 4, 2, [], [0x64]⟩] =
    .ok [0, 0x77, 0x72, 0x73, 0, 1, 0, 0, 0, 2, 1, 1, 0, 0, 0, 7, 0, 2, 0x61, 0x62, 0, 1, 0x63, 0, 0,
      4, 2, 0, 0, 0, 0, 0, 0, 0, 1, 0x64, 0, 0] := by decide +kernel

/-- Names must be shorter than 2^16 bytes: a namespace of 65536 bytes is written with length 0, and the
reader takes what follows for a different operation. -/
theorem long_name_refuted (ns : Bytes) (h : ns.length = 65536) :
    ∃ bs, toBytes [⟨7, 1, 1, ns, [0x63]⟩] = .ok bs ∧ fromBytes bs = .ok [⟨7, 1, 1, [], [0x63]⟩] := by
  obtain ⟨n1, n2, rfl, l1⟩ := exists_split ns (n := 5) (by omega)
  rw [List.length_append] at h
  match n1, l1 with
  | [a1, a2, a3, a4, a5], _ =>
    simp only [List.length_cons, List.length_nil] at h
    refine ⟨table [(⟨1, 1, 7, [], [0x63]⟩, [])] ++ (n2 ++ List.replicate 5 0), ?_, ?_⟩
    · have hs : (size [⟨7, 1, 1, [a1, a2, a3, a4, a5] ++ n2, [0x63]⟩]).toNat = 18 + (65536 + 5) := by
        simp [size, UInt32.toNat_add]
        omega
      have h16 : UInt16.ofNat ([a1, a2, a3, a4, a5] ++ n2).length = 0 := by
        apply UInt16.toNat_inj.mp
        simp
        omega
      obtain ⟨z, hz, lz⟩ : ∃ z : Bytes, List.replicate (65536 + 5) 0 = z ++ List.replicate 5 0 ∧ z.length = 65536 :=
        ⟨List.replicate 65536 0, List.replicate_append_replicate.symm, List.length_replicate ..⟩
      unfold toBytes
      rw [hs, ← List.replicate_append_replicate, hz, Cur.start]
      simp only [writeOps, writeOp, h16]
      rw [show List.replicate 18 (0 : UInt8) = [0,0,0,0] ++ [0,0,0,0,0,0,0,0,0,0,0,0,0,0] by decide, List.append_assoc,
        Cur.copy_append _ _ _ _ (by rfl), Cur.adv_append _ _ _ (by rfl)]
      simp only [Res.ok_bind]
      rw [putAt_len [] [0,0] ([0,0,0,0,0,0,0,0,0,0,0,0] ++ (z ++ List.replicate 5 0)) (by rfl) (by rfl) (by rfl)]
      simp only [Res.ok_bind]
      rw [List.nil_append, Cur.adv_append _ _ _ (by rfl)]
      simp only [Res.ok_bind]
      rw [putAt_len [] [0,0,0,0] ([0,0,0,0,0,0,0,0] ++ (z ++ List.replicate 5 0)) (by rfl) (by rfl) (by rfl)]
      simp only [Res.ok_bind]
      rw [List.nil_append, Cur.adv_append _ _ _ (by rfl)]
      simp only [Res.ok_bind]
      rw [putAt_len [] [0] ([0,0,0,0,0,0,0] ++ (z ++ List.replicate 5 0)) (by rfl) (by rfl) (by rfl)]
      simp only [Res.ok_bind]
      rw [putAt_len [1] [0] ([0,0,0,0,0,0] ++ (z ++ List.replicate 5 0)) (by rfl) (by rfl) (by rfl)]
      simp only [Res.ok_bind]
      rw [putAt_len [1, 1] [0,0,0,0] ([0,0] ++ (z ++ List.replicate 5 0)) (by rfl) (by rfl) (by rfl)]
      simp only [Res.ok_bind]
      rw [Cur.adv_append _ ([1, 1] ++ be32 7) _ (by rfl)]
      simp only [Res.ok_bind]
      rw [putAt_len [] [0,0] (z ++ List.replicate 5 0) (by rfl) (by rfl) (by rfl)]
      simp only [Res.ok_bind]
      rw [List.nil_append, Cur.adv_append _ _ _ (by rfl)]
      simp only [Res.ok_bind]
      rw [Cur.copy_append _ _ _ _ (by rw [lz]; simp; omega), ← List.nil_append ([a1, a2, a3, a4, a5] ++ n2 ++ _),
        Cur.adv_append _ [] _ (by rfl)]
      simp only [Res.ok_bind]
      rw [putAt_len [] [a1, a2] ([a3, a4, a5] ++ (n2 ++ List.replicate 5 0)) (by simp) (by rfl) (by rfl)]
      simp only [Res.ok_bind]
      rw [List.nil_append, Cur.adv_append _ _ _ (by rfl)]
      simp only [Res.ok_bind]
      rw [show [a3, a4, a5] ++ (n2 ++ List.replicate 5 0) = [a3] ++ ([a4, a5] ++ (n2 ++ List.replicate 5 0)) by rfl,
        Cur.copy_append _ _ _ _ (by rfl), Cur.adv_append _ _ _ (by rfl)]
      simp only [Res.ok_bind]
      rw [putAt_len [] [a4, a5] (n2 ++ List.replicate 5 0) (by rfl) (by rfl) (by rfl)]
      simp only [Res.ok_bind]
      rw [List.nil_append, Cur.adv_append _ _ _ (by rfl)]
      simp only [Res.ok_bind, Cur.buf]
      congr 1
    · exact fromBytes_format [(⟨1, 1, 7, [], [0x63]⟩, [])] _ (by decide) (by simp [Entry.fits])

/-! ## C58: malformed tables -/

theorem bind_ok {α β : Type} {x : Res α} {f : α → Res β} {b : β} (h : (x >>= f) = .ok b) : ∃ a, x = .ok a ∧ f a = .ok b := by
  cases x with
  | ok a => exact ⟨a, rfl, h⟩
  | err e => cases h
  | panic => cases h

theorem slice_ok {b x : Bytes} {lo hi : Nat} (h : slice b lo hi = .ok x) : lo ≤ hi ∧ hi ≤ b.length ∧ x = (b.take hi).drop lo := by
  unfold slice at h
  split at h
  · rename_i hh; cases h; exact ⟨hh.1, hh.2, rfl⟩
  · cases h

theorem sliceFrom_ok {b x : Bytes} {n : Nat} (h : sliceFrom b n = .ok x) : n ≤ b.length ∧ x = b.drop n := by
  unfold sliceFrom at h
  split at h
  · rename_i hh; cases h; exact ⟨hh, rfl⟩
  · cases h

theorem sliceTo_ok {b x : Bytes} {n : Nat} (h : sliceTo b n = .ok x) : n ≤ b.length ∧ x = b.take n := by
  unfold sliceTo at h
  split at h
  · rename_i hh; cases h; exact ⟨hh, rfl⟩
  · cases h

theorem getU16_ok {b : Bytes} {v : UInt16} (h : getU16 b = .ok v) : 2 ≤ b.length ∧ b.take 2 = beBytes 2 v.toNat := by
  unfold getU16 at h
  split at h
  · rename_i hh
    cases h
    refine ⟨hh, ?_⟩
    have hl : (b.take 2).length = 2 := by simp; omega
    have hlt := beNat_lt (b.take 2)
    rw [hl] at hlt
    rw [u16_small (by omega)]
    have := beBytes_beNat (b.take 2)
    rw [hl] at this
    exact this.symm
  · cases h

theorem getU32_ok {b : Bytes} {v : UInt32} (h : getU32 b = .ok v) : 4 ≤ b.length ∧ b.take 4 = beBytes 4 v.toNat := by
  unfold getU32 at h
  split at h
  · rename_i hh
    cases h
    refine ⟨hh, ?_⟩
    have hl : (b.take 4).length = 4 := by simp; omega
    have hlt := beNat_lt (b.take 4)
    rw [hl] at hlt
    have e : (UInt32.ofNat (beNat (b.take 4))).toNat = beNat (b.take 4) := by simp; omega
    rw [e]
    have := beBytes_beNat (b.take 4)
    rw [hl] at this
    exact this.symm
  · cases h

/-- Every successful reading of an operation started at its encoding. -/
theorem readOp_sound {buf : Bytes} {o : Operation} {r : Bytes} (h : readOp buf = .ok (o, r)) :
    (den o).fits ∧ ∃ (len : UInt16) (tail : Bytes),
      buf = o.type :: o.direction :: beBytes 4 o.index.toNat ++ lenStr o.ns ++ lenStr o.op ++ be16 len ++ tail ∧
      (len.toNat < 2 ^ 16 - 2 → ∃ res : Bytes, res.length = len.toNat ∧ tail = res ++ r) := by
  unfold readOp at h
  obtain ⟨ty, h1, h⟩ := bind_ok h
  obtain ⟨dir, h2, h⟩ := bind_ok h
  obtain ⟨id, h3, h⟩ := bind_ok h
  obtain ⟨nl, h4, h⟩ := bind_ok h
  obtain ⟨b1, h5, h⟩ := bind_ok h
  obtain ⟨ns, h6, h⟩ := bind_ok h
  obtain ⟨b2, h7, h⟩ := bind_ok h
  obtain ⟨ol, h8, h⟩ := bind_ok h
  obtain ⟨b3, h9, h⟩ := bind_ok h
  obtain ⟨op, h10, h⟩ := bind_ok h
  obtain ⟨b4, h11, h⟩ := bind_ok h
  obtain ⟨rl, h12, h⟩ := bind_ok h
  obtain ⟨b5, h13, h⟩ := bind_ok h
  cases h
  obtain ⟨i1, h3, h3'⟩ := bind_ok h3
  obtain ⟨_, l6, rfl⟩ := slice_ok h3
  obtain ⟨_, h3⟩ := getU32_ok h3'
  obtain ⟨i2, h4, h4'⟩ := bind_ok h4
  obtain ⟨_, l8, rfl⟩ := slice_ok h4
  obtain ⟨_, h4⟩ := getU16_ok h4'
  obtain ⟨_, e1⟩ := sliceFrom_ok h5
  obtain ⟨ln, e2⟩ := sliceTo_ok h6
  obtain ⟨_, e3⟩ := sliceFrom_ok h7
  obtain ⟨i3, h8, h8'⟩ := bind_ok h8
  obtain ⟨_, l2, rfl⟩ := slice_ok h8
  obtain ⟨_, h8⟩ := getU16_ok h8'
  obtain ⟨_, e4⟩ := sliceFrom_ok h9
  obtain ⟨lo, e5⟩ := sliceTo_ok h10
  obtain ⟨_, e6⟩ := sliceFrom_ok h11
  obtain ⟨l2', h12⟩ := getU16_ok h12
  obtain ⟨lr, e7⟩ := sliceFrom_ok h13
  have hb : buf = ty :: dir :: beBytes 4 id.toNat ++ beBytes 2 nl.toNat ++ b1 := by
    match buf, l8 with
    | a0 :: a1 :: a2 :: a3 :: a4 :: a5 :: a6 :: a7 :: bs, _ =>
      simp [index] at h1 h2
      simp at h3 h4 e1
      rw [← h3, ← h4, e1, h1, h2]
      simp
  have hb1 : b1 = ns ++ b2 := by rw [e2, e3, List.take_append_drop]
  have hb2 : b2 = beBytes 2 ol.toNat ++ b3 := by
    rw [e4, ← h8, List.drop_zero, List.take_take, Nat.min_self]
    exact (List.take_append_drop 2 b2).symm
  have hb3 : b3 = op ++ b4 := by rw [e5, e6, List.take_append_drop]
  have hb4 : b4 = be16 rl ++ b4.drop 2 := by rw [be16, ← h12, List.take_append_drop]
  have hns : ns.length = nl.toNat := by rw [e2, List.length_take]; omega
  have hop : op.length = ol.toNat := by rw [e5, List.length_take]; omega
  have := nl.toNat_lt
  have := ol.toNat_lt
  have := id.toNat_lt
  refine ⟨⟨by simp only [den]; omega, by simp only [den]; omega, by simp only [den]; omega⟩, rl, b4.drop 2, ?_, fun hl => ?_⟩
  · rw [hb, hb1, hb2, hb3, lenStr, lenStr, hns, hop]
    conv => lhs; rw [hb4]
    simp
  · have e : (2 + rl).toNat = 2 + rl.toNat := by
      rw [UInt16.toNat_add]
      have : (2 : UInt16).toNat = 2 := rfl
      rw [this]
      omega
    rw [e] at lr e7
    refine ⟨(b4.drop 2).take rl.toNat, by simp; omega, ?_⟩
    rw [e7, ← List.drop_drop, List.take_append_drop]

theorem readOps_sound (n : Nat) {buf : Bytes} {t : Table} (hb : ∀ i : Nat, buf[i]? = some 0xff → ∀ x, buf[i + 1]? = some x → x < 0xfe)
    (h : readOps n buf = .ok t) :
    ∃ (l : List (Entry × Bytes)) (r : Bytes), buf = entries l ++ r ∧ l.length = n ∧ t = l.map (fun x => ofEntry x.1) ∧
      ∀ x ∈ l, x.1.fits := by
  induction n generalizing buf t with
  | zero =>
    simp only [readOps] at h
    cases h
    exact ⟨[], buf, rfl, rfl, rfl, by simp⟩
  | succ n ih =>
    rw [readOps] at h
    obtain ⟨⟨o, r⟩, h1, h⟩ := bind_ok h
    obtain ⟨t', h2, h⟩ := bind_ok h
    cases h
    obtain ⟨hf, len, tail, e1, e2⟩ := readOp_sound h1
    have hlen : len.toNat < 2 ^ 16 - 2 := by
      have a : ∀ p : Bytes, p ++ be16 len ++ tail = p ++ UInt8.ofNat (len.toNat / 256) :: UInt8.ofNat len.toNat :: tail := by
        intro p; simp [be16, beBytes]
      rw [a] at e1
      generalize o.type :: o.direction :: beBytes 4 o.index.toNat ++ lenStr o.ns ++ lenStr o.op = p at e1
      have b := hb p.length
      rw [e1, List.getElem?_append_right (Nat.le_refl _), List.getElem?_append_right (by omega)] at b
      simp only [Nat.sub_self, Nat.add_sub_cancel_left, List.getElem?_cons_zero, List.getElem?_cons_succ] at b
      have hlt := len.toNat_lt
      rcases Nat.lt_or_ge len.toNat (2 ^ 16 - 2) with h | h
      · exact h
      · have h256 : len.toNat / 256 = 255 := by omega
        have := b (by rw [h256]; rfl) _ rfl
        rw [UInt8.lt_iff_toNat_lt] at this
        simp at this
        omega
    obtain ⟨res, hr, rfl⟩ := e2 hlen
    have e3 : buf = entry (den o) res ++ r := by
      rw [e1]
      simp [entry, den, lenStr, be16, hr]
    have hb' : ∀ i : Nat, r[i]? = some 0xff → ∀ x, r[i + 1]? = some x → x < 0xfe := by
      intro i hi x hx
      apply hb ((entry (den o) res).length + i) _ x _
      · rw [e3, List.getElem?_append_right (by omega), Nat.add_sub_cancel_left]; exact hi
      · rw [e3, List.getElem?_append_right (by omega), Nat.add_assoc, Nat.add_sub_cancel_left]; exact hx
    obtain ⟨l, r', g1, g2, g3, g4⟩ := ih hb' h2
    refine ⟨(den o, res) :: l, r', by rw [e3, g1]; simp [entries], by simp [g2], ?_, ?_⟩
    · rw [g3]; simp [ofEntry, den]
    · intro x hx
      rcases List.mem_cons.mp hx with rfl | hx
      · exact hf
      · exact g4 x hx

/-- **C58** (part) Whatever `FromBytes` accepts is a table in the format, possibly followed by other bytes,
and the operations returned are those the format assigns to it. Condition: the bytes do not contain `ff fe` or
`ff ff`, which would be taken for the length of a reserved field that overflows 16 bits. -/
theorem accepted_is_format_partial (b : Bytes) (t : Table)
    (hb : ∀ i : Nat, b[i]? = some 0xff → ∀ x, b[i + 1]? = some x → x < 0xfe) (h : fromBytes b = .ok t) :
    ∃ (l : List (Entry × Bytes)) (r : Bytes), b = table l ++ r ∧ t = l.map (fun x => ofEntry x.1) ∧ ∀ x ∈ l, x.1.fits := by
  unfold fromBytes at h
  obtain ⟨m, h1, h⟩ := bind_ok h
  split at h
  · cases h
  rename_i hm
  obtain ⟨b1, h2, h⟩ := bind_ok h
  obtain ⟨v, h3, h⟩ := bind_ok h
  split at h
  · cases h
  rename_i hv
  obtain ⟨b2, h4, h⟩ := bind_ok h
  obtain ⟨n, h5, h⟩ := bind_ok h
  obtain ⟨b3, h6, h⟩ := bind_ok h
  obtain ⟨_, _, rfl⟩ := slice_ok h1
  obtain ⟨_, rfl⟩ := sliceFrom_ok h2
  obtain ⟨_, h3⟩ := getU16_ok h3
  obtain ⟨_, rfl⟩ := sliceFrom_ok h4
  obtain ⟨_, h5⟩ := getU32_ok h5
  obtain ⟨_, rfl⟩ := sliceFrom_ok h6
  have hm : b.take 4 = magic := by simpa using hm
  have hv : v = 1 := by simpa using hv
  subst hv
  have eb : b = magic ++ beBytes 2 1 ++ beBytes 4 n.toNat ++ ((b.drop 4).drop 2).drop 4 := by
    have a1 : b = b.take 4 ++ b.drop 4 := (List.take_append_drop _ _).symm
    have a2 : b.drop 4 = (b.drop 4).take 2 ++ (b.drop 4).drop 2 := (List.take_append_drop _ _).symm
    have a3 : (b.drop 4).drop 2 = ((b.drop 4).drop 2).take 4 ++ ((b.drop 4).drop 2).drop 4 := (List.take_append_drop _ _).symm
    rw [hm] at a1
    rw [h3] at a2
    rw [h5] at a3
    conv => lhs; rw [a1, a2, a3]
    simp
  have hb' : ∀ i : Nat, (((b.drop 4).drop 2).drop 4)[i]? = some 0xff → ∀ x, (((b.drop 4).drop 2).drop 4)[i + 1]? = some x → x < 0xfe := by
    intro i hi x hx
    simp only [List.drop_drop, List.getElem?_drop] at hi hx
    exact hb _ hi x hx
  obtain ⟨l, r, g1, g2, g3, g4⟩ := readOps_sound n.toNat hb' h
  refine ⟨l, r, ?_, g3, g4⟩
  rw [g1] at eb
  rw [eb, table, g2]
  simp [magic]

example : fromBytes [0, 0x77, 0x72, 0x73, 0, 1, 0, 0, 0, 1, 1, 1, 0, 0, 0, 7, 0, 1, 0x61, 0, 1, 0x63, 0, 2, 9, 9, 5] =
    .ok [⟨7, 1, 1, [0x61], [0x63]⟩] := by decide +kernel

/-- **C58** is false of the code: a truncated table crashes the reader. -/
theorem truncated_table_panics_refuted : fromBytes [0, 0x77, 0x72, 0x73, 0, 1, 0, 0, 0, 1, 1] = .panic ∧ fromBytes [] = .panic := by
  decide +kernel

/-- **C58** is false of the code: after a reserved field of 65535 bytes the reader is out of step; here it
reads a second operation from the middle of the first one's reserved field. -/
theorem reserved_overflow_refuted (e : Entry) (he : e.fits) (res : Bytes) (hr : res.length = 65535) :
    readOp (entry e res) = .ok (ofEntry e, 0xff :: res) := by
  rw [← List.append_nil (entry e res), entry_head e res [] (by omega), hr, readOp_head e he _ _ (by simp; omega), List.append_nil]
  rfl

end Iota.Props.Operations
