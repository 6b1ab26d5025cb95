import Verif.Model.OpsTool
import Verif.Spec.OpsTool
import Verif.Props.Sections
import Verif.Props.Operations

/-!
# Theorems about the program wasmrs-ops
-/

namespace Iota.Props.OpsTool
open Go Iota.Props.Operations Iota.OpsTool Iota.Operations Iota.Spec.Sections Iota.Spec.OpsTool

theorem last_cons (name : Bytes) (c : Bytes × Bytes) (cs : List (Bytes × Bytes)) :
    last name (c :: cs) = (last name cs).or (if c.1 = name then some c.2 else none) := by
  unfold last
  by_cases h : c.1 = name
  · rw [List.filter_cons_of_pos (by simpa using h), if_pos h]
    cases hl : cs.filter (fun c => c.1 = name) with
    | nil => simp
    | cons x xs => simp [List.getLast?_cons_cons, List.getLast?_cons]
  · rw [List.filter_cons_of_neg (by simpa using h), if_neg h]
    simp

theorem content_last {name : Bytes} (hn : name ≠ "name".toUTF8.toList) (ss : List Section) :
    content name ss = last name (customs ss) := by
  induction ss with
  | nil => rfl
  | cons s ss ih =>
    cases s with
    | other id c => exact ih
    | custom n d =>
      simp only [content, customs]
      by_cases h : n = "name".toUTF8.toList
      · rw [if_pos h, ih, if_neg (fun he : n = name => hn (he ▸ h))]
        cases last name (customs ss) <;> rfl
      · rw [if_neg h, last_cons, ih]
        cases last name (customs ss) <;> rfl

theorem ops_name : opsName ≠ "name".toUTF8.toList := by decide +kernel

/-- What `customsections.Read` finds. -/
theorem found {valid : Bytes → Bool} {cs : List (Bytes × Bytes)} {bin : Bytes} (h : Holds valid cs bin)
    (hne : last opsName cs ≠ some []) : ∃ m, Sections.read valid bin [opsName] = .ok m ∧ m opsName = last opsName cs := by
  obtain ⟨ss, hm, hcs⟩ := h
  obtain ⟨m, h1, h2⟩ := Props.Sections.sections_read_partial valid [opsName] ss bin hm (by
    rintro ⟨init, name, rfl, hn⟩
    rw [List.mem_singleton] at hn
    subst hn
    apply hne
    have hc : content opsName (init ++ [.custom opsName []]) = some [] := by
      clear hm hcs
      induction init with
      | nil => simp [content]
      | cons s ss ih => cases s <;> simp [content, ih]
    rw [← hcs, ← content_last ops_name, hc])
  refine ⟨m, h1, ?_⟩
  rw [h2, if_pos (List.mem_singleton.mpr rfl), content_last ops_name, hcs]

theorem last_none {cs : List (Bytes × Bytes)} (h : ∀ c ∈ cs, c.1 ≠ opsName) : last opsName cs = none := by
  unfold last
  rw [List.filter_eq_nil_iff.mpr (by simpa using h)]
  rfl

theorem last_added (cs : List (Bytes × Bytes)) (data : Bytes) : last opsName (cs ++ [(opsName, data)]) = some data := by
  unfold last
  rw [List.filter_append]
  simp

theorem find_first (cs : List (Bytes × Bytes)) (c : Bytes × Bytes) (h : cs.find? (fun c => c.1 = opsName) = some c) :
    first opsName cs = some c.2 := by
  unfold first
  rw [List.head?_filter, h]
  rfl

theorem find_added {cs : List (Bytes × Bytes)} (h : ∀ c ∈ cs, c.1 ≠ opsName) (data : Bytes) :
    (cs ++ [(opsName, data)]).find? (fun c => c.1 = opsName) = some (opsName, data) := by
  rw [List.find?_append, List.find?_eq_none.mpr (by simpa using h)]
  simp

theorem read_nonempty {data : Bytes} {t : Table} (h : fromBytes data = .ok t) : data ≠ [] := by
  rintro rfl
  have := Props.Operations.truncated_table_panics_refuted.2
  rw [this] at h
  cases h

/-- **C181 (partial)** Full statement: without a section `wasmrs_ops` in its file, the module is written back with one
more section, of this name, and all else as it was; `customsections.Read` and `operations.FromBytes` then give the
operations that the module reports; and the program, run once more, shows them and writes nothing. Proved for names
shorter than 2^16 bytes and tables below 4 GiB, provided that wabin reads back what it writes (`hw`). Missing: longer names
(`long_name_added_refuted`). -/
theorem table_added_partial {α : Type} (valid : Bytes → Bool) (w : Wabin α) (ops : Bytes → Res Table) (bin : Bytes) (m : Module α) (t : Table)
    (hd : w.decode bin = .ok m) (hh : Holds valid m.custom bin) (hno : ∀ c ∈ m.custom, c.1 ≠ opsName) (ho : ops bin = .ok t)
    (hf : ∀ o ∈ t, o.ns.length < 2 ^ 16 ∧ o.op.length < 2 ^ 16)
    (hs : 10 + (t.map fun o => 12 + o.ns.length + o.op.length).sum < 2 ^ 32)
    (hw : ∀ data, toBytes t = .ok data → w.decode (w.encode ⟨m.rest, m.custom ++ [(opsName, data)]⟩) = .ok ⟨m.rest, m.custom ++ [(opsName, data)]⟩ ∧
      Holds valid (m.custom ++ [(opsName, data)]) (w.encode ⟨m.rest, m.custom ++ [(opsName, data)]⟩)) :
    ∃ data bin', main valid w ops bin = .ok ([.added, .table t], some bin') ∧
      w.decode bin' = .ok ⟨m.rest, m.custom ++ [(opsName, data)]⟩ ∧
      (∃ found, Sections.read valid bin' [opsName] = .ok found ∧ found opsName = some data) ∧ fromBytes data = .ok t ∧
      ∀ ops', main valid w ops' bin' = .ok ([.name opsName, .table t, .table t], none) := by
  obtain ⟨data, h1, h2⟩ := Props.Operations.table_round_trip t hf hs
  have h2 := h2 []
  rw [List.append_nil] at h2
  obtain ⟨hw1, hw2⟩ := hw data h1
  obtain ⟨f0, h3, h4⟩ := found hh (by rw [last_none hno]; simp)
  obtain ⟨f1, h5, h6⟩ := found hw2 (by rw [last_added]; simpa using read_nonempty h2)
  rw [last_none hno] at h4
  rw [last_added] at h6
  refine ⟨data, w.encode ⟨m.rest, m.custom ++ [(opsName, data)]⟩, ?_, hw1, ⟨f1, h5, h6⟩, h2, fun ops' => ?_⟩
  · have : m.custom.find? (fun c => c.1 = opsName) = none := List.find?_eq_none.mpr (by simpa using hno)
    simp only [main, h3, shown, h4, hd, this, add, ho, h1, Res.ok_bind]
    rfl
  · simp only [main, h5, shown, h6, hw1, find_added hno, h2, Res.ok_bind]
    rfl

/-- **C181** A file with such sections is never written, and what is shown are the operations of the last one and then
those of the first one; both are the same if there is only one. If one of them is no table, the program fails. -/
theorem table_kept {α : Type} (valid : Bytes → Bool) (w : Wabin α) (ops : Bytes → Res Table) (bin : Bytes) (m : Module α)
    (hd : w.decode bin = .ok m) (hh : Holds valid m.custom bin) (hyes : ∃ c ∈ m.custom, c.1 = opsName) :
    (∀ out file, main valid w ops bin = .ok (out, file) → file = none) ∧
    (∀ out file, main valid w ops bin = .ok (out, file) → last opsName m.custom ≠ some [] → ∃ l f t t', last opsName m.custom = some l ∧
      first opsName m.custom = some f ∧ fromBytes l = .ok t ∧ fromBytes f = .ok t' ∧ out = [.name opsName, .table t, .table t']) ∧
    (∀ l f t t', last opsName m.custom = some l → first opsName m.custom = some f → fromBytes l = .ok t → fromBytes f = .ok t' →
      main valid w ops bin = .ok ([.name opsName, .table t, .table t'], none)) := by
  obtain ⟨c, hc⟩ : ∃ c, m.custom.find? (fun c => c.1 = opsName) = some c := by
    cases h : m.custom.find? (fun c => c.1 = opsName) with
    | some c => exact ⟨c, rfl⟩
    | none =>
      obtain ⟨c, h1, h2⟩ := hyes
      exact absurd h2 (by simpa using List.find?_eq_none.mp h c h1)
  have hfirst := find_first _ _ hc
  obtain ⟨ss, hm, hcs⟩ := hh
  have hlast : ∃ l, last opsName m.custom = some l := by
    obtain ⟨c, h1, h2⟩ := hyes
    unfold last
    cases hl : (m.custom.filter (fun c => c.1 = opsName)).getLast? with
    | some l => exact ⟨l.2, rfl⟩
    | none =>
      rw [List.getLast?_eq_none_iff, List.filter_eq_nil_iff] at hl
      exact absurd h2 (by simpa using hl c h1)
  refine ⟨fun out file h => ?_, fun out file h hne => ?_, ?_⟩
  · obtain ⟨f, _, h⟩ := bind_ok h
    obtain ⟨o, _, h⟩ := bind_ok h
    rw [hd, Res.ok_bind, hc] at h
    obtain ⟨t, _, h⟩ := bind_ok h
    cases h
    rfl
  · obtain ⟨f, h1, h2⟩ := found ⟨ss, hm, hcs⟩ hne
    obtain ⟨l, hl⟩ := hlast
    rw [hl] at h2
    simp only [main, h1, shown, h2, hd, hc, Res.ok_bind] at h
    obtain ⟨o, ho, h⟩ := bind_ok h
    obtain ⟨t, ht, ho⟩ := bind_ok ho
    obtain ⟨t', ht', h⟩ := bind_ok h
    cases ho
    cases h
    exact ⟨l, c.2, t, t', hl, hfirst, ht, ht', rfl⟩
  · intro l f t t' hl hf ht ht'
    obtain ⟨f1, h1, h2⟩ := found ⟨ss, hm, hcs⟩ (by rw [hl]; simpa using read_nonempty ht)
    rw [hfirst] at hf
    cases hf
    rw [hl] at h2
    simp only [main, h1, shown, h2, hd, hc, ht, ht', Res.ok_bind]
    rfl

/-- **C181 is false of the code** for operations with a name of 65536 bytes: the section that was added says something
else than the module. -/
theorem long_name_added_refuted {α : Type} (valid : Bytes → Bool) (w : Wabin α) (ops : Bytes → Res Table) (bin ns : Bytes) (m : Module α)
    (hd : w.decode bin = .ok m) (hh : Holds valid m.custom bin) (hno : ∀ c ∈ m.custom, c.1 ≠ opsName) (hl : ns.length = 65536)
    (ho : ops bin = .ok [⟨7, 1, 1, ns, [0x63]⟩])
    (hw : ∀ data, toBytes [⟨7, 1, 1, ns, [0x63]⟩] = .ok data → w.decode (w.encode ⟨m.rest, m.custom ++ [(opsName, data)]⟩) = .ok ⟨m.rest, m.custom ++ [(opsName, data)]⟩ ∧
      Holds valid (m.custom ++ [(opsName, data)]) (w.encode ⟨m.rest, m.custom ++ [(opsName, data)]⟩)) :
    ∃ bin', main valid w ops bin = .ok ([.added, .table [⟨7, 1, 1, ns, [0x63]⟩]], some bin') ∧
      main valid w ops bin' = .ok ([.name opsName, .table [⟨7, 1, 1, [], [0x63]⟩], .table [⟨7, 1, 1, [], [0x63]⟩]], none) := by
  obtain ⟨data, h1, h2⟩ := long_name_refuted ns hl
  obtain ⟨hw1, hw2⟩ := hw data h1
  obtain ⟨f0, h3, h4⟩ := found hh (by rw [last_none hno]; simp)
  obtain ⟨f1, h5, h6⟩ := found hw2 (by rw [last_added]; simpa using read_nonempty h2)
  rw [last_none hno] at h4
  rw [last_added] at h6
  refine ⟨w.encode ⟨m.rest, m.custom ++ [(opsName, data)]⟩, ?_, ?_⟩
  · have : m.custom.find? (fun c => c.1 = opsName) = none := List.find?_eq_none.mpr (by simpa using hno)
    simp only [main, h3, shown, h4, hd, this, add, ho, h1, Res.ok_bind]
    rfl
  · simp only [main, h5, shown, h6, hw1, find_added hno, h2, Res.ok_bind]
    rfl

/-! ## A case -/

/-- `n` in five bytes of LEB128. -/
def leb (n : Nat) : Bytes :=
  [UInt8.ofNat (n % 128 + 128), UInt8.ofNat (n / 128 % 128 + 128), UInt8.ofNat (n / 128 ^ 2 % 128 + 128), UInt8.ofNat (n / 128 ^ 3 % 128 + 128),
    UInt8.ofNat (n / 128 ^ 4 % 16)]

/-- The custom sections in binary form. -/
def encodeCustom : List (Bytes × Bytes) → Bytes
  | [] => []
  | c :: cs => 0 :: leb (5 + c.1.length + c.2.length) ++ (leb c.1.length ++ c.1 ++ c.2) ++ encodeCustom cs

/-- A library for modules that have custom sections, and else only one type section without types. -/
def small : Wabin Unit where
  decode b := if b = [0x00, 0x61, 0x73, 0x6d, 0x01, 0x00, 0x00, 0x00] ++ ([1, 1, 0] ++ encodeCustom [([0x61], [7, 8])]) then
      .ok ⟨(), [([0x61], [7, 8])]⟩
    else .ok ⟨(), [([0x61], [7, 8]), (opsName, b.drop 46)]⟩
  encode m := [0x00, 0x61, 0x73, 0x6d, 0x01, 0x00, 0x00, 0x00] ++ ([1, 1, 0] ++ encodeCustom m.custom)

theorem leb_u32 {n : Nat} (h : n < 2 ^ 32) : U32 n (leb n) := by
  refine ⟨?_, by simp [leb], h⟩
  have e : ∀ k, k < 256 → (UInt8.ofNat k).toNat = k := fun k hk => by simp; omega
  have l5 : Leb (n / 128 ^ 4 % 16) [UInt8.ofNat (n / 128 ^ 4 % 16)] := by
    have := Leb.last (b := UInt8.ofNat (n / 128 ^ 4 % 16)) (by rw [e _ (by omega)]; omega)
    rwa [e _ (by omega)] at this
  have step : ∀ (k r : Nat) (bs : Bytes), k < 128 → Leb r bs → Leb (k + 128 * r) (UInt8.ofNat (k + 128) :: bs) := by
    intro k r bs hk hr
    have := Leb.more (b := UInt8.ofNat (k + 128)) (by rw [e _ (by omega)]; omega) hr
    rw [e _ (by omega)] at this
    rwa [show k + 128 - 128 = k by omega] at this
  have := step (n % 128) _ _ (by omega) (step (n / 128 % 128) _ _ (by omega) (step (n / 128 ^ 2 % 128) _ _ (by omega)
    (step (n / 128 ^ 3 % 128) _ _ (by omega) l5)))
  have hn : n % 128 + 128 * (n / 128 % 128 + 128 * (n / 128 ^ 2 % 128 + 128 * (n / 128 ^ 3 % 128 + 128 * (n / 128 ^ 4 % 16)))) = n := by
    omega
  rw [hn] at this
  exact this

theorem holds_small (cs : List (Bytes × Bytes)) (h : ∀ c ∈ cs, 5 + c.1.length + c.2.length < 2 ^ 32 ∧ c.1 ≠ "name".toUTF8.toList) :
    Holds (fun _ => true) cs (small.encode ⟨(), cs⟩) := by
  have key : ∀ cs : List (Bytes × Bytes), (∀ c ∈ cs, 5 + c.1.length + c.2.length < 2 ^ 32 ∧ c.1 ≠ "name".toUTF8.toList) →
      IsSections (fun _ => true) (cs.map fun c => .custom c.1 c.2) (encodeCustom cs) ∧
      customs (cs.map fun c => Section.custom c.1 c.2) = cs := by
    intro cs
    induction cs with
    | nil => intro _; exact ⟨.nil, rfl⟩
    | cons c cs ih =>
      intro h
      obtain ⟨h1, h2⟩ := ih fun x hx => h x (List.mem_cons_of_mem _ hx)
      obtain ⟨h3, h4⟩ := h c List.mem_cons_self
      refine ⟨.cons (.custom (leb_u32 (by omega)) ?_ rfl) h1, ?_⟩
      · rw [show (leb c.1.length ++ c.1 ++ c.2).length = 5 + c.1.length + c.2.length by simp [leb]; omega]
        exact leb_u32 h3
      · simp only [List.map_cons, customs, if_neg h4, h2]
  obtain ⟨h1, h2⟩ := key cs h
  refine ⟨.other 1 [0] :: cs.map (fun c => .custom c.1 c.2), ⟨_, rfl, .cons (.other (id := 1) (ls := [1]) (by decide) ?_) h1⟩, by rw [customs]; exact h2⟩
  exact ⟨.last (b := 1) (by decide), by decide, by decide⟩

def smallBin : Bytes := small.encode ⟨(), [([0x61], [7, 8])]⟩

example : main (fun _ => true) small (fun _ => .ok [⟨7, 1, 1, [0x61, 0x62], [0x63]⟩]) smallBin =
    .ok ([.added, .table [⟨7, 1, 1, [0x61, 0x62], [0x63]⟩]],
      some (small.encode ⟨(), [([0x61], [7, 8]), (opsName, [0, 0x77, 0x72, 0x73, 0, 1, 0, 0, 0, 1, 1, 1, 0, 0, 0, 7, 0, 2, 0x61, 0x62, 0, 1, 0x63, 0, 0])]⟩)) := by
  decide +kernel

/-- The hypotheses of `table_added_partial` hold in this case. -/
example (ops : Bytes → Res Table) (t : Table) (hs : 10 + (t.map fun o => 12 + o.ns.length + o.op.length).sum < 2 ^ 31)
    (ho : ops smallBin = .ok t) (hf : ∀ o ∈ t, o.ns.length < 2 ^ 16 ∧ o.op.length < 2 ^ 16) :
    ∃ data bin', main (fun _ => true) small ops smallBin = .ok ([.added, .table t], some bin') ∧
      small.decode bin' = .ok ⟨(), [([0x61], [7, 8])] ++ [(opsName, data)]⟩ ∧
      (∃ found, Sections.read (fun _ => true) bin' [opsName] = .ok found ∧ found opsName = some data) ∧ fromBytes data = .ok t ∧
      ∀ ops', main (fun _ => true) small ops' bin' = .ok ([.name opsName, .table t, .table t], none) := by
  have hname : opsName.length = 10 := by decide +kernel
  refine table_added_partial (fun _ => true) small ops smallBin ⟨(), [([0x61], [7, 8])]⟩ t ?_ (holds_small _ ?_) ?_ ho hf (by omega) ?_
  · simp only [small, smallBin, if_true]
  · intro c hc; rw [List.mem_singleton] at hc; subst hc; exact ⟨by simp, by decide +kernel⟩
  · intro c hc; rw [List.mem_singleton] at hc; subst hc; decide +kernel
  · intro data hdata
    have hl : data.length < 2 ^ 31 := by
      rw [toBytes_format t hf (by omega)] at hdata
      cases hdata
      have := length_entries t
      simp only [Spec.Operations.table, List.length_append, this, List.length_cons, List.length_nil, length_beBytes]
      omega
    constructor
    · simp only [small]
      rw [if_neg ?_]
      · have he : [0x00, 0x61, 0x73, 0x6d, 0x01, 0x00, 0x00, 0x00] ++ ([1, 1, 0] ++ encodeCustom ([([0x61], [7, 8])] ++ [(opsName, data)])) =
            ([0x00, 0x61, 0x73, 0x6d, 0x01, 0x00, 0x00, 0x00] ++ ([1, 1, 0] ++ (encodeCustom [([0x61], [7, 8])] ++
              (0 :: leb (5 + opsName.length + data.length) ++ (leb opsName.length ++ opsName))))) ++ data := by
          simp [encodeCustom]
        rw [he, List.drop_left' (by simp [encodeCustom, leb, hname])]
        rfl
      · intro he
        have := congrArg List.length he
        simp [encodeCustom, leb] at this
    · refine holds_small _ ?_
      intro c hc
      rw [List.mem_append, List.mem_singleton, List.mem_singleton] at hc
      rcases hc with rfl | rfl
      · exact ⟨by simp, by decide +kernel⟩
      · exact ⟨by simp only [hname]; omega, ops_name⟩

end Iota.Props.OpsTool
