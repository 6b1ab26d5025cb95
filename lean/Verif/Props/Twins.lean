import Verif.Model.Twins
import Verif.Model.Calls
import Verif.Props.RustCodegen
import Verif.Props.Registry

/-!
# C188: the modules that the two generators produce from one document
-/

namespace Iota.Props.Twins
open Iota.Go Iota.Rust Iota.RustCodegen Iota.Spec.RustCodegen Iota.Registry Iota.Twins
open Iota.Operations (Operation)
open Iota.Props.RustCodegen (goKind named Done)
open Iota.Props.RustGuest (registrations)

/-! ## The Go side -/

/-- The styles are those of `Verif/Model/Calls.lean`. -/
theorem rxStyle_calls (op : Calls.Operation) (name : Bytes) :
    rxStyle ⟨name, op.params.map (·.stream), op.streamOut⟩ =
      (match Calls.registerStyle op with
      | .requestResponse => .rr
      | .requestStream => .rs
      | .requestChannel => .rc) := by
  have : op.streamIn.isSome = (op.params.map (·.stream)).any (fun b => b) := by
    simp only [Calls.Operation.streamIn, Calls.Operation.streams, Option.isSome_map]
    induction op.params with
    | nil => rfl
    | cons p ps ih =>
      cases h : p.stream <;> simp_all
  simp only [rxStyle, Calls.registerStyle, ← this]
  cases op.streamIn.isSome <;> cases op.streamOut <;> rfl

theorem parts_style (o : Oper) : partsType o = rxStyle o := rfl

/-- Where the Rust generator finds a kind, it is the one the Go generator takes. -/
theorem kind_style (o : Oper) (k : Method) (h : determineVariant o = some k) : rxStyle o = goKind k := by
  rw [RustCodegen.variant_kind] at h
  obtain ⟨name, ps, out⟩ := o
  simp only [Spec.RustCodegen.kindOf] at h
  split at h
  · cases h; subst_vars; simp_all [rxStyle, goKind]
  · split at h
    · rename_i _ hp
      have : ps.any (fun b => b) = false := by
        rw [List.any_eq_false]
        intro b hb
        simpa using (List.all_eq_true.mp hp) b hb
      cases out <;> cases h <;> simp [rxStyle, goKind, this]
    · cases h

def info (ns : Bytes) (x : Bytes × Oper) : Info := ⟨ns ++ lit "." ++ x.1, x.2.name⟩

theorem registerAll_eq (ns : Bytes) (is : List Iface) (r : Reg (Bytes × Bytes)) :
    registerAll ns r is = (declared .service is).foldl (fun r x => registerOp ns x.1 r x.2) r := by
  induction is generalizing r with
  | nil => rfl
  | cons i is ih =>
    simp only [registerAll, List.foldl_cons, declared, List.filter_cons] at ih ⊢
    by_cases h : i.role = .service
    · rw [if_pos h, ih]
      simp [h, registerIface, List.foldl_append, List.foldl_map]
    · rw [if_neg h, ih]
      simp [h]

/-- What registering some operations leaves. -/
theorem registered (ns : Bytes) (l : List (Bytes × Oper)) (r : Reg (Bytes × Bytes)) (k : Kind) :
    (l.foldl (fun r x => registerOp ns x.1 r x.2) r).infos k =
        r.infos k ++ (l.filter fun x => rxStyle x.2 = k).map (info ns) ∧
      (l.foldl (fun r x => registerOp ns x.1 r x.2) r).handlers k =
        r.handlers k ++ (l.filter fun x => rxStyle x.2 = k).map (fun x => (x.1, x.2.name)) ∧
      (l.foldl (fun r x => registerOp ns x.1 r x.2) r).imports k = r.imports k := by
  induction l generalizing r with
  | nil => simp
  | cons x l ih =>
    obtain ⟨h1, h2, h3⟩ := ih (registerOp ns x.1 r x.2)
    rw [List.foldl_cons, h1, h2, h3]
    by_cases h : rxStyle x.2 = k
    · subst h
      simp [registerOp, exportOp, upd, info]
    · simp [registerOp, exportOp, upd, h, Ne.symm h]

theorem importOp_exports {H : Type} (r : Reg H) (k : Kind) (x : Info) :
    (importOp r k x).2.infos = r.infos ∧ (importOp r k x).2.handlers = r.handlers := by
  unfold importOp
  split <;> exact ⟨rfl, rfl⟩

theorem provider_exports (ns : Bytes) (n : Bytes) (os : List Oper) (r : Reg (Bytes × Bytes)) :
    (os.foldl (importOne ns n) r).infos = r.infos ∧ (os.foldl (importOne ns n) r).handlers = r.handlers := by
  induction os generalizing r with
  | nil => exact ⟨rfl, rfl⟩
  | cons o os ih =>
    rw [List.foldl_cons, (ih _).1, (ih _).2]
    exact importOp_exports r _ _

theorem providers_exports (ns : Bytes) (deps : List Iface) (r : Reg (Bytes × Bytes)) :
    (deps.foldl (newProvider ns) r).infos = r.infos ∧ (deps.foldl (newProvider ns) r).handlers = r.handlers := by
  induction deps generalizing r with
  | nil => exact ⟨rfl, rfl⟩
  | cons i deps ih =>
    rw [List.foldl_cons, (ih _).1, (ih _).2]
    exact provider_exports ns i.name i.ops r

/-- What a Go module has registered. -/
theorem main_exports (d : Doc) (deps : List Iface) (k : Kind) :
    (goMain d deps).infos k = ((declared .service d.ifaces).filter fun x => rxStyle x.2 = k).map (info d.ns) ∧
    (goMain d deps).handlers k = ((declared .service d.ifaces).filter fun x => rxStyle x.2 = k).map (fun x => (x.1, x.2.name)) := by
  obtain ⟨h1, h2, _⟩ := registered d.ns (declared .service d.ifaces) (deps.foldl (newProvider d.ns) Reg.init) k
  rw [goMain, registerAll_eq, h1, h2, (providers_exports _ _ _).1, (providers_exports _ _ _).2]
  simp [Reg.init]

theorem import_mem {H : Type} (r : Reg H) (k k' : Kind) (x y : Info) :
    y ∈ (importOp r k x).2.imports k' ↔ y ∈ r.imports k' ∨ (k' = k ∧ y = x) := by
  have hs := Registry.search_spec (r.imports k) x 0
  unfold importOp
  split
  · rename_i i hi
    rw [hi] at hs
    have : x ∈ r.imports k := List.mem_of_getElem? hs.2.1
    constructor
    · exact .inl
    · rintro (h | ⟨rfl, rfl⟩) <;> assumption
  · by_cases h : k' = k
    · subst h; simp [upd]
    · simp [upd, h]

theorem provider_mem (ns n : Bytes) (os : List Oper) (r : Reg (Bytes × Bytes)) (k : Kind) (y : Info) :
    y ∈ (os.foldl (importOne ns n) r).imports k ↔
      y ∈ r.imports k ∨ ∃ o ∈ os, partsType o = k ∧ y = ⟨ns ++ lit "." ++ n, o.name⟩ := by
  induction os generalizing r with
  | nil => simp
  | cons o os ih =>
    rw [List.foldl_cons, ih, importOne, import_mem]
    constructor
    · rintro ((h | ⟨rfl, rfl⟩) | ⟨o', h1, h2, h3⟩)
      · exact .inl h
      · exact .inr ⟨o, by simp, rfl, rfl⟩
      · exact .inr ⟨o', by simp [h1], h2, h3⟩
    · rintro (h | ⟨o', h1, h2, h3⟩)
      · exact .inl (.inl h)
      · rcases List.mem_cons.mp h1 with rfl | h1
        · exact .inl (.inr ⟨h2.symm, h3⟩)
        · exact .inr ⟨o', h1, h2, h3⟩

theorem providers_mem (ns : Bytes) (deps : List Iface) (r : Reg (Bytes × Bytes)) (k : Kind) (y : Info) :
    y ∈ (deps.foldl (newProvider ns) r).imports k ↔
      y ∈ r.imports k ∨ ∃ i ∈ deps, ∃ o ∈ i.ops, partsType o = k ∧ y = ⟨ns ++ lit "." ++ i.name, o.name⟩ := by
  induction deps generalizing r with
  | nil => simp
  | cons i deps ih =>
    rw [List.foldl_cons, ih, newProvider, provider_mem]
    constructor
    · rintro ((h | h) | ⟨i', h1, h2⟩)
      · exact .inl h
      · exact .inr ⟨i, by simp, h⟩
      · exact .inr ⟨i', by simp [h1], h2⟩
    · rintro (h | ⟨i', h1, h2⟩)
      · exact .inl (.inl h)
      · rcases List.mem_cons.mp h1 with rfl | h1
        · exact .inl (.inr h2)
        · exact .inr ⟨i', h1, h2⟩

theorem main_imports (d : Doc) (deps : List Iface) (k : Kind) (y : Info) :
    y ∈ (goMain d deps).imports k ↔
      ∃ i ∈ deps, ∃ o ∈ i.ops, partsType o = k ∧ y = ⟨d.ns ++ lit "." ++ i.name, o.name⟩ := by
  obtain ⟨_, _, h3⟩ := registered d.ns (declared .service d.ifaces) (deps.foldl (newProvider d.ns) Reg.init) k
  rw [goMain, registerAll_eq, h3, providers_mem]
  simp [Reg.init]

/-! ## The Rust side -/

/-- What a list of registrations publishes, if so many handlers of each kind are there already. -/
def placed (cnt : Method → Nat) : List (Method × Bytes × Bytes) → List Op
  | [] => []
  | x :: l => ⟨UInt32.ofNat (cnt x.1), x.1.number, x.2.1, x.2.2⟩ :: placed (fun k => if k = x.1 then cnt k + 1 else cnt k) l

def names {H : Type} (l : List (Setup H)) : List (Method × Bytes × Bytes) :=
  (registrations l).map fun x => (x.1, x.2.1, x.2.2.1)

theorem setup_exports {H : Type} (l : List (Setup H)) (m : Module H) :
    (m.setup l).ops.exports = m.ops.exports ++ placed (fun k => (m.handlers k).length) (names l) := by
  induction l generalizing m with
  | nil => simp [Module.setup, names, registrations, placed]
  | cons s l ih =>
    cases s with
    | register k ns op h =>
      rw [Module.setup, ih]
      have : (fun k' => ((m.register k ns op h).handlers k').length) =
          fun k' => if k' = k then (m.handlers k').length + 1 else (m.handlers k').length := by
        funext k'
        by_cases e : k' = k
        · subst e; simp [Module.register]
        · simp [Module.register, e]
      rw [this]
      simp [names, registrations, placed, Module.register, addExport]
    | addImport o =>
      rw [Module.setup, ih]
      rfl

theorem placed_block (cnt : Method → Nat) (k : Method) (xs : List (Bytes × Bytes)) (f : Bytes × Bytes → Bytes × Bytes)
    (l : List (Method × Bytes × Bytes)) :
    placed cnt (xs.map (fun x => (k, f x)) ++ l) =
      xs.mapIdx (fun i x => ⟨UInt32.ofNat (cnt k + i), k.number, (f x).1, (f x).2⟩) ++
        placed (fun k' => if k' = k then cnt k' + xs.length else cnt k') l := by
  induction xs generalizing cnt with
  | nil => simp
  | cons x xs ih =>
    rw [List.map_cons, List.cons_append, placed, ih, List.mapIdx_cons]
    simp only [if_true, List.cons_append, Nat.add_zero, List.length_cons]
    congr 1
    congr 1
    · congr 1
      funext i y
      rw [show cnt k + 1 + i = cnt k + (i + 1) by omega]
    · congr 1
      funext k'
      by_cases e : k' = k
      · simp [e]; omega
      · simp [e]

theorem grouped_map {α : Type} (a : Actions) (f : Method → Bytes × Bytes → α) :
    grouped a f = (grouped a Prod.mk).map fun y => f y.1 y.2 := by
  simp [grouped, Function.comp_def]

theorem names_exports {c : Cases} {g : Gen} {ns : Bytes} (a : List (Setup Wrapper)) (L : List (Method × Bytes × Bytes))
    (h : a.map some = L.map fun y => writeExport c g ns y.1 y.2) :
    names a = L.map fun y => (y.1, ns ++ lit "." ++ y.2.1, y.2.2) := by
  induction L generalizing a with
  | nil => simp only [List.map_nil, List.map_eq_nil_iff] at h; subst h; rfl
  | cons y L ih =>
    cases a with
    | nil => cases h
    | cons s a =>
      simp only [List.map_cons, List.cons.injEq] at h
      obtain ⟨h1, h2⟩ := h
      have h1 := h1.symm
      simp only [writeExport, Option.map_eq_some_iff] at h1
      obtain ⟨w, _, rfl⟩ := h1
      have := ih a h2
      simp only [names] at this ⊢
      simp [registrations, this, qualified]

theorem names_imports {c : Cases} {g : Gen} {ns : Bytes} (b : List (Setup Wrapper)) (L : List (Method × Bytes × Bytes))
    (h : b.map some = L.map fun y => writeImport c g ns y.1 y.2) : names b = [] := by
  induction L generalizing b with
  | nil => simp only [List.map_nil, List.map_eq_nil_iff] at h; subst h; rfl
  | cons y L ih =>
    cases b with
    | nil => rfl
    | cons s b =>
      simp only [List.map_cons, List.cons.injEq] at h
      obtain ⟨h1, h2⟩ := h
      have h1 := h1.symm
      simp only [writeImport, Option.map_eq_some_iff] at h1
      obtain ⟨n, _, rfl⟩ := h1
      exact ih b h2

theorem names_append {H : Type} (a b : List (Setup H)) : names (a ++ b) = names a ++ names b := by
  simp only [names]
  rw [RustCodegen.registrations_eq, RustCodegen.registrations_eq a, RustCodegen.registrations_eq b, List.filterMap_append,
    List.map_append]

/-- What a Rust module publishes as exports: by kind, each kind counted from zero. -/
theorem rust_exports {c : Cases} {d : Doc} {g : Gen} {m : Module Wrapper} (h : compile c d = some (g, m)) :
    m.ops.exports =
      (named (declared .service d.ifaces) .rr).mapIdx (fun i x => ⟨UInt32.ofNat i, 1, d.ns ++ lit "." ++ x.1, x.2⟩) ++
      (named (declared .service d.ifaces) .rs).mapIdx (fun i x => ⟨UInt32.ofNat i, 3, d.ns ++ lit "." ++ x.1, x.2⟩) ++
      (named (declared .service d.ifaces) .rc).mapIdx (fun i x => ⟨UInt32.ofNat i, 4, d.ns ++ lit "." ++ x.1, x.2⟩) := by
  obtain ⟨hg, hacc, l, hs, rfl⟩ := RustCodegen.compile_spec c d g m h
  have hd := RustCodegen.generate_done c d g hg
  obtain ⟨a, b, hl, hA, hB⟩ := List.map_eq_append_iff.mp (RustCodegen.allSome_eq _ _ hs).symm
  rw [grouped_map] at hA hB
  have ha := names_exports a _ hA
  have hb := names_imports b _ hB
  rw [setup_exports, hl, names_append, ha, hb, List.append_nil, hd.exports]
  simp only [grouped, List.map_append, List.map_map, Function.comp_def, Module.empty, List.length_nil, List.nil_append]
  have p1 := placed_block (fun _ => 0) .rr (named (declared .service d.ifaces) .rr) (fun x => (d.ns ++ lit "." ++ x.1, x.2))
    ((named (declared .service d.ifaces) .rs).map (fun x => (Method.rs, d.ns ++ lit "." ++ x.1, x.2)) ++
      (named (declared .service d.ifaces) .rc).map (fun x => (Method.rc, d.ns ++ lit "." ++ x.1, x.2)))
  rw [List.append_assoc, p1]
  have p2 := fun cnt => placed_block cnt .rs (named (declared .service d.ifaces) .rs) (fun x => (d.ns ++ lit "." ++ x.1, x.2))
    ((named (declared .service d.ifaces) .rc).map (fun x => (Method.rc, d.ns ++ lit "." ++ x.1, x.2)))
  rw [p2]
  have p3 := fun cnt => placed_block cnt .rc (named (declared .service d.ifaces) .rc) (fun x => (d.ns ++ lit "." ++ x.1, x.2)) []
  simp only [List.append_nil] at p3
  rw [p3]
  simp [placed, Method.number]

/-! ## C188 -/

theorem mapIdx_map {α β γ : Type} (l : List α) (f : α → β) (g : Nat → β → γ) :
    (l.map f).mapIdx g = l.mapIdx fun i x => g i (f x) := by
  apply List.ext_getElem?
  intro n
  simp only [List.getElem?_map, List.getElem?_mapIdx, Option.map_map, Function.comp_def]

theorem map_mapIdx {α β γ : Type} (l : List α) (f : β → γ) (g : Nat → α → β) :
    (l.mapIdx g).map f = l.mapIdx fun i x => f (g i x) := by
  apply List.ext_getElem?
  intro n
  simp only [List.getElem?_map, List.getElem?_mapIdx, Option.map_map, Function.comp_def]

theorem convert_filter (l : List Info) (k : Kind) (dir : UInt8) :
    (convertOperations l k dir).filter (·.direction = 1) = if dir = 1 then convertOperations l k dir else [] := by
  split
  · rename_i h
    rw [List.filter_eq_self]
    intro o ho
    obtain ⟨i, x, _, rfl⟩ := Registry.mem_convert.mp ho
    simpa using h
  · rename_i h
    rw [List.filter_eq_nil_iff]
    intro o ho
    obtain ⟨i, x, _, rfl⟩ := Registry.mem_convert.mp ho
    simpa using h

/-- The operations of a kind are the same to both generators. -/
theorem same_group {l : List (Bytes × Oper)} (hk : ∀ x ∈ l, ∃ k, determineVariant x.2 = some k ∧ k ≠ .fnf) (k : Method) (ns : Bytes) :
    (l.filter fun x => rxStyle x.2 = goKind k).map (info ns) =
      (named l k).map fun x => ⟨ns ++ lit "." ++ x.1, x.2⟩ := by
  have : (l.filter fun x => rxStyle x.2 = goKind k) = l.filter fun x => determineVariant x.2 = some k := by
    apply List.filter_congr
    intro x hx
    obtain ⟨k', h1, h2⟩ := hk x hx
    rw [kind_style x.2 k' h1, h1]
    cases k <;> cases k' <;> simp [goKind]
  rw [this, named, List.map_map]
  rfl

theorem style_fnf (o : Oper) : rxStyle o ≠ .fnf := by
  unfold rxStyle
  split
  · split <;> simp
  · simp

/-- **C188 (partial)** From every document for which the Rust generator writes something that compiles, the modules of both
generators publish the same list of exports: the same operations in the same order under the same names, with the same kinds and
the same indices, whatever providers the Go program creates. Missing: documents that one of the two does not take, see
`refused_refuted`. -/
theorem twin_exports_partial {c : Cases} {d : Doc} {g : Gen} {m : Module Wrapper} (h : compile c d = some (g, m))
    (deps : List Iface) :
    (operationList (goMain d deps)).filter (·.direction = 1) = m.ops.exports.map (RustOperations.toGo 1) := by
  obtain ⟨hg, _, _⟩ := RustCodegen.compile_spec c d g m h
  have hd := RustCodegen.generate_done c d g hg
  have hk : ∀ x ∈ declared .service d.ifaces, ∃ k, determineVariant x.2 = some k ∧ k ≠ .fnf := fun x hx =>
    hd.kinds x (by simp [hx])
  have e2 : (goMain d deps).infos .fnf = [] := by
    rw [(main_exports d deps .fnf).1, List.map_eq_nil_iff, List.filter_eq_nil_iff]
    intro x _
    simpa using style_fnf x.2
  have e1 : (goMain d deps).infos .rr = _ := ((main_exports d deps .rr).1).trans (same_group hk .rr d.ns)
  have e3 : (goMain d deps).infos .rs = _ := ((main_exports d deps .rs).1).trans (same_group hk .rs d.ns)
  have e4 : (goMain d deps).infos .rc = _ := ((main_exports d deps .rc).1).trans (same_group hk .rc d.ns)
  rw [rust_exports h, operationList]
  simp only [List.filter_append, convert_filter, e1, e2, e3, e4]
  simp [convertOperations, Kind.code, RustOperations.toGo, map_mapIdx, mapIdx_map]

/-- **C188 (partial)** Every operation of the services is reached, in both modules, with the same kind of request and the same
index, and what runs there is the wrapper of this operation. -/
theorem twin_handlers_partial {c : Cases} {d : Doc} {g : Gen} {m : Module Wrapper} (h : compile c d = some (g, m))
    (ha : Agrees c d) (hn : (declared .service d.ifaces).length < 2 ^ 32) (deps : List Iface) :
    ∀ x ∈ declared .service d.ifaces, ∃ k i w, Spec.RustCodegen.kindOf x.2 = some k ∧
      getHandler (goMain d deps) (goKind k) i = some (x.1, x.2.name) ∧
      (w.iface = x.1 ∧ w.op = x.2.name ∧ w.method = k) ∧
      ∀ data r, m.serve k (be32 i ++ r) data = .ok (.run w i data) := by
  intro x hx
  obtain ⟨_, hall⟩ := RustCodegen.generated_exports h ha (by omega)
  obtain ⟨k, o, w, h1, h2, h3, h4, h5, h6, h7⟩ := hall x hx
  refine ⟨k, o.index, w, h1, ?_, h6, h7⟩
  have hm : RustOperations.toGo 1 o ∈ (operationList (goMain d deps)).filter (·.direction = 1) := by
    rw [twin_exports_partial h deps]
    exact List.mem_map.mpr ⟨o, h2, rfl⟩
  obtain ⟨k', hm | hm⟩ := Registry.mem_opList.mp (List.mem_filter.mp hm).1
  · obtain ⟨i, y, hi, e⟩ := Registry.mem_convert.mp hm
    simp only [RustOperations.toGo, Operations.Operation.mk.injEq] at e
    obtain ⟨e1, e2, _, e3, e4⟩ := e
    have hkk : k' = goKind k := by
      rw [h3] at e2
      cases k <;> cases k' <;> first | rfl | exact absurd e2 (by decide)
    subst hkk
    rw [(main_exports d deps _).1, List.getElem?_map, Option.map_eq_some_iff] at hi
    obtain ⟨z, hz, rfl⟩ := hi
    have hlen : ((goMain d deps).handlers (goKind k)).length < 2 ^ 32 := by
      rw [(main_exports d deps _).2, List.length_map]
      exact Nat.lt_of_le_of_lt (List.length_filter_le _ _) hn
    have hh : ((goMain d deps).handlers (goKind k))[i]? = some (z.1, z.2.name) := by
      rw [(main_exports d deps _).2, List.getElem?_map, hz]; rfl
    rw [e1, Registry.getHandler_eq hlen (List.getElem?_eq_some_iff.mp hh).1, hh]
    rw [h4] at e3
    rw [h5] at e4
    simp only [info] at e3 e4
    rw [List.append_cancel_left e3, e4]
  · obtain ⟨i, y, _, e⟩ := Registry.mem_convert.mp hm
    simp only [RustOperations.toGo, Operations.Operation.mk.injEq] at e
    exact absurd e.2.2.1 (by decide)

/-- **C188 (partial)** If the Go program creates exactly the providers of the document, in any order, both modules import the same
operations, of the same kinds and under the same names. -/
theorem twin_imports_partial {c : Cases} {d : Doc} {g : Gen} {m : Module Wrapper} (h : compile c d = some (g, m))
    (ha : Agrees c d) (deps : List Iface) (hdeps : ∀ i, i ∈ deps ↔ i ∈ d.ifaces ∧ i.role = .provider) (kd : UInt8) (ns op : Bytes) :
    (∃ o ∈ operationList (goMain d deps), o.direction = 2 ∧ o.type = kd ∧ o.ns = ns ∧ o.op = op) ↔
      ∃ o ∈ m.ops.imports, o.kind = kd ∧ o.ns = ns ∧ o.op = op := by
  obtain ⟨hg, _, _⟩ := RustCodegen.compile_spec c d g m h
  have hd := RustCodegen.generate_done c d g hg
  have hp := (RustCodegen.module_ops h ha).1
  have hr : (∃ o ∈ m.ops.imports, o.kind = kd ∧ o.ns = ns ∧ o.op = op) ↔
      ∃ x ∈ declared .provider d.ifaces, (RustCodegen.kind x.2).number = kd ∧ d.ns ++ lit "." ++ x.1 = ns ∧ x.2.name = op := by
    constructor
    · rintro ⟨o, ho, h1, h2, h3⟩
      obtain ⟨n, hn⟩ := List.mem_iff_getElem?.mp (hp.mem_iff.mp ho)
      rw [List.getElem?_mapIdx, Option.map_eq_some_iff] at hn
      obtain ⟨x, hx, rfl⟩ := hn
      exact ⟨x, List.mem_of_getElem? hx, h1, h2, h3⟩
    · rintro ⟨x, hx, h1, h2, h3⟩
      obtain ⟨n, hn⟩ := List.mem_iff_getElem?.mp hx
      refine ⟨RustCodegen.importAt d.ns n x, hp.mem_iff.mpr ?_, h1, h2, h3⟩
      exact List.mem_of_getElem? (i := n) (by rw [List.getElem?_mapIdx, hn]; rfl)
  have hdec : ∀ n o, (∃ i ∈ deps, o ∈ i.ops ∧ i.name = n) ↔ (n, o) ∈ declared .provider d.ifaces := by
    intro n o
    simp only [declared, List.mem_flatMap, List.mem_filter, List.mem_map, decide_eq_true_eq, Prod.mk.injEq]
    constructor
    · rintro ⟨i, h1, h2, h3⟩
      exact ⟨i, (hdeps i).mp h1, o, h2, h3, rfl⟩
    · rintro ⟨i, h1, o', h2, h3, rfl⟩
      exact ⟨i, (hdeps i).mpr h1, h2, h3⟩
  have hkind : ∀ x ∈ declared .provider d.ifaces, (partsType x.2).code = (RustCodegen.kind x.2).number := by
    intro x hx
    obtain ⟨k, h1, _⟩ := hd.kinds x (by simp [hx])
    rw [parts_style, kind_style x.2 k h1]
    simp only [RustCodegen.kind, h1, Option.getD_some]
    cases k <;> rfl
  rw [hr]
  constructor
  · rintro ⟨o, ho, h1, h2, h3, h4⟩
    obtain ⟨k', hm | hm⟩ := Registry.mem_opList.mp ho
    · obtain ⟨i, y, _, rfl⟩ := Registry.mem_convert.mp hm
      exact absurd h1 (by simp)
    · obtain ⟨i, y, hi, rfl⟩ := Registry.mem_convert.mp hm
      obtain ⟨f, hf, o', ho', e1, rfl⟩ := (main_imports d deps k' y).mp (List.mem_of_getElem? hi)
      have hx := (hdec f.name o').mp ⟨f, hf, ho', rfl⟩
      refine ⟨_, hx, ?_, h3, h4⟩
      rw [← hkind _ hx, ← h2, ← e1]
  · rintro ⟨x, hx, h1, h2, h3⟩
    obtain ⟨f, hf, ho', e⟩ := (hdec x.1 x.2).mpr hx
    have hy : (⟨ns, op⟩ : Info) ∈ (goMain d deps).imports (partsType x.2) :=
      (main_imports d deps _ _).mpr ⟨f, hf, x.2, ho', rfl, by rw [e, h2, h3]⟩
    obtain ⟨n, hn⟩ := List.mem_iff_getElem?.mp hy
    refine ⟨_, Registry.mem_opList.mpr ⟨partsType x.2, .inr (Registry.mem_convert.mpr ⟨n, _, hn, rfl⟩)⟩, rfl, ?_, rfl, rfl⟩
    rw [← h1, ← hkind x hx]

/-- **C188 (partial)** Without providers, a Go host reads the same table from what either module publishes, so whatever it links
and calls is the same: `Verif/Model/Mesh.lean` sees a module only by this table. -/
theorem twin_tables_partial {c : Cases} {d : Doc} {g : Gen} {m : Module Wrapper} (h : compile c d = some (g, m))
    (ha : Agrees c d) (hp : declared .provider d.ifaces = [])
    (hv : ∀ o ∈ m.ops.exports ++ m.ops.imports, RustOperations.Valid o)
    (hs : 10 + ((operationList (goMain d [])).map fun o => 12 + o.ns.length + o.op.length).sum < 2 ^ 32) :
    ∃ bs, Operations.toBytes (operationList (goMain d [])) = .ok bs ∧
      Operations.fromBytes bs = Operations.fromBytes (Rust.encodeOps m.ops) ∧
      ∃ t, Operations.fromBytes bs = .ok t := by
  have hi : m.ops.imports = [] := by
    have := (RustCodegen.module_ops h ha).1
    rw [hp] at this
    simpa using this
  have ht : operationList (goMain d []) = m.ops.exports.map (RustOperations.toGo 1) := by
    rw [← twin_exports_partial h [], eq_comm, List.filter_eq_self]
    intro o ho
    obtain ⟨k, hm | hm⟩ := Registry.mem_opList.mp ho
    · obtain ⟨i, y, _, rfl⟩ := Registry.mem_convert.mp hm
      rfl
    · obtain ⟨i, y, hy, rfl⟩ := Registry.mem_convert.mp hm
      have := (main_imports d [] k y).mp (List.mem_of_getElem? hy)
      simp at this
  have hlen : m.ops.imports.length + m.ops.exports.length < 2 ^ 32 := by
    have h1 : (operationList (goMain d [])).length = m.ops.exports.length := by rw [ht, List.length_map]
    have h2 : ∀ l : List Operation, l.length ≤ (l.map fun o => 12 + o.ns.length + o.op.length).sum := by
      intro l
      induction l with
      | nil => simp
      | cons o l ih => simp only [List.length_cons, List.map_cons, List.sum_cons]; omega
    have := h2 (operationList (goMain d []))
    rw [hi, List.length_nil]
    omega
  obtain ⟨bs, h1, h2⟩ := Operations.table_round_trip (operationList (goMain d []))
    (by
      intro o ho
      rw [ht] at ho
      obtain ⟨o', ho', rfl⟩ := List.mem_map.mp ho
      have := hv o' (by simp [ho'])
      exact ⟨this.nsLen, this.opLen⟩) hs
  have h2 := h2 []
  have h3 := RustOperations.rust_to_go_partial m.ops hv hlen []
  rw [List.append_nil] at h2 h3
  refine ⟨bs, h1, ?_, _, h2⟩
  rw [h2, h3, hi, ht]
  simp

/-! ## A client in Rust, a service in Go -/

/-- **C188 (partial)** A module generated in Rust calls an operation of a provider; a module generated in Go, whose document declares
this operation in a service, is loaded with it, in any order and among any others, and no other module exports it. The call goes
to the Go module with an index under which this module has the handler of this operation. Missing: channels, see
`RustCodegen.generated_channel_refuted`. -/
theorem rust_calls_go_partial {c : Cases} {d ds : Doc} {g : Gen} {m : Module Wrapper} (h : compile c d = some (g, m))
    (ha : Agrees c d) (ls : List (Bytes × Operations.Table)) (p q : Nat) (hl : RustCodegen.Loaded m ls p)
    (deps : List Iface) (nm : Bytes) (hq : ls[q]? = some (nm, operationList (goMain ds deps))) (hns : ds.ns = d.ns)
    (hlen : (declared .service ds.ifaces).length < 2 ^ 32)
    (n : Nat) (x : Bytes × Oper) (k : Method) (hx : (declared .provider d.ifaces)[n]? = some x)
    (hk : Spec.RustCodegen.kindOf x.2 = some k) (hrc : k ≠ .rc) (hsv : x ∈ declared .service ds.ifaces)
    (honly : ∀ y ∈ declared .service ds.ifaces, y.1 = x.1 → y.2.name = x.2.name → y = x)
    (hnone : ∀ e ∈ Spec.Mesh.exports (Mesh.tables ls), e.2.ns = d.ns ++ lit "." ++ x.1 → e.2.op = x.2.name → e.1 = q) :
    ∃ mesh f i dest, Mesh.Mesh.new.loadModules 0 ls = .ok mesh ∧ g.fns[n]? = some f ∧
      g.request f = some (k, Rust.encodeMetadata i) ∧ mesh.moduleCall p (goKind k) i = some dest ∧ dest.instance_ = q ∧
      getHandler (goMain ds deps) (goKind k) dest.index = some (x.1, x.2.name) := by
  obtain ⟨mesh, hmesh, hall⟩ := RustCodegen.generated_call_reaches_partial h ha ls p hl
  obtain ⟨f, i, hf, hreq, hiff, hdest⟩ := hall n x k hx hk hrc
  have htab : (Mesh.tables ls)[q]? = some (operationList (goMain ds deps)) := by simp [Mesh.tables, hq]
  have hexp : ∃ e ∈ Spec.Mesh.exports (Mesh.tables ls), e.2.ns = d.ns ++ lit "." ++ x.1 ∧ e.2.op = x.2.name := by
    have hi : info ds.ns x ∈ (goMain ds deps).infos (rxStyle x.2) := by
      rw [(main_exports ds deps _).1]
      exact List.mem_map.mpr ⟨x, List.mem_filter.mpr ⟨hsv, by simp⟩, rfl⟩
    obtain ⟨j, hj⟩ := List.mem_iff_getElem?.mp hi
    refine ⟨(q, ⟨UInt32.ofNat j, (rxStyle x.2).code, 1, (info ds.ns x).ns, (info ds.ns x).op⟩), ?_, by rw [← hns]; rfl, rfl⟩
    rw [Spec.Mesh.exports, RustCodegen.mem_operations]
    exact ⟨q, _, htab, by omega, Registry.mem_opList.mpr ⟨_, .inl (Registry.mem_convert.mpr ⟨j, _, hj, rfl⟩)⟩, rfl⟩
  obtain ⟨dest, hd⟩ := Option.isSome_iff_exists.mp (hiff.mpr hexp)
  obtain ⟨e, h1, h2, h3, h4⟩ := hdest dest hd
  have hin := hnone _ h1 h3 h4
  refine ⟨mesh, f, i, dest, hmesh, hf, hreq, hd, hin, ?_⟩
  rw [Spec.Mesh.exports, RustCodegen.mem_operations] at h1
  obtain ⟨j, t, h5, h6, h7, h8⟩ := h1
  have hjq : j = q := by
    simp only at hin
    omega
  subst hjq
  rw [htab] at h5
  obtain rfl := Option.some.inj h5
  obtain ⟨k', hm | hm⟩ := Registry.mem_opList.mp h7
  · obtain ⟨j', y, hy, rfl⟩ := Registry.mem_convert.mp hm
    rw [(main_exports ds deps _).1, List.getElem?_map, Option.map_eq_some_iff] at hy
    obtain ⟨z, hz, rfl⟩ := hy
    have hzm := List.mem_filter.mp (List.mem_of_getElem? hz)
    simp only [info] at h3 h4
    rw [hns] at h3
    have hzx := honly z hzm.1 (List.append_cancel_left h3) h4
    subst hzx
    have hkk : k' = goKind k := by
      have := hzm.2
      simp only [decide_eq_true_eq] at this
      rw [← this]
      exact kind_style _ _ (by rw [RustCodegen.variant_kind]; exact hk)
    subst hkk
    have hlen' : ((goMain ds deps).handlers (goKind k)).length < 2 ^ 32 := by
      rw [(main_exports ds deps _).2, List.length_map]
      exact Nat.lt_of_le_of_lt (List.length_filter_le _ _) hlen
    have hh : ((goMain ds deps).handlers (goKind k))[j']? = some (z.1, z.2.name) := by
      rw [(main_exports ds deps _).2, List.getElem?_map, hz]; rfl
    rw [← h2, Registry.getHandler_eq hlen' (List.getElem?_eq_some_iff.mp hh).1, hh]
  · obtain ⟨j', y, hy, rfl⟩ := Registry.mem_convert.mp hm
    exact absurd h8 (by simp)

/-! ## Where they differ -/

theorem visit_refuses (c : Cases) (is : List Iface) (g : Gen) (i : Iface) (hi : i ∈ is) (hr : i.role ≠ .other)
    (o : Oper) (ho : o ∈ i.ops) (hk : determineVariant o = none) : visit c is g = none := by
  cases h : visit c is g with
  | none => rfl
  | some g' =>
    have vo : ∀ (n : Bytes) (os : List Oper) (a : Actions), o ∈ os → visitOps n os a = none := by
      intro n os
      induction os with
      | nil => intro a h; cases h
      | cons o' os ih =>
        intro a h
        rw [visitOps]
        rcases List.mem_cons.mp h with rfl | h
        · rw [hk]
        · split
          · rfl
          · exact ih _ h
    have : ∀ (is : List Iface) (g : Gen), i ∈ is → visit c is g = none := by
      intro is
      induction is with
      | nil => intro g h; cases h
      | cons i' is ih =>
        intro g hm
        rw [visit]
        rcases List.mem_cons.mp hm with rfl | hm
        · have : visitInterface c g i = none := by
            unfold visitInterface
            split
            · rw [vo _ _ _ ho]; rfl
            · rw [vo _ _ _ ho]; rfl
            · contradiction
          rw [this]
        · split
          · rfl
          · exact ih _ hm
    rw [this is g hi] at h
    cases h

/-- **C188 is false of the code**: if one operation of a service takes a stream and something else, or takes a stream and does not
answer with one, the Rust generator writes nothing at all for the document, while the Go module exports the operation as a
channel and everything else as usual. -/
theorem refused_refuted (c : Cases) (d : Doc) (i : Iface) (hi : i ∈ d.ifaces) (hr : i.role = .service) (o : Oper) (ho : o ∈ i.ops)
    (hs : true ∈ o.params) (h2 : o.params.length ≠ 1 ∨ o.streamOut = false) :
    compile c d = none ∧ ∀ deps, info d.ns (i.name, o) ∈ (goMain d deps).infos .rc := by
  have hk : determineVariant o = none := by
    have hpos : 0 < (o.params.filter fun b => b).length := List.length_pos_of_mem (List.mem_filter.mpr ⟨hs, rfl⟩)
    unfold determineVariant
    rw [if_neg, if_neg, if_neg]
    · omega
    · omega
    · rintro ⟨_, h3, h4⟩
      rcases h2 with h2 | h2
      · exact h2 h3
      · rw [h2] at h4; cases h4
  refine ⟨?_, fun deps => ?_⟩
  · unfold compile generate
    rw [visit_refuses c d.ifaces _ i hi (by rw [hr]; decide) o ho hk]
  · rw [(main_exports d deps .rc).1]
    refine List.mem_map.mpr ⟨(i.name, o), List.mem_filter.mpr ⟨?_, ?_⟩, rfl⟩
    · simp only [declared, List.mem_flatMap, List.mem_filter, List.mem_map, decide_eq_true_eq]
      exact ⟨i, ⟨hi, hr⟩, o, ho, rfl⟩
    · have : o.params.any (fun b => b) = true := List.any_eq_true.mpr ⟨true, hs, rfl⟩
      simp [rxStyle, this]

/-! ## Examples -/

/-- The document of `RustCodegen.exDoc` compiles, and these are the exports of the module in Go. -/
example : (compile RustCodegen.exCases RustCodegen.exDoc).isSome = true ∧
    (operationList (goMain RustCodegen.exDoc [])).map (fun o => (o.index, o.type, o.direction, o.ns, o.op)) =
      [(0, 1, 1, lit "acme.Greeter", lit "hello"), (1, 1, 1, lit "acme.Greeter", lit "bye"),
        (0, 3, 1, lit "acme.Greeter", lit "watch")] := by
  decide +kernel

/-- With its providers created in the other order: the imports have other indices than in Rust, under the same names. -/
example : ((operationList (goMain RustCodegen.exDoc (RustCodegen.exDoc.ifaces.filter (·.role = .provider)).reverse)).filter
      (·.direction = 2)).map (fun o => (o.index, o.type, o.ns, o.op)) =
    [(0, 1, lit "acme.Store", lit "get"), (0, 3, lit "acme.Store", lit "list"), (0, 4, lit "acme.Bus", lit "pipe")] := by
  decide +kernel

/-- Those are the providers of the document. -/
example : ∀ i, i ∈ (RustCodegen.exDoc.ifaces.filter (·.role = .provider)).reverse ↔
    i ∈ RustCodegen.exDoc.ifaces ∧ i.role = .provider := by
  intro i
  simp only [List.mem_reverse, List.mem_filter, decide_eq_true_eq]

/-- The service of the store, in Go: the last operation is one that the Rust generator refuses. -/
def exStore : Doc := ⟨lit "acme", [⟨lit "Store", .service,
  [⟨lit "get", [false], false⟩, ⟨lit "list", [], true⟩, ⟨lit "put", [true, false], false⟩]⟩]⟩

example : compile RustCodegen.exCases exStore = none ∧ getHandler (goMain exStore []) .rs 0 = some (lit "Store", lit "list") ∧
    getHandler (goMain exStore []) .rc 0 = some (lit "Store", lit "put") := by
  decide +kernel

/-- The Rust module of `exDoc` and this Go module together meet what `rust_calls_go_partial` asks of the second operation. -/
example : (declared .provider RustCodegen.exDoc.ifaces)[1]? = some (lit "Store", ⟨lit "get", [false], false⟩) ∧
    ((lit "Store", ⟨lit "get", [false], false⟩) : Bytes × Oper) ∈ declared .service exStore.ifaces ∧
    (∀ y ∈ declared .service exStore.ifaces, y.1 = lit "Store" → y.2.name = lit "get" → y = (lit "Store", ⟨lit "get", [false], false⟩)) ∧
    ∀ e ∈ Spec.Mesh.exports [RustCodegen.exOps.exports.map (RustOperations.toGo 1) ++
        RustCodegen.exOps.imports.map (RustOperations.toGo 2), operationList (goMain exStore [])],
      e.2.ns = lit "acme" ++ lit "." ++ lit "Store" → e.2.op = lit "get" → e.1 = 1 := by
  decide +kernel

end Iota.Props.Twins
