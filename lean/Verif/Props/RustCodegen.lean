import Verif.Spec.RustCodegen
import Verif.Props.RustGuest
import Verif.Props.Mesh

/-!
# C129, C130: modules from the Rust code generator
-/

namespace Iota.Props.RustCodegen
open Go Iota.RustCodegen Iota.Spec.RustCodegen Iota.Rust
open Iota.Props.RustGuest (registrations)

/-! ## What is generated -/

theorem variant_kind (o : Oper) : determineVariant o = Spec.RustCodegen.kindOf o := by
  obtain ⟨name, params, out⟩ := o
  have key : ∀ ps : List Bool, (ps.filter fun b => b).length = 0 ↔ ps.all (fun b => !b) = true := by
    intro ps
    rw [List.length_eq_zero_iff, List.filter_eq_nil_iff]
    simp
  have hall : ∀ ps : List Bool, determineVariant ⟨name, ps, out⟩ =
      if (ps.filter fun b => b).length = 1 ∧ ps.length = 1 ∧ out = true then some .rc
      else if ps.all (fun b => !b) then (if out then some .rs else some .rr) else none := by
    intro ps
    unfold determineVariant
    split
    · rfl
    · by_cases h : ps.all (fun b => !b) = true
      · have := (key ps).mpr h
        cases out <;> simp [this, h]
      · have := fun h' => h ((key ps).mp h')
        rw [if_neg (fun x => this x.1), if_neg (fun x => this x.1), if_neg h]
  rw [hall]
  match params, out with
  | [], out => cases out <;> rfl
  | [a], out => cases a <;> cases out <;> rfl
  | a :: b :: l, out =>
    rw [if_neg (by simp)]
    simp only [Spec.RustCodegen.kindOf]

/-- The names of the operations of a kind. -/
def named (l : List (Bytes × Oper)) (k : Method) : List (Bytes × Bytes) :=
  (l.filter fun x => determineVariant x.2 = some k).map fun x => (x.1, x.2.name)

theorem named_append (a b : List (Bytes × Oper)) (k : Method) : named (a ++ b) k = named a k ++ named b k := by
  simp [named]

theorem visitOps_spec (i : Bytes) (os : List Oper) (a a' : Actions) (h : visitOps i os a = some a') :
    (∀ o ∈ os, ∃ k, determineVariant o = some k ∧ k ≠ .fnf) ∧
    a' = a.merge ⟨named (os.map fun o => (i, o)) .rr, named (os.map fun o => (i, o)) .rs, named (os.map fun o => (i, o)) .rc⟩ := by
  induction os generalizing a with
  | nil =>
    simp only [visitOps, Option.some.injEq] at h
    subst h
    simp [named, Actions.merge]
  | cons o os ih =>
    simp only [visitOps] at h
    cases hk : determineVariant o with
    | none => rw [hk] at h; cases h
    | some k =>
      rw [hk] at h
      have hf : k ≠ .fnf := by
        rintro rfl
        unfold determineVariant at hk
        split at hk
        · cases hk
        · split at hk
          · cases hk
          · split at hk <;> cases hk
      obtain ⟨h1, h2⟩ := ih _ h
      refine ⟨fun o' ho' => ?_, ?_⟩
      · rcases List.mem_cons.mp ho' with rfl | ho'
        · exact ⟨k, hk, hf⟩
        · exact h1 o' ho'
      · rw [h2]
        cases k <;> simp_all [named, Actions.merge, Actions.push]

/-- What has been generated after some interfaces, in terms of their operations. -/
structure Done (c : Cases) (g : Gen) (sv pr : List (Bytes × Oper)) : Prop where
  kinds : ∀ x ∈ sv ++ pr, ∃ k, determineVariant x.2 = some k ∧ k ≠ .fnf
  exports : g.exports = ⟨named sv .rr, named sv .rs, named sv .rc⟩
  imports : g.imports = ⟨named pr .rr, named pr .rs, named pr .rc⟩
  statics : g.statics = pr.mapIdx fun n x => (c.const_ (under (c.caps x.1) x.2.name), n)
  fns : g.fns = pr.map fun x => fnOf c x.1 x.2
  wrappers : g.wrappers = sv.filterMap fun x => wrapperOf c x.1 x.2

theorem named_length (l : List (Bytes × Oper)) (h : ∀ x ∈ l, ∃ k, determineVariant x.2 = some k ∧ k ≠ .fnf) :
    (named l .rr).length + (named l .rs).length + (named l .rc).length = l.length := by
  induction l with
  | nil => rfl
  | cons x l ih =>
    have ih := ih (fun y hy => h y (by simp [hy]))
    obtain ⟨k, hk, hf⟩ := h x (by simp)
    simp only [named, List.length_map, List.filter_cons, hk] at ih ⊢
    cases k <;> simp_all <;> omega

theorem constants_eq (c : Cases) (i : Bytes) (n : Nat) (os : List Oper) :
    constants c i n os = (os.map fun o => (i, o)).mapIdx fun m x => (c.const_ (under (c.caps x.1) x.2.name), n + m) := by
  induction os generalizing n with
  | nil => rfl
  | cons o os ih =>
    simp only [constants, ih, List.map_cons, List.mapIdx_cons, Nat.add_zero]
    congr 1
    congr 1
    funext m x
    simp only [Prod.mk.injEq, true_and]
    omega

theorem visit_done (c : Cases) (is : List Iface) (g g' : Gen) (sv pr : List (Bytes × Oper)) (hd : Done c g sv pr)
    (h : visit c is g = some g') : Done c g' (sv ++ declared .service is) (pr ++ declared .provider is) := by
  induction is generalizing g sv pr with
  | nil =>
    simp only [visit, Option.some.injEq] at h
    subst h
    simpa [declared] using hd
  | cons i is ih =>
    simp only [visit] at h
    cases hi : visitInterface c g i with
    | none => rw [hi] at h; cases h
    | some g1 =>
      rw [hi] at h
      cases hr : i.role with
      | other =>
        simp only [visitInterface, hr, Option.some.injEq] at hi
        subst hi
        simpa [declared, hr] using ih g sv pr hd h
      | service =>
        simp only [visitInterface, hr, Option.map_eq_some_iff] at hi
        obtain ⟨a, ha, rfl⟩ := hi
        obtain ⟨h1, h2⟩ := visitOps_spec _ _ _ _ ha
        have := ih _ (sv ++ i.ops.map fun o => (i.name, o)) pr ?_ h
        · simpa [declared, hr] using this
        · refine ⟨?_, ?_, hd.imports, hd.statics, hd.fns, ?_⟩
          · intro x hx
            simp only [List.append_assoc, List.mem_append, List.mem_map] at hx
            rcases hx with hx | ⟨o, ho, rfl⟩ | hx
            · exact hd.kinds x (by simp [hx])
            · exact h1 o ho
            · exact hd.kinds x (by simp [hx])
          · simp [h2, hd.exports, Actions.merge, Actions.none, named_append]
          · simp [hd.wrappers, List.filterMap_append, List.filterMap_map, Function.comp_def]
      | provider =>
        simp only [visitInterface, hr, Option.map_eq_some_iff] at hi
        obtain ⟨a, ha, rfl⟩ := hi
        obtain ⟨h1, h2⟩ := visitOps_spec _ _ _ _ ha
        have hn : g.imports.num = pr.length := by
          rw [hd.imports]
          exact named_length pr (fun x hx => hd.kinds x (by simp [hx]))
        have := ih _ sv (pr ++ i.ops.map fun o => (i.name, o)) ?_ h
        · simpa [declared, hr] using this
        · refine ⟨?_, hd.exports, ?_, ?_, ?_, hd.wrappers⟩
          · intro x hx
            simp only [List.mem_append, List.mem_map] at hx
            rcases hx with hx | hx | ⟨o, ho, rfl⟩
            · exact hd.kinds x (by simp [hx])
            · exact hd.kinds x (by simp [hx])
            · exact h1 o ho
          · simp [h2, hd.imports, Actions.merge, Actions.none, named_append]
          · rw [List.mapIdx_append, ← hd.statics]
            simp only [constants_eq, hn]
            congr 1
            congr 1
            funext m x
            simp only [Prod.mk.injEq, true_and]
            omega
          · simp [hd.fns]

theorem generate_done (c : Cases) (d : Doc) (g : Gen) (h : generate c d = some g) :
    Done c g (declared .service d.ifaces) (declared .provider d.ifaces) := by
  have := visit_done c d.ifaces .empty g [] [] ⟨by simp, rfl, rfl, rfl, rfl, rfl⟩ h
  simpa using this

/-! ## The module -/

theorem allSome_eq {α : Type} (l : List (Option α)) (r : List α) (h : allSome l = some r) : l = r.map some := by
  induction l generalizing r with
  | nil => simp only [allSome, Option.some.injEq] at h; subst h; rfl
  | cons a l ih =>
    cases a with
    | none => simp [allSome] at h
    | some a =>
      simp only [allSome, Option.map_eq_some_iff] at h
      obtain ⟨r', h1, rfl⟩ := h
      simp [ih r' h1]

/-- The imports among what a module does while it starts. -/
def importsOf {H : Type} : List (Setup H) → List Op
  | [] => []
  | .register _ _ _ _ :: l => importsOf l
  | .addImport o :: l => o :: importsOf l

theorem setup_imports {H : Type} (l : List (Setup H)) (m : Module H) : (m.setup l).ops.imports = m.ops.imports ++ importsOf l := by
  induction l generalizing m with
  | nil => simp [Module.setup, importsOf]
  | cons s l ih =>
    cases s with
    | register k ns op h => simp [Module.setup, importsOf, ih, Module.register, addExport]
    | addImport o => simp [Module.setup, importsOf, ih, Module.addImport, Rust.addImport]

theorem mem_importsOf {H : Type} (l : List (Setup H)) (o : Op) : o ∈ importsOf l ↔ .addImport o ∈ l := by
  induction l with
  | nil => simp [importsOf]
  | cons s l ih => cases s <;> simp [importsOf, ih]

theorem mem_registrations {H : Type} (l : List (Setup H)) (k : Method) (ns op : Bytes) (h : H) :
    (k, ns, op, h) ∈ registrations l ↔ .register k ns op h ∈ l := by
  induction l with
  | nil => simp [registrations]
  | cons s l ih => cases s <;> simp [registrations, ih]

theorem setup_length {H : Type} (l : List (Setup H)) : (registrations l).length + (importsOf l).length = l.length := by
  induction l with
  | nil => rfl
  | cons s l ih => cases s <;> simp [registrations, importsOf] <;> omega

theorem compile_spec (c : Cases) (d : Doc) (g : Gen) (m : Module Wrapper) (h : compile c d = some (g, m)) :
    generate c d = some g ∧ g.accepted ∧ ∃ l, g.startup c d.ns = some l ∧ m = Module.empty.setup l := by
  unfold compile at h
  cases hg : generate c d with
  | none => rw [hg] at h; cases h
  | some g' =>
    rw [hg] at h
    cases hs : g'.startup c d.ns with
    | none => simp only [hs] at h; cases h
    | some l =>
      simp only [hs] at h
      split at h
      · rename_i ha
        simp only [Option.some.injEq, Prod.mk.injEq] at h
        obtain ⟨rfl, rfl⟩ := h
        exact ⟨rfl, ha, l, hs, rfl⟩
      · cases h

theorem mem_grouped {α : Type} (a : Actions) (f : Method → Bytes × Bytes → α) (y : α) :
    y ∈ grouped a f ↔ (∃ x ∈ a.rr, f .rr x = y) ∨ (∃ x ∈ a.rs, f .rs x = y) ∨ ∃ x ∈ a.rc, f .rc x = y := by
  simp [grouped, or_assoc]

theorem mem_named (l : List (Bytes × Oper)) (k : Method) (y : Bytes × Bytes) :
    y ∈ named l k ↔ ∃ x ∈ l, determineVariant x.2 = some k ∧ (x.1, x.2.name) = y := by
  simp only [named, List.mem_map, List.mem_filter, decide_eq_true_eq]
  constructor
  · rintro ⟨x, ⟨h1, h2⟩, h3⟩; exact ⟨x, h1, h2, h3⟩
  · rintro ⟨x, h1, h2, h3⟩; exact ⟨x, ⟨h1, h2⟩, h3⟩

/-- In a group written for the operations `l` there is one entry for each of them. -/
theorem mem_grouped_named {α : Type} (l : List (Bytes × Oper)) (hk : ∀ x ∈ l, ∃ k, determineVariant x.2 = some k ∧ k ≠ .fnf)
    (f : Method → Bytes × Bytes → α) (y : α) :
    y ∈ grouped ⟨named l .rr, named l .rs, named l .rc⟩ f ↔
      ∃ x ∈ l, ∃ k, determineVariant x.2 = some k ∧ f k (x.1, x.2.name) = y := by
  rw [mem_grouped]
  simp only [mem_named]
  constructor
  · rintro (⟨_, ⟨x, h1, h2, rfl⟩, h3⟩ | ⟨_, ⟨x, h1, h2, rfl⟩, h3⟩ | ⟨_, ⟨x, h1, h2, rfl⟩, h3⟩) <;>
      exact ⟨x, h1, _, h2, h3⟩
  · rintro ⟨x, h1, k, h2, h3⟩
    obtain ⟨k', h4, h5⟩ := hk x h1
    cases k with
    | rr => exact .inl ⟨_, ⟨x, h1, h2, rfl⟩, h3⟩
    | rs => exact .inr (.inl ⟨_, ⟨x, h1, h2, rfl⟩, h3⟩)
    | rc => exact .inr (.inr ⟨_, ⟨x, h1, h2, rfl⟩, h3⟩)
    | fnf => rw [h4] at h2; exact absurd (Option.some.inj h2) h5

theorem grouped_length {α : Type} (l : List (Bytes × Oper)) (hk : ∀ x ∈ l, ∃ k, determineVariant x.2 = some k ∧ k ≠ .fnf)
    (f : Method → Bytes × Bytes → α) : (grouped ⟨named l .rr, named l .rs, named l .rc⟩ f).length = l.length := by
  rw [← named_length l hk]
  simp [grouped, Nat.add_assoc]

/-- The kind of an operation the generator did not reject. -/
def kind (o : Oper) : Method := (determineVariant o).getD .fnf

/-- The three groups have one entry for each operation. -/
theorem grouped_perm {α : Type} (l : List (Bytes × Oper)) (hk : ∀ x ∈ l, ∃ k, determineVariant x.2 = some k ∧ k ≠ .fnf)
    (f : Method → Bytes × Bytes → α) :
    (grouped ⟨named l .rr, named l .rs, named l .rc⟩ f).Perm (l.map fun x => f (kind x.2) (x.1, x.2.name)) := by
  induction l with
  | nil => exact .refl _
  | cons x l ih =>
    have ih := ih (fun y hy => hk y (by simp [hy]))
    obtain ⟨k, hx, hf⟩ := hk x (by simp)
    have e : kind x.2 = k := by simp [kind, hx]
    rw [List.map_cons, e]
    refine List.Perm.trans ?_ (ih.cons _)
    cases k with
    | fnf => exact absurd rfl hf
    | rr => simp [grouped, named, hx]
    | rs =>
      simp only [grouped, named, hx, List.filter_cons, Option.some.injEq, reduceCtorEq, decide_false, decide_true,
        List.map_cons, List.append_assoc, List.cons_append, if_true, Bool.false_eq_true, if_false]
      exact List.perm_middle
    | rc =>
      simp only [grouped, named, hx, List.filter_cons, Option.some.injEq, reduceCtorEq, decide_false, decide_true,
        List.map_cons, List.append_assoc, List.cons_append, if_true, Bool.false_eq_true, if_false]
      rw [← List.append_assoc, ← List.append_assoc]
      exact List.perm_middle

/-- The operation, if the step is an import. -/
def importOf? {H : Type} : Setup H → Option Op
  | .addImport o => some o
  | .register _ _ _ _ => none

theorem importsOf_eq {H : Type} (l : List (Setup H)) : importsOf l = l.filterMap importOf? := by
  induction l with
  | nil => rfl
  | cons s l ih => cases s <;> simp [importsOf, List.filterMap_cons, importOf?, ih]

theorem registrations_eq {H : Type} (l : List (Setup H)) :
    registrations l = l.filterMap fun s => match s with | .addImport _ => none | .register k ns op h => some (k, ns, op, h) := by
  induction l with
  | nil => rfl
  | cons s l ih => cases s <;> simp [registrations, ih]

theorem find_nodup {α β : Type} [BEq α] [LawfulBEq α] (l : List (α × β)) (hl : (l.map (·.1)).Nodup) (x : α × β) (hx : x ∈ l) :
    (l.find? fun s => s.1 == x.1) = some x := by
  induction l with
  | nil => cases hx
  | cons y l ih =>
    simp only [List.map_cons, List.nodup_cons] at hl
    rcases List.mem_cons.mp hx with rfl | hx
    · simp
    · have : (y.1 == x.1) = false := by
        rw [beq_eq_false_iff_ne]
        intro e
        exact hl.1 (e ▸ List.mem_map.mpr ⟨x, hx, rfl⟩)
      rw [List.find?_cons, this]
      exact ih hl.2 hx

/-- In an accepted program the constant of an operation is its position among the declared ones. -/
theorem static_position {c : Cases} {d : Doc} {g : Gen} (hd : Done c g (declared .service d.ifaces) (declared .provider d.ifaces))
    (ha : g.accepted) (n : Nat) (x : Bytes × Oper) (hx : (declared .provider d.ifaces)[n]? = some x) :
    g.static (c.const_ (under (c.caps x.1) x.2.name)) = some n ∧ n < 2 ^ 32 := by
  have hm : (c.const_ (under (c.caps x.1) x.2.name), n) ∈ g.statics := by
    rw [hd.statics, List.mem_iff_getElem?]
    exact ⟨n, by simp [hx]⟩
  have := find_nodup g.statics ha.1 _ hm
  exact ⟨by simp [Gen.static, this], ha.2.2.1 _ hm⟩

/-- The import of the operation at a place. -/
def importAt (ns : Bytes) (n : Nat) (x : Bytes × Oper) : Op :=
  ⟨UInt32.ofNat n, (kind x.2).number, ns ++ lit "." ++ x.1, x.2.name⟩

theorem map_mapIdx {α β : Type} (l : List α) (f : α → β) (g : Nat → α → β) (h : ∀ n x, l[n]? = some x → f x = g n x) :
    l.map f = l.mapIdx g := by
  apply List.ext_getElem?
  intro n
  simp only [List.getElem?_map, List.getElem?_mapIdx]
  cases hx : l[n]? with
  | none => rfl
  | some x => simp [h n x hx]

/-- The operation list of a compiled module. -/
theorem module_ops {c : Cases} {d : Doc} {g : Gen} {m : Module Wrapper} (h : compile c d = some (g, m)) (ha : Agrees c d) :
    m.ops.imports.Perm ((declared .provider d.ifaces).mapIdx (importAt d.ns)) ∧
    ∃ l, m = Module.empty.setup l ∧ (registrations l).length = (declared .service d.ifaces).length ∧
      ∀ x ∈ declared .service d.ifaces, ∃ w, (kind x.2, d.ns ++ lit "." ++ x.1, x.2.name, w) ∈ registrations l ∧
        writeExport c g d.ns (kind x.2) (x.1, x.2.name) = some (.register (kind x.2) (d.ns ++ lit "." ++ x.1) x.2.name w) := by
  obtain ⟨hg, hacc, l, hs, rfl⟩ := compile_spec c d g m h
  have hd := generate_done c d g hg
  have hsv : ∀ x ∈ declared .service d.ifaces, ∃ k, determineVariant x.2 = some k ∧ k ≠ .fnf := fun x hx =>
    hd.kinds x (by simp [hx])
  have hpr : ∀ x ∈ declared .provider d.ifaces, ∃ k, determineVariant x.2 = some k ∧ k ≠ .fnf := fun x hx =>
    hd.kinds x (by simp [hx])
  obtain ⟨a, b, hl, hA, hB⟩ := List.map_eq_append_iff.mp (allSome_eq _ _ hs).symm
  have pA := grouped_perm _ hsv (writeExport c g d.ns)
  have pB := grouped_perm _ hpr (writeImport c g d.ns)
  rw [← hd.exports, ← hA] at pA
  rw [← hd.imports, ← hB] at pB
  have hBi : (declared .provider d.ifaces).map (fun x => writeImport c g d.ns (kind x.2) (x.1, x.2.name)) =
      ((declared .provider d.ifaces).mapIdx fun n x => some (.addImport (importAt d.ns n x))) := by
    apply map_mapIdx
    intro n x hx
    have := static_position hd hacc n x hx
    rw [ha.caps x (List.mem_of_getElem? hx)] at this
    simp only [writeImport, this.1, Option.map_some, importAt, qualified]
  rw [hBi] at pB
  have hB2 : b.Perm ((declared .provider d.ifaces).mapIdx fun n x => .addImport (importAt d.ns n x)) := by
    have := pB.filterMap _root_.id
    simpa [List.filterMap_map, List.mapIdx_eq_zipIdx_map, Function.comp_def] using this
  have hra : ∀ s ∈ a, ∃ x ∈ declared .service d.ifaces, ∃ w, s = .register (kind x.2) (d.ns ++ lit "." ++ x.1) x.2.name w ∧
      writeExport c g d.ns (kind x.2) (x.1, x.2.name) = some s := by
    intro s hsa
    have : some s ∈ a.map some := by simp [hsa]
    obtain ⟨x, hx, e⟩ := List.mem_map.mp (pA.mem_iff.mp this)
    refine ⟨x, hx, ?_⟩
    have e' := e
    simp only [writeExport, Option.map_eq_some_iff] at e
    obtain ⟨w, _, rfl⟩ := e
    exact ⟨w, rfl, e'⟩
  have hrb : ∀ s ∈ b, ∃ o, s = .addImport o := by
    intro s hsb
    obtain ⟨n, hn⟩ := List.mem_iff_getElem?.mp (hB2.mem_iff.mp hsb)
    rw [List.getElem?_mapIdx, Option.map_eq_some_iff] at hn
    obtain ⟨x, _, rfl⟩ := hn
    exact ⟨_, rfl⟩
  have ia : importsOf a = [] := by
    rw [importsOf_eq, List.filterMap_eq_nil_iff]
    intro s hsa
    obtain ⟨x, _, w, rfl, _⟩ := hra s hsa
    rfl
  have rb : registrations b = [] := by
    rw [registrations_eq, List.filterMap_eq_nil_iff]
    intro s hsb
    obtain ⟨o, rfl⟩ := hrb s hsb
    rfl
  refine ⟨?_, l, rfl, ?_, ?_⟩
  · rw [setup_imports]
    have : importsOf l = importsOf b := by
      rw [hl, importsOf_eq, List.filterMap_append, ← importsOf_eq, ← importsOf_eq, ia, List.nil_append]
    rw [this]
    have := hB2.filterMap importOf?
    rw [← importsOf_eq] at this
    simpa [Module.empty, List.mapIdx_eq_zipIdx_map, List.filterMap_map, Function.comp_def, importOf?] using this
  · have : registrations l = registrations a := by
      rw [hl, registrations_eq, List.filterMap_append, ← registrations_eq, ← registrations_eq, rb, List.append_nil]
    rw [this]
    have h1 := setup_length a
    rw [ia] at h1
    have h2 := pA.length_eq
    simp only [List.length_map, List.length_nil] at h1 h2
    omega
  · intro x hx
    have : writeExport c g d.ns (kind x.2) (x.1, x.2.name) ∈ a.map some := pA.mem_iff.mpr (List.mem_map.mpr ⟨x, hx, rfl⟩)
    obtain ⟨s, hsa, e⟩ := List.mem_map.mp this
    have e' := e.symm
    simp only [writeExport, Option.map_eq_some_iff] at e'
    obtain ⟨w, hw, rfl⟩ := e'
    refine ⟨w, ?_, e.symm⟩
    rw [mem_registrations, hl]
    simp only [List.mem_append]
    exact .inl hsa

/-- **C129** The module has one export for each operation of its services, of its kind and under its names, and a request
made with the index there runs the wrapper of this operation. -/
theorem generated_exports {c : Cases} {d : Doc} {g : Gen} {m : Module Wrapper} (h : compile c d = some (g, m))
    (ha : Agrees c d) (hn : (declared .service d.ifaces).length ≤ 2 ^ 32) :
    m.ops.exports.length = (declared .service d.ifaces).length ∧
    ∀ x ∈ declared .service d.ifaces, ∃ k o w, Spec.RustCodegen.kindOf x.2 = some k ∧ o ∈ m.ops.exports ∧
      o.kind = RustGuest.kindNumber k ∧ o.ns = d.ns ++ lit "." ++ x.1 ∧ o.op = x.2.name ∧
      (w.iface = x.1 ∧ w.op = x.2.name ∧ w.method = k) ∧
      ∀ data r, m.serve k (be32 o.index ++ r) data = .ok (.run w o.index data) := by
  obtain ⟨_, l, rfl, hlen, hreg⟩ := module_ops h ha
  obtain ⟨hg, hacc, _⟩ := compile_spec c d g _ h
  have hd := generate_done c d g hg
  have hne := RustGuest.rust_exports l (by omega)
  refine ⟨by rw [hne.1, hlen], ?_⟩
  intro x hx
  obtain ⟨k, hk, _⟩ := hd.kinds x (by simp [hx])
  have ek : kind x.2 = k := by simp [kind, hk]
  obtain ⟨w, hw, hwe⟩ := hreg x hx
  rw [ek] at hw hwe
  obtain ⟨n, hn'⟩ := List.mem_iff_getElem?.mp hw
  obtain ⟨o, h1, h2, h3, h4, _⟩ := RustGuest.rust_call_reaches l (by omega) n k _ _ w hn' [] []
  refine ⟨k, o, w, by rw [← variant_kind, hk], List.mem_of_getElem? h1, h4, h2, h3, ?_, fun data r => ?_⟩
  · simp only [writeExport, Option.map_eq_some_iff] at hwe
    obtain ⟨w', hf, e⟩ := hwe
    have : w' = w := by cases e; rfl
    subst this
    have hwm := List.mem_of_find?_eq_some hf
    have hp := List.find?_some hf
    simp only [Bool.and_eq_true, beq_iff_eq] at hp
    rw [ha.component x hx] at hp
    have hmine : (⟨c.caps x.1 ++ lit "Component", c.rustify x.2.name ++ lit "_wrapper", x.1, x.2.name, k⟩ : Wrapper) ∈ g.wrappers := by
      rw [hd.wrappers, List.mem_filterMap]
      exact ⟨x, hx, by simp [wrapperOf, hk]⟩
    have hu : ∀ (ws : List Wrapper), (ws.map fun w => (w.component, w.fn)).Nodup → ∀ u ∈ ws, ∀ v ∈ ws,
        u.component = v.component → u.fn = v.fn → u = v := by
      intro ws hws u hu v hv e1 e2
      induction ws with
      | nil => cases hu
      | cons y ws ih =>
        simp only [List.map_cons, List.nodup_cons, List.mem_map, not_exists, not_and] at hws
        rcases List.mem_cons.mp hu with rfl | hu' <;> rcases List.mem_cons.mp hv with rfl | hv'
        · rfl
        · exact absurd (Prod.ext e1.symm e2.symm) (hws.1 v hv')
        · exact absurd (Prod.ext e1 e2) (hws.1 u hu')
        · exact ih hws.2 hu' hv'
    have := hu _ hacc.2.1 _ hwm _ hmine hp.1.1 hp.1.2
    rw [this]
    exact ⟨rfl, rfl, rfl⟩
  · obtain ⟨o', h1', _, _, _, h5⟩ := RustGuest.rust_call_reaches l (by omega) n k _ _ w hn' data r
    rw [h1] at h1'
    cases h1'
    exact h5


theorem number_kind (k : Method) : k.number = RustGuest.kindNumber k := by cases k <;> rfl

theorem indices_nodup (ns : Bytes) (l : List (Bytes × Oper)) (hl : l.length ≤ 2 ^ 32) :
    ((l.mapIdx (importAt ns)).map (·.index)).Nodup := by
  rw [List.Nodup, List.pairwise_iff_getElem]
  intro i j hi hj hij
  simp only [List.length_map, List.length_mapIdx] at hi hj
  simp only [List.getElem_map, List.getElem_mapIdx, importAt]
  intro e
  have := congrArg UInt32.toNat e
  simp only [UInt32.toNat_ofNat'] at this
  rw [Nat.mod_eq_of_lt (by omega), Nat.mod_eq_of_lt (by omega)] at this
  omega

/-- **C130 (partial)** The module advertises one import for each operation of its providers, of its kind and under its
names, each with an index of its own; and the function generated for the operation sends this index, as a request of the kind
of the operation, unless that is a channel. Missing: channels, see `generated_channel_refuted`. -/
theorem generated_imports_partial {c : Cases} {d : Doc} {g : Gen} {m : Module Wrapper} (h : compile c d = some (g, m))
    (ha : Agrees c d) :
    m.ops.imports.length = (declared .provider d.ifaces).length ∧ g.fns.length = (declared .provider d.ifaces).length ∧
    (m.ops.imports.map (·.index)).Nodup ∧
    ∀ (n : Nat) x, (declared .provider d.ifaces)[n]? = some x → ∃ f k k' o, Spec.RustCodegen.kindOf x.2 = some k ∧
      g.fns[n]? = some f ∧ f.iface = x.1 ∧ f.op = x.2.name ∧
      o ∈ m.ops.imports ∧ o.kind = RustGuest.kindNumber k ∧ o.ns = d.ns ++ lit "." ++ x.1 ∧ o.op = x.2.name ∧
      g.request f = some (k', Rust.encodeMetadata o.index) ∧ (k ≠ .rc → k' = k) ∧ (k = .rc → k' = .rs) := by
  obtain ⟨hp, _⟩ := module_ops h ha
  obtain ⟨hg, hacc, _⟩ := compile_spec c d g _ h
  have hd := generate_done c d g hg
  have hlen : (declared .provider d.ifaces).length ≤ 2 ^ 32 := by
    apply Decidable.byContradiction
    intro hc
    have hx := List.getElem?_eq_getElem (l := declared .provider d.ifaces) (i := 2 ^ 32) (by omega)
    have := (static_position hd hacc _ _ hx).2
    omega
  refine ⟨by simpa using hp.length_eq, by simp [hd.fns], ?_, ?_⟩
  · exact ((hp.map (·.index)).nodup_iff).mpr (indices_nodup d.ns _ hlen)
  · intro n x hx
    have hxm := List.mem_of_getElem? hx
    obtain ⟨k, hk, hf⟩ := hd.kinds x (by simp [hxm])
    have ek : kind x.2 = k := by simp [kind, hk]
    have hs := (static_position hd hacc n x hx).1
    rw [ha.caps x hxm, ← ha.snake x hxm] at hs
    refine ⟨fnOf c x.1 x.2, k, if x.2.streamOut = true then .rs else .rr, importAt d.ns n x, by rw [← variant_kind, hk],
      by rw [hd.fns, List.getElem?_map, hx]; rfl, rfl, rfl, ?_, by rw [← number_kind, ← ek]; rfl, rfl, rfl, ?_, ?_, ?_⟩
    · rw [hp.mem_iff, List.mem_iff_getElem?]
      exact ⟨n, by simp [hx]⟩
    · simp only [Gen.request, fnOf, hs, Option.map_some, Rust.encodeMetadata, importAt]
    · intro hrc
      simp only [determineVariant] at hk
      split at hk
      · exact absurd (Option.some.inj hk).symm hrc
      · split at hk
        · rename_i h2; rw [if_pos h2.2]; exact Option.some.inj hk
        · split at hk
          · rename_i h2; rw [if_neg (by simp [h2.2])]; exact Option.some.inj hk
          · cases hk
    · rintro rfl
      simp only [determineVariant] at hk
      split at hk
      · rename_i h2; rw [if_pos h2.2.2]
      · split at hk
        · cases hk
        · split at hk <;> cases hk

/-! ## Linked by a Go host -/

/-- The kind of request in the terms of the Go host. -/
def goKind : Method → Registry.Kind
  | .rr => .rr
  | .fnf => .fnf
  | .rs => .rs
  | .rc => .rc

theorem mem_operations (dir : UInt8) (b : Nat) (h : List (List Operations.Operation)) (i : Nat) (o : Operations.Operation) :
    (i, o) ∈ Spec.Mesh.operations dir b h ↔ ∃ j t, h[j]? = some t ∧ i = b + j ∧ o ∈ t ∧ o.direction = dir := by
  induction h generalizing b with
  | nil => simp [Spec.Mesh.operations]
  | cons t h ih =>
    simp only [Spec.Mesh.operations, List.mem_append, List.mem_map, List.mem_filter, decide_eq_true_eq, Prod.mk.injEq, ih]
    constructor
    · rintro (⟨o', ⟨h1, h2⟩, rfl, rfl⟩ | ⟨j, t', h1, rfl, h2, h3⟩)
      · exact ⟨0, t, rfl, rfl, h1, h2⟩
      · exact ⟨j + 1, t', by simpa using h1, by omega, h2, h3⟩
    · rintro ⟨j, t', h1, h2, h3, h4⟩
      cases j with
      | zero =>
        simp only [List.getElem?_cons_zero, Option.some.injEq] at h1
        subst h1
        exact .inl ⟨o, ⟨h3, h4⟩, by omega, rfl⟩
      | succ j => exact .inr ⟨j, t', by simpa using h1, by omega, h3, h4⟩

theorem go_kind (k : Method) : Mesh.kindOf (RustGuest.kindNumber k) = some (goKind k) := by cases k <;> rfl

/-- Of a list without repetitions of a key, the member with a key is one. -/
theorem nodup_unique {α β : Type} (f : α → β) (l : List α) (hl : (l.map f).Nodup) (a b : α) (ha : a ∈ l) (hb : b ∈ l)
    (e : f a = f b) : a = b := by
  induction l with
  | nil => cases ha
  | cons y l ih =>
    simp only [List.map_cons, List.nodup_cons, List.mem_map, not_exists, not_and] at hl
    rcases List.mem_cons.mp ha with rfl | ha' <;> rcases List.mem_cons.mp hb with rfl | hb'
    · rfl
    · exact absurd e.symm (hl.1 b hb')
    · exact absurd e (hl.1 a ha')
    · exact ih hl.2 ha' hb'

/-- A mesh in which the module was loaded, by the list it publishes, as the `p`-th. -/
structure Loaded (m : Module Wrapper) (ls : List (Bytes × Operations.Table)) (p : Nat) : Prop where
  valid : ∀ o ∈ m.ops.exports ++ m.ops.imports, RustOperations.Valid o
  few : m.ops.imports.length + m.ops.exports.length < 2 ^ 32
  here : ∃ nm t, ls[p]? = some (nm, t) ∧ Operations.fromBytes (Rust.encodeOps m.ops) = .ok t
  bounded : ∀ t ∈ Mesh.tables ls, ∀ o ∈ t, o.index.toNat + 1 < 2 ^ 32

theorem loaded_imports {m : Module Wrapper} {ls : List (Bytes × Operations.Table)} {p : Nat} (hl : Loaded m ls p)
    (o : Operations.Operation) :
    (p, o) ∈ Spec.Mesh.imports (Mesh.tables ls) ↔ ∃ o' ∈ m.ops.imports, o = RustOperations.toGo 2 o' := by
  obtain ⟨nm, t, h1, h2⟩ := hl.here
  have h3 := RustOperations.rust_to_go_partial m.ops hl.valid hl.few []
  rw [List.append_nil, h2] at h3
  have ht : t = m.ops.exports.map (RustOperations.toGo 1) ++ m.ops.imports.map (RustOperations.toGo 2) := by
    injection h3
  have hp : (Mesh.tables ls)[p]? = some t := by simp [Mesh.tables, h1]
  rw [Spec.Mesh.imports, mem_operations]
  constructor
  · rintro ⟨j, t', h4, h5, h6, h7⟩
    have : j = p := by omega
    subst this
    rw [hp] at h4
    obtain rfl := Option.some.inj h4
    rw [ht, List.mem_append, List.mem_map, List.mem_map] at h6
    rcases h6 with ⟨o', h8, rfl⟩ | ⟨o', h8, rfl⟩
    · exact absurd h7 (by simp [RustOperations.toGo])
    · exact ⟨o', h8, rfl⟩
  · rintro ⟨o', h4, rfl⟩
    exact ⟨p, t, hp, by omega, by rw [ht]; simp only [List.mem_append, List.mem_map]; exact .inr ⟨o', h4, rfl⟩, rfl⟩

/-- **C130 (partial)** Linked by a Go host with any other modules, in any order: what the function generated for an
operation sends leads to an export of the name of this operation, or nowhere if nobody exports it. -/
theorem generated_call_reaches_partial {c : Cases} {d : Doc} {g : Gen} {m : Module Wrapper} (h : compile c d = some (g, m))
    (ha : Agrees c d) (ls : List (Bytes × Operations.Table)) (p : Nat) (hl : Loaded m ls p) :
    ∃ mesh, Mesh.Mesh.new.loadModules 0 ls = .ok mesh ∧
      ∀ (n : Nat) x k, (declared .provider d.ifaces)[n]? = some x → Spec.RustCodegen.kindOf x.2 = some k → k ≠ .rc →
        ∃ f i, g.fns[n]? = some f ∧ g.request f = some (k, Rust.encodeMetadata i) ∧
          ((mesh.moduleCall p (goKind k) i).isSome = true ↔
            ∃ e ∈ Spec.Mesh.exports (Mesh.tables ls), e.2.ns = d.ns ++ lit "." ++ x.1 ∧ e.2.op = x.2.name) ∧
          ∀ dest, mesh.moduleCall p (goKind k) i = some dest →
            ∃ e, (dest.instance_, e) ∈ Spec.Mesh.exports (Mesh.tables ls) ∧ e.index = dest.index ∧
              e.ns = d.ns ++ lit "." ++ x.1 ∧ e.op = x.2.name := by
  obtain ⟨_, _, hnd, hall⟩ := generated_imports_partial h ha
  obtain ⟨mesh, h1, hun, h2⟩ := Mesh.linking_complete_partial ls hl.bounded
  refine ⟨mesh, h1, ?_⟩
  intro n x k hx hk hrc
  obtain ⟨f, k1, k', o, hk1, hf, _, _, ho, hok, hns, hop, hreq, heq, _⟩ := hall n x hx
  rw [hk] at hk1
  obtain rfl := Option.some.inj hk1
  rw [heq hrc] at hreq
  have hi := (loaded_imports hl (RustOperations.toGo 2 o)).mpr ⟨o, ho, rfl⟩
  have hkk : Mesh.kindOf (RustOperations.toGo 2 o).type = some (goKind k) := by
    rw [← go_kind k, ← hok]; rfl
  have huniq : ∀ o', (p, o') ∈ Spec.Mesh.imports (Mesh.tables ls) → o'.index = o.index → o' = RustOperations.toGo 2 o := by
    intro o' ho' e
    obtain ⟨o'', h3, rfl⟩ := (loaded_imports hl o').mp ho'
    rw [nodup_unique (·.index) _ hnd o'' o h3 ho e]
  obtain ⟨h3, h4⟩ := h2 p _ (goKind k) hi hkk
  have h5 := h4 (fun o' ho' _ e => huniq o' ho' e)
  refine ⟨f, o.index, hf, hreq, ⟨?_, ?_⟩, ?_⟩
  · intro hs
    obtain ⟨dest, hd⟩ := Option.isSome_iff_exists.mp hs
    obtain ⟨e, h6, _, h7, h8⟩ := h5 dest hd
    exact ⟨_, h6, by rw [← hns]; exact h7, by rw [← hop]; exact h8⟩
  · rintro ⟨e, h6, h7, h8⟩
    have : Spec.Mesh.satisfied (Mesh.tables ls) (RustOperations.toGo 2 o) = true := by
      rw [Spec.Mesh.satisfied, List.any_eq_true]
      exact ⟨e, h6, by simp [Spec.Mesh.sameName, RustOperations.toGo, h7, h8, hns, hop]⟩
    exact (h3.mp this).1
  · intro dest hd
    obtain ⟨e, h6, h7, h8, h9⟩ := h5 dest hd
    exact ⟨e, h6, h7, by rw [← hns]; exact h8, by rw [← hop]; exact h9⟩

/-- **C130 is false of the code**: for every document that compiles, the function generated for a channel makes a stream
request with an index that no stream import has, so in a Go host it reaches nothing, whoever exports the operation. -/
theorem generated_channel_refuted {c : Cases} {d : Doc} {g : Gen} {m : Module Wrapper} (h : compile c d = some (g, m))
    (ha : Agrees c d) (ls : List (Bytes × Operations.Table)) (p : Nat) (hl : Loaded m ls p) :
    ∃ mesh, Mesh.Mesh.new.loadModules 0 ls = .ok mesh ∧
      ∀ (n : Nat) x, (declared .provider d.ifaces)[n]? = some x → Spec.RustCodegen.kindOf x.2 = some .rc →
        ∃ f i, g.fns[n]? = some f ∧ g.request f = some (.rs, Rust.encodeMetadata i) ∧ mesh.moduleCall p .rs i = none := by
  obtain ⟨_, _, hnd, hall⟩ := generated_imports_partial h ha
  obtain ⟨mesh, h1, hinv⟩ := Mesh.loaded ls hl.bounded
  refine ⟨mesh, h1, ?_⟩
  intro n x hx hk
  obtain ⟨f, k1, k', o, hk1, hf, _, _, ho, hok, hns, hop, hreq, _, heq⟩ := hall n x hx
  rw [hk] at hk1
  obtain rfl := Option.some.inj hk1
  rw [heq rfl] at hreq
  refine ⟨f, o.index, hf, hreq, ?_⟩
  cases hc : mesh.moduleCall p .rs o.index with
  | none => rfl
  | some dest =>
    obtain ⟨o', e, c1, c2, c3, _⟩ := hinv.tab.sound p .rs o.index dest hc
    obtain ⟨o'', h3, rfl⟩ := (loaded_imports hl o').mp c1
    have := nodup_unique (·.index) _ hnd o'' o h3 ho c3
    subst this
    rw [show (RustOperations.toGo 2 o'').type = RustGuest.kindNumber .rc from hok, go_kind] at c2
    cases c2

/-- **C130 is false of the code**: if the names of two operations of providers join to the same text, as `A_B`, `c` and
`A`, `B_c` do, nothing that compiles is generated, although the interfaces and the operations have different names. -/
theorem joined_names_refuted (c : Cases) (d : Doc) (ha : Agrees c d) (i j : Nat) (x y : Bytes × Oper) (hij : i ≠ j)
    (hx : (declared .provider d.ifaces)[i]? = some x) (hy : (declared .provider d.ifaces)[j]? = some y)
    (e : x.1 ++ lit "_" ++ x.2.name = y.1 ++ lit "_" ++ y.2.name) : compile c d = none := by
  cases h : compile c d with
  | none => rfl
  | some gm =>
    obtain ⟨g, m⟩ := gm
    obtain ⟨hg, hacc, _⟩ := compile_spec c d g _ h
    have hd := generate_done c d g hg
    have h1 := (static_position hd hacc i x hx).1
    have h2 := (static_position hd hacc j y hy).1
    rw [ha.caps x (List.mem_of_getElem? hx)] at h1
    rw [ha.caps y (List.mem_of_getElem? hy), under, ← e, ← under, h1] at h2
    exact absurd (Option.some.inj h2) hij

/-! ## Examples -/

/-- Functions for names, as far as names of letters and underscores go: `constantCase` makes capitals of small letters. -/
def exCases : Cases := ⟨fun b => b.map fun x => if 97 ≤ x ∧ x ≤ 122 then x - 32 else x, fun b => b, fun b => b⟩

/-- A service and two providers; the last operation is a channel. -/
def exDoc : Doc := ⟨lit "acme", [
  ⟨lit "Greeter", .service, [⟨lit "hello", [false], false⟩, ⟨lit "watch", [], true⟩, ⟨lit "bye", [false, false], false⟩]⟩,
  ⟨lit "Store", .provider, [⟨lit "list", [], true⟩, ⟨lit "get", [false], false⟩]⟩,
  ⟨lit "Types", .other, [⟨lit "odd", [true, true], false⟩]⟩,
  ⟨lit "Bus", .provider, [⟨lit "pipe", [true], true⟩]⟩]⟩

example : Agrees exCases exDoc := by
  refine ⟨?_, ?_, ?_⟩ <;> decide +kernel

/-- The module has the list that one expects: exports by kind, imports by kind but numbered as declared. -/
example : (compile exCases exDoc).map (fun x => x.2.ops) = some ⟨
    [⟨1, 1, lit "acme.Store", lit "get"⟩, ⟨0, 3, lit "acme.Store", lit "list"⟩, ⟨2, 4, lit "acme.Bus", lit "pipe"⟩],
    [⟨0, 1, lit "acme.Greeter", lit "hello"⟩, ⟨1, 1, lit "acme.Greeter", lit "bye"⟩, ⟨0, 3, lit "acme.Greeter", lit "watch"⟩]⟩ := by
  decide +kernel

/-- The functions send these indices; that of the channel makes a stream request. -/
example : (compile exCases exDoc).map (fun x => x.1.fns.map x.1.request) = some [
    some (.rs, [0, 0, 0, 0, 0, 0, 0, 0]), some (.rr, [0, 0, 0, 1, 0, 0, 0, 0]), some (.rs, [0, 0, 0, 2, 0, 0, 0, 0])] := by
  decide +kernel

/-- What the module publishes. -/
def exOps : OpList := ⟨
  [⟨1, 1, lit "acme.Store", lit "get"⟩, ⟨0, 3, lit "acme.Store", lit "list"⟩, ⟨2, 4, lit "acme.Bus", lit "pipe"⟩],
  [⟨0, 1, lit "acme.Greeter", lit "hello"⟩, ⟨1, 1, lit "acme.Greeter", lit "bye"⟩, ⟨0, 3, lit "acme.Greeter", lit "watch"⟩]⟩

/-- It can be loaded together with a module that exports what it imports. -/
example (g : Gen) (m : Module Wrapper) (h : compile exCases exDoc = some (g, m)) :
    Loaded m [(lit "go", [⟨5, 1, 1, lit "acme.Store", lit "get"⟩, ⟨6, 4, 1, lit "acme.Bus", lit "pipe"⟩]),
      (lit "rust", exOps.exports.map (RustOperations.toGo 1) ++ exOps.imports.map (RustOperations.toGo 2))] 1 := by
  have e : m.ops = exOps := by
    have h1 : (compile exCases exDoc).map (fun x => x.2.ops) = some exOps := by decide +kernel
    rw [h] at h1
    exact Option.some.inj h1
  refine ⟨?_, ?_, ⟨_, _, rfl, ?_⟩, ?_⟩
  · rw [e]
    have : ∀ o ∈ exOps.exports ++ exOps.imports, (1 ≤ o.kind.toNat ∧ o.kind.toNat ≤ 4) ∧ Rust.isUtf8 o.ns = true ∧
        Rust.isUtf8 o.op = true ∧ o.ns.length < 2 ^ 16 ∧ o.op.length < 2 ^ 16 := by decide +kernel
    exact fun o ho => by
      obtain ⟨h1, h2, h3, h4, h5⟩ := this o ho
      constructor <;> assumption
  · rw [e]; decide
  · rw [e]; decide +kernel
  · decide +kernel

/-- A document of the kind in `joined_names_refuted`: what is generated is not accepted, although the generator wrote it. -/
def exJoined : Doc := ⟨lit "acme", [⟨lit "A_B", .provider, [⟨lit "c", [], false⟩]⟩, ⟨lit "A", .provider, [⟨lit "B_c", [], false⟩]⟩]⟩

example : Agrees exCases exJoined ∧ (generate exCases exJoined).isSome = true ∧ compile exCases exJoined = none := by
  refine ⟨⟨?_, ?_, ?_⟩, ?_, ?_⟩
  · decide +kernel
  · decide +kernel
  · decide +kernel
  · decide +kernel
  · exact joined_names_refuted exCases exJoined (by refine ⟨?_, ?_, ?_⟩ <;> decide +kernel) 0 1 _ _ (by decide) rfl rfl
      (by decide +kernel)

end Iota.Props.RustCodegen
