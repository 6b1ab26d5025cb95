import Verif.Model.Mesh
import Verif.Spec.Mesh
import Verif.Spec.Handler
import Verif.Props.Registry

/-! # C48, C49, C66, C67: linking modules -/

namespace Iota.Props.Mesh
open Iota.Go Iota.Operations Iota.Registry Iota.Mesh Iota.Spec.Mesh Iota.Props.Registry

abbrev Ops := List (Nat × Operation)

/-- Some operation of the list has this name. -/
def sat (E : Ops) (o : Operation) : Bool := E.any fun e => sameName e.2 o

def toDest (e : Nat × Operation) : Dest := ⟨e.1, e.2.index⟩

def pair (u : Pending) : Nat × Operation := (u.instance_, u.oper)

/-- Exports and handler tables of a mesh that has seen exports `E` and imports `I`. -/
structure Tab (E I : Ops) (m : Mesh) : Prop where
  find : ∀ ns op, m.find ns op = ((E.filter fun e => e.2.ns == ns && e.2.op == op).getLast?).map toDest
  lens : ∀ i k, (m.tables i k).length < 2 ^ 32
  sound : ∀ i k x d, m.moduleCall i k x = some d → ∃ o e, (i, o) ∈ I ∧ kindOf o.type = some k ∧ o.index = x ∧
    e ∈ E ∧ sameName e.2 o = true ∧ d = toDest e

/-- Handlers that are set stay set. -/
def Mono (m m' : Mesh) : Prop := ∀ i k x, (m.moduleCall i k x).isSome = true → (m'.moduleCall i k x).isSome = true

theorem setHandler_spec (m : Mesh) (i : Nat) (k : Kind) (x : UInt32) (d : Dest)
    (hl : ∀ i k, (m.tables i k).length < 2 ^ 32) (hx : x.toNat + 1 < 2 ^ 32) :
    ∃ m', m.setHandler i k x d = .ok m' ∧ m'.exports = m.exports ∧ m'.unsatisfied = m.unsatisfied ∧
      (∀ i k, (m'.tables i k).length < 2 ^ 32) ∧
      ∀ i' k' x', m'.moduleCall i' k' x' = if i' = i ∧ k' = k ∧ x' = x then some d else m.moduleCall i' k' x' := by
  obtain ⟨s, h1, h2, h3⟩ := setSlot_spec (m.tables i k) x (some d) (hl i k) hx
  refine ⟨{ m with tables := assign m.tables i (upd (m.tables i) k s) }, by rw [Mesh.setHandler, h1], rfl, rfl, ?_, ?_⟩
  · intro i' k'
    show (assign m.tables i (upd (m.tables i) k s) i' k').length < _
    unfold assign
    split
    · unfold upd
      split
      · exact h2
      · exact hl i k'
    · exact hl i' k'
  · intro i' k' x'
    show getSlot (assign m.tables i (upd (m.tables i) k s) i' k') x' = _
    unfold assign
    by_cases hi : i' = i
    · subst hi
      rw [if_pos rfl]
      unfold upd
      by_cases hk : k' = k
      · subst hk
        rw [if_pos rfl, h3]
        by_cases hxx : x' = x
        · simp [hxx]
        · simp [hxx, Mesh.moduleCall]
      · simp [hk, Mesh.moduleCall]
    · simp [hi, Mesh.moduleCall]

theorem find_of_sat {E I : Ops} {m : Mesh} (ht : Tab E I m) (o : Operation) :
    (sat E o = false ∧ m.find o.ns o.op = none) ∨
      (sat E o = true ∧ ∃ e, e ∈ E ∧ sameName e.2 o = true ∧ m.find o.ns o.op = some (toDest e)) := by
  rw [ht.find]
  cases hg : (E.filter fun e => e.2.ns == o.ns && e.2.op == o.op).getLast? with
  | none =>
    left
    rw [List.getLast?_eq_none_iff, List.filter_eq_nil_iff] at hg
    refine ⟨?_, rfl⟩
    unfold sat
    rw [List.any_eq_false]
    exact hg
  | some e =>
    right
    have hm := List.mem_of_getLast? hg
    rw [List.mem_filter] at hm
    refine ⟨?_, e, hm.1, hm.2, rfl⟩
    unfold sat
    rw [List.any_eq_true]
    exact ⟨e, hm.1, hm.2⟩

theorem link_spec {E I : Ops} {m : Mesh} (ht : Tab E I m) (i : Nat) (o : Operation) (hm : (i, o) ∈ I)
    (hx : o.index.toNat + 1 < 2 ^ 32) :
    ∃ m', m.linkOperation i o = .ok (sat E o, m') ∧ m'.exports = m.exports ∧ m'.unsatisfied = m.unsatisfied ∧
      Tab E I m' ∧ Mono m m' ∧ (sat E o = true → ∀ k, kindOf o.type = some k → (m'.moduleCall i k o.index).isSome = true) := by
  unfold Mesh.linkOperation
  rcases find_of_sat ht o with ⟨h1, h2⟩ | ⟨h1, e, he, hn, h2⟩
  · rw [h2, h1]
    exact ⟨m, rfl, rfl, rfl, ht, fun _ _ _ h => h, by simp⟩
  · rw [h2, h1]
    cases hk : kindOf o.type with
    | none => exact ⟨m, rfl, rfl, rfl, ht, fun _ _ _ h => h, by simp⟩
    | some k =>
      obtain ⟨m', a1, a2, a3, a4, a5⟩ := setHandler_spec m i k o.index (toDest e) ht.lens hx
      simp only [a1]
      refine ⟨m', rfl, a2, a3, ⟨?_, a4, ?_⟩, ?_, ?_⟩
      · intro ns op
        rw [← ht.find ns op]
        simp only [Mesh.find, a2]
      · intro i' k' x' d hd
        rw [a5] at hd
        split at hd
        · rename_i hh
          obtain ⟨rfl, rfl, rfl⟩ := hh
          cases hd
          exact ⟨o, e, hm, hk, rfl, he, hn, rfl⟩
        · exact ht.sound i' k' x' d hd
      · intro i' k' x' h
        rw [a5]
        split
        · rfl
        · exact h
      · intro _ k' hk'
        cases hk'
        rw [a5, if_pos ⟨rfl, rfl, rfl⟩]
        rfl

/-- A mesh in the middle of loading a module of which it has seen `n` exports. -/
structure Inv (n : Nat) (E I : Ops) (m : Mesh) : Prop where
  tab : Tab E I m
  complete : ∀ i o k, (i, o) ∈ I → kindOf o.type = some k →
    (i, o) ∈ m.unsatisfied.map pair ∨ (m.moduleCall i k o.index).isSome = true
  known : ∀ u ∈ m.unsatisfied, pair u ∈ I
  open_ : (m.unsatisfied.map pair).filter (fun u => !sat E u.2) = I.filter fun u => !sat E u.2
  none_ : n = 0 → ∀ u ∈ m.unsatisfied, sat E u.oper = false

theorem find_addExport (m : Mesh) (i : Nat) (o : Operation) (ns op : Bytes) :
    (m.addExport i o).find ns op = if ns = o.ns ∧ op = o.op then some ⟨i, o.index⟩ else m.find ns op := by
  simp only [Mesh.find, Mesh.addExport, assign, Mesh.namespace_]
  by_cases h1 : ns = o.ns
  · subst h1
    by_cases h2 : op = o.op
    · simp [assign, h2]
    · simp only [h2, and_false, if_true, if_false]
      cases m.exports o.ns <;> simp [assign, h2]
  · simp [h1]

theorem sat_snoc (E : Ops) (e : Nat × Operation) (o : Operation) : sat (E ++ [e]) o = (sat E o || sameName e.2 o) := by
  simp [sat]

theorem filter_more {l l' : Ops} {E : Ops} {e : Nat × Operation}
    (h : l.filter (fun u => !sat E u.2) = l'.filter fun u => !sat E u.2) :
    l.filter (fun u => !sat (E ++ [e]) u.2) = l'.filter fun u => !sat (E ++ [e]) u.2 := by
  have key : ∀ l : Ops, l.filter (fun u => !sat (E ++ [e]) u.2) =
      (l.filter (fun u => !sat E u.2)).filter fun u => !sameName e.2 u.2 := by
    intro l
    rw [List.filter_filter]
    congr 1
    funext u
    rw [sat_snoc]
    cases sat E u.2 <;> cases sameName e.2 u.2 <;> rfl
  rw [key, key, h]

theorem export_inv {n : Nat} {E I : Ops} {m : Mesh} (h : Inv n E I m) (i : Nat) (o : Operation) :
    Inv (n + 1) (E ++ [(i, o)]) I (m.addExport i o) := by
  refine ⟨⟨?_, h.tab.lens, ?_⟩, h.complete, h.known, filter_more h.open_, by simp⟩
  · intro ns op
    rw [find_addExport, h.tab.find, List.filter_append, List.filter_cons, List.filter_nil]
    by_cases hn : ns = o.ns ∧ op = o.op
    · obtain ⟨rfl, rfl⟩ := hn
      rw [if_pos ⟨rfl, rfl⟩, if_pos (by simp)]
      simp [toDest]
    · rw [if_neg hn, if_neg (by simp; exact fun h1 h2 => hn ⟨h1.symm, h2.symm⟩)]
      simp
  · intro i' k x d hd
    obtain ⟨o', e, h1, h2, h3, h4, h5, h6⟩ := h.tab.sound i' k x d hd
    exact ⟨o', e, h1, h2, h3, by simp [h4], h5, h6⟩

theorem tab_more {E I : Ops} {m : Mesh} (h : Tab E I m) (x : Nat × Operation) : Tab E (I ++ [x]) m := by
  refine ⟨h.find, h.lens, ?_⟩
  intro i' k x d hd
  obtain ⟨o', e, h1, h2, h3, h4, h5, h6⟩ := h.sound i' k x d hd
  exact ⟨o', e, by simp [h1], h2, h3, h4, h5, h6⟩

theorem import_inv {n : Nat} {E I : Ops} {m : Mesh} (h : Inv n E I m) (i : Nat) (o : Operation)
    (hd : o.direction = 2) (hx : o.index.toNat + 1 < 2 ^ 32) :
    ∃ m', m.linkOne n i o = .ok (n, m') ∧ Inv n E (I ++ [(i, o)]) m' := by
  obtain ⟨m', a1, a2, a3, a4, a5, a6⟩ := link_spec (tab_more h.tab (i, o)) i o (by simp) hx
  unfold Mesh.linkOne
  rw [if_neg (by rw [hd]; decide), if_pos hd, a1]
  cases hs : sat E o with
  | true =>
    refine ⟨m', rfl, a4, ?_, ?_, ?_, ?_⟩
    · intro i' o' k hm hk
      rw [a3]
      rw [List.mem_append] at hm
      rcases hm with hm | hm
      · rcases h.complete i' o' k hm hk with h' | h'
        · exact Or.inl h'
        · exact Or.inr (a5 _ _ _ h')
      · rw [List.mem_singleton] at hm
        cases hm
        exact Or.inr (a6 hs k hk)
    · intro u hu
      rw [a3] at hu
      simp [h.known u hu]
    · rw [a3, List.filter_append, h.open_]
      simp [hs]
    · intro h0 u hu
      rw [a3] at hu
      exact h.none_ h0 u hu
  | false =>
    refine ⟨{ m' with unsatisfied := m'.unsatisfied ++ [⟨i, o⟩] }, rfl, ⟨a4.find, a4.lens, a4.sound⟩, ?_, ?_, ?_, ?_⟩
    · intro i' o' k hm hk
      show (i', o') ∈ (m'.unsatisfied ++ [(⟨i, o⟩ : Pending)]).map pair ∨ _
      rw [a3, List.map_append, List.mem_append]
      rw [List.mem_append] at hm
      rcases hm with hm | hm
      · rcases h.complete i' o' k hm hk with h' | h'
        · exact Or.inl (Or.inl h')
        · exact Or.inr (a5 _ _ _ h')
      · exact Or.inl (Or.inr hm)
    · intro u hu
      have hu : u ∈ m'.unsatisfied ++ [⟨i, o⟩] := hu
      rw [a3, List.mem_append] at hu
      rcases hu with hu | hu
      · simp [h.known u hu]
      · rw [List.mem_singleton] at hu
        subst hu
        simp [pair]
    · show ((m'.unsatisfied ++ [(⟨i, o⟩ : Pending)]).map pair).filter _ = _
      rw [a3, List.map_append, List.filter_append, List.filter_append, h.open_]
      rfl
    · intro h0 u hu
      have hu : u ∈ m'.unsatisfied ++ [⟨i, o⟩] := hu
      rw [a3, List.mem_append] at hu
      rcases hu with hu | hu
      · exact h.none_ h0 u hu
      · rw [List.mem_singleton] at hu
        subst hu
        exact hs

/-- Operations of one direction of one module. -/
def side (dir : UInt8) (i : Nat) (t : Table) : Ops := (t.filter (·.direction = dir)).map fun o => (i, o)

theorem linkAll_inv (i : Nat) (t : Table) : ∀ {n : Nat} {E I : Ops} {m : Mesh}, Inv n E I m →
    (∀ o ∈ t, o.index.toNat + 1 < 2 ^ 32) →
    ∃ n' m', m.linkAll n i t = .ok (n', m') ∧ Inv n' (E ++ side 1 i t) (I ++ side 2 i t) m' := by
  induction t with
  | nil => intro n E I m h _; exact ⟨n, m, rfl, by simpa [side] using h⟩
  | cons o t ih =>
    intro n E I m h hx
    have hxt : ∀ o ∈ t, o.index.toNat + 1 < 2 ^ 32 := fun o ho => hx o (by simp [ho])
    by_cases h1 : o.direction = 1
    · obtain ⟨n', m', b1, b2⟩ := ih (export_inv h i o) hxt
      refine ⟨n', m', ?_, ?_⟩
      · rw [Mesh.linkAll, Mesh.linkOne, if_pos h1]; exact b1
      · have e1 : side 1 i (o :: t) = (i, o) :: side 1 i t := by simp [side, h1]
        have e2 : side 2 i (o :: t) = side 2 i t := by simp [side, h1]
        rw [e1, e2]
        simpa using b2
    · by_cases h2 : o.direction = 2
      · obtain ⟨m1, c1, c2⟩ := import_inv h i o h2 (hx o (by simp))
        obtain ⟨n', m', b1, b2⟩ := ih c2 hxt
        refine ⟨n', m', ?_, ?_⟩
        · rw [Mesh.linkAll, c1]; exact b1
        · have e1 : side 1 i (o :: t) = side 1 i t := by simp [side, h1]
          have e2 : side 2 i (o :: t) = (i, o) :: side 2 i t := by simp [side, h2]
          rw [e1, e2]
          simpa using b2
      · obtain ⟨n', m', b1, b2⟩ := ih h hxt
        refine ⟨n', m', ?_, ?_⟩
        · rw [Mesh.linkAll, Mesh.linkOne, if_neg h1, if_neg h2]; exact b1
        · have e1 : side 1 i (o :: t) = side 1 i t := by simp [side, h1]
          have e2 : side 2 i (o :: t) = side 2 i t := by simp [side, h2]
          rw [e1, e2]
          exact b2

theorem relink_spec {E I : Ops} (us : List Pending) : ∀ {m : Mesh}, Tab E I m → (∀ u ∈ us, pair u ∈ I) →
    (∀ u ∈ us, u.oper.index.toNat + 1 < 2 ^ 32) →
    ∃ m', m.relink us = .ok (us.filter fun u => !sat E u.oper, m') ∧ Tab E I m' ∧ Mono m m' ∧
      ∀ u ∈ us, sat E u.oper = true → ∀ k, kindOf u.oper.type = some k →
        (m'.moduleCall u.instance_ k u.oper.index).isSome = true := by
  induction us with
  | nil => intro m h _ _; exact ⟨m, rfl, h, fun _ _ _ h => h, by simp⟩
  | cons u us ih =>
    intro m h hk hx
    obtain ⟨m1, a1, _, _, a4, a5, a6⟩ := link_spec h u.instance_ u.oper (hk u (by simp)) (hx u (by simp))
    obtain ⟨m', b1, b2, b3, b4⟩ := ih a4 (fun v hv => hk v (by simp [hv])) (fun v hv => hx v (by simp [hv]))
    refine ⟨m', ?_, b2, fun i k x hh => b3 i k x (a5 i k x hh), ?_⟩
    · rw [Mesh.relink, a1]
      simp only [b1]
      rw [List.filter_cons]
      cases sat E u.oper <;> rfl
    · intro v hv hs k hkk
      rw [List.mem_cons] at hv
      rcases hv with rfl | hv
      · exact b3 _ _ _ (a6 hs k hkk)
      · exact b4 v hv hs k hkk

/-- All loaded operations have an index below the largest. -/
def Indices (I : Ops) : Prop := ∀ x ∈ I, x.2.index.toNat + 1 < 2 ^ 32

theorem inv_done {n : Nat} {E I : Ops} {m : Mesh} (h : Inv n E I m) (h0 : ∀ u ∈ m.unsatisfied, sat E u.oper = false) :
    Inv 0 E I m := ⟨h.tab, h.complete, h.known, h.open_, fun _ => h0⟩

theorem linkOperations_inv (i : Nat) (t : Table) {E I : Ops} {m : Mesh} (h : Inv 0 E I m)
    (hx : ∀ o ∈ t, o.index.toNat + 1 < 2 ^ 32) (hI : Indices (I ++ side 2 i t)) :
    ∃ m', m.linkOperations i t = .ok m' ∧ Inv 0 (E ++ side 1 i t) (I ++ side 2 i t) m' := by
  obtain ⟨n, m1, a1, a2⟩ := linkAll_inv i t h hx
  unfold Mesh.linkOperations
  rw [a1]
  simp only
  split
  · obtain ⟨m', b1, b2, b3, b4⟩ := relink_spec m1.unsatisfied a2.tab a2.known
      (fun u hu => hI (pair u) (a2.known u hu))
    rw [b1]
    refine ⟨_, rfl, ⟨b2.find, b2.lens, b2.sound⟩, ?_, ?_, ?_, ?_⟩
    · intro i' o k hm hk
      show (i', o) ∈ (m1.unsatisfied.filter _).map pair ∨ _
      rcases a2.complete i' o k hm hk with hh | hh
      · obtain ⟨u, hu, he⟩ := List.mem_map.mp hh
        cases hs : sat (E ++ side 1 i t) u.oper with
        | true =>
          right
          have := b4 u hu hs k
          cases he
          exact this hk
        | false =>
          left
          exact List.mem_map.mpr ⟨u, List.mem_filter.mpr ⟨hu, by simp [hs]⟩, he⟩
      · exact Or.inr (b3 _ _ _ hh)
    · intro u hu
      exact a2.known u (List.mem_filter.mp hu).1
    · show ((m1.unsatisfied.filter _).map pair).filter _ = _
      rw [← a2.open_]
      rw [List.filter_map, List.filter_map, List.filter_filter]
      congr 1
      apply List.filter_congr
      intro u _
      simp [pair]
    · intro _ u hu
      have := (List.mem_filter.mp hu).2
      simpa using this
  · rename_i hn
    refine ⟨m1, rfl, inv_done a2 ?_⟩
    intro u hu
    apply a2.none_ ?_ u hu
    have : m1.unsatisfied.length > 0 := List.length_pos_of_mem hu
    omega

theorem operations_append (d : UInt8) (h : List Table) (t : Table) (b : Nat) :
    operations d b (h ++ [t]) = operations d b h ++ side d (b + h.length) t := by
  induction h generalizing b with
  | nil => simp [operations, side]
  | cons x h ih =>
    rw [List.cons_append, operations, operations, ih, List.append_assoc, List.length_cons]
    rw [show b + 1 + h.length = b + (h.length + 1) by omega]

theorem mem_operations {d : UInt8} {h : List Table} {b : Nat} {x : Nat × Operation} (hx : x ∈ operations d b h) :
    ∃ t ∈ h, x.2 ∈ t := by
  induction h generalizing b with
  | nil => simp [operations] at hx
  | cons t h ih =>
    rw [operations, List.mem_append] at hx
    rcases hx with hx | hx
    · obtain ⟨o, ho, rfl⟩ := List.mem_map.mp hx
      exact ⟨t, by simp, (List.mem_filter.mp ho).1⟩
    · obtain ⟨t', ht, hh⟩ := ih hx
      exact ⟨t', by simp [ht], hh⟩

/-- The operations of the loaded modules. -/
def tables (ls : List (Bytes × Table)) : List Table := ls.map (·.2)

theorem load_inv (ls : List (Bytes × Table)) : ∀ (done : List Table) (m : Mesh),
    Inv 0 (exports done) (imports done) m → (∀ t ∈ done ++ tables ls, ∀ o ∈ t, o.index.toNat + 1 < 2 ^ 32) →
    ∃ m', m.loadModules done.length ls = .ok m' ∧
      Inv 0 (exports (done ++ tables ls)) (imports (done ++ tables ls)) m' := by
  induction ls with
  | nil => intro done m h _; exact ⟨m, rfl, by simpa [tables] using h⟩
  | cons l ls ih =>
    intro done m h hx
    obtain ⟨f, t⟩ := l
    have e1 : exports (done ++ [t]) = exports done ++ side 1 done.length t := by
      have := operations_append 1 done t 0; rwa [Nat.zero_add] at this
    have e2 : imports (done ++ [t]) = imports done ++ side 2 done.length t := by
      have := operations_append 2 done t 0; rwa [Nat.zero_add] at this
    have hI : Indices (imports done ++ side 2 done.length t) := by
      rw [← e2]
      intro x hx'
      obtain ⟨t', ht, ho⟩ := mem_operations hx'
      refine hx t' ?_ _ ho
      simp only [tables, List.map_cons]
      simp only [List.mem_append, List.mem_singleton, List.mem_cons, List.not_mem_nil, or_false] at ht ⊢
      rcases ht with ht | ht
      · exact Or.inl ht
      · exact Or.inr (Or.inl ht)
    have h0 : Inv 0 (exports done) (imports done)
        ({ m with closing := m.replaced f, instances := assign m.instances f (some done.length) } : Mesh) :=
      ⟨⟨h.tab.find, h.tab.lens, h.tab.sound⟩, h.complete, h.known, h.open_, h.none_⟩
    obtain ⟨m1, a1, a2⟩ := linkOperations_inv done.length t h0 (hx t (by simp [tables])) hI
    rw [← e1, ← e2] at a2
    obtain ⟨m', b1, b2⟩ := ih (done ++ [t]) m1 a2 (by simpa [tables] using hx)
    refine ⟨m', ?_, by simpa [tables] using b2⟩
    rw [Mesh.loadModules, Mesh.loadModule, a1]
    simpa using b1

theorem new_inv : Inv 0 (exports []) (imports []) Mesh.new := by
  refine ⟨⟨?_, ?_, ?_⟩, ?_, ?_, rfl, ?_⟩
  · intro ns op; rfl
  · intro i k; exact Nat.pos_of_ne_zero (by decide)
  · intro i k x d hd
    simp [Mesh.moduleCall, Mesh.new, getSlot] at hd
  · intro i o k h; cases h
  · intro u h; cases h
  · intro _ u h; cases h

theorem loaded (ls : List (Bytes × Table)) (hx : ∀ t ∈ tables ls, ∀ o ∈ t, o.index.toNat + 1 < 2 ^ 32) :
    ∃ m, Mesh.new.loadModules 0 ls = .ok m ∧ Inv 0 (exports (tables ls)) (imports (tables ls)) m :=
  load_inv ls [] Mesh.new new_inv (by simpa using hx)

/-! ## C48 -/

/-- **C48** Once any modules have been loaded in any order, every import that some loaded module exports has a
handler, which calls an export of the same name if no two imports of the module share a place in its handler table;
the imports nobody exports are exactly the unsatisfied ones. Missing: imports with the largest index and of an unknown
kind. -/
theorem linking_complete_partial (ls : List (Bytes × Table)) (hx : ∀ t ∈ tables ls, ∀ o ∈ t, o.index.toNat + 1 < 2 ^ 32) :
    ∃ m, Mesh.new.loadModules 0 ls = .ok m ∧
      (m.unsatisfied.map fun u => (u.instance_, u.oper)) =
        (imports (tables ls)).filter (fun u => !satisfied (tables ls) u.2) ∧
      ∀ i o k, (i, o) ∈ imports (tables ls) → kindOf o.type = some k →
        (satisfied (tables ls) o = true ↔ (m.moduleCall i k o.index).isSome = true ∧ (i, o) ∉ m.unsatisfied.map pair) ∧
        ((∀ o', (i, o') ∈ imports (tables ls) → o'.type = o.type → o'.index = o.index → o' = o) →
          ∀ d, m.moduleCall i k o.index = some d →
            ∃ e, (d.instance_, e) ∈ exports (tables ls) ∧ e.index = d.index ∧ e.ns = o.ns ∧ e.op = o.op) := by
  obtain ⟨m, h1, h2⟩ := loaded ls hx
  have hun : m.unsatisfied.map pair = (imports (tables ls)).filter (fun u => !satisfied (tables ls) u.2) := by
    have := h2.open_
    rw [List.filter_eq_self.mpr] at this
    · exact this
    · intro a ha
      obtain ⟨u, hu, rfl⟩ := List.mem_map.mp ha
      simp [pair, h2.none_ rfl u hu]
  refine ⟨m, h1, hun, ?_⟩
  intro i o k hm hk
  refine ⟨⟨?_, ?_⟩, ?_⟩
  · intro hs
    have hno : (i, o) ∉ m.unsatisfied.map pair := by
      rw [hun, List.mem_filter]
      simp [hs]
    rcases h2.complete i o k hm hk with hh | hh
    · exact absurd hh hno
    · exact ⟨hh, hno⟩
  · rintro ⟨_, hno⟩
    rw [hun, List.mem_filter] at hno
    cases hs : satisfied (tables ls) o with
    | true => rfl
    | false => exact absurd ⟨hm, by simp [hs]⟩ hno
  · intro hu d hd
    obtain ⟨o', e, c1, c2, c3, c4, c5, c6⟩ := h2.tab.sound i k o.index d hd
    have ht : o'.type = o.type := by
      have hinj : ∀ a b : UInt8, kindOf a = some k → kindOf b = some k → a = b := by
        intro a b ha hb
        unfold kindOf at ha hb
        repeat' split at ha
        all_goals repeat' split at hb
        all_goals simp_all
        all_goals (rw [← ha] at hb; cases hb)
      exact hinj _ _ c2 hk
    have ho : o' = o := hu o' c1 ht c3
    subst ho
    rw [c6]
    simp only [sameName, Bool.and_eq_true, beq_iff_eq] at c5
    exact ⟨e.2, c4, rfl, c5.1, c5.2⟩

theorem operations_snd (d : UInt8) (b : Nat) (h : List Table) :
    (operations d b h).map (·.2) = h.flatten.filter (·.direction = d) := by
  induction h generalizing b with
  | nil => rfl
  | cons t h ih =>
    rw [operations, List.map_append, ih, List.flatten_cons, List.filter_append, List.map_map]
    congr 1
    exact List.map_id _

theorem satisfied_perm {h h' : List Table} (hp : h.Perm h') (o : Operation) : satisfied h o = satisfied h' o := by
  have e : ∀ h : List Table, satisfied h o = (h.flatten.filter (·.direction = 1)).any fun e => sameName e o := by
    intro h
    rw [← operations_snd 1 0 h, List.any_map]
    rfl
  rw [e, e, Bool.eq_iff_iff, List.any_eq_true, List.any_eq_true]
  have hm : ∀ x, x ∈ h.flatten.filter (·.direction = 1) ↔ x ∈ h'.flatten.filter (·.direction = 1) := fun x =>
    (hp.flatten.filter _).mem_iff
  constructor
  · rintro ⟨x, h1, h2⟩; exact ⟨x, (hm x).mp h1, h2⟩
  · rintro ⟨x, h1, h2⟩; exact ⟨x, (hm x).mpr h1, h2⟩

/-- **C48**, order of loading: two meshes that loaded the same modules in different orders have the same
unsatisfied imports. -/
theorem linking_order_partial (ls ls' : List (Bytes × Table)) (hp : ls.Perm ls')
    (hx : ∀ t ∈ tables ls, ∀ o ∈ t, o.index.toNat + 1 < 2 ^ 32) :
    ∃ m m', Mesh.new.loadModules 0 ls = .ok m ∧ Mesh.new.loadModules 0 ls' = .ok m' ∧
      (m.unsatisfied.map (·.oper)).Perm (m'.unsatisfied.map (·.oper)) := by
  have hpt : (tables ls).Perm (tables ls') := hp.map _
  obtain ⟨m, a1, a2, _⟩ := linking_complete_partial ls hx
  obtain ⟨m', b1, b2, _⟩ := linking_complete_partial ls' (fun t ht => hx t (hpt.mem_iff.mpr ht))
  refine ⟨m, m', a1, b1, ?_⟩
  have key : ∀ (ls : List (Bytes × Table)) (m : Mesh),
      (m.unsatisfied.map fun u => (u.instance_, u.oper)) =
        (imports (tables ls)).filter (fun u => !satisfied (tables ls) u.2) →
      m.unsatisfied.map (·.oper) =
        ((tables ls).flatten.filter (·.direction = 2)).filter fun o => !satisfied (tables ls) o := by
    intro ls m h
    have := congrArg (List.map (·.2)) h
    rw [List.map_map] at this
    rw [← operations_snd 2 0, List.filter_map]
    exact this
  rw [key ls m a2, key ls' m' b2]
  have hs : (fun o => !satisfied (tables ls') o) = fun o => !satisfied (tables ls) o := by
    funext o; rw [satisfied_perm hpt]
  rw [hs]
  exact (hpt.flatten.filter _).filter _

/-! ## C49 -/

/-- **C49**, calls made on the mesh: after any load history they go to the export that was loaded last. -/
theorem mesh_calls_newest (ls : List (Bytes × Table)) (hx : ∀ t ∈ tables ls, ∀ o ∈ t, o.index.toNat + 1 < 2 ^ 32) :
    ∃ m, Mesh.new.loadModules 0 ls = .ok m ∧ ∀ ns op,
      (m.call ns op).map (fun d => (d.instance_, d.index)) =
        (newest (tables ls) ns op).map fun e => (e.1, e.2.index) := by
  obtain ⟨m, h1, h2⟩ := loaded ls hx
  refine ⟨m, h1, fun ns op => ?_⟩
  rw [Mesh.call, h2.tab.find]
  simp only [newest, Option.map_map]
  rfl

/-- **C49**, part of the claim for calls between modules: they go to the newest export as long as the operation has
been exported once. Missing: operations that are loaded again, for which it is false. -/
theorem module_calls_newest_partial (ls : List (Bytes × Table))
    (hx : ∀ t ∈ tables ls, ∀ o ∈ t, o.index.toNat + 1 < 2 ^ 32) :
    ∃ m, Mesh.new.loadModules 0 ls = .ok m ∧ ∀ i o k, (i, o) ∈ imports (tables ls) → kindOf o.type = some k →
      (∀ o', (i, o') ∈ imports (tables ls) → o'.type = o.type → o'.index = o.index → o' = o) →
      ∀ e, (exports (tables ls)).filter (fun x => sameName x.2 o) = [e] →
        newest (tables ls) o.ns o.op = some e ∧ m.moduleCall i k o.index = some ⟨e.1, e.2.index⟩ := by
  obtain ⟨m, h1, _, h3⟩ := linking_complete_partial ls hx
  refine ⟨m, h1, fun i o k hm hk hu e he => ?_⟩
  have hs : satisfied (tables ls) o = true := by
    rw [satisfied, List.any_eq_true]
    have : e ∈ (exports (tables ls)).filter (fun x => sameName x.2 o) := by rw [he]; simp
    exact ⟨e, (List.mem_filter.mp this).1, (List.mem_filter.mp this).2⟩
  refine ⟨?_, ?_⟩
  · have he' : (exports (tables ls)).filter (fun x => x.2.ns == o.ns && x.2.op == o.op) = [e] := he
    rw [newest, he']
    rfl
  · obtain ⟨h4, h5⟩ := h3 i o k hm hk
    have h6 := (h4.mp hs).1
    cases hd : m.moduleCall i k o.index with
    | none => rw [hd] at h6; cases h6
    | some d =>
      obtain ⟨e', c1, c2, c3, c4⟩ := h5 hu d hd
      have : (d.instance_, e') ∈ (exports (tables ls)).filter (fun x => sameName x.2 o) :=
        List.mem_filter.mpr ⟨c1, by simp [sameName, c3, c4]⟩
      rw [he, List.mem_singleton] at this
      rw [← this]
      cases d
      simp_all

/-- An operation of the request-response kind. -/
def rr (index : UInt32) (dir : UInt8) (op : UInt8) : Operation := ⟨index, 1, dir, [110], [op]⟩

example : ∃ m, Mesh.new.loadModules 0 [([1], [rr 0 2 7, rr 1 2 8]), ([2], [rr 5 1 7])] = .ok m ∧
    m.moduleCall 0 .rr 0 = some ⟨1, 5⟩ ∧ m.unsatisfied = [⟨0, rr 1 2 8⟩] := ⟨_, rfl, by decide, by decide⟩

/-- **C48** is false for an import with the largest index, which crashes the host, and for an import of an unknown
kind, which is taken for linked and has no handler. -/
theorem linking_odd_imports_refuted :
    Mesh.new.loadModules 0 [([1], [rr 0 1 7]), ([2], [rr 0xffffffff 2 7])] = .panic ∧
      ∃ m, Mesh.new.loadModules 0 [([1], [rr 0 1 7]), ([2], [⟨0, 9, 2, [110], [7]⟩])] = .ok m ∧ m.unsatisfied = [] ∧
        ∀ k, m.moduleCall 1 k 0 = none := ⟨rfl, _, rfl, by decide, by intro k; cases k <;> decide⟩

/-- **C49** is false for calls between modules: when a module is loaded again, those that import from it keep
calling the old instance, which is about to be closed. -/
theorem module_calls_old_refuted : ∃ m, Mesh.new.loadModules 0
      [([1], [rr 0 1 7]), ([2], [rr 0 2 7]), ([1], [rr 0 1 7])] = .ok m ∧
    m.call [110] [7] = some ⟨2, 0⟩ ∧ m.moduleCall 1 .rr 0 = some ⟨0, 0⟩ ∧ m.closing = [0] :=
  ⟨_, rfl, by decide, by decide, by decide⟩

/-! ## C66 -/

/-- **C66**, part of the claim: when all operations of a name are of one kind, an import is linked to an export of
its own kind. Missing: names used with several kinds. -/
theorem link_same_kind_partial (ls : List (Bytes × Table))
    (hx : ∀ t ∈ tables ls, ∀ o ∈ t, o.index.toNat + 1 < 2 ^ 32)
    (hk : ∀ t ∈ tables ls, ∀ o ∈ t, ∀ t' ∈ tables ls, ∀ o' ∈ t', sameName o o' = true → o.type = o'.type) :
    ∃ m, Mesh.new.loadModules 0 ls = .ok m ∧ ∀ i o k d, (i, o) ∈ imports (tables ls) → kindOf o.type = some k →
      (∀ o', (i, o') ∈ imports (tables ls) → o'.type = o.type → o'.index = o.index → o' = o) →
      m.moduleCall i k o.index = some d →
        ∃ e, (d.instance_, e) ∈ exports (tables ls) ∧ e.index = d.index ∧ e.ns = o.ns ∧ e.op = o.op ∧ e.type = o.type := by
  obtain ⟨m, h1, _, h3⟩ := linking_complete_partial ls hx
  refine ⟨m, h1, fun i o k d hm hkk hu hd => ?_⟩
  obtain ⟨e, c1, c2, c3, c4⟩ := (h3 i o k hm hkk).2 hu d hd
  obtain ⟨t, ht, hot⟩ := mem_operations hm
  obtain ⟨t', ht', het⟩ := mem_operations c1
  exact ⟨e, c1, c2, c3, c4, hk t' ht' e het t ht o hot (by simp [sameName, c3, c4])⟩

/-- **C66** is false: a request-response import is linked to a fire-and-forget export of the same name, and what
is called is the request-response operation that happens to have the same index. -/
theorem link_other_kind_refuted : ∃ m, Mesh.new.loadModules 0
      [([1], [⟨0, 1, 1, [110], [9]⟩, ⟨0, 2, 1, [110], [7]⟩]), ([2], [rr 0 2 7])] = .ok m ∧
    m.moduleCall 1 .rr 0 = some ⟨0, 0⟩ ∧ m.unsatisfied = [] := ⟨_, rfl, by decide, by decide⟩

/-! ## C67 -/

/-- **C67**, part of the claim: with metadata of at least eight bytes, as every call between modules has
(instance.go:669-679), the routing index becomes that of the destination and nothing else changes.
Missing: calls made on the mesh with less metadata. -/
theorem mesh_routes_partial (d : Dest) (md : Bytes) (h : 8 ≤ md.length) :
    ∃ md', d.route (some md) = .ok (some md') ∧ Iota.Spec.Handler.opIndex md' = some d.index.toNat ∧
      md'.drop 4 = md.drop 4 ∧ md'.length = md.length := by
  refine ⟨be32 d.index ++ md.drop 4, by rw [Dest.route, if_neg (by omega)], ?_, ?_, ?_⟩
  · match md, h with
    | _ :: _ :: _ :: _ :: _ :: _ :: _ :: _ :: _, _ =>
      have e : beNat (be32 d.index) = d.index.toNat := by
        rw [be32, beNat_beBytes_of_lt (by simpa using d.index.toNat_lt)]
      have e4 : ∃ x y z w, be32 d.index = [x, y, z, w] := ⟨_, _, _, _, rfl⟩
      obtain ⟨x, y, z, w, e4⟩ := e4
      rw [← e, e4]
      simp only [List.cons_append, List.nil_append, List.drop, Spec.Handler.opIndex, beNat,
        List.length_cons, List.length_nil, Option.some.injEq]
      omega
  · have : (be32 d.index).length = 4 := by simp [be32]
    rw [List.drop_left' this]
  · have : (be32 d.index).length = 4 := by simp [be32]
    rw [List.length_append, List.length_drop, this]; omega

/-- **C67** Exactly metadata of one, two or three bytes, or empty metadata, crashes the host. -/
theorem route_panics_iff (d : Dest) (md : Option Bytes) : d.route md = .panic ↔ ∃ b, md = some b ∧ b.length < 4 := by
  match md with
  | none => simp [Dest.route]
  | some b =>
    rw [Dest.route]
    by_cases h : b.length < 4
    · rw [if_pos h]; exact ⟨fun _ => ⟨b, rfl, h⟩, fun _ => rfl⟩
    · rw [if_neg h]
      refine ⟨(fun e => nomatch e), ?_⟩
      rintro ⟨b', e, hb⟩
      cases e
      exact absurd hb h

/-- Four bytes are enough. -/
example : (Dest.mk 1 7).route (some [0, 0, 0, 1]) = .ok (some [0, 0, 0, 7]) ∧
    (Dest.mk 1 7).route (some []) = .panic := by decide

/-- **C67** is false for short metadata, which crashes the host, and for no metadata, with which the call reaches
no operation. -/
theorem mesh_short_metadata_refuted (d : Dest) :
    d.route (some [1, 2, 3]) = .panic ∧ d.route none = .ok none ∧ Iota.Spec.Handler.opIndex [] = none := ⟨rfl, rfl, rfl⟩

end Iota.Props.Mesh
