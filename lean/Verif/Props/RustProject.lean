import Verif.Spec.RustProject
import Verif.Props.RustCodegen

/-!
# C165: the files of a generated Rust project

A project generated from a document can be built just if the names of its modules are different; each operation of a service
then runs the function in its own file. What is in a file of an action is never overwritten.
-/

namespace Iota.Props.RustProject
open Iota.RustCodegen Iota.Rust Iota.RustProject Go Iota.Spec.RustCodegen Iota.Spec.RustProject
open Iota.Props.RustCodegen (variant_kind)

/-! ## Objects -/

theorem assign_keys {β : Type} (o : List (Bytes × β)) (k : Bytes) (v : β) (x : Bytes) :
    x ∈ (assign o k v).map (·.1) ↔ x = k ∨ x ∈ o.map (·.1) := by
  induction o with
  | nil => simp [assign]
  | cons p o ih =>
    obtain ⟨k', v'⟩ := p
    unfold assign
    by_cases h : k' = k
    · simp [h]
    · rw [if_neg h]
      simp only [List.map_cons, List.mem_cons]
      rw [ih]
      constructor
      · rintro (h1 | h1 | h1)
        · exact Or.inr (Or.inl h1)
        · exact Or.inl h1
        · exact Or.inr (Or.inr h1)
      · rintro (h1 | h1 | h1)
        · exact Or.inr (Or.inl h1)
        · exact Or.inl h1
        · exact Or.inr (Or.inr h1)

theorem assign_nodup {β : Type} (o : List (Bytes × β)) (k : Bytes) (v : β) (h : (o.map (·.1)).Nodup) :
    ((assign o k v).map (·.1)).Nodup := by
  induction o with
  | nil => simp [assign]
  | cons p o ih =>
    obtain ⟨k', v'⟩ := p
    simp only [List.map_cons, List.nodup_cons] at h
    unfold assign
    by_cases hk : k' = k
    · rw [if_pos hk]
      simp only [List.map_cons, List.nodup_cons]
      exact ⟨hk ▸ h.1, h.2⟩
    · rw [if_neg hk]
      simp only [List.map_cons, List.nodup_cons]
      refine ⟨fun hm => ?_, ih h.2⟩
      rcases (assign_keys o k v k').mp hm with h1 | h1
      · exact hk h1
      · exact h.1 h1

theorem mem_assign {β : Type} (o : List (Bytes × β)) (k : Bytes) (v : β) (h : (o.map (·.1)).Nodup) (x : Bytes × β) :
    x ∈ assign o k v ↔ x = (k, v) ∨ (x ∈ o ∧ x.1 ≠ k) := by
  induction o with
  | nil => simp [assign]
  | cons p o ih =>
    obtain ⟨k', v'⟩ := p
    simp only [List.map_cons, List.nodup_cons] at h
    unfold assign
    by_cases hk : k' = k
    · rw [if_pos hk]
      subst hk
      simp only [List.mem_cons]
      constructor
      · rintro (h1 | h1)
        · exact Or.inl h1
        · refine Or.inr ⟨Or.inr h1, fun he => h.1 ?_⟩
          rw [← he]
          exact List.mem_map_of_mem (f := (·.1)) h1
      · rintro (h1 | ⟨h1 | h1, h2⟩)
        · exact Or.inl h1
        · exact absurd (by rw [h1]) h2
        · exact Or.inr h1
    · rw [if_neg hk]
      simp only [List.mem_cons]
      rw [ih h.2]
      constructor
      · rintro (h1 | h1 | h1)
        · exact Or.inr ⟨Or.inl h1, by rw [h1]; exact hk⟩
        · exact Or.inl h1
        · exact Or.inr ⟨Or.inr h1.1, h1.2⟩
      · rintro (h1 | ⟨h1 | h1, h2⟩)
        · exact Or.inr (Or.inl h1)
        · exact Or.inl h1
        · exact Or.inr (Or.inr ⟨h1, h2⟩)

theorem assign_fresh {β : Type} (o : List (Bytes × β)) (k : Bytes) (v : β) (h : k ∉ o.map (·.1)) : assign o k v = o ++ [(k, v)] := by
  induction o with
  | nil => rfl
  | cons p o ih =>
    obtain ⟨k', v'⟩ := p
    simp only [List.map_cons, List.mem_cons, not_or] at h
    unfold assign
    rw [if_neg (fun he => h.1 he.symm), ih h.2]
    rfl

/-- All of these are assigned, in order. -/
def assignAll {β : Type} (o l : List (Bytes × β)) : List (Bytes × β) := l.foldl (fun o p => assign o p.1 p.2) o

theorem assignAll_append {β : Type} (o l m : List (Bytes × β)) : assignAll o (l ++ m) = assignAll (assignAll o l) m := by
  unfold assignAll
  rw [List.foldl_append]

theorem assignAll_nodup {β : Type} (l o : List (Bytes × β)) (h : (o.map (·.1)).Nodup) : ((assignAll o l).map (·.1)).Nodup := by
  induction l generalizing o with
  | nil => exact h
  | cons p l ih => exact ih _ (assign_nodup o p.1 p.2 h)

theorem assignAll_keys {β : Type} (l o : List (Bytes × β)) (x : Bytes) :
    x ∈ (assignAll o l).map (·.1) ↔ x ∈ l.map (·.1) ∨ x ∈ o.map (·.1) := by
  induction l generalizing o with
  | nil => simp [assignAll]
  | cons p l ih =>
    have : assignAll o (p :: l) = assignAll (assign o p.1 p.2) l := rfl
    rw [this, ih, assign_keys]
    simp only [List.map_cons, List.mem_cons]
    constructor
    · rintro (h | h | h)
      · exact Or.inl (Or.inr h)
      · exact Or.inl (Or.inl h)
      · exact Or.inr h
    · rintro ((h | h) | h)
      · exact Or.inr (Or.inl h)
      · exact Or.inl h
      · exact Or.inr (Or.inr h)

/-- What was assigned stays unless it is assigned again; so what is there was there before or was assigned. -/
theorem mem_assignAll {β : Type} (l o : List (Bytes × β)) (h : (o.map (·.1)).Nodup) (x : Bytes × β) (hx : x ∈ assignAll o l) :
    x ∈ l ∨ (x ∈ o ∧ x.1 ∉ l.map (·.1)) := by
  induction l generalizing o with
  | nil => exact Or.inr ⟨hx, List.not_mem_nil⟩
  | cons p l ih =>
    rcases ih _ (assign_nodup o p.1 p.2 h) hx with h1 | ⟨h1, h2⟩
    · exact Or.inl (List.mem_cons_of_mem _ h1)
    · rcases (mem_assign o p.1 p.2 h x).mp h1 with h3 | ⟨h3, h4⟩
      · exact Or.inl (by rw [h3]; exact List.mem_cons_self)
      · refine Or.inr ⟨h3, ?_⟩
        simp only [List.map_cons, List.mem_cons, not_or]
        exact ⟨h4, h2⟩

/-- Each key that was assigned is there with one of the values it was given. -/
theorem assignAll_has {β : Type} (l o : List (Bytes × β)) (h : (o.map (·.1)).Nodup) (k : Bytes) (hk : k ∈ l.map (·.1)) :
    ∃ v, (k, v) ∈ assignAll o l ∧ (k, v) ∈ l := by
  have h1 : k ∈ (assignAll o l).map (·.1) := (assignAll_keys l o k).mpr (Or.inl hk)
  obtain ⟨⟨k', v⟩, hm, rfl⟩ := List.mem_map.mp h1
  rcases mem_assignAll l o h _ hm with h2 | ⟨_, h2⟩
  · exact ⟨v, hm, h2⟩
  · exact absurd hk h2

/-! ## Paths -/

theorem path_mod (i a : Bytes) : actionPath i a ≠ modPath := by
  intro h
  have h1 : (lit "./src/actions/") ++ (i ++ lit "/" ++ a ++ lit ".rs") = lit "./src/actions/" ++ lit "mod.rs" := by
    have : modPath = lit "./src/actions/" ++ lit "mod.rs" := by decide +kernel
    rw [← this, ← h]
    unfold actionPath
    simp only [List.append_assoc]
  have h2 := List.append_cancel_left h1
  have h3 : (47 : UInt8) ∈ i ++ lit "/" ++ a ++ lit ".rs" := by
    have : (47 : UInt8) ∈ lit "/" := by decide +kernel
    simp only [List.mem_append]
    exact Or.inl (Or.inl (Or.inr this))
  rw [h2] at h3
  exact absurd h3 (by decide +kernel)

theorem path_short (i a p : Bytes) (h : p.getD 6 0 ≠ 97) : actionPath i a ≠ p := by
  intro he
  apply h
  rw [← he]
  unfold actionPath
  have h1 : lit "./src/actions/" = [46, 47, 115, 114, 99, 47, 97, 99, 116, 105, 111, 110, 115, 47] := by decide +kernel
  rw [h1]
  rfl

theorem path_lib (i a : Bytes) : actionPath i a ≠ libPath := path_short i a _ (by decide +kernel)
theorem path_error (i a : Bytes) : actionPath i a ≠ errorPath := path_short i a _ (by decide +kernel)

theorem split_slash : ∀ (x y u v : Bytes), (47 : UInt8) ∉ x → (47 : UInt8) ∉ u → x ++ 47 :: y = u ++ 47 :: v → x = u ∧ y = v
  | [], y, [], v, _, _, h => ⟨rfl, (List.cons.inj h).2⟩
  | [], y, b :: u, v, _, hu, h => absurd (by rw [← (List.cons.inj h).1]; exact List.mem_cons_self) hu
  | a :: x, y, [], v, hx, _, h => absurd (by rw [(List.cons.inj h).1]; exact List.mem_cons_self) hx
  | a :: x, y, b :: u, v, hx, hu, h => by
    have h1 := List.cons.inj h
    have h2 := split_slash x y u v (fun hm => hx (List.mem_cons_of_mem _ hm)) (fun hm => hu (List.mem_cons_of_mem _ hm)) h1.2
    exact ⟨by rw [h1.1, h2.1], h2.2⟩

theorem path_inj {i a j b : Bytes} (hi : (47 : UInt8) ∉ i) (hj : (47 : UInt8) ∉ j) (h : actionPath i a = actionPath j b) :
    i = j ∧ a = b := by
  unfold actionPath at h
  have hs : lit "/" = [47] := by decide +kernel
  rw [hs] at h
  simp only [List.append_assoc, List.cons_append, List.nil_append] at h
  have h1 := List.append_cancel_left h
  obtain ⟨h2, h3⟩ := split_slash _ _ _ _ hi hj h1
  exact ⟨h2, List.append_cancel_right h3⟩

/-! ## The plugin -/

/-- The entry of an operation. -/
def entryOf (c : Cases) (i : Bytes) (o : Oper) : Bytes × Entry :=
  (actionPath i (c.rustify o.name), ⟨.scaffold ((determineVariant o).getD .rr) i (c.rustify o.name), true⟩)

theorem planOps_spec (c : Cases) (i : Bytes) (os : List Oper) (s s' : Config) (h : planOps c i os s = some s') :
    (∀ o ∈ os, ∃ k, determineVariant o = some k) ∧ s'.generates = assignAll s.generates (os.map (entryOf c i)) ∧
      s'.modules = os.foldl (fun m o => pushTo m i (c.rustify o.name)) s.modules := by
  induction os generalizing s with
  | nil =>
    simp only [planOps, Option.some.injEq] at h
    subst h
    exact ⟨fun o ho => absurd ho List.not_mem_nil, rfl, rfl⟩
  | cons o os ih =>
    unfold planOps at h
    cases hv : determineVariant o with
    | none => simp [planOp, hv] at h
    | some k =>
      simp only [planOp, hv] at h
      obtain ⟨h1, h2, h3⟩ := ih _ h
      refine ⟨?_, ?_, ?_⟩
      · intro o' ho'
        rcases List.mem_cons.mp ho' with rfl | ho'
        · exact ⟨k, hv⟩
        · exact h1 o' ho'
      · rw [h2]
        simp only [List.map_cons, assignAll, List.foldl_cons, entryOf, hv, Option.getD_some]
      · rw [h3]
        rfl

theorem planOps_some (c : Cases) (i : Bytes) (os : List Oper) (s : Config) (h : ∀ o ∈ os, ∃ k, determineVariant o = some k) :
    ∃ s', planOps c i os s = some s' := by
  induction os generalizing s with
  | nil => exact ⟨s, rfl⟩
  | cons o os ih =>
    obtain ⟨k, hk⟩ := h o List.mem_cons_self
    unfold planOps
    simp only [planOp, hk]
    exact ih _ fun o' ho' => h o' (List.mem_cons_of_mem _ ho')

/-- The entries of the interfaces. -/
def entries (c : Cases) : List Iface → List (Bytes × Entry)
  | [] => []
  | i :: is => (if i.role = .service then i.ops.map (entryOf c (c.rustify i.name)) else []) ++ entries c is

/-- `modules` after the interfaces. -/
def modulesOf (c : Cases) : List Iface → List (Bytes × List Bytes) → List (Bytes × List Bytes)
  | [], m => m
  | i :: is, m =>
    modulesOf c is (if i.role = .service then
      i.ops.foldl (fun m o => pushTo m (c.rustify i.name) (c.rustify o.name)) (assign m (c.rustify i.name) []) else m)

theorem planIfaces_spec (c : Cases) (is : List Iface) (s s' : Config) (h : planIfaces c is s = some s') :
    (∀ i ∈ is, i.role = .service → ∀ o ∈ i.ops, ∃ k, determineVariant o = some k) ∧
      s'.generates = assignAll s.generates (entries c is) ∧ s'.modules = modulesOf c is s.modules := by
  induction is generalizing s with
  | nil =>
    simp only [planIfaces, Option.some.injEq] at h
    subst h
    exact ⟨fun o ho => absurd ho List.not_mem_nil, rfl, rfl⟩
  | cons i is ih =>
    unfold planIfaces at h
    by_cases hr : i.role = .service
    · simp only [planIface, if_pos hr] at h
      cases hp : planOps c (c.rustify i.name) i.ops ⟨s.generates, assign s.modules (c.rustify i.name) []⟩ with
      | none => simp [hp] at h
      | some s1 =>
        simp only [hp] at h
        obtain ⟨a1, a2, a3⟩ := planOps_spec _ _ _ _ _ hp
        obtain ⟨b1, b2, b3⟩ := ih _ h
        refine ⟨?_, ?_, ?_⟩
        · intro j hj hjr
          rcases List.mem_cons.mp hj with rfl | hj
          · exact a1
          · exact b1 j hj hjr
        · rw [b2, a2]
          simp only [entries, if_pos hr, assignAll_append]
        · rw [b3, a3]
          simp only [modulesOf, if_pos hr]
    · simp only [planIface, if_neg hr] at h
      obtain ⟨b1, b2, b3⟩ := ih _ h
      refine ⟨?_, ?_, ?_⟩
      · intro j hj hjr
        rcases List.mem_cons.mp hj with rfl | hj
        · exact absurd hjr hr
        · exact b1 j hj hjr
      · rw [b2]
        simp only [entries, if_neg hr, List.nil_append]
      · rw [b3]
        simp only [modulesOf, if_neg hr]

theorem planIfaces_some (c : Cases) (is : List Iface) (s : Config)
    (h : ∀ i ∈ is, i.role = .service → ∀ o ∈ i.ops, ∃ k, determineVariant o = some k) : ∃ s', planIfaces c is s = some s' := by
  induction is generalizing s with
  | nil => exact ⟨s, rfl⟩
  | cons i is ih =>
    unfold planIfaces
    by_cases hr : i.role = .service
    · simp only [planIface, if_pos hr]
      obtain ⟨s1, h1⟩ := planOps_some c (c.rustify i.name) i.ops ⟨s.generates, assign s.modules (c.rustify i.name) []⟩
        (h i List.mem_cons_self hr)
      simp only [h1]
      exact ih _ fun j hj => h j (List.mem_cons_of_mem _ hj)
    · simp only [planIface, if_neg hr]
      exact ih _ fun j hj => h j (List.mem_cons_of_mem _ hj)

/-- What is in `generates` after the plugin. -/
def planned (c : Cases) (d : Doc) : List (Bytes × Entry) :=
  entries c d.ifaces ++ [(libPath, ⟨.lib, true⟩), (errorPath, ⟨.error, true⟩), (modPath, ⟨.actions (modulesOf c d.ifaces []), false⟩)]

theorem plan_spec (c : Cases) (pre : List (Bytes × Entry)) (d : Doc) (es : List (Bytes × Entry)) (h : plan c pre d = some es) :
    (∀ i ∈ d.ifaces, i.role = .service → ∀ o ∈ i.ops, ∃ k, determineVariant o = some k) ∧ es = assignAll pre (planned c d) := by
  unfold plan at h
  cases hp : planIfaces c d.ifaces ⟨pre, []⟩ with
  | none => simp [hp] at h
  | some s =>
    simp only [hp, Option.map_some, Option.some.injEq] at h
    obtain ⟨h1, h2, h3⟩ := planIfaces_spec _ _ _ _ hp
    refine ⟨h1, ?_⟩
    rw [← h, h2, h3]
    unfold planned
    rw [assignAll_append]
    rfl

theorem mem_entries (c : Cases) (is : List Iface) (p : Bytes × Entry) :
    p ∈ entries c is ↔ ∃ i ∈ is, i.role = .service ∧ ∃ o ∈ i.ops, p = entryOf c (c.rustify i.name) o := by
  induction is with
  | nil => simp [entries]
  | cons i is ih =>
    unfold entries
    rw [List.mem_append, ih]
    constructor
    · rintro (h | ⟨j, hj, h⟩)
      · by_cases hr : i.role = .service
        · rw [if_pos hr] at h
          obtain ⟨o, ho, rfl⟩ := List.mem_map.mp h
          exact ⟨i, List.mem_cons_self, hr, o, ho, rfl⟩
        · rw [if_neg hr] at h
          exact absurd h List.not_mem_nil
      · exact ⟨j, List.mem_cons_of_mem _ hj, h⟩
    · rintro ⟨j, hj, hr, o, ho, rfl⟩
      rcases List.mem_cons.mp hj with rfl | hj
      · rw [if_pos hr]
        exact Or.inl (List.mem_map_of_mem ho)
      · exact Or.inr ⟨j, hj, hr, o, ho, rfl⟩

/-! ## The modules -/

theorem pushTo_other (m : List (Bytes × List Bytes)) (i x : Bytes) (h : i ∉ m.map (·.1)) : pushTo m i x = m := by
  unfold pushTo
  induction m with
  | nil => rfl
  | cons p m ih =>
    simp only [List.map_cons, List.mem_cons, not_or] at h
    rw [List.map_cons, ih h.2, if_neg (fun he => h.1 he.symm)]

theorem pushTo_keys (m : List (Bytes × List Bytes)) (i x : Bytes) : (pushTo m i x).map (·.1) = m.map (·.1) := by
  unfold pushTo
  rw [List.map_map]
  apply List.map_congr_left
  intro p _
  simp only [Function.comp_apply]
  split <;> rfl

theorem push_ops (c : Cases) (i : Bytes) (os : List Oper) (m : List (Bytes × List Bytes)) (xs : List Bytes) (h : i ∉ m.map (·.1)) :
    os.foldl (fun m o => pushTo m i (c.rustify o.name)) (m ++ [(i, xs)]) = m ++ [(i, xs ++ os.map fun o => c.rustify o.name)] := by
  induction os generalizing xs with
  | nil => simp
  | cons o os ih =>
    have h1 : pushTo (m ++ [(i, xs)]) i (c.rustify o.name) = m ++ [(i, xs ++ [c.rustify o.name])] := by
      have h2 := pushTo_other m i (c.rustify o.name) h
      unfold pushTo at h2 ⊢
      rw [List.map_append, h2]
      simp
    rw [List.foldl_cons, h1, ih]
    simp

/-- A service as a module of its operations. -/
def modOf (c : Cases) (i : Iface) : Bytes × List Bytes := (c.rustify i.name, opMods c i)

theorem modulesOf_spec (c : Cases) (is : List Iface) (m : List (Bytes × List Bytes))
    (h : (m.map (·.1) ++ (is.filter fun i => decide (i.role = .service)).map fun i => c.rustify i.name).Nodup) :
    modulesOf c is m = m ++ (is.filter fun i => decide (i.role = .service)).map (modOf c) := by
  induction is generalizing m with
  | nil => simp [modulesOf]
  | cons i is ih =>
    unfold modulesOf
    by_cases hr : i.role = .service
    · rw [if_pos hr]
      have hd : decide (i.role = .service) = true := decide_eq_true hr
      rw [List.filter_cons_of_pos (p := fun i : Iface => decide (i.role = .service)) hd] at h ⊢
      simp only [List.map_cons] at h ⊢
      have hi : c.rustify i.name ∉ m.map (·.1) := by
        intro hm
        have := (List.nodup_append.mp h).2.2 _ hm _ List.mem_cons_self
        exact this rfl
      rw [assign_fresh _ _ _ hi, push_ops _ _ _ _ _ hi, List.nil_append]
      rw [ih]
      · simp only [List.append_assoc, List.cons_append, List.nil_append]
        rfl
      · simpa only [List.map_append, List.map_cons, List.map_nil, List.append_assoc, List.cons_append, List.nil_append] using h
    · rw [if_neg hr]
      have hd : ¬ decide (i.role = .service) = true := fun he => hr (of_decide_eq_true he)
      rw [List.filter_cons_of_neg (p := fun i : Iface => decide (i.role = .service)) hd] at h ⊢
      exact ih m h

/-! ## What is written -/

theorem keepFirst_new (l : List (Bytes × Method)) (n : Bytes) (k : Method) (h : n ∉ l.map (·.1)) : keepFirst l n k = l ++ [(n, k)] := by
  unfold keepFirst
  rw [if_neg]
  intro ha
  obtain ⟨p, hp, hn⟩ := List.any_eq_true.mp ha
  exact h (List.mem_map.mpr ⟨p, hp, by simpa using hn⟩)

theorem details_some (os : List Oper) (l l' : List (Bytes × Method)) (h : details os l = some l') :
    ∀ o ∈ os, ∃ k, determineVariant o = some k := by
  induction os generalizing l with
  | nil => intro o ho; exact absurd ho List.not_mem_nil
  | cons o os ih =>
    unfold details at h
    cases hv : determineVariant o with
    | none => simp [hv] at h
    | some k =>
      simp only [hv] at h
      intro o' ho'
      rcases List.mem_cons.mp ho' with rfl | ho'
      · exact ⟨k, hv⟩
      · exact ih _ h o' ho'

theorem variant_fnf (o : Oper) : determineVariant o ≠ some .fnf := by
  unfold determineVariant
  split
  · simp
  · split
    · simp
    · split <;> simp

theorem keepFirst_mem (l : List (Bytes × Method)) (n : Bytes) (k : Method) (p : Bytes × Method) (h : p ∈ keepFirst l n k) :
    p ∈ l ∨ p = (n, k) := by
  unfold keepFirst at h
  split at h
  · exact Or.inl h
  · rcases List.mem_append.mp h with h | h
    · exact Or.inl h
    · exact Or.inr (List.mem_singleton.mp h)

theorem details_mem (os : List Oper) (l l' : List (Bytes × Method)) (h : details os l = some l') (p : Bytes × Method) (hp : p ∈ l') :
    p ∈ l ∨ ∃ o ∈ os, o.name = p.1 ∧ determineVariant o = some p.2 := by
  induction os generalizing l with
  | nil =>
    simp only [details, Option.some.injEq] at h
    subst h
    exact Or.inl hp
  | cons o os ih =>
    unfold details at h
    cases hv : determineVariant o with
    | none => simp [hv] at h
    | some k =>
      simp only [hv] at h
      rcases ih _ h with h1 | ⟨o', ho', h1⟩
      · rcases keepFirst_mem _ _ _ _ h1 with h2 | h2
        · exact Or.inl h2
        · exact Or.inr ⟨o, List.mem_cons_self, by rw [h2], by rw [h2]; exact hv⟩
      · exact Or.inr ⟨o', List.mem_cons_of_mem _ ho', h1⟩

theorem details_total (os : List Oper) (l : List (Bytes × Method)) (h : ∀ o ∈ os, ∃ k, determineVariant o = some k) :
    ∃ l', details os l = some l' := by
  induction os generalizing l with
  | nil => exact ⟨l, rfl⟩
  | cons o os ih =>
    obtain ⟨k, hk⟩ := h o List.mem_cons_self
    unfold details
    simp only [hk]
    exact ih _ fun o' ho' => h o' (List.mem_cons_of_mem _ ho')

theorem keepFirst_keeps (l : List (Bytes × Method)) (n : Bytes) (k : Method) (p : Bytes × Method) (h : p ∈ l) : p ∈ keepFirst l n k := by
  unfold keepFirst
  split
  · exact h
  · exact List.mem_append_left _ h

theorem keepFirst_keys (l : List (Bytes × Method)) (n : Bytes) (k : Method) (x : Bytes) (h : x ∈ (keepFirst l n k).map (·.1)) :
    x ∈ l.map (·.1) ∨ x = n := by
  obtain ⟨p, hp, rfl⟩ := List.mem_map.mp h
  rcases keepFirst_mem _ _ _ _ hp with h1 | h1
  · exact Or.inl (List.mem_map_of_mem (f := (·.1)) h1)
  · exact Or.inr (by rw [h1])

theorem details_has (os : List Oper) (l l' : List (Bytes × Method)) (h : details os l = some l')
    (hn : (l.map (·.1) ++ os.map fun o => o.name).Nodup) :
    (∀ p ∈ l, p ∈ l') ∧ ∀ o ∈ os, ∀ k, determineVariant o = some k → (o.name, k) ∈ l' := by
  induction os generalizing l with
  | nil =>
    simp only [details, Option.some.injEq] at h
    subst h
    exact ⟨fun p hp => hp, fun o ho => absurd ho List.not_mem_nil⟩
  | cons o os ih =>
    unfold details at h
    cases hv : determineVariant o with
    | none => simp [hv] at h
    | some k =>
      simp only [hv] at h
      have hf : o.name ∉ l.map (·.1) := by
        intro hm
        exact (List.nodup_append.mp hn).2.2 _ hm _ List.mem_cons_self rfl
      have he := keepFirst_new l o.name k hf
      obtain ⟨h1, h2⟩ := ih _ h (by
        rw [he]
        simpa only [List.map_append, List.map_cons, List.map_nil, List.append_assoc, List.cons_append, List.nil_append] using hn)
      refine ⟨fun p hp => h1 p (keepFirst_keeps _ _ _ _ hp), ?_⟩
      intro o' ho' k' hk'
      rcases List.mem_cons.mp ho' with rfl | ho'
      · rw [hv] at hk'
        obtain rfl : k = k' := by simpa using hk'
        exact h1 _ (by rw [he]; exact List.mem_append_right _ (List.mem_singleton.mpr rfl))
      · exact h2 o' ho' k' hk'

theorem allSome_mem {α : Type} (l : List (Option α)) (r : List α) (h : allSome l = some r) (a : α) : a ∈ r ↔ some a ∈ l := by
  rw [Props.RustCodegen.allSome_eq l r h]
  simp

theorem allSome_total {α : Type} (l : List (Option α)) (h : ∀ x ∈ l, x ≠ none) : ∃ r, allSome l = some r := by
  induction l with
  | nil => exact ⟨[], rfl⟩
  | cons x l ih =>
    obtain ⟨r, hr⟩ := ih fun y hy => h y (List.mem_cons_of_mem _ hy)
    cases x with
    | none => exact absurd rfl (h _ List.mem_cons_self)
    | some a => exact ⟨a :: r, by simp [allSome, hr]⟩

/-- The module of types of a service. -/
def typesOf (c : Cases) (i : Iface) : Bytes × List Bytes := (c.rustify i.name ++ lit "_service", opMods c i)

theorem call_shape (k : Method) (h : k ≠ .fnf) : callShape k = some (taskOf k) := by cases k <;> first | rfl | exact absurd rfl h

theorem scaffold_task (k : Method) : scaffoldShape k = taskOf k := by cases k <;> rfl

theorem writeIfaces_spec (c : Cases) (is : List Iface) (f f' : ActionsFile) (h : writeIfaces c is f = some f') :
    (∀ i ∈ is, i.role ≠ .other → ∀ o ∈ i.ops, ∃ k, determineVariant o = some k) ∧ f'.mods = f.mods ∧
      f'.typeMods = f.typeMods ++ (is.filter fun i => decide (i.role = .service)).map (typesOf c) ∧
      f'.providers = f.providers ++ (is.filter fun i => decide (i.role = .provider)).map (modOf c) ∧
      (∀ t ∈ f'.calls, t ∈ f.calls ∨ ∃ i ∈ is, i.role = .service ∧ ∃ o ∈ i.ops, ∃ k, determineVariant o = some k ∧
        t = ⟨c.rustify i.name, c.rustify o.name, c.rustify i.name ++ lit "_service", taskOf k⟩) ∧
      (∀ t ∈ f.calls, t ∈ f'.calls) ∧
      ∀ i ∈ is, i.role = .service → (i.ops.map fun o => o.name).Nodup → ∀ o ∈ i.ops, ∀ k, determineVariant o = some k →
        ⟨c.rustify i.name, c.rustify o.name, c.rustify i.name ++ lit "_service", taskOf k⟩ ∈ f'.calls := by
  induction is generalizing f with
  | nil =>
    simp only [writeIfaces, Option.some.injEq] at h
    subst h
    refine ⟨fun i hi => absurd hi List.not_mem_nil, rfl, by simp, by simp, fun t ht => Or.inl ht, fun t ht => ht,
      fun i hi => absurd hi List.not_mem_nil⟩
  | cons i is ih =>
    unfold writeIfaces at h
    cases hw : writeIface c f i with
    | none => simp [hw] at h
    | some f1 =>
      simp only [hw] at h
      obtain ⟨a1, a2, a3, a4, a5, a6, a7⟩ := ih _ h
      unfold writeIface at hw
      cases hr : i.role with
      | service =>
        simp only [hr] at hw
        cases hd : details i.ops [] with
        | none => simp [hd] at hw
        | some l =>
          simp only [hd] at hw
          cases hc : allSome (l.map (callOf c i.name)) with
          | none => simp [hc] at hw
          | some calls =>
            simp only [hc, Option.map_some, Option.some.injEq] at hw
            subst hw
            have hv := details_some _ _ _ hd
            rw [List.filter_cons_of_pos (by simp [hr]), List.filter_cons_of_neg (by simp [hr])]
            refine ⟨?_, a2, ?_, a4, ?_, ?_, ?_⟩
            · intro j hj hjr
              rcases List.mem_cons.mp hj with rfl | hj
              · exact hv
              · exact a1 j hj hjr
            · rw [a3]
              simp only [List.append_assoc, List.map_cons, List.cons_append, List.nil_append]
              rfl
            · intro t ht
              rcases a5 t ht with h1 | ⟨j, hj, h1⟩
              · rcases List.mem_append.mp h1 with h1 | h1
                · exact Or.inl h1
                · rw [allSome_mem _ _ hc] at h1
                  obtain ⟨p, hp, hpt⟩ := List.mem_map.mp h1
                  rcases details_mem _ _ _ hd p hp with h2 | ⟨o, ho, hn, hk⟩
                  · exact absurd h2 List.not_mem_nil
                  · refine Or.inr ⟨i, List.mem_cons_self, hr, o, ho, p.2, hk, ?_⟩
                    have hnf : p.2 ≠ .fnf := fun he => variant_fnf o (by rw [hk, he])
                    simp only [callOf, call_shape _ hnf, Option.map_some, Option.some.injEq] at hpt
                    rw [← hpt, hn]
              · exact Or.inr ⟨j, List.mem_cons_of_mem _ hj, h1⟩
            · intro t ht
              exact a6 t (List.mem_append_left _ ht)
            · intro j hj hjr hjn o ho k hk
              rcases List.mem_cons.mp hj with rfl | hj
              · apply a6
                apply List.mem_append_right
                rw [allSome_mem _ _ hc]
                refine List.mem_map.mpr ⟨(o.name, k), (details_has _ _ _ hd (by simpa using hjn)).2 o ho k hk, ?_⟩
                have hnf : k ≠ .fnf := fun he => variant_fnf o (by rw [hk, he])
                simp only [callOf, call_shape _ hnf, Option.map_some]
              · exact a7 j hj hjr hjn o ho k hk
      | provider =>
        simp only [hr] at hw
        split at hw
        · rename_i hall
          simp only [Option.some.injEq] at hw
          subst hw
          rw [List.filter_cons_of_neg (by simp [hr]), List.filter_cons_of_pos (by simp [hr])]
          refine ⟨?_, a2, a3, ?_, ?_, a6, ?_⟩
          · intro j hj hjr
            rcases List.mem_cons.mp hj with rfl | hj
            · intro o ho
              exact Option.isSome_iff_exists.mp (List.all_eq_true.mp hall o ho)
            · exact a1 j hj hjr
          · rw [a4]
            simp only [List.append_assoc, List.map_cons, List.cons_append, List.nil_append]
            rfl
          · intro t ht
            rcases a5 t ht with h1 | ⟨j, hj, h1⟩
            · exact Or.inl h1
            · exact Or.inr ⟨j, List.mem_cons_of_mem _ hj, h1⟩
          · intro j hj hjr hjn
            rcases List.mem_cons.mp hj with rfl | hj
            · exact absurd (hr.symm.trans hjr) (by decide)
            · exact a7 j hj hjr hjn
        · exact absurd hw (by simp)
      | other =>
        simp only [hr, Option.some.injEq] at hw
        subst hw
        rw [List.filter_cons_of_neg (by simp [hr]), List.filter_cons_of_neg (by simp [hr])]
        refine ⟨?_, a2, a3, a4, ?_, a6, ?_⟩
        · intro j hj hjr
          rcases List.mem_cons.mp hj with rfl | hj
          · exact absurd hr hjr
          · exact a1 j hj hjr
        · intro t ht
          rcases a5 t ht with h1 | ⟨j, hj, h1⟩
          · exact Or.inl h1
          · exact Or.inr ⟨j, List.mem_cons_of_mem _ hj, h1⟩
        · intro j hj hjr hjn
          rcases List.mem_cons.mp hj with rfl | hj
          · exact absurd (hr.symm.trans hjr) (by decide)
          · exact a7 j hj hjr hjn

theorem writeIfaces_total (c : Cases) (is : List Iface) (f : ActionsFile)
    (h : ∀ i ∈ is, i.role ≠ .other → ∀ o ∈ i.ops, ∃ k, determineVariant o = some k) : ∃ f', writeIfaces c is f = some f' := by
  induction is generalizing f with
  | nil => exact ⟨f, rfl⟩
  | cons i is ih =>
    have hi := h i List.mem_cons_self
    have hrest : ∀ f1, ∃ f', writeIfaces c is f1 = some f' := fun f1 => ih f1 fun j hj => h j (List.mem_cons_of_mem _ hj)
    have : ∃ f1, writeIface c f i = some f1 := by
      unfold writeIface
      cases hr : i.role with
      | service =>
        obtain ⟨l, hl⟩ := details_total i.ops [] (hi (by rw [hr]; decide))
        simp only [hl]
        obtain ⟨r, hrr⟩ := allSome_total (l.map (callOf c i.name)) (by
          intro x hx
          obtain ⟨p, hp, rfl⟩ := List.mem_map.mp hx
          rcases details_mem _ _ _ hl p hp with h2 | ⟨o, ho, hn, hk⟩
          · exact absurd h2 List.not_mem_nil
          · have hnf : p.2 ≠ .fnf := fun he => variant_fnf o (by rw [hk, he])
            simp [callOf, call_shape _ hnf])
        simp only [hrr, Option.map_some]
        exact ⟨_, rfl⟩
      | provider =>
        have : (i.ops.all fun o => (determineVariant o).isSome) = true :=
          List.all_eq_true.mpr fun o ho => by
            obtain ⟨k, hk⟩ := hi (by rw [hr]; decide) o ho
            rw [hk]; rfl
        simp only [this, if_true]
        exact ⟨_, rfl⟩
      | other => exact ⟨f, rfl⟩
    obtain ⟨f1, h1⟩ := this
    unfold writeIfaces
    simp only [h1]
    exact hrest f1

/-! ## The files -/

theorem writeAll_spec (c : Cases) (d : Doc) (es : List (Bytes × Entry)) (disk disk' : Disk) (hn : (es.map (·.1)).Nodup)
    (h : writeAll c d es disk = some disk') :
    (∀ p ∈ es, (p.2.ifNotExists = true ∧ (disk p.1).isSome = true ∧ disk' p.1 = disk p.1) ∨
      (¬ (p.2.ifNotExists = true ∧ (disk p.1).isSome = true) ∧ ∃ f, content c d p.2.content = some f ∧ disk' p.1 = some f)) ∧
    ∀ q, q ∉ es.map (·.1) → disk' q = disk q := by
  induction es generalizing disk with
  | nil =>
    simp only [writeAll, Option.some.injEq] at h
    subst h
    exact ⟨fun p hp => absurd hp List.not_mem_nil, fun q _ => rfl⟩
  | cons p es ih =>
    simp only [List.map_cons, List.nodup_cons] at hn
    unfold writeAll at h
    cases hw : writeEntry c d disk p with
    | none => simp [hw] at h
    | some d1 =>
      simp only [hw] at h
      obtain ⟨h1, h2⟩ := ih _ hn.2 h
      have hne : ∀ q ∈ es, q.1 ≠ p.1 := fun q hq he => hn.1 (by rw [← he]; exact List.mem_map_of_mem (f := (·.1)) hq)
      have hsame : ∀ q, q ≠ p.1 → d1 q = disk q := by
        intro q hq
        unfold writeEntry at hw
        split at hw
        · simp only [Option.some.injEq] at hw
          rw [hw]
        · cases hc : content c d p.2.content with
          | none => simp [hc] at hw
          | some f =>
            simp only [hc, Option.map_some, Option.some.injEq] at hw
            rw [← hw]
            simp only [if_neg hq]
      refine ⟨?_, ?_⟩
      · intro q hq
        rcases List.mem_cons.mp hq with rfl | hq
        · have h3 := h2 q.1 hn.1
          unfold writeEntry at hw
          split at hw
          · rename_i hs
            simp only [Option.some.injEq] at hw
            subst hw
            exact Or.inl ⟨hs.1, hs.2, h3⟩
          · rename_i hs
            cases hc : content c d q.2.content with
            | none => simp [hc] at hw
            | some f =>
              simp only [hc, Option.map_some, Option.some.injEq] at hw
              refine Or.inr ⟨hs, f, rfl, ?_⟩
              rw [h3, ← hw]
              simp
        · have h3 := h1 q hq
          rw [hsame _ (hne q hq)] at h3
          exact h3
      · intro q hq
        simp only [List.map_cons, List.mem_cons, not_or] at hq
        rw [h2 q hq.2, hsame q hq.1]

theorem writeAll_total (c : Cases) (d : Doc) (es : List (Bytes × Entry)) (disk : Disk)
    (h : ∀ p ∈ es, content c d p.2.content ≠ none) : ∃ disk', writeAll c d es disk = some disk' := by
  induction es generalizing disk with
  | nil => exact ⟨disk, rfl⟩
  | cons p es ih =>
    have : ∃ d1, writeEntry c d disk p = some d1 := by
      unfold writeEntry
      split
      · exact ⟨_, rfl⟩
      · cases hc : content c d p.2.content with
        | none => exact absurd hc (h p List.mem_cons_self)
        | some f => exact ⟨_, rfl⟩
    obtain ⟨d1, h1⟩ := this
    unfold writeAll
    simp only [h1]
    exact ih _ fun q hq => h q (List.mem_cons_of_mem _ hq)

theorem kinds_variant (d : Doc) :
    Kinds d ↔ ∀ i ∈ d.ifaces, i.role ≠ .other → ∀ o ∈ i.ops, ∃ k, determineVariant o = some k := by
  unfold Kinds
  constructor
  · intro h i hi hr o ho
    have := h i hi hr o ho
    rw [← variant_kind] at this
    exact Option.ne_none_iff_exists'.mp this
  · intro h i hi hr o ho
    rw [← variant_kind]
    exact Option.ne_none_iff_exists'.mpr (h i hi hr o ho)

/-- What a run has done, entry by entry. -/
structure Ran (c : Cases) (pre : List (Bytes × Entry)) (d : Doc) (disk disk' : Disk) (f : ActionsFile) : Prop where
  plan : plan c pre d = some (assignAll pre (planned c d))
  nodup : ((assignAll pre (planned c d)).map (·.1)).Nodup
  file : actionsFile c (modulesOf c d.ifaces []) d = some f
  kinds : ∀ i ∈ d.ifaces, i.role ≠ .other → ∀ o ∈ i.ops, ∃ k, determineVariant o = some k
  each : ∀ p ∈ assignAll pre (planned c d), (p.2.ifNotExists = true ∧ (disk p.1).isSome = true ∧ disk' p.1 = disk p.1) ∨
      (¬ (p.2.ifNotExists = true ∧ (disk p.1).isSome = true) ∧ ∃ g, content c d p.2.content = some g ∧ disk' p.1 = some g)
  rest : ∀ q, q ∉ (assignAll pre (planned c d)).map (·.1) → disk' q = disk q
  actions : disk' modPath = some (.actions f)

theorem lib_error : libPath ≠ errorPath := by decide +kernel
theorem lib_mod : libPath ≠ modPath := by decide +kernel
theorem error_mod : errorPath ≠ modPath := by decide +kernel

theorem planned_mod (c : Cases) (d : Doc) (e : Entry) (h : (modPath, e) ∈ planned c d) :
    e = ⟨.actions (modulesOf c d.ifaces []), false⟩ := by
  unfold planned at h
  rcases List.mem_append.mp h with h | h
  · obtain ⟨i, _, _, o, _, he⟩ := (mem_entries _ _ _).mp h
    exact absurd (congrArg Prod.fst he).symm (path_mod _ _)
  · simp only [List.mem_cons, List.not_mem_nil, or_false] at h
    rcases h with h | h | h
    · exact absurd (congrArg Prod.fst h).symm lib_mod
    · exact absurd (congrArg Prod.fst h).symm error_mod
    · exact (Prod.mk.inj h).2

theorem planned_path (c : Cases) (d : Doc) (i a : Bytes) (e : Entry) (h : (actionPath i a, e) ∈ planned c d) :
    ∃ s ∈ d.ifaces, s.role = .service ∧ ∃ o ∈ s.ops, (actionPath i a, e) = entryOf c (c.rustify s.name) o := by
  unfold planned at h
  rcases List.mem_append.mp h with h | h
  · exact (mem_entries _ _ _).mp h
  · simp only [List.mem_cons, List.not_mem_nil, or_false] at h
    rcases h with h | h | h
    · exact absurd (Prod.mk.inj h).1 (path_lib _ _)
    · exact absurd (Prod.mk.inj h).1 (path_error _ _)
    · exact absurd (Prod.mk.inj h).1 (path_mod _ _)

theorem ran {c : Cases} {pre : List (Bytes × Entry)} {d : Doc} {disk disk' : Disk} (hpre : (pre.map (·.1)).Nodup)
    (h : run c pre d disk = some disk') : ∃ f, Ran c pre d disk disk' f := by
  unfold run at h
  cases hp : plan c pre d with
  | none => simp [hp] at h
  | some es =>
    simp only [hp] at h
    obtain ⟨h1, rfl⟩ := plan_spec _ _ _ _ hp
    have hn := assignAll_nodup (planned c d) pre hpre
    obtain ⟨h2, h3⟩ := writeAll_spec _ _ _ _ _ hn h
    obtain ⟨e, he, he'⟩ := assignAll_has (planned c d) pre hpre modPath (by simp [planned])
    obtain rfl := planned_mod c d e he'
    rcases h2 _ he with ⟨hx, _⟩ | ⟨_, g, hg, hd⟩
    · exact absurd hx (by simp)
    · cases hf : actionsFile c (modulesOf c d.ifaces []) d with
      | none => simp [content, hf] at hg
      | some f =>
        simp only [content, hf, Option.map_some, Option.some.injEq] at hg
        subst hg
        exact ⟨f, hp, hn, hf, (writeIfaces_spec c d.ifaces _ _ hf).1, h2, h3, hd⟩

/-! ## The theorems -/

/-- The generator finishes just if every operation of a service or provider has a kind. -/
theorem runs_iff {c : Cases} {pre : List (Bytes × Entry)} {d : Doc} {disk : Disk} (hpre : (pre.map (·.1)).Nodup) :
    (∃ disk', run c pre d disk = some disk') ↔ Kinds d := by
  rw [kinds_variant]
  constructor
  · rintro ⟨disk', h⟩
    obtain ⟨f, hr⟩ := ran hpre h
    exact hr.kinds
  · intro hk
    obtain ⟨s, hs⟩ := planIfaces_some c d.ifaces ⟨pre, []⟩ fun i hi hr => hk i hi (by rw [hr]; decide)
    have hp : plan c pre d = some (assignAll pre (planned c d)) := by
      have : ∃ es, plan c pre d = some es := ⟨_, by unfold plan; rw [hs]; rfl⟩
      obtain ⟨es, hes⟩ := this
      rw [hes, (plan_spec _ _ _ _ hes).2]
    unfold run
    simp only [hp]
    apply writeAll_total
    intro p hm
    cases hc : p.2.content with
    | actions m =>
      obtain ⟨f, hf⟩ := writeIfaces_total c d.ifaces ⟨m, [], [], []⟩ hk
      simp [content, actionsFile, hf]
    | _ => simp [content]

/-- A file of an action of a service that is there is left as it is, and so are the files that nothing is generated for. -/
theorem actions_kept {c : Cases} {pre : List (Bytes × Entry)} {d : Doc} {disk disk' : Disk} (hpre : (pre.map (·.1)).Nodup)
    (h : run c pre d disk = some disk') {i : Iface} (hi : i ∈ of .service d) {o : Oper} (ho : o ∈ i.ops) {x : File}
    (hx : disk (fileOf c i o) = some x) : disk' (fileOf c i o) = some x := by
  obtain ⟨f, hr⟩ := ran hpre h
  unfold Spec.RustProject.of at hi
  obtain ⟨hi, hir⟩ := List.mem_filter.mp hi
  have hm : fileOf c i o ∈ (planned c d).map (·.1) := by
    unfold planned
    rw [List.map_append]
    exact List.mem_append_left _ (List.mem_map.mpr ⟨entryOf c (c.rustify i.name) o,
      (mem_entries _ _ _).mpr ⟨i, hi, of_decide_eq_true hir, o, ho, rfl⟩, rfl⟩)
  obtain ⟨e, he, he'⟩ := assignAll_has (planned c d) pre hpre _ hm
  obtain ⟨s, _, _, o', _, hs⟩ := planned_path c d _ _ e he'
  have hif : e.ifNotExists = true := by rw [(Prod.mk.inj hs).2]
  rcases hr.each _ he with ⟨_, _, h3⟩ | ⟨h3, _⟩
  · rw [h3, hx]
  · exact absurd ⟨hif, by simp [hx]⟩ h3

/-- The scaffold of an operation, where there was no file. -/
theorem own_scaffold {c : Cases} {pre : List (Bytes × Entry)} {d : Doc} {disk disk' : Disk} {f : ActionsFile}
    (hpre : (pre.map (·.1)).Nodup) (hr : Ran c pre d disk disk' f) (hpl : Plain c)
    (hs : ((of .service d).map fun i => c.rustify i.name).Nodup)
    (hop : ∀ i ∈ d.ifaces, i.role ≠ .other → (i.ops.map fun o => c.rustify o.name).Nodup)
    {i : Iface} (hi : i ∈ of .service d) {o : Oper} (ho : o ∈ i.ops) (hx : disk (fileOf c i o) = none) {k : Method}
    (hk : determineVariant o = some k) :
    disk' (fileOf c i o) = some (.task (c.rustify i.name ++ lit "_service") (c.rustify o.name) (taskOf k)) := by
  have hi' := hi
  unfold Spec.RustProject.of at hi
  obtain ⟨hi, hir⟩ := List.mem_filter.mp hi
  have hm : fileOf c i o ∈ (planned c d).map (·.1) := by
    unfold planned
    rw [List.map_append]
    exact List.mem_append_left _ (List.mem_map.mpr ⟨entryOf c (c.rustify i.name) o,
      (mem_entries _ _ _).mpr ⟨i, hi, of_decide_eq_true hir, o, ho, rfl⟩, rfl⟩)
  obtain ⟨e, he, he'⟩ := assignAll_has (planned c d) pre hpre _ hm
  obtain ⟨s, hs1, hs2, o', ho', hse⟩ := planned_path c d _ _ e he'
  have hp := path_inj (hpl _) (hpl _) (Prod.mk.inj hse).1
  have hsi : s = i := by
    apply Props.RustCodegen.nodup_unique (fun i : Iface => c.rustify i.name) _ hs s i _ hi' hp.1.symm
    unfold Spec.RustProject.of
    exact List.mem_filter.mpr ⟨hs1, decide_eq_true hs2⟩
  subst hsi
  have hoo : o' = o :=
    Props.RustCodegen.nodup_unique (fun o : Oper => c.rustify o.name) _ (hop s hs1 (by rw [hs2]; decide)) o' o ho' ho hp.2.symm
  subst hoo
  obtain ⟨_, rfl⟩ := Prod.mk.inj hse
  rcases hr.each _ he with ⟨_, h2, _⟩ | ⟨_, g, hg, h2⟩
  · rw [hx] at h2
    exact absurd h2 (by simp)
  · simp only [content, hk, Option.getD_some, Option.some.injEq] at hg
    rw [h2, ← hg, scaffold_task]

theorem nodup_of_map {α β : Type} (f : α → β) {l : List α} (h : (l.map f).Nodup) : l.Nodup := by
  induction l with
  | nil => exact List.nodup_nil
  | cons a l ih =>
    simp only [List.map_cons, List.nodup_cons] at h ⊢
    exact ⟨fun hm => h.1 (List.mem_map_of_mem hm), ih h.2⟩

theorem top_eq {c : Cases} {pre : List (Bytes × Entry)} {d : Doc} {disk disk' : Disk} {f : ActionsFile}
    (hr : Ran c pre d disk disk' f) (hs : ((of .service d).map fun i => c.rustify i.name).Nodup) :
    f.mods = (of .service d).map (modOf c) ∧ f.top = topNames c d := by
  obtain ⟨_, h1, h2, h3, _⟩ := writeIfaces_spec c d.ifaces _ _ hr.file
  have hm := modulesOf_spec c d.ifaces [] (by simpa [Spec.RustProject.of] using hs)
  have h4 : f.mods = (of .service d).map (modOf c) := by rw [h1, hm]; rfl
  refine ⟨h4, ?_⟩
  unfold ActionsFile.top topNames
  rw [h4, h2, h3]
  simp only [List.nil_append, List.map_map]
  rfl

theorem declares_map {α : Type} (l : List α) (g : α → Bytes × List Bytes) (i a : Bytes) :
    declares (l.map g) i a ↔ ∃ x ∈ l, (g x).1 = i ∧ a ∈ (g x).2 := by
  unfold declares
  constructor
  · rintro ⟨as, hm, ha⟩
    obtain ⟨x, hx, he⟩ := List.mem_map.mp hm
    exact ⟨x, hx, by rw [he], by rw [he]; exact ha⟩
  · rintro ⟨x, hx, h1, h2⟩
    exact ⟨(g x).2, List.mem_map.mpr ⟨x, hx, by rw [← h1]⟩, h2⟩

/-- Without files of actions the project that is generated can be built just if the modules have different names. -/
theorem builds_iff {c : Cases} {pre : List (Bytes × Entry)} {d : Doc} {disk disk' : Disk} (hpre : (pre.map (·.1)).Nodup)
    (hpl : Plain c) (hfr : Fresh disk) (h : run c pre d disk = some disk') : Accepted disk' ↔ Apart c d := by
  obtain ⟨f, hr⟩ := ran hpre h
  obtain ⟨_, h1, h2, h3, h4, _, h5⟩ := writeIfaces_spec c d.ifaces _ _ hr.file
  constructor
  · intro ha
    obtain ⟨f', hf', htop, hin, _⟩ := ha.actions
    rw [hr.actions] at hf'
    obtain rfl : f = f' := by simpa using hf'
    have htm : (f.typeMods.map (·.1)).Nodup := by
      unfold ActionsFile.top at htop
      exact (List.nodup_append.mp (List.nodup_append.mp htop).1).2.1
    have hs : ((of .service d).map fun i => c.rustify i.name).Nodup := by
      rw [h2] at htm
      simp only [List.nil_append, List.map_map] at htm
      apply nodup_of_map (fun b => b ++ lit "_service")
      rw [List.map_map]
      exact htm
    refine ⟨by rw [← (top_eq hr hs).2]; exact htop, ?_⟩
    intro i hi hir
    cases hrole : i.role with
    | other => exact absurd hrole hir
    | service =>
      have := hin (typesOf c i) (by
        apply List.mem_append_left
        apply List.mem_append_right
        rw [h2]
        simp only [List.nil_append]
        exact List.mem_map_of_mem (List.mem_filter.mpr ⟨hi, decide_eq_true hrole⟩))
      exact this
    | provider =>
      have := hin (modOf c i) (by
        apply List.mem_append_right
        rw [h3]
        simp only [List.nil_append]
        exact List.mem_map_of_mem (List.mem_filter.mpr ⟨hi, decide_eq_true hrole⟩))
      exact this
  · intro ha
    have hs : ((of .service d).map fun i => c.rustify i.name).Nodup := by
      have := ha.top
      unfold topNames at this
      exact (List.nodup_append.mp (List.nodup_append.mp this).1).1
    obtain ⟨hmods, htop⟩ := top_eq hr hs
    have hsome : ∀ q ∈ (planned c d).map (·.1), (disk' q).isSome = true := by
      intro q hq
      obtain ⟨e, he, _⟩ := assignAll_has (planned c d) pre hpre q hq
      rcases hr.each _ he with ⟨_, h7, h8⟩ | ⟨_, g, _, h8⟩
      · rw [h8]; exact h7
      · rw [h8]; rfl
    have hty : ∀ i ∈ of .service d, ∀ o ∈ i.ops, declares f.typeMods (c.rustify i.name ++ lit "_service") (c.rustify o.name) := by
      intro i hi o ho
      rw [h2]
      simp only [List.nil_append]
      exact (declares_map _ _ _ _).mpr ⟨i, hi, rfl, List.mem_map.mpr ⟨o, ho, rfl⟩⟩
    have hown : ∀ i a, declares f.mods i a → ∃ s ∈ of .service d, ∃ o ∈ s.ops, ∃ k, c.rustify s.name = i ∧ c.rustify o.name = a ∧
        determineVariant o = some k ∧ disk' (actionPath i a) = some (.task (i ++ lit "_service") a (taskOf k)) := by
      intro i a hd
      rw [hmods] at hd
      obtain ⟨s, hsm, rfl, hb⟩ := (declares_map _ _ _ _).mp hd
      obtain ⟨o, ho, rfl⟩ := List.mem_map.mp hb
      have hs' := List.mem_filter.mp hsm
      obtain ⟨k, hk⟩ := hr.kinds s hs'.1 (by rw [of_decide_eq_true hs'.2]; decide) o ho
      exact ⟨s, hsm, o, ho, k, rfl, rfl, hk, own_scaffold hpre hr hpl hs ha.ops hsm ho (hfr _ _) hk⟩
    refine ⟨hsome _ (by simp [planned]), hsome _ (by simp [planned]), f, hr.actions, by rw [htop]; exact ha.top, ?_, ?_, ?_, ?_⟩
    · intro p hp
      rcases List.mem_append.mp hp with hp | hp
      · rcases List.mem_append.mp hp with hp | hp
        · rw [hmods] at hp
          obtain ⟨i, hi, rfl⟩ := List.mem_map.mp hp
          have hi := List.mem_filter.mp hi
          exact ha.ops i hi.1 (by rw [of_decide_eq_true hi.2]; decide)
        · rw [h2] at hp
          simp only [List.nil_append] at hp
          obtain ⟨i, hi, rfl⟩ := List.mem_map.mp hp
          have hi := List.mem_filter.mp hi
          exact ha.ops i hi.1 (by rw [of_decide_eq_true hi.2]; decide)
      · rw [h3] at hp
        simp only [List.nil_append] at hp
        obtain ⟨i, hi, rfl⟩ := List.mem_map.mp hp
        have hi := List.mem_filter.mp hi
        exact ha.ops i hi.1 (by rw [of_decide_eq_true hi.2]; decide)
    · intro i a hd
      obtain ⟨_, _, _, _, _, _, _, _, h9⟩ := hown i a hd
      rw [h9]; rfl
    · intro i a ty b s hd hf
      obtain ⟨sv, hsv, o, ho, k, rfl, rfl, _, h9⟩ := hown i a hd
      rw [h9] at hf
      simp only [Option.some.injEq, File.task.injEq] at hf
      rw [← hf.1, ← hf.2.1]
      exact hty sv hsv o ho
    · intro t ht
      rcases h4 t ht with h6 | ⟨i, hi, hir, o, ho, k, hk, rfl⟩
      · exact absurd h6 List.not_mem_nil
      · have hi' : i ∈ of .service d := List.mem_filter.mpr ⟨hi, decide_eq_true hir⟩
        refine ⟨?_, hty i hi' o ho, Or.inr (own_scaffold hpre hr hpl hs ha.ops hi' ho (hfr _ _) hk)⟩
        rw [hmods]
        exact (declares_map _ _ _ _).mpr ⟨i, hi', rfl, List.mem_map.mpr ⟨o, ho, rfl⟩⟩

/-- Each operation of a service is called once under its name, with the arguments of its kind, and the function that is called is
the one in the file of this operation. -/
theorem calls_own_file {c : Cases} {pre : List (Bytes × Entry)} {d : Doc} {disk disk' : Disk} (hpre : (pre.map (·.1)).Nodup)
    (hpl : Plain c) (hfr : Fresh disk) (hap : Apart c d) (h : run c pre d disk = some disk') {i : Iface} (hi : i ∈ of .service d)
    {o : Oper} (ho : o ∈ i.ops) :
    ∃ k f, kindOf o = some k ∧ disk' modPath = some (.actions f) ∧
      ⟨c.rustify i.name, c.rustify o.name, c.rustify i.name ++ lit "_service", taskOf k⟩ ∈ f.calls ∧
      (∀ t ∈ f.calls, t.iface = c.rustify i.name → t.action = c.rustify o.name → t.shape = taskOf k) ∧
      disk' (fileOf c i o) = some (.task (c.rustify i.name ++ lit "_service") (c.rustify o.name) (taskOf k)) := by
  obtain ⟨f, hr⟩ := ran hpre h
  obtain ⟨_, h1, h2, h3, h4, _, h5⟩ := writeIfaces_spec c d.ifaces _ _ hr.file
  have hi' := List.mem_filter.mp hi
  have hrole : i.role = .service := of_decide_eq_true hi'.2
  have hne : i.role ≠ .other := by rw [hrole]; decide
  obtain ⟨k, hk⟩ := hr.kinds i hi'.1 hne o ho
  have hs : ((of .service d).map fun i => c.rustify i.name).Nodup := by
    have := hap.top
    unfold topNames at this
    exact (List.nodup_append.mp (List.nodup_append.mp this).1).1
  have hraw : (i.ops.map fun o => o.name).Nodup := by
    apply nodup_of_map c.rustify
    rw [List.map_map]
    exact hap.ops i hi'.1 hne
  refine ⟨k, f, by rw [← variant_kind]; exact hk, hr.actions, h5 i hi'.1 hrole hraw o ho k hk, ?_,
    own_scaffold hpre hr hpl hs hap.ops hi ho (hfr _ _) hk⟩
  intro t ht hti hta
  rcases h4 t ht with h6 | ⟨j, hj, hjr, o', ho', k', hk', rfl⟩
  · exact absurd h6 List.not_mem_nil
  · have hji : j = i := Props.RustCodegen.nodup_unique (fun i : Iface => c.rustify i.name) _ hs j i
      (List.mem_filter.mpr ⟨hj, decide_eq_true hjr⟩) hi hti
    subst hji
    have hoo : o' = o := Props.RustCodegen.nodup_unique (fun o : Oper => c.rustify o.name) _ (hap.ops j hj hne) o' o ho' ho hta
    subst hoo
    rw [hk] at hk'
    obtain rfl : k = k' := by simpa using hk'
    rfl

/-- Every file of an action that the plugin has generated belongs to a module that is declared. -/
theorem files_declared {c : Cases} {pre : List (Bytes × Entry)} {d : Doc} {disk disk' : Disk} (hpre : (pre.map (·.1)).Nodup)
    (hfr : Fresh disk) (hap : Apart c d) (h : run c pre d disk = some disk') {i a : Bytes} (hu : actionPath i a ∉ pre.map (·.1))
    (hi : (47 : UInt8) ∉ i) (hpl : Plain c) (hx : (disk' (actionPath i a)).isSome = true) :
    ∃ f, disk' modPath = some (.actions f) ∧ declares f.mods i a := by
  obtain ⟨f, hr⟩ := ran hpre h
  have hs : ((of .service d).map fun i => c.rustify i.name).Nodup := by
    have := hap.top
    unfold topNames at this
    exact (List.nodup_append.mp (List.nodup_append.mp this).1).1
  refine ⟨f, hr.actions, ?_⟩
  by_cases hq : actionPath i a ∈ (assignAll pre (planned c d)).map (·.1)
  · rcases (assignAll_keys _ _ _).mp hq with hm | hm
    · obtain ⟨⟨q, e⟩, hm, rfl⟩ := List.mem_map.mp hm
      obtain ⟨s, hs1, hs2, o, ho, he⟩ := planned_path c d i a e hm
      obtain ⟨rfl, rfl⟩ := path_inj hi (hpl _) (Prod.mk.inj he).1
      rw [(top_eq hr hs).1]
      exact (declares_map _ _ _ _).mpr ⟨s, List.mem_filter.mpr ⟨hs1, decide_eq_true hs2⟩, rfl, List.mem_map.mpr ⟨o, ho, rfl⟩⟩
    · exact absurd hm hu
  · rw [hr.rest _ hq, hfr] at hx
    exact absurd hx (by simp)

/-- Running the generator again changes nothing. -/
theorem run_again {c : Cases} {pre : List (Bytes × Entry)} {d : Doc} {disk disk' : Disk} (hpre : (pre.map (·.1)).Nodup)
    (h : run c pre d disk = some disk') : run c pre d disk' = some disk' := by
  obtain ⟨f, hr⟩ := ran hpre h
  obtain ⟨disk2, h2⟩ := (runs_iff (c := c) (disk := disk') hpre).mpr ((kinds_variant d).mpr hr.kinds)
  obtain ⟨f2, hr2⟩ := ran hpre h2
  rw [h2]
  congr 1
  funext q
  by_cases hq : q ∈ (assignAll pre (planned c d)).map (·.1)
  · obtain ⟨p, hp, rfl⟩ := List.mem_map.mp hq
    rcases hr2.each p hp with ⟨_, _, h3⟩ | ⟨hno, g, hg, h3⟩
    · exact h3
    · rcases hr.each p hp with ⟨ha, hb, h4⟩ | ⟨_, g', hg', h4⟩
      · exact absurd ⟨ha, by rw [h4]; exact hb⟩ hno
      · rw [hg] at hg'
        rw [h3, h4, hg']
  · exact hr2.rest q hq

/-- Services whose names differ may still need one name twice: the module of actions of a service `x_service` and the module of types
of a service `x`. Such a project cannot be built. -/
theorem service_suffix_refuted {c : Cases} {pre : List (Bytes × Entry)} {d : Doc} {disk disk' : Disk}
    (hpre : (pre.map (·.1)).Nodup) (h : run c pre d disk = some disk') {i j : Iface} (hi : i ∈ of .service d)
    (hj : j ∈ of .service d) (hn : c.rustify j.name = c.rustify i.name ++ lit "_service") : ¬ Accepted disk' := by
  intro ha
  obtain ⟨f, hr⟩ := ran hpre h
  obtain ⟨_, h1, h2, h3, h4, _, h5⟩ := writeIfaces_spec c d.ifaces _ _ hr.file
  obtain ⟨f', hf', htop, _⟩ := ha.actions
  rw [hr.actions] at hf'
  obtain rfl : f = f' := by simpa using hf'
  have htm : (f.typeMods.map (·.1)).Nodup := by
    unfold ActionsFile.top at htop
    exact (List.nodup_append.mp (List.nodup_append.mp htop).1).2.1
  have hs : ((of .service d).map fun i => c.rustify i.name).Nodup := by
    rw [h2] at htm
    simp only [List.nil_append, List.map_map] at htm
    apply nodup_of_map (fun b => b ++ lit "_service")
    rw [List.map_map]
    exact htm
  rw [(top_eq hr hs).2] at htop
  unfold topNames at htop
  have := (List.nodup_append.mp (List.nodup_append.mp htop).1).2.2 (c.rustify j.name) (List.mem_map.mpr ⟨j, hj, rfl⟩)
    (c.rustify i.name ++ lit "_service") (List.mem_map.mpr ⟨i, hi, rfl⟩)
  exact this hn

/-- The scaffold of an operation whose kind has changed since is not written again, and then the project cannot be built. -/
theorem stale_scaffold_refuted {c : Cases} {pre : List (Bytes × Entry)} {d : Doc} {disk disk' : Disk}
    (hpre : (pre.map (·.1)).Nodup) (hap : Apart c d) (h : run c pre d disk = some disk') {i : Iface} (hi : i ∈ of .service d)
    {o : Oper} (ho : o ∈ i.ops) {k k' : Method} (hk : kindOf o = some k) {ty a : Bytes}
    (hx : disk (fileOf c i o) = some (.task ty a (taskOf k'))) (hne : taskOf k' ≠ taskOf k) : ¬ Accepted disk' := by
  intro ha
  have hkept := actions_kept hpre h hi ho hx
  obtain ⟨f, hr⟩ := ran hpre h
  obtain ⟨_, h1, h2, h3, h4, _, h5⟩ := writeIfaces_spec c d.ifaces _ _ hr.file
  have hi' := List.mem_filter.mp hi
  have hrole : i.role = .service := of_decide_eq_true hi'.2
  have hraw : (i.ops.map fun o => o.name).Nodup := by
    apply nodup_of_map c.rustify
    rw [List.map_map]
    exact hap.ops i hi'.1 (by rw [hrole]; decide)
  obtain ⟨f', hf', _, _, _, _, hc⟩ := ha.actions
  rw [hr.actions] at hf'
  obtain rfl : f = f' := by simpa using hf'
  rw [← variant_kind] at hk
  obtain ⟨_, _, h6⟩ := hc _ (h5 i hi'.1 hrole hraw o ho k hk)
  change (∃ n, disk' (fileOf c i o) = _) ∨ disk' (fileOf c i o) = _ at h6
  rw [hkept] at h6
  rcases h6 with ⟨n, h6⟩ | h6
  · simp at h6
  · simp only [Option.some.injEq, File.task.injEq] at h6
    exact hne h6.2.2

/-! ## Cases -/

/-- Names are left as they are. -/
def same : Cases := ⟨fun b => b, fun b => b.filter fun x => x != 47, fun b => b⟩

theorem same_plain : Plain same := by
  intro b hm
  have := (List.mem_filter.mp hm).2
  simp at this

/-- A service with an operation of each kind and a provider. -/
def shop : Doc :=
  ⟨lit "shop", [⟨lit "test", .service, [⟨lit "echo", [false], false⟩, ⟨lit "chars", [false], true⟩, ⟨lit "reverse", [true], true⟩]⟩,
    ⟨lit "log", .provider, [⟨lit "say", [false], false⟩]⟩]⟩

def blank : Disk := fun _ => none

theorem shop_apart : Apart same shop := by
  refine ⟨by decide +kernel, ?_⟩
  decide +kernel

example : ∃ disk', run same [] shop blank = some disk' ∧ Accepted disk' := by
  obtain ⟨disk', h⟩ := (runs_iff (c := same) (pre := []) (d := shop) (disk := blank) (by simp)).mpr (by
    unfold Kinds; decide +kernel)
  exact ⟨disk', h, (builds_iff (by simp) same_plain (fun _ _ => rfl) h).mpr shop_apart⟩

/-- Two services, the second with the name of the first and `_service`. -/
def clash : Doc := ⟨lit "shop", [⟨lit "test", .service, []⟩, ⟨lit "test_service", .service, []⟩]⟩

example : ∃ disk', run same [] clash blank = some disk' ∧ ¬ Accepted disk' := by
  obtain ⟨disk', h⟩ := (runs_iff (c := same) (pre := []) (d := clash) (disk := blank) (by simp)).mpr (by
    unfold Kinds; decide +kernel)
  exact ⟨disk', h, service_suffix_refuted (by simp) h (i := ⟨lit "test", .service, []⟩) (j := ⟨lit "test_service", .service, []⟩)
    (by decide +kernel) (by decide +kernel) (by decide +kernel)⟩

/-- The file of an operation that was a stream when the project was generated first. -/
def old : Disk := fun q => if q = actionPath (lit "test") (lit "echo") then
  some (.task (lit "test_service") (lit "echo") (taskOf .rs)) else none

example : ∃ disk', run same [] shop old = some disk' ∧ ¬ Accepted disk' := by
  obtain ⟨disk', h⟩ := (runs_iff (c := same) (pre := []) (d := shop) (disk := old) (by simp)).mpr (by
    unfold Kinds; decide +kernel)
  refine ⟨disk', h, stale_scaffold_refuted (by simp) shop_apart h
    (i := ⟨lit "test", .service, [⟨lit "echo", [false], false⟩, ⟨lit "chars", [false], true⟩, ⟨lit "reverse", [true], true⟩]⟩)
    (o := ⟨lit "echo", [false], false⟩) (k := .rr) (k' := .rs) (ty := lit "test_service") (a := lit "echo")
    (by decide +kernel) (by decide +kernel) (by decide +kernel) (by decide +kernel) (by decide +kernel)⟩

end Iota.Props.RustProject
