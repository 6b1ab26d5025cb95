import Verif.Model.Registry
import Verif.Props.Operations

/-!
# C32-C35, C55: registries, handler tables, live instances, port messages
-/

namespace Iota.Props.Registry
open Go Iota.Operations Iota.Registry

/-! ## Histories -/

/-- A call to one of the export or import functions. -/
inductive Ev (H : Type)
  | exp (k : Kind) (i : Info) (h : H)
  | imp (k : Kind) (i : Info)

def step {H : Type} (r : Reg H) : Ev H → Reg H
  | .exp k i h => exportOp r k i h
  | .imp k i => (importOp r k i).2

def run {H : Type} (es : List (Ev H)) : Reg H := es.foldl step Reg.init

/-- The exports of a kind in order. -/
def exports {H : Type} (es : List (Ev H)) (k : Kind) : List (Info × H) :=
  es.filterMap fun e => match e with
    | .exp k' i h => if k' = k then some (i, h) else none
    | .imp _ _ => none

theorem run_append {H : Type} (es : List (Ev H)) (e : Ev H) : run (es ++ [e]) = step (run es) e := by
  simp [run]

theorem rev_ind {α : Type} {P : List α → Prop} (h0 : P []) (h1 : ∀ l a, P l → P (l ++ [a])) (l : List α) : P l := by
  have : ∀ l : List α, P l.reverse := by
    intro l
    induction l with
    | nil => exact h0
    | cons a l ih => rw [List.reverse_cons]; exact h1 _ _ ih
  simpa using this l.reverse

theorem run_exports {H : Type} (es : List (Ev H)) (k : Kind) :
    (run es).handlers k = (exports es k).map (·.2) ∧ (run es).infos k = (exports es k).map (·.1) := by
  induction es using rev_ind with
  | h0 => exact ⟨rfl, rfl⟩
  | h1 es e ih =>
    rw [run_append]
    cases e with
    | exp k' i h =>
      by_cases hk : k = k'
      · subst hk
        simp [step, exportOp, upd, exports, List.filterMap_append] at ih ⊢
        exact ih
      · have hk' : ¬ k' = k := fun h => hk h.symm
        simp [step, exportOp, upd, exports, List.filterMap_append, hk, hk'] at ih ⊢
        exact ih
    | imp k' i =>
      have e1 : (step (run es) (.imp k' i)).handlers = (run es).handlers ∧ (step (run es) (.imp k' i)).infos = (run es).infos := by
        simp only [step, importOp]
        split <;> exact ⟨rfl, rfl⟩
      rw [e1.1, e1.2]
      simpa [exports, List.filterMap_append] using ih

theorem mem_convert {l : List Info} {k : Kind} {d : UInt8} {o : Operation} :
    o ∈ convertOperations l k d ↔ ∃ i x, l[i]? = some x ∧ o = ⟨UInt32.ofNat i, k.code, d, x.ns, x.op⟩ := by
  unfold convertOperations
  rw [List.mem_iff_getElem?]
  constructor
  · rintro ⟨i, hi⟩
    rw [List.getElem?_mapIdx] at hi
    rcases hx : l[i]? with _ | x
    · rw [hx] at hi; cases hi
    · rw [hx] at hi
      exact ⟨i, x, hx, (Option.some.inj hi).symm⟩
  · rintro ⟨i, x, hx, rfl⟩
    exact ⟨i, by rw [List.getElem?_mapIdx, hx]; rfl⟩

theorem mem_opList {H : Type} {r : Reg H} {o : Operation} :
    o ∈ operationList r ↔ ∃ k, o ∈ convertOperations (r.infos k) k 1 ∨ o ∈ convertOperations (r.imports k) k 2 := by
  simp only [operationList, List.mem_append]
  constructor
  · rintro (((((((h | h) | h) | h) | h) | h) | h) | h)
    · exact ⟨_, .inl h⟩
    · exact ⟨_, .inl h⟩
    · exact ⟨_, .inl h⟩
    · exact ⟨_, .inl h⟩
    · exact ⟨_, .inr h⟩
    · exact ⟨_, .inr h⟩
    · exact ⟨_, .inr h⟩
    · exact ⟨_, .inr h⟩
  · rintro ⟨k, h | h⟩ <;> cases k <;> simp [h]

theorem getHandler_eq {H : Type} {r : Reg H} {k : Kind} {i : Nat} (hl : (r.handlers k).length < 2 ^ 32)
    (hi : i < (r.handlers k).length) : getHandler r k (UInt32.ofNat i) = (r.handlers k)[i]? := by
  unfold getHandler
  have e : (UInt32.ofNat i).toNat = i := by simp; omega
  rw [if_neg, e]
  rw [ge_iff_le, UInt32.le_iff_toNat_le, e]
  simp
  omega

/-! ## C32 -/

/-- What the host learns from the guest after a history of registrations: the operation table as it comes
out of the bytes sent. -/
def Advertised {H : Type} (es : List (Ev H)) (t : Table) : Prop :=
  ∃ bs, toBytes (operationList (run es)) = .ok bs ∧ fromBytes bs = .ok t

/-- **C32** For every history of exports and imports: the host can read the table; every export is in it
under its name and kind; and the index given for an exported name, used with the kind given for it,
reaches a handler that was exported under exactly this name and kind. The last part says which: the
one exported at this position among the exports of its kind. -/
theorem advertised_index_reaches_handler {H : Type} (es : List (Ev H))
    (hn : ∀ o ∈ operationList (run es), o.ns.length < 2 ^ 16 ∧ o.op.length < 2 ^ 16)
    (hs : 10 + ((operationList (run es)).map fun o => 12 + o.ns.length + o.op.length).sum < 2 ^ 32) :
    ∃ t, Advertised es t ∧
      (∀ k i h, .exp k i h ∈ es → ∃ o ∈ t, o.type = k.code ∧ o.direction = 1 ∧ o.ns = i.ns ∧ o.op = i.op) ∧
      (∀ o ∈ t, o.direction = 1 → ∃ k h, o.type = k.code ∧ .exp k ⟨o.ns, o.op⟩ h ∈ es ∧
        getHandler (run es) k o.index = some h ∧ (exports es k)[o.index.toNat]? = some (⟨o.ns, o.op⟩, h)) := by
  obtain ⟨bs, h1, h2⟩ := Operations.table_round_trip _ hn hs
  have h2 := h2 []
  rw [List.append_nil] at h2
  refine ⟨_, ⟨bs, h1, h2⟩, ?_, ?_⟩
  · intro k i h he
    have hm : (i, h) ∈ exports es k := by
      unfold exports
      rw [List.mem_filterMap]
      exact ⟨_, he, by simp⟩
    obtain ⟨j, hj⟩ := List.mem_iff_getElem?.mp hm
    refine ⟨⟨UInt32.ofNat j, k.code, 1, i.ns, i.op⟩, mem_opList.mpr ⟨k, .inl (mem_convert.mpr ⟨j, i, ?_, rfl⟩)⟩, rfl, rfl, rfl, rfl⟩
    rw [(run_exports es k).2, List.getElem?_map, hj]
    rfl
  · intro o ho hd
    obtain ⟨k, h | h⟩ := mem_opList.mp ho
    · obtain ⟨i, x, hx, rfl⟩ := mem_convert.mp h
      rw [(run_exports es k).2, List.getElem?_map] at hx
      rcases hy : (exports es k)[i]? with _ | ⟨y, hh⟩
      · rw [hy] at hx; cases hx
      rw [hy] at hx
      cases hx
      have hil : i < (exports es k).length := by
        rcases Nat.lt_or_ge i (exports es k).length with h | h
        · exact h
        · rw [List.getElem?_eq_none h] at hy; cases hy
      have hlen : (exports es k).length < 2 ^ 32 := by
        have a1 : ∀ t : Table, t.length ≤ (t.map fun o => 12 + o.ns.length + o.op.length).sum := by
          intro t
          induction t with
          | nil => simp
          | cons o t ih => simp; omega
        have a2 := a1 (operationList (run es))
        have a3 : (exports es k).length ≤ (operationList (run es)).length := by
          have : (exports es k).length = ((run es).infos k).length := by rw [(run_exports es k).2]; simp
          rw [this]
          cases k <;> simp [operationList, convertOperations] <;> omega
        omega
      have hl : ((run es).handlers k).length = (exports es k).length := by rw [(run_exports es k).1]; simp
      have ei : (UInt32.ofNat i).toNat = i := by simp; omega
      refine ⟨k, hh, rfl, ?_, ?_, ?_⟩
      · have : (y, hh) ∈ exports es k := List.mem_iff_getElem?.mpr ⟨i, hy⟩
        unfold exports at this
        rw [List.mem_filterMap] at this
        obtain ⟨e, he, hm⟩ := this
        cases e with
        | imp k' i' => simp at hm
        | exp k' i' h' =>
          simp only at hm
          split at hm
          · rename_i hk
            cases hm
            subst hk
            exact he
          · cases hm
      · simp only
        rw [getHandler_eq (by omega) (by omega), (run_exports es k).1, List.getElem?_map, hy]
        rfl
      · simp only [ei]
        exact hy
    · obtain ⟨i, x, hx, rfl⟩ := mem_convert.mp h
      simp at hd

/-- **C32** In particular, if a name is exported once under a kind, using the index advertised for it calls
that handler and no other. -/
theorem advertised_index_unique {H : Type} (es : List (Ev H)) (t : Table) (ht : Advertised es t)
    (hn : ∀ o ∈ operationList (run es), o.ns.length < 2 ^ 16 ∧ o.op.length < 2 ^ 16)
    (hs : 10 + ((operationList (run es)).map fun o => 12 + o.ns.length + o.op.length).sum < 2 ^ 32)
    (k : Kind) (i : Info) (h : H) (hu : ∀ h', .exp k i h' ∈ es → h' = h)
    (o : Operation) (ho : o ∈ t) (hk : o.type = k.code) (hd : o.direction = 1) (hi : o.ns = i.ns ∧ o.op = i.op) :
    getHandler (run es) k o.index = some h := by
  obtain ⟨t', ⟨bs', a1, a2⟩, _, h3⟩ := advertised_index_reaches_handler es hn hs
  obtain ⟨bs, b1, b2⟩ := ht
  have : bs' = bs := by rw [a1] at b1; exact Res.ok.inj b1
  subst this
  have : t' = t := by rw [a2] at b2; exact Res.ok.inj b2
  subst this
  obtain ⟨k', h', c1, c2, c3, _⟩ := h3 o ho hd
  have : k' = k := by
    rw [hk] at c1
    cases k <;> cases k' <;> first | rfl | exact absurd c1 (by decide)
  subst this
  rw [hi.1, hi.2] at c2
  rw [hu h' c2] at c3
  exact c3

example : (operationList (run [.exp .rs ⟨[1], [2]⟩ "a", .imp .rr ⟨[3], [4]⟩, .exp .rr ⟨[1], [2]⟩ "b", .exp .rs ⟨[1], [3]⟩ "c"])) =
    [⟨0, 1, 1, [1], [2]⟩, ⟨0, 3, 1, [1], [2]⟩, ⟨1, 3, 1, [1], [3]⟩, ⟨0, 1, 2, [3], [4]⟩] ∧
    getHandler (run [.exp .rs ⟨[1], [2]⟩ "a", .exp .rr ⟨[1], [2]⟩ "b", .exp .rs ⟨[1], [3]⟩ "c"]) .rs 1 = some "c" := by
  decide

/-! ## C33 -/

/-- The ids returned by the import calls of a history, oldest first. -/
def ids {H : Type} : Reg H → List (Ev H) → List (Kind × Info × UInt32)
  | _, [] => []
  | r, .exp k i h :: es => ids (exportOp r k i h) es
  | r, .imp k i :: es => (k, i, (importOp r k i).1) :: ids (importOp r k i).2 es

theorem search_spec (l : List Info) (x : Info) (n : Nat) :
    match search l x n with
    | some i => n ≤ i ∧ l[i - n]? = some x ∧ ∀ j : Nat, j < i - n → l[j]? ≠ some x
    | none => ∀ j : Nat, l[j]? ≠ some x := by
  induction l generalizing n with
  | nil => simp [search]
  | cons y l ih =>
    by_cases hy : y.ns = x.ns ∧ y.op = x.op
    · have : y = x := by cases y; cases x; simp_all
      simp [search, hy, this]
    · have hne : y ≠ x := fun h => hy (by rw [h]; exact ⟨rfl, rfl⟩)
      have := ih (n + 1)
      simp only [search, if_neg hy]
      split at this
      · rename_i i hs
        obtain ⟨h1, h2, h3⟩ := this
        refine ⟨by omega, ?_, ?_⟩
        · rw [show i - n = (i - (n + 1)) + 1 by omega, List.getElem?_cons_succ]
          exact h2
        · intro j hj
          cases j with
          | zero => simpa using hne
          | succ j => rw [List.getElem?_cons_succ]; exact h3 j (by omega)
      · rename_i hs
        intro j
        cases j with
        | zero => simpa using hne
        | succ j => rw [List.getElem?_cons_succ]; exact this j

/-- No name occurs twice. -/
def Distinct (l : List Info) : Prop := ∀ (i j : Nat) (x : Info), l[i]? = some x → l[j]? = some x → i = j

theorem getElem?_lt {α : Type} {l : List α} {i : Nat} {x : α} (h : l[i]? = some x) : i < l.length := by
  rcases Nat.lt_or_ge i l.length with h' | h'
  · exact h'
  · rw [List.getElem?_eq_none h'] at h; cases h

theorem import_step {H : Type} (r : Reg H) (k : Kind) (x : Info) (hd : ∀ k, Distinct (r.imports k)) :
    (∃ i, (importOp r k x).1 = UInt32.ofNat i ∧ ((importOp r k x).2.imports k)[i]? = some x) ∧
    (∀ k', Distinct ((importOp r k x).2.imports k')) ∧
    (∀ k', ∃ s, (importOp r k x).2.imports k' = r.imports k' ++ s ∧ ∀ y ∈ s, k' = k ∧ y = x) := by
  have hs := search_spec (r.imports k) x 0
  unfold importOp
  split
  · rename_i i hi
    rw [hi] at hs
    refine ⟨⟨i, rfl, by simpa using hs.2.1⟩, hd, fun k' => ⟨[], by simp⟩⟩
  · rename_i hi
    rw [hi] at hs
    refine ⟨⟨_, rfl, by simp [upd]⟩, ?_, ?_⟩
    · intro k'
      by_cases hk : k' = k
      · subst hk
        simp only [upd, if_pos]
        intro i j y h1 h2
        have key : ∀ {i : Nat} {y : Info}, (r.imports k' ++ [x])[i]? = some y → (i < (r.imports k').length ∧ (r.imports k')[i]? = some y) ∨ (i = (r.imports k').length ∧ y = x) := by
          intro i y h
          rcases Nat.lt_or_ge i (r.imports k').length with h' | h'
          · rw [List.getElem?_append_left h'] at h; exact .inl ⟨h', h⟩
          · rw [List.getElem?_append_right h'] at h
            have := getElem?_lt h
            simp at this
            have hi : i = (r.imports k').length := by omega
            rw [hi] at h
            simp at h
            exact .inr ⟨hi, h.symm⟩
        rcases key h1 with ⟨a1, a2⟩ | ⟨a1, a2⟩ <;> rcases key h2 with ⟨b1, b2⟩ | ⟨b1, b2⟩
        · exact hd _ i j y a2 b2
        · subst b2; exact absurd a2 (hs _)
        · subst a2; exact absurd b2 (hs _)
        · omega
      · simp only [upd, if_neg hk]
        exact hd k'
    · intro k'
      by_cases hk : k' = k
      · subst hk; exact ⟨[x], by simp [upd], by simp⟩
      · exact ⟨[], by simp [upd, hk], by simp⟩

theorem ids_spec {H : Type} (es : List (Ev H)) (r : Reg H) (hd : ∀ k, Distinct (r.imports k)) :
    (∀ k, Distinct ((es.foldl step r).imports k)) ∧
    (∀ k, ∃ s, (es.foldl step r).imports k = r.imports k ++ s) ∧
    (∀ y ∈ ids r es, ∃ i, y.2.2 = UInt32.ofNat i ∧ ((es.foldl step r).imports y.1)[i]? = some y.2.1) ∧
    (∀ k i x, ((es.foldl step r).imports k)[i]? = some x → (r.imports k)[i]? = some x ∨ (k, x, UInt32.ofNat i) ∈ ids r es) := by
  induction es generalizing r with
  | nil => exact ⟨hd, fun k => ⟨[], by simp⟩, by simp [ids], fun k i x h => .inl h⟩
  | cons e es ih =>
    cases e with
    | exp k i h =>
      obtain ⟨h1, h2, h3, h4⟩ := ih (exportOp r k i h) hd
      exact ⟨h1, h2, h3, h4⟩
    | imp k x =>
      obtain ⟨⟨i, g1, g2⟩, g3, g4⟩ := import_step r k x hd
      obtain ⟨h1, h2, h3, h4⟩ := ih (importOp r k x).2 g3
      refine ⟨h1, ?_, ?_, ?_⟩
      · intro k'
        obtain ⟨s, hs, _⟩ := g4 k'
        obtain ⟨s', hs'⟩ := h2 k'
        exact ⟨s ++ s', by simp only [List.foldl_cons, step]; rw [hs', hs, List.append_assoc]⟩
      · intro y hy
        rcases List.mem_cons.mp hy with rfl | hy
        · refine ⟨i, g1, ?_⟩
          obtain ⟨s', hs'⟩ := h2 k
          simp only [List.foldl_cons, step]
          rw [hs', List.getElem?_append_left (getElem?_lt g2)]
          exact g2
        · exact h3 y hy
      · intro k' j y hy
        rcases h4 k' j y hy with h | h
        · obtain ⟨s, hs, hs'⟩ := g4 k'
          rw [hs] at h
          rcases Nat.lt_or_ge j (r.imports k').length with hj | hj
          · rw [List.getElem?_append_left hj] at h; exact .inl h
          · right
            rw [List.getElem?_append_right hj] at h
            obtain ⟨rfl, rfl⟩ := hs' y (List.mem_iff_getElem?.mpr ⟨_, h⟩)
            rw [ids, g1]
            have e1 : ((importOp r k' y).2.imports k')[j]? = some y := by
              rw [hs, List.getElem?_append_right hj]; exact h
            rw [g3 k' j i y e1 g2]
            exact List.mem_cons_self
        · exact .inr (List.mem_cons_of_mem _ h)

/-- **C33** In every history of exports and imports with fewer than 2^32 different imports per kind: two import
calls of a kind return the same id exactly if they name the same operation, and the ids of a kind are
0, 1, 2, .. without gaps. -/
theorem import_ids {H : Type} (es : List (Ev H)) (hl : ∀ k, ((run es).imports k).length < 2 ^ 32) :
    (∀ k x y i j, (k, x, i) ∈ ids Reg.init es → (k, y, j) ∈ ids Reg.init es → (i = j ↔ x = y)) ∧
    (∀ k x i, (k, x, i) ∈ ids Reg.init es → ∀ j < i, ∃ y, (k, y, j) ∈ ids Reg.init es) := by
  obtain ⟨h1, _, h3, h4⟩ := ids_spec es (Reg.init : Reg H) (fun k i j x h => by simp [Reg.init] at h)
  have e : ∀ {n : Nat}, n < 2 ^ 32 → (UInt32.ofNat n).toNat = n := by intro n hn; simp; omega
  refine ⟨?_, ?_⟩
  · intro k x y i j hx hy
    obtain ⟨i', a1, a2⟩ := h3 _ hx
    obtain ⟨j', b1, b2⟩ := h3 _ hy
    simp only at a1 a2 b1 b2
    have hi := getElem?_lt a2
    have hj := getElem?_lt b2
    have hk := hl k
    simp only [run] at hk
    constructor
    · intro hij
      have : i' = j' := by
        have := congrArg UInt32.toNat (a1.symm.trans (hij.trans b1))
        rw [e (by omega), e (by omega)] at this
        exact this
      subst this
      rw [a2] at b2
      exact Option.some.inj b2
    · intro hxy
      subst hxy
      rw [a1, b1, h1 k i' j' x a2 b2]
  · intro k x i hx j hj
    obtain ⟨i', a1, a2⟩ := h3 _ hx
    simp only at a1 a2
    have hi := getElem?_lt a2
    have hk := hl k
    simp only [run] at hk
    have hj' : j.toNat < i' := by
      rw [UInt32.lt_iff_toNat_lt, a1, e (by omega)] at hj
      exact hj
    have hjl : j.toNat < (((es.foldl step Reg.init) : Reg H).imports k).length := by omega
    rcases h4 k j.toNat _ (List.getElem?_eq_getElem hjl) with h | h
    · simp [Reg.init] at h
    · exact ⟨_, by simpa using h⟩

example : ids (Reg.init : Reg Unit) [.imp .rr ⟨[1], [1]⟩, .imp .rr ⟨[1], [2]⟩, .imp .rs ⟨[1], [2]⟩, .imp .rr ⟨[1], [1]⟩, .imp .rr ⟨[], []⟩] =
    [(.rr, ⟨[1], [1]⟩, 0), (.rr, ⟨[1], [2]⟩, 1), (.rs, ⟨[1], [2]⟩, 0), (.rr, ⟨[1], [1]⟩, 0), (.rr, ⟨[], []⟩, 2)] := by
  decide

/-! ## C55 -/

/-- A history of registrations. -/
def setAll {H : Type} : Slots H → List (UInt32 × Option H) → Res (Slots H)
  | s, [] => .ok s
  | s, x :: l => do
    let s ← setSlot s x.1 x.2
    setAll s l

/-- The last registration at an index. -/
def last {H : Type} (l : List (UInt32 × Option H)) (i : UInt32) : Option H :=
  ((l.filter fun x => x.1 = i).getLast?.map (·.2)).join

theorem grow_spec {H : Type} (n : Nat) (s : Slots H) (b : UInt32) (hs : s.length < 2 ^ 32) (hn : b.toNat ≤ s.length + n) :
    grow n s b = s ++ List.replicate (b.toNat - s.length) none := by
  induction n generalizing s with
  | zero => simp [grow, show b.toNat - s.length = 0 by omega]
  | succ n ih =>
    have hb := b.toNat_lt
    have e : (UInt32.ofNat s.length).toNat = s.length := by simp; omega
    unfold grow
    split
    · rename_i h
      rw [UInt32.lt_iff_toNat_lt, e] at h
      rw [ih _ (by simp; omega) (by simp; omega)]
      rw [show b.toNat - s.length = (b.toNat - (s ++ [none]).length) + 1 by simp; omega, List.replicate_succ]
      simp
    · rename_i h
      rw [UInt32.lt_iff_toNat_lt, e] at h
      rw [show b.toNat - s.length = 0 by omega]
      simp

theorem setSlot_spec {H : Type} (s : Slots H) (i : UInt32) (h : Option H) (hs : s.length < 2 ^ 32) (hi : i.toNat + 1 < 2 ^ 32) :
    ∃ s', setSlot s i h = .ok s' ∧ s'.length < 2 ^ 32 ∧ ∀ j, getSlot s' j = if j = i then h else getSlot s j := by
  have hb : (i + 1).toNat = i.toNat + 1 := by
    rw [UInt32.toNat_add]
    exact Nat.mod_eq_of_lt hi
  unfold setSlot
  rw [grow_spec _ s _ hs (by omega)]
  have hl : (s ++ List.replicate ((i + 1).toNat - s.length) none).length = max s.length (i.toNat + 1) := by
    simp; omega
  rw [if_pos (by rw [hl]; omega)]
  refine ⟨_, rfl, by rw [List.length_set, hl]; omega, ?_⟩
  intro j
  have e1 : ∀ {t : Slots H}, t.length < 2 ^ 32 → getSlot t j = (t[j.toNat]?).join := by
    intro t ht
    unfold getSlot
    split
    · rename_i h
      rw [UInt32.le_iff_toNat_le, show (UInt32.ofNat t.length).toNat = t.length by simp; omega] at h
      rw [List.getElem?_eq_none h]; rfl
    · rfl
  rw [e1 hs, e1 (by rw [List.length_set, hl]; omega), List.getElem?_set]
  by_cases hj : j = i
  · subst hj
    rw [if_pos rfl, if_pos rfl, if_pos (by rw [hl]; omega)]
    rfl
  · have hne : i.toNat ≠ j.toNat := fun h => hj (UInt32.toNat_inj.mp h.symm)
    rw [if_neg hne, if_neg hj]
    rcases Nat.lt_or_ge j.toNat s.length with h | h
    · rw [List.getElem?_append_left h]
    · rw [List.getElem?_append_right h, List.getElem?_eq_none h, List.getElem?_replicate]
      split <;> rfl

/-- **C55** (part) For every history of registrations at indices below 2^32 - 1: no registration panics, and
afterwards every index resolves to what was registered there last, or to nothing. -/
theorem handler_table_partial {H : Type} (l : List (UInt32 × Option H)) (h : ∀ x ∈ l, x.1.toNat + 1 < 2 ^ 32) :
    ∃ s, setAll [] l = .ok s ∧ ∀ i, getSlot s i = last l i := by
  suffices hh : ∀ (l : List (UInt32 × Option H)) (s : Slots H), (∀ x ∈ l, x.1.toNat + 1 < 2 ^ 32) → s.length < 2 ^ 32 →
      ∃ s', setAll s l = .ok s' ∧ ∀ i, getSlot s' i =
        match (l.filter fun x => x.1 = i).getLast? with
        | some x => x.2
        | none => getSlot s i by
    obtain ⟨s, h1, h2⟩ := hh l [] h (by simp)
    refine ⟨s, h1, fun i => ?_⟩
    rw [h2 i, last]
    cases (l.filter fun x => x.1 = i).getLast? with
    | none => simp [getSlot]
    | some x => simp
  intro l
  induction l with
  | nil => exact fun s _ _ => ⟨s, rfl, fun i => rfl⟩
  | cons x l ih =>
    intro s h hs
    obtain ⟨s1, a1, a2, a3⟩ := setSlot_spec s x.1 x.2 hs (h x List.mem_cons_self)
    obtain ⟨s', b1, b2⟩ := ih s1 (fun y hy => h y (List.mem_cons_of_mem _ hy)) a2
    refine ⟨s', by rw [setAll, a1]; exact b1, fun i => ?_⟩
    rw [b2 i, List.filter_cons]
    by_cases hx : x.1 = i
    · rw [if_pos (by simpa using hx)]
      generalize (l.filter fun x => x.1 = i) = f
      rcases f with _ | ⟨y, ys⟩
      · simp only [List.getLast?_nil, List.getLast?_singleton]
        rw [a3, if_pos hx.symm]
      · rw [List.getLast?_cons_cons]
        rcases hg : (y :: ys).getLast? with _ | z
        · simp at hg
        · rfl
    · rw [if_neg (by simpa using hx)]
      cases (l.filter fun x => x.1 = i).getLast? with
      | none => simp only; rw [a3, if_neg (fun h => hx h.symm)]
      | some y => rfl

example : (match setAll [] [(2, some "a"), (0, some "b"), (2, some "c"), (0, none)] with
    | .ok s => [getSlot s 0, getSlot s 1, getSlot s 2, getSlot s 3]
    | _ => []) = [none, none, some "c", none] := by decide

/-- **C55** is false of the code for the largest index: `index+1` is 0, the slice does not grow and the
assignment panics. -/
theorem largest_index_refuted {H : Type} (h : Option H) : setSlot ([] : Slots H) 0xffffffff h = .panic := rfl

/-! ## C34 -/

/-- A history of the instance table: `put` with the address chosen by the allocator, and `remove`. -/
inductive LEv (T : Type)
  | put (addr : UInt64) (inst : T)
  | remove (id : UInt64)

def lstep {T : Type} (m : Live T) : LEv T → Live T
  | .put a x => (m.put a x).2
  | .remove a => (m.remove a).2

def lrun {T : Type} (es : List (LEv T)) : Live T := es.foldl lstep Live.new

/-- The events that concern one handle. -/
def touches {T : Type} (a : UInt64) : LEv T → Bool
  | .put b _ => b = a
  | .remove b => b = a

/-- What the last event on a handle left there. -/
def current {T : Type} (es : List (LEv T)) (a : UInt64) : Option T :=
  match (es.filter (touches a)).getLast? with
  | some (.put _ x) => some x
  | _ => none

/-- **C34** After any history a handle yields the instance put there last, unless it was removed since or
nothing was put there; so operations on one handle never affect another, and `Remove` returns what `Get`
would have. -/
theorem live_instances {T : Type} (es : List (LEv T)) (a : UInt64) :
    (lrun es).lookup a = current es a ∧ ((lrun es).remove a).1 = current es a := by
  have h1 : (lrun es).lookup a = current es a := by
    induction es using rev_ind with
    | h0 => rfl
    | h1 es e ih =>
      have hr : lrun (es ++ [e]) = lstep (lrun es) e := by simp [lrun]
      rw [hr]
      unfold current
      rw [List.filter_append]
      unfold current at ih
      cases e with
      | put b x =>
        by_cases hb : b = a
        · subst hb
          simp [lstep, Live.put, Live.lookup, touches]
        · have hb' : ¬ a = b := fun h => hb h.symm
          simpa [lstep, Live.put, Live.lookup, touches, hb, hb'] using ih
      | remove b =>
        by_cases hb : b = a
        · subst hb
          simp only [lstep, Live.remove, Live.lookup]
          have : (List.filter (touches b) [LEv.remove b] : List (LEv T)) = [.remove b] := by simp [touches]
          rw [this, List.getLast?_append]
          split <;> simp_all
        · have hb' : ¬ a = b := fun h => hb h.symm
          simp only [lstep, Live.remove, Live.lookup]
          have : (List.filter (touches a) [LEv.remove b] : List (LEv T)) = [] := by simp [touches, hb]
          rw [this, List.append_nil]
          split <;> simpa [hb', Live.lookup] using ih
  refine ⟨h1, ?_⟩
  rw [← h1]
  unfold Live.remove Live.lookup
  split <;> simp_all

/-- **C34** An instance stays available until its handle is removed, provided the allocator does not hand out
the address of a live box. -/
theorem live_until_removed {T : Type} (es es' : List (LEv T)) (a : UInt64) (x : T)
    (h : ∀ e ∈ es', touches a e = false) : (lrun (es ++ .put a x :: es')).lookup a = some x := by
  rw [(live_instances _ a).1, current, List.filter_append, List.filter_cons]
  have : es'.filter (touches a) = [] := List.filter_eq_nil_iff.mpr fun e he => by simp [h e he]
  simp [this, touches]

/-- **C34** After removal the handle yields nothing until the allocator gives its address to a new instance. -/
theorem removed_is_gone {T : Type} (es es' : List (LEv T)) (a : UInt64)
    (h : ∀ e ∈ es', ∀ x, e ≠ .put a x) : (lrun (es ++ .remove a :: es')).lookup a = none := by
  rw [(live_instances _ a).1, current, List.filter_append, List.filter_cons]
  simp only [touches, decide_true, if_true]
  rcases hg : ((es.filter (touches a)) ++ .remove a :: es'.filter (touches a)).getLast? with _ | e
  · rfl
  · rw [List.getLast?_append] at hg
    have hm : e ∈ (LEv.remove a :: es'.filter (touches a) : List (LEv T)) := by
      rcases hl : (LEv.remove a :: es'.filter (touches a) : List (LEv T)).getLast? with _ | e'
      · simp at hl
      · rw [hl] at hg
        cases hg
        exact List.mem_of_getLast? hl
    cases e with
    | remove b => rfl
    | put b y =>
      rcases List.mem_cons.mp hm with hm | hm
      · cases hm
      · obtain ⟨m1, m2⟩ := List.mem_filter.mp hm
        simp [touches] at m2
        subst m2
        exact absurd rfl (h _ m1 y)

/-- A handle that was removed can come to denote a different instance: handles are addresses, and the address
of a removed box may be used again. -/
theorem stale_handle_witness :
    (lrun [.put 16 "file A", .remove 16, .put 16 "file B"]).lookup 16 = some "file B" := by decide

/-! ## C35 -/

theorem length_one (x : UInt8) : [x].length = 1 := rfl

/-- What `Encode` writes. -/
theorem encode_port (f : PortIO) (h : f.port.length < 2 ^ 16) :
    f.encode = .ok ((if f.complete || f.next then 1 else 0) :: beBytes 2 f.port.length ++ f.port ++ f.data) := by
  unfold PortIO.encode
  have hz : ∃ z1 z2 z3 z4 : Bytes, List.replicate (3 + f.port.length + f.data.length) (0 : UInt8) = z1 ++ (z2 ++ (z3 ++ z4)) ∧
      z1.length = 1 ∧ z2.length = 2 ∧ z3.length = f.port.length ∧ z4.length = f.data.length := by
    refine ⟨List.replicate 1 0, List.replicate 2 0, List.replicate f.port.length 0, List.replicate f.data.length 0, ?_, by simp, by simp, by simp, by simp⟩
    simp only [List.replicate_append_replicate]
    congr 1
    omega
  obtain ⟨z1, z2, z3, z4, hz, l1, l2, l3, l4⟩ := hz
  rw [hz]
  simp only [Cur.start]
  rw [Operations.putAt_len [] z1 (z2 ++ (z3 ++ z4)) (by simp) (by rfl) (by rw [l1]; rfl)]
  simp only [Res.ok_bind]
  rw [List.nil_append, Cur.adv_append _ _ _ (by rfl)]
  simp only [Res.ok_bind]
  rw [Operations.putAt_len [] z2 (z3 ++ z4) (by simp) (by rfl) (by simp [l2])]
  simp only [Res.ok_bind]
  rw [List.nil_append, Cur.adv_append _ _ _ (by simp)]
  simp only [Res.ok_bind]
  rw [Cur.copy_append _ _ _ _ l3, Cur.adv_append _ _ _ rfl]
  simp only [Res.ok_bind]
  rw [← List.append_nil z4, Cur.copy_append _ _ _ _ l4]
  rw [be16, Operations.u16_small h]
  rcases f with ⟨p, d, c, n⟩
  cases c <;> cases n <;> simp [Cur.buf, flagComplete, flagNext]

/-- **C35** (part) Port name and data survive; both flags come back as set if either was. -/
theorem port_round_trip_partial (f : PortIO) (h : f.port.length < 2 ^ 16) :
    ∃ bs, f.encode = .ok bs ∧ PortIO.decode bs = .ok ⟨f.port, f.data, f.complete || f.next, f.complete || f.next⟩ := by
  refine ⟨_, encode_port f h, ?_⟩
  unfold PortIO.decode
  obtain ⟨v, g, k⟩ := Operations.getU16_be h (f.port ++ f.data)
  have e : ∀ x : UInt8, x :: beBytes 2 f.port.length ++ f.port ++ f.data = [x] ++ (beBytes 2 f.port.length ++ (f.port ++ f.data)) := by
    intro x; simp
  rw [e]
  have i0 : ∀ x (l : Bytes), index ([x] ++ l) 0 = .ok x := by intro x l; simp [index]
  rw [i0, Res.ok_bind, Operations.sliceFrom_append (by rfl), Res.ok_bind, g, Res.ok_bind, Operations.sliceFrom_append (by simp),
    Res.ok_bind, Operations.sliceTo_append k, Res.ok_bind, Operations.sliceFrom_append k, Res.ok_bind]
  have c0 : check 0 1 = false := by decide
  have c1 : check 1 1 = true := by decide
  rcases f with ⟨p, d, c, n⟩
  cases c <;> cases n <;> simp [flagComplete, flagNext, c0, c1]

/-- **C35** (part) Messages with both flags or none are kept exactly. -/
theorem port_round_trip_equal_flags_partial (f : PortIO) (h : f.port.length < 2 ^ 16) (hf : f.complete = f.next) :
    ∃ bs, f.encode = .ok bs ∧ PortIO.decode bs = .ok f := by
  obtain ⟨bs, h1, h2⟩ := port_round_trip_partial f h
  refine ⟨bs, h1, ?_⟩
  rw [h2, hf, Bool.or_self]
  congr 1
  rcases f with ⟨p, d, c, n⟩
  simp only at hf
  simp [hf]

example : PortIO.encode ⟨[0x69, 0x6e], [7, 8], true, true⟩ = .ok [1, 0, 2, 0x69, 0x6e, 7, 8] := by decide

/-- **C35** is false of the code: a message that is not the last one is received as the last one, since both
flags have the value 1. -/
theorem port_flags_refuted :
    PortIO.encode ⟨[0x69], [7], false, true⟩ = .ok [1, 0, 1, 0x69, 7] ∧
    PortIO.decode [1, 0, 1, 0x69, 7] = .ok ⟨[0x69], [7], true, true⟩ := by decide

end Iota.Props.Registry
