import Verif.Spec.Paging

/-! # A stream that is asked for page by page (C162) -/

namespace Iota.Props.Paging
open Iota.Paging Iota.Spec.Paging

variable {σ α : Type}

/-! ## Lists -/

theorem sum_erase : ∀ {l : List Nat} {k n : Nat}, l[k]? = some n → (l.eraseIdx k).sum + n = l.sum
  | [], k, n, h => by simp at h
  | x :: l, 0, n, h => by
    simp only [List.getElem?_cons_zero, Option.some.injEq] at h
    subst h
    simp [Nat.add_comm]
  | x :: l, k + 1, n, h => by
    simp only [List.getElem?_cons_succ] at h
    have := sum_erase h
    simp only [List.eraseIdx_cons_succ, List.sum_cons]
    omega

theorem length_erase {β : Type} {l : List β} {k : Nat} {n : β} (h : l[k]? = some n) : (l.eraseIdx k).length + 1 = l.length := by
  obtain ⟨hk, _⟩ := List.getElem?_eq_some_iff.mp h
  rw [List.length_eraseIdx_of_lt hk]
  omega

theorem map_erase {β γ : Type} (g : β → γ) : ∀ (l : List β) (k : Nat), (l.eraseIdx k).map g = (l.map g).eraseIdx k
  | [], k => by simp
  | x :: l, 0 => by simp
  | x :: l, k + 1 => by simp [map_erase g l k]

theorem total_succ (page : Nat → Nat) (k : Nat) : total page (k + 1) = total page k + page k := by
  simp [total, List.range_succ]

theorem yields_none {next : Source σ α} {s : σ} {l : List α} (h : Yields next s l) (hn : next s = none) : l = [] := by
  cases h with
  | nil _ => rfl
  | cons h _ => rw [hn] at h; cases h

theorem yields_some {next : Source σ α} {s s' : σ} {v : α} {l : List α} (h : Yields next s l) (hn : next s = some (v, s')) :
    ∃ l', l = v :: l' ∧ Yields next s' l' := by
  cases h with
  | nil h => rw [hn] at h; cases h
  | cons h h' =>
    rw [hn] at h
    cases h
    exact ⟨_, rfl, h'⟩

theorem yields_unique {next : Source σ α} {s : σ} {l : List α} (h : Yields next s l) : ∀ {l' : List α}, Yields next s l' → l = l' := by
  induction h with
  | nil h => exact fun h' => (yields_none h' h).symm
  | cons h _ ih =>
    intro l' h'
    obtain ⟨l'', rfl, h2⟩ := yields_some h' h
    rw [ih h2]

/-! ## Invariant -/

/-- The demand in a frame. -/
def Up.demand : Up → Nat
  | .request n => n.toNat
  | .more n => n.toNat

/-- The elements on their way. -/
def values (down : List (Option α)) : List α := down.filterMap id

/-- Demand that has not come to an end. -/
def transit (s : State σ α) : Nat :=
  s.spawned.sum + (s.up.map Up.demand).sum + (s.tasks.map UInt32.toNat).sum + s.waiting.sum + s.loop.getD 0

/-- One more step to do for some flags. -/
def bit (b : Bool) : Nat := if b then 1 else 0

/-- How much is left to do when `rest` elements are left. -/
def weight (s : State σ α) (rest : Nat) : Nat :=
  12 * rest + 11 * (values s.down).length + 8 * s.spawned.length + 7 * s.up.length + 6 * s.tasks.length + 4 * s.waiting.length +
    3 * bit s.loop.isSome + bit (!s.closed) + bit (!s.ended) + bit (!s.complete)

/-- What holds while the handler serves. -/
structure Serving (next : Source σ α) (page : Nat → Nat) (xs : List α) (s : State σ α) (rest : List α) : Prop where
  stage : s.stage = .serving
  first : s.first = false
  fine : s.crashed = false
  pages : 0 < s.pages
  more : ∀ f ∈ s.up, ∃ n, f = .more n
  left : s.n + s.got.length = total page s.pages
  wants : 0 < s.n
  small : ∀ n ∈ s.spawned, n < 2 ^ 31
  yields : Yields next s.src rest
  whole : xs = s.got ++ values s.down ++ rest
  exact : s.closed = false → s.got.length + (values s.down).length + transit s = total page s.pages
  most : s.got.length + (values s.down).length + transit s ≤ total page s.pages
  open_ : s.closed = false → s.ended = false ∧ ∀ f ∈ s.down, f ≠ none
  shut : s.closed = true → rest = [] ∧ ((s.ended = false ∧ ∃ l : List α, s.down = l.map some ++ [none]) ∨ (s.ended = true ∧ s.down = []))
  last : s.closed = false → rest = [] → 0 < s.got.length + (values s.down).length → s.loop ≠ none
  marked : s.complete = true → s.ended = true

/-- The stages before. -/
inductive Inv (next : Source σ α) (page : Nat → Nat) (src : σ) (xs : List α) : State σ α → Nat → Prop
  | fresh : Inv next page src xs (init src) (12 * xs.length + 20)
  | asked : Inv next page src xs { init src with pages := 1, n := page 0, spawned := [page 0] } (12 * xs.length + 19)
  | sent : Inv next page src xs { init src with pages := 1, n := page 0, first := false, up := [.request (UInt32.ofNat (page 0))] } (12 * xs.length + 18)
  | called : Inv next page src xs { init src with pages := 1, n := page 0, first := false, stage := .called (UInt32.ofNat (page 0)) }
      (12 * xs.length + 17)
  | serving {s : State σ α} {rest : List α} : Serving next page xs s rest → Inv next page src xs s (weight s rest.length)

theorem of_toNat {n : Nat} (h : n < 2 ^ 31) : (UInt32.ofNat n).toNat = n := by
  rw [UInt32.toNat_ofNat']
  omega

theorem bit_le (b : Bool) : bit b ≤ 1 := by cases b <;> simp [bit]

theorem values_append (a b : List (Option α)) : values (a ++ b) = values a ++ values b := by simp [values]

theorem values_map (l : List α) : values (l.map some) = l := by simp [values]

theorem step_serving {next : Source σ α} {page : Nat → Nat} (hp : Fits page) {xs : List α} {s s' : State σ α} {rest : List α}
    (h : Serving next page xs s rest) {a : Act} (hs : step next page s a = some s') :
    ∃ rest', Serving next page xs s' rest' ∧ weight s' rest'.length < weight s rest.length := by
  obtain ⟨h1, h2, h3, h4, h5, h6, h7, h8, h9, h10, h11, h12, h13, h14, h15, h16⟩ := h
  cases a with
  | subscribe =>
    simp only [step] at hs
    split at hs
    · omega
    · cases hs
  | send k =>
    simp only [step] at hs
    split at hs
    · cases hs
    · rename_i n hk
      cases hs
      have e1 := sum_erase hk
      have e2 := length_erase hk
      have hm := List.mem_of_getElem? hk
      have hsm : ∀ m ∈ s.spawned.eraseIdx k, m < 2 ^ 31 := fun m hm => h8 m (List.mem_of_mem_eraseIdx hm)
      unfold request
      simp only [h2, Bool.false_eq_true, if_false]
      by_cases hc : s.complete = true
      · rw [if_pos hc]
        have he := h16 hc
        have hcl : s.closed = true := by
          cases hcl : s.closed with
          | true => rfl
          | false => rw [(h13 hcl).1] at he; cases he
        refine ⟨rest, ⟨h1, rfl, h3, h4, h5, h6, h7, hsm, h9, h10, fun hf => ?_, ?_, h13, h14, h15, h16⟩, ?_⟩
        · dsimp only at hf; rw [hcl] at hf; cases hf
        · simp only [transit] at h12 ⊢; omega
        · simp only [weight]; omega
      · rw [if_neg hc]
        have e3 := of_toNat (h8 n hm)
        refine ⟨rest, ⟨h1, rfl, h3, h4, ?_, h6, h7, hsm, h9, h10, fun hf => ?_, ?_, h13, h14, h15, h16⟩, ?_⟩
        · intro f hf
          rcases List.mem_append.mp hf with hf | hf
          · exact h5 f hf
          · exact ⟨_, List.mem_singleton.mp hf⟩
        · have := h11 hf
          simp only [transit, List.map_append, List.sum_append, List.map_cons, List.map_nil, List.sum_cons, List.sum_nil, Up.demand] at this ⊢
          omega
        · simp only [transit, List.map_append, List.sum_append, List.map_cons, List.map_nil, List.sum_cons, List.sum_nil, Up.demand] at h12 ⊢
          omega
        · simp only [weight, List.length_append, List.length_singleton]; omega
  | recvUp =>
    simp only [step] at hs
    split at hs
    · cases hs
    · rename_i f fs hu
      cases hs
      obtain ⟨n, rfl⟩ := h5 f (by rw [hu]; exact List.mem_cons_self ..)
      simp only [takeUp, h1]
      refine ⟨rest, ⟨rfl, h2, h3, h4, fun f hf => h5 f (by rw [hu]; exact List.mem_cons_of_mem _ hf), h6, h7, h8, h9, h10, fun hf => ?_, ?_, h13, h14,
        h15, h16⟩, ?_⟩
      · have := h11 hf
        simp only [transit, hu, List.map_append, List.sum_append, List.map_cons, List.map_nil, List.sum_cons, List.sum_nil, Up.demand] at this ⊢
        omega
      · simp only [transit, hu, List.map_append, List.sum_append, List.map_cons, List.map_nil, List.sum_cons, List.sum_nil, Up.demand] at h12 ⊢
        omega
      · simp only [weight, hu, List.length_append, List.length_cons, List.length_nil]; omega
  | attach =>
    simp only [step, h1] at hs
    cases hs
  | task k =>
    simp only [step] at hs
    split at hs
    · cases hs
    · rename_i n hk
      cases hs
      have e1 := sum_erase (l := s.tasks.map UInt32.toNat) (k := k) (n := n.toNat) (by simp [hk])
      rw [← map_erase] at e1
      have e2 := length_erase hk
      simp only [demand, h1]
      refine ⟨rest, ⟨rfl, h2, h3, h4, h5, h6, h7, h8, h9, h10, fun hf => ?_, ?_, h13, h14, h15, h16⟩, ?_⟩
      · have := h11 hf
        simp only [transit, List.sum_append, List.sum_cons, List.sum_nil] at this ⊢
        omega
      · simp only [transit, List.sum_append, List.sum_cons, List.sum_nil] at h12 ⊢
        omega
      · simp only [weight, List.length_append, List.length_singleton]; omega
  | run k =>
    simp only [step] at hs
    split at hs
    · rename_i n hl hk
      cases hs
      have e1 := sum_erase hk
      have e2 := length_erase hk
      refine ⟨rest, ⟨h1, h2, h3, h4, h5, h6, h7, h8, h9, h10, fun hf => ?_, ?_, h13, h14, fun _ _ _ => by simp, h16⟩, ?_⟩
      · have := h11 hf
        simp only [transit, hl, Option.getD_none, Option.getD_some] at this ⊢
        omega
      · simp only [transit, hl, Option.getD_none, Option.getD_some] at h12 ⊢
        omega
      · simp only [weight, hl, Option.isSome, bit, if_true, Bool.false_eq_true, if_false]; omega
    · cases hs
  | round =>
    simp only [step] at hs
    split at hs
    · cases hs
    · rename_i m hl
      cases hs
      have hend : ∀ t, t = endLoop next s → (m = 0 ∨ next s.src = none) →
          ∃ rest', Serving next page xs t rest' ∧ weight t rest'.length < weight s rest.length := by
        intro t ht hm
        subst ht
        unfold endLoop
        split
        · rename_i v hv
          rcases hm with rfl | hm
          · refine ⟨rest, ⟨h1, h2, h3, h4, h5, h6, h7, h8, h9, h10, fun hf => ?_, ?_, h13, h14, fun _ hr => ?_, h16⟩, ?_⟩
            · have := h11 hf
              simp only [transit, hl, Option.getD_none, Option.getD_some] at this ⊢
              omega
            · simp only [transit, hl, Option.getD_none, Option.getD_some] at h12 ⊢
              omega
            · obtain ⟨l', rfl, _⟩ := yields_some (v := v.1) (s' := v.2) h9 hv
              cases hr
            · simp only [weight, hl, Option.isSome, bit, if_true, Bool.false_eq_true, if_false]; omega
          · rw [hv] at hm; cases hm
        · rename_i hv
          obtain rfl := yields_none h9 hv
          split
          · rename_i hc
            refine ⟨[], ⟨h1, h2, h3, h4, h5, h6, h7, h8, h9, h10, fun hf => ?_, ?_, h13, h14, fun hf => ?_, h16⟩, ?_⟩
            · dsimp only at hf; rw [hc] at hf; cases hf
            · simp only [transit, hl, Option.getD_none, Option.getD_some] at h12 ⊢
              omega
            · dsimp only at hf; rw [hc] at hf; cases hf
            · simp only [weight, hl, Option.isSome, bit, if_true, Bool.false_eq_true, if_false]; omega
          · rename_i hc
            have hc : s.closed = false := by simpa using hc
            obtain ⟨o1, o2⟩ := h13 hc
            have e0 : values (s.down ++ [none]) = values s.down := by simp [values]
            refine ⟨[], ⟨h1, h2, h3, h4, h5, h6, h7, h8, h9, (by dsimp only; rw [e0]; exact h10), (fun hf => by cases hf), ?_, (fun hf => by cases hf), fun _ => ⟨rfl, .inl ⟨o1, ?_⟩⟩,
              (fun hf => by cases hf), h16⟩, ?_⟩
            · simp only [transit, hl, e0, Option.getD_none, Option.getD_some] at h12 ⊢
              omega
            · refine ⟨values s.down, ?_⟩
              dsimp only
              congr 1
              have : ∀ l : List (Option α), (∀ f ∈ l, f ≠ none) → l = (values l).map some := by
                intro l
                induction l with
                | nil => intro _; rfl
                | cons f l ih =>
                  intro hl
                  cases f with
                  | none => exact absurd rfl (hl none (List.mem_cons_self ..))
                  | some v =>
                    have := ih fun g hg => hl g (List.mem_cons_of_mem _ hg)
                    simp only [values, List.filterMap_cons, id] at this ⊢
                    rw [List.map_cons, ← this]
              exact this _ o2
            · simp only [weight, hl, e0, hc, Option.isSome, bit, if_true, Bool.not_false, Bool.not_true, Bool.false_eq_true, if_false]; omega
      unfold round
      split
      · rename_i m' v src' hv
        obtain ⟨l', rfl, hy⟩ := yields_some h9 hv
        split
        · rename_i hc
          have := (h14 hc).1
          cases this
        · rename_i hc
          have hc : s.closed = false := by simpa using hc
          obtain ⟨o1, o2⟩ := h13 hc
          have e0 : values (s.down ++ [some v]) = values s.down ++ [v] := by simp [values]
          refine ⟨l', ⟨h1, h2, h3, h4, h5, h6, h7, h8, hy, ?_, fun hf => ?_, ?_, fun hf => ⟨o1, ?_⟩, fun hf => ?_, fun _ _ _ => by simp, h16⟩, ?_⟩
          · dsimp only
            rw [e0, h10]
            simp
          · have := h11 hf
            simp only [transit, hl, e0, List.length_append, List.length_singleton, Option.getD_some] at this ⊢
            omega
          · simp only [transit, hl, e0, List.length_append, List.length_singleton, Option.getD_some] at h12 ⊢
            omega
          · intro f hf
            rcases List.mem_append.mp hf with hf | hf
            · exact o2 f hf
            · rw [List.mem_singleton.mp hf]; simp
          · dsimp only at hf; rw [hc] at hf; cases hf
          · simp only [weight, hl, e0, Option.isSome, List.length_append, List.length_cons, List.length_nil]; omega
      · rename_i m' o' o'' hnot
        refine hend _ rfl ?_
        cases m' with
        | zero => exact .inl rfl
        | succ k =>
          cases hv : next s.src with
          | none => exact .inr rfl
          | some p => exact absurd hv (hnot k p.1 p.2 rfl)
  | recvDown =>
    simp only [step] at hs
    split at hs
    · cases hs
    · rename_i f fs hd
      cases hs
      cases f with
      | none =>
        have hc : s.closed = true := by
          cases hc : s.closed with
          | true => rfl
          | false => exact absurd rfl ((h13 hc).2 none (by rw [hd]; exact List.mem_cons_self ..))
        obtain ⟨hr, hk⟩ := h14 hc
        subst hr
        rcases hk with ⟨k1, l, k2⟩ | ⟨_, k2⟩
        · have hl : l = [] ∧ fs = [] := by
            rw [hd] at k2
            cases l with
            | nil => simp only [List.map_nil, List.nil_append, List.cons.injEq] at k2; exact ⟨rfl, k2.2⟩
            | cons v l => simp at k2
          obtain ⟨rfl, rfl⟩ := hl
          simp only [takeDown]
          have e0 : values s.down = ([] : List α) := by rw [hd]; rfl
          rw [e0] at h10 h11 h12
          refine ⟨[], ⟨h1, h2, h3, h4, h5, h6, h7, h8, h9, h10, fun hf => ?_, h12, fun hf => ?_, fun _ => ⟨rfl, .inr ⟨rfl, rfl⟩⟩, fun hf => ?_, fun _ => rfl⟩, ?_⟩
          · dsimp only at hf; rw [hc] at hf; cases hf
          · dsimp only at hf; rw [hc] at hf; cases hf
          · dsimp only at hf; rw [hc] at hf; cases hf
          · have e1 : values ([] : List (Option α)) = [] := rfl
            simp only [weight, e0, e1, k1, bit, if_true, Bool.not_false, Bool.not_true, Bool.false_eq_true, if_false]; omega
        · rw [hd] at k2; cases k2
      | some v =>
        have he : s.ended = false := by
          cases hc : s.closed with
          | false => exact (h13 hc).1
          | true =>
            rcases (h14 hc).2 with ⟨k1, _⟩ | ⟨_, k2⟩
            · exact k1
            · rw [hd] at k2; cases k2
        have e0 : values s.down = v :: values fs := by rw [hd]; rfl
        have hsh : s.closed = true → rest = [] ∧ ((s.ended = false ∧ ∃ l : List α, fs = l.map some ++ [none]) ∨ (s.ended = true ∧ fs = [])) := by
          intro hc
          obtain ⟨hr, hk⟩ := h14 hc
          rcases hk with ⟨k1, l, k2⟩ | ⟨_, k2⟩
          · rw [hd] at k2
            cases l with
            | nil => simp at k2
            | cons w l =>
              simp only [List.map_cons, List.cons_append, List.cons.injEq] at k2
              exact ⟨hr, .inl ⟨k1, l, k2.2⟩⟩
          · rw [hd] at k2; cases k2
        have hop : s.closed = false → s.ended = false ∧ ∀ f ∈ fs, f ≠ none :=
          fun hc => ⟨he, fun f hf => (h13 hc).2 f (by rw [hd]; exact List.mem_cons_of_mem _ hf)⟩
        have hw : xs = s.got ++ [v] ++ values fs ++ rest := by rw [h10, e0]; simp
        have hlast : s.closed = false → rest = [] → 0 < (s.got ++ [v]).length + (values fs).length → s.loop ≠ none :=
          fun a b _ => h15 a b (by rw [e0]; simp only [List.length_cons]; omega)
        have hif : ¬({ s with down := fs } : State σ α).ended = true := by simp [he]
        simp only [takeDown, onNext]
        rw [if_neg hif]
        split
        · rename_i hn
          have ht := total_succ page s.pages
          obtain ⟨p1, p2⟩ := hp s.pages
          refine ⟨rest, ⟨h1, h2, h3, Nat.succ_pos _, h5, ?_, ?_, ?_, h9, hw, fun hf => ?_, ?_, hop, hsh, hlast, ?_⟩, ?_⟩
          · simp only [ask, List.length_append, List.length_singleton, ht]; omega
          · simp only [ask]; omega
          · intro n hn
            simp only [ask] at hn
            rcases List.mem_append.mp hn with hn | hn
            · exact h8 n hn
            · rw [List.mem_singleton.mp hn]; exact p2
          · have := h11 hf
            simp only [ask, transit, e0, ht, List.length_append, List.length_cons, List.length_nil, List.sum_append, List.sum_cons, List.sum_nil] at this ⊢
            omega
          · simp only [ask, transit, e0, ht, List.length_append, List.length_cons, List.length_nil, List.sum_append, List.sum_cons, List.sum_nil] at h12 ⊢
            omega
          · intro hm; have := h16 hm; rw [this] at he; cases he
          · simp only [weight, ask, e0, List.length_append, List.length_cons, List.length_nil]; omega
        · rename_i hn
          refine ⟨rest, ⟨h1, h2, h3, h4, h5, ?_, ?_, h8, h9, hw, fun hf => ?_, ?_, hop, hsh, hlast, fun hm => ?_⟩, ?_⟩
          · simp only [List.length_append, List.length_singleton]; omega
          · dsimp only; omega
          · have := h11 hf
            simp only [transit, e0, List.length_append, List.length_cons, List.length_nil] at this ⊢
            omega
          · simp only [transit, e0, List.length_append, List.length_cons, List.length_nil] at h12 ⊢
            omega
          · have := h16 hm; rw [this] at he; cases he
          · simp only [weight, e0, List.length_cons, List.length_nil]; omega
  | mark =>
    simp only [step] at hs
    split at hs
    · rename_i hc
      cases hs
      simp only [Bool.and_eq_true, Bool.not_eq_true'] at hc
      refine ⟨rest, ⟨h1, h2, h3, h4, h5, h6, h7, h8, h9, h10, h11, h12, h13, h14, h15, fun _ => hc.1⟩, ?_⟩
      simp only [weight, hc.2, bit, if_true, Bool.not_false, Bool.not_true, Bool.false_eq_true, if_false]; omega
    · cases hs

theorem step_inv {next : Source σ α} {page : Nat → Nat} (hp : Fits page) {src : σ} {xs : List α} (hy : Yields next src xs) {s s' : State σ α} {m : Nat}
    (h : Inv next page src xs s m) {a : Act} (hs : step next page s a = some s') : ∃ m', m' < m ∧ Inv next page src xs s' m' := by
  obtain ⟨p1, p2⟩ := hp 0
  cases h with
  | fresh =>
    cases a <;> simp [step, init] at hs
    subst hs
    refine ⟨_, ?_, by simpa [ask, init] using Inv.asked⟩
    omega
  | asked =>
    cases a <;> simp [step, init] at hs
    rename_i k
    cases k with
    | zero =>
      simp [request] at hs
      subst hs
      exact ⟨_, by omega, .sent⟩
    | succ k => simp at hs
  | sent =>
    cases a <;> simp [step, init] at hs
    simp [takeUp] at hs
    subst hs
    exact ⟨_, by omega, .called⟩
  | called =>
    cases a <;> simp [step, init] at hs
    subst hs
    have e1 := of_toNat p2
    refine ⟨_, ?_, .serving (rest := xs) ⟨rfl, rfl, rfl, Nat.one_pos, fun f hf => absurd hf List.not_mem_nil, ?_, ?_, fun f hf => absurd hf List.not_mem_nil, hy, ?_,
      fun _ => ?_, ?_, fun _ => ⟨rfl, fun f hf => absurd hf List.not_mem_nil⟩, (fun hf => by cases hf), fun _ _ hl => ?_, (fun hf => by cases hf)⟩⟩
    · simp [weight, values, bit]
    · simp [total]
    · simpa using p1
    · simp [values]
    · simp [values, transit, total]; omega
    · simp [values, transit, total]; omega
    · simp [values] at hl
  | serving h =>
    obtain ⟨rest', h', hw⟩ := step_serving hp h hs
    exact ⟨_, hw, .serving h'⟩

theorem run_inv {next : Source σ α} {page : Nat → Nat} (hp : Fits page) {src : σ} {xs : List α} (hy : Yields next src xs) :
    ∀ {as : List Act} {s s' : State σ α} {m : Nat}, Inv next page src xs s m → run next page s as = some s' →
      ∃ m', m' + as.length ≤ m ∧ Inv next page src xs s' m'
  | [], s, s', m, h, hr => by
    cases hr
    exact ⟨m, Nat.le_refl _, h⟩
  | a :: as, s, s', m, h, hr => by
    simp only [run] at hr
    split at hr
    · cases hr
    · rename_i s1 h1
      obtain ⟨m1, hm, h2⟩ := step_inv hp hy h h1
      obtain ⟨m2, hm2, h3⟩ := run_inv hp hy h2 hr
      exact ⟨m2, by simp only [List.length_cons]; omega, h3⟩

/-! ## C162 -/

/-- **C162** At any time the subscriber has got the first elements of the source, in order, no more than it has asked for; nothing has crashed;
and if it was told the end, it has got all of them. -/
theorem paged_in_order {next : Source σ α} {page : Nat → Nat} (hp : Fits page) {src : σ} {xs : List α} (hy : Yields next src xs) {as : List Act}
    {s : State σ α} (h : run next page (init src) as = some s) :
    s.got <+: xs ∧ s.got.length ≤ total page s.pages ∧ s.crashed = false ∧ (s.ended = true → s.got = xs) := by
  obtain ⟨m, _, hi⟩ := run_inv hp hy .fresh h
  have e0 : total page 0 = 0 := rfl
  cases hi with
  | fresh => exact ⟨List.nil_prefix, Nat.zero_le _, rfl, (fun hf => by cases hf)⟩
  | asked => exact ⟨List.nil_prefix, Nat.zero_le _, rfl, (fun hf => by cases hf)⟩
  | sent => exact ⟨List.nil_prefix, Nat.zero_le _, rfl, (fun hf => by cases hf)⟩
  | called => exact ⟨List.nil_prefix, Nat.zero_le _, rfl, (fun hf => by cases hf)⟩
  | serving hs =>
    refine ⟨⟨_, by rw [hs.whole, List.append_assoc]⟩, by have := hs.most; omega, hs.fine, fun he => ?_⟩
    cases hc : s.closed with
    | false => rw [(hs.open_ hc).1] at he; cases he
    | true =>
      obtain ⟨h1, h2⟩ := hs.shut hc
      subst h1
      rcases h2 with ⟨h2, _⟩ | ⟨_, h2⟩
      · rw [h2] at he; cases he
      · rw [hs.whole, h2]
        simp [values]

/-- **C162** The other side is never ahead of what was asked for: what it has sent, together with what it will still send for demand it knows of or that
is on its way, is no more. -/
theorem paged_demand {next : Source σ α} {page : Nat → Nat} (hp : Fits page) {src : σ} {xs : List α} (hy : Yields next src xs) {as : List Act}
    {s : State σ α} (h : run next page (init src) as = some s) (rest : List α) (hr : Yields next s.src rest) :
    xs.length - rest.length ≤ total page s.pages := by
  obtain ⟨m, _, hi⟩ := run_inv hp hy .fresh h
  have he : ∀ t : State σ α, t.src = src → Yields next t.src rest → xs.length - rest.length = 0 := by
    intro t ht hr
    rw [ht] at hr
    rw [yields_unique hy hr]
    omega
  cases hi with
  | fresh => rw [he _ rfl hr]; exact Nat.zero_le _
  | asked => rw [he _ rfl hr]; exact Nat.zero_le _
  | sent => rw [he _ rfl hr]; exact Nat.zero_le _
  | called => rw [he _ rfl hr]; exact Nat.zero_le _
  | serving hs =>
    obtain rfl := yields_unique hs.yields hr
    have h1 := hs.most
    rw [hs.whole]
    simp only [List.length_append]
    omega

/-- **C162** It does not go on forever: there is a bound on the number of steps. -/
theorem paged_ends {next : Source σ α} {page : Nat → Nat} (hp : Fits page) {src : σ} {xs : List α} (hy : Yields next src xs) {as : List Act}
    {s : State σ α} (h : run next page (init src) as = some s) : as.length ≤ 12 * xs.length + 20 := by
  obtain ⟨m, hm, _⟩ := run_inv hp hy .fresh h
  omega

theorem cons_at {β : Type} {l : List β} (h : l ≠ []) : ∃ x, l[0]? = some x := by
  cases l with
  | nil => exact absurd rfl h
  | cons x l => exact ⟨x, rfl⟩

/-- **C162** And when nothing is left to be done, the subscriber has got everything and was told the end. -/
theorem paged_all {next : Source σ α} {page : Nat → Nat} (hp : Fits page) {src : σ} {xs : List α} (hy : Yields next src xs) {as : List Act}
    {s : State σ α} (h : run next page (init src) as = some s) (hstuck : ∀ a, step next page s a = none) :
    s.got = xs ∧ s.ended = true := by
  obtain ⟨m, _, hi⟩ := run_inv hp hy .fresh h
  cases hi with
  | fresh => have := hstuck .subscribe; simp [step, init] at this
  | asked => have := hstuck (.send 0); simp [step, init] at this
  | sent => have := hstuck .recvUp; simp [step, init] at this
  | called => have := hstuck .attach; simp [step, init] at this
  | serving hs =>
    have h1 : s.spawned = [] := Classical.byContradiction fun hne => by
      obtain ⟨x, hx⟩ := cons_at hne
      have := hstuck (.send 0)
      simp [step, hx] at this
    have h2 : s.up = [] := Classical.byContradiction fun hne => by
      have := hstuck .recvUp
      cases hu : s.up with
      | nil => exact hne hu
      | cons f fs => simp [step, hu] at this
    have h3 : s.tasks = [] := Classical.byContradiction fun hne => by
      obtain ⟨x, hx⟩ := cons_at hne
      have := hstuck (.task 0)
      simp [step, hx] at this
    have h4 : s.loop = none := by
      have := hstuck .round
      cases hl : s.loop with
      | none => rfl
      | some n => simp [step, hl] at this
    have h5 : s.waiting = [] := Classical.byContradiction fun hne => by
      obtain ⟨x, hx⟩ := cons_at hne
      have := hstuck (.run 0)
      simp [step, hx, h4] at this
    have h6 : s.down = [] := Classical.byContradiction fun hne => by
      have := hstuck .recvDown
      cases hu : s.down with
      | nil => exact hne hu
      | cons f fs => simp [step, hu] at this
    have hc : s.closed = true := by
      cases hc : s.closed with
      | true => rfl
      | false =>
        exfalso
        have e1 := hs.exact hc
        have e2 := hs.left
        have e3 := hs.wants
        simp only [transit, h1, h2, h3, h4, h5, h6, List.map_nil, List.sum_nil, Option.getD_none] at e1
        have e4 : (values ([] : List (Option α))).length = 0 := rfl
        omega
    obtain ⟨e1, e2⟩ := hs.shut hc
    subst e1
    rcases e2 with ⟨_, l, hl⟩ | ⟨e2, _⟩
    · rw [h6] at hl; simp at hl
    · refine ⟨?_, e2⟩
      rw [hs.whole, h6]
      simp [values]

/-! ## The sources -/

theorem fromSlice_yields (l : List α) : Yields fromSlice l l := by
  induction l with
  | nil => exact .nil rfl
  | cons v l ih => exact .cons rfl ih

theorem countTo_yields (to_ : UInt64) (k : Nat) : ∀ i : UInt64, i.toNat + k = to_.toNat + 1 → to_.toNat < 2 ^ 64 - 1 →
    Yields (countTo to_) i ((List.range k).map fun j => i + UInt64.ofNat j) := by
  induction k with
  | zero =>
    intro i hi ht
    refine .nil ?_
    rw [countTo, if_neg]
    rw [UInt64.le_iff_toNat_le]
    omega
  | succ k ih =>
    intro i hi ht
    have h1 : (i + 1).toNat = i.toNat + 1 := by
      rw [UInt64.toNat_add]
      simp
      omega
    have := ih (i + 1) (by omega) ht
    rw [List.range_succ_eq_map, List.map_cons, List.map_map]
    have e0 : i + UInt64.ofNat 0 = i := by simp
    rw [e0]
    refine .cons (s' := i + 1) ?_ ?_
    · rw [countTo, if_pos]
      rw [UInt64.le_iff_toNat_le]
      omega
    · have e1 : ((fun j => i + UInt64.ofNat j) ∘ Nat.succ) = fun j => i + 1 + UInt64.ofNat j := by
        funext j
        simp only [Function.comp]
        apply UInt64.toNat.inj
        simp only [UInt64.toNat_add, UInt64.toNat_ofNat', UInt64.reduceToNat]
        omega
      rw [e1]
      exact this

/-- **C162** `CountToN` counts from one to the number it is given, unless this is the largest there is. -/
theorem counter_counts (to_ : UInt64) (h : to_.toNat < 2 ^ 64 - 1) : Yields (countTo to_) 1 (upTo to_.toNat) := by
  have := countTo_yields to_ to_.toNat 1 (by simp; omega) h
  have e1 : (fun j => 1 + UInt64.ofNat j) = fun k => UInt64.ofNat (k + 1) := by
    funext j
    apply UInt64.toNat.inj
    simp only [UInt64.toNat_add, UInt64.toNat_ofNat', UInt64.reduceToNat]
    omega
  rw [e1] at this
  exact this

/-- **C162** for the counter: when nothing is left to be done, the subscriber of `CountToN(to)` was told the numbers from one to `to`, and the end. -/
theorem counter_paged {page : Nat → Nat} (hp : Fits page) (to_ : UInt64) (ht : to_.toNat < 2 ^ 64 - 1) {as : List Act} {s : State UInt64 UInt64}
    (h : run (countTo to_) page (init 1) as = some s) (hstuck : ∀ a, step (countTo to_) page s a = none) :
    s.got = upTo to_.toNat ∧ s.ended = true := paged_all hp (counter_counts to_ ht) h hstuck

/-- What holds if a source always has a next element. -/
structure Endless (s : State σ α) : Prop where
  closed : s.closed = false
  ended : s.ended = false
  down : ∀ f ∈ s.down, f ≠ none

theorem endless_step {next : Source σ α} {page : Nat → Nat} (hn : ∀ x, next x ≠ none) {s s' : State σ α} (h : Endless s) {a : Act}
    (hs : step next page s a = some s') : Endless s' := by
  obtain ⟨h1, h2, h3⟩ := h
  cases a with
  | subscribe => simp only [step] at hs; split at hs <;> cases hs; exact ⟨h1, h2, h3⟩
  | send k =>
    simp only [step] at hs
    split at hs <;> cases hs
    unfold request
    (repeat' split) <;> exact ⟨h1, h2, h3⟩
  | recvUp =>
    simp only [step] at hs
    split at hs <;> cases hs
    unfold takeUp
    (repeat' split) <;> exact ⟨h1, h2, h3⟩
  | attach => simp only [step] at hs; split at hs <;> cases hs; exact ⟨h1, h2, h3⟩
  | task k =>
    simp only [step] at hs
    split at hs <;> cases hs
    unfold demand
    (repeat' split) <;> exact ⟨h1, h2, h3⟩
  | run k => simp only [step] at hs; split at hs <;> cases hs; exact ⟨h1, h2, h3⟩
  | round =>
    simp only [step] at hs
    split at hs <;> cases hs
    have hend : Endless (endLoop next s) := by
      unfold endLoop
      split
      · exact ⟨h1, h2, h3⟩
      · rename_i hx; exact absurd hx (hn _)
    unfold round
    split
    · split
      · exact ⟨h1, h2, h3⟩
      · refine ⟨h1, h2, fun f hf => ?_⟩
        rcases List.mem_append.mp hf with hf | hf
        · exact h3 f hf
        · rw [List.mem_singleton.mp hf]; simp
    · exact hend
  | recvDown =>
    simp only [step] at hs
    split at hs <;> cases hs
    rename_i f fs hd
    have h4 : ∀ f ∈ fs, f ≠ none := fun f hf => h3 f (by rw [hd]; exact List.mem_cons_of_mem _ hf)
    cases f with
    | none => exact absurd rfl (h3 none (by rw [hd]; exact List.mem_cons_self ..))
    | some v =>
      simp only [takeDown, onNext]
      (repeat' split) <;> exact ⟨h1, h2, h4⟩
  | mark => simp only [step] at hs; split at hs <;> cases hs; exact ⟨h1, h2, h3⟩

theorem endless_run {next : Source σ α} {page : Nat → Nat} (hn : ∀ x, next x ≠ none) : ∀ {as : List Act} {s s' : State σ α}, Endless s →
    run next page s as = some s' → Endless s'
  | [], s, s', h, hr => by cases hr; exact h
  | a :: as, s, s', h, hr => by
    simp only [run] at hr
    split at hr
    · cases hr
    · rename_i s1 h1
      exact endless_run hn (endless_step hn h h1) hr

/-- **C162** is not true of `CountToN` with the largest number: nobody is ever told the end, as the variable wraps around. -/
theorem counter_never_ends_refuted (page : Nat → Nat) (as : List Act) (s : State UInt64 UInt64)
    (h : run (countTo (UInt64.ofNat (2 ^ 64 - 1))) page (init 1) as = some s) : s.ended = false := by
  refine (endless_run (fun x => ?_) ⟨rfl, rfl, fun f hf => absurd hf List.not_mem_nil⟩ h).ended
  rw [countTo, if_pos]
  · simp
  · rw [UInt64.le_iff_toNat_le]
    have := x.toNat_lt
    simp only [UInt64.toNat_ofNat']
    omega

/-! ## Examples -/

/-- Pages of two. -/
def two : Nat → Nat := fun _ => 2

/-- Three elements, asked for in pages of two: everything is done in the end, and the subscriber has them. Meanwhile it has asked again. -/
def three : List Act :=
  [.subscribe, .send 0, .recvUp, .attach, .run 0, .round, .round, .round, .recvDown, .recvDown, .send 0, .recvUp, .task 0, .run 0, .round, .round,
    .recvDown, .recvDown, .mark]

example : ∃ s, run (countTo 3) two (init 1) three = some s ∧ (∀ a, step (countTo 3) two s a = none) ∧ s.got = [1, 2, 3] ∧ s.pages = 2 := by
  refine ⟨⟨2, 1, [1, 2, 3], true, [], false, true, [], .serving, [], [], none, 4, true, [], false⟩, by decide, fun a => ?_, rfl, rfl⟩
  cases a <;> simp [step]

example : (run fromSlice two (init [7, 8, 9]) three).map (fun s => (s.got, s.ended)) = some ([7, 8, 9], true) := by decide

example : Fits two := fun _ => by simp [two]

end Iota.Props.Paging
