import Mathlib.Data.List.Forall2
import Verif.Model.StreamId

/-! # C08, C09: stream ids -/

namespace Iota.Props.StreamId
open Iota.StreamId

theorem mask_toNat (v : UInt64) : ((maskStreamID &&& v).toUInt32).toNat = v.toNat % 2 ^ 31 := by
  simp only [maskStreamID, UInt64.toNat_toUInt32, UInt64.toNat_and]
  have : (2147483647 : UInt64).toNat = 2 ^ 31 - 1 := by decide
  rw [this, Nat.and_comm, Nat.and_two_pow_sub_one_eq_mod]
  omega

theorem value_server (s : UInt64) : (value .server s).toNat = (2 * s.toNat) % 2 ^ 64 := by
  simp [value, UInt64.toNat_mul]

theorem value_client (s : UInt64) : (value .client s).toNat = (2 * s.toNat + (2 ^ 64 - 1)) % 2 ^ 64 := by
  simp only [value, UInt64.toNat_add, UInt64.toNat_mul, UInt64.toNat_sub]
  have h1 : (1 : UInt64).toNat = 1 := rfl
  have h2 : (2 : UInt64).toNat = 2 := rfl
  have := s.toNat_lt
  rw [h1, h2]; omega

/-- The id handed out for the `n`-th draw, by arithmetic alone: `2n` or `2n - 1` modulo `2^31`. -/
def idOf : Side → Nat → Nat
  | .server, n => (2 * n) % 2 ^ 31
  | .client, n => (2 * n + (2 ^ 31 - 1)) % 2 ^ 31

theorem finish_id {side : Side} {seed : UInt64} {r : UInt32 × Bool} (h : finish side seed = some r) :
    r.1.toNat = idOf side seed.toNat := by
  unfold finish at h
  split at h
  · injection h with h
    rw [← h]
    simp only [mask_toNat]
    cases side with
    | server => rw [value_server, idOf]; omega
    | client => rw [value_client, idOf]; omega
  · cases h

theorem finish_loop {side : Side} {seed : UInt64} {r : UInt32 × Bool} (h : finish side seed = some r) :
    (r.2 = true ↔ seed.toNat ≤ 2 ^ 30) := by
  unfold finish at h
  split at h
  · injection h with h
    rw [← h]
    simp only [decide_eq_true_eq, UInt64.le_iff_toNat_le, halfSeed]
    have : (1073741824 : UInt64).toNat = 2 ^ 30 := by decide
    rw [this]
  · cases h

theorem finish_server_none {seed : UInt64} :
    finish .server seed = none ↔ seed.toNat % 2 ^ 63 = 0 := by
  unfold finish
  have hv := value_server seed
  have := seed.toNat_lt
  split
  · rename_i hne
    simp only [reduceCtorEq, false_iff]
    intro h0
    apply hne
    apply UInt64.toNat_inj.mp
    rw [hv]; simp; omega
  · rename_i he
    simp only [ne_eq, Classical.not_not] at he
    simp only [true_iff]
    rw [he] at hv
    have : (0 : UInt64).toNat = 0 := rfl
    omega

theorem finish_client_some (seed : UInt64) : finish .client seed ≠ none := by
  unfold finish
  have hv := value_client seed
  intro h
  split at h
  · cases h
  · rename_i he
    simp only [ne_eq, Classical.not_not] at he
    rw [he] at hv
    have : (0 : UInt64).toNat = 0 := rfl
    omega

/-! ## Invariant: every result comes from its own draw -/

/-- `ord` maps each returned result and each held seed to its own draw number in `1..draws`. -/
structure Inv (side : Side) (s : State) : Prop where
  counter : s.counter.toNat = s.draws % 2 ^ 64
  ex : ∃ (os : List Nat) (p : Nat → Nat),
    (List.Forall₂ (fun (o : Nat) (e : Nat × UInt32 × Bool) =>
      e.2.1.toNat = idOf side (o % 2 ^ 64) ∧ (e.2.2 = true ↔ o % 2 ^ 64 ≤ 2 ^ 30) ∧
      ¬ (side = .server ∧ o % 2 ^ 63 = 0)) os s.out) ∧
    os.Nodup ∧ (∀ o ∈ os, 1 ≤ o ∧ o ≤ s.draws) ∧
    (∀ t seed, s.pc t = .drawn seed → seed.toNat = p t % 2 ^ 64 ∧ p t ∉ os ∧ 1 ≤ p t ∧ p t ≤ s.draws) ∧
    (∀ t u seed seed', s.pc t = .drawn seed → s.pc u = .drawn seed' → t ≠ u → p t ≠ p u)

theorem inv_init (side : Side) : Inv side init :=
  ⟨rfl, [], fun _ => 0, .nil, .nil, by simp, by intro t seed h; simp [init] at h,
    by intro t u a b h; simp [init] at h⟩

theorem inv_step {side : Side} {s s' : State} (hs : Step side s s') (hi : Inv side s) : Inv side s' := by
  obtain ⟨hc, os, p, hf, hn, hb, hp, hd⟩ := hi
  cases hs with
  | call t h =>
    refine ⟨hc, os, p, hf, hn, hb, ?_, ?_⟩
    · intro u seed hu
      simp only [setPc] at hu
      split at hu
      · cases hu
      · exact hp u seed hu
    · intro u v a b hu hv huv
      simp only [setPc] at hu hv
      split at hu
      · cases hu
      · split at hv
        · cases hv
        · exact hd u v a b hu hv huv
  | add t h =>
    refine ⟨?_, os, fun u => if u = t then s.draws + 1 else p u, hf, hn, ?_, ?_, ?_⟩
    · simp only [UInt64.toNat_add, hc]
      have : (1 : UInt64).toNat = 1 := rfl
      rw [this]; omega
    · intro o ho; have := hb o ho; simp only; omega
    · intro u seed hu
      simp only [setPc] at hu
      split at hu
      · rename_i e
        simp only [e, if_true]
        injection hu with hu
        refine ⟨?_, ?_, by omega, by omega⟩
        · rw [← hu, UInt64.toNat_add, hc]
          have : (1 : UInt64).toNat = 1 := rfl
          rw [this]; omega
        · intro ho; have := hb _ ho; omega
      · rename_i e
        simp only [if_neg e]
        have := hp u seed hu
        exact ⟨this.1, this.2.1, this.2.2.1, by omega⟩
    · intro u v a b hu hv huv
      simp only [setPc] at hu hv
      by_cases e1 : u = t <;> by_cases e2 : v = t
      · exact absurd (e1.trans e2.symm) huv
      · simp only [e1, e2, if_true, if_false] at hv ⊢
        have := hp v b hv; omega
      · simp only [e1, e2, if_true, if_false] at hu ⊢
        have := hp u a hu; omega
      · simp only [e1, e2, if_false] at hu hv ⊢
        exact hd u v a b hu hv huv
  | ret t seed r h hfin =>
    have hpt := hp t seed h
    refine ⟨hc, p t :: os, p, .cons ?_ hf, List.nodup_cons.mpr ⟨hpt.2.1, hn⟩, ?_, ?_, ?_⟩
    · refine ⟨by rw [finish_id hfin, hpt.1], by rw [finish_loop hfin, hpt.1], ?_⟩
      rintro ⟨rfl, h0⟩
      have := finish_server_none.mpr (show seed.toNat % 2 ^ 63 = 0 by rw [hpt.1]; omega)
      rw [this] at hfin; cases hfin
    · intro o ho
      rcases List.mem_cons.mp ho with rfl | ho
      · exact hpt.2.2
      · exact hb o ho
    · intro u sd hu
      simp only [setPc] at hu
      split at hu
      · cases hu
      · rename_i e
        have := hp u sd hu
        refine ⟨this.1, ?_, this.2.2⟩
        intro hm
        rcases List.mem_cons.mp hm with he | hm
        · exact hd u t sd seed hu h e he
        · exact this.2.1 hm
    · intro u v a b hu hv huv
      simp only [setPc] at hu hv
      split at hu
      · cases hu
      · split at hv
        · cases hv
        · exact hd u v a b hu hv huv
  | again t seed h hfin =>
    refine ⟨hc, os, p, hf, hn, hb, ?_, ?_⟩
    · intro u sd hu
      simp only [setPc] at hu
      split at hu
      · cases hu
      · exact hp u sd hu
    · intro u v a b hu hv huv
      simp only [setPc] at hu hv
      split at hu
      · cases hu
      · split at hv
        · cases hv
        · exact hd u v a b hu hv huv

theorem inv_reach {side : Side} {s : State} (h : Reach side s) : Inv side s := by
  induction h with
  | init => exact inv_init side
  | step _ hs ih => exact inv_step hs ih

theorem idOf_inj {side : Side} {a b : Nat} (ha : 1 ≤ a) (ha' : a ≤ 2 ^ 30) (hb : 1 ≤ b)
    (hb' : b ≤ 2 ^ 30) (h : idOf side a = idOf side b) : a = b := by
  cases side <;> simp only [idOf] at h <;> omega

theorem nodup_of_forall₂ {α β : Type} {P : α → β → Prop} (hinj : ∀ a b x y, P a x → P b y → x = y → a = b)
    {l : List α} {m : List β} (h : List.Forall₂ P l m) (hn : l.Nodup) : m.Nodup := by
  induction h with
  | nil => exact .nil
  | cons hP hrest ih =>
    rename_i a b l' m'
    rw [List.nodup_cons] at hn ⊢
    refine ⟨?_, ih hn.2⟩
    intro hb
    apply hn.1
    clear ih hn
    induction hrest with
    | nil => cases hb
    | cons hP' _ ih' =>
      rcases List.mem_cons.mp hb with rfl | hb
      · rw [hinj _ _ _ _ hP hP' rfl]; exact List.mem_cons_self
      · exact List.mem_cons_of_mem _ (ih' hb)

theorem forall₂_and_left {α β : Type} {P : α → β → Prop} {Q : α → Prop} {l : List α} {m : List β}
    (h : List.Forall₂ P l m) (hq : ∀ a ∈ l, Q a) : List.Forall₂ (fun a b => P a b ∧ Q a) l m := by
  induction h with
  | nil => exact .nil
  | cons hP _ ih =>
    exact .cons ⟨hP, hq _ List.mem_cons_self⟩ (ih fun a ha => hq a (List.mem_cons_of_mem _ ha))

theorem forall₂_map_right {α β γ : Type} {P : α → γ → Prop} {f : β → γ} {l : List α} {m : List β}
    (h : List.Forall₂ (fun a b => P a (f b)) l m) : List.Forall₂ P l (m.map f) := by
  induction h with
  | nil => exact .nil
  | cons hP _ ih => exact .cons hP ih

theorem forall₂_imp {α β : Type} {P Q : α → β → Prop} (hi : ∀ a b, P a b → Q a b) {l : List α}
    {m : List β} (h : List.Forall₂ P l m) : List.Forall₂ Q l m := by
  induction h with
  | nil => exact .nil
  | cons hP _ ih => exact .cons (hi _ _ hP) ih

theorem forall₂_right {α β : Type} {P : α → β → Prop} {l : List α} {m : List β}
    (h : List.Forall₂ P l m) : ∀ b ∈ m, ∃ a ∈ l, P a b := by
  induction h with
  | nil => intro b hb; cases hb
  | cons hP _ ih =>
    intro b hb
    rcases List.mem_cons.mp hb with rfl | hb
    · exact ⟨_, List.mem_cons_self, hP⟩
    · obtain ⟨a, ha, hp⟩ := ih b hb
      exact ⟨a, List.mem_cons_of_mem _ ha, hp⟩

/-- **C08** However many goroutines call `Next` on one generator and however they interleave, as long
as no more than `2^30` ids have been drawn no two calls ever got the same id. -/
theorem ids_unique {side : Side} {s : State} (h : Reach side s) (hd : s.draws ≤ 2 ^ 30) :
    (s.out.map fun e => e.2.1).Nodup := by
  obtain ⟨_, os, p, hf, hn, hb, _, _⟩ := inv_reach h
  have hf' := forall₂_and_left hf hb
  refine nodup_of_forall₂ (P := fun o (i : UInt32) => i.toNat = idOf side (o % 2 ^ 64) ∧ 1 ≤ o ∧ o ≤ 2 ^ 30)
    ?_ (forall₂_map_right (forall₂_imp ?_ hf')) hn
  · rintro a b x y ⟨hx, ha, ha'⟩ ⟨hy, hb, hb'⟩ rfl
    rw [Nat.mod_eq_of_lt (by omega)] at hx hy
    exact idOf_inj ha ha' hb hb' (hx.symm.trans hy)
  · rintro a b ⟨⟨h1, _⟩, h2, h3⟩
    exact ⟨h1, h2, by omega⟩

/-- **C08** Client ids are odd and server ids are even, in every execution of any length. -/
theorem ids_parity {side : Side} {s : State} (h : Reach side s) :
    ∀ e ∈ s.out, e.2.1.toNat % 2 = (match side with | .client => 1 | .server => 0) ∧
      e.2.1.toNat < 2 ^ 31 := by
  obtain ⟨_, os, p, hf, _⟩ := inv_reach h
  intro e he
  obtain ⟨o, _, ho, _⟩ := forall₂_right hf e he
  rw [ho]
  cases side <;> simp only [idOf] <;> omega

/-- **C08** The two sides of a connection never issue the same id, however long they run. -/
theorem sides_disjoint {s c : State} (hs : Reach .server s) (hc : Reach .client c) :
    ∀ e ∈ s.out, ∀ f ∈ c.out, e.2.1 ≠ f.2.1 := by
  intro e he f hf heq
  have h1 := (ids_parity hs e he).1
  have h2 := (ids_parity hc f hf).1
  rw [heq] at h1
  simp only at h1 h2
  omega

/-- **C09** The client side never issues id 0, however many ids are drawn. -/
theorem client_never_zero {s : State} (h : Reach .client s) : ∀ e ∈ s.out, e.2.1 ≠ 0 := by
  intro e he h0
  have := (ids_parity h e he).1
  rw [h0] at this
  simp at this

/-- **C09** (partial) Neither side issues id 0 before its `2^30`-th draw. The full claim is false for
the server side, see `server_zero_refuted`. -/
theorem never_zero_partial {side : Side} {s : State} (h : Reach side s) (hd : s.draws < 2 ^ 30) :
    ∀ e ∈ s.out, e.2.1 ≠ 0 := by
  obtain ⟨_, os, p, hf, hn, hb, _, _⟩ := inv_reach h
  intro e he h0
  obtain ⟨o, hm, ho, _⟩ := forall₂_right hf e he
  have := hb o hm
  rw [h0] at ho
  have h00 : (0 : UInt32).toNat = 0 := rfl
  rw [h00] at ho
  cases side <;> simp only [idOf] at ho <;> omega

/-- Sequential view: a single caller reaches any number of draws below `2^63`, so the hypotheses on
`draws` above are met by real executions. -/
theorem reach_draws (side : Side) (n : Nat) (hn : n < 2 ^ 63) :
    ∃ s, Reach side s ∧ s.draws = n ∧ s.counter.toNat = n ∧ s.pc 0 = .idle ∧ s.out.length = n ∧
      (0 < n → ∃ e, s.out.head? = some e ∧ e.2.1.toNat = idOf side n) := by
  induction n with
  | zero => exact ⟨init, .init, rfl, rfl, rfl, rfl, fun h => absurd h (by decide)⟩
  | succ n ih =>
    obtain ⟨s, hr, hd, hc, hp, ho, _⟩ := ih (by omega)
    have hseed : (s.counter + 1).toNat = n + 1 := by
      rw [UInt64.toNat_add, hc]
      have : (1 : UInt64).toNat = 1 := rfl
      rw [this]; omega
    have hf : finish side (s.counter + 1) ≠ none := by
      cases side with
      | client => exact finish_client_some _
      | server => rw [ne_eq, finish_server_none, hseed]; omega
    obtain ⟨r, hr'⟩ := Option.ne_none_iff_exists'.mp hf
    have s1 := Reach.step hr (Step.call s 0 hp)
    have s2 := Reach.step s1 (Step.add _ 0 (by simp [setPc]))
    have s3 := Reach.step s2 (Step.ret _ 0 (s.counter + 1) r (by simp [setPc]) hr')
    refine ⟨_, s3, ?_, ?_, by simp [setPc], ?_, ?_⟩
    · simp [hd]
    · simpa using hseed
    · simp [ho]
    · intro _
      refine ⟨(0, r), rfl, ?_⟩
      rw [finish_id hr', hseed]

/-- **C09** refuted for the server side: the `2^30`-th id it hands out is 0. -/
theorem server_zero_refuted : ∃ s, Reach .server s ∧ s.draws = 2 ^ 30 ∧ ∃ e ∈ s.out, e.2.1 = 0 := by
  obtain ⟨s, hr, hd, _, _, _, h⟩ := reach_draws .server (2 ^ 30) (by decide)
  obtain ⟨e, he, hid⟩ := h (by decide)
  refine ⟨s, hr, hd, e, List.mem_of_mem_head? he, ?_⟩
  apply UInt32.toNat_inj.mp
  rw [hid]; decide

/-- Non-vacuity of `ids_unique`: there are executions that issue exactly `2^30` ids. -/
example : ∃ s, Reach .client s ∧ s.draws ≤ 2 ^ 30 ∧ s.out.length = 2 ^ 30 := by
  obtain ⟨s, hr, hd, _, _, ho, _⟩ := reach_draws .client (2 ^ 30) (by decide)
  exact ⟨s, hr, by omega, ho⟩

/-- **C08** `firstLoop` tells a single caller whether the id is still from the first `2^30` draws, and
the `n`-th draw yields `2n - 1` (client) or `2n` (server). -/
theorem next_first_loop (side : Side) (c : UInt64) (h : c.toNat < 2 ^ 63 - 1) :
    ∃ id first, next side c = some (c + 1, id, first) ∧ id.toNat = idOf side (c.toNat + 1) ∧
      (first = true ↔ c.toNat + 1 ≤ 2 ^ 30) ∧
      (first = true → id.toNat % 2 ^ 31 = (match side with
        | .client => 2 * (c.toNat + 1) - 1 | .server => 2 * (c.toNat + 1) % 2 ^ 31)) := by
  have hseed : (c + 1).toNat = c.toNat + 1 := by
    rw [UInt64.toNat_add]
    have : (1 : UInt64).toNat = 1 := rfl
    rw [this]; omega
  have hf : finish side (c + 1) ≠ none := by
    cases side with
    | client => exact finish_client_some _
    | server => rw [ne_eq, finish_server_none, hseed]; omega
  obtain ⟨r, hr⟩ := Option.ne_none_iff_exists'.mp hf
  refine ⟨r.1, r.2, ?_, ?_, ?_, ?_⟩
  · simp [next, hr]
  · rw [finish_id hr, hseed]
  · rw [finish_loop hr, hseed]
  · intro h1
    rw [finish_loop hr, hseed] at h1
    rw [finish_id hr, hseed]
    cases side <;> simp only [idOf] <;> omega

example : next .client 4 = some (5, 9, true) := by decide
example : next .server 0x40000000 = some (0x40000001, 2, false) := by decide

/-- A single caller goes through the steps of the system: `next` always returns (the recursion is never deeper than one
level), and the counter and the result are those of the goroutine's steps. -/
theorem next_steps (side : Side) (s : State) (t : Nat) (h : Reach side s) (hp : s.pc t = .idle) :
    ∃ c r s', next side s.counter = some (c, r) ∧ Reach side s' ∧ s'.counter = c ∧ s'.out = (t, r) :: s.out ∧
      s'.pc t = .idle := by
  have e1 : s.counter + 1 + 1 = s.counter + 2 := by
    apply UInt64.toNat_inj.mp
    simp only [UInt64.toNat_add]
    have h1 : (1 : UInt64).toNat = 1 := rfl
    have h2 : (2 : UInt64).toNat = 2 := rfl
    rw [h1, h2]
    omega
  have s1 := Reach.step h (.call s t hp)
  have s2 := Reach.step s1 (.add _ t (by simp [setPc]))
  unfold next
  cases hf : finish side (s.counter + 1) with
  | some r => exact ⟨_, r, _, rfl, Reach.step s2 (.ret _ t _ r (by simp [setPc]) hf), rfl, rfl, by simp [setPc]⟩
  | none =>
    have s3 := Reach.step s2 (.again _ t _ (by simp [setPc]) hf)
    have s4 := Reach.step s3 (.add _ t (by simp [setPc]))
    cases hf2 : finish side (s.counter + 2) with
    | some r =>
      refine ⟨_, r, _, rfl, Reach.step s4 (.ret _ t (s.counter + 1 + 1) r (by simp [setPc]) (by rw [e1]; exact hf2)), ?_, rfl, by simp [setPc]⟩
      exact e1
    | none =>
      exfalso
      cases side with
      | client =>
        have hz : (value .client (s.counter + 1)).toNat = 0 := by
          unfold finish at hf
          split at hf
          · cases hf
          · rename_i hv
            have hv : value .client (s.counter + 1) = 0 := Classical.not_not.mp hv
            rw [hv]
            rfl
        rw [value_client] at hz
        have := (s.counter + 1).toNat_lt
        omega
      | server =>
        have h1 := finish_server_none.mp hf
        have h2 := finish_server_none.mp hf2
        rw [← e1, UInt64.toNat_add] at h2
        have h3 : (1 : UInt64).toNat = 1 := rfl
        rw [h3] at h2
        omega

/-- The retry is taken when half of the 64-bit counter is used up. -/
example : next .server 0x7FFFFFFFFFFFFFFF = some (0x8000000000000001, 2, false) := by decide

end Iota.Props.StreamId
