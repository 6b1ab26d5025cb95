import Verif.Lemmas.FluxSlice
import Verif.Props.Flux

/-! # C19: a flux over a slice -/

namespace Iota.Props.FluxSlice
open Iota.Flux Iota.Spec.Flux Iota.Lemmas.Flux Iota.Lemmas.FluxSlice Iota.Props.Flux

variable {V E : Type}

theorem deliver_told (cs : List (Call V E)) (A : List V) (c : Nat)
    (h : (cs.filter fun x => !x.isCancel) = A.map .next ++ List.replicate c .complete) :
    ∃ k t, deliver cs = (A.take k).map .next ++ t ∧ k ≤ A.length ∧
      (t = [] ∨ t = [.complete] ∧ k = A.length ∧ 0 < c) := by
  induction cs generalizing A with
  | nil => exact ⟨0, [], rfl, Nat.zero_le _, Or.inl rfl⟩
  | cons x cs ih =>
    cases x with
    | cancel => exact ⟨0, [], rfl, Nat.zero_le _, Or.inl rfl⟩
    | next v =>
      simp only [List.filter_cons, Call.isCancel, Bool.not_false, if_true] at h
      cases A with
      | nil => cases c <;> simp [List.replicate_succ] at h
      | cons a A =>
        simp only [List.map_cons, List.cons_append, List.cons.injEq, Call.next.injEq] at h
        obtain ⟨rfl, h⟩ := h
        obtain ⟨k, t, h1, h2, h3⟩ := ih A h
        refine ⟨k + 1, t, by simp [deliver, h1], by simp [h2], ?_⟩
        rcases h3 with h3 | ⟨h3, h4, h5⟩
        · exact Or.inl h3
        · exact Or.inr ⟨h3, by simp [h4], h5⟩
    | complete =>
      simp only [List.filter_cons, Call.isCancel, Bool.not_false, if_true] at h
      cases A with
      | nil =>
        refine ⟨0, [.complete], rfl, Nat.le_refl _, Or.inr ⟨rfl, rfl, ?_⟩⟩
        cases c with
        | zero => simp at h
        | succ c => omega
      | cons a A => simp at h
    | error e =>
      simp only [List.filter_cons, Call.isCancel, Bool.not_false, if_true] at h
      cases A with
      | nil => cases c <;> simp [List.replicate_succ] at h
      | cons a A => simp at h

theorem deliver_all (A : List V) (c : Nat) :
    deliver (A.map .next ++ List.replicate c (.complete : Call V E)) =
      A.map (Seen.next : V → Seen E V) ++ if 0 < c then [.complete] else [] := by
  induction A with
  | nil => cases c <;> simp [deliver, List.replicate_succ]
  | cons a A ih => simpa [deliver] using ih

theorem filter_wanted (h : Handlers) (hn : h.onNext = true) (hc : h.onComplete = true) (A : List V) (t : List (Seen E V))
    (ht : t = [] ∨ t = [.complete]) : (A.map (Seen.next : V → Seen E V) ++ t).filter (wanted h) = A.map .next ++ t := by
  rw [List.filter_eq_self]
  intro x hx
  rcases List.mem_append.mp hx with hx | hx
  · obtain ⟨v, -, rfl⟩ := List.mem_map.mp hx
    exact hn
  · rcases ht with rfl | rfl
    · cases hx
    · rw [List.mem_singleton.mp hx]
      exact hc

/-- **C19**, part of the claim (safety): at all times, whatever is requested or cancelled by anybody, the only subscriber of
a flux over a slice has seen a prefix of the slice, no longer than the total demand, and completion only right after the
last element. Missing: several subscribers, which share what is left of the slice. -/
theorem slice_prefix_partial (host : Bool) (xs : List V) (as : List (Action V E)) (s : State V E V)
    (hr : run (plain host .slice) (init xs) as = some s) (b : Subscriber E) (hb : s.subs = [b])
    (hn : b.h.onNext = true) (hc : b.h.onComplete = true) :
    ∃ k t, seen 0 s.log = (xs.take k).map .next ++ t ∧ k ≤ demand 0 s.log ∧
      (t = [] ∨ t = [.complete] ∧ xs.length ≤ demand 0 s.log ∧ xs.take k = xs) := by
  obtain ⟨p, c, h1, h2, -, h4, h5, -, -⟩ := (InvS.run rfl as (InvS.init xs) hr).good (by simp [hb])
  obtain ⟨k, t, g1, g2, g3⟩ := deliver_told _ _ _ h1
  rw [flux_delivers host .slice xs as s hr 0 b (by simp [hb]), g1]
  rw [List.length_take] at g2
  refine ⟨k, t, ?_, by omega, ?_⟩
  · rw [filter_wanted b.h hn hc _ _ (g3.imp id And.left), List.take_take, Nat.min_eq_left (by omega)]
  · rcases g3 with g3 | ⟨g3, g4, g5⟩
    · exact Or.inl g3
    · have := h4 g5
      rw [List.length_take] at g4
      exact Or.inr ⟨g3, by omega, by rw [List.take_of_length_le (by omega)]⟩

/-- **C19**, part of the claim (liveness): when all requests have been worked off and the subscription has not been
cancelled, the only subscriber has seen exactly as many elements as requested, or all of them followed by completion.
Missing: several subscribers. -/
theorem slice_delivers_partial (host : Bool) (xs : List V) (as : List (Action V E)) (s : State V E V)
    (hr : run (plain host .slice) (init xs) as = some s) (b : Subscriber E) (hb : s.subs = [b])
    (hn : b.h.onNext = true) (hc : b.h.onComplete = true) (hx : Call.cancel ∉ calls 0 s.log)
    (hp : s.pending = []) (hg : s.spawned = []) (hq : asked 0 s.log ≠ []) :
    seen 0 s.log = (xs.take (demand 0 s.log)).map .next ++ if xs.length ≤ demand 0 s.log then [.complete] else [] := by
  obtain ⟨p, c, h1, h2, -, h4, h5, h6, h7⟩ := (InvS.run rfl as (InvS.init xs) hr).good (by simp [hb])
  have hl : left s = 0 := by simp [left, hp, hg]
  have hnb : ¬ busy s := by
    rintro (h | ⟨x, h, -⟩)
    · exact h hg
    · rw [hp] at h
      cases h
  have ht : told s.log = calls 0 s.log := by
    unfold told
    rw [List.filter_eq_self]
    intro x hxm
    cases x with
    | cancel => exact absurd hxm hx
    | next v => rfl
    | complete => rfl
    | error e => rfl
  rw [ht] at h1
  rw [flux_delivers host .slice xs as s hr 0 b (by simp [hb]), h1, deliver_all]
  rcases Nat.lt_or_ge p xs.length with hlt | hge
  · have := h6 hlt
    have hc0 : ¬ 0 < c := fun h => by have := h4 h; omega
    have hd : ¬ xs.length ≤ demand 0 s.log := by omega
    rw [if_neg hc0, if_neg hd, filter_wanted b.h hn hc _ _ (Or.inl rfl)]
    have : p = demand 0 s.log := by omega
    rw [this]
  · have hpe : p = xs.length := by omega
    have hc0 : 0 < c := (h7 hq hpe).resolve_right hnb
    rw [if_pos hc0, if_pos (by omega), filter_wanted b.h hn hc _ _ (Or.inr rfl), List.take_of_length_le (by omega),
      List.take_of_length_le (by omega)]

/-- Two requests, served by goroutines in the other order. -/
example : (run (V := Nat) (E := String) (plain true .slice) (init [1, 2, 3])
    [.subscribe 0 all, .request 0 0 2, .request 0 0 3, .start 7 1, .ret 7, .ret 7, .ret 7, .ret 7, .ret 7, .ret 7, .ret 7, .ret 7,
     .ret 7, .ret 7, .start 8 0, .ret 8, .ret 8]).map
      (fun s => (seen 0 s.log, s.pending.length, s.spawned, demand 0 s.log)) =
    some ([.next 1, .next 2, .next 3, .complete], 0, [], 5) := by decide

/-- Too little demand. -/
example : (run (V := Nat) (E := String) (plain false .slice) (init [1, 2, 3])
    [.subscribe 0 all, .request 0 0 2, .ret 0, .ret 0, .ret 0, .ret 0, .ret 0, .ret 0]).map
      (fun s => (seen 0 s.log, s.pending.length, s.spawned, demand 0 s.log)) = some ([.next 1, .next 2], 0, [], 2) := by decide

/-- **C19** is false for a second subscriber: what the first one got is gone. -/
theorem slice_second_refuted : (run (V := Nat) (E := String) (plain false .slice) (init [1, 2, 3])
    [.subscribe 0 all, .request 0 0 2, .ret 0, .ret 0, .ret 0, .ret 0, .ret 0, .ret 0,
     .subscribe 0 all, .request 0 1 9, .ret 0, .ret 0, .ret 0, .ret 0, .ret 0, .ret 0]).map
      (fun s => (seen 1 s.log, s.pending.length, s.spawned, demand 1 s.log)) =
    some ([.next 3, .complete], 0, [], 9) := by decide

end Iota.Props.FluxSlice
