import Verif.Model.Server

/-! # C94, C95: the life of a server -/

namespace Iota.Props.Server
open Iota.Server

def Reach (s : State) : Prop := ∃ es, State.init.run es = some s

/-- What holds of a server at any time. -/
structure Inv (s : State) : Prop where
  /-- while it is not closed every connection accepted is served and known, but for the one in hand -/
  known : s.done = false → ∃ m, s.map = some m ∧
    ∀ i c, s.conns[i]? = some c → s.loc ≠ .put i → i ∈ m ∧ c.served = true
  /-- a connection that is served and open is known -/
  served : ∀ i c, s.conns[i]? = some c → c.served = true → c.closed = false → ∃ m, s.map = some m ∧ i ∈ m
  mem : ∀ m, s.map = some m → ∀ i ∈ m, ∃ c, s.conns[i]? = some c ∧ c.served = true
  inHand : ∀ i, s.loc = .put i → s.conns[i]? = some ⟨false, false⟩
  last : ∀ i, s.loc = .put i → i + 1 = s.conns.length
  isOpen : s.done = false → s.listener ≠ some false
  set : s.loc ≠ .start → s.loc ≠ .returned .failed → s.listener ≠ none
  unset : s.loc = .start → s.listener = none ∧ s.conns = []

theorem inv_init : Inv State.init := by
  constructor <;> simp [State.init]

theorem closeAll_get (ks : List Nat) (cs : List Conn) (i : Nat) :
    (closeAll ks cs)[i]? = (cs[i]?).map fun c => if i ∈ ks then { c with closed := true } else c := by
  simp [closeAll]

theorem closeAll_length (ks : List Nat) (cs : List Conn) : (closeAll ks cs).length = cs.length := by simp [closeAll]

theorem close_loc (s : State) : s.close.loc = s.loc := by
  unfold State.close; split
  · rfl
  · split <;> rfl

theorem inv_close {s : State} (h : Inv s) : Inv s.close := by
  unfold State.close
  split
  · exact h
  · rename_i hd
    simp only [Bool.not_eq_true] at hd
    split
    · rename_i hl
      exact ⟨(fun x => nomatch x), h.served, h.mem, h.inHand, h.last, (fun x => nomatch x), h.set, h.unset⟩
    · rename_i b hl
      obtain ⟨m, hm, hk⟩ := h.known hd
      refine ⟨(fun x => nomatch x), ?_, (fun _ x => nomatch x), ?_, ?_, (fun x => nomatch x),
        (fun _ _ x => nomatch x), ?_⟩
      · intro i c hc hs ho
        simp only [hm, Option.getD_some, closeAll_get] at hc
        obtain ⟨c', hc', rfl⟩ := Option.map_eq_some_iff.1 hc
        exfalso
        by_cases hi : i ∈ m
        · rw [if_pos hi] at ho; cases ho
        · rw [if_neg hi] at ho hs
          obtain ⟨m', hm', hi'⟩ := h.served i c' hc' hs ho
          rw [hm] at hm'; cases hm'
          exact hi hi'
      · intro i hi
        have := h.inHand i hi
        simp only [hm, Option.getD_some, closeAll_get, this, Option.map_some]
        split
        · rename_i hmem
          obtain ⟨c, hc, hs⟩ := h.mem m hm i hmem
          rw [this] at hc; cases hc; cases hs
        · rfl
      · intro i hi
        simp only [closeAll_length]; exact h.last i hi
      · intro hs
        have := (h.unset hs).1
        rw [hl] at this; cases this

/-- Where `Listen` is does not matter for the invariant once it has no connection in hand, up to the listener. -/
theorem inv_loc {s : State} (h : Inv s) (l : Loc) (w : Bool) (hl : ∀ i, s.loc ≠ .put i) (hl' : ∀ i, l ≠ .put i)
    (hs : s.listener ≠ none) (hn : l ≠ .start) : Inv { s with loc := l, watch := w } :=
  ⟨fun hd => by
      obtain ⟨m, hm, hk⟩ := h.known hd
      exact ⟨m, hm, fun i c hc _ => hk i c hc (hl i)⟩,
    h.served, h.mem, fun i hi => absurd hi (hl' i), fun i hi => absurd hi (hl' i), h.isOpen, fun _ _ => hs,
    fun hx => absurd hx hn⟩

theorem modify_get {cs : List Conn} {k : Nat} {f : Conn → Conn} {i : Nat} :
    (cs.modify k f)[i]? = (cs[i]?).map fun c => if k = i then f c else c := by
  rw [List.getElem?_modify]
  cases cs[i]? with
  | none => rfl
  | some c => by_cases h : k = i <;> simp [h]

theorem close_listener (s : State) : s.close.listener = none ↔ s.listener = none := by
  unfold State.close; split
  · rfl
  · split
    · rename_i h; simp [h]
    · rename_i h; simp [h]

theorem inv_listen {s s' : State} (r : Result) (h : Inv s) (hs : s.listen r = some s') : Inv s' := by
  unfold State.listen at hs
  split at hs
  · rename_i hl
    obtain ⟨hn, hc⟩ := h.unset hl
    split at hs <;> simp only [Option.some.injEq] at hs <;> subst hs
    · refine ⟨fun hd => ?_, h.served, h.mem, (fun _ x => nomatch x), (fun _ x => nomatch x),
        (fun _ x => nomatch x), (fun _ _ x => nomatch x), (fun x => nomatch x)⟩
      obtain ⟨m, hm, hk⟩ := h.known hd
      exact ⟨m, hm, fun i c hc _ => hk i c hc (by rw [hl]; simp)⟩
    · refine ⟨fun hd => ?_, h.served, h.mem, (fun _ x => nomatch x), (fun _ x => nomatch x),
        (fun _ x => nomatch x), (fun _ x => absurd rfl x), (fun x => nomatch x)⟩
      obtain ⟨m, hm, hk⟩ := h.known hd
      exact ⟨m, hm, fun i c hc _ => hk i c hc (by rw [hl]; simp)⟩
  · rename_i hl
    simp only [Option.some.injEq] at hs; subst hs
    exact inv_loc h .accept true (by rw [hl]; simp) (by simp) (h.set (by simp [hl]) (by simp [hl])) (by simp)
  · rename_i hl
    have hne := h.set (by simp [hl]) (by simp [hl])
    split at hs
    · rename_i hlis
      split at hs <;> simp only [Option.some.injEq] at hs <;> subst hs
      · have get : ∀ i c, (s.conns ++ [(⟨false, false⟩ : Conn)])[i]? = some c → i ≠ s.conns.length → s.conns[i]? = some c := by
          intro i c hc hi
          rw [List.getElem?_append] at hc
          split at hc
          · exact hc
          · rename_i hlt
            rw [List.getElem?_singleton, if_neg (by omega)] at hc; cases hc
        refine ⟨fun hd => ?_, ?_, ?_, ?_, ?_, h.isOpen, fun _ _ => hne, (fun x => nomatch x)⟩
        · obtain ⟨m, hm, hk⟩ := h.known hd
          refine ⟨m, hm, fun i c hc hi => ?_⟩
          exact hk i c (get i c hc (fun e => hi (by rw [e]))) (by rw [hl]; simp)
        · intro i c hc hs ho
          by_cases hi : i = s.conns.length
          · subst hi
            simp only [List.getElem?_concat_length, Option.some.injEq] at hc
            subst hc; cases hs
          · exact h.served i c (get i c hc hi) hs ho
        · intro m hm i hi
          obtain ⟨c, hc, hs⟩ := h.mem m hm i hi
          exact ⟨c, by rw [List.getElem?_append_left (List.getElem?_eq_some_iff.1 hc).1]; exact hc, hs⟩
        · intro i hi
          cases hi
          simp
        · intro i hi
          cases hi
          simp
      · exact inv_loc h (.leave .failed) s.watch (by rw [hl]; simp) (by simp) hne (by simp)
    · simp only [Option.some.injEq] at hs; subst hs
      exact inv_loc h (.leave .nil) s.watch (by rw [hl]; simp) (by simp) hne (by simp)
  · rename_i k hl
    have hne := h.set (by simp [hl]) (by simp [hl])
    have hk0 := h.inHand k hl
    cases hd : s.done with
    | false =>
        obtain ⟨m, hm, hk⟩ := h.known hd
        simp only [State.putTransport, hd, hm, Bool.false_eq_true, if_false, if_true, Option.some.injEq] at hs
        subst hs
        refine ⟨fun _ => ⟨m ++ [k], rfl, fun i c hc _ => ?_⟩, ?_, ?_, (fun _ x => nomatch x), (fun _ x => nomatch x),
          fun _ => h.isOpen hd, fun _ _ => hne, (fun x => nomatch x)⟩
        · rw [modify_get] at hc
          obtain ⟨c', hc', rfl⟩ := Option.map_eq_some_iff.1 hc
          by_cases hi : k = i
          · subst hi; simp
          · rw [if_neg hi]
            have := hk i c' hc' (by rw [hl]; simp [hi])
            exact ⟨by simp [this.1], this.2⟩
        · intro i c hc hs ho
          refine ⟨_, rfl, ?_⟩
          simp only [modify_get] at hc
          obtain ⟨c', hc', rfl⟩ := Option.map_eq_some_iff.1 hc
          by_cases hi : k = i
          · subst hi; simp
          · simp [(hk i c' hc' (by rw [hl]; simp [hi])).1]
        · intro m' hm' i hi
          cases hm'
          simp only [modify_get]
          rcases List.mem_append.1 hi with hi | hi
          · obtain ⟨c, hc, hs⟩ := h.mem m hm i hi
            refine ⟨_, by rw [hc]; rfl, ?_⟩
            split <;> simp [hs]
          · simp only [List.mem_singleton] at hi
            subst hi
            exact ⟨_, by rw [hk0]; rfl, by simp⟩
    | true =>
      simp only [State.putTransport, hd, if_true, Bool.false_eq_true, if_false, Option.some.injEq] at hs
      subst hs
      exact ⟨(fun x => nomatch x), h.served, h.mem, (fun _ x => nomatch x), (fun _ x => nomatch x), (fun x => nomatch x),
        fun _ _ => hne, (fun x => nomatch x)⟩
  · rename_i hl
    simp only [Option.some.injEq] at hs; subst hs
    have hc := inv_close h
    exact inv_loc hc .accept s.close.watch (by rw [close_loc, hl]; simp) (by simp)
      (fun e => h.set (by simp [hl]) (by simp [hl]) ((close_listener s).1 e)) (by simp)
  · rename_i o hl
    simp only [Option.some.injEq] at hs; subst hs
    have hc := inv_close h
    exact inv_loc hc (.returned o) s.close.watch (by rw [close_loc, hl]; simp) (by simp)
      (fun e => h.set (by simp [hl]) (by simp [hl]) ((close_listener s).1 e)) (by simp)
  · cases hs

theorem inv_step {s s' : State} (e : Ev) (h : Inv s) (hs : s.step e = some s') : Inv s' := by
  cases e with
  | close => cases hs; exact inv_close h
  | cancel =>
    cases hs
    exact ⟨h.known, h.served, h.mem, h.inHand, h.last, h.isOpen, h.set, h.unset⟩
  | listen r => exact inv_listen r h hs
  | watch =>
    simp only [State.step] at hs
    split at hs
    · split at hs
      · cases hs
        have hc := inv_close h
        exact ⟨hc.known, hc.served, hc.mem, hc.inHand, hc.last, hc.isOpen, hc.set, hc.unset⟩
      · split at hs
        · cases hs
          exact ⟨h.known, h.served, h.mem, h.inHand, h.last, h.isOpen, h.set, h.unset⟩
        · cases hs
    · cases hs
  | hangUp k =>
    cases hs
    refine ⟨fun hd => ?_, ?_, ?_, ?_, ?_, h.isOpen, h.set, fun hx => ⟨(h.unset hx).1, ?_⟩⟩
    · obtain ⟨m, hm, hk⟩ := h.known hd
      refine ⟨m, hm, fun i c hc hi => ?_⟩
      simp only [modify_get] at hc
      obtain ⟨c', hc', rfl⟩ := Option.map_eq_some_iff.1 hc
      have := hk i c' hc' hi
      refine ⟨this.1, ?_⟩
      split
      · rw [if_pos this.2]; exact this.2
      · exact this.2
    · intro i c hc hs ho
      simp only [modify_get] at hc
      obtain ⟨c', hc', rfl⟩ := Option.map_eq_some_iff.1 hc
      by_cases hi : k = i
      · rw [if_pos hi] at hs ho
        by_cases hsv : c'.served = true
        · rw [if_pos hsv] at ho; cases ho
        · rw [if_neg hsv] at hs; exact absurd hs hsv
      · rw [if_neg hi] at hs ho
        exact h.served i c' hc' hs ho
    · intro m hm i hi
      obtain ⟨c, hc, hs⟩ := h.mem m hm i hi
      refine ⟨_, by simp only [modify_get, hc]; rfl, ?_⟩
      split
      · show Conn.served (if c.served = true then _ else _) = true
        rw [if_pos hs]; exact hs
      · exact hs
    · intro i hi
      have := h.inHand i hi
      simp only [modify_get, this, Option.map_some, Bool.false_eq_true, if_false]
      split <;> rfl
    · intro i hi
      have := h.last i hi
      simpa using this
    · simp [(h.unset hx).2]

theorem inv_run {s s' : State} (es : List Ev) (h : Inv s) (hs : s.run es = some s') : Inv s' := by
  induction es generalizing s with
  | nil => cases hs; exact h
  | cons e es ih =>
    simp only [State.run, Option.bind_eq_some_iff] at hs
    obtain ⟨t, h1, h2⟩ := hs
    exact ih (inv_step e h h1) h2

theorem inv_reach {s : State} (h : Reach s) : Inv s := by
  obtain ⟨es, h⟩ := h
  exact inv_run es inv_init h

/-! ## C94 -/

/-- A server that was closed while its listener was there. -/
structure Stopped (s : State) : Prop where
  done : s.done = true
  listener : s.listener = some false
  map : s.map = none
  loc : s.loc ≠ .start

/-- What `Listen` has still to do. -/
def weight : Loc → Nat
  | .start => 9
  | .notify => 3
  | .accept => 2
  | .put _ => 4
  | .refuse => 3
  | .leave _ => 1
  | .returned _ => 0

def isListen : Ev → Bool
  | .listen _ => true
  | _ => false

theorem stopped_step {s s' : State} (e : Ev) (h : Stopped s) (hs : s.step e = some s') :
    Stopped s' ∧ s'.conns.length = s.conns.length ∧
      weight s'.loc + (if isListen e then 1 else 0) ≤ weight s.loc := by
  obtain ⟨h1, h2, h3, h4⟩ := h
  have hc : s.close = s := by rw [State.close, if_pos h1]
  cases e with
  | close => cases hs; rw [hc]; exact ⟨⟨h1, h2, h3, h4⟩, rfl, Nat.le_refl _⟩
  | cancel => cases hs; exact ⟨⟨h1, h2, h3, h4⟩, rfl, Nat.le_refl _⟩
  | watch =>
    simp only [State.step] at hs
    split at hs
    · split at hs
      · cases hs; rw [hc]; exact ⟨⟨h1, h2, h3, h4⟩, rfl, Nat.le_refl _⟩
      · cases hs; exact ⟨⟨h1, h2, h3, h4⟩, rfl, Nat.le_refl _⟩
    · cases hs
  | hangUp k => cases hs; exact ⟨⟨h1, h2, h3, h4⟩, by simp, Nat.le_refl _⟩
  | listen r =>
    simp only [State.step, State.listen] at hs
    split at hs
    · rename_i hl; exact absurd hl h4
    · rename_i hl; cases hs; exact ⟨⟨h1, h2, h3, by simp⟩, rfl, by simp [hl, weight, isListen]⟩
    · rename_i hl
      rw [h2] at hs
      simp only [Option.some.injEq] at hs
      subst hs; exact ⟨⟨h1, rfl, h3, by simp⟩, rfl, by simp [hl, weight, isListen]⟩
    · rename_i k hl
      rw [State.putTransport, if_pos h1] at hs
      simp only [Bool.false_eq_true, if_false, Option.some.injEq] at hs
      subst hs; exact ⟨⟨h1, h2, h3, by simp⟩, rfl, by simp [hl, weight, isListen]⟩
    · rename_i hl
      rw [hc] at hs; cases hs
      exact ⟨⟨h1, h2, h3, by simp⟩, rfl, by simp [hl, weight, isListen]⟩
    · rename_i o hl
      rw [hc] at hs; cases hs
      exact ⟨⟨h1, h2, h3, by simp⟩, rfl, by simp [hl, weight, isListen]⟩
    · cases hs

theorem stopped_run {s s' : State} (es : List Ev) (h : Stopped s) (hs : s.run es = some s') :
    Stopped s' ∧ s'.conns.length = s.conns.length ∧ weight s'.loc + (es.filter isListen).length ≤ weight s.loc := by
  induction es generalizing s with
  | nil => cases hs; exact ⟨h, rfl, by simp⟩
  | cons e es ih =>
    simp only [State.run, Option.bind_eq_some_iff] at hs
    obtain ⟨t, h1, h2⟩ := hs
    obtain ⟨a1, a2, a3⟩ := stopped_step e h h1
    obtain ⟨b1, b2, b3⟩ := ih a1 h2
    refine ⟨b1, b2.trans a2, ?_⟩
    rw [List.filter_cons]
    split
    · rename_i hi; rw [if_pos hi] at a3; simp only [List.length_cons]; omega
    · omega

/-- **C94 (partial)** `Close` on a server whose listener is there, when nobody has called it before: the listener is
closed for good, every connection that is served is closed, no further one is accepted, whatever happens then; `Listen` takes at most
four more steps and when it can take none it has returned.

Missing: a server closed before its listener is there (`early_close_refuted`), and connections that are accepted but not
served (`late_connection_refuted`). -/
theorem close_stops_partial {s : State} (h : Reach s) (hd : s.done = false) (hl : s.listener ≠ none) (es : List Ev) {t : State}
    (ht : s.close.run es = some t) :
    t.listener = some false ∧ (∀ c ∈ t.conns, c.served = true → c.closed = true) ∧
      t.conns.length = s.conns.length ∧ (es.filter isListen).length ≤ 4 ∧
      ((∀ r, t.step (.listen r) = none) → ∃ o, t.loc = .returned o) := by
  have hi := inv_reach h
  have hns : s.loc ≠ .start := fun e => hl (hi.unset e).1
  obtain ⟨b, hb⟩ : ∃ b, s.listener = some b := by
    cases hx : s.listener with
    | none => exact absurd hx hl
    | some b => exact ⟨b, rfl⟩
  have hstop : Stopped s.close := by
    have : s.close = { s with done := true, listener := some false, conns := closeAll (s.map.getD []) s.conns, map := none } := by
      rw [State.close, if_neg (by rw [hd]; simp), hb]
    rw [this]; exact ⟨rfl, rfl, rfl, hns⟩
  have hlen : s.close.conns.length = s.conns.length := by
    unfold State.close; split
    · rfl
    · split
      · rfl
      · exact closeAll_length _ _
  obtain ⟨h1, h2, h3⟩ := stopped_run es hstop ht
  have hti := inv_run es (inv_close hi) ht
  refine ⟨h1.listener, ?_, h2.trans hlen, ?_, ?_⟩
  · intro c hc hs
    obtain ⟨i, hi', rfl⟩ := List.mem_iff_getElem.1 hc
    cases ho : (t.conns[i]).closed with
    | true => rfl
    | false =>
      obtain ⟨m, hm, _⟩ := hti.served i t.conns[i] (by simp [hi']) hs ho
      rw [h1.map] at hm; cases hm
  · rw [close_loc] at h3
    have : weight s.loc ≤ 4 := by cases hx : s.loc <;> simp_all [weight]
    omega
  · intro hn
    have hn := hn .ok
    simp only [State.step, State.listen] at hn
    split at hn
    · cases hn
    · cases hn
    · rw [h1.listener] at hn; cases hn
    · split at hn <;> cases hn
    · cases hn
    · cases hn
    · rename_i o ho; exact ⟨o, ho⟩

/-- The end of the context is the same as `Close`: the waiting goroutine calls it. -/
theorem cancel_stops {s : State} (hw : s.watch = true) (hc : s.cancelled = true) :
    s.step .watch = some { s.close with watch := false } := by
  simp [State.step, hw, hc]

/-- Calls of `Close` after the first do nothing. -/
theorem close_again {s : State} (h : s.done = true) : s.close = s := by rw [State.close, if_pos h]

example : ∃ s, Reach s ∧ s.done = false ∧ s.listener ≠ none ∧ s.conns = [⟨true, false⟩, ⟨true, true⟩] :=
  ⟨_, ⟨[.listen .ok, .listen .ok, .listen .ok, .listen .ok, .listen .ok, .listen .ok, .hangUp 1], rfl⟩, rfl,
    (fun h => nomatch h), rfl⟩

/-- After `Close` without a listener. -/
structure Lost (s : State) : Prop where
  done : s.done = true
  listener : s.listener ≠ some false
  conns : ∀ c ∈ s.conns, c = ⟨false, false⟩
  loc : s.loc ≠ .start → s.loc ≠ .returned .failed → s.listener = some true
  ret : s.loc ≠ .leave .nil ∧ s.loc ≠ .returned .nil

theorem lost_step {s s' : State} (e : Ev) (h : Lost s) (hs : s.step e = some s') : Lost s' := by
  obtain ⟨h1, h2, h3, h4, h5⟩ := h
  have hc := close_again h1
  cases e with
  | close => cases hs; rw [hc]; exact ⟨h1, h2, h3, h4, h5⟩
  | cancel => cases hs; exact ⟨h1, h2, h3, h4, h5⟩
  | watch =>
    simp only [State.step] at hs
    split at hs
    · split at hs
      · cases hs; rw [hc]; exact ⟨h1, h2, h3, h4, h5⟩
      · cases hs; exact ⟨h1, h2, h3, h4, h5⟩
    · cases hs
  | hangUp k =>
    cases hs
    refine ⟨h1, h2, ?_, h4, h5⟩
    intro c hc
    obtain ⟨i, hi⟩ := List.mem_iff_getElem?.1 hc
    simp only [modify_get] at hi
    obtain ⟨c', hc', e⟩ := Option.map_eq_some_iff.1 hi
    have := h3 c' (List.mem_of_getElem? hc')
    subst this
    rw [← e]; split <;> rfl
  | listen r =>
    simp only [State.step, State.listen] at hs
    split at hs
    · split at hs <;> cases hs
      · exact ⟨h1, by simp, h3, fun _ _ => rfl, by simp⟩
      · exact ⟨h1, by simp, h3, fun _ x => absurd rfl x, by simp⟩
    · rename_i hl; cases hs
      exact ⟨h1, h2, h3, fun _ _ => h4 (by simp [hl]) (by simp [hl]), by simp⟩
    · rename_i hl
      have hlis := h4 (by simp [hl]) (by simp [hl])
      rw [hlis] at hs
      simp only at hs
      split at hs <;> cases hs
      · refine ⟨h1, by simp, ?_, fun _ _ => rfl, by simp⟩
        intro c hc
        rcases List.mem_append.1 hc with hc | hc
        · exact h3 c hc
        · simpa using hc
      · exact ⟨h1, by simp, h3, fun _ _ => rfl, by simp⟩
    · rename_i k hl
      rw [State.putTransport, if_pos h1] at hs
      simp only [Bool.false_eq_true, if_false, Option.some.injEq] at hs
      subst hs
      exact ⟨h1, h2, h3, fun _ _ => h4 (by simp [hl]) (by simp [hl]), by simp⟩
    · rename_i hl
      rw [hc] at hs; cases hs
      exact ⟨h1, h2, h3, fun _ _ => h4 (by simp [hl]) (by simp [hl]), by simp⟩
    · rename_i o hl
      rw [hc] at hs; cases hs
      refine ⟨h1, h2, h3, fun _ _ => h4 (by simp [hl]) (by simp [hl]), by simp, ?_⟩
      have := h5.1
      rw [hl] at this
      simpa using this
    · cases hs

theorem lost_run {s s' : State} (es : List Ev) (h : Lost s) (hs : s.run es = some s') : Lost s' := by
  induction es generalizing s with
  | nil => cases hs; exact h
  | cons e es ih =>
    simp only [State.run, Option.bind_eq_some_iff] at hs
    obtain ⟨t, h1, h2⟩ := hs
    exact ih (lost_step e h h1) h2

/-- **C94 is false of the code**: `Close` before `Listen` has its listener. Whatever happens then, further calls of `Close` and the
end of the context included, the listener is never closed, no connection is served and none closed, and `Listen` does not
return without an error. The listener does get there and connections are accepted. -/
theorem early_close_refuted :
    (∀ es t, State.init.close.run es = some t → t.listener ≠ some false ∧
      (∀ c ∈ t.conns, c.served = false ∧ c.closed = false) ∧ t.loc ≠ .returned .nil) ∧
    ∀ n, ∃ es t, State.init.close.run es = some t ∧ t.listener = some true ∧ t.conns.length = n := by
  constructor
  · intro es t ht
    have h : Lost State.init.close :=
      ⟨rfl, (fun x => nomatch x), (by simp [State.init, State.close]), (fun x => absurd rfl x), by simp [State.init, State.close]⟩
    have := lost_run es h ht
    exact ⟨this.listener, fun c hc => by rw [this.conns c hc]; exact ⟨rfl, rfl⟩, this.ret.2⟩
  · intro n
    have key : ∀ n : Nat, ∃ es t, State.init.close.run es = some t ∧ t.listener = some true ∧ t.conns.length = n ∧
        t.loc = .accept ∧ t.done = true := by
      intro n
      induction n with
      | zero => exact ⟨[.listen .ok, .listen .ok], _, rfl, rfl, rfl, rfl, rfl⟩
      | succ n ih =>
        obtain ⟨es, t, h1, h2, h3, h4, h5⟩ := ih
        have app : ∀ (s u : State) (a b : List Ev), s.run a = some u → s.run (a ++ b) = u.run b := by
          intro s u a b
          induction a generalizing s with
          | nil => intro h; cases h; rfl
          | cons e a ih =>
            intro h
            simp only [State.run, Option.bind_eq_some_iff, List.cons_append] at h ⊢
            obtain ⟨v, hv, h⟩ := h
            rw [hv]; exact ih v h
        have e1 : t.step (.listen .ok) = some { t with conns := t.conns ++ [⟨false, false⟩], loc := .put t.conns.length } := by
          simp only [State.step, State.listen, h4, h2]
        have e2 : State.step { t with conns := t.conns ++ [⟨false, false⟩], loc := .put t.conns.length } (.listen .ok) =
            some { t with conns := t.conns ++ [⟨false, false⟩], loc := .refuse } := by
          simp only [State.step, State.listen, State.putTransport, h5, if_true, Bool.false_eq_true, if_false]
        have e3 : State.step { t with conns := t.conns ++ [⟨false, false⟩], loc := .refuse } (.listen .ok) =
            some { t with conns := t.conns ++ [⟨false, false⟩], loc := .accept } := by
          simp only [State.step, State.listen, State.close, h5, if_true]
        refine ⟨es ++ [.listen .ok, .listen .ok, .listen .ok], { t with conns := t.conns ++ [⟨false, false⟩], loc := .accept },
          ?_, h2, by simp [h3], rfl, h5⟩
        rw [app _ _ _ _ h1]
        simp only [State.run, e1, e2, e3, Option.bind_some]
    obtain ⟨es, t, h1, h2, h3, _⟩ := key n
    exact ⟨es, t, h1, h2, h3⟩

/-- A connection that was refused stays open. -/
theorem refused_stays {s s' : State} (i : Nat) (es : List Ev) (h : Inv s) (hd : s.done = true)
    (hc : s.conns[i]? = some ⟨false, false⟩) (hs : s.run es = some s') : s'.conns[i]? = some ⟨false, false⟩ := by
  induction es generalizing s with
  | nil => cases hs; exact hc
  | cons e es ih =>
    simp only [State.run, Option.bind_eq_some_iff] at hs
    obtain ⟨t, h1, h2⟩ := hs
    have hcl := close_again hd
    refine ih (inv_step e h h1) ?_ ?_ h2
    · cases e with
      | close => cases h1; rw [hcl]; exact hd
      | cancel => cases h1; exact hd
      | hangUp k => cases h1; exact hd
      | watch =>
        simp only [State.step] at h1
        split at h1
        · split at h1
          · cases h1; rw [hcl]; exact hd
          · cases h1; exact hd
        · cases h1
      | listen r =>
        simp only [State.step, State.listen, State.putTransport, if_pos hd, hcl] at h1
        split at h1
        · split at h1 <;> cases h1 <;> exact hd
        · cases h1; exact hd
        · split at h1
          · split at h1 <;> cases h1 <;> exact hd
          · cases h1; exact hd
        · simp only [Bool.false_eq_true, if_false, Option.some.injEq] at h1; subst h1; exact hd
        · cases h1; exact hd
        · cases h1; exact hd
        · cases h1
    · cases e with
      | close => cases h1; rw [hcl]; exact hc
      | cancel => cases h1; exact hc
      | hangUp k =>
        cases h1
        simp only [modify_get, hc, Option.map_some]
        split <;> rfl
      | watch =>
        simp only [State.step] at h1
        split at h1
        · split at h1
          · cases h1; rw [hcl]; exact hc
          · cases h1; exact hc
        · cases h1
      | listen r =>
        simp only [State.step, State.listen, State.putTransport, if_pos hd, hcl] at h1
        split at h1
        · split at h1 <;> cases h1 <;> exact hc
        · cases h1; exact hc
        · split at h1
          · split at h1 <;> cases h1
            · rw [List.getElem?_append_left (List.getElem?_eq_some_iff.1 hc).1]; exact hc
            · exact hc
          · cases h1; exact hc
        · simp only [Bool.false_eq_true, if_false, Option.some.injEq] at h1; subst h1; exact hc
        · cases h1; exact hc
        · cases h1; exact hc
        · cases h1

/-- **C94 is false of the code**: a connection that is accepted while the server is being closed is neither served nor ever
closed; the peer waits for ever, also after `Listen` has returned. -/
theorem late_connection_refuted : ∃ s, Reach s ∧ s.done = true ∧ s.loc = .returned .nil ∧
    ∀ es t, s.run es = some t → t.conns[0]? = some ⟨false, false⟩ :=
  ⟨_, ⟨[.listen .ok, .listen .ok, .listen .ok, .close, .listen .ok, .listen .ok, .listen .ok, .listen .ok], rfl⟩, rfl, rfl,
    fun es _ ht => refused_stays 0 es (inv_reach ⟨[.listen .ok, .listen .ok, .listen .ok, .close, .listen .ok, .listen .ok,
      .listen .ok, .listen .ok], rfl⟩) rfl rfl ht⟩

/-! ## C95 -/

/-- **C95 (partial)** As long as nobody closes the server, every connection it has accepted is served, but for the one
`Listen` has in hand, which is served with its next step. -/
theorem accepted_served_partial {s : State} (h : Reach s) (hd : s.done = false) (i : Nat) (c : Conn) (hc : s.conns[i]? = some c) :
    c.served = true ∨ (s.loc = .put i ∧ ∀ r, ∃ t, s.step (.listen r) = some t ∧ t.loc = .accept ∧
      t.conns[i]? = some ⟨true, false⟩ ∧ ∀ j, j ≠ i → t.conns[j]? = s.conns[j]?) := by
  have hi := inv_reach h
  obtain ⟨m, hm, hk⟩ := hi.known hd
  by_cases hl : s.loc = .put i
  · right
    refine ⟨hl, fun r => ?_⟩
    refine ⟨{ s with map := some (m ++ [i]), conns := s.conns.modify i fun k => { k with served := true }, loc := .accept },
      ?_, rfl, ?_, ?_⟩
    · simp only [State.step, State.listen, hl, State.putTransport, hd, hm, Bool.false_eq_true, if_false, if_true]
    · simp only [modify_get, hi.inHand i hl, Option.map_some, if_true]
    · intro j hj
      simp only [modify_get]
      simp [Ne.symm hj]
  · exact Or.inl (hk i c hc hl).2

/-- **C95 is false of the code**: a server never forgets a connection. After any number of connections that have all ended, the
server still holds every one of their transports. -/
theorem never_forgotten_refuted :
    (∀ s, Reach s → s.done = false → ∃ m, s.map = some m ∧ ∀ i < s.conns.length, s.loc ≠ .put i → i ∈ m) ∧
    ∀ n, ∃ s m, Reach s ∧ s.done = false ∧ s.map = some m ∧ m.length = n ∧ s.conns = List.replicate n ⟨true, true⟩ := by
  constructor
  · intro s h hd
    obtain ⟨m, hm, hk⟩ := (inv_reach h).known hd
    exact ⟨m, hm, fun i hi hl => (hk i s.conns[i] (by simp [hi]) hl).1⟩
  · have key : ∀ n, ∃ es s m, State.init.run es = some s ∧ s.done = false ∧ s.map = some m ∧ m.length = n ∧
        s.conns = List.replicate n ⟨true, true⟩ ∧ s.loc = .accept ∧ s.listener = some true := by
      intro n
      induction n with
      | zero => exact ⟨[.listen .ok, .listen .ok], _, _, rfl, rfl, rfl, rfl, rfl, rfl, rfl⟩
      | succ n ih =>
        obtain ⟨es, t, m, h1, h2, h3, h4, h5, h6, h7⟩ := ih
        have app : ∀ (s u : State) (a b : List Ev), s.run a = some u → s.run (a ++ b) = u.run b := by
          intro s u a b
          induction a generalizing s with
          | nil => intro h; cases h; rfl
          | cons e a ih =>
            intro h
            simp only [State.run, Option.bind_eq_some_iff, List.cons_append] at h ⊢
            obtain ⟨v, hv, h⟩ := h
            rw [hv]; exact ih v h
        refine ⟨es ++ [.listen .ok, .listen .ok, .hangUp n],
          { t with map := some (m ++ [n]), conns := List.replicate (n + 1) ⟨true, true⟩, loc := .accept }, m ++ [n], ?_, h2, rfl,
          by simp [h4], rfl, rfl, h7⟩
        rw [app _ _ _ _ h1]
        have e1 : t.step (.listen .ok) = some { t with conns := t.conns ++ [⟨false, false⟩], loc := .put n } := by
          simp only [State.step, State.listen, h6, h7]
          simp [h5]
        have m1 : ∀ (f : Conn → Conn) (c : Conn),
            (List.replicate n (⟨true, true⟩ : Conn) ++ [c]).modify n f = List.replicate n ⟨true, true⟩ ++ [f c] := by
          intro f c
          apply List.ext_getElem?
          intro i
          rw [modify_get, List.getElem?_append, List.getElem?_append]
          by_cases hi : i < n
          · simp [hi, show n ≠ i by omega]
          · by_cases he : i = n
            · subst he; simp
            · simp [hi, List.getElem?_singleton, show i - n ≠ 0 by omega]
        have e2 : State.step { t with conns := t.conns ++ [⟨false, false⟩], loc := .put n } (.listen .ok) =
            some { t with map := some (m ++ [n]), conns := List.replicate n ⟨true, true⟩ ++ [⟨true, false⟩], loc := .accept } := by
          simp only [State.step, State.listen, State.putTransport, h2, h3, Bool.false_eq_true, if_false, if_true]
          rw [h5, m1]
        have e3 : State.step { t with map := some (m ++ [n]), conns := List.replicate n ⟨true, true⟩ ++ [⟨true, false⟩], loc := .accept } (.hangUp n) =
            some { t with map := some (m ++ [n]), conns := List.replicate (n + 1) ⟨true, true⟩, loc := .accept } := by
          simp only [State.step, m1, if_true]
          rw [List.replicate_succ']
        simp only [State.run, e1, e2, e3, Option.bind_some]
    intro n
    obtain ⟨es, s, m, h1, h2, h3, h4, h5, _⟩ := key n
    exact ⟨s, m, ⟨es, h1⟩, h2, h3, h4, h5⟩

end Iota.Props.Server
