import Verif.Lemmas.Flux

/-! # Invariants of the flux machine over a slice -/

namespace Iota.Lemmas.FluxSlice
open Iota.Flux Iota.Spec.Flux Iota.Lemmas.Flux

variable {V E W : Type}

/-- What the source told the first subscriber. -/
def told (log : List (Ev V E W)) : List (Call V E) := (calls 0 log).filter fun x => !x.isCancel

def isSlice : Frame → Bool
  | .sliceLoop _ _ => true
  | _ => false

def frameLeft : Frame → Nat
  | .sliceLoop _ n => n.toNat
  | _ => 0

/-- Elements requested that no loop has got to. -/
def left (s : State V E W) : Nat :=
  (s.spawned.map fun x => x.2.toNat).sum + (s.pending.map fun x => frameLeft x.2).sum

def busy (s : State V E W) : Prop := s.spawned ≠ [] ∨ ∃ x ∈ s.pending, isSlice x.2 = true

def Good (xs : List V) (s : State V E W) : Prop :=
  ∃ p c, told s.log = (xs.take p).map .next ++ List.replicate c .complete ∧ p ≤ xs.length ∧ s.values = xs.drop p ∧
    (0 < c → p = xs.length) ∧ p + left s ≤ demand 0 s.log ∧ (p < xs.length → p + left s = demand 0 s.log) ∧
    (asked 0 s.log ≠ [] → p = xs.length → 0 < c ∨ busy s)

def isResp : Frame → Bool
  | .respLoop _ _ _ => true
  | _ => false

def reqs (s : State V E W) : Prop := (∀ b ∈ s.subs, b.hasRequest = true) ∧ ∀ x ∈ s.pending, isResp x.2 = false

structure InvS (xs : List V) (s : State V E W) : Prop where
  reqs : reqs s
  good : s.subs.length ≤ 1 → Good xs s

structure Same (s s' : State V E W) : Prop where
  len : s'.subs.length = s.subs.length
  reqs : reqs s → reqs s'
  told : told s'.log = told s.log
  values : s'.values = s.values
  left : left s' = left s
  asked : asked 0 s'.log = asked 0 s.log
  busy : busy s → busy s'

theorem Same.refl (s : State V E W) : Same s s := ⟨rfl, id, rfl, rfl, rfl, rfl, id⟩

theorem Same.trans {s t u : State V E W} (h : Same s t) (k : Same t u) : Same s u :=
  ⟨k.len.trans h.len, k.reqs ∘ h.reqs, k.told.trans h.told, k.values.trans h.values, k.left.trans h.left,
   k.asked.trans h.asked, k.busy ∘ h.busy⟩

theorem InvS.same {xs : List V} {s s' : State V E W} (h : InvS xs s) (k : Same s s') : InvS xs s' := by
  refine ⟨k.reqs h.reqs, fun hl => ?_⟩
  obtain ⟨p, c, h1, h2, h3, h4, h5, h6, h7⟩ := h.good (k.len ▸ hl)
  have hd : demand 0 s'.log = demand 0 s.log := by simp [demand, k.asked]
  refine ⟨p, c, by rw [k.told, h1], h2, by rw [k.values, h3], h4, by rw [k.left, hd]; exact h5,
    by rw [k.left, hd]; exact h6, fun ha hp => ?_⟩
  rw [k.asked] at ha
  exact (h7 ha hp).imp id k.busy

def quiet (e : Ev V E W) : Prop := callOf 0 e = none ∧ askOf 0 e = none

theorem told_cons (e : Ev V E W) (l : List (Ev V E W)) :
    told (e :: l) = told l ++ (callOf 0 e).toList.filter fun x => !x.isCancel := by
  simp [told, calls_cons]

theorem asked_cons (i : Nat) (e : Ev V E W) (l : List (Ev V E W)) : asked i (e :: l) = asked i l ++ (askOf i e).toList := by
  unfold asked
  cases h : askOf i e <;> simp [h]

theorem demand_cons (i : Nat) (e : Ev V E W) (l : List (Ev V E W)) :
    demand i (e :: l) = demand i l + ((askOf i e).toList.map Int.toNat).sum := by
  simp [demand, asked_cons]

theorem same_emit {e : Ev V E W} (s : State V E W) (h : quiet e) : Same s (emit s e) :=
  ⟨rfl, id, by simp [emit, told_cons, h.1], rfl, rfl, by simp [emit, asked_cons, h.2], id⟩

theorem same_push {f : Frame} (s : State V E W) (g : Nat) (h : isSlice f = false ∧ isResp f = false) :
    Same s (push s g f) := by
  refine ⟨rfl, fun hr => ⟨hr.1, ?_⟩, rfl, rfl, ?_, rfl, ?_⟩
  · intro x hx
    rcases List.mem_cons.mp hx with rfl | hx
    · exact h.2
    · exact hr.2 x hx
  · cases f <;> simp_all [left, push, frameLeft, isSlice]
  · rintro (hb | ⟨x, hx, hb⟩)
    · exact Or.inl hb
    · exact Or.inr ⟨x, List.mem_cons_of_mem _ hx, hb⟩

theorem same_setSub {j : Nat} {f : Subscriber E → Subscriber E} (s : State V E W)
    (h : ∀ b, (f b).hasRequest = b.hasRequest) : Same s (setSub s j f) := by
  refine ⟨by simp [setSub], ?_, rfl, rfl, rfl, rfl, id⟩
  intro hr
  refine ⟨fun b hb => ?_, hr.2⟩
  simp only [setSub] at hb
  obtain ⟨k, hk⟩ := List.mem_iff_getElem?.mp hb
  rw [List.getElem?_modify] at hk
  cases hs : s.subs[k]? with
  | none => simp [hs] at hk
  | some b0 =>
    have h0 := hr.1 b0 (List.mem_iff_getElem?.mpr ⟨k, hs⟩)
    simp only [hs, Option.map_eq_map, Option.map_some, Option.some.injEq] at hk
    subst hk
    split
    · rw [h, h0]
    · exact h0

theorem same_runLoop (g : Nat) (sig : Signal) (rest : List Nat) (s : State V E W) : Same s (runLoop g sig rest s) := by
  unfold runLoop
  split
  · exact Same.refl s
  · exact (same_emit s ⟨rfl, rfl⟩).trans (same_push _ g ⟨rfl, rfl⟩)

theorem same_startLoop (g j : Nat) (sig : Signal) (s : State V E W) : Same s (startLoop g j sig s) :=
  (same_emit s ⟨rfl, rfl⟩).trans (same_runLoop g sig _ _)

theorem same_runFinally (g j : Nat) (sig : Signal) (h : Handlers) (s : State V E W) : Same s (runFinally g j sig h s) := by
  have k : Same s (setSub s j fun b => { b with signal := sig }) := same_setSub s fun _ => rfl
  unfold runFinally
  split
  · exact k.trans ((same_emit _ ⟨rfl, rfl⟩).trans (same_push _ g ⟨rfl, rfl⟩))
  · exact k.trans (same_startLoop g j sig _)

/-- One more request, taken up by a goroutine or a loop. -/
theorem InvS.ask {xs : List V} {s s' : State V E W} (h : InvS xs s) {i : Nat} {n : Int} (hi : i < s.subs.length)
    (h1 : s'.subs.length = s.subs.length) (h2 : Iota.Lemmas.FluxSlice.reqs s → Iota.Lemmas.FluxSlice.reqs s')
    (h3 : told s'.log = told s.log) (h4 : s'.values = s.values) (h5 : left s' = left s + n.toNat)
    (h6 : asked 0 s'.log = asked 0 s.log ++ (if i = 0 then [n] else [])) (h7 : busy s') : InvS xs s' := by
  refine ⟨h2 h.reqs, fun hl => ?_⟩
  obtain ⟨p, c, g1, g2, g3, g4, g5, g6, g7⟩ := h.good (h1 ▸ hl)
  have hi0 : i = 0 := by omega
  have hd : demand 0 s'.log = demand 0 s.log + n.toNat := by simp [demand, h6, hi0]
  exact ⟨p, c, by rw [h3, g1], g2, by rw [h4, g3], g4, by omega, fun hp => by have := g6 hp; omega, fun _ _ => Or.inr h7⟩

theorem InvS.request {c : Cfg V E W} (hc : c.src = .slice) {xs : List V} {s : State V E W} (h : InvS xs s) (g i : Nat)
    (n : Int) : InvS xs (request c g i n s) := by
  unfold Iota.Flux.request
  split
  · exact h
  · rename_i b hb
    have hi : i < s.subs.length := by
      rcases Nat.lt_or_ge i s.subs.length with hi | hi
      · exact hi
      · rw [List.getElem?_eq_none hi] at hb
        cases hb
    have hr : b.hasRequest = true := h.reqs.1 b (List.mem_iff_getElem?.mpr ⟨i, hb⟩)
    have k := same_setSub (f := fun b => { b with n := b.n + n }) (j := i) s fun _ => rfl
    rw [if_pos hr]
    unfold doRequest
    split
    · refine InvS.ask h (i := i) (n := n) hi ?_ k.reqs ?_ rfl ?_ ?_ ?_
      · simp [setSub, emit]
      · simp [setSub, emit, told_cons, callOf]
      · simp [left, setSub, emit]; omega
      · by_cases e : i = 0 <;> simp [setSub, emit, asked_cons, askOf, e]
      · exact Or.inl (by simp)
    · rw [if_pos rfl]
      simp only [callRequest, hc]
      refine InvS.ask h (i := i) (n := n) hi ?_ (fun hq => ⟨(k.reqs hq).1, ?_⟩) ?_ rfl ?_ ?_ ?_
      · simp [setSub, emit, push]
      · intro x hx
        simp only [push, emit, setSub, List.mem_cons] at hx
        rcases hx with rfl | rfl | hx
        · rfl
        · rfl
        · exact hq.2 x hx
      · simp [setSub, emit, push, told_cons, callOf]
      · simp [left, setSub, emit, push, frameLeft]; omega
      · by_cases e : i = 0 <;> simp [setSub, emit, push, asked_cons, askOf, e]
      · exact Or.inr ⟨_, List.mem_cons_self, rfl⟩

theorem InvS.handle {c : Cfg V E W} (hc : c.src = .slice) {xs : List V} {s : State V E W} (h : InvS xs s) (g i : Nat)
    (hd : Handlers) : InvS xs (handleOnSubscribe c g i hd s) := by
  unfold handleOnSubscribe
  split
  · exact h
  · split
    · exact h.same ((same_emit s ⟨rfl, rfl⟩).trans (same_push _ g ⟨rfl, rfl⟩))
    · exact h.request hc g i _

theorem InvS.endNext {c : Cfg V E W} (hc : c.src = .slice) {xs : List V} {s : State V E W} (h : InvS xs s) (g i : Nat) :
    InvS xs (endNext c g i s) := by
  unfold Iota.Flux.endNext
  split
  · exact h
  · split
    · exact h.handle hc g i _
    · exact h

theorem InvS.mapFinally {c : Cfg V E W} (hc : c.src = .slice) {xs : List V} {s : State V E W} (h : InvS xs s) (g i : Nat)
    (hd : Handlers) : InvS xs (mapFinally c g i hd s) := by
  unfold Iota.Flux.mapFinally
  split
  · exact h.same ((same_emit s ⟨rfl, rfl⟩).trans (same_push _ g ⟨rfl, rfl⟩))
  · exact h.endNext hc g i

theorem InvS.callNext {c : Cfg V E W} (hc : c.src = .slice) {xs : List V} {s : State V E W} (h : InvS xs s) (g i : Nat)
    (v : V) (hd : Handlers) : InvS xs (callNext c g i v hd s) := by
  unfold Iota.Flux.callNext
  split
  · split
    · exact h.same ((same_emit s ⟨rfl, rfl⟩).trans (same_push _ g ⟨rfl, rfl⟩))
    · exact h.endNext hc g i
  · split
    · exact h.same ((same_emit s ⟨rfl, rfl⟩).trans (same_push _ g ⟨rfl, rfl⟩))
    · exact h.mapFinally hc g i hd

theorem InvS.tell {c : Cfg V E W} (hc : c.src = .slice) {xs : List V} {s : State V E W} {i : Nat} {x : Call V E}
    (h : InvS xs (emit s (.called i x))) (g : Nat) (b : Subscriber E) : InvS xs (tell c g i b x s) := by
  have kc : ∀ f : Subscriber E → Subscriber E, (∀ b, (f b).hasRequest = b.hasRequest) →
      Same (emit s (.called i x)) (setSub (emit s (.called i x)) i f) := fun f hf => same_setSub _ hf
  cases x with
  | next v =>
    simp only [Iota.Flux.tell]
    split
    · exact h
    · exact (h.same (kc (fun b => { b with n := b.n - 1 }) fun _ => rfl)).callNext hc g i v b.h
  | complete =>
    simp only [Iota.Flux.tell]
    split
    · exact h
    · split
      · exact h.same ((kc (fun b => { b with closed := true }) fun _ => rfl).trans ((same_emit _ ⟨rfl, rfl⟩).trans (same_push _ g ⟨rfl, rfl⟩)))
      · exact h.same ((kc (fun b => { b with closed := true }) fun _ => rfl).trans (same_runFinally g i _ _ _))
  | error e =>
    simp only [Iota.Flux.tell]
    split
    · exact h
    · split
      · exact h.same ((kc (fun b => { b with err := some e, closed := true }) fun _ => rfl).trans ((same_emit _ ⟨rfl, rfl⟩).trans (same_push _ g ⟨rfl, rfl⟩)))
      · exact h.same ((kc (fun b => { b with err := some e, closed := true }) fun _ => rfl).trans (same_runFinally g i _ _ _))
  | cancel =>
    simp only [Iota.Flux.tell]
    split
    · exact h.same ((kc (fun b => { b with closed := true }) fun _ => rfl).trans ((same_emit _ ⟨rfl, rfl⟩).trans (same_push _ g ⟨rfl, rfl⟩)))
    · split
      · exact h.same ((kc (fun b => { b with closed := true }) fun _ => rfl).trans ((same_emit _ ⟨rfl, rfl⟩).trans (same_push _ g ⟨rfl, rfl⟩)))
      · exact h.same (kc (fun b => { b with closed := true }) fun _ => rfl)

theorem same_pop {g : Nat} {s : State V E W} {f : Frame} {r : List (Nat × Frame)} (hp : pop g s.pending = some (f, r))
    (hf : isSlice f = false) : Same s { s with pending := r } := by
  obtain ⟨a, b, h1, h2⟩ := pop_spec hp
  have h0 : frameLeft f = 0 := by cases f <;> simp_all [frameLeft, isSlice]
  refine ⟨rfl, fun hr => ⟨hr.1, fun x hx => hr.2 x ?_⟩, rfl, rfl, ?_, rfl, ?_⟩
  · simp only [h1, h2, List.mem_append, List.mem_cons] at hx ⊢
    exact hx.imp id Or.inr
  · simp [left, h1, h2, h0]
  · rintro (hb | ⟨x, hx, hb⟩)
    · exact Or.inl hb
    · refine Or.inr ⟨x, ?_, hb⟩
      rw [h1] at hx
      simp only [h2, List.mem_append, List.mem_cons] at hx ⊢
      rcases hx with hx | rfl | hx
      · exact Or.inl hx
      · simp [hf] at hb
      · exact Or.inr hx

/-- A round of the loop. -/
theorem InvS.round {c : Cfg V E W} (hc : c.src = .slice) {xs : List V} {s : State V E W} (h : InvS xs s) {g i : Nat}
    {n : Int} {r : List (Nat × Frame)} {b : Subscriber E} (hp : pop g s.pending = some (.sliceLoop i n, r))
    (hb : s.subs[i]? = some b) : InvS xs (sliceRound c g i n b { s with pending := r }) := by
  obtain ⟨a, d, e1, e2⟩ := pop_spec hp
  have hi : i < s.subs.length := by
    rcases Nat.lt_or_ge i s.subs.length with hi | hi
    · exact hi
    · rw [List.getElem?_eq_none hi] at hb
      cases hb
  have hleft : left s = (s.spawned.map fun x => x.2.toNat).sum + (r.map fun x => frameLeft x.2).sum + n.toNat := by
    simp [left, e1, e2, frameLeft]; omega
  have hrq : Iota.Lemmas.FluxSlice.reqs ({ s with pending := r } : State V E W) := by
    refine ⟨h.reqs.1, fun x hx => h.reqs.2 x ?_⟩
    have hx : x ∈ r := hx
    rw [e1]
    rw [e2] at hx
    simp only [List.mem_append, List.mem_cons] at hx ⊢
    exact hx.imp id Or.inr
  unfold sliceRound
  split
  · rename_i hv
    apply InvS.tell hc
    refine ⟨hrq, fun hl => ?_⟩
    obtain ⟨p, k, g1, g2, g3, g4, g5, g6, g7⟩ := h.good hl
    have hi0 : i = 0 := by
      have : s.subs.length ≤ 1 := hl
      omega
    subst hi0
    have hpl : p = xs.length := by
      have : xs.drop p = [] := by rw [← g3]; exact hv
      have := List.drop_eq_nil_iff.mp this
      omega
    refine ⟨p, k + 1, ?_, g2, g3, fun _ => hpl, ?_, fun hlt => by omega, fun _ _ => Or.inl (by omega)⟩
    · simp [emit, told_cons, callOf, Call.isCancel, g1, List.replicate_succ']
    · have hd : demand 0 ((.called 0 .complete : Ev V E W) :: s.log) = demand 0 s.log := by simp [demand_cons, askOf]
      simp only [emit, left] at *
      rw [hd]
      omega
  · rename_i v vs hv
    split
    · rename_i hn
      apply InvS.tell hc
      refine ⟨⟨hrq.1, fun x hx => ?_⟩, fun hl => ?_⟩
      · rcases List.mem_cons.mp hx with rfl | hx
        · rfl
        · exact hrq.2 x hx
      obtain ⟨p, k, g1, g2, g3, g4, g5, g6, g7⟩ := h.good hl
      have hi0 : i = 0 := by
        have : s.subs.length ≤ 1 := hl
        omega
      subst hi0
      have hx : xs.drop p = v :: vs := by rw [← g3]; exact hv
      have hpl : p < xs.length := by
        rcases Nat.lt_or_ge p xs.length with h' | h'
        · exact h'
        · rw [List.drop_eq_nil_of_le h'] at hx
          cases hx
      have hk : k = 0 := by
        rcases Nat.eq_zero_or_pos k with h' | h'
        · exact h'
        · have := g4 h'
          omega
      subst hk
      have hxp : xs[p]? = some v := by
        have : (xs.drop p)[0]? = some v := by rw [hx]; rfl
        simpa using this
      have ht : xs.take (p + 1) = xs.take p ++ [v] := by
        rw [List.take_add_one, hxp]
        rfl
      have hvs : xs.drop (p + 1) = vs := by
        rw [← List.drop_drop, hx]
        rfl
      have hd : demand 0 ((.called 0 (.next v) : Ev V E W) :: s.log) = demand 0 s.log := by simp [demand_cons, askOf]
      have h6 := g6 hpl
      refine ⟨p + 1, 0, ?_, hpl, hvs.symm, fun h' => by omega, ?_, fun _ => ?_, fun _ _ => ?_⟩
      · simp [emit, push, told_cons, callOf, Call.isCancel, g1, ht]
      · simp only [emit, push, left, List.map_cons, List.sum_cons, frameLeft] at *
        rw [hd]
        omega
      · simp only [emit, push, left, List.map_cons, List.sum_cons, frameLeft] at *
        rw [hd]
        omega
      · exact Or.inr (Or.inr ⟨_, List.mem_cons_self, rfl⟩)
    · rename_i hn
      refine ⟨hrq, fun hl => ?_⟩
      obtain ⟨p, k, g1, g2, g3, g4, g5, g6, g7⟩ := h.good hl
      have hx : xs.drop p = v :: vs := by rw [← g3]; exact hv
      have hpl : p < xs.length := by
        rcases Nat.lt_or_ge p xs.length with h' | h'
        · exact h'
        · rw [List.drop_eq_nil_of_le h'] at hx
          cases hx
      have h6 := g6 hpl
      refine ⟨p, k, g1, g2, g3, g4, ?_, fun _ => ?_, fun _ h' => by omega⟩
      · simp only [left] at *
        omega
      · simp only [left] at *
        omega

theorem sum_eraseIdx {α : Type} (f : α → Nat) {l : List α} {j : Nat} {x : α} (h : l[j]? = some x) :
    (l.map f).sum = f x + ((l.eraseIdx j).map f).sum := by
  induction l generalizing j with
  | nil => cases h
  | cons y l ih =>
    cases j with
    | zero => cases h; simp
    | succ j =>
      have := ih (j := j) (by simpa using h)
      simp only [List.map_cons, List.sum_cons, List.eraseIdx_cons_succ]
      omega

theorem InvS.start {c : Cfg V E W} (hc : c.src = .slice) {xs : List V} {s s' : State V E W} (h : InvS xs s) {g j : Nat}
    (hs : Iota.Flux.start c g j s = some s') : InvS xs s' := by
  unfold Iota.Flux.start at hs
  split at hs
  · cases hs
  · rename_i i n hj
    split at hs
    · cases hs
    · split at hs
      · cases hs
      · rename_i b hb
        have hr : b.hasRequest = true := h.reqs.1 b (List.mem_iff_getElem?.mpr ⟨i, hb⟩)
        rw [if_pos hr] at hs
        cases hs
        simp only [callRequest, hc]
        have hsum : (s.spawned.map fun x => x.2.toNat).sum =
            n.toNat + ((s.spawned.eraseIdx j).map fun x => x.2.toNat).sum :=
           sum_eraseIdx (fun x => x.2.toNat) hj
        refine h.same ⟨rfl, fun hq => ⟨hq.1, fun x hx => ?_⟩, ?_, rfl, ?_, ?_, ?_⟩
        · simp only [push, emit, List.mem_cons] at hx
          rcases hx with rfl | rfl | hx
          · rfl
          · rfl
          · exact hq.2 x hx
        · simp [emit, push, told_cons, callOf]
        · simp [left, emit, push, frameLeft, hsum]; omega
        · simp [emit, push, asked_cons, askOf]
        · intro _
          exact Or.inr ⟨_, List.mem_cons_self, rfl⟩

theorem InvS.proceed {c : Cfg V E W} (hc : c.src = .slice) {xs : List V} {s s' : State V E W} (h : InvS xs s) {g : Nat}
    {f : Frame} {r : List (Nat × Frame)} (hp : pop g s.pending = some (f, r))
    (hs : Iota.Flux.proceed c g f { s with pending := r } = some s') : InvS xs s' := by
  have hn : isResp f = false := by
    obtain ⟨a, b, e1, -⟩ := pop_spec hp
    exact h.reqs.2 (g, f) (by simp [e1])
  by_cases hf : isSlice f = false
  · have h' := h.same (same_pop hp hf)
    generalize ({ s with pending := r } : State V E W) = t at hs h'
    cases f with
    | sliceLoop i n => simp [isSlice] at hf
    | respLoop i a k => cases hn
    | afterSource i =>
      simp only [Iota.Flux.proceed, Option.map_eq_some_iff] at hs
      obtain ⟨b, -, rfl⟩ := hs
      exact h'.handle hc g i _
    | afterNext i =>
      simp only [Iota.Flux.proceed, Option.some.injEq] at hs
      subst hs
      exact h'.endNext hc g i
    | afterMapError i =>
      simp only [Iota.Flux.proceed, Option.map_eq_some_iff] at hs
      obtain ⟨b, -, rfl⟩ := hs
      exact h'.mapFinally hc g i _
    | afterSig i sig =>
      simp only [Iota.Flux.proceed, Option.map_eq_some_iff] at hs
      obtain ⟨b, -, rfl⟩ := hs
      exact h'.same (same_runFinally g i sig _ _)
    | afterFin i sig =>
      simp only [Iota.Flux.proceed, Option.some.injEq] at hs
      subst hs
      exact h'.same (same_startLoop g i sig _)
    | loop sig rest =>
      simp only [Iota.Flux.proceed, Option.some.injEq] at hs
      subst hs
      exact h'.same (same_runLoop g sig rest _)
    | afterCancel i =>
      simp only [Iota.Flux.proceed, Option.map_eq_some_iff] at hs
      obtain ⟨b, -, rfl⟩ := hs
      split
      · exact h'.same ((same_emit _ ⟨rfl, rfl⟩).trans (same_push _ g ⟨rfl, rfl⟩))
      · exact h'
    | unlock i => simp only [Iota.Flux.proceed, Option.some.injEq] at hs; subst hs; exact h'
    | leaf => simp only [Iota.Flux.proceed, Option.some.injEq] at hs; subst hs; exact h'
  · cases f <;> simp [isSlice] at hf
    rename_i i n
    simp only [Iota.Flux.proceed, Option.map_eq_some_iff] at hs
    obtain ⟨b, hb, rfl⟩ := hs
    exact h.round hc hp hb

theorem InvS.addSub {xs : List V} {s : State V E W} (h : InvS xs s) (hd : Handlers) : InvS xs (addSub hd true s) := by
  refine ⟨⟨fun b hb => ?_, h.reqs.2⟩, fun hl => ?_⟩
  · simp only [Iota.Flux.addSub, List.mem_append, List.mem_singleton] at hb
    rcases hb with hb | rfl
    · exact h.reqs.1 b hb
    · rfl
  · have hl0 : s.subs.length ≤ 1 := by
      simp only [Iota.Flux.addSub, List.length_append, List.length_singleton] at hl
      omega
    obtain ⟨p, k, g1, g2, g3, g4, g5, g6, g7⟩ := h.good hl0
    have e1 : told (Iota.Flux.addSub hd true s).log = told s.log := by simp [Iota.Flux.addSub, told_cons, callOf]
    have e2 : asked 0 (Iota.Flux.addSub hd true s).log = asked 0 s.log := by simp [Iota.Flux.addSub, asked_cons, askOf]
    have e3 : demand 0 (Iota.Flux.addSub hd true s).log = demand 0 s.log := by simp [demand, e2]
    exact ⟨p, k, e1 ▸ g1, g2, g3, g4, by rw [e3]; exact g5, by rw [e3]; exact g6, by rw [e2]; exact g7⟩

theorem same_notify (g : Nat) (s : State V E W) : Same s (notify g s) := by
  have k0 : Same s { s with nextFn := s.nextFn + 1 } := ⟨rfl, id, rfl, rfl, rfl, rfl, id⟩
  have k1 : Same s { s with nextFn := s.nextFn + 1, callbacks := s.callbacks ++ [s.nextFn], log := .reg s.nextFn :: s.log } :=
    ⟨rfl, id, by simp [told_cons, callOf], rfl, rfl, by simp [asked_cons, askOf], id⟩
  unfold notify
  split
  · split
    · exact k0.trans ((same_emit _ ⟨rfl, rfl⟩).trans ((same_emit _ ⟨rfl, rfl⟩).trans (same_push _ g ⟨rfl, rfl⟩)))
    · exact k1
  · exact k1

theorem InvS.step {c : Cfg V E W} (hc : c.src = .slice) {xs : List V} {a : Action V E} {s s' : State V E W}
    (h : InvS xs s) (hs : Iota.Flux.step c s a = some s') : InvS xs s' := by
  unfold Iota.Flux.step at hs
  split at hs
  · cases hs
  · cases a with
    | subscribe g hd =>
      simp only [Option.some.injEq] at hs
      subst hs
      simp only [subscribe, hc]
      exact (h.addSub hd).handle hc g _ hd
    | notify g =>
      simp only [Option.some.injEq] at hs
      subst hs
      exact h.same (same_notify g s)
    | signal g j x =>
      simp only at hs
      split at hs
      · rename_i hx
        have hx : x.isCancel = true := by rcases hx with hx | hx; (· simp [hc] at hx); exact hx
        unfold signal at hs
        split at hs
        · cases hs
        · rename_i b hb
          simp only [Option.some.injEq] at hs
          subst hs
          apply InvS.tell hc
          refine h.same ⟨rfl, id, ?_, rfl, rfl, ?_, id⟩
          · by_cases e : j = 0 <;> simp [emit, told_cons, callOf, e, hx]
          · simp [emit, asked_cons, askOf]
      · cases hs
    | onSubscribe g j r k => simp [hc] at hs
    | request g j n =>
      simp only at hs
      split at hs
      · cases hs; exact h.request hc g j n
      · cases hs
    | start g j => exact h.start hc hs
    | ret g =>
      simp only [resume] at hs
      split at hs
      · cases hs
      · rename_i f r hp
        exact h.proceed hc hp hs

theorem InvS.run {c : Cfg V E W} (hc : c.src = .slice) {xs : List V} (as : List (Action V E)) :
    ∀ {s s' : State V E W}, InvS xs s → Iota.Flux.run c s as = some s' → InvS xs s' := by
  induction as with
  | nil => intro s s' h hr; cases hr; exact h
  | cons a as ih =>
    intro s s' h hr
    simp only [Iota.Flux.run] at hr
    split at hr
    · cases hr
    · rename_i t ht
      exact ih (h.step hc ht) hr

theorem InvS.init (xs : List V) : InvS xs (init xs : State V E W) :=
  ⟨⟨(fun _ h => nomatch h), (fun _ h => nomatch h)⟩,
   fun _ => ⟨0, 0, rfl, Nat.zero_le _, rfl, (fun h => nomatch h), Nat.le_refl _, (fun _ => rfl), (fun h => absurd rfl h)⟩⟩

end Iota.Lemmas.FluxSlice
