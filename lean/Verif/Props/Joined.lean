import Verif.Spec.Joined

/-!
# C176: components joined by processors of single values, in any order
-/

namespace Iota.Props.Joined
open Iota.Go Iota.Joined Iota.Spec.Joined
variable {V E : Type}

/-! ## Logs -/

theorem heard_append (i : Nat) (l m : List (Ev V E)) : heard i (l ++ m) = heard i l ++ heard i m := by
  induction l with
  | nil => rfl
  | cons a l ih =>
    cases a with
    | told j o => simp only [List.cons_append, heard]; split <;> simp [ih]
    | notified j k b => simp only [List.cons_append, heard]; exact ih

theorem calls_append (i k : Nat) (l m : List (Ev V E)) : calls i k (l ++ m) = calls i k l ++ calls i k m := by
  induction l with
  | nil => rfl
  | cons a l ih =>
    cases a with
    | told j o => simp only [List.cons_append, calls]; exact ih
    | notified j k' b => simp only [List.cons_append, calls]; split <;> simp [ih]

theorem asks_append (i k : Nat) (l m : List (Op V E)) : asks i k (l ++ m) = asks i k l + asks i k m := by
  induction l with
  | nil => simp [asks]
  | cons a l ih => cases a <;> simp only [List.cons_append, asks, ih] <;> omega

theorem heard_tell (i j : Nat) (s : Stage V E) (o : Out V E) : heard j (tell i s o) = if i = j then hearing s o else [] := by
  cases o with
  | ok v => simp [tell, Stage.hears, heard, hearing]
  | err e =>
    unfold tell
    simp only [hearing]
    by_cases hx : s.onError.isSome = true
    · rw [if_pos (show s.hears (.err e) = true from hx), if_pos hx]; simp [heard]
    · rw [if_neg (show ¬ s.hears (.err e) = true from hx), if_neg hx]; simp [heard]

theorem calls_tell (i j k : Nat) (s : Stage V E) (o : Out V E) : calls j k (tell i s o) = [] := by
  unfold tell; split <;> simp [calls]

theorem heard_all (i j : Nat) (n : Node V E) (o : Out V E) : heard j (notifyAll i n o) = [] := by
  unfold notifyAll
  induction n.callbacks with
  | nil => rfl
  | cons k l ih => simp only [List.map_cons, heard]; exact ih

theorem calls_all (i j k : Nat) (n : Node V E) (o : Out V E) :
    calls j k (notifyAll i n o) = if i = j then List.replicate (n.callbacks.count k) o.failed else [] := by
  unfold notifyAll
  induction n.callbacks with
  | nil => simp [calls]
  | cons k' l ih =>
    simp only [List.map_cons, calls, ih]
    by_cases h1 : i = j
    · by_cases h2 : k' = k
      · simp [h1, h2, List.replicate_succ]
      · simp [h1, h2]
    · simp [h1]

theorem push_before (i : Nat) (o : Out V E) (ns : List (Node V E)) {j : Nat} (hj : j < i) :
    heard j (push i o ns).2 = [] ∧ ∀ k, calls j k (push i o ns).2 = [] := by
  induction ns generalizing i o with
  | nil => exact ⟨rfl, fun _ => rfl⟩
  | cons n ns ih =>
    have hne : ¬ i = j := by omega
    simp only [push]
    split
    · split
      · exact ⟨rfl, fun _ => rfl⟩
      · split
        · simp [heard_append, calls_append, heard_tell, calls_tell, heard_all, calls_all, hne]
        · rename_i o' _
          obtain ⟨a, b⟩ := ih (i + 1) o' (by omega)
          simp [heard_append, calls_append, heard_tell, calls_tell, heard_all, calls_all, hne, a, b]
    · exact ⟨rfl, fun _ => rfl⟩

/-! ## The invariant -/

def okPart : Out V E → Option V
  | .ok v => some v
  | .err _ => none

def errPart : Out V E → Option E
  | .ok _ => none
  | .err e => some e

/-- Nothing has come to the subscriber of a processor. -/
structure Waiting (i : Nat) (a : Option (Out V E)) (n : Node V E) (ops : List (Op V E)) (log : List (Ev V E)) : Prop where
  closed : n.closed = false
  kept : n.subscribed = false → n.success = a.bind okPart ∧ n.err = a.bind errPart
  heard : heard i log = []
  calls : ∀ k, calls i k log = []
  fns : ∀ k, n.callbacks.count k = asks i k ops

/-- Something has come to it. -/
structure Through (i : Nat) (o : Out V E) (s : Stage V E) (n : Node V E) (ops : List (Op V E)) (log : List (Ev V E)) : Prop where
  closed : n.closed = true
  failed : n.failed = o.failed
  heard : heard i log = hearing s o
  calls : ∀ k, calls i k log = List.replicate (asks i k ops) o.failed

structure NodeOk (i : Nat) (a : Option (Out V E)) (s : Stage V E) (n : Node V E) (ops : List (Op V E)) (log : List (Ev V E)) : Prop where
  stage : n.stage = s
  sub : n.subscribed = true ↔ .subscribe i ∈ ops
  waiting : (a = none ∨ n.subscribed = false) → Waiting i a n ops log
  through : ∀ o, a = some o → n.subscribed = true → Through i o s n ops log

/-- What a processor's subscriber pushes to the next one so far. -/
def after (a : Option (Out V E)) (s : Stage V E) (n : Node V E) : Option (Out V E) := if n.subscribed then a.bind s.on else none

def Inv : Nat → Option (Out V E) → List (Stage V E) → List (Node V E) → List (Op V E) → List (Ev V E) → Prop
  | i, a, s :: ss, n :: ns, ops, log => NodeOk i a s n ops log ∧ Inv (i + 1) (after a s n) ss ns ops log
  | _, _, [], [], _, _ => True
  | _, _, _, _, _, _ => False

theorem node_ext {i : Nat} {a : Option (Out V E)} {s : Stage V E} {n : Node V E} {ops ops' : List (Op V E)} {log log' : List (Ev V E)}
    (h : NodeOk i a s n ops log) (h1 : heard i log' = heard i log) (h2 : ∀ k, calls i k log' = calls i k log)
    (h3 : ∀ k, asks i k ops' = asks i k ops) (h4 : .subscribe i ∈ ops' ↔ .subscribe i ∈ ops) : NodeOk i a s n ops' log' where
  stage := h.stage
  sub := by rw [h.sub, h4]
  waiting := fun hw => by
    have w := h.waiting hw
    exact ⟨w.closed, w.kept, by rw [h1, w.heard], fun k => by rw [h2, w.calls], fun k => by rw [h3, w.fns]⟩
  through := fun o ho hs => by
    have w := h.through o ho hs
    exact ⟨w.closed, w.failed, by rw [h1, w.heard], fun k => by rw [h2, h3, w.calls]⟩

theorem inv_ext {ss : List (Stage V E)} : ∀ {i : Nat} {a : Option (Out V E)} {ns : List (Node V E)} {ops ops' : List (Op V E)}
    {log log' : List (Ev V E)}, Inv i a ss ns ops log → (∀ j, i ≤ j → heard j log' = heard j log) →
    (∀ j k, i ≤ j → calls j k log' = calls j k log) → (∀ j k, i ≤ j → asks j k ops' = asks j k ops) →
    (∀ j, i ≤ j → (.subscribe j ∈ ops' ↔ .subscribe j ∈ ops)) → Inv i a ss ns ops' log' := by
  induction ss with
  | nil => intro i a ns ops ops' log log' h _ _ _ _; cases ns with
    | nil => trivial
    | cons n ns => exact h.elim
  | cons s ss ih =>
    intro i a ns ops ops' log log' h h1 h2 h3 h4
    cases ns with
    | nil => exact h.elim
    | cons n ns =>
      obtain ⟨a1, a2⟩ := h
      exact ⟨node_ext a1 (h1 i (Nat.le_refl _)) (fun k => h2 i k (Nat.le_refl _)) (fun k => h3 i k (Nat.le_refl _)) (h4 i (Nat.le_refl _)),
        ih a2 (fun j hj => h1 j (by omega)) (fun j k hj => h2 j k (by omega)) (fun j k hj => h3 j k (by omega)) (fun j hj => h4 j (by omega))⟩

theorem push_none {i : Nat} {o : Out V E} {n : Node V E} {ns : List (Node V E)} (hs : n.subscribed = true) (hc : n.closed = false) (ho : n.stage.on o = none) :
    push i o (n :: ns) = (n.shut o :: ns, tell i n.stage o ++ notifyAll i n o) := by
  rw [push, if_pos hs, if_neg (by rw [hc]; decide), ho]

theorem push_some {i : Nat} {o o' : Out V E} {n : Node V E} {ns : List (Node V E)} (hs : n.subscribed = true) (hc : n.closed = false)
    (ho : n.stage.on o = some o') : push i o (n :: ns) =
      (n.shut o :: (push (i + 1) o' ns).1, tell i n.stage o ++ (push (i + 1) o' ns).2 ++ notifyAll i n o) := by
  rw [push, if_pos hs, if_neg (by rw [hc]; decide), ho]

theorem push_inv {ss : List (Stage V E)} : ∀ {i : Nat} {ns : List (Node V E)} {ops : List (Op V E)} {log : List (Ev V E)} (o : Out V E),
    Inv i none ss ns ops log → Inv i (some o) ss (push i o ns).1 ops (log ++ (push i o ns).2) := by
  induction ss with
  | nil => intro i ns ops log o h; cases ns with
    | nil => trivial
    | cons n ns => exact h.elim
  | cons s ss ih =>
    intro i ns ops log o h
    cases ns with
    | nil => exact h.elim
    | cons n ns =>
      obtain ⟨a1, a2⟩ := h
      have w := a1.waiting (.inl rfl)
      have hst := a1.stage
      cases hs : n.subscribed with
      | false =>
        simp only [push, hs, Bool.false_eq_true, if_false, List.append_nil]
        have k1 : (n.keep o).subscribed = false := by cases o <;> exact hs
        refine ⟨⟨by cases o <;> exact hst, by rw [k1, ← hs]; exact a1.sub, fun _ => ?_, fun _ _ hx => by rw [k1] at hx; cases hx⟩, ?_⟩
        · obtain ⟨q1, q2⟩ := w.kept hs
          refine ⟨by cases o <;> exact w.closed, fun _ => ?_, w.heard, w.calls, by cases o <;> exact w.fns⟩
          cases o <;> simp_all [Node.keep, okPart, errPart]
        · have : after (some o) s (n.keep o) = after none s n := by simp [after, k1, hs]
          rw [this]; exact a2
      | true =>
        have hafter : after none s n = none := by simp [after]
        rw [hafter] at a2
        cases hon : n.stage.on o with
        | none =>
          rw [push_none hs w.closed hon]
          refine ⟨⟨hst, a1.sub, fun hw => ?_, fun o' ho' _ => ?_⟩, ?_⟩
          · rcases hw with hw | hw
            · cases hw
            · rw [show (n.shut o).subscribed = n.subscribed from rfl, hs] at hw; cases hw
          · cases ho'
            refine ⟨rfl, rfl, ?_, fun k => ?_⟩
            · rw [heard_append, heard_append, heard_tell, heard_all, w.heard, hst]; simp
            · rw [calls_append, calls_append, calls_tell, calls_all, w.calls, w.fns]; simp
          · have : after (some o) s (n.shut o) = none := by
              show (if n.subscribed = true then (some o).bind s.on else none) = none
              rw [hs, ← hst]; simp [hon]
            rw [this]
            refine inv_ext a2 ?_ ?_ (fun _ _ _ => rfl) (fun _ _ => Iff.rfl)
            · intro j hj
              rw [heard_append, heard_append, heard_tell, heard_all, if_neg (by omega)]; simp
            · intro j k hj
              rw [calls_append, calls_append, calls_tell, calls_all, if_neg (by omega)]; simp
        | some o' =>
          rw [push_some hs w.closed hon]
          refine ⟨⟨hst, a1.sub, fun hw => ?_, fun o'' ho' _ => ?_⟩, ?_⟩
          · rcases hw with hw | hw
            · cases hw
            · rw [show (n.shut o).subscribed = n.subscribed from rfl, hs] at hw; cases hw
          · cases ho'
            obtain ⟨b1, b2⟩ := push_before (i + 1) o' ns (Nat.lt_succ_self i)
            refine ⟨rfl, rfl, ?_, fun k => ?_⟩
            · rw [heard_append, heard_append, heard_append, heard_tell, heard_all, w.heard, hst, b1]; simp
            · rw [calls_append, calls_append, calls_append, calls_tell, calls_all, w.calls, w.fns, b2]; simp
          · have : after (some o) s (n.shut o) = some o' := by
              show (if n.subscribed = true then (some o).bind s.on else none) = some o'
              rw [hs, ← hst]; simp [hon]
            rw [this]
            refine inv_ext (ih o' a2) ?_ ?_ (fun _ _ _ => rfl) (fun _ _ => Iff.rfl)
            · intro j hj
              simp only [heard_append, heard_tell, heard_all]
              rw [if_neg (by omega)]; simp
            · intro j k hj
              simp only [calls_append, calls_tell, calls_all]
              rw [if_neg (by omega)]; simp

theorem mem_snoc_other {j i : Nat} (ops : List (Op V E)) (h : j ≠ i) : .subscribe j ∈ ops ++ [Op.subscribe i] ↔ .subscribe j ∈ ops := by
  simp [h]

theorem subscribe_inv {i : Nat} {a : Option (Out V E)} {s : Stage V E} {ss : List (Stage V E)} {n : Node V E} {ns : List (Node V E)}
    {ops : List (Op V E)} {log : List (Ev V E)} (h : Inv i a (s :: ss) (n :: ns) ops log) (hno : .subscribe i ∉ ops) :
    Inv i a (s :: ss) (subscribe i n ns).1 (ops ++ [.subscribe i]) (log ++ (subscribe i n ns).2) := by
  obtain ⟨a1, a2⟩ := h
  have hs : n.subscribed = false := by
    cases hx : n.subscribed with
    | false => rfl
    | true => exact absurd (a1.sub.mp hx) hno
  have w := a1.waiting (.inr hs)
  obtain ⟨q1, q2⟩ := w.kept hs
  have hrest : Inv (i + 1) none ss ns (ops ++ [.subscribe i]) log := by
    have : after a s n = none := by simp [after, hs]
    rw [this] at a2
    refine inv_ext a2 (fun _ _ => rfl) (fun _ _ _ => rfl) (fun j k _ => ?_) (fun j hj => mem_snoc_other ops (by omega))
    rw [asks_append]; simp [asks]
  have hnew : Inv i none (s :: ss) (n.sub :: ns) (ops ++ [.subscribe i]) log := by
    refine ⟨⟨a1.stage, by simp [Node.sub], fun _ => ⟨rfl, (fun hx => by cases hx), w.heard, w.calls, fun k => ?_⟩, (fun o ho => by cases ho)⟩, ?_⟩
    · rw [asks_append]; exact w.fns k
    · have : after none s n.sub = none := by simp [after]
      rw [this]; exact hrest
  unfold subscribe
  cases a with
  | none =>
    simp only [Option.bind_none] at q1 q2
    rw [q1, q2]
    simpa using hnew
  | some o =>
    simp only [Option.bind_some] at q1 q2
    cases o with
    | ok v => rw [q1]; exact push_inv _ hnew
    | err e => rw [q1, q2]; exact push_inv _ hnew

theorem act_subscribe {ss : List (Stage V E)} : ∀ {i : Nat} {a : Option (Out V E)} {ns : List (Node V E)} {ops : List (Op V E)}
    {log : List (Ev V E)} (j : Nat), Inv i a ss ns ops log → i ≤ j → (j < i + ss.length → .subscribe j ∉ ops) →
    Inv i a ss (act i (.subscribe j) ns).1 (ops ++ [.subscribe j]) (log ++ (act i (.subscribe j) ns).2) ∧
    ∀ m, m < i → heard m (act i (.subscribe j) ns).2 = [] ∧ ∀ k, calls m k (act i (.subscribe j) ns).2 = [] := by
  induction ss with
  | nil => intro i a ns ops log j h _ _; cases ns with
    | nil => exact ⟨trivial, fun _ _ => ⟨rfl, fun _ => rfl⟩⟩
    | cons n ns => exact h.elim
  | cons s ss ih =>
    intro i a ns ops log j h hij hno
    cases ns with
    | nil => exact h.elim
    | cons n ns =>
      by_cases hj : j = i
      · subst hj
        simp only [act, if_true]
        refine ⟨subscribe_inv h (hno (by simp)), fun m hm => ?_⟩
        unfold subscribe
        split
        · exact push_before _ _ _ hm
        · split
          · exact push_before _ _ _ hm
          · exact ⟨rfl, fun _ => rfl⟩
      · obtain ⟨a1, a2⟩ := h
        obtain ⟨b1, b2⟩ := ih j a2 (by omega) (fun hl => hno (by simp only [List.length_cons]; omega))
        simp only [act, if_neg hj]
        obtain ⟨c1, c2⟩ := b2 i (Nat.lt_succ_self i)
        refine ⟨⟨node_ext a1 ?_ (fun k => ?_) (fun k => ?_) (mem_snoc_other ops (by omega)), b1⟩, fun m hm => b2 m (by omega)⟩
        · rw [heard_append, c1]; simp
        · rw [calls_append, c2]; simp
        · rw [asks_append]; simp [asks]

theorem count_snoc (l : List Nat) (k k' : Nat) : (l ++ [k]).count k' = l.count k' + if k = k' then 1 else 0 := by
  rw [List.count_append]
  by_cases h : k = k' <;> simp [h]

theorem act_notify {ss : List (Stage V E)} : ∀ {i : Nat} {a : Option (Out V E)} {ns : List (Node V E)} {ops : List (Op V E)}
    {log : List (Ev V E)} (j k : Nat), Inv i a ss ns ops log → i ≤ j →
    Inv i a ss (act i (.notify j k) ns).1 (ops ++ [.notify j k]) (log ++ (act i (.notify j k) ns).2) ∧
    ∀ m, m < i → heard m (act i (.notify j k) ns).2 = [] ∧ ∀ k', calls m k' (act i (.notify j k) ns).2 = [] := by
  induction ss with
  | nil => intro i a ns ops log j k h _; cases ns with
    | nil => exact ⟨trivial, fun _ _ => ⟨rfl, fun _ => rfl⟩⟩
    | cons n ns => exact h.elim
  | cons s ss ih =>
    intro i a ns ops log j k h hij
    cases ns with
    | nil => exact h.elim
    | cons n ns =>
      by_cases hj : j = i
      · subst hj
        simp only [act, if_true]
        obtain ⟨a1, a2⟩ := h
        have hrest : ∀ l : List (Ev V E), (∀ m, j < m → heard m l = [] ∧ ∀ k', calls m k' l = []) →
            Inv (j + 1) (after a s n) ss ns (ops ++ [.notify j k]) (log ++ l) := by
          intro l hl
          refine inv_ext a2 (fun m hm => ?_) (fun m k' hm => ?_) (fun m k' hm => ?_) (fun m hm => by simp)
          · rw [heard_append, (hl m (by omega)).1]; simp
          · rw [calls_append, (hl m (by omega)).2]; simp
          · rw [asks_append]; simp [asks]; omega
        have hask : ∀ k', asks j k' (ops ++ [.notify j k]) = asks j k' ops + if k = k' then 1 else 0 := by
          intro k'; rw [asks_append]; simp [asks]
        unfold notify
        by_cases hc : (n.subscribed && n.closed) = true
        · rw [if_pos hc]
          simp only [Bool.and_eq_true] at hc
          refine ⟨⟨⟨a1.stage, by rw [a1.sub]; simp, fun hw => ?_, fun o ho hs => ?_⟩, hrest _ (fun m hm => ?_)⟩, fun m hm => ?_⟩
          · have w := a1.waiting hw
            rw [w.closed] at hc; cases hc.2
          · have t := a1.through o ho hs
            refine ⟨t.closed, t.failed, ?_, fun k' => ?_⟩
            · rw [heard_append, t.heard]; simp [heard]
            · rw [calls_append, t.calls, hask, t.failed]
              by_cases hk : k = k'
              · simp [calls, hk, List.replicate_succ']
              · simp [calls, hk]
          · simp [heard, calls]; omega
          · simp [heard, calls]; omega
        · rw [if_neg hc]
          refine ⟨⟨⟨a1.stage, by show n.subscribed = true ↔ _; rw [a1.sub]; simp, fun hw => ?_, fun o ho hs => ?_⟩, ?_⟩, fun m hm => ⟨rfl, fun _ => rfl⟩⟩
          · have w := a1.waiting hw
            exact ⟨w.closed, w.kept, by simpa using w.heard, by simpa using w.calls, fun k' => by
              show (n.callbacks ++ [k]).count k' = _
              rw [count_snoc, w.fns, hask]⟩
          · have t := a1.through o ho hs
            exact absurd (by rw [show n.subscribed = true from hs, t.closed]; rfl) hc
          · exact hrest [] (fun _ _ => ⟨rfl, fun _ => rfl⟩)
      · obtain ⟨a1, a2⟩ := h
        obtain ⟨b1, b2⟩ := ih j k a2 (by omega)
        simp only [act, if_neg hj]
        obtain ⟨c1, c2⟩ := b2 i (Nat.lt_succ_self i)
        refine ⟨⟨node_ext a1 ?_ (fun k => ?_) (fun k' => ?_) (by simp), b1⟩, fun m hm => b2 m (by omega)⟩
        · rw [heard_append, c1]; simp
        · rw [calls_append, c2]; simp
        · rw [asks_append]; simp [asks, hj]

/-! ## Programs -/

theorem init_inv (ss : List (Stage V E)) : ∀ i, Inv i none ss (ss.map Node.new) [] [] := by
  induction ss with
  | nil => intro i; trivial
  | cons s ss ih =>
    intro i
    refine ⟨⟨rfl, by simp [Node.new], fun _ => ⟨rfl, fun _ => ⟨rfl, rfl⟩, rfl, fun _ => rfl, fun _ => rfl⟩, (fun o ho => by cases ho)⟩, ?_⟩
    have : after none s (Node.new s) = none := by simp [after]
    rw [this]; exact ih (i + 1)

theorem run_inv {ss : List (Stage V E)} (as : List (Op V E)) : ∀ {a : Option (Out V E)} {s : State V E} {ops : List (Op V E)},
    Inv 0 a ss s.nodes ops s.log → (∀ j x, .push j x ∉ as) →
    (∀ bs i cs, as = bs ++ .subscribe i :: cs → i < ss.length → .subscribe i ∉ ops ++ bs) →
    Inv 0 a ss (s.run as).nodes (ops ++ as) (s.run as).log := by
  induction as with
  | nil => intro a s ops h _ _; simpa [State.run] using h
  | cons b as ih =>
    intro a s ops h hp hs
    have hstep : Inv 0 a ss (s.step b).nodes (ops ++ [b]) (s.step b).log := by
      cases b with
      | push j x => exact absurd (List.mem_cons_self) (hp j x)
      | subscribe j => exact (act_subscribe j h (Nat.zero_le _) (fun hl => by simpa using hs [] j as rfl (by omega))).1
      | notify j k => exact (act_notify j k h (Nat.zero_le _)).1
    have := ih hstep (fun j x hx => hp j x (List.mem_cons_of_mem _ hx)) (fun bs i cs he hi => by
      have := hs (b :: bs) i cs (by rw [he]; rfl) hi
      simpa using this)
    simpa [State.run] using this

theorem run_append (as bs : List (Op V E)) : ∀ s : State V E, s.run (as ++ bs) = (s.run as).run bs := by
  induction as with
  | nil => intro s; rfl
  | cons a as ih => intro s; exact ih _

theorem once {i : Nat} {as bs cs bs' cs' : List (Op V E)} (h : as = bs ++ .subscribe i :: cs) (h1 : .subscribe i ∉ bs) (h2 : .subscribe i ∉ cs)
    (h' : as = bs' ++ .subscribe i :: cs') : .subscribe i ∉ bs' := by
  rw [h] at h'
  intro hm
  obtain ⟨x, y, rfl⟩ := List.append_of_mem hm
  have : (bs ++ Op.subscribe i :: cs) = x ++ Op.subscribe i :: (y ++ Op.subscribe i :: cs') := by rw [h']; simp
  rcases List.append_eq_append_iff.mp this with ⟨z, hz1, hz2⟩ | ⟨z, hz1, hz2⟩
  · cases z with
    | nil =>
      simp only [List.nil_append, List.cons.injEq, true_and] at hz2
      rw [hz2] at h2; simp at h2
    | cons w z =>
      simp only [List.cons_append, List.cons.injEq] at hz2
      rw [hz2.2] at h2; simp at h2
  · cases z with
    | nil =>
      simp only [List.nil_append, List.cons.injEq, true_and] at hz2
      rw [← hz2] at h2; simp at h2
    | cons w z =>
      simp only [List.cons_append, List.cons.injEq] at hz2
      rw [hz1, ← hz2.1] at h1; simp at h1

theorem joins_inv {ss : List (Stage V E)} {o : Out V E} {as : List (Op V E)} (h : Joins ss o as) :
    Inv 0 (some o) ss ((State.init ss).run as).nodes as ((State.init ss).run as).log := by
  obtain ⟨bs, cs, hb, h1, h2⟩ := h.pushes
  have hsub : ∀ xs i ys, as = xs ++ .subscribe i :: ys → i < ss.length → .subscribe i ∉ xs := by
    intro xs i ys he hi
    obtain ⟨us, vs, e1, e2, e3⟩ := h.subscribes i hi
    exact once e1 e2 e3 he
  have i1 := run_inv (s := State.init ss) (ops := []) bs (init_inv ss 0) h1 (fun xs i ys he hi => by
    simpa using hsub xs i (ys ++ .push 0 o :: cs) (by rw [hb, he]; simp) hi)
  rw [List.nil_append] at i1
  have i2 : Inv 0 (some o) ss (((State.init ss).run bs).step (.push 0 o)).nodes (bs ++ [.push 0 o]) (((State.init ss).run bs).step (.push 0 o)).log := by
    have := push_inv o i1
    have hact : act 0 (.push 0 o) ((State.init ss).run bs).nodes = push 0 o ((State.init ss).run bs).nodes := by
      cases ((State.init ss).run bs).nodes with
      | nil => rfl
      | cons n ns => simp [act]
    refine inv_ext (log := ((State.init ss).run bs).log ++ (push 0 o ((State.init ss).run bs).nodes).2) (ops := bs) ?_ (fun j _ => ?_) (fun j k _ => ?_)
      (fun j k _ => by rw [asks_append]; simp [asks]) (fun j _ => by simp)
    · show Inv 0 (some o) ss (act 0 (.push 0 o) _).1 _ _
      rw [hact]; exact this
    · show heard j (_ ++ (act 0 (.push 0 o) _).2) = _
      rw [hact]
    · show calls j k (_ ++ (act 0 (.push 0 o) _).2) = _
      rw [hact]
  have i3 := run_inv cs i2 h2 (fun xs i ys he hi => by
    simpa using hsub (bs ++ .push 0 o :: xs) i ys (by rw [hb, he]; simp) hi)
  rw [hb, run_append]
  simpa [State.run] using i3

/-- `comes`, for whatever has come to the first processor. -/
def comesTo (ss : List (Stage V E)) (a : Option (Out V E)) : Nat → Option (Out V E)
  | 0 => a
  | i + 1 => (comesTo ss a i).bind fun x => (ss[i]?).bind fun s => s.on x

theorem comesTo_comes (ss : List (Stage V E)) (o : Out V E) (i : Nat) : comesTo ss (some o) i = comes ss o i := by
  induction i with
  | zero => rfl
  | succ i ih => simp only [comesTo, comes, ih]

theorem comesTo_cons (s : Stage V E) (ss : List (Stage V E)) (a : Option (Out V E)) (i : Nat) :
    comesTo (s :: ss) a (i + 1) = comesTo ss (a.bind s.on) i := by
  induction i with
  | zero => cases a <;> simp [comesTo]
  | succ i ih => rw [comesTo, ih]; rfl

theorem inv_tells {ss : List (Stage V E)} : ∀ {i : Nat} {a : Option (Out V E)} {ns : List (Node V E)} {ops : List (Op V E)} {log : List (Ev V E)},
    Inv i a ss ns ops log → (∀ m, m < ss.length → .subscribe (i + m) ∈ ops) → ∀ m s, ss[m]? = some s →
    (∀ x, comesTo ss a m = some x → heard (i + m) log = hearing s x ∧ ∀ k, calls (i + m) k log = List.replicate (asks (i + m) k ops) x.failed) ∧
    (comesTo ss a m = none → heard (i + m) log = [] ∧ ∀ k, calls (i + m) k log = []) := by
  induction ss with
  | nil => intro i a ns ops log _ _ m s hs; simp at hs
  | cons s0 ss ih =>
    intro i a ns ops log h hall m s hs
    cases ns with
    | nil => exact h.elim
    | cons n ns =>
      obtain ⟨a1, a2⟩ := h
      have hsub : n.subscribed = true := a1.sub.mpr (by simpa using hall 0 (by simp))
      cases m with
      | zero =>
        simp only [List.getElem?_cons_zero, Option.some.injEq] at hs
        subst hs
        refine ⟨fun x hx => ?_, fun hx => ?_⟩
        · have t := a1.through x hx hsub
          exact ⟨t.heard, t.calls⟩
        · have w := a1.waiting (.inl hx)
          exact ⟨w.heard, w.calls⟩
      | succ m =>
        rw [comesTo_cons]
        have he : after a s0 n = a.bind s0.on := by simp [after, hsub]
        rw [he] at a2
        have := ih a2 (fun m hm => by
          have := hall (m + 1) (by simp only [List.length_cons]; omega)
          rwa [show i + 1 + m = i + (m + 1) by omega]) m s (by simpa using hs)
        rwa [show i + 1 + m = i + (m + 1) by omega] at this

/-- **C176** In whatever order the program pushes, subscribes and asks to be notified, each subscriber is told once what comes to its processor,
and every function is called as often as it was given to `Notify`, with the right signal; where nothing comes nobody is told anything. -/
theorem joined_any_order {ss : List (Stage V E)} {o : Out V E} {as : List (Op V E)} (h : Joins ss o as) (i : Nat) (s : Stage V E) (hs : ss[i]? = some s) :
    (∀ x, comes ss o i = some x → heard i ((State.init ss).run as).log = hearing s x ∧
      ∀ k, calls i k ((State.init ss).run as).log = List.replicate (asks i k as) (fits x)) ∧
    (comes ss o i = none → heard i ((State.init ss).run as).log = [] ∧ ∀ k, calls i k ((State.init ss).run as).log = []) := by
  have := inv_tells (joins_inv h) (fun m hm => by
    obtain ⟨bs, cs, e1, _⟩ := h.subscribes m hm
    rw [e1]; simp) i s hs
  have hf : ∀ x : Out V E, fits x = x.failed := fun x => by cases x <;> rfl
  simpa [comesTo_comes, hf] using this

/-- **C176** (part) The program prints the greeting of both strings and ends, in whatever order it does what it does, if it asks to be notified at all. -/
theorem flow_greets {l r : Bytes} {as : List (Op Val Bytes)} (h : Joins stages (.ok (.strings l r)) as) (hn : asks 3 0 as = 1) :
    printed ((State.init stages).run as).log = [bytes "Hello, " ++ l ++ bytes " " ++ r] ∧ over ((State.init stages).run as).log = true := by
  obtain ⟨h1, _⟩ := joined_any_order h 3 printer rfl
  obtain ⟨h2, h3⟩ := h1 (.ok (.text (bytes "Hello, " ++ l ++ bytes " " ++ r))) (by
    have e1 : bytes "Hello, " = [72, 101, 108, 108, 111, 44, 32] := by decide +kernel
    have e2 : bytes " " = [32] := by decide +kernel
    simp [comes, stages, Stage.on, concat, join, greeter, e1, e2])
  refine ⟨?_, ?_⟩
  · simp [printed, h2, hearing]
  · simp [over, h3, hn]

/-- **C176** (part) Were an error pushed to it, it would print nothing and never end: the error is lost behind the first component. -/
theorem flow_loses_errors {e : Bytes} {as : List (Op Val Bytes)} (h : Joins stages (.err e) as) :
    heard 0 ((State.init stages).run as).log = [.err e] ∧ heard 1 ((State.init stages).run as).log = [] ∧
    printed ((State.init stages).run as).log = [] ∧ over ((State.init stages).run as).log = false := by
  obtain ⟨h0, _⟩ := joined_any_order h 0 concat rfl
  obtain ⟨h1, _⟩ := joined_any_order h 1 join rfl
  obtain ⟨_, h3⟩ := joined_any_order h 3 printer rfl
  obtain ⟨a, b⟩ := h3 (by simp [comes, stages, Stage.on, concat, join, greeter])
  refine ⟨?_, ?_, by simp [printed, a], by simp [over, b]⟩
  · rw [(h0 (.err e) rfl).1]; simp [hearing, concat]
  · rw [(h1 (.err e) (by simp [comes, stages, Stage.on, concat])).1]; simp [hearing, join]

/-- **C176** (part) Of two subscribers to one processor only the latest counts: whether the second is told anything depends on whether the value was
pushed before the first subscribed. -/
theorem second_subscriber (ss : List (Stage V E)) (s : Stage V E) (v : V) :
    heard 0 ((State.init (s :: ss)).run [.subscribe 0, .push 0 (.ok v), .subscribe 0]).log = [.ok v] ∧
    heard 0 ((State.init (s :: ss)).run [.push 0 (.ok v), .subscribe 0, .subscribe 0]).log = [.ok v, .ok v] := by
  have key : ∀ (n : Node V E) (ns : List (Node V E)), n.subscribed = true → n.closed = false → n.callbacks = [] → n.stage = s →
      heard 0 (push 0 (.ok v) (n :: ns)).2 = [.ok v] := by
    intro n ns h1 h2 h3 h4
    cases ho : n.stage.on (.ok v) with
    | none => rw [push_none h1 h2 ho, heard_append, heard_tell, heard_all]; rfl
    | some o' =>
      rw [push_some h1 h2 ho, heard_append, heard_append, heard_tell, heard_all, (push_before 1 o' ns Nat.zero_lt_one).1]; rfl
  have hfst : ∀ (n : Node V E) (ns : List (Node V E)), n.subscribed = true → n.closed = false →
      ∃ ms, (push 0 (.ok v) (n :: ns)).1 = n.shut (.ok v) :: ms := by
    intro n ns h1 h2
    cases ho : n.stage.on (.ok v) with
    | none => exact ⟨_, by rw [push_none h1 h2 ho]⟩
    | some o' => exact ⟨_, by rw [push_some h1 h2 ho]⟩
  refine ⟨?_, ?_⟩
  · obtain ⟨ms, hms⟩ := hfst (Node.new s).sub (ss.map Node.new) rfl rfl
    have h1 : ((State.init (s :: ss)).run [.subscribe 0, .push 0 (.ok v)]) =
        ⟨(push 0 (.ok v) ((Node.new s).sub :: ss.map Node.new)).1, (push 0 (.ok v) ((Node.new s).sub :: ss.map Node.new)).2⟩ := by
      simp [State.run, State.step, State.init, act, subscribe, Node.new]
    rw [show [Op.subscribe 0, .push 0 (.ok v), .subscribe 0] = [Op.subscribe 0, .push 0 (.ok v)] ++ [.subscribe 0] from rfl, run_append, h1, hms]
    simp only [State.run, State.step, act, if_true, heard_append]
    rw [key _ _ rfl rfl rfl rfl]
    rfl
  · obtain ⟨ms, hms⟩ := hfst ((Node.new s).keep (.ok v)).sub (ss.map Node.new) rfl rfl
    have h1 : ((State.init (s :: ss)).run [.push 0 (.ok v), .subscribe 0]) =
        ⟨(push 0 (.ok v) (((Node.new s).keep (.ok v)).sub :: ss.map Node.new)).1, (push 0 (.ok v) (((Node.new s).keep (.ok v)).sub :: ss.map Node.new)).2⟩ := by
      simp [State.run, State.step, State.init, act, subscribe, Node.new, Node.keep, push]
    rw [show [Op.push 0 (.ok v), .subscribe 0, .subscribe 0] = [Op.push 0 (.ok v), .subscribe 0] ++ [.subscribe 0] from rfl, run_append, h1, hms]
    simp only [State.run, State.step, act, if_true, heard_append]
    rw [key _ _ rfl rfl rfl rfl]
    show [Out.ok v] ++ heard 0 (push 0 (.ok v) _).2 = _
    rw [key _ _ rfl rfl rfl rfl]
    rfl

/-! ## Examples -/

theorem program_joins (o : Out Val Bytes) : Joins stages o (program o) where
  pushes := ⟨[.subscribe 0, .subscribe 2, .subscribe 1, .subscribe 3, .notify 3 0], [], rfl, by simp, by simp⟩
  subscribes := fun i hi => by
    have : i = 0 ∨ i = 1 ∨ i = 2 ∨ i = 3 := by simp [stages] at hi; omega
    rcases this with rfl | rfl | rfl | rfl
    · exact ⟨[], [.subscribe 2, .subscribe 1, .subscribe 3, .notify 3 0, .push 0 o], rfl, by simp, by simp⟩
    · exact ⟨[.subscribe 0, .subscribe 2], [.subscribe 3, .notify 3 0, .push 0 o], rfl, by simp, by simp⟩
    · exact ⟨[.subscribe 0], [.subscribe 1, .subscribe 3, .notify 3 0, .push 0 o], rfl, by simp, by simp⟩
    · exact ⟨[.subscribe 0, .subscribe 2, .subscribe 1], [.notify 3 0, .push 0 o], rfl, by simp, by simp⟩

/-- The program as it is written, for any strings. -/
theorem program_greets (l r : Bytes) : printed ((State.init stages).run (program (.ok (.strings l r)))).log = [bytes "Hello, " ++ l ++ bytes " " ++ r] ∧
    over ((State.init stages).run (program (.ok (.strings l r)))).log = true :=
  flow_greets (program_joins _) rfl

example : printed ((State.init stages).run (program (.ok (.strings (bytes "Foo") (bytes "Bar"))))).log = [bytes "Hello, Foo Bar"] := by decide +kernel

/-- The other way round. -/
example : Joins stages (.ok (.strings [70] [66])) [.push 0 (.ok (.strings [70] [66])), .notify 3 0, .subscribe 3, .subscribe 2, .subscribe 1, .subscribe 0] ∧
    ((State.init stages).run [.push 0 (.ok (.strings [70] [66])), .notify 3 0, .subscribe 3, .subscribe 2, .subscribe 1, .subscribe 0]).log =
      [.told 0 (.ok (.strings [70] [66])), .told 1 (.ok (.text [70, 32, 66])), .told 2 (.ok (.text [70, 32, 66])),
        .told 3 (.ok (.text (bytes "Hello, F B"))), .notified 3 0 false] :=
  ⟨⟨⟨[], _, rfl, by simp, by simp⟩, fun i hi => by
      have : i = 0 ∨ i = 1 ∨ i = 2 ∨ i = 3 := by simp [stages] at hi; omega
      rcases this with rfl | rfl | rfl | rfl
      · exact ⟨[.push 0 (.ok (.strings [70] [66])), .notify 3 0, .subscribe 3, .subscribe 2, .subscribe 1], [], rfl, by simp, by simp⟩
      · exact ⟨[.push 0 (.ok (.strings [70] [66])), .notify 3 0, .subscribe 3, .subscribe 2], [.subscribe 0], rfl, by simp, by simp⟩
      · exact ⟨[.push 0 (.ok (.strings [70] [66])), .notify 3 0, .subscribe 3], [.subscribe 1, .subscribe 0], rfl, by simp, by simp⟩
      · exact ⟨[.push 0 (.ok (.strings [70] [66])), .notify 3 0], [.subscribe 2, .subscribe 1, .subscribe 0], rfl, by simp, by simp⟩⟩, by decide +kernel⟩

end Iota.Props.Joined
