import Verif.Model.Await
import Verif.Props.Block

/-!
# C127: awaiting an operation

An operation that is awaited is started; whoever awaits it is told once when it is done; then `Get` returns its outcome.
-/

namespace Iota.Props.Await
open Iota.Await Iota.Mono Iota.Block Iota.Spec.Mono Iota.Lemmas.Mono Iota.Props.Block

variable {V E W : Type}

/-! ## Results of calls -/

def isNotify : Act V E → Bool
  | .notify _ => true
  | _ => false

/-- What `Get` has to return for an outcome. -/
def gotOf : Outcome V E → Got V E
  | .success v => .ret (some v) none
  | .error e => .ret none (some e)
  | .cancel => .panic

/-- How often function `k` has to be called with `sg` if `n` functions were handed over and the answer is `o`. -/
def due (n : Nat) (o : Option (Outcome V E)) (k : Nat) (sg : Signal) : Nat :=
  match o with
  | none => 0
  | some o => if k < n ∧ sg = sigOf o then 1 else 0

/-- Only loops and leaves are in progress. -/
def plain : Frame → Bool
  | .afterSig _ _ => false
  | .afterFin _ _ => false
  | _ => true

/-- A result whose only subscription is that of `Async`. -/
structure Awaited (o : Option (Outcome V E)) (m : State V E V) : Prop where
  cur : m.current = some 0
  sub : ∃ b, m.subs = [b] ∧ b.h = ⟨false, false, false⟩ ∧
    match o with
    | none => b.closed = false ∧ b.value = none ∧ b.err = none ∧ ∀ k, registered k m.log = decide (k < m.nextFn)
    | some o => b.closed = true ∧ b.signal = sigOf o ∧ fieldsOf b o
  owed : ∀ k sg, owedCalls k sg m.log = due m.nextFn o k sg
  calm : ∀ x ∈ m.pending, plain x.2 = true

theorem calm_loop {m : State V E V} (h : ∀ x ∈ m.pending, plain x.2 = true) (g : Nat) (sg : Signal) (r : List Nat) :
    ∀ x ∈ (runLoop g sg r m).pending, plain x.2 = true := by
  cases r with
  | nil => exact h
  | cons k ks =>
    intro x hx
    rcases List.mem_cons.mp hx with rfl | hx
    · rfl
    · exact h x hx

theorem loop_facts (m : State V E V) (g : Nat) (sg : Signal) (r : List Nat) :
    (runLoop g sg r m).current = m.current ∧ (runLoop g sg r m).subs = m.subs ∧
    (runLoop g sg r m).nextFn = m.nextFn ∧ (∀ k, registered k (runLoop g sg r m).log = registered k m.log) ∧
    ∀ k s, owedCalls k s (runLoop g sg r m).log = owedCalls k s m.log := by
  cases r <;> exact ⟨rfl, rfl, rfl, fun _ => rfl, fun _ _ => rfl⟩

/-- The answer arrives. -/
theorem awaited_signal {o : Option (Outcome V E)} {m m' : State V E V} (h : Awaited o m) (g : Nat) (x : Outcome V E)
    (hx : x ≠ .cancel) (hs : signal .ok g 0 x m = some m') : Awaited (o.or (some x)) m' ∧ m'.nextFn = m.nextFn := by
  obtain ⟨b, hb, hh, hm⟩ := h.sub
  unfold signal at hs
  simp only [hb, List.getElem?_cons_zero] at hs
  cases o with
  | some o =>
    simp only [hm.1, if_true] at hs
    injection hs with hs
    subst hs
    exact ⟨⟨h.cur, ⟨b, hb, hh, hm⟩, h.owed, h.calm⟩, rfl⟩
  | none =>
    simp only [hm.1, Bool.false_eq_true, if_false] at hs
    have hreg := hm.2.2.2
    have fin : ∀ (f f' : Sub V E → Sub V E), f' (f b) = f' (f b) → (f' (f b)).h = ⟨false, false, false⟩ →
        (f' (f b)).closed = true → (f' (f b)).signal = sigOf x → fieldsOf (f' (f b)) x →
        Awaited (some x) (startLoop g 0 (sigOf x) (setSub (setSub (emit m (.called 0 x)) 0 f) 0 f')) ∧
        (startLoop g 0 (sigOf x) (setSub (setSub (emit m (.called 0 x)) 0 f) 0 f')).nextFn = m.nextFn := by
      intro f f' _ f1 f2 f3 f4
      unfold startLoop
      obtain ⟨l1, l2, l3, l4, l5⟩ := loop_facts (emit (setSub (setSub (emit m (.called 0 x)) 0 f) 0 f') (.done 0 (sigOf x)))
        g (sigOf x) (setSub (setSub (emit m (.called 0 x)) 0 f) 0 f').callbacks
      refine ⟨⟨?_, ⟨f' (f b), ?_, f1, f2, f3, f4⟩, ?_,
        calm_loop (m := emit (setSub (setSub (emit m (.called 0 x)) 0 f) 0 f') (.done 0 (sigOf x))) h.calm g _ _⟩, ?_⟩
      · rw [l1]; exact h.cur
      · rw [l2]; simp [emit, setSub, hb]
      · intro k sg
        rw [l5, l3]
        have e : owedCalls k sg (emit (setSub (setSub (emit m (.called 0 x)) 0 f) 0 f') (.done 0 (sigOf x))).log =
            (if sigOf x = sg ∧ registered k m.log then 1 else 0) + owedCalls k sg m.log := rfl
        have e' : (emit (setSub (setSub (emit m (.called 0 x)) 0 f) 0 f') (.done 0 (sigOf x))).nextFn = m.nextFn := rfl
        rw [e, e', h.owed k sg, hreg k]
        simp only [due, Nat.add_zero, decide_eq_true_eq]
        by_cases h1 : sigOf x = sg <;> by_cases h2 : k < m.nextFn <;> simp [h1, h2, eq_comm]
        intro h3
        exact absurd h3.symm h1
      · rw [l3]; rfl
    cases x with
    | cancel => exact absurd rfl hx
    | success v =>
      simp only [hh] at hs
      injection hs with hs
      rw [← hs]
      exact fin (fun b => { b with value := some v, closed := true }) (fun b => { b with signal := .complete }) rfl hh rfl rfl
        ⟨rfl, hm.2.2.1⟩
    | error e =>
      simp only [hh] at hs
      injection hs with hs
      rw [← hs]
      exact fin (fun b => { b with err := some e, closed := true }) (fun b => { b with signal := .error }) rfl hh rfl rfl
        ⟨hm.2.1, rfl⟩

/-- A function is handed over. -/
theorem awaited_notify {o : Option (Outcome V E)} {m : State V E V} (h : Awaited o m) (g : Nat) :
    Awaited o (notify g m) ∧ (notify g m).nextFn = m.nextFn + 1 := by
  obtain ⟨b, hb, hh, hm⟩ := h.sub
  unfold notify
  simp only [h.cur, Option.bind_some, hb, List.getElem?_cons_zero]
  cases o with
  | none =>
    simp only [hm.1, Bool.false_eq_true, if_false]
    refine ⟨⟨rfl, ⟨b, rfl, hh, hm.1, hm.2.1, hm.2.2.1, ?_⟩, fun k sg => h.owed k sg, h.calm⟩, trivial⟩
    intro k
    have := hm.2.2.2 k
    simp only [registered, this]
    rw [Bool.eq_iff_iff]
    simp
    omega
  | some o =>
    simp only [hm.1, if_true]
    refine ⟨⟨rfl, ⟨b, rfl, hh, hm⟩, ?_, ?_⟩, rfl⟩
    · intro k sg
      have := h.owed k sg
      simp only [push, emit, owedCalls, this, due, hm.2.1]
      by_cases h1 : m.nextFn = k
      · subst h1
        by_cases h2 : sigOf o = sg
        · subst h2; simp
        · simp [h2]; intro h3; exact absurd h3.symm h2
      · have e : (k < m.nextFn + 1) = (k < m.nextFn) := by
          apply propext; omega
        simp [h1, e]
    · intro x hx
      rcases List.mem_cons.mp hx with rfl | hx
      · rfl
      · exact h.calm x hx

theorem pop_plain {g : Nat} {l r : List (Nat × Frame)} {f : Frame} (h : pop g l = some (f, r))
    (hl : ∀ x ∈ l, plain x.2 = true) : plain f = true ∧ ∀ x ∈ r, plain x.2 = true := by
  induction l generalizing r with
  | nil => simp [pop] at h
  | cons y l ih =>
    obtain ⟨g', f'⟩ := y
    unfold pop at h
    split at h
    · injection h with h
      injection h with h1 h2
      subst h1; subst h2
      exact ⟨hl (g', f') List.mem_cons_self, fun x hx => hl x (List.mem_cons_of_mem _ hx)⟩
    · split at h
      · cases h
      · rename_i f2 r2 hp
        injection h with h
        injection h with h1 h2
        subst h1; subst h2
        obtain ⟨i1, i2⟩ := ih hp fun x hx => hl x (List.mem_cons_of_mem _ hx)
        refine ⟨i1, fun x hx => ?_⟩
        rcases List.mem_cons.mp hx with rfl | hx
        · exact hl _ List.mem_cons_self
        · exact i2 x hx

/-- A callback returns. -/
theorem awaited_resume {o : Option (Outcome V E)} {m m' : State V E V} (h : Awaited o m) (g : Nat)
    (hr : resume g m = some m') : Awaited o m' ∧ m'.nextFn = m.nextFn := by
  unfold resume at hr
  split at hr
  · cases hr
  · rename_i f r hp
    obtain ⟨p1, p2⟩ := pop_plain hp h.calm
    have base : Awaited o { m with pending := r } := ⟨h.cur, h.sub, h.owed, p2⟩
    cases f with
    | afterSig i s => cases p1
    | afterFin i s => cases p1
    | leaf => injection hr with hr; rw [← hr]; exact ⟨base, rfl⟩
    | loop sg rest =>
      injection hr with hr
      rw [← hr]
      obtain ⟨l1, l2, l3, l4, l5⟩ := loop_facts { m with pending := r } g sg rest
      refine ⟨⟨l1.trans base.cur, ?_, fun k s => ?_, calm_loop base.calm g sg rest⟩, l3⟩
      · obtain ⟨b, hb, hh, hm⟩ := base.sub
        refine ⟨b, l2.trans hb, hh, ?_⟩
        cases o with
        | none => exact ⟨hm.1, hm.2.1, hm.2.2.1, fun k => by rw [l4, l3]; exact hm.2.2.2 k⟩
        | some o => exact hm
      · rw [l5, l3]; exact base.owed k s

/-- A step after `Async`, as long as nobody else subscribes. -/
theorem awaited_step {o : Option (Outcome V E)} {x y : Proxy V E} {a : Act V E} (h : Awaited o x.p.m)
    (hx : x.subscribed = true) (hk : x.p.sink = some 0) (hn : InvN x.p.m) (ha : isSub a = false) (hs : x.step a = some y) :
    Awaited (o.or (answer a)) y.p.m ∧ y.subscribed = true ∧ y.p.sink = some 0 ∧ InvN y.p.m ∧
    y.sent = x.sent ∧ y.registered = x.registered ∧
    y.p.m.nextFn = x.p.m.nextFn + (if isNotify a then 1 else 0) := by
  have hor : o.or none = o := by cases o <;> rfl
  have push : ∀ {c : Outcome V E} {g : Nat} {q : Proc V E}, c ≠ .cancel → x.p.forward g 0 c = some q →
      Awaited (o.or (some c)) q.m ∧ q.sink = some 0 ∧ InvN q.m ∧ q.m.nextFn = x.p.m.nextFn := by
    intro c g q hc hf
    unfold Proc.forward at hf
    split at hf
    · rename_i m hm
      injection hf with hf
      rw [← hf]
      obtain ⟨i1, i2⟩ := awaited_signal h g c hc hm
      exact ⟨i1, hk, InvN_signal hn hm, i2⟩
    · cases hf
  cases a with
  | subscribe g hd => cases ha
  | block g => cases ha
  | async g =>
    simp only [Proxy.step, hx, if_true] at hs
    injection hs with hs
    rw [← hs]
    exact ⟨by simpa [answer, hor] using h, hx, hk, hn, rfl, rfl, rfl⟩
  | onComplete =>
    injection hs with hs
    rw [← hs]
    exact ⟨by simpa [answer, hor] using h, hx, hk, hn, rfl, rfl, rfl⟩
  | notify g =>
    injection hs with hs
    rw [← hs]
    obtain ⟨i1, i2⟩ := awaited_notify h g
    exact ⟨by simpa [answer, hor] using i1, hx, hk, InvN_step (tx := .ok) (a := .notify g) hn rfl, rfl, rfl, i2⟩
  | onNext g v =>
    obtain ⟨e1, e2, e3, e4⟩ := proc_fields hs
    simp only [Proc.step, Proc.pushSuccess, hk] at e1
    obtain ⟨i1, i2, i3, i4⟩ := push (c := .success v) (fun h => nomatch h) e1
    exact ⟨i1, by rw [e2, hx], i2, i3, e3, e4, i4⟩
  | onError g e =>
    obtain ⟨e1, e2, e3, e4⟩ := proc_fields hs
    simp only [Proc.step, Proc.pushError, hk] at e1
    obtain ⟨i1, i2, i3, i4⟩ := push (c := .error e) (fun h => nomatch h) e1
    exact ⟨i1, by rw [e2, hx], i2, i3, e3, e4, i4⟩
  | ret g =>
    obtain ⟨e1, e2, e3, e4⟩ := proc_fields hs
    simp only [Proc.step] at e1
    split at e1
    · rename_i m hm
      injection e1 with e1
      rw [← e1]
      obtain ⟨i1, i2⟩ := awaited_resume h g hm
      exact ⟨by simpa [answer, hor] using i1, by rw [e2, hx], hk, InvN_step (tx := .ok) (a := .ret g) hn hm, e3, e4, i2⟩
    · cases e1

theorem awaited_run (as : List (Act V E)) {o : Option (Outcome V E)} {x y : Proxy V E} (h : Awaited o x.p.m)
    (hx : x.subscribed = true) (hk : x.p.sink = some 0) (hn : InvN x.p.m) (ha : ∀ a ∈ as, isSub a = false)
    (hs : x.run as = some y) :
    Awaited (o.or (as.filterMap answer).head?) y.p.m ∧ InvN y.p.m ∧ y.sent = x.sent ∧ y.registered = x.registered ∧
    y.p.m.nextFn = x.p.m.nextFn + as.countP isNotify := by
  induction as generalizing o x with
  | nil =>
    cases hs
    exact ⟨by cases o <;> simpa using h, hn, rfl, rfl, rfl⟩
  | cons a as ih =>
    simp only [Proxy.run, Option.bind_eq_some_iff] at hs
    obtain ⟨m, h1, h2⟩ := hs
    obtain ⟨i1, i2, i3, i4, i5, i6, i7⟩ := awaited_step h hx hk hn (ha a List.mem_cons_self) h1
    obtain ⟨j1, j2, j3, j4, j5⟩ := ih i1 i2 i3 i4 (fun b hb => ha b (List.mem_cons_of_mem _ hb)) h2
    refine ⟨?_, j2, j3.trans i5, j4.trans i6, ?_⟩
    · rw [List.filterMap_cons]
      cases hq : answer a with
      | none => rw [hq] at j1; cases o <;> simpa using j1
      | some c => rw [hq] at j1; cases o <;> simpa using j1
    · rw [j5, i7, List.countP_cons]; omega

/-- Before anything starts: functions are only collected. -/
theorem fresh_run (as : List (Act V E)) {x y : Proxy V E} (hx : x.subscribed = false) (hk : x.p.sink = none)
    (hv : x.p.success = none ∧ x.p.err = none) (hm : x.p.m.subs = [] ∧ x.p.m.current = none ∧ x.p.m.pending = [])
    (hn : InvN x.p.m) (hr : ∀ k, registered k x.p.m.log = decide (k < x.p.m.nextFn))
    (ho : ∀ k sg, owedCalls k sg x.p.m.log = 0)
    (ha : ∀ a ∈ as, isSub a = false ∧ isAsync a = false ∧ answer a = none) (hs : x.run as = some y) :
    (y.subscribed = false ∧ y.p.sink = none ∧ y.p.success = none ∧ y.p.err = none ∧ y.p.m.subs = [] ∧
      y.p.m.pending = [] ∧ InvN y.p.m ∧ (∀ k, registered k y.p.m.log = decide (k < y.p.m.nextFn)) ∧
      ∀ k sg, owedCalls k sg y.p.m.log = 0) ∧
    y.sent = x.sent ∧ y.registered = x.registered ∧ y.p.m.nextFn = x.p.m.nextFn + as.countP isNotify := by
  induction as generalizing x with
  | nil => cases hs; exact ⟨⟨hx, hk, hv.1, hv.2, hm.1, hm.2.2, hn, hr, ho⟩, rfl, rfl, rfl⟩
  | cons a as ih =>
    simp only [Proxy.run, Option.bind_eq_some_iff] at hs
    obtain ⟨m, h1, h2⟩ := hs
    have ha' : ∀ b ∈ as, isSub b = false ∧ isAsync b = false ∧ answer b = none := fun b hb => ha b (List.mem_cons_of_mem _ hb)
    obtain ⟨a1, a2, a3⟩ := ha a List.mem_cons_self
    rw [List.countP_cons]
    cases a with
    | subscribe g hd => cases a1
    | block g => cases a1
    | async g => cases a2
    | onNext g v => cases a3
    | onError g e => cases a3
    | onComplete =>
      injection h1 with h1
      subst h1
      simpa [isNotify] using ih hx hk hv hm hn hr ho ha' h2
    | ret g =>
      obtain ⟨e1, _⟩ := proc_fields h1
      simp [Proc.step, resume, hm.2.2, pop] at e1
    | notify g =>
      injection h1 with h1
      subst h1
      have e : notify g x.p.m = { x.p.m with
          nextFn := x.p.m.nextFn + 1
          callbacks := x.p.m.callbacks ++ [x.p.m.nextFn]
          log := .reg x.p.m.nextFn :: x.p.m.log } := by
        simp [notify, hm.2.1]
      have hi := InvN_step (tx := .ok) (a := .notify g) hn rfl
      rw [e] at hi h2
      have hr2 : ∀ k, registered k (Ev.reg (V := V) (E := E) (W := V) x.p.m.nextFn :: x.p.m.log) =
          decide (k < x.p.m.nextFn + 1) := by
        intro k
        simp only [registered, hr k]
        rw [Bool.eq_iff_iff]
        simp
        omega
      obtain ⟨j1, j2, j3, j4⟩ := ih (by exact hx) (by exact hk) (by exact hv) (by exact hm) (by exact hi) (by exact hr2)
        (by exact ho) ha' h2
      exact ⟨j1, j2, j3, by rw [j4]; simp [isNotify]; omega⟩

theorem run_split (k l : List (Act V E)) (u : Proxy V E) : u.run (k ++ l) = (u.run k).bind fun v => v.run l := by
  induction k generalizing u with
  | nil => rfl
  | cons a k ih =>
    simp only [List.cons_append, Proxy.run]
    cases u.step a with
    | none => rfl
    | some v => simp [ih]

/-- **C127 (partial).** Awaiting the result of a call sends the request once. Every function handed over, before or after
`Async`, before, while or after the answer arrives, is called at most once, and exactly once when all callbacks have
returned, with the signal of the first answer; and then `Get` returns that answer. Without an answer no function is called.
Missing: results that somebody subscribes to as well (C119), answers without an element, operations that are no results
of calls. -/
theorem await_result_partial (pre post : List (Act V E)) (g : Nat) (zero : V) (x : Proxy V E)
    (hpre : ∀ a ∈ pre, isSub a = false ∧ isAsync a = false ∧ answer a = none) (hpost : ∀ a ∈ post, isSub a = false)
    (h : Proxy.new.run (pre ++ .async g :: post) = some x) :
    x.sent = 1 ∧ x.registered = 1 ∧
    (∀ k sg, calls k sg x.p.m.log ≤ due ((pre ++ post).countP isNotify) (post.filterMap answer).head? k sg) ∧
    (x.p.m.pending = [] → ∀ k sg, calls k sg x.p.m.log =
      due ((pre ++ post).countP isNotify) (post.filterMap answer).head? k sg) ∧
    (Iota.Mono.get .ok zero x.p.m = match (post.filterMap answer).head? with
      | none => .panic
      | some o => gotOf o) := by
  rw [run_split] at h
  obtain ⟨y, h1, h2⟩ := Option.bind_eq_some_iff.mp h
  simp only [Proxy.run, Option.bind_eq_some_iff] at h2
  obtain ⟨z, h2, h3⟩ := h2
  obtain ⟨⟨c1, c2, c3, c4, c5, c6, c7, c8, c9⟩, d1, d2, d3⟩ := fresh_run pre (x := Proxy.new) rfl rfl ⟨rfl, rfl⟩
    ⟨rfl, rfl, rfl⟩ InvN_init (fun k => by simp [Proxy.new, Proc.init, init, registered])
    (fun k sg => rfl) hpre h1
  simp only [Proxy.step, c1, Bool.false_eq_true, if_false, Proxy.subscribe, Proc.subscribe, c3, c4] at h2
  injection h2 with h2
  subst h2
  have hz : Awaited none (addSub ⟨false, false, false⟩ y.p.m) := by
    refine ⟨by simp [addSub, c5], ⟨_, by simp [addSub, c5]; rfl, rfl, rfl, rfl, rfl, c8⟩, fun k sg => c9 k sg, ?_⟩
    intro x hx
    rw [show (addSub ⟨false, false, false⟩ y.p.m).pending = [] from c6] at hx
    exact absurd hx List.not_mem_nil
  have hi : InvN (addSub ⟨false, false, false⟩ y.p.m) :=
    InvN_irrelevant c7 rfl rfl rfl (fun _ _ => rfl) (fun _ _ => rfl) fun _ _ => rfl
  obtain ⟨f1, f2, f3, f4, f5⟩ := awaited_run post (x := ⟨_, true, _, _⟩) hz rfl (by simp [c5]) hi hpost h3
  rw [Option.none_or] at f1
  have hn : x.p.m.nextFn = (pre ++ post).countP isNotify := by
    rw [f5, List.countP_append]
    have : (addSub ⟨false, false, false⟩ y.p.m).nextFn = y.p.m.nextFn := rfl
    rw [this, d3]
    simp [Proxy.new, Proc.init, init]
  refine ⟨by rw [f3, d1]; rfl, by rw [f4, d2]; rfl, fun k sg => ?_, fun hp k sg => ?_, ?_⟩
  · have := f2.count k sg
    rw [f1.owed, hn] at this
    omega
  · have := f2.count k sg
    rw [f1.owed, hn, hp] at this
    simpa [pendN] using this
  · obtain ⟨b, hb, hh, hm⟩ := f1.sub
    unfold Iota.Mono.get
    simp only [f1.cur, Option.bind_some, hb, List.getElem?_cons_zero]
    cases ho : (post.filterMap answer).head? with
    | none => rw [ho] at hm; simp [hm.1]
    | some o =>
      rw [ho] at hm
      obtain ⟨m1, _, m3⟩ := hm
      have hne : o ≠ .cancel := by
        intro hc
        subst hc
        have hmem := List.mem_of_mem_head? ho
        obtain ⟨a, _, ha⟩ := List.mem_filterMap.mp hmem
        cases a <;> simp [answer] at ha
      cases o with
      | success v => obtain ⟨q1, q2⟩ := m3; simp [m1, q1, q2, gotOf]
      | error e => obtain ⟨q1, q2⟩ := m3; simp [m1, q2, gotOf]
      | cancel => exact absurd rfl hne

/-- Three functions: before, during and after the answer, one of them calling `Notify` itself. -/
example : ((Proxy.new (V := Nat) (E := String)).run
      [.notify 1, .async 2, .notify 1, .onNext 0 5, .notify 0, .ret 0, .ret 0, .onError 0 "late", .ret 0]).map
      (fun x => (x.sent, (List.range 4).map fun k => calls k .complete x.p.m.log, x.p.m.pending,
        Iota.Mono.get .ok 0 x.p.m)) = some (1, [1, 1, 1, 0], [], .ret (some 5) none) := by decide

/-! ## Everything else -/

/-- **C127** `Just` and `mono.Error` tell at once, with the signal of their outcome, and `Get` returns it. -/
theorem await_finished (v : V) (e : E) :
    justNotify v = sigOf (.success v : Outcome V E) ∧ errorNotify e = sigOf (.error e : Outcome V E) ∧
    justGet v = gotOf (.success v : Outcome V E) ∧ errorGet e = gotOf (.error e : Outcome V E) :=
  ⟨rfl, rfl, rfl, rfl⟩

def starts : MAct V E → Bool
  | .act (.subscribe _ _) => true
  | _ => false

/-- **C127 (refuted).** A mono built by `Create` (a flow among them) that is only awaited never runs: however often `Async`
and `Notify` are called, nobody is ever told, no callback ever runs, and `Get` panics. -/
theorem await_created_refuted (tx : V → Except E W) (zero : V) (as : List (MAct V E)) (s : State V E W)
    (hs : ∀ a ∈ as, starts a = false) (h : runMono tx init as = some s) :
    (∀ k sg, calls k sg s.log = 0) ∧ (∀ i, history i s.log = []) ∧ s.pending = [] ∧ Iota.Mono.get tx zero s = .panic := by
  have key : ∀ (as : List (MAct V E)) (t : State V E W), (∀ a ∈ as, starts a = false) → t.subs = [] → t.current = none →
      t.pending = [] → (∀ k sg, calls k sg t.log = 0) → (∀ i, history i t.log = []) → runMono tx t as = some s →
      (∀ k sg, calls k sg s.log = 0) ∧ (∀ i, history i s.log = []) ∧ s.pending = [] ∧ s.current = none := by
    intro as
    induction as with
    | nil => intro t _ _ h2 h3 h4 h5 hr; cases hr; exact ⟨h4, h5, h3, h2⟩
    | cons a as ih =>
      intro t ha h1 h2 h3 h4 h5 hr
      simp only [runMono, Option.bind_eq_some_iff] at hr
      obtain ⟨u, hu, hr⟩ := hr
      have ha' : ∀ b ∈ as, starts b = false := fun b hb => ha b (List.mem_cons_of_mem _ hb)
      cases a with
      | async => injection hu with hu; subst hu; exact ih _ ha' h1 h2 h3 h4 h5 hr
      | act a =>
        cases a with
        | subscribe g hd => exact absurd (ha _ List.mem_cons_self) (by simp [starts])
        | notify g =>
          simp only [MAct.step, step, notify, h2, Option.bind_none] at hu
          injection hu with hu
          subst hu
          exact ih _ ha' (by exact h1) rfl (by exact h3) (by exact h4) (fun i => by simp [history, h5 i, ofSub]) hr
        | signal g i o => simp [MAct.step, step, signal, h1] at hu
        | ret g => simp [MAct.step, step, resume, h3, pop] at hu
  obtain ⟨k1, k2, k3, k4⟩ := key as init hs rfl rfl rfl (fun _ _ => rfl) (fun _ => rfl) h
  exact ⟨k1, k2, k3, by simp [Iota.Mono.get, k4]⟩

/-- A flow awaits a created mono. -/
example : (runMono (V := Nat) (E := String) .ok init [.async, .act (.notify 0), .async, .act (.notify 1)]).map
    (fun s => s.callbacks) = some [0, 1] := by decide

end Iota.Props.Await

namespace Iota.Props.Await
open Iota.Await Iota.Flux

variable {V E W : Type}

def startsFlux : FAct V E → Bool
  | .act (.subscribe _ _) => true
  | _ => false

def isNotified : Ev V E W → Bool
  | .notified _ _ => true
  | _ => false

/-- **C127 (refuted).** The same for fluxes built by `Create` or `FromSlice`. -/
theorem await_flux_refuted (c : Cfg V E W) (xs : List V) (as : List (FAct V E)) (s : State V E W)
    (hs : ∀ a ∈ as, startsFlux a = false) (h : runFlux c (init xs) as = some s) :
    (∀ e ∈ s.log, isNotified e = false) ∧ s.values = xs ∧ s.pending = [] := by
  have key : ∀ (as : List (FAct V E)) (t : State V E W), (∀ a ∈ as, startsFlux a = false) → t.subs = [] → t.current = none →
      t.pending = [] → t.spawned = [] → t.values = xs → (∀ e ∈ t.log, isNotified e = false) → runFlux c t as = some s →
      (∀ e ∈ s.log, isNotified e = false) ∧ s.values = xs ∧ s.pending = [] := by
    intro as
    induction as with
    | nil => intro t _ _ _ h3 _ h5 h6 hr; cases hr; exact ⟨h6, h5, h3⟩
    | cons a as ih =>
      intro t ha h1 h2 h3 h4 h5 h6 hr
      simp only [runFlux, Option.bind_eq_some_iff] at hr
      obtain ⟨u, hu, hr⟩ := hr
      have ha' : ∀ b ∈ as, startsFlux b = false := fun b hb => ha b (List.mem_cons_of_mem _ hb)
      cases a with
      | async => injection hu with hu; subst hu; exact ih _ ha' h1 h2 h3 h4 h5 h6 hr
      | act a =>
        simp only [FAct.step, step] at hu
        split at hu
        · cases hu
        · cases a with
          | subscribe g hd => exact absurd (ha _ List.mem_cons_self) (by simp [startsFlux])
          | notify g =>
            simp only [notify, h2, Option.bind_none] at hu
            injection hu with hu
            subst hu
            refine ih _ ha' (by exact h1) rfl (by exact h3) (by exact h4) (by exact h5) (fun e he => ?_) hr
            rcases List.mem_cons.mp he with rfl | he
            · rfl
            · exact h6 e he
          | signal g i x => simp [signal, h1] at hu
          | onSubscribe g i r k => simp [onSubscribe, h1] at hu
          | request g i n => simp [h1] at hu
          | start g j => simp [start, h4] at hu
          | ret g => simp [resume, h3, pop] at hu
  exact key as (init xs) hs rfl rfl rfl rfl rfl (by simp [init]) h

/-! ## C128: `Finally` -/

/-- **C128** The `Finally` handler of a subscription to a created mono (or to a flow, or the result of a call) has run
exactly once when the mono has ended and the callbacks have returned, and not at all before it ends. -/
theorem created_finally_partial (tx : V → Except E W) (as : List (Mono.Action V E)) (s : Mono.State V E W)
    (hr : Mono.run tx Mono.init as = some s) (hp : s.pending = []) (i : Nat) (b : Mono.Sub V E) (hb : s.subs[i]? = some b)
    (hf : b.h.onFinally = true) :
    s.log.countP (Iota.Props.Mono.isFin i) = (if (Iota.Spec.Mono.firstOutcome i s.log).isSome then 1 else 0) := by
  obtain ⟨h1, h2⟩ := Iota.Props.Mono.mono_first_signal_decides tx as s hr i b hb
  have e2 : s.log.countP (Iota.Props.Mono.isFin i) = (Iota.Spec.Mono.history i s.log).countP (Iota.Props.Mono.isFin i) :=
    (Iota.Props.Mono.history_countP _ i (by intro e he; cases e <;> simp_all [Iota.Props.Mono.isFin, Iota.Spec.Mono.ofSub]) _).symm
  rw [e2]
  cases ho : Iota.Spec.Mono.firstOutcome i s.log with
  | none => simp [h1 ho]
  | some o =>
    rw [(h2 o ho).2 hp]
    unfold Iota.Spec.Mono.expected Iota.Spec.Mono.tail
    rw [List.countP_append, hf]
    have : ∀ l : List (Mono.Ev V E W), (∀ e ∈ l, Iota.Props.Mono.isFin i e = false) →
        l.countP (Iota.Props.Mono.isFin i) = 0 := fun l hl => by
      rw [List.countP_eq_zero]
      intro e he
      simp [hl e he]
    rw [this]
    · simp [Iota.Props.Mono.isFin]
    · intro e he
      cases o with
      | cancel => simp at he
      | error x => simp only at he; split at he <;> simp at he; subst he; rfl
      | success v =>
        simp only at he
        split at he <;> split at he <;> simp at he <;> subst he <;> rfl

/-- The callbacks of a subscription to a flux. -/
def isFluxFin : Ev V E W → Bool
  | .fin _ _ => true
  | _ => false

/-- **C128 (refuted).** `Just`, `mono.Error` and `flux.Error` never run the `Finally` handler, whatever the subscriber
hands over, although they have ended and tell the subscriber so. -/
theorem finished_finally_refuted (h : Mono.Handlers) (hf : Handlers) (v : V) (e : E) :
    (Mono.justSubscribe h v : List (Mono.Ev V E V)).countP (Iota.Props.Mono.isFin 0) = 0 ∧
    (Mono.errorSubscribe h e : List (Mono.Ev V E V)).countP (Iota.Props.Mono.isFin 0) = 0 ∧
    (errorFlowSubscribe hf e : List (Ev V E V)).countP isFluxFin = 0 ∧
    (h.onSuccess = true → (Mono.justSubscribe h v : List (Mono.Ev V E V)) = [.onSuccess 0 v]) ∧
    (h.onError = true → (Mono.errorSubscribe h e : List (Mono.Ev V E V)) = [.onError 0 e]) ∧
    (hf.onError = true → (errorFlowSubscribe hf e : List (Ev V E V)) = [.onError 0 e]) := by
  unfold Mono.justSubscribe Mono.errorSubscribe errorFlowSubscribe
  cases h.onSuccess <;> cases h.onError <;> cases hf.onError <;> simp [Iota.Props.Mono.isFin, isFluxFin]

/-- The same handlers on a created mono and on `Just`. -/
example : ((Mono.run (V := Nat) (E := String) .ok Mono.init
      [.subscribe 0 ⟨true, true, true⟩, .signal 0 0 (.success 7), .ret 0, .ret 0, .ret 0]).map fun s => s.log.countP (Iota.Props.Mono.isFin 0)) = some 1 ∧
    (Mono.justSubscribe ⟨true, true, true⟩ 7 : List (Mono.Ev Nat String Nat)) = [.onSuccess 0 7] := by decide

end Iota.Props.Await
