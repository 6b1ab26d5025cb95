import Verif.Props.Flux

/-!
# C79: the `Request` function of a source runs once at a time
-/

namespace Iota.Props.FluxLock
open Iota.Flux Iota.Props.Flux Iota.Lemmas.Flux

variable {V E W : Type}

/-- How many calls of the `Request` function of subscriber `i` are in progress: goroutines of `doRequest` that
have the lock. -/
def inside (i : Nat) (s : State V E W) : Nat := s.pending.countP fun x => decide (x.2 = .unlock i)

/-- How often it was called. -/
def count (i : Nat) (log : List (Ev V E W)) : Nat := log.countP fun e => match e with
  | .request j _ => decide (j = i)
  | _ => false

def both (i : Nat) (s : State V E W) : Nat × Nat := (inside i s, count i s.log)

theorem inside_push {i g : Nat} {f : Frame} (s : State V E W) (h : f ≠ .unlock i) : both i (push s g f) = both i s := by
  simp [both, inside, push, h]
theorem inside_emit {i : Nat} (s : State V E W) (e : Ev V E W) (h : ∀ n, e ≠ .request i n) :
    both i (emit s e) = both i s := by
  unfold both
  have : count i (emit s e).log = count i s.log := by
    simp only [count, emit, List.countP_cons]
    cases e with
    | request j n =>
      have : j ≠ i := fun hj => h n (by rw [hj])
      simp [this]
    | _ => simp
  rw [this]; rfl
theorem inside_setSub {i j : Nat} (s : State V E W) (f : Subscriber E → Subscriber E) : both i (setSub s j f) = both i s := rfl
theorem inside_crash {i : Nat} (s : State V E W) : both i (crash s) = both i s := rfl

theorem inside_runLoop (i g : Nat) (sig : Signal) (r : List Nat) (s : State V E W) : both i (runLoop g sig r s) = both i s := by
  unfold runLoop; split
  · rfl
  · rw [inside_push _ (by simp), inside_emit _ _ (by simp)]

theorem inside_startLoop (i g j : Nat) (sig : Signal) (s : State V E W) : both i (startLoop g j sig s) = both i s := by
  unfold startLoop; rw [inside_runLoop, inside_emit _ _ (by simp)]

theorem inside_runFinally (i g j : Nat) (sig : Signal) (h : Handlers) (s : State V E W) :
    both i (runFinally g j sig h s) = both i s := by
  unfold runFinally; split
  · rw [inside_push _ (by simp), inside_emit _ _ (by simp), inside_setSub]
  · rw [inside_startLoop, inside_setSub]

theorem inside_doRequest (i g j : Nat) (c : Cfg V E W) (n : Int) (r : Bool) (s : State V E W) (hc : c.host = true) :
    both i (doRequest c g j n r s) = both i s := by
  unfold doRequest; rw [if_pos hc]; rfl

theorem inside_request (i g j : Nat) (c : Cfg V E W) (n : Int) (s : State V E W) (hc : c.host = true) :
    both i (request c g j n s) = both i s := by
  unfold request; split
  · rfl
  · split
    · rw [inside_doRequest _ _ _ _ _ _ _ hc, inside_setSub, inside_emit _ _ (by simp)]
    · rfl

theorem inside_handle (i g j : Nat) (c : Cfg V E W) (h : Handlers) (s : State V E W) (hc : c.host = true) :
    both i (handleOnSubscribe c g j h s) = both i s := by
  unfold handleOnSubscribe; split
  · rfl
  · split
    · rw [inside_push _ (by simp), inside_emit _ _ (by simp)]
    · exact inside_request _ _ _ _ _ _ hc

theorem inside_endNext (i g j : Nat) (c : Cfg V E W) (s : State V E W) (hc : c.host = true) :
    both i (endNext c g j s) = both i s := by
  unfold endNext; split
  · rfl
  · split
    · exact inside_handle _ _ _ _ _ _ hc
    · rfl

theorem inside_mapFinally (i g j : Nat) (c : Cfg V E W) (h : Handlers) (s : State V E W) (hc : c.host = true) :
    both i (mapFinally c g j h s) = both i s := by
  unfold mapFinally; split
  · rw [inside_push _ (by simp), inside_emit _ _ (by simp)]
  · exact inside_endNext _ _ _ _ _ hc

theorem inside_callNext (i g j : Nat) (c : Cfg V E W) (v : V) (h : Handlers) (s : State V E W) (hc : c.host = true) :
    both i (callNext c g j v h s) = both i s := by
  unfold callNext; split <;> split
  · rw [inside_push _ (by simp), inside_emit _ _ (by simp)]
  · exact inside_endNext _ _ _ _ _ hc
  · rw [inside_push _ (by simp), inside_emit _ _ (by simp)]
  · exact inside_mapFinally _ _ _ _ _ _ hc

theorem inside_tell (i g j : Nat) (c : Cfg V E W) (b : Subscriber E) (x : Call V E) (s : State V E W) (hc : c.host = true) :
    both i (tell c g j b x s) = both i s := by
  unfold tell; split <;> split
  · rfl
  · rw [inside_callNext _ _ _ _ _ _ _ hc]; rfl
  · rfl
  · split
    · rw [inside_push _ (by simp)]; rfl
    · rw [inside_runFinally]; rfl
  · rfl
  · split
    · rw [inside_push _ (by simp)]; rfl
    · rw [inside_runFinally]; rfl
  · rw [inside_push _ (by simp)]; rfl
  · split
    · rw [inside_push _ (by simp)]; rfl
    · rfl

theorem inside_proceed {i g : Nat} {c : Cfg V E W} {f : Frame} {s s' : State V E W} (hc : c.host = true)
    (h : proceed c g f s = some s') : both i s' = both i s := by
  unfold proceed at h
  split at h
  · obtain ⟨b, _, rfl⟩ := Option.map_eq_some_iff.mp h; exact inside_handle _ _ _ _ _ _ hc
  · cases h; exact inside_endNext _ _ _ _ _ hc
  · obtain ⟨b, _, rfl⟩ := Option.map_eq_some_iff.mp h; exact inside_mapFinally _ _ _ _ _ _ hc
  · obtain ⟨b, _, rfl⟩ := Option.map_eq_some_iff.mp h; exact inside_runFinally _ _ _ _ _ _
  · cases h; exact inside_startLoop _ _ _ _ _
  · cases h; exact inside_runLoop _ _ _ _ _
  · obtain ⟨b, _, rfl⟩ := Option.map_eq_some_iff.mp h
    split
    · rw [inside_push _ (by simp), inside_emit _ _ (by simp)]
    · rfl
  · obtain ⟨b, _, rfl⟩ := Option.map_eq_some_iff.mp h
    unfold sliceRound
    split
    · exact inside_tell _ _ _ _ _ _ _ hc
    · split
      · rw [inside_tell _ _ _ _ _ _ _ hc, inside_push _ (by simp)]; rfl
      · rfl
  · obtain ⟨b, _, rfl⟩ := Option.map_eq_some_iff.mp h
    unfold respRound
    split
    · split
      · rw [inside_tell _ _ _ _ _ _ _ hc, inside_push _ (by simp)]
      · rfl
    · split
      · split
        · rw [inside_tell _ _ _ _ _ _ _ hc]; rfl
        · rfl
      · rfl
  · cases h; rfl
  · cases h; rfl

theorem inside_pop {i g : Nat} {p r : List (Nat × Frame)} {f : Frame} (h : pop g p = some (f, r)) :
    r.countP (fun x => decide (x.2 = .unlock i)) ≤ p.countP (fun x => decide (x.2 = .unlock i)) := by
  induction p generalizing r f with
  | nil => cases h
  | cons x p ih =>
    obtain ⟨g', f'⟩ := x
    unfold pop at h
    split at h
    · cases h; simp only [List.countP_cons]; omega
    · split at h
      · cases h
      · rename_i f2 r2 h2
        cases h
        have := ih h2
        simp only [List.countP_cons]; omega

theorem both_callRequest (i g j : Nat) (src : Src) (n : Int) (s : State V E W) :
    both i (callRequest src g j n (.unlock j) s) =
      ((both i s).1 + if j = i then 1 else 0, (both i s).2 + if j = i then 1 else 0) := by
  unfold callRequest
  split
  · simp [both, inside, count, push, emit, List.countP_cons]
  · rw [inside_push _ (by simp)]; simp [both, inside, count, push, emit, List.countP_cons]
  · rw [inside_push _ (by simp)]; simp [both, inside, count, push, emit, List.countP_cons]

/-- What one step may do: no call starts, or one starts while none is in progress. -/
def Next (i : Nat) (s s' : State V E W) : Prop :=
  (inside i s' ≤ inside i s ∧ count i s'.log = count i s.log) ∨
    (inside i s = 0 ∧ inside i s' = 1 ∧ count i s'.log = count i s.log + 1)

theorem Next.same {i : Nat} {s s' : State V E W} (h : both i s' = both i s) : Next i s s' :=
  .inl ⟨Nat.le_of_eq (congrArg Prod.fst h), congrArg Prod.snd h⟩

theorem next_start {i g j : Nat} {c : Cfg V E W} {s s' : State V E W} (h : start c g j s = some s') : Next i s s' := by
  unfold start at h
  split at h
  · cases h
  · rename_i k n hj
    split at h
    · cases h
    · rename_i hl
      simp only [Bool.or_eq_true, List.any_eq_true, decide_eq_true_eq, not_or, not_exists, not_and] at hl
      split at h
      · cases h
      · split at h
        · cases h
          have hb := both_callRequest i g k c.src n { s with spawned := s.spawned.eraseIdx j }
          have e : both i { s with spawned := s.spawned.eraseIdx j } = both i s := rfl
          rw [e] at hb
          by_cases hk : k = i
          · right
            have : inside i s = 0 := by
              unfold inside
              rw [List.countP_eq_zero]
              intro x hx
              simpa [← hk] using hl.1 x hx
            rw [if_pos hk] at hb
            refine ⟨this, (congrArg Prod.fst hb).trans ?_, congrArg Prod.snd hb⟩
            show inside i s + 1 = 1
            rw [this]
          · rw [if_neg hk] at hb
            exact .same hb
        · cases h; exact .same rfl

theorem next_step {i : Nat} {c : Cfg V E W} {a : Action V E} {s s' : State V E W} (hc : c.host = true)
    (h : step c s a = some s') : Next i s s' := by
  unfold step at h
  split at h
  · cases h
  · split at h
    · cases h
      refine .same ?_
      have e : ∀ h r, both i (addSub h r s) = both i s := fun h r => by
        simp [both, inside, count, addSub]
      unfold subscribe
      split
      · rw [inside_push _ (by simp), e]
      · rw [inside_handle _ _ _ _ _ _ hc, e]
    · cases h
      refine .same ?_
      unfold notify
      split
      · split
        · rw [inside_push _ (by simp), inside_emit _ _ (by simp), inside_emit _ _ (by simp)]; rfl
        · simp [both, inside, count]
      · simp [both, inside, count]
    · split at h
      · unfold signal at h
        split at h
        · cases h
        · cases h; exact .same (inside_tell _ _ _ _ _ _ _ hc)
      · cases h
    · split at h
      · unfold onSubscribe at h
        split at h
        · cases h
        · split at h
          · cases h; exact .same rfl
          · split at h
            · cases h; exact .same (inside_doRequest _ _ _ _ _ _ _ hc)
            · cases h; exact .same rfl
      · cases h
    · split at h
      · cases h; exact .same (inside_request _ _ _ _ _ _ hc)
      · cases h
    · exact next_start h
    · unfold resume at h
      split at h
      · cases h
      · rename_i f r hp
        have hb := inside_proceed (i := i) hc h
        left
        refine ⟨?_, congrArg Prod.snd hb⟩
        rw [show inside i s' = inside i { s with pending := r } from congrArg Prod.fst hb]
        exact inside_pop hp

/-- **C79** (part) On the host the `Request` function of a source is never called while an earlier call for the
same subscriber is in progress, whatever the source, the subscribers and the goroutines do: at most one call is in
progress, and any step that makes a new call does so when none is.

Missing: WebAssembly, where there is no lock; `request_nested_refuted`. -/
theorem request_alone_partial (c : Cfg V E W) (hc : c.host = true) (xs : List V) (as : List (Action V E)) (s : State V E W)
    (hr : run c (init xs) as = some s) (i : Nat) : inside i s ≤ 1 ∧
      ∀ a s', step c s a = some s' → count i s'.log ≠ count i s.log → inside i s = 0 ∧ inside i s' = 1 := by
  constructor
  · have key : ∀ (as : List (Action V E)) (s0 s : State V E W), inside i s0 ≤ 1 → run c s0 as = some s → inside i s ≤ 1 := by
      intro as
      induction as with
      | nil => intro s0 s h h'; cases h'; exact h
      | cons a as ih =>
        intro s0 s h h'
        unfold run at h'
        split at h'
        · cases h'
        · rename_i s1 h1
          refine ih s1 s ?_ h'
          rcases next_step (i := i) hc h1 with h2 | h2 <;> omega
    exact key as _ s (by simp [inside, init]) hr
  · intro a s' h hne
    rcases next_step (i := i) hc h with h2 | h2
    · exact absurd h2.2 hne
    · exact ⟨h2.1, h2.2.1⟩

/-- Two goroutines of `doRequest`: the second does not start until the first is through. -/
example : (run (V := Nat) (E := String) (plain true .user) (init [])
      [.subscribe 0 all, .onSubscribe 0 0 true false, .ret 0, .request 0 0 1, .request 0 0 1, .start 7 0]).map
        (fun s => (inside 0 s, count 0 s.log, (start (plain true .user) 8 0 s).isSome)) = some (1, 1, false) ∧
    (run (V := Nat) (E := String) (plain true .user) (init [])
      [.subscribe 0 all, .onSubscribe 0 0 true false, .ret 0, .request 0 0 1, .request 0 0 1, .start 7 0, .ret 7,
        .start 8 0]).map (fun s => (inside 0 s, count 0 s.log)) = some (1, 2) := by decide

/-- **C79** fails for WebAssembly: a `Request` function that leads to more demand is entered again before it
returned; here two calls are in progress on one goroutine. -/
theorem request_nested_refuted : (run (V := Nat) (E := String) (plain false .user) (init [])
      [.subscribe 0 all, .onSubscribe 0 0 true false, .ret 0, .request 0 0 1, .request 0 0 1]).map
        (fun s => (count 0 s.log, s.pending)) = some (2, [(0, .leaf), (0, .leaf)]) := by decide

end Iota.Props.FluxLock
