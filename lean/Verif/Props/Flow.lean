import Verif.Spec.Flow

/-! # C22: flows -/

namespace Iota.Props.Flow
open Iota.Flow Iota.Spec.Flow

/-- The code awaits an operation rather than finding it finished: `Notify` does not call back at once, no operation
finishes while the loop over the awaitables is in progress, and the flow is started once. -/
def calm (s : State) : Action → Bool
  | .subscribe _ => s.log.isEmpty
  | .goOn _ now => !now
  | .finish _ _ => s.frames.all fun x => match x.2 with
    | .regLoop _ => false
    | .afterStep _ => true
  | _ => true

def Calm : State → List Action → Prop
  | _, [] => True
  | s, a :: as => calm s a = true ∧ ∀ s', step s a = some s' → Calm s' as

/-- What step `k` awaits is `ts`, and later steps have not returned. -/
structure Current (k : Nat) (ts : List Nat) (log : List Ev) : Prop where
  mem : Ev.group k ts ∈ log
  uniq : ∀ us, Ev.group k us ∈ log → us = ts
  last : ∀ j us, Ev.group j us ∈ log → j ≤ k

inductive Phase (n : Nat) (s : State) : Prop where
  | idle (hl : s.log = []) (hf : s.frames = []) (hw : s.waiting = []) (hs : s.steps = List.range' 0 n)
  | inStep (k g : Nat) (hk : k < n) (hf : s.frames = [(g, .afterStep k)]) (hw : s.waiting = [])
      (hs : s.steps = List.range' k (n - k)) (hr : runs s.log = List.range (k + 1)) (hc : s.completed = 0)
      (hg : ∀ j us, Ev.group j us ∈ s.log → j < k)
  | loop (k g : Nat) (rest ts : List Nat) (hk : k < n) (hf : s.frames = [(g, .regLoop rest)])
      (hs : s.steps = List.range' k (n - k)) (hr : runs s.log = List.range (k + 1)) (hc : s.completed = 0)
      (ha : s.awaitables = ts.length) (hg : Current k ts s.log) (hw : ∀ t ∈ ts, t ∈ s.waiting ∨ t ∈ rest)
      (hl : s.waiting.length + rest.length = ts.length)
  | wait (k : Nat) (ts : List Nat) (hk : k < n) (hf : s.frames = []) (hs : s.steps = List.range' (k + 1) (n - (k + 1)))
      (hr : runs s.log = List.range (k + 1)) (ha : s.awaitables = ts.length) (hg : Current k ts s.log)
      (hw : ∀ t ∈ ts, t ∈ s.waiting ∨ Ev.finished t ∈ s.log) (hl : s.completed + s.waiting.length = ts.length)
      (hn : s.waiting = [] → ts = [])
  | over (hn : 0 < n) (hf : s.frames = []) (hw : s.waiting = []) (hs : s.steps = []) (hr : runs s.log = List.range n)
  | stop (k : Nat) (hf : s.frames = []) (hw : s.waiting = []) (hr : runs s.log = List.range (k + 1))
      (he : Ev.failed k ∈ s.log ∨ Ev.stopped k ∈ s.log)

structure Good (n : Nat) (s : State) : Prop where
  phase : Phase n s
  order : Ordered s.log

theorem runs_cons (e : Ev) (l : List Ev) : runs (e :: l) = runs l ++ (ranOf e).toList := by
  unfold runs
  cases h : ranOf e <;> simp [h]

theorem range'_step {k n : Nat} (h : k < n) : List.range' k (n - k) = k :: List.range' (k + 1) (n - (k + 1)) := by
  have : n - k = (n - (k + 1)) + 1 := by omega
  rw [this, List.range'_succ]

theorem notempty {l : List Ev} {k : Nat} (h : runs l = List.range (k + 1)) : l.isEmpty = false := by
  cases l with
  | nil => simp [runs, List.range_succ] at h
  | cons e l => rfl

/-- All that step `k` awaits has finished. -/
theorem good_next {n k g : Nat} {ts : List Nat} {s : State} (hk : k < n) (hf : s.frames = []) (hw : s.waiting = [])
    (hs : s.steps = List.range' (k + 1) (n - (k + 1))) (hr : runs s.log = List.range (k + 1)) (hg : Current k ts s.log)
    (hd : ∀ t ∈ ts, Ev.finished t ∈ s.log) (ho : Ordered s.log) : Good n (next g s) := by
  unfold next
  rcases Nat.lt_or_ge (k + 1) n with h | h
  · rw [hs, range'_step h]
    refine ⟨.inStep (k + 1) g h (by simp [hf]) hw (by rw [range'_step h]) ?_ rfl ?_, ?_, ?_, ho⟩
    · simp [runs_cons, ranOf, hr, List.range_succ]
    · intro j us hm
      have := hg.last j us (by simpa using hm)
      omega
    · exact hr
    · intro j hj
      have hj : j = k := by omega
      subst hj
      refine ⟨⟨ts, hg.mem⟩, fun us hm t ht => ?_⟩
      rw [hg.uniq us hm] at ht
      exact hd t ht
  · have hz : n - (k + 1) = 0 := by omega
    rw [hs, hz]
    simp only [List.range'_zero]
    refine ⟨.over (by omega) hf hw (by rw [hs, hz]; rfl) ?_, ho⟩
    rw [hr]
    have : n = k + 1 := by omega
    rw [this]

theorem good_step {n : Nat} {s s' : State} {a : Action} (h : Good n s) (hs : step s a = some s') (hc : calm s a = true) :
    Good n s' := by
  obtain ⟨ph, ho⟩ := h
  unfold step at hs
  split at hs
  · cases hs
  cases a with
  | endFlow =>
    simp only [Option.some.injEq] at hs
    subst hs
    refine ⟨?_, ho⟩
    cases ph with
    | idle hl hf hw hs => exact .idle hl hf hw hs
    | inStep k g hk hf hw hs hr hc hg => exact .inStep k g hk hf hw hs hr hc hg
    | loop k g rest ts hk hf hs hr hc ha hg hw hl => exact .loop k g rest ts hk hf hs hr hc ha hg hw hl
    | wait k ts hk hf hs hr ha hg hw hl hn => exact .wait k ts hk hf hs hr ha hg hw hl hn
    | over hn hf hw hs hr => exact .over hn hf hw hs hr
    | stop k hf hw hr he => exact .stop k hf hw hr he
  | subscribe g =>
    simp only [Option.some.injEq] at hs
    subst hs
    simp only [calm] at hc
    cases ph with
    | idle hl hf hw hs =>
      unfold next
      rcases Nat.eq_zero_or_pos n with hn | hn
      · subst hn
        rw [hs]
        exact ⟨.idle hl hf hw hs, ho⟩
      · have h0 := range'_step (k := 0) hn
        simp only [Nat.sub_zero] at h0
        rw [hs, h0]
        refine ⟨.inStep 0 g hn (by simp [hf]) hw h0.symm (by simp [hl, runs, ranOf, List.range_succ]) rfl ?_, ?_⟩
        · intro j us hm
          simp [hl] at hm
        · exact ⟨by simp [hl, runs], fun j hj => by omega, ho⟩
    | inStep k g hk hf hw hs hr hc' hg => simp [notempty hr] at hc
    | loop k g rest ts hk hf hs hr hc' ha hg hw hl => simp [notempty hr] at hc
    | wait k ts hk hf hs hr ha hg hw hl hn => simp [notempty hr] at hc
    | over hn hf hw hs hr =>
      obtain ⟨m, rfl⟩ : ∃ m, n = m + 1 := ⟨n - 1, by omega⟩
      simp [notempty hr] at hc
    | stop k hf hw hr he => simp [notempty hr] at hc
  | stepRet g r =>
    simp only at hs
    split at hs
    · rename_i k' fs hp
      simp only [Option.some.injEq] at hs
      subst hs
      cases ph with
      | idle hl hf hw hs => simp [hf, pop] at hp
      | loop k g' rest ts hk hf hs hr hc' ha hg hw hl =>
        rw [hf] at hp
        simp only [pop] at hp
        split at hp <;> simp at hp
      | wait k ts hk hf hs hr ha hg hw hl hn => simp [hf, pop] at hp
      | over hn hf hw hs hr => simp [hf, pop] at hp
      | stop k hf hw hr he => simp [hf, pop] at hp
      | inStep k g' hk hf hw hs hr hc' hg =>
        rw [hf] at hp
        simp only [pop] at hp
        split at hp
        · simp only [Option.some.injEq, Prod.mk.injEq, Frame.afterStep.injEq] at hp
          obtain ⟨rfl, rfl⟩ := hp
          unfold afterStep
          split
          · exact ⟨.stop k rfl hw (by simpa [runs_cons, ranOf] using hr) (Or.inl (by simp)), ho⟩
          · rename_i m
            split
            · exact ⟨.stop k rfl hw (by simpa [runs_cons, ranOf] using hr) (Or.inr (by simp)), ho⟩
            · refine ⟨.loop k g (List.range' s.fresh m) (List.range' s.fresh m) hk rfl hs (by simpa [runs_cons, ranOf] using hr) hc' ?_ ?_ ?_ ?_, ho⟩
              · simp
              · refine ⟨by simp, fun us hm => ?_, fun j us hm => ?_⟩
                · simp only [List.mem_cons, Ev.group.injEq, true_and] at hm
                  rcases hm with hm | hm
                  · exact hm
                  · exact absurd (hg _ _ hm) (by omega)
                · simp only [List.mem_cons, Ev.group.injEq] at hm
                  rcases hm with hm | hm
                  · omega
                  · have := hg _ _ hm
                    omega
              · intro t ht
                exact Or.inr ht
              · simp [hw]
        · simp at hp
    · cases hs
  | goOn g now =>
    simp only [calm, Bool.not_eq_true'] at hc
    subst hc
    simp only at hs
    split at hs
    · rename_i rest' fs hp
      simp only [Option.some.injEq] at hs
      subst hs
      cases ph with
      | idle hl hf hw hs => simp [hf, pop] at hp
      | inStep k g' hk hf hw hs hr hc' hg =>
        rw [hf] at hp
        simp only [pop] at hp
        split at hp <;> simp at hp
      | wait k ts hk hf hs hr ha hg hw hl hn => simp [hf, pop] at hp
      | over hn hf hw hs hr => simp [hf, pop] at hp
      | stop k hf hw hr he => simp [hf, pop] at hp
      | loop k g' rest ts hk hf hs hr hc' ha hg hw hl =>
        rw [hf] at hp
        simp only [pop] at hp
        split at hp
        · simp only [Option.some.injEq, Prod.mk.injEq, Frame.regLoop.injEq] at hp
          obtain ⟨rfl, rfl⟩ := hp
          unfold regRound
          split
          · rename_i t rest
            rw [if_neg (by simp)]
            refine ⟨.loop k g rest ts hk rfl hs hr hc' ha hg ?_ ?_, ho⟩
            · intro u hu
              rcases hw u hu with h | h
              · exact Or.inl (List.mem_cons_of_mem _ h)
              · rcases List.mem_cons.mp h with h | h
                · exact Or.inl (by simp [h])
                · exact Or.inr h
            · simp only [List.length_cons] at hl ⊢
              omega
          · simp only [hs, range'_step hk]
            refine ⟨.wait k ts hk rfl rfl hr ha hg ?_ ?_ ?_, ho⟩
            · intro u hu
              rcases hw u hu with h | h
              · exact Or.inl h
              · cases h
            · simp only [List.length_nil] at hl
              simp only [hc']
              omega
            · intro h
              have h : s.waiting = [] := h
              rw [h] at hl
              exact List.length_eq_zero_iff.mp (by simpa using hl.symm)
        · simp at hp
    · cases hs
  | finish g t =>
    simp only at hs
    split at hs
    · rename_i ht
      simp only [Option.some.injEq] at hs
      subst hs
      cases ph with
      | idle hl hf hw hs => simp [hw] at ht
      | inStep k g' hk hf hw hs hr hc' hg => simp [hw] at ht
      | loop k g' rest ts hk hf hs hr hc' ha hg hw hl => simp [calm, hf] at hc
      | over hn hf hw hs hr => simp [hw] at ht
      | stop k hf hw hr he => simp [hw] at ht
      | wait k ts hk hf hs hr ha hg hw hl hn =>
        have hle : (s.waiting.erase t).length + 1 = s.waiting.length := by
          rw [List.length_erase_of_mem ht]
          have := List.length_pos_of_mem ht
          omega
        have hd : ∀ u ∈ ts, u ∈ s.waiting.erase t ∨ Ev.finished u ∈ (.finished t :: s.log : List Ev) := by
          intro u hu
          rcases hw u hu with h | h
          · by_cases e : u = t
            · exact Or.inr (by simp [e])
            · exact Or.inl ((List.mem_erase_of_ne e).mpr h)
          · exact Or.inr (List.mem_cons_of_mem _ h)
        have hg' : Current k ts (.finished t :: s.log) :=
          ⟨List.mem_cons_of_mem _ hg.mem, fun us hm => hg.uniq us (by simpa using hm), fun j us hm => hg.last j us (by simpa using hm)⟩
        unfold check
        split
        · rename_i hc'
          simp only at hc'
          have he : s.waiting.erase t = [] := List.length_eq_zero_iff.mp (by omega)
          refine good_next (k := k) (ts := ts) hk hf he hs (by simpa [runs_cons, ranOf] using hr) hg' ?_ ho
          intro u hu
          rcases hd u hu with h | h
          · rw [he] at h
            cases h
          · exact h
        · rename_i hc'
          simp only at hc'
          refine ⟨.wait k ts hk hf hs (by simpa [runs_cons, ranOf] using hr) ha hg' hd ?_ ?_, ho⟩
          · simp only
            omega
          · intro h
            have h : s.waiting.erase t = [] := h
            rw [h] at hle
            simp only [List.length_nil] at hle
            omega
    · cases hs

theorem good_run {n : Nat} (as : List Action) : ∀ {s s' : State}, Good n s → Calm s as → run s as = some s' → Good n s' := by
  induction as with
  | nil => intro s s' h _ hr; cases hr; exact h
  | cons a as ih =>
    intro s s' h hc hr
    simp only [run] at hr
    split at hr
    · cases hr
    · rename_i t ht
      exact ih (good_step h ht hc.1) (hc.2 t ht) hr

theorem good_init (n : Nat) : Good n (init n) := ⟨.idle rfl rfl rfl (by simp [init, List.range_eq_range']), trivial⟩

/-- **C22**, part of the claim: if no awaited operation finishes before the flow has registered with all of the group,
then steps run in order, once each, and only after all that the step before awaits has finished. Missing: operations
that have finished already, or finish during registration. -/
theorem flow_ordered_partial (n : Nat) (as : List Action) (s : State) (hc : Calm (init n) as) (hr : run (init n) as = some s) :
    Ordered s.log :=
  (good_run as (good_init n) hc hr).order

/-- **C22**, part of the claim: under the same condition, when nothing is left to do, all steps were run, unless one
failed, ended the flow, or awaits nothing. -/
theorem flow_complete_partial (n : Nat) (as : List Action) (s : State) (hc : Calm (init n) as) (hr : run (init n) as = some s)
    (hl : s.log ≠ []) (hf : s.frames = []) (hw : s.waiting = [])
    (he : ∀ k, Ev.failed k ∉ s.log ∧ Ev.stopped k ∉ s.log ∧ Ev.group k [] ∉ s.log) : runs s.log = List.range n := by
  cases (good_run as (good_init n) hc hr).phase with
  | idle h => exact absurd h hl
  | inStep k g hk hf' => simp [hf] at hf'
  | loop k g rest ts hk hf' => simp [hf] at hf'
  | over hn hf hw hs hr => exact hr
  | stop k hf hw hr h => exact absurd h (by simp [(he k).1, (he k).2.1])
  | wait k ts hk hf' hs hr ha hg hw' hl' hn =>
    have := hg.mem
    rw [hn hw] at this
    exact absurd this (he k).2.2

/-- The process does not crash either. -/
theorem flow_no_crash_partial (n : Nat) (as : List Action) (s : State) (hc : Calm (init n) as) (hr : run (init n) as = some s) :
    s.crashed = false := by
  have key : ∀ (as : List Action) (s s' : State), Good n s → Calm s as → s.crashed = false → run s as = some s' →
      s'.crashed = false := by
    intro as
    induction as with
    | nil => intro s s' _ _ h hr; cases hr; exact h
    | cons a as ih =>
      intro s s' h hc h0 hr
      simp only [run] at hr
      split at hr
      · cases hr
      · rename_i t ht
        refine ih t s' (good_step h ht hc.1) (hc.2 t ht) ?_ hr
        unfold step at ht
        have nx : ∀ g (u : State), (next g u).crashed = u.crashed := by
          intro g u
          unfold next
          split <;> rfl
        have ck : ∀ g (u : State), (check g u).crashed = u.crashed := by
          intro g u
          unfold check
          split
          · rw [nx]
          · rfl
        split at ht
        · cases ht
        cases a with
        | endFlow => cases ht; exact h0
        | subscribe g => cases ht; rw [nx]; exact h0
        | finish g x =>
          simp only at ht
          split at ht
          · cases ht; rw [ck]; exact h0
          · cases ht
        | stepRet g r =>
          simp only at ht
          split at ht
          · cases ht
            unfold afterStep
            split
            · exact h0
            · split <;> exact h0
          · cases ht
        | goOn g now =>
          simp only at ht
          split at ht
          · rename_i rest fs hp
            cases ht
            unfold regRound
            split
            · split
              · rw [ck]; exact h0
              · exact h0
            · cases h.phase with
              | idle hl hf hw hs => simp [hf, pop] at hp
              | inStep k g' hk hf hw hs hr hc' hg => simp [hs, range'_step hk, h0]
              | loop k g' rest ts hk hf hs hr hc' ha hg hw hl => simp [hs, range'_step hk, h0]
              | wait k ts hk hf hs hr ha hg hw hl hn => simp [hf, pop] at hp
              | over hn hf hw hs hr => simp [hf, pop] at hp
              | stop k hf hw hr he => simp [hf, pop] at hp
          · cases ht
  exact key as (init n) s (good_init n) hc rfl hr

/-- Three steps; the first awaits two operations, which finish in the other order. -/
def ex : List Action :=
  [.subscribe 0, .stepRet 0 (some 2), .goOn 0 false, .goOn 0 false, .goOn 0 false, .finish 1 1, .finish 2 0,
   .stepRet 2 (some 1), .goOn 2 false, .goOn 2 false, .finish 0 2, .stepRet 0 (some 1), .goOn 0 false, .goOn 0 false, .finish 1 3]

example : (run (init 3) ex).map (fun s => (runs s.log, s.frames, s.waiting, s.crashed)) =
    some ([0, 1, 2], [], [], false) := by decide

/-- It is calm. -/
def calmB : State → List Action → Bool
  | _, [] => true
  | s, a :: as => calm s a && match step s a with
    | some s' => calmB s' as
    | none => true

theorem calm_of (as : List Action) : ∀ s, calmB s as = true → Calm s as := by
  induction as with
  | nil => intro _ _; trivial
  | cons a as ih =>
    intro s h
    simp only [calmB, Bool.and_eq_true] at h
    refine ⟨h.1, fun s' hs => ih s' ?_⟩
    have := h.2
    simpa only [hs] using this

example : Calm (init 3) ex := calm_of ex (init 3) (by decide)

/-- **C22** is false when an awaited operation has finished already: the step is run again. -/
theorem flow_again_refuted : (run (init 1) [.subscribe 0, .stepRet 0 (some 1), .goOn 0 true]).map (fun s => runs s.log) =
    some [0, 0] := by decide

/-- ... and the step after it may be left out, -/
theorem flow_skips_refuted : (run (init 3) [.subscribe 0, .stepRet 0 (some 1), .goOn 0 true, .stepRet 0 (some 1),
    .goOn 0 false, .goOn 0 false, .goOn 0 false, .finish 0 1]).map (fun s => runs s.log) = some [0, 0, 2] := by decide

/-- ... or the process crashes. -/
theorem flow_crash_refuted : (run (init 1) [.subscribe 0, .stepRet 0 (some 1), .goOn 0 true, .stepRet 0 (some 1),
    .goOn 0 false, .goOn 0 false, .goOn 0 false]).map (fun s => s.crashed) = some true := by decide

/-- **C22** is false for a step that awaits nothing: the flow stops there. -/
theorem flow_stall_refuted : (run (init 2) [.subscribe 0, .stepRet 0 (some 0), .goOn 0 false]).map
    (fun s => (runs s.log, s.frames, s.waiting)) = some ([0], [], []) := by decide

end Iota.Props.Flow
