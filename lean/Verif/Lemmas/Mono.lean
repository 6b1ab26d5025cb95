import Verif.Spec.Mono

/-! # Invariants of the mono machine -/

namespace Iota.Lemmas.Mono
open Iota.Mono Iota.Spec.Mono

variable {V E W : Type}

/-- What the callbacks in progress still owe subscription `i` (with handlers `h`). -/
def owes (i : Nat) (h : Handlers) : Frame → List (Ev V E W)
  | .afterSig j s => if j = i then tail i h s else []
  | .afterFin j s => if j = i then [.done i s] else []
  | _ => []

def pend (i : Nat) (h : Handlers) (p : List (Nat × Frame)) : List (Ev V E W) :=
  p.flatMap fun x => owes i h x.2

@[simp] theorem pend_nil (i : Nat) (h : Handlers) : (pend i h [] : List (Ev V E W)) = [] := rfl

@[simp] theorem pend_cons (i : Nat) (h : Handlers) (x : Nat × Frame) (p : List (Nat × Frame)) :
    (pend i h (x :: p) : List (Ev V E W)) = owes i h x.2 ++ pend i h p := rfl

@[simp] theorem pend_append (i : Nat) (h : Handlers) (p q : List (Nat × Frame)) :
    (pend i h (p ++ q) : List (Ev V E W)) = pend i h p ++ pend i h q := by
  simp [pend]

theorem pop_spec {g : Nat} {p r : List (Nat × Frame)} {f : Frame} (h : pop g p = some (f, r)) :
    ∃ a b, p = a ++ (g, f) :: b ∧ r = a ++ b := by
  induction p generalizing r with
  | nil => simp [pop] at h
  | cons x p ih =>
    obtain ⟨g', f'⟩ := x
    simp only [pop] at h
    split at h
    · rename_i e
      simp only [Option.some.injEq, Prod.mk.injEq] at h
      obtain ⟨rfl, rfl⟩ := h
      exact ⟨[], p, by simp [e], rfl⟩
    · split at h
      · cases h
      · rename_i f'' r'' hp
        simp only [Option.some.injEq, Prod.mk.injEq] at h
        obtain ⟨rfl, rfl⟩ := h
        obtain ⟨a, b, h1, h2⟩ := ih hp
        exact ⟨(g', f') :: a, b, by simp [h1], by simp [h2]⟩

def isDone : Ev V E W → Bool
  | .done _ _ => true
  | _ => false

theorem owes_done (i : Nat) (h : Handlers) (f : Frame) :
    (owes i h f : List (Ev V E W)) = [] ∨ 1 ≤ (owes i h f : List (Ev V E W)).countP isDone := by
  cases f <;> simp only [owes]
  · split <;> simp [tail, isDone]
  · split <;> simp [isDone]
  · simp
  · simp

theorem pend_nil_of_count {i : Nat} {h : Handlers} {p : List (Nat × Frame)}
    (hc : (pend i h p : List (Ev V E W)).countP isDone = 0) : (pend i h p : List (Ev V E W)) = [] := by
  induction p with
  | nil => rfl
  | cons x p ih =>
    simp only [pend_cons, List.countP_append] at hc ⊢
    rcases owes_done (V := V) (E := E) (W := W) i h x.2 with h1 | h1
    · rw [h1, ih (by omega)]; rfl
    · omega

theorem expected_count (tx : V → Except E W) (i : Nat) (h : Handlers) (o : Outcome V E) :
    (expected tx i h o).countP isDone = 1 := by
  have ht : ∀ s, (tail i h s : List (Ev V E W)).countP isDone = 1 := by
    intro s; unfold tail; split <;> simp [isDone]
  unfold expected
  rw [List.countP_append, ht]
  cases o with
  | success v => simp only; cases tx v <;> simp only <;> split <;> simp [isDone]
  | error e => simp only; split <;> simp [isDone]
  | cancel => simp

/-- A frame of subscription `i` inside its delivery callback. -/
def delivering (i : Nat) (p : List (Nat × Frame)) : Prop := ∃ g s, (g, Frame.afterSig i s) ∈ p

/-- What the fields of a subscriber hold after outcome `o`. -/
def fieldsOf (b : Sub V E) (o : Outcome V E) : Prop :=
  match o with
  | .success v => b.value = some v ∧ b.err = none
  | .error e => b.value = none ∧ b.err = some e
  | .cancel => b.value = none ∧ b.err = none

/-- Invariant for subscription `i`. -/
def InvI (tx : V → Except E W) (i : Nat) (s : State V E W) : Prop :=
  match s.subs[i]? with
  | none => history i s.log = [] ∧ firstOutcome i s.log = none ∧
      ∀ x ∈ s.pending, ∀ sg, x.2 ≠ .afterSig i sg ∧ x.2 ≠ .afterFin i sg
  | some b =>
    match firstOutcome i s.log with
    | none => b.closed = false ∧ b.value = none ∧ b.err = none ∧ history i s.log = [] ∧
        ∀ x ∈ s.pending, ∀ sg, x.2 ≠ .afterSig i sg ∧ x.2 ≠ .afterFin i sg
    | some o => b.closed = true ∧ fieldsOf b o ∧
        history i s.log ++ pend i b.h s.pending = expected tx i b.h o ∧
        (¬ delivering i s.pending → b.signal = sigOf o) ∧
        (∀ x ∈ s.pending, ∀ sg, x.2 = .afterSig i sg → sg = sigOf o)

theorem pend_nil_of_no {i : Nat} {h : Handlers} {p : List (Nat × Frame)}
    (hp : ∀ x ∈ p, ∀ sg, x.2 ≠ .afterSig i sg ∧ x.2 ≠ .afterFin i sg) :
    (pend i h p : List (Ev V E W)) = [] := by
  induction p with
  | nil => rfl
  | cons x p ih =>
    have hx := hp x List.mem_cons_self
    rw [pend_cons, ih fun y hy => hp y (List.mem_cons_of_mem _ hy)]
    obtain ⟨g, f⟩ := x
    cases f with
    | afterSig j s =>
      have : j ≠ i := by rintro rfl; exact (hx s).1 rfl
      simp [owes, this]
    | afterFin j s =>
      have : j ≠ i := by rintro rfl; exact (hx s).2 rfl
      simp [owes, this]
    | loop => rfl
    | leaf => rfl

/-- `InvI` depends only on these parts of the state. -/
theorem InvI_congr {tx : V → Except E W} {i : Nat} {s s' : State V E W} (h : InvI tx i s)
    (h1 : s'.subs[i]? = s.subs[i]?) (h2 : history i s'.log = history i s.log)
    (h3 : firstOutcome i s'.log = firstOutcome i s.log)
    (h4 : ∀ x, ((∃ sg, x.2 = Frame.afterSig i sg) ∨ (∃ sg, x.2 = Frame.afterFin i sg)) →
      (x ∈ s'.pending ↔ x ∈ s.pending))
    (h5 : ∀ hh, (pend i hh s'.pending : List (Ev V E W)) = pend i hh s.pending) : InvI tx i s' := by
  have hno : (∀ x ∈ s.pending, ∀ sg, x.2 ≠ .afterSig i sg ∧ x.2 ≠ .afterFin i sg) →
      (∀ x ∈ s'.pending, ∀ sg, x.2 ≠ .afterSig i sg ∧ x.2 ≠ .afterFin i sg) := by
    intro hp x hx sg
    refine ⟨fun he => ?_, fun he => ?_⟩
    · exact (hp x ((h4 x (.inl ⟨sg, he⟩)).mp hx) sg).1 he
    · exact (hp x ((h4 x (.inr ⟨sg, he⟩)).mp hx) sg).2 he
  unfold InvI at *
  rw [h1, h2, h3]
  split
  · rename_i hn
    simp only [hn] at h
    exact ⟨h.1, h.2.1, hno h.2.2⟩
  · rename_i b hb
    simp only [hb] at h
    split
    · rename_i ho
      simp only [ho] at h
      exact ⟨h.1, h.2.1, h.2.2.1, h.2.2.2.1, hno h.2.2.2.2⟩
    · rename_i o ho
      simp only [ho] at h
      refine ⟨h.1, h.2.1, by rw [h5]; exact h.2.2.1, ?_, ?_⟩
      · intro hnd
        apply h.2.2.2.1
        rintro ⟨g, sg, hm⟩
        exact hnd ⟨g, sg, (h4 _ (.inl ⟨sg, rfl⟩)).mpr hm⟩
      · intro x hx sg he
        exact h.2.2.2.2 x ((h4 x (.inl ⟨sg, he⟩)).mp hx) sg he

/-- A step that only adds irrelevant events and frames. -/
theorem InvI_runLoop {tx : V → Except E W} {i g : Nat} {sig : Signal} {rest : List Nat}
    {s : State V E W} (h : InvI tx i s) : InvI tx i (runLoop g sig rest s) := by
  cases rest with
  | nil => exact h
  | cons k ks =>
    refine InvI_congr h rfl ?_ ?_ ?_ ?_
    · simp [runLoop, push, emit, history, ofSub]
    · simp only [runLoop, push, emit, firstOutcome]
      cases firstOutcome i s.log <;> rfl
    · rintro x (⟨sg, hx⟩ | ⟨sg, hx⟩) <;>
      · simp only [runLoop, push, emit, List.mem_cons, or_iff_right_iff_imp]
        rintro rfl
        cases hx
    · intro hh; simp [runLoop, push, emit, owes]

theorem InvI_emit_other {tx : V → Except E W} {i : Nat} {s : State V E W} {e : Ev V E W}
    (h : InvI tx i s) (h1 : ofSub i e = false) (h2 : ∀ o, e ≠ .called i o) : InvI tx i (emit s e) := by
  refine InvI_congr h rfl ?_ ?_ (fun _ _ => Iff.rfl) (fun _ => rfl)
  · simp [emit, history, h1]
  · simp only [emit, firstOutcome]
    cases firstOutcome i s.log with
    | some o => rfl
    | none =>
      cases e <;> try rfl
      rename_i j o
      by_cases hj : j = i
      · subst hj; exact absurd rfl (h2 o)
      · simp [hj]

theorem InvI_push_other {tx : V → Except E W} {i g : Nat} {s : State V E W} {f : Frame}
    (h : InvI tx i s) (h1 : ∀ sg, f ≠ .afterSig i sg) (h2 : ∀ sg, f ≠ .afterFin i sg) :
    InvI tx i (push s g f) := by
  refine InvI_congr h rfl rfl rfl ?_ ?_
  · rintro x (⟨sg, hx⟩ | ⟨sg, hx⟩) <;>
    · simp only [push, List.mem_cons, or_iff_right_iff_imp]
      rintro rfl
      first | exact absurd hx (h1 sg) | exact absurd hx (h2 sg)
  · intro hh
    cases f with
    | afterSig j sg =>
      have : j ≠ i := by rintro rfl; exact h1 sg rfl
      simp [push, owes, this]
    | afterFin j sg =>
      have : j ≠ i := by rintro rfl; exact h2 sg rfl
      simp [push, owes, this]
    | loop => simp [push, owes]
    | leaf => simp [push, owes]

theorem InvI_setSub_other {tx : V → Except E W} {i j : Nat} {s : State V E W} {f : Sub V E → Sub V E}
    (h : InvI tx i s) (hij : j ≠ i) : InvI tx i (setSub s j f) := by
  refine InvI_congr h ?_ rfl rfl (fun _ _ => Iff.rfl) (fun _ => rfl)
  simp [setSub, List.getElem?_modify, hij]

theorem InvI_startLoop_other {tx : V → Except E W} {i j g : Nat} {sig : Signal} {s : State V E W}
    (h : InvI tx i s) (hij : j ≠ i) : InvI tx i (startLoop g j sig s) := by
  unfold startLoop
  apply InvI_runLoop
  exact InvI_emit_other h (by simp [ofSub, hij]) (by simp)

theorem InvI_runFinally_other {tx : V → Except E W} {i j g : Nat} {sig : Signal} {hd : Handlers}
    {s : State V E W} (h : InvI tx i s) (hij : j ≠ i) : InvI tx i (runFinally g j sig hd s) := by
  unfold runFinally
  split
  · apply InvI_push_other
    · apply InvI_emit_other
      · exact InvI_setSub_other h hij
      · simp [ofSub, hij]
      · simp
    · simp
    · intro sg he; injection he with he; exact hij he
  · exact InvI_startLoop_other (InvI_setSub_other h hij) hij

/-- No callback of subscription `i` is in progress. -/
def Quiet (i : Nat) (p : List (Nat × Frame)) : Prop :=
  ∀ x ∈ p, ∀ sg, x.2 ≠ .afterSig i sg ∧ x.2 ≠ .afterFin i sg

theorem Quiet.not_delivering {i : Nat} {p : List (Nat × Frame)} (h : Quiet i p) : ¬ delivering i p := by
  rintro ⟨g, sg, hm⟩
  exact (h _ hm sg).1 rfl

theorem InvI_startLoop {tx : V → Except E W} {i g : Nat} {b : Sub V E} {o : Outcome V E}
    {s : State V E W} (hb : s.subs[i]? = some b) (ho : firstOutcome i s.log = some o)
    (hc : b.closed = true) (hf : fieldsOf b o) (hq : Quiet i s.pending)
    (hsig : b.signal = sigOf o)
    (hh : history i s.log ++ [.done i (sigOf o)] = expected tx i b.h o) :
    InvI tx i (startLoop g i (sigOf o) s) := by
  unfold startLoop
  apply InvI_runLoop
  unfold InvI
  simp only [emit, hb, firstOutcome, ho]
  refine ⟨hc, hf, ?_, fun _ => hsig, ?_⟩
  · rw [pend_nil_of_no hq]
    simpa [history, ofSub] using hh
  · intro x hx sg he
    exact absurd he (hq x hx sg).1

theorem InvI_runFinally {tx : V → Except E W} {i g : Nat} {b : Sub V E} {o : Outcome V E}
    {s : State V E W} {hd : Handlers} (hb : s.subs[i]? = some b) (ho : firstOutcome i s.log = some o)
    (hc : b.closed = true) (hf : fieldsOf b o) (hq : Quiet i s.pending)
    (hh : history i s.log ++ tail i b.h (sigOf o) = expected tx i b.h o) (hhd : hd = b.h) :
    InvI tx i (runFinally g i (sigOf o) hd s) := by
  subst hhd
  have hb' : (setSub s i fun b => { b with signal := sigOf o }).subs[i]? =
      some { b with signal := sigOf o } := by
    simp [setSub, hb]
  have hf' : fieldsOf { b with signal := sigOf o } o := by
    cases o <;> exact hf
  unfold runFinally
  split
  · rename_i hfin
    unfold InvI
    simp only [push, emit, hb', firstOutcome]
    have : firstOutcome i (setSub s i fun b => { b with signal := sigOf o }).log = some o := ho
    simp only [this]
    refine ⟨hc, hf', ?_, fun _ => trivial, ?_⟩
    · rw [pend_cons, pend_nil_of_no (p := (setSub s i _).pending) hq]
      simp only [tail, hfin, if_true] at hh
      simpa [history, ofSub, owes, setSub] using hh
    · intro x hx sg he
      rcases List.mem_cons.mp hx with rfl | hx
      · cases he
      · exact absurd he (hq x hx sg).1
  · rename_i hfin
    apply InvI_startLoop hb' ho hc hf' hq rfl
    have : history i s.log ++ [.done i (sigOf o)] = expected tx i b.h o := by
      simpa [tail, hfin] using hh
    exact this

theorem InvI_callSuccess_other {tx : V → Except E W} {i j g : Nat} {v : V} {hd : Handlers}
    {s : State V E W} (h : InvI tx i s) (hij : j ≠ i) : InvI tx i (callSuccess tx g j v hd s) := by
  unfold callSuccess
  split <;> split
  · apply InvI_push_other
    · exact InvI_emit_other h (by simp [ofSub, hij]) (by simp)
    · intro sg he; injection he with he; exact hij he
    · simp
  · exact InvI_runFinally_other h hij
  · apply InvI_push_other
    · exact InvI_emit_other h (by simp [ofSub, hij]) (by simp)
    · intro sg he; injection he with he; exact hij he
    · simp
  · exact InvI_runFinally_other h hij

theorem InvI_callError_other {tx : V → Except E W} {i j g : Nat} {e : E} {hd : Handlers}
    {s : State V E W} (h : InvI tx i s) (hij : j ≠ i) : InvI tx i (callError g j e hd s) := by
  unfold callError
  split
  · apply InvI_push_other
    · exact InvI_emit_other h (by simp [ofSub, hij]) (by simp)
    · intro sg he; injection he with he; exact hij he
    · simp
  · exact InvI_runFinally_other h hij

/-- Delivery of the outcome to subscription `i` itself. -/
theorem InvI_deliver {tx : V → Except E W} {i g : Nat} {b : Sub V E} {o : Outcome V E} {ev : Ev V E W}
    {s : State V E W} (hb : s.subs[i]? = some b) (ho : firstOutcome i s.log = some o)
    (hc : b.closed = true) (hf : fieldsOf b o) (hq : Quiet i s.pending) (hhist : history i s.log = [])
    (hev : ofSub i ev = true)
    (hexp : expected tx i b.h o = [ev] ++ tail i b.h (sigOf o)) :
    InvI tx i (push (emit s ev) g (.afterSig i (sigOf o))) := by
  unfold InvI
  simp only [push, emit, hb, firstOutcome, ho]
  refine ⟨hc, hf, ?_, ?_, ?_⟩
  · rw [pend_cons, pend_nil_of_no hq, hexp]
    simp [history, hhist, hev, owes]
  · intro hnd
    exact absurd ⟨g, sigOf o, List.mem_cons_self⟩ hnd
  · intro x hx sg he
    rcases List.mem_cons.mp hx with rfl | hx
    · injection he with _ he; exact he.symm
    · exact absurd he (hq x hx sg).1

theorem InvI_signal {tx : V → Except E W} {i j g : Nat} {o : Outcome V E} {s s' : State V E W}
    (h : InvI tx i s) (hs : signal tx g j o s = some s') : InvI tx i s' := by
  unfold signal at hs
  split at hs
  · cases hs
  · rename_i b hb
    by_cases hij : j = i
    · subst hij
      have hI := h
      unfold InvI at hI
      simp only [hb] at hI
      split at hs
      · -- already closed
        rename_i hcl
        injection hs with hs; subst hs
        cases hfo : firstOutcome j s.log with
        | none => simp [hfo, hcl] at hI
        | some o' =>
          refine InvI_congr h rfl ?_ ?_ (fun _ _ => Iff.rfl) (fun _ => rfl)
          · simp [emit, history, ofSub]
          · simp [emit, firstOutcome, hfo]
      · rename_i hcl
        cases hfo : firstOutcome j s.log with
        | some o' => simp only [hfo] at hI; exact absurd hI.1 hcl
        | none =>
          simp only [hfo] at hI
          obtain ⟨_, hv, he, hh, hq⟩ := hI
          have hq' : Quiet j s.pending := hq
          have hfo' : firstOutcome j (Ev.called j o :: s.log) = some o := by
            simp [firstOutcome, hfo]
          have hh' : history j (Ev.called j o :: s.log) = [] := by simp [history, hh, ofSub]
          cases o with
          | success v =>
            simp only at hs
            injection hs with hs; subst hs
            have hb' : (setSub (emit s (.called j (.success v))) j
                fun b => { b with value := some v, closed := true }).subs[j]? =
                some { b with value := some v, closed := true } := by simp [setSub, emit, hb]
            have hf' : fieldsOf { b with value := some v, closed := true } (.success v : Outcome V E) :=
              ⟨rfl, he⟩
            unfold callSuccess
            split <;> rename_i r hr <;> split <;> rename_i hh1
            · exact InvI_deliver (o := .success v) hb' hfo' rfl hf' hq' hh' (by simp [ofSub])
                (by simp [expected, hr, hh1])
            · exact InvI_runFinally (o := .success v) hb' hfo' rfl hf' hq' (by
                rw [show (setSub (emit s (.called j (.success v))) j _).log =
                  Ev.called j (.success v) :: s.log from rfl, hh']
                simp [expected, hr, hh1]) rfl
            · exact InvI_deliver (o := .success v) hb' hfo' rfl hf' hq' hh' (by simp [ofSub])
                (by simp [expected, hr, hh1])
            · exact InvI_runFinally (o := .success v) hb' hfo' rfl hf' hq' (by
                rw [show (setSub (emit s (.called j (.success v))) j _).log =
                  Ev.called j (.success v) :: s.log from rfl, hh']
                simp [expected, hr, hh1]) rfl
          | error e =>
            simp only at hs
            injection hs with hs; subst hs
            have hb' : (setSub (emit s (.called j (.error e))) j
                fun b => { b with err := some e, closed := true }).subs[j]? =
                some { b with err := some e, closed := true } := by simp [setSub, emit, hb]
            have hf' : fieldsOf { b with err := some e, closed := true } (.error e : Outcome V E) :=
              ⟨hv, rfl⟩
            unfold callError
            split <;> rename_i hh1
            · exact InvI_deliver (o := .error e) hb' hfo' rfl hf' hq' hh' (by simp [ofSub])
                (by simp [expected, hh1])
            · exact InvI_runFinally (o := .error e) hb' hfo' rfl hf' hq' (by
                rw [show (setSub (emit s (.called j (.error e))) j _).log =
                  Ev.called j (.error e) :: s.log from rfl, hh']
                simp [expected, hh1]) rfl
          | cancel =>
            simp only at hs
            injection hs with hs; subst hs
            have hb' : (setSub (emit s (.called j (.cancel : Outcome V E))) j
                fun b => { b with closed := true }).subs[j]? =
                some { b with closed := true } := by simp [setSub, emit, hb]
            have hf' : fieldsOf { b with closed := true } (.cancel : Outcome V E) := ⟨hv, he⟩
            exact InvI_runFinally (o := .cancel) hb' hfo' rfl hf' hq' (by
                rw [show (setSub (emit s (.called j .cancel)) j _).log =
                  Ev.called j .cancel :: s.log from rfl, hh']
                simp [expected]) rfl
    · have hem : InvI tx i (emit s (.called j o)) :=
        InvI_emit_other h (by simp [ofSub]) (by intro o' he; injection he with he; exact hij he)
      split at hs
      · injection hs with hs; subst hs; exact hem
      · cases o with
        | success v =>
          simp only at hs; injection hs with hs; subst hs
          exact InvI_callSuccess_other (InvI_setSub_other hem hij) hij
        | error e =>
          simp only at hs; injection hs with hs; subst hs
          exact InvI_callError_other (InvI_setSub_other hem hij) hij
        | cancel =>
          simp only at hs; injection hs with hs; subst hs
          exact InvI_runFinally_other (InvI_setSub_other hem hij) hij

theorem InvI_addSub {tx : V → Except E W} {i : Nat} {hd : Handlers} {s : State V E W}
    (h : InvI tx i s) : InvI tx i (addSub hd s) := by
  by_cases hi : i = s.subs.length
  · subst hi
    unfold InvI at h ⊢
    have hn : s.subs[s.subs.length]? = none := by simp
    simp only [hn] at h
    obtain ⟨h1, h2, h3⟩ := h
    have hs : (addSub hd s).subs[s.subs.length]? =
        some { closed := false, value := none, err := none, signal := .complete, h := hd } := by
      simp [addSub]
    have hfo : firstOutcome s.subs.length (addSub hd s).log = none := by
      simp [addSub, firstOutcome, h2]
    simp only [hs, hfo]
    exact ⟨trivial, trivial, trivial, by simp [addSub, history, ofSub, h1], h3⟩
  · refine InvI_congr h ?_ ?_ ?_ (fun _ _ => Iff.rfl) (fun _ => rfl)
    · simp only [addSub]
      by_cases hlt : i < s.subs.length
      · rw [List.getElem?_append_left hlt]
      · rw [List.getElem?_eq_none (by simp; omega), List.getElem?_eq_none (by omega)]
    · simp [addSub, history, ofSub]
    · simp only [addSub, firstOutcome]
      cases firstOutcome i s.log <;> rfl

theorem InvI_notify {tx : V → Except E W} {i g : Nat} {s : State V E W}
    (h : InvI tx i s) : InvI tx i (notify g s) := by
  have hreg : InvI tx i
      { s with nextFn := s.nextFn + 1, callbacks := s.callbacks ++ [s.nextFn], log := .reg s.nextFn :: s.log } := by
    refine InvI_congr h rfl ?_ ?_ (fun _ _ => Iff.rfl) (fun _ => rfl)
    · simp [history, ofSub]
    · simp only [firstOutcome]
      cases firstOutcome i s.log <;> rfl
  unfold notify
  split
  · split
    · apply InvI_push_other
      · apply InvI_emit_other
        · apply InvI_emit_other
          · exact InvI_congr h rfl rfl rfl (fun _ _ => Iff.rfl) (fun _ => rfl)
          · simp [ofSub]
          · simp
        · simp [ofSub]
        · simp
      · simp
      · simp
    · exact hreg
  · exact hreg

theorem InvI_drop {tx : V → Except E W} {i g : Nat} {s : State V E W} {f : Frame}
    {a b : List (Nat × Frame)} (h : InvI tx i s) (hp : s.pending = a ++ (g, f) :: b)
    (h1 : ∀ sg, f ≠ .afterSig i sg) (h2 : ∀ sg, f ≠ .afterFin i sg) :
    InvI tx i { s with pending := a ++ b } := by
  refine InvI_congr h rfl rfl rfl ?_ ?_
  · rintro x (⟨sg, hx⟩ | ⟨sg, hx⟩) <;>
    · simp only [hp, List.mem_append, List.mem_cons]
      constructor
      · rintro (h | h)
        · exact .inl h
        · exact .inr (.inr h)
      · rintro (h | rfl | h)
        · exact .inl h
        · first | exact absurd hx (h1 sg) | exact absurd hx (h2 sg)
        · exact .inr h
  · intro hh
    have : (owes i hh f : List (Ev V E W)) = [] := by
      cases f with
      | afterSig j sg => simp only [owes]; rw [if_neg]; rintro rfl; exact h1 sg rfl
      | afterFin j sg => simp only [owes]; rw [if_neg]; rintro rfl; exact h2 sg rfl
      | loop => rfl
      | leaf => rfl
    simp [hp, this]

/-- When the frame `f` of subscription `i` is popped, no other frame of `i` is left and what it owes is
the rest of what is expected. -/
theorem pop_own {tx : V → Except E W} {i g : Nat} {s : State V E W} {f : Frame} {bb : Sub V E}
    {a b : List (Nat × Frame)} (h : InvI tx i s) (hp : s.pending = a ++ (g, f) :: b)
    (hb : s.subs[i]? = some bb)
    (hf : (∃ sg, f = .afterSig i sg) ∨ ∃ sg, f = .afterFin i sg) :
    ∃ o, firstOutcome i s.log = some o ∧ bb.closed = true ∧ fieldsOf bb o ∧ Quiet i (a ++ b) ∧
      history i s.log ++ owes i bb.h f = expected tx i bb.h o ∧
      ((∀ sg, f = .afterSig i sg → sg = sigOf o)) ∧
      ((∀ sg, f ≠ .afterSig i sg) → bb.signal = sigOf o) := by
  unfold InvI at h
  simp only [hb] at h
  have hmem : (g, f) ∈ s.pending := by rw [hp]; simp
  cases hfo : firstOutcome i s.log with
  | none =>
    simp only [hfo] at h
    have := h.2.2.2.2 (g, f) hmem
    rcases hf with ⟨sg, rfl⟩ | ⟨sg, rfl⟩
    · exact absurd rfl (this sg).1
    · exact absurd rfl (this sg).2
  | some o =>
    simp only [hfo] at h
    obtain ⟨h1, h2, h3, h4, h5⟩ := h
    have hcnt := expected_count tx i bb.h o
    rw [← h3, hp] at hcnt
    simp only [pend_append, pend_cons, List.countP_append] at hcnt
    have hown : 1 ≤ (owes i bb.h f : List (Ev V E W)).countP isDone := by
      rcases hf with ⟨sg, rfl⟩ | ⟨sg, rfl⟩
      · simp [owes, tail, isDone]
      · simp [owes, isDone]
    have ha : (pend i bb.h a : List (Ev V E W)) = [] := pend_nil_of_count (by omega)
    have hb' : (pend i bb.h b : List (Ev V E W)) = [] := pend_nil_of_count (by omega)
    have hquiet : ∀ p : List (Nat × Frame), (pend i bb.h p : List (Ev V E W)) = [] → Quiet i p := by
      intro p
      induction p with
      | nil => intro _ x hx; cases hx
      | cons x p ih =>
        intro hpn y hy sg
        rw [pend_cons, List.append_eq_nil_iff] at hpn
        rcases List.mem_cons.mp hy with rfl | hy
        · refine ⟨fun he => ?_, fun he => ?_⟩ <;> simp [he, owes, tail] at hpn
        · exact ih hpn.2 y hy sg
    have hq : Quiet i (a ++ b) := hquiet _ (by simp [ha, hb'])
    refine ⟨o, rfl, h1, h2, hq, ?_, ?_, ?_⟩
    · rw [← h3, hp]; simp [ha, hb']
    · intro sg he; exact h5 _ hmem sg he
    · intro hns
      apply h4
      rintro ⟨g', sg, hm⟩
      rw [hp] at hm
      rcases List.mem_append.mp hm with hm | hm
      · exact (hq _ (List.mem_append_left _ hm) sg).1 rfl
      · rcases List.mem_cons.mp hm with he | hm
        · injection he with _ he; exact hns sg he.symm
        · exact (hq _ (List.mem_append_right _ hm) sg).1 rfl

theorem InvI_resume {tx : V → Except E W} {i g : Nat} {s s' : State V E W}
    (h : InvI tx i s) (hs : resume g s = some s') : InvI tx i s' := by
  unfold resume at hs
  split at hs
  · cases hs
  · rename_i f r hpop
    obtain ⟨a, b, hp, rfl⟩ := pop_spec hpop
    cases f with
    | afterSig j sg =>
      simp only at hs
      split at hs
      · cases hs
      · rename_i bb hb
        injection hs with hs; subst hs
        by_cases hij : j = i
        · subst hij
          obtain ⟨o, ho, hc, hf, hq, hh, hsg, _⟩ := pop_own h hp hb (.inl ⟨sg, rfl⟩)
          have := hsg sg rfl
          subst this
          refine InvI_runFinally (s := { s with pending := a ++ b }) hb ho hc hf hq ?_ rfl
          simpa [owes] using hh
        · apply InvI_runFinally_other _ hij
          exact InvI_drop h hp (by intro sg' he; injection he with he; exact hij he) (by simp)
    | afterFin j sg =>
      simp only at hs
      injection hs with hs; subst hs
      by_cases hij : j = i
      · subst hij
        cases hb : s.subs[j]? with
        | none =>
          unfold InvI at h
          simp only [hb] at h
          exact absurd rfl (h.2.2 (g, .afterFin j sg) (by rw [hp]; simp) sg).2
        | some bb =>
          obtain ⟨o, ho, hc, hf, hq, hh, _, hsig⟩ := pop_own h hp hb (.inr ⟨sg, rfl⟩)
          have hsg : sg = sigOf o := by
            have hl : ∀ s, (tail j bb.h s : List (Ev V E W)).getLast? = some (.done j s) := by
              intro s; simp [tail]
            have e := congrArg List.getLast? hh
            simp only [owes, if_true, expected, List.getLast?_append, hl] at e
            simp at e
            exact e
          subst hsg
          refine InvI_startLoop (s := { s with pending := a ++ b }) hb ho hc hf hq (hsig (by simp)) ?_
          simpa [owes] using hh
      · apply InvI_startLoop_other _ hij
        exact InvI_drop h hp (by simp) (by intro sg' he; injection he with he; exact hij he)
    | loop sg rest =>
      simp only at hs
      injection hs with hs; subst hs
      apply InvI_runLoop
      exact InvI_drop h hp (by simp) (by simp)
    | leaf =>
      simp only at hs
      injection hs with hs; subst hs
      exact InvI_drop h hp (by simp) (by simp)

theorem InvI_step {tx : V → Except E W} {i : Nat} {s s' : State V E W} {a : Action V E}
    (h : InvI tx i s) (hs : step tx s a = some s') : InvI tx i s' := by
  cases a with
  | subscribe g hd =>
    simp only [step, subscribe, Option.some.injEq] at hs; subst hs
    exact InvI_push_other (InvI_addSub h) (by simp) (by simp)
  | notify g => simp only [step, Option.some.injEq] at hs; subst hs; exact InvI_notify h
  | signal g j o => exact InvI_signal h hs
  | ret g => exact InvI_resume h hs

theorem InvI_init (tx : V → Except E W) (i : Nat) : InvI tx i (init : State V E W) := by
  simp [InvI, init, history, firstOutcome]

theorem InvI_run {tx : V → Except E W} {i : Nat} (as : List (Action V E)) {s s' : State V E W}
    (h : InvI tx i s) (hs : run tx s as = some s') : InvI tx i s' := by
  induction as generalizing s with
  | nil => simp only [run, Option.some.injEq] at hs; exact hs ▸ h
  | cons a as ih =>
    simp only [run, Option.bind_eq_some_iff] at hs
    obtain ⟨m, h1, h2⟩ := hs
    exact ih (InvI_step h h1) h2

/-! ## First outcomes -/

theorem first_runLoop (i g : Nat) (sg : Signal) (rest : List Nat) (s : State V E W) :
    firstOutcome i (runLoop g sg rest s).log = firstOutcome i s.log := by
  cases rest with
  | nil => rfl
  | cons k ks => simp only [runLoop, push, emit, firstOutcome]; cases firstOutcome i s.log <;> rfl

theorem first_startLoop (i j g : Nat) (sg : Signal) (s : State V E W) :
    firstOutcome i (startLoop g j sg s).log = firstOutcome i s.log := by
  unfold startLoop
  rw [first_runLoop]
  simp only [emit, firstOutcome]; cases firstOutcome i s.log <;> rfl

theorem first_runFinally (i j g : Nat) (sg : Signal) (hd : Handlers) (s : State V E W) :
    firstOutcome i (runFinally g j sg hd s).log = firstOutcome i s.log := by
  unfold runFinally
  split
  · simp only [push, emit, setSub, firstOutcome]; cases firstOutcome i s.log <;> rfl
  · rw [first_startLoop]; rfl

theorem first_callSuccess (tx : V → Except E W) (i j g : Nat) (v : V) (hd : Handlers) (s : State V E W) :
    firstOutcome i (callSuccess tx g j v hd s).log = firstOutcome i s.log := by
  unfold callSuccess
  split <;> split
  · simp only [push, emit, firstOutcome]; cases firstOutcome i s.log <;> rfl
  · rw [first_runFinally]
  · simp only [push, emit, firstOutcome]; cases firstOutcome i s.log <;> rfl
  · rw [first_runFinally]

theorem first_callError (i j g : Nat) (e : E) (hd : Handlers) (s : State V E W) :
    firstOutcome i (callError g j e hd s).log = firstOutcome i s.log := by
  unfold callError
  split
  · simp only [push, emit, firstOutcome]; cases firstOutcome i s.log <;> rfl
  · rw [first_runFinally]

theorem first_signal {tx : V → Except E W} {i g : Nat} {o : Outcome V E} {s s' : State V E W}
    (h : signal tx g i o s = some s') :
    firstOutcome i s'.log = (firstOutcome i s.log).or (some o) := by
  have hc : firstOutcome i (Ev.called i o :: s.log) = (firstOutcome i s.log).or (some o) := by
    simp only [firstOutcome]; cases firstOutcome i s.log <;> simp
  unfold signal at h
  split at h
  · cases h
  · split at h
    · injection h with h; subst h; exact hc
    · cases o <;> simp only at h <;> injection h with h <;> subst h
      · rw [first_callSuccess]; exact hc
      · rw [first_callError]; exact hc
      · rw [first_runFinally]; exact hc

theorem first_resume {i g : Nat} {s s' : State V E W} (h : resume g s = some s') :
    firstOutcome i s'.log = firstOutcome i s.log := by
  unfold resume at h
  split at h
  · cases h
  · split at h
    · split at h
      · cases h
      · injection h with h; subst h; rw [first_runFinally]
    · injection h with h; subst h; rw [first_startLoop]
    · injection h with h; subst h; rw [first_runLoop]
    · injection h with h; subst h; rfl

theorem first_notify (i g : Nat) (s : State V E W) :
    firstOutcome i (notify g s).log = firstOutcome i s.log := by
  unfold notify
  split
  · split
    · simp only [push, emit, firstOutcome]; cases firstOutcome i s.log <;> rfl
    · simp only [firstOutcome]; cases firstOutcome i s.log <;> rfl
  · simp only [firstOutcome]; cases firstOutcome i s.log <;> rfl

/-! ## Notifications -/

/-- Functions stored by `Notify`, in order. -/
def regs : List (Ev V E W) → List Nat
  | [] => []
  | .reg k :: l => regs l ++ [k]
  | _ :: l => regs l

theorem registered_iff (k : Nat) (l : List (Ev V E W)) : registered k l = true ↔ k ∈ regs l := by
  induction l with
  | nil => simp [regs, registered]
  | cons e l ih =>
    cases e <;> simp [regs, registered, ih]
    rw [or_comm, eq_comm]

/-- Calls the notification loops in progress still have to make. -/
def pendN (k : Nat) (sg : Signal) (p : List (Nat × Frame)) : Nat :=
  (p.map fun x => match x.2 with
    | .loop s rest => if s = sg then rest.count k else 0
    | _ => 0).sum

structure InvN (s : State V E W) : Prop where
  stored : s.callbacks = regs s.log
  nodup : s.callbacks.Nodup
  bound : ∀ k ∈ s.callbacks, k < s.nextFn
  count : ∀ k sg, calls k sg s.log + pendN k sg s.pending = owedCalls k sg s.log

theorem InvN_runLoop {g : Nat} {sg : Signal} {rest : List Nat} {s : State V E W}
    (h1 : s.callbacks = regs s.log) (h2 : s.callbacks.Nodup) (h3 : ∀ k ∈ s.callbacks, k < s.nextFn)
    (h4 : ∀ k sg', calls k sg' s.log + pendN k sg' s.pending + (if sg = sg' then rest.count k else 0) =
      owedCalls k sg' s.log) : InvN (runLoop g sg rest s) := by
  cases rest with
  | nil => exact ⟨h1, h2, h3, fun k sg' => by simpa [runLoop] using h4 k sg'⟩
  | cons k0 ks =>
    refine ⟨h1, h2, h3, fun k sg' => ?_⟩
    have := h4 k sg'
    simp only [runLoop, push, emit, calls, owedCalls, pendN, List.map_cons, List.sum_cons,
      List.count_cons] at this ⊢
    by_cases hs : sg = sg' <;> by_cases hk : k0 = k <;> simp [hs, hk] at this ⊢ <;> omega

theorem InvN_startLoop {g i : Nat} {sg : Signal} {s : State V E W} (h : InvN s) :
    InvN (startLoop g i sg s) := by
  unfold startLoop
  refine InvN_runLoop h.stored h.nodup h.bound ?_
  intro k sg'
  have := h.count k sg'
  simp only [emit, calls, owedCalls, registered_iff, ← h.stored]
  rw [h.nodup.count]
  by_cases hs : sg = sg' <;> by_cases hk : k ∈ s.callbacks <;> simp [hs, hk] <;> omega

/-- Steps that neither notify, nor register, nor end a subscription. -/
theorem InvN_irrelevant {s s' : State V E W} (h : InvN s) (h1 : s'.callbacks = s.callbacks)
    (h2 : s'.nextFn = s.nextFn) (h3 : regs s'.log = regs s.log)
    (h4 : ∀ k sg, calls k sg s'.log = calls k sg s.log)
    (h5 : ∀ k sg, owedCalls k sg s'.log = owedCalls k sg s.log)
    (h6 : ∀ k sg, pendN k sg s'.pending = pendN k sg s.pending) : InvN s' :=
  ⟨by rw [h1, h3]; exact h.stored, by rw [h1]; exact h.nodup, by rw [h1, h2]; exact h.bound,
    fun k sg => by rw [h4, h5, h6]; exact h.count k sg⟩

theorem InvN_runFinally {g i : Nat} {sg : Signal} {hd : Handlers} {s : State V E W} (h : InvN s) :
    InvN (runFinally g i sg hd s) := by
  unfold runFinally
  split
  · exact InvN_irrelevant h rfl rfl rfl (fun _ _ => rfl) (fun _ _ => rfl)
      (fun _ _ => by simp [push, emit, setSub, pendN])
  · exact InvN_startLoop (InvN_irrelevant h rfl rfl rfl (fun _ _ => rfl) (fun _ _ => rfl) fun _ _ => rfl)

theorem InvN_callSuccess {tx : V → Except E W} {g i : Nat} {v : V} {hd : Handlers} {s : State V E W}
    (h : InvN s) : InvN (callSuccess tx g i v hd s) := by
  unfold callSuccess
  split <;> split
  · exact InvN_irrelevant h rfl rfl rfl (fun _ _ => rfl) (fun _ _ => rfl)
      (fun _ _ => by simp [push, emit, pendN])
  · exact InvN_runFinally h
  · exact InvN_irrelevant h rfl rfl rfl (fun _ _ => rfl) (fun _ _ => rfl)
      (fun _ _ => by simp [push, emit, pendN])
  · exact InvN_runFinally h

theorem InvN_callError {g i : Nat} {e : E} {hd : Handlers} {s : State V E W}
    (h : InvN s) : InvN (callError g i e hd s) := by
  unfold callError
  split
  · exact InvN_irrelevant h rfl rfl rfl (fun _ _ => rfl) (fun _ _ => rfl)
      (fun _ _ => by simp [push, emit, pendN])
  · exact InvN_runFinally h

theorem InvN_signal {tx : V → Except E W} {g i : Nat} {o : Outcome V E} {s s' : State V E W}
    (h : InvN s) (hs : signal tx g i o s = some s') : InvN s' := by
  have hbase : ∀ f : Sub V E → Sub V E, InvN (setSub (emit s (.called i o)) i f) := fun f =>
    InvN_irrelevant h rfl rfl rfl (fun _ _ => rfl) (fun _ _ => rfl) fun _ _ => rfl
  unfold signal at hs
  split at hs
  · cases hs
  · split at hs
    · injection hs with hs; subst hs
      exact InvN_irrelevant h rfl rfl rfl (fun _ _ => rfl) (fun _ _ => rfl) fun _ _ => rfl
    · cases o <;> simp only at hs <;> injection hs with hs <;> subst hs
      · exact InvN_callSuccess (hbase _)
      · exact InvN_callError (hbase _)
      · exact InvN_runFinally (hbase _)

theorem InvN_addSub {hd : Handlers} {s : State V E W} (h : InvN s) : InvN (addSub hd s) :=
  InvN_irrelevant h rfl rfl rfl (fun _ _ => rfl) (fun _ _ => rfl) fun _ _ => rfl

theorem owed_unregistered {k : Nat} {sg : Signal} {l : List (Ev V E W)} (h : registered k l = false)
    (hn : ∀ s, Ev.regNow k s ∉ l) : owedCalls k sg l = 0 := by
  induction l with
  | nil => rfl
  | cons e l ih =>
    have hn' : ∀ s, Ev.regNow k s ∉ l := fun s hm => hn s (List.mem_cons_of_mem _ hm)
    cases e with
    | reg k' =>
      simp only [registered, Bool.or_eq_false_iff] at h
      simpa [owedCalls] using ih h.2 hn'
    | regNow k' s' =>
      simp only [registered] at h
      have : k' ≠ k := by
        rintro rfl
        exact hn s' List.mem_cons_self
      simp [owedCalls, this, ih h hn']
    | done i s' =>
      simp only [registered] at h
      simp [owedCalls, h, ih h hn']
    | _ => simp only [registered] at h; simpa [owedCalls] using ih h hn'

theorem InvN_notify {g : Nat} {s : State V E W} (h : InvN s) : InvN (notify g s) := by
  have hfresh : s.nextFn ∉ s.callbacks := fun hm => Nat.lt_irrefl _ (h.bound _ hm)
  have hreg : InvN
      { s with nextFn := s.nextFn + 1, callbacks := s.callbacks ++ [s.nextFn], log := .reg s.nextFn :: s.log } := by
    refine ⟨by simp [regs, h.stored], ?_, ?_, h.count⟩
    · rw [List.nodup_append]
      refine ⟨h.nodup, by simp, ?_⟩
      rintro a ha b hb rfl
      simp only [List.mem_singleton] at hb
      exact hfresh (hb ▸ ha)
    · intro k hk
      rcases List.mem_append.mp hk with hk | hk
      · have := h.bound k hk; simp only; omega
      · simp only [List.mem_singleton] at hk; simp only; omega
  unfold notify
  split
  · split
    · refine ⟨by simpa [push, emit, regs] using h.stored, h.nodup, ?_, ?_⟩
      · intro k hk
        have := h.bound k hk
        simp only [push, emit]; omega
      · intro k sg
        have := h.count k sg
        simp only [push, emit, calls, owedCalls, pendN, List.map_cons, List.sum_cons] at this ⊢
        omega
    · exact hreg
  · exact hreg

theorem pendN_drop {k : Nat} {sg : Signal} {a b : List (Nat × Frame)} {x : Nat × Frame} :
    pendN k sg (a ++ x :: b) = pendN k sg (a ++ b) + (match x.2 with
      | .loop s rest => if s = sg then rest.count k else 0
      | _ => 0) := by
  simp only [pendN, List.map_append, List.sum_append, List.map_cons, List.sum_cons]
  omega

theorem InvN_resume {g : Nat} {s s' : State V E W} (h : InvN s) (hs : resume g s = some s') : InvN s' := by
  unfold resume at hs
  split at hs
  · cases hs
  · rename_i f r hpop
    obtain ⟨a, b, hp, rfl⟩ := pop_spec hpop
    have hirr : (∀ s rest, f ≠ .loop s rest) → InvN { s with pending := a ++ b } := by
      intro hf
      refine InvN_irrelevant h rfl rfl rfl (fun _ _ => rfl) (fun _ _ => rfl) ?_
      intro k sg
      simp only [hp, pendN_drop]
      cases f with
      | loop s rest => exact absurd rfl (hf s rest)
      | _ => rfl
    cases f with
    | afterSig j sg =>
      simp only at hs
      split at hs
      · cases hs
      · injection hs with hs; subst hs
        exact InvN_runFinally (hirr (by simp))
    | afterFin j sg =>
      simp only at hs; injection hs with hs; subst hs
      exact InvN_startLoop (hirr (by simp))
    | loop sg rest =>
      simp only at hs; injection hs with hs; subst hs
      refine InvN_runLoop h.stored h.nodup h.bound ?_
      intro k sg'
      have := h.count k sg'
      rw [hp, pendN_drop] at this
      simp only at this ⊢
      omega
    | leaf =>
      simp only at hs; injection hs with hs; subst hs
      exact hirr (by simp)

theorem InvN_step {tx : V → Except E W} {s s' : State V E W} {a : Action V E}
    (h : InvN s) (hs : step tx s a = some s') : InvN s' := by
  cases a with
  | subscribe g hd =>
    simp only [step, subscribe, Option.some.injEq] at hs; subst hs
    exact InvN_irrelevant (InvN_addSub (hd := hd) h) rfl rfl rfl (fun _ _ => rfl) (fun _ _ => rfl)
      (fun _ _ => by simp [push, pendN])
  | notify g => simp only [step, Option.some.injEq] at hs; subst hs; exact InvN_notify h
  | signal g j o => exact InvN_signal h hs
  | ret g => exact InvN_resume h hs

theorem InvN_init : InvN (init : State V E W) :=
  ⟨rfl, List.nodup_nil, by simp [init], by simp [init, calls, owedCalls, pendN]⟩

theorem InvN_run {tx : V → Except E W} (as : List (Action V E)) {s s' : State V E W}
    (h : InvN s) (hs : run tx s as = some s') : InvN s' := by
  induction as generalizing s with
  | nil => simp only [run, Option.some.injEq] at hs; exact hs ▸ h
  | cons a as ih =>
    simp only [run, Option.bind_eq_some_iff] at hs
    obtain ⟨m, h1, h2⟩ := hs
    exact ih (InvN_step h h1) h2

end Iota.Lemmas.Mono
