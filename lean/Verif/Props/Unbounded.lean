import Verif.Model.Unbounded

/-! # C10, C11: the unbounded buffer -/

namespace Iota.Props.Unbounded
open Iota.Unbounded

variable {T : Type}

/-- States that some schedule reaches from a new buffer. -/
def Reach (s : State T) : Prop := ∃ es, run (init T) es = some s

/-- The invariant of the buffer. -/
structure Inv (s : State T) : Prop where
  conserve : s.accepted = s.received ++ s.chan ++ s.backlog
  cap : s.chan.length ≤ 1
  closedDisposed : s.closed = true → s.disposed = true ∧ s.backlog = []
  safe : s.panicked = false
  /-- while nobody owes a `Load`, waiting values show up in the channel -/
  full : s.owed = false → s.backlog ≠ [] → s.chan ≠ []
  /-- while nobody owes a `Load`, a disposed and drained buffer is closed -/
  shut : s.owed = false → s.disposed = true → s.backlog = [] → s.chan = [] →
    s.closed = true ∨ s.hold = .disposeClose
  putSend : ∀ t, s.hold = .putSend t → s.disposed = false ∧ s.backlog = []
  putAppend : ∀ t, s.hold = .putAppend t → s.disposed = false ∧
    (s.backlog = [] → s.owed = false → s.chan ≠ [])
  loadSend : ∀ o, s.hold = .loadSend o → s.backlog ≠ []
  loadClose : ∀ o, s.hold = .loadClose o → s.backlog = [] ∧ s.disposed = true
  dispClose : s.hold = .disposeClose → s.backlog = [] ∧ s.disposed = true

theorem inv_init : Inv (init T) := by
  constructor <;> simp [init]

theorem inv_acquire {s s' : State T} {h : Hold T} (hi : Inv s)
    (hh : h = .dispose ∨ (∃ o, h = .load o) ∨ ∃ t, h = .put t)
    (hs : acquire s h = some s') : Inv s' := by
  obtain ⟨c1, c2, c3, c4, c5, c6, c7, c8, c9, c10, c11⟩ := hi
  unfold acquire at hs
  split at hs
  · injection hs with hs
    subst hs
    constructor <;> grind
  · cases hs

theorem inv_recv {s s' : State T} (hi : Inv s) (hs : step s .recv = some s') : Inv s' := by
  obtain ⟨c1, c2, c3, c4, c5, c6, c7, c8, c9, c10, c11⟩ := hi
  simp only [step] at hs
  split at hs
  · cases hs
  · split at hs
    · injection hs with hs
      subst hs
      constructor <;> grind
    · cases hs

theorem inv_run {s s' : State T} (hi : Inv s) (hs : runHold s = some s') : Inv s' := by
  obtain ⟨c1, c2, c3, c4, c5, c6, c7, c8, c9, c10, c11⟩ := hi
  obtain ⟨chan, closed, backlog, disposed, hold, owed, accepted, rejected, received, panicked⟩ := s
  cases hold <;> cases backlog <;> cases chan <;> cases closed <;> cases disposed <;>
    simp_all [runHold, trySend] <;> (try subst hs) <;> constructor <;> grind

theorem inv_step {s s' : State T} {e : Event T} (hi : Inv s) (hs : step s e = some s') : Inv s' := by
  cases e with
  | callPut t => exact inv_acquire hi (.inr (.inr ⟨t, rfl⟩)) hs
  | callLoad => exact inv_acquire hi (.inr (.inl ⟨_, rfl⟩)) hs
  | ownLoad =>
    simp only [step] at hs
    split at hs
    · exact inv_acquire hi (.inr (.inl ⟨_, rfl⟩)) hs
    · cases hs
  | callDispose => exact inv_acquire hi (.inl rfl) hs
  | run => exact inv_run hi hs
  | recv => exact inv_recv hi hs

theorem inv_runs {s s' : State T} (es : List (Event T)) (hi : Inv s) (hs : run s es = some s') :
    Inv s' := by
  induction es generalizing s with
  | nil => simp only [run, Option.some.injEq] at hs; exact hs ▸ hi
  | cons e es ih =>
    simp only [run, Option.bind_eq_some_iff] at hs
    obtain ⟨m, h1, h2⟩ := hs
    exact ih (inv_step hi h1) h2

theorem inv_reach {s : State T} (h : Reach s) : Inv s := by
  obtain ⟨es, h⟩ := h
  exact inv_runs es inv_init h

theorem run_append {s : State T} (a b : List (Event T)) :
    run s (a ++ b) = (run s a).bind fun s' => run s' b := by
  induction a generalizing s with
  | nil => rfl
  | cons e es ih =>
    simp only [List.cons_append, run]
    cases step s e with
    | none => rfl
    | some m => simp [ih]

/-! ## C10 -/

/-- **C10** Under every schedule of producers, loads, disposals and receives, what the reader has
received so far is the beginning of what was accepted, in the same order and with nothing missing or
repeated; and once the reader has come to rest and finds the channel empty it has received all of it. -/
theorem fifo {s : State T} (h : Reach s) :
    s.received <+: s.accepted ∧
    (s.owed = false → s.chan = [] → s.received = s.accepted) := by
  have hi := inv_reach h
  refine ⟨⟨s.chan ++ s.backlog, by rw [hi.conserve]; simp⟩, fun ho hc => ?_⟩
  have hb : s.backlog = [] := by
    apply Classical.byContradiction
    intro hb
    exact hi.full ho hb hc
  rw [hi.conserve, hc, hb]; simp

/-- Two rounds of the reader's loop with three values put. -/
example : ((run (init Nat) [.callPut 1, .run, .run, .callPut 2, .run, .run, .run, .callPut 3, .run, .run,
    .recv, .ownLoad, .run, .run, .recv]).map
    fun s => (s.received, s.accepted, s.chan, s.backlog)) = some ([1, 2], [1, 2, 3], [], [3]) := by
  decide

/-- **C10** Nothing accepted can be stranded: from any reachable state in which the mutex is free, the
reader running its loop alone (finish the owed load, then receive and load, and so on) ends up with
everything that was accepted. -/
theorem reader_drains {s : State T} (h : Reach s) (hf : s.hold = .none) :
    ∃ es s', run s es = some s' ∧ (∀ e ∈ es, e = .recv ∨ e = .ownLoad ∨ e = .run) ∧
      s'.received = s.accepted ∧ s'.accepted = s.accepted ∧ s'.hold = .none ∧ s'.owed = false := by
  -- finishing the owed load
  have load : ∀ s : State T, Inv s → s.hold = .none → s.owed = true →
      ∃ es s', run s es = some s' ∧ (∀ e ∈ es, e = .recv ∨ e = .ownLoad ∨ e = .run) ∧
        s'.accepted = s.accepted ∧ s'.received = s.received ∧ s'.hold = .none ∧ s'.owed = false := by
    intro s hi hf ho
    obtain ⟨chan, closed, backlog, disposed, hold, owed, accepted, rejected, received, panicked⟩ := s
    simp only at hf ho
    subst hf ho
    refine ⟨[.ownLoad, .run] ++ (if backlog = [] ∧ disposed = false then [] else [.run]), ?_⟩
    have hc := hi.closedDisposed
    cases backlog <;> cases disposed <;> cases closed <;> cases chan <;>
      simp_all [run, step, acquire, runHold, trySend]
  have main : ∀ n, ∀ s : State T, Inv s → s.hold = .none → s.owed = false →
      (s.chan ++ s.backlog).length = n →
      ∃ es s', run s es = some s' ∧ (∀ e ∈ es, e = .recv ∨ e = .ownLoad ∨ e = .run) ∧
        s'.received = s.accepted ∧ s'.accepted = s.accepted ∧ s'.hold = .none ∧ s'.owed = false := by
    intro n
    induction n with
    | zero =>
      intro s hi hf ho hn
      have hz : s.chan = [] ∧ s.backlog = [] := by
        rw [List.length_eq_zero_iff] at hn; simpa using hn
      refine ⟨[], s, rfl, by simp, ?_, rfl, hf, ho⟩
      rw [hi.conserve, hz.1, hz.2]; simp
    | succ n ih =>
      intro s hi hf ho hn
      have hcne : s.chan ≠ [] := by
        intro hc
        apply hi.full ho _ hc
        intro hb; simp [hc, hb] at hn
      obtain ⟨t, rest, hc⟩ := List.exists_cons_of_ne_nil hcne
      have hr : step s .recv = some { s with chan := rest, received := s.received ++ [t], owed := true } := by
        simp [step, ho, hc]
      have hi1 := inv_step hi hr
      obtain ⟨es, s2, h2, hev, hacc, hrec, hh2, ho2⟩ := load _ hi1 hf rfl
      have hi2 := inv_runs es hi1 h2
      have hlen : (s2.chan ++ s2.backlog).length = n := by
        have e1 : s2.accepted.length = s.accepted.length := by rw [hacc]
        have e2 : s2.received.length = s.received.length + 1 := by rw [hrec]; simp
        rw [hi2.conserve, hi.conserve] at e1
        simp only [List.length_append] at e1 hn e2 ⊢
        omega
      obtain ⟨es', s', h3, hev', hr3, ha3, hh3, ho3⟩ := ih s2 hi2 hh2 ho2 hlen
      refine ⟨.recv :: (es ++ es'), s', ?_, ?_, ?_, ?_, hh3, ho3⟩
      · simp only [run, hr, Option.bind_some, run_append, h2]; exact h3
      · intro e he
        rcases List.mem_cons.mp he with rfl | he
        · exact .inl rfl
        · rcases List.mem_append.mp he with he | he
          · exact hev e he
          · exact hev' e he
      · rw [hr3, hacc]
      · rw [ha3, hacc]
  have hi := inv_reach h
  cases ho : s.owed with
  | false => exact main _ s hi hf ho rfl
  | true =>
    obtain ⟨es, s2, h2, hev, hacc, _, hh2, ho2⟩ := load s hi hf ho
    obtain ⟨es', s', h3, hev', hr3, ha3, hh3, ho3⟩ := main _ s2 (inv_runs es hi h2) hh2 ho2 rfl
    refine ⟨es ++ es', s', ?_, ?_, ?_, ?_, hh3, ho3⟩
    · simp only [run_append, h2, Option.bind_some]; exact h3
    · intro e he
      rcases List.mem_append.mp he with he | he
      · exact hev e he
      · exact hev' e he
    · rw [hr3, hacc]
    · rw [ha3, hacc]

/-! ## C11 -/

/-- **C11** After disposal nothing further is accepted and disposal is never undone, whatever happens. -/
theorem no_accept_after_dispose {s s' : State T} (h : Reach s) (hd : s.disposed = true)
    (es : List (Event T)) (hr : run s es = some s') :
    s'.accepted = s.accepted ∧ s'.disposed = true := by
  have key : ∀ (s s' : State T) (e : Event T), Inv s → s.disposed = true → step s e = some s' →
      s'.accepted = s.accepted ∧ s'.disposed = true := by
    intro s s' e hi hd hs
    have h7 := hi.putSend
    have h8 := hi.putAppend
    obtain ⟨chan, closed, backlog, disposed, hold, owed, accepted, rejected, received, panicked⟩ := s
    simp only at hd
    subst hd
    cases e <;> cases hold <;> cases backlog <;> cases chan <;> cases closed <;> cases owed <;>
      simp_all [step, acquire, runHold, trySend] <;> (subst hs; simp)
  have hi := inv_reach h
  clear h
  induction es generalizing s with
  | nil => simp only [run, Option.some.injEq] at hr; subst hr; exact ⟨rfl, hd⟩
  | cons e es ih =>
    simp only [run, Option.bind_eq_some_iff] at hr
    obtain ⟨m, h1, h2⟩ := hr
    obtain ⟨ha, hd'⟩ := key s m e hi hd h1
    obtain ⟨hb, hd''⟩ := ih hd' h2 (inv_step hi h1)
    exact ⟨hb.trans ha, hd''⟩

/-- **C11** No schedule, with any number of `Dispose` calls, makes an operation send on the closed
channel. -/
theorem never_sends_on_closed {s : State T} (h : Reach s) : s.panicked = false :=
  (inv_reach h).safe

/-- **C11** The channel is closed only after disposal, and a reader that sees it closed (closed and
empty) has received every accepted value. -/
theorem closed_means_drained {s : State T} (h : Reach s) (hc : s.closed = true) :
    s.disposed = true ∧ (s.chan = [] → s.received = s.accepted) := by
  have hi := inv_reach h
  obtain ⟨h1, h2⟩ := hi.closedDisposed hc
  refine ⟨h1, fun he => ?_⟩
  rw [hi.conserve, he, h2]; simp

/-- **C11** A reader at rest never waits in vain: if something accepted was not received yet its
receive goes through, and if the buffer was disposed and everything received it sees the channel
closed (once the mutex is free). -/
theorem reader_never_stuck {s : State T} (h : Reach s) (ho : s.owed = false) :
    (s.received ≠ s.accepted → (step s .recv).isSome) ∧
    (s.disposed = true → s.received = s.accepted → s.hold = .none → s.closed = true ∧ s.chan = []) := by
  have hi := inv_reach h
  constructor
  · intro hne
    have hc : s.chan ≠ [] := fun hc => hne ((fifo h).2 ho hc)
    obtain ⟨t, rest, hc⟩ := List.exists_cons_of_ne_nil hc
    simp [step, ho, hc]
  · intro hd he hf
    have := hi.conserve
    rw [← he] at this
    have hz : s.chan = [] ∧ s.backlog = [] := by
      have e : s.received.length = (s.received ++ s.chan ++ s.backlog).length := by rw [← this]
      simp only [List.length_append] at e
      exact ⟨List.length_eq_zero_iff.mp (by omega), List.length_eq_zero_iff.mp (by omega)⟩
    rcases hi.shut ho hd hz.2 hz.1 with h | h
    · exact ⟨h, hz.1⟩
    · rw [hf] at h; cases h

/-- The other order of events, disposal before the backlog is drained: both values still arrive, the
late `Put` is refused and the channel ends up closed. -/
example : ((run (init Nat) [.callPut 1, .run, .run, .callPut 2, .run, .run, .run, .callDispose, .run,
    .callDispose, .run, .callPut 3, .run, .recv, .ownLoad, .run, .run, .recv, .ownLoad, .run, .run]).map
    fun s => (s.received, s.accepted, s.rejected, s.closed)) = some ([1, 2], [1, 2], [3], true) := by
  decide

end Iota.Props.Unbounded
