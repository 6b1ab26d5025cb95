import Verif.Model.Transport
import Verif.Props.Unbounded

/-! # The life of a connection (C87, C88) -/

namespace Iota.Props.Transport
open Iota.Transport
open Iota.Unbounded (Hold)

variable {F : Type}

/-- Connections that some history leads to. -/
def Reach (c : Conn F) : Prop := ∃ es, (Conn.init F).run es = some c

/-- The frame on its way into the buffer. -/
def entering (r : Reader F) (h : Hold F) : List F :=
  match r, h with
  | .put f, _ => [f]
  | _, .put f => [f]
  | _, .putSend f => [f]
  | _, .putAppend f => [f]
  | _, _ => []

/-- The frame being handled. -/
def inHand : Worker F → List F
  | .handling f => [f]
  | _ => []

/-- The mutex is held on behalf of the goroutine that is in the call. -/
def agree (r : Reader F) (w : Worker F) : Hold F → Prop
  | .none => r ≠ .inPut ∧ (∀ o, r ≠ .inDispose o) ∧ w ≠ .inLoad
  | .put _ => r = .inPut ∧ w ≠ .inLoad
  | .putSend _ => r = .inPut ∧ w ≠ .inLoad
  | .putAppend _ => r = .inPut ∧ w ≠ .inLoad
  | .load o => r ≠ .inPut ∧ (∀ o, r ≠ .inDispose o) ∧ w = .inLoad ∧ o = true
  | .loadSend o => r ≠ .inPut ∧ (∀ o, r ≠ .inDispose o) ∧ w = .inLoad ∧ o = true
  | .loadClose o => r ≠ .inPut ∧ (∀ o, r ≠ .inDispose o) ∧ w = .inLoad ∧ o = true
  | .dispose => (∃ o, r = .inDispose o) ∧ w ≠ .inLoad
  | .disposeClose => (∃ o, r = .inDispose o) ∧ w ≠ .inLoad

/-- The worker has received a frame and not yet finished the call of `Load` for it. -/
def busy : Worker F → Bool
  | .recv | .done | .ended => false
  | _ => true

/-- The reader is still in its loop. -/
def looping : Reader F → Bool
  | .top | .reading | .put _ | .inPut => true
  | _ => false

/-- The reader has not called `Dispose` yet. -/
def before : Reader F → Bool
  | .top | .reading | .put _ | .inPut | .dispose _ => true
  | _ => false

/-- The reader has seen the end of the worker. -/
def after : Reader F → Bool
  | .close _ | .returned _ => true
  | _ => false

structure Inv (c : Conn F) : Prop where
  buf : Unbounded.Inv c.buf
  read : c.read = c.buf.accepted ++ entering c.reader c.buf.hold
  handled : c.handled ++ inHand c.worker = c.buf.received
  agree : agree c.reader c.worker c.buf.hold
  owed : c.buf.owed = busy c.worker
  open_ : before c.reader = true → c.buf.disposed = false
  shut : before c.reader = false → c.buf.disposed = true ∨ c.buf.hold = .dispose
  ended : c.worker = .done ∨ c.worker = .ended → c.buf.closed = true ∧ c.buf.chan = []
  done : c.doneChan = true → c.worker = .ended ∧ after c.reader = false
  over : c.worker = .ended → c.doneChan = true ∨ after c.reader = true
  after : after c.reader = true → c.worker = .ended
  once : c.closes = if c.once then 1 else 0
  closed : (∃ o, c.reader = .returned o) → c.once = true

theorem inv_init : Inv (Conn.init F) := by
  constructor <;> simp [Conn.init, Unbounded.init, entering, inHand, agree, busy, before, after] <;> try exact Unbounded.inv_init

theorem inv_doClose {c : Conn F} (h : Inv c) : Inv c.doClose := by
  obtain ⟨h1, h2, h3, h4, h5, h6, h7, h8, h9, h10, h11, h12, h13⟩ := h
  unfold Conn.doClose
  split
  · exact ⟨h1, h2, h3, h4, h5, h6, h7, h8, h9, h10, h11, h12, h13⟩
  · refine ⟨h1, h2, h3, h4, h5, h6, h7, h8, h9, h10, h11, ?_, ?_⟩
    · simp_all
    · simp

theorem agree_none {r : Reader F} {w : Worker F} {h : Hold F} (ha : agree r w h) (h1 : r ≠ .inPut)
    (h2 : ∀ o, r ≠ .inDispose o) : h = .none ∨ (∃ o, h = .load o) ∨ (∃ o, h = .loadSend o) ∨ ∃ o, h = .loadClose o := by
  cases h <;> simp_all [agree]

theorem agree_reader {r r' : Reader F} {w : Worker F} {h : Hold F} (ha : agree r w h) (h1 : r ≠ .inPut)
    (h2 : ∀ o, r ≠ .inDispose o) (h3 : r' ≠ .inPut) (h4 : ∀ o, r' ≠ .inDispose o) : agree r' w h := by
  cases h <;> simp_all [agree]

theorem entering_none {r : Reader F} {w : Worker F} {h : Hold F} (ha : agree r w h) (h1 : r ≠ .inPut)
    (h2 : ∀ o, r ≠ .inDispose o) (h3 : ∀ f, r ≠ .put f) : entering r h = [] := by
  rcases agree_none ha h1 h2 with e | ⟨o, e⟩ | ⟨o, e⟩ | ⟨o, e⟩ <;> subst e <;> cases r <;> first | rfl | exact absurd rfl (h3 _)

/-- The reader goes from one place to another without touching the buffer. -/
theorem inv_move {c : Conn F} (h : Inv c) (r : Reader F) (h1 : c.reader ≠ .inPut) (h2 : ∀ o, c.reader ≠ .inDispose o)
    (h3 : r ≠ .inPut) (h4 : ∀ o, r ≠ .inDispose o) (hp : ∀ f, c.reader ≠ .put f) (hp' : ∀ f, r ≠ .put f)
    (hb : before r = before c.reader) (ha : after r = after c.reader) (hc : ∀ o, r ≠ .returned o) :
    Inv { c with reader := r } := by
  obtain ⟨i1, i2, i3, i4, i5, i6, i7, i8, i9, i10, i11, i12, i13⟩ := h
  refine ⟨i1, ?_, i3, agree_reader i4 h1 h2 h3 h4, i5, ?_, ?_, i8, ?_, ?_, ?_, i12, ?_⟩
  · rw [entering_none i4 h1 h2 hp] at i2
    rw [entering_none (agree_reader i4 h1 h2 h3 h4) h3 h4 hp']
    exact i2
  · simpa only [hb] using i6
  · simpa only [hb] using i7
  · simpa only [ha] using i9
  · simpa only [ha] using i10
  · simpa only [ha] using i11
  · rintro ⟨o, e⟩; exact absurd e (hc o)

theorem inv_flags {c : Conn F} (h : Inv c) (e x : Bool) : Inv { c with errChan := e, cancelled := x } := by
  obtain ⟨i1, i2, i3, i4, i5, i6, i7, i8, i9, i10, i11, i12, i13⟩ := h
  exact ⟨i1, i2, i3, i4, i5, i6, i7, i8, i9, i10, i11, i12, i13⟩

theorem callable {s s' : Unbounded.State F} {h : Hold F} (hs : Unbounded.acquire s h = some s') :
    s.hold = .none ∧ s' = { s with hold := h } := by
  unfold Unbounded.acquire at hs
  split at hs
  · exact ⟨by assumption, (Option.some.inj hs).symm⟩
  · cases hs

theorem inv_reader {c c' : Conn F} {r : ReadRes F} (h : Inv c) (hs : c.stepReader r = some c') : Inv c' := by
  cases hr : c.reader with
  | top =>
    simp only [Conn.stepReader, hr] at hs
    split at hs
    · injection hs with hs; subst hs
      apply inv_move h <;> simp [hr, before, after]
    · split at hs
      · injection hs with hs; subst hs
        exact inv_move (c := { c with errChan := false }) (inv_flags h false c.cancelled) _ (by simp [hr]) (by simp [hr])
          (by simp) (by simp) (by simp [hr]) (by simp) (by simp [hr, before]) (by simp [hr, after]) (by simp)
      · injection hs with hs; subst hs
        apply inv_move h <;> simp [hr, before, after]
  | reading =>
    simp only [Conn.stepReader, hr] at hs
    split at hs
    · injection hs with hs; subst hs
      rename_i f
      obtain ⟨i1, i2, i3, i4, i5, i6, i7, i8, i9, i10, i11, i12, i13⟩ := h
      refine ⟨i1, ?_, i3, agree_reader i4 (by simp [hr]) (by simp [hr]) (by simp) (by simp), i5, ?_, ?_, i8, ?_, ?_, ?_, i12, ?_⟩
      · rcases agree_none i4 (by simp [hr]) (by simp [hr]) with e | ⟨o, e⟩ | ⟨o, e⟩ | ⟨o, e⟩ <;> simp only [e] at i2 ⊢ <;>
          rw [i2] <;> simp_all [entering]
      all_goals simp_all [before, after]
    · injection hs with hs; subst hs
      apply inv_move h <;> simp [hr, before, after]
    · injection hs with hs; subst hs
      apply inv_move h <;> simp [hr, before, after]
  | put f =>
    simp only [Conn.stepReader, hr, Unbounded.step, Option.map_eq_some_iff] at hs
    obtain ⟨b, hb, rfl⟩ := hs
    obtain ⟨hn, rfl⟩ := callable hb
    obtain ⟨i1, i2, i3, i4, i5, i6, i7, i8, i9, i10, i11, i12, i13⟩ := h
    refine ⟨Unbounded.inv_acquire i1 (.inr (.inr ⟨f, rfl⟩)) hb, ?_, i3, ?_, i5, ?_, ?_, i8, ?_, ?_, ?_, i12, ?_⟩
    · simp only [i2, hr, hn, entering]
    · simp_all [agree]
    all_goals simp_all [before, after]
  | inPut => simp [Conn.stepReader, hr] at hs
  | dispose o =>
    simp only [Conn.stepReader, hr, Unbounded.step, Option.map_eq_some_iff] at hs
    obtain ⟨b, hb, rfl⟩ := hs
    obtain ⟨hn, rfl⟩ := callable hb
    obtain ⟨i1, i2, i3, i4, i5, i6, i7, i8, i9, i10, i11, i12, i13⟩ := h
    refine ⟨Unbounded.inv_acquire i1 (.inl rfl) hb, ?_, i3, ?_, i5, ?_, ?_, i8, ?_, ?_, ?_, i12, ?_⟩
    · simp only [i2, hr, hn, entering]
    · simp_all [agree]
    all_goals simp_all [before, after]
  | inDispose o => simp [Conn.stepReader, hr] at hs
  | wait o =>
    simp only [Conn.stepReader, hr] at hs
    split at hs
    · injection hs with hs; subst hs
      rename_i hd
      obtain ⟨i1, i2, i3, i4, i5, i6, i7, i8, i9, i10, i11, i12, i13⟩ := h
      refine ⟨i1, ?_, i3, agree_reader i4 (by simp [hr]) (by simp [hr]) (by simp) (by simp), i5, ?_, ?_, i8, ?_, ?_, ?_, i12, ?_⟩
      · rcases agree_none i4 (by simp [hr]) (by simp [hr]) with e | ⟨o, e⟩ | ⟨o, e⟩ | ⟨o, e⟩ <;> simp only [e] at i2 ⊢ <;>
          rw [i2] <;> simp_all [entering]
      all_goals simp_all [before, after]
    · cases hs
  | close o =>
    simp only [Conn.stepReader, hr] at hs
    injection hs with hs; subst hs
    have e : c.doClose.reader = .close o := by unfold Conn.doClose; split <;> simp [hr]
    have e2 : c.doClose.once = true := by unfold Conn.doClose; split <;> simp_all
    obtain ⟨i1, i2, i3, i4, i5, i6, i7, i8, i9, i10, i11, i12, i13⟩ := inv_doClose h
    refine ⟨i1, ?_, i3, agree_reader i4 (by simp [e]) (by simp [e]) (by simp) (by simp), i5, ?_, ?_, i8, ?_, ?_, ?_, i12, ?_⟩
    · rcases agree_none i4 (by simp [e]) (by simp [e]) with e' | ⟨o, e'⟩ | ⟨o, e'⟩ | ⟨o, e'⟩ <;> simp only [e'] at i2 ⊢ <;>
        rw [i2] <;> simp_all [entering]
    all_goals simp_all [before, after]
  | returned o => simp [Conn.stepReader, hr] at hs

theorem inv_worker {c c' : Conn F} {b : Bool} (h : Inv c) (hs : c.stepWorker b = some c') : Inv c' := by
  cases hw : c.worker with
  | recv =>
    simp only [Conn.stepWorker, hw] at hs
    split at hs
    · rename_i f fs hf
      rw [Option.map_eq_some_iff] at hs
      obtain ⟨b', hb, rfl⟩ := hs
      obtain ⟨i1, i2, i3, i4, i5, i6, i7, i8, i9, i10, i11, i12, i13⟩ := h
      have i1' := Unbounded.inv_step i1 hb
      have ho : c.buf.owed = false := by rw [i5, hw]; rfl
      simp only [Unbounded.step, ho, hf, Bool.false_eq_true, if_false, Option.some.injEq] at hb
      subst hb
      refine ⟨i1', i2, ?_, ?_, rfl, i6, i7, ?_, ?_, ?_, ?_, i12, i13⟩
      · simp_all [inHand]
      · cases hh : c.buf.hold <;> simp_all [agree]
      all_goals simp_all
    · split at hs
      · injection hs with hs; subst hs
        obtain ⟨i1, i2, i3, i4, i5, i6, i7, i8, i9, i10, i11, i12, i13⟩ := h
        refine ⟨i1, i2, ?_, ?_, ?_, i6, i7, ?_, ?_, ?_, ?_, i12, i13⟩
        · simp_all [inHand]
        · cases hh : c.buf.hold <;> simp_all [agree]
        · simp_all [busy]
        all_goals simp_all
      · cases hs
  | handling f =>
    simp only [Conn.stepWorker, hw] at hs
    injection hs with hs; subst hs
    obtain ⟨i1, i2, i3, i4, i5, i6, i7, i8, i9, i10, i11, i12, i13⟩ := h
    refine ⟨i1, i2, ?_, ?_, ?_, i6, i7, ?_, ?_, ?_, ?_, i12, i13⟩
    · cases b <;> simp_all [inHand]
    · cases hh : c.buf.hold <;> cases b <;> simp_all [agree]
    · cases b <;> simp_all [busy]
    all_goals cases b <;> simp_all
  | offer =>
    simp only [Conn.stepWorker, hw] at hs
    injection hs with hs; subst hs
    obtain ⟨i1, i2, i3, i4, i5, i6, i7, i8, i9, i10, i11, i12, i13⟩ := h
    refine ⟨i1, i2, ?_, ?_, ?_, i6, i7, ?_, ?_, ?_, ?_, i12, i13⟩
    · simp_all [inHand]
    · cases hh : c.buf.hold <;> simp_all [agree]
    · simp_all [busy]
    all_goals simp_all
  | load =>
    simp only [Conn.stepWorker, hw, Unbounded.step] at hs
    rw [Option.map_eq_some_iff] at hs
    obtain ⟨b', hb, rfl⟩ := hs
    split at hb
    · obtain ⟨hn, rfl⟩ := callable hb
      obtain ⟨i1, i2, i3, i4, i5, i6, i7, i8, i9, i10, i11, i12, i13⟩ := h
      refine ⟨Unbounded.inv_acquire i1 (.inr (.inl ⟨_, rfl⟩)) hb, ?_, ?_, ?_, ?_, i6, ?_, ?_, ?_, ?_, ?_, i12, i13⟩
      · simp only [i2, hn]
        cases c.reader <;> simp [entering]
      · simp_all [inHand]
      · simp_all [agree]
      · simp_all [busy]
      all_goals simp_all
    · cases hb
  | inLoad => simp [Conn.stepWorker, hw] at hs
  | done =>
    simp only [Conn.stepWorker, hw] at hs
    split at hs
    · cases hs
    · injection hs with hs; subst hs
      obtain ⟨i1, i2, i3, i4, i5, i6, i7, i8, i9, i10, i11, i12, i13⟩ := h
      refine ⟨i1, i2, ?_, ?_, ?_, i6, i7, ?_, ?_, ?_, ?_, i12, i13⟩
      · simp_all [inHand]
      · cases hh : c.buf.hold <;> simp_all [agree]
      · simp_all [busy]
      all_goals simp_all
  | ended => simp [Conn.stepWorker, hw] at hs

theorem inv_mutex {c c' : Conn F} (h : Inv c) (hs : c.stepMutex = some c') : Inv c' := by
  unfold Conn.stepMutex at hs
  split at hs
  · cases hs
  rename_i b hb
  have i1' := Unbounded.inv_step h.buf hb
  obtain ⟨buf, reader, worker, errChan, doneChan, cancelled, once, closes, read, handled⟩ := c
  obtain ⟨chan, closed, backlog, disposed, hold, owed, accepted, rejected, received, panicked⟩ := buf
  obtain ⟨i1, i2, i3, i4, i5, i6, i7, i8, i9, i10, i11, i12, i13⟩ := h
  simp only [Unbounded.step] at *
  have q := i1.safe
  have q2 := i1.closedDisposed
  have q3 := i1.putSend
  have q4 := i1.putAppend
  have q5 := i1.loadSend
  have q6 := i1.loadClose
  have q7 := i1.dispClose
  clear i1
  cases hold with
  | none => simp [Unbounded.runHold] at hb
  | put t =>
    obtain ⟨rfl, hw⟩ := i4
    have hd : disposed = false := i6 rfl
    subst hd
    cases backlog <;> simp [Unbounded.runHold] at hb <;> subst hb <;> simp only at hs <;> cases hs <;>
      exact ⟨i1', by simpa [entering] using i2, i3, ⟨rfl, hw⟩, i5, i6, by simp [before], i8, i9, i10, i11, i12, i13⟩
  | putSend t =>
    obtain ⟨rfl, hw⟩ := i4
    have hd : disposed = false := i6 rfl
    subst hd
    have hc : closed = false := by cases closed <;> simp_all
    subst hc
    have hn : ¬ (worker = .done ∨ worker = .ended) := fun e => by simpa using (i8 e).1
    cases chan with
    | nil =>
      simp [Unbounded.runHold, Unbounded.trySend] at hb
      subst hb
      simp only [back] at hs
      cases hs
      refine ⟨i1', by simpa [entering] using i2, i3, ?_, i5, i6, by simp [before], fun e => absurd e hn, ?_, ?_, ?_, i12, ?_⟩
      · simp [agree, hw]
      all_goals simp_all [after]
    | cons a l =>
      simp [Unbounded.runHold, Unbounded.trySend] at hb
      subst hb
      simp only at hs
      cases hs
      exact ⟨i1', by simpa [entering] using i2, i3, ⟨rfl, hw⟩, i5, i6, by simp [before], i8, i9, i10, i11, i12, i13⟩
  | putAppend t =>
    obtain ⟨rfl, hw⟩ := i4
    simp [Unbounded.runHold] at hb
    subst hb
    simp only [back] at hs
    cases hs
    refine ⟨i1', by simpa [entering] using i2, i3, ?_, i5, i6, by simp [before], i8, ?_, ?_, ?_, i12, ?_⟩
    · simp [agree, hw]
    all_goals simp_all [after]
  | load o =>
    obtain ⟨h1, h2, rfl, rfl⟩ := i4
    have e : ∀ h, (h = .none ∨ (∃ o, h = .load o) ∨ (∃ o, h = .loadSend o) ∨ ∃ o, h = .loadClose o) →
        entering reader h = entering reader (.load true) := by
      rintro h (e | ⟨o, e⟩ | ⟨o, e⟩ | ⟨o, e⟩) <;> subst e <;> cases reader <;> rfl
    cases backlog with
    | nil =>
      cases disposed with
      | true =>
        simp [Unbounded.runHold] at hb
        subst hb
        simp only at hs
        cases hs
        exact ⟨i1', by rw [i2, ← e]; simp, i3, ⟨h1, h2, rfl, rfl⟩, i5, i6, by simp, i8, i9, i10, i11, i12, i13⟩
      | false =>
        simp [Unbounded.runHold] at hb
        subst hb
        simp only at hs
        cases hs
        refine ⟨i1', by rw [i2, ← e]; simp, i3, ⟨h1, h2, by simp⟩, by simp [busy], i6, ?_, ?_, ?_, ?_, ?_, i12, i13⟩
        all_goals simp_all
    | cons a l =>
      simp [Unbounded.runHold] at hb
      subst hb
      simp only at hs
      cases hs
      exact ⟨i1', by rw [i2, ← e]; simp, i3, ⟨h1, h2, rfl, rfl⟩, i5, i6, by simpa using i7, i8, i9, i10, i11, i12, i13⟩
  | loadSend o =>
    obtain ⟨h1, h2, rfl, rfl⟩ := i4
    have e : entering reader .none = entering reader (.loadSend true) := by cases reader <;> rfl
    cases backlog with
    | nil => simp [Unbounded.runHold] at hb
    | cons a l =>
      have hc : closed = false := by cases closed <;> simp_all
      subst hc
      cases chan with
      | nil =>
        simp [Unbounded.runHold, Unbounded.trySend] at hb
        subst hb
        simp only at hs
        cases hs
        refine ⟨i1', by rw [i2, ← e], i3, ⟨h1, h2, by simp⟩, by simp [busy], i6, ?_, ?_, ?_, ?_, ?_, i12, i13⟩
        all_goals simp_all
      | cons a' l' =>
        simp [Unbounded.runHold, Unbounded.trySend] at hb
        subst hb
        simp only at hs
        cases hs
        refine ⟨i1', by rw [i2, ← e], i3, ⟨h1, h2, by simp⟩, by simp [busy], i6, ?_, ?_, ?_, ?_, ?_, i12, i13⟩
        all_goals simp_all
  | loadClose o =>
    obtain ⟨h1, h2, rfl, rfl⟩ := i4
    have e : entering reader .none = entering reader (.loadClose true) := by cases reader <;> rfl
    simp [Unbounded.runHold] at hb
    subst hb
    simp only at hs
    cases hs
    refine ⟨i1', by rw [i2, ← e], i3, ⟨h1, h2, by simp⟩, by simp [busy], i6, ?_, ?_, ?_, ?_, ?_, i12, i13⟩
    all_goals simp_all
  | dispose =>
    obtain ⟨⟨o, rfl⟩, hw⟩ := i4
    cases backlog with
    | nil =>
      simp [Unbounded.runHold] at hb
      subst hb
      simp only at hs
      cases hs
      exact ⟨i1', by simpa [entering] using i2, i3, ⟨⟨o, rfl⟩, hw⟩, i5, by simp [before], by simp, i8, i9, i10, i11, i12, i13⟩
    | cons a l =>
      simp [Unbounded.runHold] at hb
      subst hb
      simp only [back] at hs
      cases hs
      refine ⟨i1', by simpa [entering] using i2, i3, ?_, i5, by simp [before], by simp, i8, ?_, ?_, ?_, i12, ?_⟩
      · simp [agree, hw]
      all_goals simp_all [after]
  | disposeClose =>
    obtain ⟨⟨o, rfl⟩, hw⟩ := i4
    simp [Unbounded.runHold] at hb
    subst hb
    simp only [back] at hs
    cases hs
    refine ⟨i1', by simpa [entering] using i2, i3, ?_, i5, by simp [before], ?_, ?_, ?_, ?_, ?_, i12, ?_⟩
    · simp [agree, hw]
    all_goals simp_all [after]

theorem inv_step {c c' : Conn F} {e : Ev F} (h : Inv c) (hs : c.step e = some c') : Inv c' := by
  cases e with
  | cancel =>
    simp only [Conn.step, Option.some.injEq] at hs
    subst hs
    exact inv_flags h c.errChan true
  | close =>
    simp only [Conn.step, Option.some.injEq] at hs
    subst hs
    exact inv_doClose h
  | reader r => exact inv_reader h hs
  | readerErr =>
    simp only [Conn.step] at hs
    split at hs
    · rename_i hr
      split at hs
      · injection hs with hs; subst hs
        exact inv_move (c := { c with errChan := false }) (inv_flags h false c.cancelled) _ (by simp [hr]) (by simp [hr])
          (by simp) (by simp) (by simp [hr]) (by simp) (by simp [hr, before]) (by simp [hr, after]) (by simp)
      · cases hs
    · cases hs
  | worker b => exact inv_worker h hs
  | mutex => exact inv_mutex h hs

theorem inv_run {c c' : Conn F} (es : List (Ev F)) (h : Inv c) (hs : c.run es = some c') : Inv c' := by
  induction es generalizing c with
  | nil => simp only [Conn.run, Option.some.injEq] at hs; exact hs ▸ h
  | cons e es ih =>
    simp only [Conn.run, Option.bind_eq_some_iff] at hs
    obtain ⟨m, h1, h2⟩ := hs
    exact ih (inv_step h h1) h2

theorem inv_reach {c : Conn F} (h : Reach c) : Inv c := by
  obtain ⟨es, h⟩ := h
  exact inv_run es inv_init h

/-! ## C87 -/

/-- **C87** Whatever happens, in whatever order: the frames handled so far are the first of those read, in the order in
which they were read and each once; and when `Start` returns, for whatever reason, all of them have been handled. -/
theorem frames_handled {c : Conn F} (h : Reach c) :
    c.handled <+: c.read ∧ ∀ o, c.reader = .returned o → c.handled = c.read := by
  have hi := inv_reach h
  refine ⟨?_, fun o ho => ?_⟩
  · rw [hi.read, hi.buf.conserve, ← hi.handled]
    simp only [List.append_assoc]
    exact List.prefix_append _ _
  · have hw := hi.after (by rw [ho]; rfl)
    obtain ⟨h1, h2⟩ := hi.ended (.inr hw)
    have h3 := (hi.buf.closedDisposed h1).2
    have h4 := hi.handled
    rw [hi.read, hi.buf.conserve, h2, h3, ← h4, hw]
    rw [entering_none hi.agree (by simp [ho]) (by simp [ho]) (by simp [ho])]
    simp [inHand]

/-- Two frames, the second of which comes while the first is handled; then the peer closes the connection. -/
def twoFrames : List (Ev Nat) :=
  [.reader .eof, .reader (.frame 1), .reader .eof, .mutex, .mutex, .worker false, .reader .eof, .reader (.frame 2),
    .reader .eof, .mutex, .mutex, .reader .eof, .reader .eof, .reader .eof, .mutex, .mutex, .worker false, .worker false, .mutex,
    .mutex, .worker false, .worker false, .worker false, .mutex, .mutex, .worker false, .worker false, .reader .eof, .reader .eof]

example : ((Conn.init Nat).run twoFrames).map (fun c => (c.reader, c.handled, c.read, c.closes)) =
    some (.returned .nil, [1, 2], [1, 2], 1) := by decide

/-! ## C88 -/

/-- **C88** The underlying connection is closed at most once, and it is closed when `Start` returns. -/
theorem closed_once {c : Conn F} (h : Reach c) :
    c.closes ≤ 1 ∧ ∀ o, c.reader = .returned o → c.closes = 1 := by
  have hi := inv_reach h
  refine ⟨by rw [hi.once]; split <;> omega, fun o ho => ?_⟩
  rw [hi.once, hi.closed ⟨o, ho⟩]; rfl

/-- What `Start` will return, once it has left its loop. -/
def leaving : Reader F → Option Outcome
  | .dispose o | .inDispose o | .wait o | .close o | .returned o => some o
  | _ => none

/-- A step of one of the two goroutines, as opposed to something from outside. -/
def own : Ev F → Bool
  | .cancel | .close => false
  | _ => true

/-- **C88** Neither goroutine ever waits in vain: until `Start` has returned one of the two can go on (the
reader, while it waits for the peer, when the read returns). -/
theorem never_stuck {c : Conn F} (h : Reach c) (hr : ∀ o, c.reader ≠ .returned o) :
    ∃ e, own e = true ∧ (c.step e).isSome := by
  have hi := inv_reach h
  by_cases hh : c.buf.hold = .none
  · have ha := hi.agree
    rw [hh] at ha
    obtain ⟨a1, a2, a3⟩ := ha
    cases er : c.reader with
    | top => exact ⟨.reader .eof, rfl, by
        simp only [Conn.step, Conn.stepReader, er]
        split
        · rfl
        · split <;> rfl⟩
    | reading => exact ⟨.reader .eof, rfl, by simp [Conn.step, Conn.stepReader, er]⟩
    | put f => exact ⟨.reader .eof, rfl, by simp [Conn.step, Conn.stepReader, er, Unbounded.step, Unbounded.acquire, hh]⟩
    | inPut => exact absurd er a1
    | dispose o => exact ⟨.reader .eof, rfl, by simp [Conn.step, Conn.stepReader, er, Unbounded.step, Unbounded.acquire, hh]⟩
    | inDispose o => exact absurd er (a2 o)
    | close o => exact ⟨.reader .eof, rfl, by simp [Conn.step, Conn.stepReader, er]⟩
    | returned o => exact absurd er (hr o)
    | wait o =>
      by_cases hd : c.doneChan = true
      · exact ⟨.reader .eof, rfl, by simp [Conn.step, Conn.stepReader, er, hd]⟩
      · refine ⟨.worker false, rfl, ?_⟩
        simp only [Conn.step]
        cases ew : c.worker with
        | recv =>
          have ho : c.buf.owed = false := by rw [hi.owed, ew]; rfl
          cases ec : c.buf.chan with
          | cons f l => simp [Conn.stepWorker, ew, ec, Unbounded.step, ho]
          | nil =>
            have hd : c.buf.disposed = true := by
              rcases hi.shut (by rw [er]; rfl) with h | h
              · exact h
              · rw [hh] at h; cases h
            have hb : c.buf.backlog = [] := Classical.byContradiction fun hb => hi.buf.full ho hb ec
            have hc : c.buf.closed = true := by
              rcases hi.buf.shut ho hd hb ec with h | h
              · exact h
              · rw [hh] at h; cases h
            simp [Conn.stepWorker, ew, ec, hc]
        | handling f => simp [Conn.stepWorker, ew]
        | offer => simp [Conn.stepWorker, ew]
        | load =>
          have ho : c.buf.owed = true := by rw [hi.owed, ew]; rfl
          simp [Conn.stepWorker, ew, Unbounded.step, ho, Unbounded.acquire, hh]
        | inLoad => exact absurd ew a3
        | done => simp [Conn.stepWorker, ew, hd]
        | ended =>
          rcases hi.over ew with h | h
          · exact absurd h hd
          · rw [er] at h; cases h
  · refine ⟨.mutex, rfl, ?_⟩
    have hb : ∃ b, Unbounded.step c.buf .run = some b := by
      have q := hi.buf.loadSend
      simp only [Unbounded.step, Unbounded.runHold]
      split
      · exact absurd (by assumption) hh
      · split
        · exact ⟨_, rfl⟩
        · split <;> exact ⟨_, rfl⟩
      · exact ⟨_, rfl⟩
      · exact ⟨_, rfl⟩
      · split
        · exact ⟨_, rfl⟩
        · split <;> exact ⟨_, rfl⟩
      · split
        · exact ⟨_, rfl⟩
        · exact absurd (by assumption) (q _ (by assumption))
      · exact ⟨_, rfl⟩
      · split <;> exact ⟨_, rfl⟩
      · exact ⟨_, rfl⟩
    obtain ⟨b, hb⟩ := hb
    simp only [Conn.step, Conn.stepMutex, hb]
    split
    · split <;> rfl
    · rfl

def readerWeight : Reader F → Nat
  | .dispose _ => 5
  | .inDispose _ => 3
  | .wait _ => 2
  | .close _ => 1
  | _ => 0

def workerWeight : Worker F → Nat
  | .handling _ => 8
  | .offer => 7
  | .load => 6
  | .inLoad => 4
  | .recv => 2
  | .done => 1
  | .ended => 0

def holdWeight : Hold F → Nat
  | .load _ | .dispose => 1
  | _ => 0

/-- How many steps the goroutines can still do after the reader has left its loop. -/
def weight (c : Conn F) : Nat :=
  readerWeight c.reader + workerWeight c.worker + holdWeight c.buf.hold + 8 * (c.buf.chan.length + c.buf.backlog.length)

theorem weight_reader {c c' : Conn F} {r : ReadRes F} {o : Outcome} (hi : Inv c) (hl : leaving c.reader = some o)
    (hs : c.stepReader r = some c') : leaving c'.reader = some o ∧ weight c' < weight c := by
  cases hr : c.reader <;> simp only [hr, leaving, Option.some.injEq, reduceCtorEq] at hl <;>
    simp only [Conn.stepReader, hr, reduceCtorEq] at hs
  · rw [Option.map_eq_some_iff] at hs
    obtain ⟨b, hb, rfl⟩ := hs
    obtain ⟨hn, rfl⟩ := callable hb
    exact ⟨by simp [leaving, hl], by simp only [weight, hr, readerWeight, hn, holdWeight]; omega⟩
  · split at hs
    · injection hs with hs; subst hs
      exact ⟨by simp [leaving, hl], by simp only [weight, hr, readerWeight]; omega⟩
    · cases hs
  · injection hs with hs; subst hs
    have e : c.doClose.worker = c.worker ∧ c.doClose.buf = c.buf := by unfold Conn.doClose; split <;> simp
    exact ⟨by simp [leaving, hl], by simp only [weight, hr, readerWeight, e.1, e.2]; omega⟩

theorem weight_worker {c c' : Conn F} {b : Bool} {o : Outcome} (hi : Inv c) (hl : leaving c.reader = some o)
    (hs : c.stepWorker b = some c') : leaving c'.reader = some o ∧ weight c' < weight c := by
  cases hw : c.worker with
  | recv =>
    simp only [Conn.stepWorker, hw] at hs
    have ho : c.buf.owed = false := by rw [hi.owed, hw]; rfl
    split at hs
    · rename_i f fs hf
      simp only [Unbounded.step, ho, hf, Bool.false_eq_true, if_false, Option.map_some, Option.some.injEq] at hs
      subst hs
      exact ⟨hl, by simp only [weight, hw, workerWeight, hf, List.length_cons]; omega⟩
    · split at hs
      · injection hs with hs; subst hs
        exact ⟨hl, by simp only [weight, hw, workerWeight]; omega⟩
      · cases hs
  | handling f =>
    simp only [Conn.stepWorker, hw, Option.some.injEq] at hs
    subst hs
    refine ⟨hl, ?_⟩
    cases b <;> simp only [weight, hw, workerWeight, Bool.false_eq_true, if_false, if_true] <;> omega
  | offer =>
    simp only [Conn.stepWorker, hw, Option.some.injEq] at hs
    subst hs
    exact ⟨hl, by simp only [weight, hw, workerWeight]; omega⟩
  | load =>
    simp only [Conn.stepWorker, hw, Unbounded.step] at hs
    rw [Option.map_eq_some_iff] at hs
    obtain ⟨b', hb, rfl⟩ := hs
    split at hb
    · obtain ⟨hn, rfl⟩ := callable hb
      exact ⟨hl, by simp only [weight, hw, workerWeight, hn, holdWeight]; omega⟩
    · cases hb
  | inLoad => simp [Conn.stepWorker, hw] at hs
  | done =>
    simp only [Conn.stepWorker, hw] at hs
    split at hs
    · cases hs
    · injection hs with hs; subst hs
      exact ⟨hl, by simp only [weight, hw, workerWeight]; omega⟩
  | ended => simp [Conn.stepWorker, hw] at hs

theorem weight_mutex {c c' : Conn F} {o : Outcome} (hi : Inv c) (hl : leaving c.reader = some o)
    (hs : c.stepMutex = some c') : leaving c'.reader = some o ∧ weight c' < weight c := by
  have ha := hi.agree
  unfold Conn.stepMutex at hs
  split at hs
  · cases hs
  rename_i b hb
  have hc : ∀ o, c.buf.hold = .loadSend o → c.buf.closed = false := by
    intro o ho
    have := hi.buf.loadSend o ho
    have q := hi.buf.closedDisposed
    cases h : c.buf.closed
    · rfl
    · exact absurd (q h).2 this
  obtain ⟨buf, reader, worker, errChan, doneChan, cancelled, once, closes, read, handled⟩ := c
  obtain ⟨chan, closed, backlog, disposed, hold, owed, accepted, rejected, received, panicked⟩ := buf
  simp only [Unbounded.step] at hs hb ha hl hc ⊢
  cases hold with
  | none => simp [Unbounded.runHold] at hb
  | put t => obtain ⟨rfl, _⟩ := ha; cases hl
  | putSend t => obtain ⟨rfl, _⟩ := ha; cases hl
  | putAppend t => obtain ⟨rfl, _⟩ := ha; cases hl
  | load o' =>
    obtain ⟨_, _, rfl, rfl⟩ := ha
    cases backlog <;> cases disposed <;> simp [Unbounded.runHold] at hb <;> subst hb <;> simp only at hs <;> cases hs <;>
      refine ⟨hl, ?_⟩ <;> simp only [weight, workerWeight, holdWeight, List.length_nil, List.length_cons] <;> omega
  | loadSend o' =>
    obtain ⟨_, _, rfl, rfl⟩ := ha
    have hc := hc _ rfl
    subst hc
    cases backlog <;> cases chan <;> simp [Unbounded.runHold, Unbounded.trySend] at hb <;> subst hb <;> simp only at hs <;>
      cases hs <;> refine ⟨hl, ?_⟩ <;> simp only [weight, workerWeight, holdWeight, List.length_nil, List.length_cons] <;> omega
  | loadClose o' =>
    obtain ⟨_, _, rfl, rfl⟩ := ha
    simp [Unbounded.runHold] at hb
    subst hb
    simp only at hs
    cases hs
    exact ⟨hl, by simp only [weight, workerWeight, holdWeight]; omega⟩
  | dispose =>
    obtain ⟨⟨o', rfl⟩, _⟩ := ha
    cases backlog <;> simp [Unbounded.runHold] at hb <;> subst hb <;> simp only [back] at hs <;> cases hs <;>
      refine ⟨hl, ?_⟩ <;> simp only [weight, readerWeight, holdWeight, List.length_nil, List.length_cons] <;> omega
  | disposeClose =>
    obtain ⟨⟨o', rfl⟩, _⟩ := ha
    simp [Unbounded.runHold] at hb
    subst hb
    simp only [back] at hs
    cases hs
    exact ⟨hl, by simp only [weight, readerWeight, holdWeight]; omega⟩

theorem weight_outside {c c' : Conn F} {e : Ev F} {o : Outcome} (hl : leaving c.reader = some o) (he : own e = false)
    (hs : c.step e = some c') : leaving c'.reader = some o ∧ weight c' = weight c := by
  cases e <;> simp only [own, Bool.true_eq_false] at he
  · simp only [Conn.step, Option.some.injEq] at hs
    subst hs; exact ⟨hl, rfl⟩
  · simp only [Conn.step, Option.some.injEq, Conn.doClose] at hs
    split at hs <;> subst hs <;> exact ⟨hl, rfl⟩

theorem weight_own {c c' : Conn F} {e : Ev F} {o : Outcome} (hi : Inv c) (hl : leaving c.reader = some o) (he : own e = true)
    (hs : c.step e = some c') : leaving c'.reader = some o ∧ weight c' < weight c := by
  cases e with
  | cancel => cases he
  | close => cases he
  | reader r => exact weight_reader hi hl hs
  | readerErr =>
    simp only [Conn.step] at hs
    split at hs
    · rename_i hr; rw [hr] at hl; cases hl
    · cases hs
  | worker b => exact weight_worker hi hl hs
  | mutex => exact weight_mutex hi hl hs

theorem weight_run {c c' : Conn F} {o : Outcome} (es : List (Ev F)) (hi : Inv c) (hl : leaving c.reader = some o)
    (hs : c.run es = some c') :
    leaving c'.reader = some o ∧ weight c' + (es.filter own).length ≤ weight c ∧ Inv c' := by
  induction es generalizing c with
  | nil =>
    simp only [Conn.run, Option.some.injEq] at hs
    subst hs
    exact ⟨hl, by simp, hi⟩
  | cons e es ih =>
    simp only [Conn.run, Option.bind_eq_some_iff] at hs
    obtain ⟨m, h1, h2⟩ := hs
    cases he : own e with
    | true =>
      obtain ⟨a, b⟩ := weight_own hi hl he h1
      obtain ⟨a', b', c'⟩ := ih (inv_step hi h1) a h2
      refine ⟨a', ?_, c'⟩
      rw [List.filter_cons_of_pos he, List.length_cons]
      omega
    | false =>
      obtain ⟨a, b⟩ := weight_outside hl he h1
      obtain ⟨a', b', c'⟩ := ih (inv_step hi h1) a h2
      refine ⟨a', ?_, c'⟩
      rw [List.filter_cons_of_neg (by simp [he])]
      omega

theorem run_append {c : Conn F} (a b : List (Ev F)) : c.run (a ++ b) = (c.run a).bind fun c' => c'.run b := by
  induction a generalizing c with
  | nil => rfl
  | cons e es ih =>
    simp only [List.cons_append, Conn.run]
    cases c.step e with
    | none => rfl
    | some m => simp [ih]

theorem reach_run {c c' : Conn F} (h : Reach c) (es : List (Ev F)) (hs : c.run es = some c') : Reach c' := by
  obtain ⟨es0, h⟩ := h
  exact ⟨es0 ++ es, by rw [run_append, h]; exact hs⟩

/-- **C88**, part of the claim: once `Start` has left its loop, with whatever it is to return, it returns just that: the
two goroutines can do only so many steps more, whatever else happens, and when neither can go on `Start` has returned.
The loop is left when a read reports the end of the stream or an error, and when the reader, between two reads, finds the
context cancelled or an error of the worker. Missing: leaving the loop while a read is under way. -/
theorem stops_partial {c : Conn F} {o : Outcome} (h : Reach c) (hl : leaving c.reader = some o) :
    ∃ n, ∀ es c', c.run es = some c' →
      (es.filter own).length ≤ n ∧ ((∀ e, own e = true → c'.step e = none) → c'.reader = .returned o) := by
  refine ⟨weight c, fun es c' hs => ?_⟩
  obtain ⟨h1, h2, _⟩ := weight_run es (inv_reach h) hl hs
  refine ⟨by omega, fun hn => ?_⟩
  by_cases hr : ∀ o, c'.reader ≠ .returned o
  · obtain ⟨e, he, hse⟩ := never_stuck (reach_run h es hs) hr
    rw [hn e he] at hse
    cases hse
  · simp only [ne_eq, Classical.not_forall, Classical.not_not] at hr
    obtain ⟨o', hr⟩ := hr
    rw [hr] at h1 ⊢
    simp only [leaving, Option.some.injEq] at h1
    rw [h1]

/-- The reader has seen the end of the stream, and one frame still waits to be handled. -/
example : ∃ c, (Conn.init Nat).run (twoFrames.take 13) = some c ∧ leaving c.reader = some .nil ∧ c.handled = [] := by
  refine ⟨_, rfl, rfl, rfl⟩

/-- **C88** The loop is left at the next turn when the context is cancelled, or when the worker has reported an error. -/
theorem leaves_loop {c : Conn F} (r : ReadRes F) (ht : c.reader = .top) (h : c.cancelled = true ∨ c.errChan = true) :
    ∃ c', c.step (.reader r) = some c' ∧
      leaving c'.reader = some (if c.cancelled then .ctx else .dispatch) := by
  simp only [Conn.step, Conn.stepReader, ht]
  by_cases hc : c.cancelled = true
  · rw [if_pos hc]; exact ⟨_, rfl, by simp [leaving, hc]⟩
  · rw [if_neg hc, if_pos (h.resolve_left hc)]; exact ⟨_, rfl, by simp [leaving, hc]⟩

example : ∃ c, (Conn.init Nat).run [.cancel] = some c ∧ c.reader = .top ∧ c.cancelled = true := ⟨_, rfl, rfl, rfl⟩

/-- **C88** The loop is left when a read reports the end of the stream, to return nil, and when it reports an error, to
return that; a frame does not end the loop. -/
theorem read_leaves {c : Conn F} (hr : c.reader = .reading) :
    (∃ c', c.step (.reader .eof) = some c' ∧ leaving c'.reader = some .nil) ∧
    (∃ c', c.step (.reader .err) = some c' ∧ leaving c'.reader = some .read) ∧
    ∀ f, ∃ c', c.step (.reader (.frame f)) = some c' ∧ leaving c'.reader = none := by
  simp only [Conn.step, Conn.stepReader, hr]
  exact ⟨⟨_, rfl, rfl⟩, ⟨_, rfl, rfl⟩, fun _ => ⟨_, rfl, rfl⟩⟩

example : ∃ c, (Conn.init Nat).run [.reader .eof] = some c ∧ c.reader = .reading := ⟨_, rfl, rfl⟩

theorem waits {c c' : Conn F} (hr : c.reader = .reading) (es : List (Ev F)) (he : ∀ e ∈ es, ∀ r, e ≠ .reader r)
    (hs : c.run es = some c') : c'.reader = .reading := by
  induction es generalizing c with
  | nil => simp only [Conn.run, Option.some.injEq] at hs; exact hs ▸ hr
  | cons e es ih =>
    simp only [Conn.run, Option.bind_eq_some_iff] at hs
    obtain ⟨m, h1, h2⟩ := hs
    refine ih ?_ (fun e h => he e (List.mem_cons_of_mem _ h)) h2
    cases e with
    | cancel => simp only [Conn.step, Option.some.injEq] at h1; subst h1; exact hr
    | close =>
      simp only [Conn.step, Option.some.injEq, Conn.doClose] at h1
      split at h1 <;> subst h1 <;> exact hr
    | reader r => exact absurd rfl (he _ List.mem_cons_self r)
    | readerErr => simp [Conn.step, hr] at h1
    | worker b =>
      simp only [Conn.step, Conn.stepWorker] at h1
      cases hw : c.worker <;> simp only [hw, reduceCtorEq, Option.some.injEq, Option.map_eq_some_iff] at h1
      · split at h1
        · rw [Option.map_eq_some_iff] at h1
          obtain ⟨b', _, rfl⟩ := h1
          exact hr
        · split at h1
          · injection h1 with h1; subst h1; exact hr
          · cases h1
      · subst h1; exact hr
      · subst h1; exact hr
      · obtain ⟨b', _, rfl⟩ := h1; exact hr
      · split at h1
        · cases h1
        · injection h1 with h1; subst h1; exact hr
    | mutex =>
      simp only [Conn.step, Conn.stepMutex] at h1
      split at h1
      · cases h1
      · split at h1
        · split at h1 <;> cases h1 <;> simp [hr, back]
        · cases h1; exact hr

/-- **C88** is false while a read is under way: with the context cancelled and a frame that could not be handled,
`Start` goes on waiting for the peer, whatever else happens. -/
theorem end_waits_for_peer_refuted : ∃ c : Conn Nat, Reach c ∧ c.cancelled = true ∧ c.errChan = true ∧
    ∀ es c', (∀ e ∈ es, ∀ r, e ≠ .reader r) → c.run es = some c' → c'.reader = .reading :=
  ⟨_, ⟨[.reader .eof, .reader (.frame 1), .reader .eof, .mutex, .mutex, .reader .eof, .worker false, .worker true, .worker false,
    .cancel], rfl⟩, rfl, rfl, fun es _ he hs => waits rfl es he hs⟩

/-- **C88** is false for an error of the last frame: the peer closes the connection, and `Start` returns nil although the
frame could not be handled. -/
theorem error_lost_refuted : ∃ c : Conn Nat,
    (Conn.init Nat).run [.reader .eof, .reader (.frame 1), .reader .eof, .mutex, .mutex, .reader .eof, .worker false,
      .worker true, .worker false, .reader .eof, .worker false, .mutex, .reader .eof, .mutex, .mutex, .worker false, .worker false,
      .reader .eof, .reader .eof] = some c ∧ c.reader = .returned .nil ∧ c.errChan = true :=
  ⟨_, rfl, rfl, rfl⟩

end Iota.Props.Transport
