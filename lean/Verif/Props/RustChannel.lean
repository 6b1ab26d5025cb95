import Verif.Props.RustResponder

/-!
# C75, C76: a channel call sends what was asked for
-/

namespace Iota.Props.RustChannel
open Iota.Go Iota.Frames Iota.Rust Iota.Spec.RustSocket Iota.Lemmas.RustSocket Iota.Props.RustResponder

/-- The queue of a feeding task. -/
def queueOf : Rust.Task → Option Nat
  | .feed _ q _ _ => some q
  | _ => none

/-- How much a feeding task may still send. -/
def credit : Option Rust.Task → Nat
  | some (.feed _ _ _ n) => n.toNat
  | _ => 0

def total (l : List UInt32) : Nat := (l.map UInt32.toNat).sum

/-- The number of failures of the stream that is fed. -/
def errs : List Yield → Nat
  | [] => 0
  | .err _ :: ys => errs ys + 1
  | _ :: ys => errs ys

/-- Elements sent so far. -/
def sent (s : Sock) (sid : UInt32) : Nat := s.out.countP (isElement sid)

theorem complete_not (sid x : UInt32) : isElement sid (completeFrame x) = false := by
  have : (Rust.flagComplete &&& Rust.flagNext = Rust.flagNext) = False := by simp; decide
  simp [isElement, completeFrame, newPayload, this]

theorem remove_rest (s : Sock) (sid : UInt32) : (s.remove sid).channels = s.channels ∧ (s.remove sid).queues = s.queues := by
  unfold Sock.remove
  split <;> exact ⟨rfl, rfl⟩

theorem payload_rest (s : Sock) (v : Payload) : (s.onPayload v).channels = s.channels ∧ (s.onPayload v).queues = s.queues ∧
    ∀ sid, sent (s.onPayload v) sid = sent s sid := by
  have hc : ∀ sid, sent (s.send (.cancel ⟨v.streamID⟩)) sid = sent s sid := by
    intro sid
    simp [sent, Sock.send, isElement]
  have hr : ∀ (x : Sock) sid sid', sent (x.remove sid) sid' = sent x sid' := fun x sid sid' => by
    simp [sent, (remove_tasks _ _).2]
  unfold Sock.onPayload
  split
  · exact ⟨rfl, rfl, fun _ => rfl⟩
  · split
    · exact ⟨rfl, rfl, fun _ => rfl⟩
    · split
      · rw [(remove_rest _ _).1, (remove_rest _ _).2]
        simp only [hr]
        split <;> exact ⟨rfl, rfl, fun _ => rfl⟩
      · split
        · rw [(remove_rest _ _).1, (remove_rest _ _).2]
          simp only [hr]
          split
          · split
            · exact ⟨rfl, rfl, fun _ => rfl⟩
            · exact ⟨rfl, rfl, hc⟩
          · exact ⟨rfl, rfl, fun _ => rfl⟩
        · split
          · split
            · exact ⟨rfl, rfl, fun _ => rfl⟩
            · exact ⟨rfl, rfl, hc⟩
          · exact ⟨rfl, rfl, fun _ => rfl⟩

theorem cancel_rest {s s' : Sock} {sid : UInt32} (h : s.onCancel sid = .ok s') :
    s'.channels = s.channels ∧ s'.queues = s.queues := by
  unfold Sock.onCancel at h
  split at h
  · cases h; exact ⟨rfl, rfl⟩
  · split at h
    · cases h; exact ⟨rfl, rfl⟩
    · split at h
      · split at h
        · cases h; rw [(remove_rest _ _).1, (remove_rest _ _).2]; exact ⟨rfl, rfl⟩
        · cases h
      · cases h; exact remove_rest _ _

theorem error_rest {s s' : Sock} {sid c : UInt32} {m : Bytes} (h : s.onError sid c m = .ok s') :
    s'.channels = s.channels ∧ s'.queues = s.queues := by
  unfold Sock.onError at h
  split at h
  · cases h; exact ⟨rfl, rfl⟩
  · split at h
    · cases h; exact ⟨rfl, rfl⟩
    · split at h
      · cases h; rw [(remove_rest _ _).1, (remove_rest _ _).2]; exact ⟨rfl, rfl⟩
      · cases h

/-- A frame arrives. -/
theorem process_chan {s s' : Sock} {f : Frame} (h : s.processOnce f = .ok s') :
    (∃ l, s'.tasks = s.tasks ++ l ∧ ∀ k, some k ∈ l → queueOf k = none ∧ sidOf k = f.streamID ∧ ∃ v, f = .request v) ∧
      s'.channels = s.channels ∧ (∀ sid, sent s' sid = sent s sid) ∧
      (s'.queues = s.queues ∧ (∀ v, f = .requestN v → v.n = 0 ∨ mapGet s.channels v.streamID = none) ∨
        ∃ v q, f = .requestN v ∧ mapGet s.channels v.streamID = some q ∧
          s'.queues = s.queues.modify q fun l => l ++ [v.n]) := by
  cases f with
  | request v =>
    simp only [Sock.processOnce] at h
    split at h
    · cases h; exact ⟨⟨_, rfl, by simp [sidOf, queueOf, Frame.streamID]⟩, rfl, fun _ => rfl, Or.inl ⟨rfl, fun _ e => by cases e⟩⟩
    · split at h
      · cases h; exact ⟨⟨_, rfl, by simp [sidOf, queueOf, Frame.streamID]⟩, rfl, fun _ => rfl, Or.inl ⟨rfl, fun _ e => by cases e⟩⟩
      · split at h
        · cases h; exact ⟨⟨_, rfl, by simp [sidOf, queueOf, Frame.streamID]⟩, rfl, fun _ => rfl, Or.inl ⟨rfl, fun _ e => by cases e⟩⟩
        · cases h
          refine ⟨⟨[some (.rcStart v.streamID s.sinks.length)], ?_, by simp [sidOf, queueOf, Frame.streamID]⟩, ?_, fun sid => ?_, Or.inl ⟨?_, fun _ e => by cases e⟩⟩
          · simp [Sock.spawn, Sock.register, (remove_tasks _ _).1]
          · simp [Sock.spawn, Sock.register, (remove_rest _ _).1]
          · simp [sent, Sock.spawn, Sock.register, (remove_tasks _ _).2]
          · simp [Sock.spawn, Sock.register, (remove_rest _ _).2]
  | requestN v =>
    simp only [Sock.processOnce] at h
    cases h
    unfold Sock.onRequestN
    split
    · rename_i h0
      exact ⟨⟨[], by simp [Sock.send], by simp⟩, rfl, fun sid => by simp [sent, Sock.send, isElement, appError],
        Or.inl ⟨rfl, fun _ e => by cases e; exact Or.inl h0⟩⟩
    · split
      · rename_i q hq
        exact ⟨⟨[], by simp, by simp⟩, rfl, fun _ => rfl, Or.inr ⟨v, q, rfl, hq, rfl⟩⟩
      · rename_i hq
        exact ⟨⟨[], by simp [Sock.send], by simp⟩, rfl, fun sid => by simp [sent, Sock.send, isElement, appError],
          Or.inl ⟨rfl, fun _ e => by cases e; exact Or.inr hq⟩⟩
  | payload v =>
    simp only [Sock.processOnce] at h
    cases h
    obtain ⟨h1, h2, h3⟩ := payload_rest s v
    exact ⟨⟨[], by rw [(payload_out s v 0).1]; simp, by simp⟩, h1, h3, Or.inl ⟨h2, fun _ e => by cases e⟩⟩
  | cancel v =>
    simp only [Sock.processOnce] at h
    obtain ⟨h1, h2⟩ := cancel_out h
    obtain ⟨h3, h4⟩ := cancel_rest h
    exact ⟨⟨[], by rw [h1]; simp, by simp⟩, h3, fun _ => by rw [sent, sent, h2], Or.inl ⟨h4, fun _ e => by cases e⟩⟩
  | error v =>
    simp only [Sock.processOnce] at h
    obtain ⟨h1, h2⟩ := error_out h
    obtain ⟨h3, h4⟩ := error_rest h
    exact ⟨⟨[], by rw [h1]; simp, by simp⟩, h3, fun _ => by rw [sent, sent, h2], Or.inl ⟨h4, fun _ e => by cases e⟩⟩

/-- A call is made. -/
theorem call_chan (s : Sock) (m : Method) (md d : Bytes) :
    (∃ l, (s.request m md d).tasks = s.tasks ++ l ∧ ∀ k, some k ∈ l → sidOf k = s.next ∧ queueOf k = some s.queues.length ∧
      (s.request m md d).queues.length = s.queues.length + 1) ∧
      (∃ l, (s.request m md d).queues = s.queues ++ l) ∧
      (∀ x ∈ (s.request m md d).channels, x ∈ s.channels ∨
        x.2 = s.queues.length ∧ (s.request m md d).queues.length = s.queues.length + 1) ∧
      ∀ sid, s.next ≠ sid → sent (s.request m md d) sid = sent s sid ∧
        mapGet (s.request m md d).channels sid = mapGet s.channels sid := by
  have hd : s.draw.tasks = s.tasks ∧ s.draw.out = s.out ∧ s.draw.queues = s.queues ∧ s.draw.channels = s.channels := ⟨rfl, rfl, rfl, rfl⟩
  cases m with
  | fnf =>
    exact ⟨⟨[], by simp [Sock.request, Sock.send, hd.1], by simp⟩, ⟨[], by simp [Sock.request, Sock.send, hd.2]⟩,
      fun x hx => Or.inl hx, fun sid h => ⟨by simp [sent, Sock.request, Sock.send, isElement, newRequest, hd.2, h], rfl⟩⟩
  | rr =>
    exact ⟨⟨[], by simp [Sock.request, Sock.send, Sock.register, (remove_tasks _ _).1, hd.1], by simp⟩,
      ⟨[], by simp [Sock.request, Sock.send, Sock.register, (remove_rest _ _).2, hd.2]⟩,
      fun x hx => Or.inl (by simpa [Sock.request, Sock.send, Sock.register, (remove_rest _ _).1, hd.2] using hx),
      fun sid h => ⟨by simp [sent, Sock.request, Sock.send, Sock.register, (remove_tasks _ _).2, isElement, newRequest, hd.2, h],
        by simp [Sock.request, Sock.send, Sock.register, (remove_rest _ _).1, hd.2]⟩⟩
  | rs =>
    exact ⟨⟨[], by simp [Sock.request, Sock.send, Sock.register, (remove_tasks _ _).1, hd.1], by simp⟩,
      ⟨[], by simp [Sock.request, Sock.send, Sock.register, (remove_rest _ _).2, hd.2]⟩,
      fun x hx => Or.inl (by simpa [Sock.request, Sock.send, Sock.register, (remove_rest _ _).1, hd.2] using hx),
      fun sid h => ⟨by simp [sent, Sock.request, Sock.send, Sock.register, (remove_tasks _ _).2, isElement, newRequest, hd.2, h],
        by simp [Sock.request, Sock.send, Sock.register, (remove_rest _ _).1, hd.2]⟩⟩
  | rc =>
    refine ⟨⟨[some (.feed s.next s.queues.length true 1)],
      by simp [Sock.request, Sock.spawn, Sock.register, (remove_tasks _ _).1, hd.1],
      by simp [sidOf, queueOf, Sock.request, Sock.spawn]⟩,
      ⟨[[]], by simp [Sock.request, Sock.spawn]⟩, fun x hx => ?_,
      fun sid h => ⟨by simp [sent, Sock.request, Sock.spawn, Sock.register, (remove_tasks _ _).2, hd.2],
        by simp only [Sock.request, Sock.spawn]; exact mapGet_insert_other (Ne.symm h)⟩⟩
    simp only [Sock.request, Sock.spawn, mapInsert, List.mem_append, List.mem_singleton] at hx
    rcases hx with hx | hx
    · exact Or.inl (mem_remove.mp hx).1
    · exact Or.inr ⟨by rw [hx], by simp [Sock.request, Sock.spawn]⟩

/-- Any task goes on. -/
theorem task_chan {s s' : Sock} {t : Nat} {y : Yield} {k : Rust.Task} (h : s.runTask t y k = some s') :
    ((∃ st, s'.tasks = s.tasks.set t st ∧ (∀ k', st = some k' → sidOf k' = sidOf k ∧ queueOf k' = queueOf k)) ∨
      s'.tasks = s.tasks) ∧
    (∀ x ∈ s'.channels, x ∈ s.channels) ∧
    (s'.queues = s.queues ∨ ∃ q ms, queueOf k = some q ∧ s'.queues = s.queues.set q ms) ∧
    ∀ sid, sidOf k ≠ sid → sent s' sid = sent s sid ∧ mapGet s'.channels sid = mapGet s.channels sid := by
  have hrem : ∀ (m : List (UInt32 × Nat)) k x, x ∈ mapRemove m k → x ∈ m := fun m k x hx => (mem_remove.mp hx).1
  cases k <;> simp only [Sock.runTask] at h
  case feed sid q first n =>
    split at h
    · split at h
      · cases h; exact ⟨Or.inl ⟨_, rfl, fun _ e => by cases e; exact ⟨rfl, rfl⟩⟩, fun _ hx => hx, Or.inr ⟨_, _, rfl, rfl⟩, fun _ _ => ⟨rfl, rfl⟩⟩
      · split at h
        · cases h
        · cases h
          exact ⟨Or.inl ⟨_, rfl, fun _ e => by cases e⟩, fun _ hx => hrem _ _ _ hx, Or.inl rfl,
            fun _ hn => ⟨by simp [sent, Sock.feedEnd, Sock.send, complete_not], mapGet_remove_other (Ne.symm hn)⟩⟩
    · cases y <;> simp only at h
      · split at h
        · cases h
          exact ⟨Or.inl ⟨_, rfl, fun _ e => by cases e; exact ⟨rfl, rfl⟩⟩, fun _ hx => hx, Or.inl rfl,
            fun _ hn => ⟨by simp only [sidOf] at hn; simp [sent, Sock.feedSent, Sock.send, isElement, newRequest, hn], rfl⟩⟩
        · cases h
          exact ⟨Or.inl ⟨_, rfl, fun _ e => by cases e; exact ⟨rfl, rfl⟩⟩, fun _ hx => hx, Or.inl rfl,
            fun _ hn => ⟨by simp only [sidOf] at hn; simp [sent, Sock.feedSent, Sock.send, isElement, nextFrame, newPayload, hn], rfl⟩⟩
      · cases h
        exact ⟨Or.inl ⟨_, rfl, fun _ e => by cases e; exact ⟨rfl, rfl⟩⟩, fun _ hx => hx, Or.inl rfl,
          fun _ _ => ⟨by simp [sent, Sock.send, isElement, appError], rfl⟩⟩
      · cases h
        exact ⟨Or.inl ⟨_, rfl, fun _ e => by cases e⟩, fun _ hx => hrem _ _ _ hx, Or.inl rfl,
          fun _ hn => ⟨by simp [sent, Sock.feedEnd, Sock.send, complete_not], mapGet_remove_other (Ne.symm hn)⟩⟩
  case rsStart => cases h; exact ⟨Or.inl ⟨_, rfl, fun _ e => by cases e; exact ⟨rfl, rfl⟩⟩, fun _ hx => hx, Or.inl rfl, fun _ _ => ⟨rfl, rfl⟩⟩
  case rcStart =>
    cases h
    exact ⟨Or.inl ⟨_, rfl, fun _ e => by cases e; exact ⟨rfl, rfl⟩⟩, fun _ hx => hx, Or.inl rfl,
      fun _ _ => ⟨by simp [sent, Sock.send, isElement], rfl⟩⟩
  all_goals
    cases y <;> simp only at h <;> first
      | (cases h; exact ⟨Or.inl ⟨none, rfl, fun _ e => by cases e⟩, fun _ hx => hx, Or.inl rfl, fun _ _ => ⟨rfl, rfl⟩⟩)
      | (cases h; exact ⟨Or.inl ⟨none, rfl, fun _ e => by cases e⟩, fun _ hx => hx, Or.inl rfl,
          fun _ hn => ⟨by simp only [sidOf] at hn; simp [sent, Sock.send, isElement, appError, nextFrame, completeFrame, newPayload, hn], rfl⟩⟩)
      | (cases h; exact ⟨Or.inr rfl, fun _ hx => hx, Or.inl rfl,
          fun _ hn => ⟨by simp only [sidOf] at hn; simp [sent, Sock.send, isElement, appError, nextFrame, completeFrame, newPayload, hn], rfl⟩⟩)
      | cases h

/-- The feeding task of the stream goes on. -/
theorem task_self {s s' : Sock} {t q : Nat} {y : Yield} {sid n : UInt32} {first : Bool} {l : List UInt32}
    (hl : s.queues[q]? = some l) (h : s.runTask t y (.feed sid q first n) = some s') :
    ∃ st l', s'.tasks = s.tasks.set t st ∧ s'.queues[q]? = some l' ∧
      sent s' sid + credit st + total l' ≤ sent s sid + n.toNat + total l ∧
      (∀ k, st = some k → s'.channels = s.channels ∧
        sent s sid + n.toNat + total l ≤ sent s' sid + errs [y] + credit st + total l') := by
  have hq := (List.getElem?_eq_some_iff.mp hl).1
  have hsub : n ≠ 0 → (n - 1).toNat + 1 = n.toNat := by
    intro h0
    have h1 : n.toNat ≠ 0 := fun e => h0 (UInt32.toNat_inj.mp (by simpa using e))
    have h2 : (1 : UInt32) ≤ n := by rw [UInt32.le_iff_toNat_le]; simp; omega
    rw [UInt32.toNat_sub_of_le _ _ h2]
    simp; omega
  have hel1 : ∀ md d, isElement sid (newRequest tRequestChannel sid md d Rust.flagNext requestMax) = true := fun md d => by
    simp [isElement, newRequest]
  have hel2 : ∀ md d, isElement sid (nextFrame sid md d) = true := fun md d => by
    simp [isElement, nextFrame, newPayload]
  simp only [Sock.runTask] at h
  split at h
  · rename_i h0
    subst h0
    split at h
    · rename_i m ms hm
      rw [hl] at hm
      cases hm
      cases h
      refine ⟨_, ms, rfl, by simp [List.getElem?_set, hq], ?_, fun k e => ⟨rfl, ?_⟩⟩
      · simp [sent, credit, total]
        omega
      · simp [sent, credit, total]
        omega
    · split at h
      · cases h
      · cases h
        refine ⟨_, l, rfl, hl, ?_, fun k e => by cases e⟩
        simp only [sent, credit, Sock.feedEnd, Sock.send, List.countP_append]
        simp [complete_not]
  · rename_i h0
    have := hsub h0
    cases y <;> simp only at h
    · rename_i md d
      split at h
      all_goals
        cases h
        refine ⟨_, l, rfl, hl, ?_, fun k e => ⟨rfl, ?_⟩⟩ <;>
        · simp only [sent, credit, Sock.feedSent, Sock.send, List.countP_append, errs]
          simp [hel1, hel2]
          omega
    · cases h
      refine ⟨_, l, rfl, hl, ?_, fun k e => ⟨rfl, ?_⟩⟩
      all_goals
        simp only [sent, credit, Sock.send, List.countP_append, errs]
        simp [isElement, appError]
        omega
    · cases h
      refine ⟨_, l, rfl, hl, ?_, fun k e => by cases e⟩
      simp only [sent, credit, Sock.feedEnd, Sock.send, List.countP_append]
      simp [complete_not]

/-- Task `t` feeds stream `sid` from queue `q`, no other task has to do with either, the budget is `b` and the stream failed
`e` times. -/
structure Feeds (s : Sock) (sid : UInt32) (t q b e : Nat) (st : Option Rust.Task) (l : List UInt32) : Prop where
  at_ : s.tasks[t]? = some st
  mine : ∀ k, st = some k → sidOf k = sid ∧ queueOf k = some q
  queue : s.queues[q]? = some l
  other : ∀ t' k, t' ≠ t → s.tasks[t']? = some (some k) → sidOf k ≠ sid ∧ queueOf k ≠ some q
  chans : ∀ x ∈ s.channels, x.2 = q → x.1 = sid
  bound : sent s sid + credit st + total l ≤ b
  open_ : ∀ k, st = some k → mapGet s.channels sid = some q ∧ b ≤ sent s sid + e + credit st + total l

/-- The demand a frame tells for a stream. -/
def demandOf (sid : UInt32) : Frame → Nat
  | .requestN v => if v.streamID = sid then v.n.toNat else 0
  | _ => 0

/-- No id drawn by the next `n` calls is `sid`. -/
def Avoids (next sid : UInt32) (n : Nat) : Prop := ∀ i < n, next + UInt32.ofNat (2 * i) ≠ sid

theorem Avoids.head {next sid : UInt32} {n : Nat} (h : Avoids next sid (n + 1)) : next ≠ sid := by
  simpa using h 0 (by omega)

theorem Avoids.tail {next sid : UInt32} {n : Nat} (h : Avoids next sid (n + 1)) : Avoids (next + 2) sid n := by
  intro i hi e
  apply h (i + 1) (by omega)
  rw [← e, Nat.mul_add, UInt32.ofNat_add, UInt32.add_assoc, UInt32.add_comm (UInt32.ofNat (2 * i))]
  rfl

theorem totalDemand_arrived (sid : UInt32) (f : Frame) (as : List SockAct) : totalDemand (arrived sid (.recv f :: as)) =
    demandOf sid f + totalDemand (arrived sid as) := by
  simp only [arrived]
  cases f with
  | requestN v => by_cases h : v.streamID = sid <;> simp [totalDemand, Frame.streamID, demandOf, h]
  | request v => by_cases h : v.streamID = sid <;> simp [totalDemand, Frame.streamID, demandOf, h]
  | payload v => by_cases h : v.streamID = sid <;> simp [totalDemand, Frame.streamID, demandOf, h]
  | cancel v => by_cases h : v.streamID = sid <;> simp [totalDemand, Frame.streamID, demandOf, h]
  | error v => by_cases h : v.streamID = sid <;> simp [totalDemand, Frame.streamID, demandOf, h]

theorem errs_cons (y : Yield) (ys : List Yield) : errs (y :: ys) = errs [y] + errs ys := by
  cases y <;> simp [errs]
  omega

theorem feeds_run (as : List SockAct) : ∀ {s s' : Sock} {sid : UInt32} {t q b e : Nat} {st : Option Rust.Task} {l : List UInt32},
    Feeds s sid t q b e st l → Avoids s.next sid (drawn as) → (∀ f ∈ arrived sid as, ∀ v, f ≠ .request v) →
    s.run as = some (.ok s') →
    ∃ st' l', Feeds s' sid t q (b + totalDemand (arrived sid as)) (e + errs (yields t as)) st' l' := by
  induction as with
  | nil =>
    intro s s' sid t q b e st l h _ _ hr
    simp only [Sock.run] at hr
    cases hr
    exact ⟨st, l, by simpa [arrived, totalDemand, yields, errs] using h⟩
  | cons a as ih =>
    intro s s' sid t q b e st l h hn ha hr
    obtain ⟨s1, h1, h2⟩ := run_cons hr
    have hq := (List.getElem?_eq_some_iff.mp h.queue).1
    have ht := (List.getElem?_eq_some_iff.mp h.at_).1
    cases a with
    | recv f =>
      simp only [Sock.step, Option.some.injEq] at h1
      obtain ⟨⟨ts, g1, g2⟩, g3, g4, g5⟩ := process_chan h1
      have hn1 : Avoids s1.next sid (drawn as) := by rw [processOnce_next h1]; exact hn
      have ha1 : ∀ f ∈ arrived sid as, ∀ v, f ≠ .request v :=
        fun f' hf' => ha f' (by simp only [arrived]; split <;> simp [hf'])
      have hat : s1.tasks[t]? = some st := by rw [g1, List.getElem?_append_left ht]; exact h.at_
      have hoth : ∀ t' k, t' ≠ t → s1.tasks[t']? = some (some k) → sidOf k ≠ sid ∧ queueOf k ≠ some q := by
        intro t' k hne hk
        rw [g1] at hk
        by_cases hlt : t' < s.tasks.length
        · rw [List.getElem?_append_left hlt] at hk
          exact h.other t' k hne hk
        · rw [List.getElem?_append_right (by omega)] at hk
          obtain ⟨e1, e2, v, e3⟩ := g2 k (List.mem_of_getElem? hk)
          refine ⟨fun e => ?_, by rw [e1]; nofun⟩
          exact ha f (by simp [arrived, ← e2, e]) v e3
      have hch : ∀ x ∈ s1.channels, x.2 = q → x.1 = sid := by rw [g3]; exact h.chans
      have hb := h.bound
      have hy : yields t (.recv f :: as) = yields t as := rfl
      rw [totalDemand_arrived, hy]
      have key : ∃ l', Feeds s1 sid t q
          (b + demandOf sid f) e st l' := by
        rcases g5 with ⟨g5, g6⟩ | ⟨v, q', e', hv, g5⟩
        · refine ⟨l, hat, h.mine, by rw [g5]; exact h.queue, hoth, hch, by rw [g4]; omega, fun k hk => ?_⟩
          obtain ⟨o1, o2⟩ := h.open_ k hk
          refine ⟨by rw [g3]; exact o1, ?_⟩
          rw [g4]
          cases f with
          | requestN v =>
            simp only [demandOf]
            split
            · rename_i e'
              rcases g6 v rfl with h0 | h0
              · rw [h0]; simp; omega
              · rw [e', o1] at h0; cases h0
            · omega
          | _ => simp only [demandOf]; omega
        · subst e'
          by_cases e' : q' = q
          · subst e'
            have hsid := h.chans _ (mapGet_mem hv) rfl
            simp only at hsid
            refine ⟨l ++ [v.n], hat, h.mine, by rw [g5, List.getElem?_modify]; simp [h.queue], hoth, hch, ?_, fun k hk => ?_⟩
            · rw [g4]
              simp only [total, List.map_append, List.sum_append] at hb ⊢
              simp [demandOf, hsid]
              omega
            · obtain ⟨o1, o2⟩ := h.open_ k hk
              refine ⟨by rw [g3]; exact o1, ?_⟩
              rw [g4]
              simp only [total, List.map_append, List.sum_append] at o2 ⊢
              simp [demandOf, hsid]
              omega
          · refine ⟨l, hat, h.mine, by rw [g5, List.getElem?_modify]; simp [h.queue, e'], hoth, hch, by rw [g4]; omega,
              fun k hk => ?_⟩
            obtain ⟨o1, o2⟩ := h.open_ k hk
            refine ⟨by rw [g3]; exact o1, ?_⟩
            rw [g4]
            simp only [demandOf]
            split
            · rename_i e2
              rw [e2, o1] at hv
              cases hv
              exact absurd rfl e'
            · omega
      obtain ⟨l', key⟩ := key
      have := ih key hn1 ha1 h2
      rw [← Nat.add_assoc]
      exact this
    | call m md d =>
      simp only [Sock.step, Option.some.injEq] at h1
      cases h1
      rw [drawn] at hn
      obtain ⟨⟨ts, g1, g2⟩, ⟨qs, g3⟩, g4, g5⟩ := call_chan s m md d
      refine ih (b := b) (t := t) (q := q) (e := e) (st := st) (l := l) ⟨?_, h.mine, ?_, ?_, ?_, ?_, ?_⟩
        (by rw [call_next]; exact hn.tail) ha h2
      · rw [g1, List.getElem?_append_left ht]; exact h.at_
      · rw [g3, List.getElem?_append_left hq]; exact h.queue
      · intro t' k hne hk
        rw [g1] at hk
        by_cases hlt : t' < s.tasks.length
        · rw [List.getElem?_append_left hlt] at hk
          exact h.other t' k hne hk
        · rw [List.getElem?_append_right (by omega)] at hk
          obtain ⟨e1, e2, _⟩ := g2 k (List.mem_of_getElem? hk)
          exact ⟨by rw [e1]; exact hn.head, by rw [e2]; simp; omega⟩
      · intro x hx e
        rcases g4 x hx with hx | hx
        · exact h.chans x hx e
        · omega
      · rw [(g5 sid hn.head).1]; exact h.bound
      · intro k hk
        rw [(g5 sid hn.head).1, (g5 sid hn.head).2]
        exact h.open_ k hk
    | drop j =>
      simp only [Sock.step, Option.some.injEq] at h1
      cases h1
      exact ih (s := { s with sinks := s.sinks.modify j fun k => { k with live := false } })
        ⟨h.at_, h.mine, h.queue, h.other, h.chans, h.bound, h.open_⟩ hn ha h2
    | task t' y =>
      simp only [Sock.step] at h1
      split at h1
      · rename_i k hk
        cases hx : s.runTask t' y k with
        | none => rw [hx] at h1; cases h1
        | some s2 =>
          rw [hx] at h1
          simp only [Option.map_some, Option.some.injEq, Res.ok.injEq] at h1
          subst h1
          obtain ⟨g1, g2, g3, g4⟩ := task_chan hx
          have hn1 : Avoids s2.next sid (drawn as) := by rw [(runTask_core hx).2.2]; exact hn
          have hch : ∀ x ∈ s2.channels, x.2 = q → x.1 = sid := fun x hx => h.chans x (g2 x hx)
          by_cases et : t' = t
          · subst et
            have hst := h.at_
            rw [hk] at hst
            cases hst
            obtain ⟨e1, e2⟩ := h.mine k rfl
            cases k with
            | feed sid' q' first n =>
              simp only [sidOf] at e1
              simp only [queueOf, Option.some.injEq] at e2
              subst e1 e2
              obtain ⟨st', l', f1, f2, f3, f4⟩ := task_self h.queue hx
              have hb := h.bound
              simp only [yields, if_pos]
              rw [errs_cons, ← Nat.add_assoc]
              refine ih (b := b) (t := t') (e := e + errs [y]) (st := st') (l := l') ⟨?_, ?_, f2, ?_, hch, ?_, ?_⟩ hn1 ha h2
              · rw [f1]; simp [ht]
              · intro k hk'
                rcases g1 with ⟨st2, g1, g1'⟩ | g1
                · have : st' = st2 := by
                    have := congrArg (fun l : List (Option Rust.Task) => l[t']?) (f1.symm.trans g1)
                    simpa [ht] using this
                  exact g1' k (by rw [← this, hk'])
                · have : st' = some (.feed sid' q' first n) := by
                    have := congrArg (fun l : List (Option Rust.Task) => l[t']?) (f1.symm.trans g1)
                    rw [hk] at this
                    simpa [ht] using this
                  rw [this] at hk'
                  cases hk'
                  exact ⟨rfl, rfl⟩
              · intro t2 k2 hne hk2
                rw [f1, List.getElem?_set_ne (Ne.symm hne)] at hk2
                exact h.other t2 k2 hne hk2
              · simp only [credit] at hb
                omega
              · intro k hk'
                obtain ⟨o1, o2⟩ := h.open_ _ rfl
                obtain ⟨o3, o4⟩ := f4 k hk'
                simp only [credit] at o2
                exact ⟨by rw [o3]; exact o1, by omega⟩
            | _ => exact absurd e2 nofun
          · obtain ⟨o1, o2⟩ := h.other t' k et hk
            have hy : yields t (.task t' y :: as) = yields t as := by simp [yields, et]
            rw [hy]
            refine ih (b := b) (t := t) (q := q) (e := e) (st := st) (l := l) ⟨?_, h.mine, ?_, ?_, hch, ?_, ?_⟩ hn1 ha h2
            · rcases g1 with ⟨st2, g1, _⟩ | g1
              · rw [g1, List.getElem?_set_ne et]; exact h.at_
              · rw [g1]; exact h.at_
            · rcases g3 with g3 | ⟨q2, ms, g3, g3'⟩
              · rw [g3]; exact h.queue
              · rw [g3', List.getElem?_set_ne (fun e => o2 (by rw [g3, e]))]; exact h.queue
            · intro t2 k2 hne hk2
              rcases g1 with ⟨st2, g1, g1'⟩ | g1
              · rw [g1] at hk2
                by_cases e2 : t' = t2
                · subst e2
                  have hlt := (List.getElem?_eq_some_iff.mp hk).1
                  simp [hlt] at hk2
                  obtain ⟨p1, p2⟩ := g1' k2 hk2
                  rw [p1, p2]
                  exact ⟨o1, o2⟩
                · rw [List.getElem?_set_ne e2] at hk2
                  exact h.other t2 k2 hne hk2
              · rw [g1] at hk2
                exact h.other t2 k2 hne hk2
            · rw [(g4 sid o1).1]; exact h.bound
            · intro k hk
              rw [(g4 sid o1).1, (g4 sid o1).2]
              exact h.open_ k hk
      · cases h1

/-- No task has to do with `sid`, and queues in use exist. -/
structure Idle (s : Sock) (sid : UInt32) : Prop where
  tasks : ∀ (t : Nat) k, s.tasks[t]? = some (some k) → sidOf k ≠ sid
  queues : ∀ (t : Nat) k q, s.tasks[t]? = some (some k) → queueOf k = some q → q < s.queues.length
  chans : ∀ x ∈ s.channels, x.2 < s.queues.length

theorem idle_run (as : List SockAct) : ∀ {s s' : Sock} {sid : UInt32}, Idle s sid → Avoids s.next sid (drawn as) →
    (∀ f ∈ arrived sid as, ∀ v, f ≠ .request v) → s.run as = some (.ok s') → Idle s' sid := by
  induction as with
  | nil => intro s s' sid h _ _ hr; simp only [Sock.run] at hr; cases hr; exact h
  | cons a as ih =>
    intro s s' sid h hn ha hr
    obtain ⟨s1, h1, h2⟩ := run_cons hr
    cases a with
    | recv f =>
      simp only [Sock.step, Option.some.injEq] at h1
      obtain ⟨⟨ts, g1, g2⟩, g3, g4, g5⟩ := process_chan h1
      have hlen : s1.queues.length = s.queues.length := by
        rcases g5 with ⟨g5, _⟩ | ⟨v, q, _, _, g5⟩ <;> rw [g5]
        simp
      refine ih ⟨?_, ?_, by rw [g3, hlen]; exact h.chans⟩ (by rw [processOnce_next h1]; exact hn)
        (fun f' hf' => ha f' (by simp only [arrived]; split <;> simp [hf'])) h2
      · intro t k hk
        rw [g1] at hk
        by_cases hlt : t < s.tasks.length
        · rw [List.getElem?_append_left hlt] at hk
          exact h.tasks t k hk
        · rw [List.getElem?_append_right (by omega)] at hk
          obtain ⟨e1, e2, v, e3⟩ := g2 k (List.mem_of_getElem? hk)
          exact fun e => ha f (by simp [arrived, ← e2, e]) v e3
      · intro t k q hk hq
        rw [hlen]
        rw [g1] at hk
        by_cases hlt : t < s.tasks.length
        · rw [List.getElem?_append_left hlt] at hk
          exact h.queues t k q hk hq
        · rw [List.getElem?_append_right (by omega)] at hk
          rw [(g2 k (List.mem_of_getElem? hk)).1] at hq
          cases hq
    | call m md d =>
      simp only [Sock.step, Option.some.injEq] at h1
      cases h1
      rw [drawn] at hn
      obtain ⟨⟨ts, g1, g2⟩, ⟨qs, g3⟩, g4, g5⟩ := call_chan s m md d
      have hle : s.queues.length ≤ (s.request m md d).queues.length := by rw [g3]; simp
      refine ih ⟨?_, ?_, ?_⟩ (by rw [call_next]; exact hn.tail) ha h2
      · intro t k hk
        rw [g1] at hk
        by_cases hlt : t < s.tasks.length
        · rw [List.getElem?_append_left hlt] at hk
          exact h.tasks t k hk
        · rw [List.getElem?_append_right (by omega)] at hk
          rw [(g2 k (List.mem_of_getElem? hk)).1]
          exact hn.head
      · intro t k q hk hq
        rw [g1] at hk
        by_cases hlt : t < s.tasks.length
        · rw [List.getElem?_append_left hlt] at hk
          have := h.queues t k q hk hq
          omega
        · rw [List.getElem?_append_right (by omega)] at hk
          obtain ⟨_, e2, e3⟩ := g2 k (List.mem_of_getElem? hk)
          rw [e2] at hq
          cases hq
          omega
      · intro x hx
        rcases g4 x hx with hx | hx
        · have := h.chans x hx
          omega
        · omega
    | drop j =>
      simp only [Sock.step, Option.some.injEq] at h1
      cases h1
      exact ih (s := { s with sinks := s.sinks.modify j fun k => { k with live := false } })
        ⟨h.tasks, h.queues, h.chans⟩ hn ha h2
    | task t' y =>
      simp only [Sock.step] at h1
      split at h1
      · rename_i k hk
        cases hx : s.runTask t' y k with
        | none => rw [hx] at h1; cases h1
        | some s2 =>
          rw [hx] at h1
          simp only [Option.map_some, Option.some.injEq, Res.ok.injEq] at h1
          subst h1
          obtain ⟨g1, g2, g3, g4⟩ := task_chan hx
          have hn1 : Avoids s2.next sid (drawn as) := by rw [(runTask_core hx).2.2]; exact hn
          have hlen : s2.queues.length = s.queues.length := by
            rcases g3 with g3 | ⟨q, ms, _, g3⟩ <;> rw [g3]
            simp
          have hlt := (List.getElem?_eq_some_iff.mp hk).1
          have hkeep : ∀ (t2 : Nat) k2, s2.tasks[t2]? = some (some k2) →
              ∃ k3, s.tasks[t2]? = some (some k3) ∧ sidOf k2 = sidOf k3 ∧ queueOf k2 = queueOf k3 := by
            intro t2 k2 hk2
            rcases g1 with ⟨st2, g1, g1'⟩ | g1
            · rw [g1] at hk2
              by_cases e2 : t' = t2
              · subst e2
                simp [hlt] at hk2
                exact ⟨k, hk, g1' k2 hk2⟩
              · rw [List.getElem?_set_ne e2] at hk2
                exact ⟨k2, hk2, rfl, rfl⟩
            · rw [g1] at hk2
              exact ⟨k2, hk2, rfl, rfl⟩
          refine ih ⟨fun t2 k2 hk2 => ?_, fun t2 k2 q hk2 hq => ?_, fun x hx => by rw [hlen]; exact h.chans x (g2 x hx)⟩ hn1 ha h2
          · obtain ⟨k3, f1, f2, f3⟩ := hkeep t2 k2 hk2
            rw [f2]; exact h.tasks t2 k3 f1
          · obtain ⟨k3, f1, f2, f3⟩ := hkeep t2 k2 hk2
            rw [hlen]; exact h.queues t2 k3 q f1 (by rw [← f3, hq])
      · cases h1

theorem avoids_later (n : UInt32) (m : Nat) (h : m < 2 ^ 31) : Avoids (n + 2) n m := by
  intro i hi e
  have h1 := congrArg UInt32.toNat e
  rw [UInt32.toNat_add, UInt32.toNat_add, UInt32.toNat_ofNat_of_lt' (by simp [UInt32.size]; omega)] at h1
  have := n.toNat_lt
  have : (2 : UInt32).toNat = 2 := rfl
  omega

theorem avoids_earlier (n : UInt32) (m : Nat) (h : m < 2 ^ 31) : Avoids n (n + UInt32.ofNat (2 * m)) m := by
  intro i hi e
  have h1 := congrArg UInt32.toNat e
  rw [UInt32.toNat_add, UInt32.toNat_add, UInt32.toNat_ofNat_of_lt' (by simp [UInt32.size]; omega),
    UInt32.toNat_ofNat_of_lt' (by simp [UInt32.size]; omega)] at h1
  have := n.toNat_lt
  omega

/-- A channel call starts. -/
theorem feeds_call {guest : Bool} {as : List SockAct} {s1 : Sock} (h1 : (Sock.init guest).run as = some (.ok s1))
    (hd1 : drawn as < 2 ^ 31) (ha : ∀ f ∈ arrived s1.next as, ∀ v, f ≠ .request v) (md d : Bytes) :
    Feeds (s1.request .rc md d) s1.next s1.tasks.length s1.queues.length (sent s1 s1.next + 1) 0
      (some (.feed s1.next s1.queues.length true 1)) [] := by
  have hi : Idle s1 s1.next := by
    refine idle_run as ⟨fun t k hk => by simp [Sock.init] at hk, fun t k q hk => by simp [Sock.init] at hk,
      fun x hx => by simp [Sock.init] at hx⟩ ?_ ha h1
    rw [run_next as h1]
    exact avoids_earlier _ _ hd1
  have htasks : (s1.request .rc md d).tasks = s1.tasks ++ [some (.feed s1.next s1.queues.length true 1)] := by
    simp [Sock.request, Sock.spawn, Sock.register, (remove_tasks _ _).1, Sock.draw]
  have hqueues : (s1.request .rc md d).queues = s1.queues ++ [[]] := by simp [Sock.request, Sock.spawn]
  refine ⟨by rw [htasks]; simp, fun k e => by cases e; exact ⟨rfl, rfl⟩, by rw [hqueues]; simp, ?_, ?_, ?_, fun k _ => ⟨?_, ?_⟩⟩
  · intro t' k hne hk
    rw [htasks] at hk
    by_cases hlt : t' < s1.tasks.length
    · rw [List.getElem?_append_left hlt] at hk
      refine ⟨hi.tasks t' k hk, fun e => ?_⟩
      have := hi.queues t' k _ hk e
      omega
    · have := (List.getElem?_eq_some_iff.mp hk).1
      simp at this
      omega
  · intro x hx e
    simp only [Sock.request, Sock.spawn, mapInsert, List.mem_append, List.mem_singleton] at hx
    rcases hx with hx | hx
    · have := hi.chans x (mem_remove.mp hx).1
      omega
    · rw [hx]
  · simp [sent, credit, total, Sock.request, Sock.spawn, Sock.register, (remove_tasks _ _).2, Sock.draw]
  · simp only [Sock.request, Sock.spawn]
    exact mapGet_insert_self _ _ _
  · simp [sent, credit, total, Sock.request, Sock.spawn, Sock.register, (remove_tasks _ _).2, Sock.draw]

/-- **C75** A channel call sends no more elements than the peer asked for: whatever happened before and on other
streams, it sends at most one element (the one its request carries) plus the sum of all demand that arrived for its
stream. Needed: fewer than 2^31 calls before and after (ids are drawn modulo 2^32,
`Props.RustSocket.ids_repeat_refuted`), and no request of the peer under the id of the call. -/
theorem channel_demand (guest : Bool) (as bs : List SockAct) (md d : Bytes) (s1 s : Sock)
    (h1 : (Sock.init guest).run as = some (.ok s1)) (h2 : s1.run (.call .rc md d :: bs) = some (.ok s))
    (hd1 : drawn as < 2 ^ 31) (hd2 : drawn bs < 2 ^ 31)
    (ha : ∀ f ∈ arrived s1.next as, ∀ v, f ≠ .request v) (hb : ∀ f ∈ arrived s1.next bs, ∀ v, f ≠ .request v) :
    s.out.countP (isElement s1.next) ≤ s1.out.countP (isElement s1.next) + 1 + totalDemand (arrived s1.next bs) := by
  obtain ⟨s2, h3, h4⟩ := run_cons h2
  simp only [Sock.step, Option.some.injEq] at h3
  cases h3
  obtain ⟨st, l, hf⟩ := feeds_run bs (feeds_call h1 hd1 ha md d) (by rw [call_next]; exact avoids_later _ _ hd2) hb h4
  have := hf.bound
  simp only [sent] at this
  omega

/-- **C76 (partial)** Full statement: demand a peer tells for a stream lets that many elements through. Proved for the
stream a channel call sends: if its task has to wait, for the peer and not for the elements, then it has sent exactly one
element plus all that was asked for, provided the elements' source did not fail. (Assumptions as in
`channel_demand`.) Missing: streams that answer a request (`Props.RustResponder.demand_refuted`). -/
theorem channel_demand_used_partial (guest : Bool) (as bs : List SockAct) (md d : Bytes) (s1 s : Sock)
    (h1 : (Sock.init guest).run as = some (.ok s1)) (h2 : s1.run (.call .rc md d :: bs) = some (.ok s))
    (hd1 : drawn as < 2 ^ 31) (hd2 : drawn bs < 2 ^ 31)
    (ha : ∀ f ∈ arrived s1.next as, ∀ v, f ≠ .request v) (hb : ∀ f ∈ arrived s1.next bs, ∀ v, f ≠ .request v)
    (hy : ∀ e, Yield.err e ∉ yields s1.tasks.length bs) (k : Rust.Task) (hk : s.tasks[s1.tasks.length]? = some (some k))
    (hw : ∀ y, s.step (.task s1.tasks.length y) = none) :
    s.out.countP (isElement s1.next) = s1.out.countP (isElement s1.next) + 1 + totalDemand (arrived s1.next bs) := by
  obtain ⟨s2, h3, h4⟩ := run_cons h2
  simp only [Sock.step, Option.some.injEq] at h3
  cases h3
  obtain ⟨st, l, hf⟩ := feeds_run bs (feeds_call h1 hd1 ha md d) (by rw [call_next]; exact avoids_later _ _ hd2) hb h4
  have he : ∀ ys : List Yield, (∀ e, Yield.err e ∉ ys) → errs ys = 0 := by
    intro ys
    induction ys with
    | nil => intro _; rfl
    | cons y ys ih =>
      intro h
      have := ih fun e he => h e (List.mem_cons_of_mem _ he)
      cases y with
      | err e => exact absurd List.mem_cons_self (h e)
      | _ => exact this
  have he := he _ hy
  have hst := hf.at_
  rw [hk] at hst
  cases hst
  obtain ⟨m1, m2⟩ := hf.mine k rfl
  obtain ⟨o1, o2⟩ := hf.open_ k rfl
  have hbd := hf.bound
  cases k with
  | feed sid q first n =>
    simp only [queueOf, Option.some.injEq] at m2
    subst m2
    have h0 : n = 0 := by
      apply Classical.byContradiction
      intro h0
      have := hw .done
      simp [Sock.step, hk, Sock.runTask, h0] at this
    have hl : l = [] := by
      cases l with
      | nil => rfl
      | cons m ms =>
        have := hw .done
        simp [Sock.step, hk, Sock.runTask, h0, hf.queue] at this
    subst hl h0
    simp only [sent, credit, total, List.map_nil, List.sum_nil, UInt32.toNat_zero, he] at o2 hbd
    omega
  | _ => exact absurd m2 nofun

/-- Two elements were asked for after the first one; the fourth waits, until the peer asks for more. -/
example : ∃ s, (Sock.init true).run [.call .rc [] [], .task 0 (.ok [] [1]), .recv (.requestN ⟨2, 2⟩), .task 0 .done,
      .task 0 (.ok [] [2]), .task 0 (.ok [] [3])] = some (.ok s) ∧
    s.out.countP (isElement 2) = 3 ∧ ∀ y, s.step (.task 0 y) = none := ⟨_, rfl, by decide, fun _ => rfl⟩

end Iota.Props.RustChannel
