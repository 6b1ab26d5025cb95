import Verif.Props.RustSocket

/-!
# C74, C76: how a Rust socket answers requests
-/

namespace Iota.Props.RustResponder
open Iota.Go Iota.Frames Iota.Rust Iota.Spec.RustSocket Iota.Lemmas.RustSocket

/-! ## C74: answers -/

/-- The stream of a task. -/
def sidOf : Rust.Task → UInt32
  | .rr sid => sid
  | .fnf sid => sid
  | .rsStart sid _ _ => sid
  | .rs sid => sid
  | .rcStart sid _ => sid
  | .rc sid => sid
  | .feed sid _ _ _ => sid

/-- Task `t` is at `st`, no other task belongs to stream `sid`, and the socket draws ids of the other parity. -/
structure Resp (s : Sock) (sid : UInt32) (t : Nat) (st : Option Rust.Task) : Prop where
  at_ : s.tasks[t]? = some st
  mine : ∀ k, st = some k → sidOf k = sid ∧ ∀ q f n, k ≠ .feed sid q f n
  other : ∀ t' k, t' ≠ t → s.tasks[t']? = some (some k) → sidOf k ≠ sid
  parity : s.next.toNat % 2 ≠ sid.toNat % 2

/-- What a task sends when it goes on with `y`, and what becomes of it. -/
def goesOn : Rust.Task → Yield → Option (List Frame × Option Rust.Task)
  | .rr sid, .ok md d => some ([.payload ⟨sid, md, d, false, true, true⟩], none)
  | .rr sid, .err e => some ([.error ⟨sid, 513, e⟩], none)
  | .rr _, .done => none
  | .fnf _, .ok _ _ => some ([], none)
  | .fnf sid, .err e => some ([.error ⟨sid, 513, e⟩], none)
  | .fnf _, .done => none
  | .rsStart sid _ _, _ => some ([], some (.rs sid))
  | .rcStart sid _, _ => some ([], some (.rc sid))
  | .rs sid, .ok md d => some ([.payload ⟨sid, md, d, false, false, true⟩], some (.rs sid))
  | .rs sid, .err e => some ([.error ⟨sid, 513, e⟩], some (.rs sid))
  | .rs sid, .done => some ([.payload ⟨sid, [], [], false, true, false⟩], none)
  | .rc sid, .ok md d => some ([.payload ⟨sid, md, d, false, false, true⟩], some (.rc sid))
  | .rc sid, .err e => some ([.error ⟨sid, 513, e⟩], some (.rc sid))
  | .rc sid, .done => some ([.payload ⟨sid, [], [], false, true, false⟩], none)
  | .feed _ _ _ _, _ => none

theorem runTask_tasks {s s' : Sock} {t : Nat} {y : Yield} {k : Rust.Task} (h : s.runTask t y k = some s') :
    ∃ st, s'.tasks = s.tasks.set t st ∧ (∀ k', st = some k' → sidOf k' = sidOf k) ∨ s'.tasks = s.tasks := by
  cases k <;> simp only [Sock.runTask] at h
  case feed sid q first n =>
    split at h
    · split at h
      · cases h; exact ⟨_, Or.inl ⟨rfl, fun _ e => by cases e; rfl⟩⟩
      · split at h
        · cases h
        · cases h; exact ⟨_, Or.inl ⟨rfl, fun _ e => by cases e⟩⟩
    · cases y <;> simp only at h
      · split at h <;> · cases h; exact ⟨_, Or.inl ⟨rfl, fun _ e => by cases e; rfl⟩⟩
      · cases h; exact ⟨_, Or.inl ⟨rfl, fun _ e => by cases e; rfl⟩⟩
      · cases h; exact ⟨_, Or.inl ⟨rfl, fun _ e => by cases e⟩⟩
  case rsStart => cases h; exact ⟨_, Or.inl ⟨rfl, fun _ e => by cases e; rfl⟩⟩
  case rcStart => cases h; exact ⟨_, Or.inl ⟨rfl, fun _ e => by cases e; rfl⟩⟩
  all_goals
    cases y <;> simp only at h <;> first
      | (cases h; exact ⟨none, Or.inl ⟨rfl, fun _ e => by cases e⟩⟩)
      | (cases h; exact ⟨none, Or.inr rfl⟩)
      | cases h

/-- The task of the request goes on. -/
theorem runTask_self {s s' : Sock} {t : Nat} {y : Yield} {k : Rust.Task} {sid : UInt32} (hk : sidOf k = sid)
    (hf : ∀ q f n, k ≠ .feed sid q f n) (hs : s.tasks[t]? = some (some k)) (h : s.runTask t y k = some s') :
    ∃ fs st, goesOn k y = some (fs, st) ∧ s'.out.filter (isResult sid) = s.out.filter (isResult sid) ++ fs ∧
      s'.tasks = s.tasks.set t st ∧ (∀ k', st = some k' → sidOf k' = sid ∧ ∀ q f n, k' ≠ .feed sid q f n) := by
  have hself : ∀ k0, s.tasks[t]? = some (some k0) → s.tasks = s.tasks.set t (some k0) := by
    intro k0 h0
    apply List.ext_getElem?
    intro j
    rw [List.getElem?_set]
    by_cases e : t = j
    · subst e
      rw [h0, if_pos rfl, if_pos (List.getElem?_eq_some_iff.mp h0).1]
    · rw [if_neg e]
  subst hk
  cases k with
  | feed sid q f n => exact absurd rfl (hf q f n)
  | rsStart sid md d =>
    simp only [Sock.runTask] at h
    cases h
    exact ⟨_, _, rfl, by simp, rfl, fun _ e => by cases e; exact ⟨rfl, fun _ _ _ => nofun⟩⟩
  | rcStart sid i =>
    simp only [Sock.runTask] at h
    cases h
    exact ⟨_, _, rfl, by simp [Sock.send, isResult], rfl, fun _ e => by cases e; exact ⟨rfl, fun _ _ _ => nofun⟩⟩
  | rr sid =>
    simp only [Sock.runTask] at h
    cases y <;> cases h
    · exact ⟨_, _, rfl, by simp [Sock.send, isResult, newPayload, sidOf]; decide, rfl, fun _ e => by cases e⟩
    · exact ⟨_, _, rfl, by simp [Sock.send, isResult, appError, sidOf, applicationError], rfl, fun _ e => by cases e⟩
  | fnf sid =>
    simp only [Sock.runTask] at h
    cases y <;> cases h
    · exact ⟨_, _, rfl, by simp, rfl, fun _ e => by cases e⟩
    · exact ⟨_, _, rfl, by simp [Sock.send, isResult, appError, sidOf, applicationError], rfl, fun _ e => by cases e⟩
  | rs sid =>
    simp only [Sock.runTask] at h
    cases y <;> cases h
    · exact ⟨_, _, rfl, by simp [Sock.send, isResult, nextFrame, newPayload, sidOf]; decide, hself _ hs,
        fun _ e => by cases e; exact ⟨rfl, fun _ _ _ => nofun⟩⟩
    · exact ⟨_, _, rfl, by simp [Sock.send, isResult, appError, sidOf, applicationError], hself _ hs,
        fun _ e => by cases e; exact ⟨rfl, fun _ _ _ => nofun⟩⟩
    · exact ⟨_, _, rfl, by simp [Sock.send, isResult, completeFrame, newPayload, sidOf]; decide, rfl, fun _ e => by cases e⟩
  | rc sid =>
    simp only [Sock.runTask] at h
    cases y <;> cases h
    · exact ⟨_, _, rfl, by simp [Sock.send, isResult, nextFrame, newPayload, sidOf]; decide, hself _ hs,
        fun _ e => by cases e; exact ⟨rfl, fun _ _ _ => nofun⟩⟩
    · exact ⟨_, _, rfl, by simp [Sock.send, isResult, appError, sidOf, applicationError], hself _ hs,
        fun _ e => by cases e; exact ⟨rfl, fun _ _ _ => nofun⟩⟩
    · exact ⟨_, _, rfl, by simp [Sock.send, isResult, completeFrame, newPayload, sidOf]; decide, rfl, fun _ e => by cases e⟩

/-- A task of another stream goes on. -/
theorem runTask_other {s s' : Sock} {t : Nat} {y : Yield} {k : Rust.Task} {sid : UInt32} (hk : sidOf k ≠ sid)
    (h : s.runTask t y k = some s') : s'.out.filter (isResult sid) = s.out.filter (isResult sid) := by
  cases k <;> simp only [Sock.runTask] at h <;> simp only [sidOf] at hk
  case feed sid' q first n =>
    split at h
    · split at h
      · cases h; rfl
      · split at h
        · cases h
        · cases h; simp [Sock.feedEnd, Sock.send, isResult, completeFrame, newPayload, hk]
    · cases y <;> simp only at h
      · split at h
        · cases h; simp [Sock.feedSent, Sock.send, isResult, newRequest]
        · cases h; simp [Sock.feedSent, Sock.send, isResult, nextFrame, newPayload, hk]
      · cases h; simp [Sock.send, isResult, appError, hk]
      · cases h; simp [Sock.feedEnd, Sock.send, isResult, completeFrame, newPayload, hk]
  case rsStart => cases h; rfl
  case rcStart => cases h; simp [Sock.send, isResult]
  all_goals
    cases y <;> simp only at h <;> first
      | (cases h; rfl)
      | (cases h; simp [Sock.send, isResult, appError, nextFrame, completeFrame, newPayload, hk])
      | cases h

theorem remove_tasks (s : Sock) (sid : UInt32) : (s.remove sid).tasks = s.tasks ∧ (s.remove sid).out = s.out := by
  unfold Sock.remove
  split <;> exact ⟨rfl, rfl⟩

theorem payload_out (s : Sock) (v : Payload) (sid : UInt32) : (s.onPayload v).tasks = s.tasks ∧
    (s.onPayload v).out.filter (isResult sid) = s.out.filter (isResult sid) := by
  have hc : (s.send (.cancel ⟨v.streamID⟩)).out.filter (isResult sid) = s.out.filter (isResult sid) := by
    simp [Sock.send, isResult]
  unfold Sock.onPayload
  split
  · exact ⟨rfl, rfl⟩
  · split
    · exact ⟨rfl, rfl⟩
    · split
      · rw [(remove_tasks _ _).1, (remove_tasks _ _).2]
        split <;> exact ⟨rfl, rfl⟩
      · split
        · rw [(remove_tasks _ _).1, (remove_tasks _ _).2]
          split
          · split
            · exact ⟨rfl, rfl⟩
            · exact ⟨rfl, hc⟩
          · exact ⟨rfl, rfl⟩
        · split
          · split
            · exact ⟨rfl, rfl⟩
            · exact ⟨rfl, hc⟩
          · exact ⟨rfl, rfl⟩

theorem cancel_out {s s' : Sock} {sid : UInt32} (h : s.onCancel sid = .ok s') : s'.tasks = s.tasks ∧ s'.out = s.out := by
  unfold Sock.onCancel at h
  split at h
  · cases h; exact ⟨rfl, rfl⟩
  · split at h
    · cases h; exact ⟨rfl, rfl⟩
    · split at h
      · split at h
        · cases h; rw [(remove_tasks _ _).1, (remove_tasks _ _).2]; exact ⟨rfl, rfl⟩
        · cases h
      · cases h; exact remove_tasks _ _

theorem error_out {s s' : Sock} {sid c : UInt32} {m : Bytes} (h : s.onError sid c m = .ok s') :
    s'.tasks = s.tasks ∧ s'.out = s.out := by
  unfold Sock.onError at h
  split at h
  · cases h; exact ⟨rfl, rfl⟩
  · split at h
    · cases h; exact ⟨rfl, rfl⟩
    · split at h
      · cases h; rw [(remove_tasks _ _).1, (remove_tasks _ _).2]; exact ⟨rfl, rfl⟩
      · cases h

/-- A frame arrives that is not a request or demand for stream `sid`: at most one task is added, of another stream, and
nothing is sent in answer to `sid`. -/
theorem process_out {s s' : Sock} {f : Frame} {sid : UInt32} (hf : f.streamID = sid → isRequesting f = false)
    (h : s.processOnce f = .ok s') :
    (∃ l, s'.tasks = s.tasks ++ l ∧ ∀ k, some k ∈ l → sidOf k ≠ sid) ∧
      s'.out.filter (isResult sid) = s.out.filter (isResult sid) := by
  cases f with
  | request v =>
    have hne : v.streamID ≠ sid := fun e => by have := hf e; simp [isRequesting] at this
    simp only [Sock.processOnce] at h
    split at h
    · cases h; exact ⟨⟨_, rfl, by simp [sidOf, hne]⟩, rfl⟩
    · split at h
      · cases h; exact ⟨⟨_, rfl, by simp [sidOf, hne]⟩, rfl⟩
      · split at h
        · cases h; exact ⟨⟨_, rfl, by simp [sidOf, hne]⟩, rfl⟩
        · cases h
          refine ⟨⟨[some (.rcStart v.streamID s.sinks.length)], ?_, by simp [sidOf, hne]⟩, ?_⟩
          · simp [Sock.spawn, Sock.register, (remove_tasks _ _).1]
          · simp [Sock.spawn, Sock.register, (remove_tasks _ _).2]
  | requestN v =>
    have hne : v.streamID ≠ sid := fun e => by have := hf e; simp [isRequesting] at this
    simp only [Sock.processOnce] at h
    cases h
    unfold Sock.onRequestN
    split
    · exact ⟨⟨[], by simp [Sock.send], by simp⟩, by simp [Sock.send, isResult, appError, hne]⟩
    · split
      · exact ⟨⟨[], by simp, by simp⟩, rfl⟩
      · exact ⟨⟨[], by simp [Sock.send], by simp⟩, by simp [Sock.send, isResult, appError, hne]⟩
  | payload v =>
    simp only [Sock.processOnce] at h
    cases h
    obtain ⟨h1, h2⟩ := payload_out s v sid
    exact ⟨⟨[], by rw [h1]; simp, by simp⟩, h2⟩
  | cancel v =>
    simp only [Sock.processOnce] at h
    obtain ⟨h1, h2⟩ := cancel_out h
    exact ⟨⟨[], by rw [h1]; simp, by simp⟩, by rw [h2]⟩
  | error v =>
    simp only [Sock.processOnce] at h
    obtain ⟨h1, h2⟩ := error_out h
    exact ⟨⟨[], by rw [h1]; simp, by simp⟩, by rw [h2]⟩

theorem call_out (s : Sock) (m : Method) (md d : Bytes) (sid : UInt32) (hp : s.next ≠ sid) :
    (∃ l, (s.request m md d).tasks = s.tasks ++ l ∧ ∀ k, some k ∈ l → sidOf k ≠ sid) ∧
      (s.request m md d).out.filter (isResult sid) = s.out.filter (isResult sid) := by
  have hd : s.draw.tasks = s.tasks ∧ s.draw.out = s.out := ⟨rfl, rfl⟩
  cases m with
  | fnf => exact ⟨⟨[], by simp [Sock.request, Sock.send, hd.1], by simp⟩, by simp [Sock.request, Sock.send, isResult, newRequest, hd.2]⟩
  | rr =>
    exact ⟨⟨[], by simp [Sock.request, Sock.send, Sock.register, (remove_tasks _ _).1, hd.1], by simp⟩,
      by simp [Sock.request, Sock.send, Sock.register, (remove_tasks _ _).2, isResult, newRequest, hd.2]⟩
  | rs =>
    exact ⟨⟨[], by simp [Sock.request, Sock.send, Sock.register, (remove_tasks _ _).1, hd.1], by simp⟩,
      by simp [Sock.request, Sock.send, Sock.register, (remove_tasks _ _).2, isResult, newRequest, hd.2]⟩
  | rc =>
    exact ⟨⟨[some (.feed s.next s.queues.length true 1)],
      by simp [Sock.request, Sock.spawn, Sock.register, (remove_tasks _ _).1, hd.1], by simp [sidOf, hp]⟩,
      by simp [Sock.request, Sock.spawn, Sock.register, (remove_tasks _ _).2, hd.2]⟩

theorem Resp.append {s s' : Sock} {sid : UInt32} {t : Nat} {st : Option Rust.Task} {l : List (Option Rust.Task)}
    (h : Resp s sid t st) (h1 : s'.tasks = s.tasks ++ l) (h2 : ∀ k, some k ∈ l → sidOf k ≠ sid)
    (h3 : s'.next.toNat % 2 ≠ sid.toNat % 2) : Resp s' sid t st := by
  have ht := (List.getElem?_eq_some_iff.mp h.at_).1
  refine ⟨by rw [h1, List.getElem?_append_left ht]; exact h.at_, h.mine, fun t' k hne hk => ?_, h3⟩
  rw [h1] at hk
  by_cases hlt : t' < s.tasks.length
  · rw [List.getElem?_append_left hlt] at hk
    exact h.other t' k hne hk
  · rw [List.getElem?_append_right (by omega)] at hk
    exact h2 k (List.mem_of_getElem? hk)

theorem parity_add (n : UInt32) : (n + 2).toNat % 2 = n.toNat % 2 := by
  rw [UInt32.toNat_add]
  have := n.toNat_lt
  have : (2 : UInt32).toNat = 2 := rfl
  omega

/-- What the task does from now on. -/
def ahead : Option Rust.Task → List Yield → List Frame
  | _, [] => []
  | none, _ => []
  | some k, y :: ys =>
    match goesOn k y with
    | none => []
    | some (fs, st) => fs ++ ahead st ys

theorem run_ahead (as : List SockAct) : ∀ {s s' : Sock} {sid : UInt32} {t : Nat} {st : Option Rust.Task},
    Resp s sid t st → (∀ f ∈ arrived sid as, isRequesting f = false) → s.run as = some (.ok s') →
    s'.out.filter (isResult sid) = s.out.filter (isResult sid) ++ ahead st (yields t as) := by
  induction as with
  | nil =>
    intro s s' sid t st h _ hr
    simp only [Sock.run] at hr
    cases hr
    simp [yields, ahead]
  | cons a as ih =>
    intro s s' sid t st h ha hr
    obtain ⟨s1, h1, h2⟩ := run_cons hr
    cases a with
    | recv f =>
      simp only [Sock.step, Option.some.injEq] at h1
      have hf : f.streamID = sid → isRequesting f = false := fun e => ha f (by simp [arrived, e])
      obtain ⟨⟨l, g1, g2⟩, g3⟩ := process_out hf h1
      have hn : s1.next.toNat % 2 ≠ sid.toNat % 2 := by rw [processOnce_next h1]; exact h.parity
      rw [ih (h.append g1 g2 hn) (fun f' hf' => ha f' (by simp only [arrived]; split <;> simp [hf'])) h2, g3]
      rfl
    | call m md d =>
      simp only [Sock.step, Option.some.injEq] at h1
      cases h1
      have hne : s.next ≠ sid := fun e => h.parity (by rw [e])
      obtain ⟨⟨l, g1, g2⟩, g3⟩ := call_out s m md d sid hne
      rw [ih (h.append g1 g2 (by rw [call_next, parity_add]; exact h.parity)) ha h2, g3]
      rfl
    | drop j =>
      simp only [Sock.step, Option.some.injEq] at h1
      cases h1
      exact ih (s := { s with sinks := s.sinks.modify j fun k => { k with live := false } })
        ⟨h.at_, h.mine, h.other, h.parity⟩ ha h2
    | task t' y =>
      simp only [Sock.step] at h1
      split at h1
      · rename_i k hk
        cases hx : s.runTask t' y k with
        | none => rw [hx] at h1; cases h1
        | some s2 =>
          rw [hx] at h1
          simp only [Option.map_some, Option.some.injEq, Res.ok.injEq] at h1
          subst h1
          have hn : s2.next.toNat % 2 ≠ sid.toNat % 2 := by rw [(runTask_core hx).2.2]; exact h.parity
          by_cases e : t' = t
          · subst e
            have hst := h.at_
            rw [hk] at hst
            cases hst
            obtain ⟨hk1, hk2⟩ := h.mine k rfl
            obtain ⟨fs, st', g1, g2, g3, g4⟩ := runTask_self hk1 hk2 hk hx
            have hlt := (List.getElem?_eq_some_iff.mp hk).1
            have hnew : Resp s2 sid t' st' := by
              refine ⟨by rw [g3]; simp [List.getElem?_set, hlt], g4, fun t2 k2 hne hk2 => ?_, hn⟩
              rw [g3, List.getElem?_set_ne (Ne.symm hne)] at hk2
              exact h.other t2 k2 hne hk2
            rw [ih hnew ha h2, g2]
            simp [yields, ahead, g1]
          · have hsid := h.other t' k e hk
            have hnew : Resp s2 sid t st := by
              obtain ⟨st', hs | hs⟩ := runTask_tasks hx
              · refine ⟨?_, h.mine, fun t2 k2 hne hk2 => ?_, hn⟩
                · rw [hs.1, List.getElem?_set_ne e]; exact h.at_
                · rw [hs.1] at hk2
                  by_cases e2 : t' = t2
                  · subst e2
                    have hlt := (List.getElem?_eq_some_iff.mp hk).1
                    simp [List.getElem?_set, hlt] at hk2
                    rw [hs.2 k2 hk2]; exact hsid
                  · rw [List.getElem?_set_ne e2] at hk2
                    exact h.other t2 k2 hne hk2
              · exact ⟨by rw [hs]; exact h.at_, h.mine, by rw [hs]; exact h.other, hn⟩
            rw [ih hnew ha h2, runTask_other hsid hx]
            simp [yields, e]
      · cases h1

theorem ahead_many (sid : UInt32) (ys : List Yield) : ahead (some (.rs sid)) ys = answerMany sid ys ∧
    ahead (some (.rc sid)) ys = answerMany sid ys := by
  induction ys with
  | nil => exact ⟨rfl, rfl⟩
  | cons y ys ih =>
    cases y with
    | ok md d => simp [ahead, goesOn, answerMany, ih.1, ih.2]
    | err e => simp [ahead, goesOn, answerMany, ih.1, ih.2]
    | done => cases ys <;> simp [ahead, goesOn, answerMany]

/-- The task made for a request. -/
theorem request_new {s s' : Sock} {v : RequestPayload} (h : s.processOnce (.request v) = .ok s')
    (ho : ∀ (t : Nat) k, s.tasks[t]? = some (some k) → sidOf k ≠ v.streamID) (hp : s.next.toNat % 2 ≠ v.streamID.toNat % 2) :
    ∃ k, Resp s' v.streamID s.tasks.length (some k) ∧ s'.out = s.out ∧
      ∀ ys, ahead (some k) ys = answer v.frameType v.streamID ys := by
  have key : ∀ k : Rust.Task, sidOf k = v.streamID → (∀ q f n, k ≠ .feed v.streamID q f n) →
      s'.tasks = s.tasks ++ [some k] → Resp s' v.streamID s.tasks.length (some k) := by
    intro k h1 h2 h3
    refine ⟨by rw [h3]; simp, fun k' e => by cases e; exact ⟨h1, h2⟩, fun t' k' hne hk => ?_,
      by rw [processOnce_next h]; exact hp⟩
    rw [h3] at hk
    by_cases hlt : t' < s.tasks.length
    · rw [List.getElem?_append_left hlt] at hk
      exact ho t' k' hk
    · have := (List.getElem?_eq_some_iff.mp hk).1
      simp at this
      omega
  simp only [Sock.processOnce] at h
  split at h
  · rename_i e
    cases h
    refine ⟨_, key (.fnf v.streamID) rfl (fun _ _ _ => nofun) rfl, rfl, fun ys => ?_⟩
    rw [answer, if_pos e]
    cases ys with
    | nil => rfl
    | cons y ys => cases y <;> cases ys <;> rfl
  · rename_i e1
    split at h
    · rename_i e
      cases h
      refine ⟨_, key (.rr v.streamID) rfl (fun _ _ _ => nofun) rfl, rfl, fun ys => ?_⟩
      rw [answer, if_neg e1, if_pos e]
      cases ys with
      | nil => rfl
      | cons y ys => cases y <;> cases ys <;> rfl
    · rename_i e2
      split at h
      · cases h
        refine ⟨_, key (.rsStart v.streamID v.metadata v.data) rfl (fun _ _ _ => nofun) rfl, rfl, fun ys => ?_⟩
        rw [answer, if_neg e1, if_neg e2]
        cases ys with
        | nil => rfl
        | cons y ys => simp [ahead, goesOn, (ahead_many _ _).1]
      · cases h
        refine ⟨_, key (.rcStart v.streamID s.sinks.length) rfl (fun _ _ _ => nofun) ?_, ?_, fun ys => ?_⟩
        · simp [Sock.spawn, Sock.register, (remove_tasks _ _).1]
        · simp [Sock.spawn, Sock.register, (remove_tasks _ _).2]
        rw [answer, if_neg e1, if_neg e2]
        cases ys with
        | nil => rfl
        | cons y ys => simp [ahead, goesOn, (ahead_many _ _).2]

/-- No task belongs to the stream, and nothing was sent for it. -/
structure Fresh (s : Sock) (sid : UInt32) : Prop where
  tasks : ∀ (t : Nat) k, s.tasks[t]? = some (some k) → sidOf k ≠ sid
  out : s.out.filter (isResult sid) = []
  parity : s.next.toNat % 2 ≠ sid.toNat % 2

theorem Fresh.append {s s' : Sock} {sid : UInt32} {l : List (Option Rust.Task)} (h : Fresh s sid)
    (h1 : s'.tasks = s.tasks ++ l) (h2 : ∀ k, some k ∈ l → sidOf k ≠ sid) (h3 : s'.next.toNat % 2 ≠ sid.toNat % 2)
    (h4 : s'.out.filter (isResult sid) = s.out.filter (isResult sid)) : Fresh s' sid := by
  refine ⟨fun t k hk => ?_, by rw [h4]; exact h.out, h3⟩
  rw [h1] at hk
  by_cases hlt : t < s.tasks.length
  · rw [List.getElem?_append_left hlt] at hk
    exact h.tasks t k hk
  · rw [List.getElem?_append_right (by omega)] at hk
    exact h2 k (List.mem_of_getElem? hk)

theorem Fresh.run (as : List SockAct) : ∀ {s s' : Sock} {sid : UInt32}, Fresh s sid →
    (∀ f ∈ arrived sid as, isRequesting f = false) → s.run as = some (.ok s') → Fresh s' sid := by
  induction as with
  | nil => intro s s' sid h _ hr; simp only [Sock.run] at hr; cases hr; exact h
  | cons a as ih =>
    intro s s' sid h ha hr
    obtain ⟨s1, h1, h2⟩ := run_cons hr
    cases a with
    | recv f =>
      simp only [Sock.step, Option.some.injEq] at h1
      have hf : f.streamID = sid → isRequesting f = false := fun e => ha f (by simp [arrived, e])
      obtain ⟨⟨l, g1, g2⟩, g3⟩ := process_out hf h1
      have hn : s1.next.toNat % 2 ≠ sid.toNat % 2 := by rw [processOnce_next h1]; exact h.parity
      exact ih (h.append g1 g2 hn g3) (fun f' hf' => ha f' (by simp only [arrived]; split <;> simp [hf'])) h2
    | call m md d =>
      simp only [Sock.step, Option.some.injEq] at h1
      cases h1
      have hne : s.next ≠ sid := fun e => h.parity (by rw [e])
      obtain ⟨⟨l, g1, g2⟩, g3⟩ := call_out s m md d sid hne
      exact ih (h.append g1 g2 (by rw [call_next, parity_add]; exact h.parity) g3) ha h2
    | drop j =>
      simp only [Sock.step, Option.some.injEq] at h1
      cases h1
      exact ih (s := { s with sinks := s.sinks.modify j fun k => { k with live := false } })
        ⟨h.tasks, h.out, h.parity⟩ ha h2
    | task t' y =>
      simp only [Sock.step] at h1
      split at h1
      · rename_i k hk
        cases hx : s.runTask t' y k with
        | none => rw [hx] at h1; cases h1
        | some s2 =>
          rw [hx] at h1
          simp only [Option.map_some, Option.some.injEq, Res.ok.injEq] at h1
          subst h1
          have hn : s2.next.toNat % 2 ≠ sid.toNat % 2 := by rw [(runTask_core hx).2.2]; exact h.parity
          have hsid := h.tasks t' k hk
          refine ih ⟨?_, by rw [runTask_other hsid hx]; exact h.out, hn⟩ ha h2
          obtain ⟨st', hs | hs⟩ := runTask_tasks hx
          · intro t2 k2 hk2
            rw [hs.1] at hk2
            by_cases e2 : t' = t2
            · subst e2
              have hlt := (List.getElem?_eq_some_iff.mp hk).1
              simp [List.getElem?_set, hlt] at hk2
              rw [hs.2 k2 hk2]; exact hsid
            · rw [List.getElem?_set_ne e2] at hk2
              exact h.tasks t2 k2 hk2
          · rw [hs]; exact h.tasks
      · cases h1

theorem remove_channels (s : Sock) (sid : UInt32) : (s.remove sid).channels = s.channels := by
  unfold Sock.remove
  split <;> rfl

theorem process_channels {s s' : Sock} {f : Frame} (h : s.processOnce f = .ok s') : s'.channels = s.channels := by
  cases f with
  | request v =>
    simp only [Sock.processOnce] at h
    split at h
    · cases h; rfl
    · split at h
      · cases h; rfl
      · split at h
        · cases h; rfl
        · cases h; simp [Sock.spawn, Sock.register, remove_channels]
  | requestN v =>
    simp only [Sock.processOnce] at h
    cases h
    unfold Sock.onRequestN
    split
    · rfl
    · split <;> rfl
  | payload v =>
    simp only [Sock.processOnce] at h
    cases h
    unfold Sock.onPayload
    split
    · rfl
    · split
      · rfl
      · split
        · rw [remove_channels]; split <;> rfl
        · split
          · rw [remove_channels]
            split
            · split <;> rfl
            · rfl
          · split
            · split <;> rfl
            · rfl
  | cancel v =>
    simp only [Sock.processOnce, Sock.onCancel] at h
    split at h
    · cases h; rfl
    · split at h
      · cases h; rfl
      · split at h
        · split at h
          · cases h; rw [remove_channels]; rfl
          · cases h
        · cases h; exact remove_channels _ _
  | error v =>
    simp only [Sock.processOnce, Sock.onError] at h
    split at h
    · cases h; rfl
    · split at h
      · cases h; rfl
      · split at h
        · cases h; rw [remove_channels]; rfl
        · cases h

theorem call_channels (s : Sock) (m : Method) (md d : Bytes) (x : UInt32 × Nat) (hx : x ∈ (s.request m md d).channels) :
    x ∈ s.channels ∨ x.1 = s.next := by
  cases m with
  | fnf => exact Or.inl hx
  | rr => exact Or.inl (by simpa [Sock.request, Sock.send, Sock.register, remove_channels, Sock.draw] using hx)
  | rs => exact Or.inl (by simpa [Sock.request, Sock.send, Sock.register, remove_channels, Sock.draw] using hx)
  | rc =>
    simp only [Sock.request, Sock.spawn, mapInsert, List.mem_append, List.mem_singleton] at hx
    rcases hx with hx | hx
    · exact Or.inl (mem_remove.mp hx).1
    · exact Or.inr (by rw [hx])

theorem task_channels {s s' : Sock} {t : Nat} {y : Yield} {k : Rust.Task} (h : s.runTask t y k = some s') :
    ∀ x ∈ s'.channels, x ∈ s.channels := by
  have hrem : ∀ (m : List (UInt32 × Nat)) k x, x ∈ mapRemove m k → x ∈ m := fun m k x hx => (mem_remove.mp hx).1
  cases k <;> simp only [Sock.runTask] at h
  case feed sid q first n =>
    split at h
    · split at h
      · cases h; exact fun _ hx => hx
      · split at h
        · cases h
        · cases h; exact fun _ hx => hrem _ _ _ hx
    · cases y <;> simp only at h
      · split at h <;> · cases h; exact fun _ hx => hx
      · cases h; exact fun _ hx => hx
      · cases h; exact fun _ hx => hrem _ _ _ hx
  case rsStart => cases h; exact fun _ hx => hx
  case rcStart => cases h; exact fun _ hx => hx
  all_goals
    cases y <;> simp only at h <;> first
      | (cases h; exact fun _ hx => hx)
      | cases h

/-- **C74 (partial)** Full statement: a Rust socket answers each request with what its handler yields, in the form RSocket
asks for. Proved, for every request under an id the peer uses once (of the peer's parity), whatever happened before and
whatever happens on other streams: the payloads and errors sent for it are exactly `answer` of what the handler yielded
so far. Missing: demand frames for the stream, which are answered with an error (C76, `demand_refuted`), and failing streams,
whose answer is not well-formed (`failing_stream_refuted`). -/
theorem answers_partial (guest : Bool) (as bs : List SockAct) (v : RequestPayload) (s1 s : Sock)
    (h1 : (Sock.init guest).run as = some (.ok s1)) (h2 : s1.run (.recv (.request v) :: bs) = some (.ok s))
    (hp : v.streamID.toNat % 2 = if guest then 1 else 0)
    (ha : ∀ f ∈ arrived v.streamID as, isRequesting f = false)
    (hb : ∀ f ∈ arrived v.streamID bs, isRequesting f = false) :
    s.out.filter (isResult v.streamID) = answer v.frameType v.streamID (yields s1.tasks.length bs) := by
  have hf : Fresh s1 v.streamID := by
    refine Fresh.run as ⟨fun t k hk => by simp [Sock.init] at hk, rfl, ?_⟩ ha h1
    rw [hp]
    cases guest <;> decide
  obtain ⟨s2, h3, h4⟩ := run_cons h2
  simp only [Sock.step, Option.some.injEq] at h3
  obtain ⟨k, g1, g2, g3⟩ := request_new h3 hf.tasks hf.parity
  rw [run_ahead bs g1 hb h4, g2, hf.out, g3]
  rfl

theorem answerMany_ok (sid : UInt32) (ys : List Yield) (h : ∀ e, Yield.err e ∉ ys) : wellFormed (answerMany sid ys) = true := by
  induction ys with
  | nil => rfl
  | cons y ys ih =>
    have ih := ih fun e he => h e (List.mem_cons_of_mem _ he)
    cases y with
    | ok md d => simpa [answerMany, wellFormed] using ih
    | err e => exact absurd (List.mem_cons_self) (h e)
    | done => rfl

theorem wellFormed_cons_payload (sid : UInt32) (md d : Bytes) (fs : List Frame) :
    wellFormed (.payload ⟨sid, md, d, false, false, true⟩ :: fs) = wellFormed fs := by simp [wellFormed]

/-- **C74 (partial)** The answer to a request is one RSocket allows, if its handler does not fail, or if it is a request
for at most one result. -/
theorem answer_wellFormed_partial (t : FrameType) (sid : UInt32) (ys : List Yield)
    (h : t = tRequestResponse ∨ t = tRequestFNF ∨ ∀ e, Yield.err e ∉ ys) : wellFormed (answer t sid ys) = true := by
  unfold answer
  split
  · unfold answerNone; split <;> rfl
  · split
    · unfold answerOne; split <;> rfl
    · rename_i h1 h2
      have h := (h.resolve_left h2).resolve_left h1
      exact answerMany_ok sid _ fun e he => h e (List.mem_of_mem_tail he)

/-- A request for a single result and a stream at the same time. -/
example : ∃ s, (Sock.init true).run [.recv (.request ⟨tRequestStream, 1, [], [7], false, false, 5⟩),
      .recv (.request ⟨tRequestResponse, 3, [], [8], false, false, 0⟩), .task 0 .done, .task 0 (.ok [] [1]),
      .task 1 (.ok [] [9]), .task 0 (.ok [] [2]), .task 0 .done] = some (.ok s) ∧
    s.out.filter (isResult 1) = [.payload ⟨1, [], [1], false, false, true⟩, .payload ⟨1, [], [2], false, false, true⟩,
      .payload ⟨1, [], [], false, true, false⟩] ∧
    s.out.filter (isResult 3) = [.payload ⟨3, [], [9], false, true, true⟩] :=
  ⟨_, rfl, by decide, by decide⟩

/-- **C74 is false of the code** for a stream that fails: after the error, which ends the stream, completion is sent as
well (and a handler may go on with elements). -/
theorem failing_stream_refuted : ∃ s, (Sock.init true).run [.recv (.request ⟨tRequestStream, 1, [], [7], false, false, 5⟩),
      .task 0 .done, .task 0 (.err [1]), .task 0 .done] = some (.ok s) ∧
    s.out = [.error ⟨1, 513, [1]⟩, .payload ⟨1, [], [], false, true, false⟩] ∧ wellFormed s.out = false :=
  ⟨_, rfl, by decide, by decide⟩

/-- The peer's ids are not in the table of channels: a socket draws its own ids from the other parity. -/
theorem channels_own (guest : Bool) (as : List SockAct) : ∀ {s s' : Sock},
    (s.next.toNat % 2 = (if guest then 0 else 1) ∧ ∀ x ∈ s.channels, x.1.toNat % 2 = if guest then 0 else 1) →
    s.run as = some (.ok s') → ∀ x ∈ s'.channels, x.1.toNat % 2 = if guest then 0 else 1 := by
  induction as with
  | nil => intro s s' h hr; simp only [Sock.run] at hr; cases hr; exact h.2
  | cons a as ih =>
    intro s s' h hr
    obtain ⟨s1, h1, h2⟩ := run_cons hr
    refine ih ⟨?_, ?_⟩ h2
    · rw [step_next h1]
      cases a <;> simp only [drawn] <;> first | (rw [show s.next + UInt32.ofNat (2 * (0 + 1)) = s.next + 2 from rfl, parity_add]; exact h.1) | simpa using h.1
    · cases a with
      | recv f =>
        simp only [Sock.step, Option.some.injEq] at h1
        rw [process_channels h1]
        exact h.2
      | call m md d =>
        simp only [Sock.step, Option.some.injEq] at h1
        cases h1
        intro x hx
        rcases call_channels s m md d x hx with hx | hx
        · exact h.2 x hx
        · rw [hx]; exact h.1
      | drop j =>
        simp only [Sock.step, Option.some.injEq] at h1
        cases h1
        exact h.2
      | task t y =>
        simp only [Sock.step] at h1
        split at h1
        · rename_i k hk
          cases hx : s.runTask t y k with
          | none => rw [hx] at h1; cases h1
          | some s2 =>
            rw [hx] at h1
            simp only [Option.map_some, Option.some.injEq, Res.ok.injEq] at h1
            subst h1
            exact fun x hx' => h.2 x (task_channels hx x hx')
        · cases h1

/-- **C76 is false of the code**: demand a peer tells for a stream that is being answered is always refused, with an error
for that stream (which ends it for the caller), and never has an effect on the answer. -/
theorem demand_refuted (guest : Bool) (as : List SockAct) (s : Sock) (sid n : UInt32)
    (h : (Sock.init guest).run as = some (.ok s)) (hp : sid.toNat % 2 = if guest then 1 else 0) :
    ∃ msg, s.step (.recv (.requestN ⟨sid, n⟩)) = some (.ok (s.send (.error ⟨sid, 513, msg⟩))) := by
  have hc := channels_own guest as (s := Sock.init guest) ⟨by cases guest <;> rfl, fun x hx => by simp [Sock.init] at hx⟩ h
  simp only [Sock.step, Sock.processOnce, Sock.onRequestN]
  by_cases h0 : n = 0
  · rw [if_pos h0]; exact ⟨_, rfl⟩
  · rw [if_neg h0]
    cases hg : mapGet s.channels sid with
    | none => exact ⟨_, rfl⟩
    | some q =>
      have := hc _ (mapGet_mem hg)
      rw [hp] at this
      cases guest <;> simp at this

end Iota.Props.RustResponder
