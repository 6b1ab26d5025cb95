import Verif.Props.RustPair
import Verif.Props.RustChannel
import Verif.Spec.RustChannels

/-!
# Lemmas: channels between a host and a guest written in Rust
-/

namespace Iota.Lemmas.RustChannels
open Iota.Go Iota.Frames Iota.Rust Iota.Spec.RustSocket Iota.Spec.RustPair Iota.Spec.RustChannels Iota.Lemmas.RustSocket
open Iota.Props.RustResponder Iota.Props.RustPair
open Iota.Props.RustChannel (queueOf process_chan call_chan task_chan Avoids remove_rest)

/-! ## Whoever does not drop what it waits for cancels nothing -/

/-- The receiving ends of channels do not come back. -/
def Ages (s s' : Sock) : Prop :=
  ∀ (i : Nat) (k : Sink), s.sinks[i]? = some k → ∃ k', s'.sinks[i]? = some k' ∧ (k'.live = true → k.live = true)

theorem Ages.refl (s : Sock) : Ages s s := fun _ k h => ⟨k, h, id⟩

theorem Ages.trans {a b c : Sock} (h1 : Ages a b) (h2 : Ages b c) : Ages a c := fun i k h => by
  obtain ⟨k1, g1, g2⟩ := h1 i k h
  obtain ⟨k2, g3, g4⟩ := h2 i k1 g1
  exact ⟨k2, g3, fun hl => g2 (g4 hl)⟩

theorem Ages.same {s s' : Sock} (h : s'.sinks = s.sinks) : Ages s s' := fun _ k hk => ⟨k, by rw [h]; exact hk, id⟩

theorem Ages.modify {s s' : Sock} {j : Nat} {f : Sink → Sink} (h : s'.sinks = s.sinks.modify j f)
    (hf : ∀ k, (f k).live = true → k.live = true) : Ages s s' := fun i k hk => by
  rw [h, List.getElem?_modify, hk]
  by_cases e : j = i
  · exact ⟨f k, by simp [e], hf k⟩
  · exact ⟨k, by simp [e], id⟩

theorem Ages.put (s : Sock) (i : Nat) (x : Signal) : Ages s (s.put i x) :=
  Ages.modify rfl fun k h => by
    split at h
    · assumption
    · exact h

theorem Ages.remove (s : Sock) (sid : UInt32) : Ages s (s.remove sid) := by
  unfold Sock.remove
  split
  · exact Ages.refl s
  · exact Ages.modify rfl fun _ h => h

theorem Ages.register (s : Sock) (sid : UInt32) (w : Wait) (f : List Signal) : Ages s (s.register sid w f) := fun i k hk => by
  obtain ⟨k', g1, g2⟩ := Ages.remove s sid i k hk
  refine ⟨k', ?_, g2⟩
  have := (List.getElem?_eq_some_iff.mp g1).1
  simp only [Sock.register]
  rw [List.getElem?_append_left this]
  exact g1

theorem Ages.payload (s : Sock) (v : Payload) : Ages s (s.onPayload v) := by
  have hc : Ages s (s.send (.cancel ⟨v.streamID⟩)) := Ages.same rfl
  unfold Sock.onPayload
  split
  · exact Ages.refl s
  · split
    · exact Ages.refl s
    · split
      · refine Ages.trans ?_ (Ages.remove _ _)
        split
        · exact Ages.put _ _ _
        · exact Ages.refl s
      · split
        · refine Ages.trans ?_ (Ages.remove _ _)
          split
          · split
            · exact Ages.put _ _ _
            · exact hc
          · exact Ages.refl s
        · split
          · split
            · exact Ages.put _ _ _
            · exact hc
          · exact Ages.refl s

theorem Ages.process {s s' : Sock} {f : Frame} (h : s.processOnce f = .ok s') : Ages s s' := by
  cases f with
  | request v =>
    simp only [Sock.processOnce] at h
    split at h
    · cases h; exact Ages.same rfl
    · split at h
      · cases h; exact Ages.same rfl
      · split at h
        · cases h; exact Ages.same rfl
        · cases h; exact (Ages.register s _ _ _).trans (Ages.same rfl)
  | requestN v => simp only [Sock.processOnce] at h; cases h; exact Ages.same (requestN_core s _ _).2.1
  | payload v => simp only [Sock.processOnce] at h; cases h; exact Ages.payload s v
  | cancel v =>
    simp only [Sock.processOnce, Sock.onCancel] at h
    split at h
    · cases h; exact Ages.refl s
    · split at h
      · cases h; exact Ages.refl s
      · split at h
        · split at h
          · cases h; exact (Ages.put _ _ _).trans (Ages.remove _ _)
          · cases h
        · cases h; exact Ages.remove _ _
  | error v =>
    simp only [Sock.processOnce, Sock.onError] at h
    split at h
    · cases h; exact Ages.refl s
    · split at h
      · cases h; exact Ages.refl s
      · split at h
        · cases h; exact (Ages.put _ _ _).trans (Ages.remove _ _)
        · cases h

theorem Ages.call (s : Sock) (m : Method) (md d : Bytes) : Ages s (s.request m md d) := by
  have hd : Ages s s.draw := Ages.same rfl
  cases m with
  | fnf => exact hd
  | rr => exact hd.trans ((Ages.register _ _ _ _).trans (Ages.same rfl))
  | rs => exact hd.trans ((Ages.register _ _ _ _).trans (Ages.same rfl))
  | rc => exact hd.trans ((Ages.register s.draw s.next .rc []).trans (Ages.same rfl))

theorem Ages.step {s s' : Sock} {a : SockAct} (h : s.step a = some (.ok s')) : Ages s s' := by
  cases a with
  | recv f => simp only [Sock.step, Option.some.injEq] at h; exact Ages.process h
  | call m md d => simp only [Sock.step, Option.some.injEq] at h; cases h; exact Ages.call s m md d
  | drop j =>
    simp only [Sock.step, Option.some.injEq] at h
    cases h
    exact Ages.modify rfl fun k hk => by cases hk
  | task t y =>
    simp only [Sock.step] at h
    split at h
    · rename_i k hk
      cases hx : s.runTask t y k with
      | none => rw [hx] at h; cases h
      | some s1 => rw [hx] at h; cases h; exact Ages.same (runTask_core hx).2.1
    · cases h

theorem Ages.run (as : List SockAct) : ∀ {s s' : Sock}, s.run as = some (.ok s') → Ages s s' := by
  induction as with
  | nil => intro s s' h; simp only [Sock.run] at h; cases h; exact Ages.refl s
  | cons a as ih =>
    intro s s' h
    obtain ⟨s1, h1, h2⟩ := run_cons h
    exact (Ages.step h1).trans (ih h2)

/-- A frame that cancels a stream. -/
def cancelFor (sid : UInt32) (f : Frame) : Bool := isCancel f && f.streamID = sid

/-- A payload makes the socket cancel only if nobody waits for it any more. -/
theorem payload_cancel (s : Sock) (v : Payload) : (s.onPayload v).out = s.out ∨
    (s.onPayload v).out = s.out ++ [.cancel ⟨v.streamID⟩] ∧
      ∃ i k, mapGet s.handlers v.streamID = some i ∧ s.sinks[i]? = some k ∧ k.live = false := by
  unfold Sock.onPayload
  split
  · exact .inl rfl
  · rename_i i hi
    split
    · exact .inl rfl
    · rename_i k hk
      have hd : ¬ k.live = true → ∃ i k, mapGet s.handlers v.streamID = some i ∧ s.sinks[i]? = some k ∧ k.live = false :=
        fun hl => ⟨i, k, hi, hk, by simpa using hl⟩
      split
      · rw [(remove_tasks _ _).2]
        split <;> exact .inl rfl
      · split
        · rw [(remove_tasks _ _).2]
          split
          · split
            · exact .inl rfl
            · rename_i hl; exact .inr ⟨rfl, hd hl⟩
          · exact .inl rfl
        · split
          · split
            · exact .inl rfl
            · rename_i hl; exact .inr ⟨rfl, hd hl⟩
          · exact .inl rfl

theorem filter_none {α : Type} {q : α → Bool} {l : List α} (h : ∀ x ∈ l, q x = false) : l.filter q = [] :=
  List.filter_eq_nil_iff.mpr fun x hx => by rw [h x hx]; simp

/-- If sink `i` is the only one for `sid` and still waited for, a step sends no `CANCEL` for `sid`. -/
theorem step_cancels {s s' : Sock} {a : SockAct} {sid : UInt32} {i : Nat} (hs : ∀ x ∈ s.handlers, x.1 = sid → x.2 = i)
    (hl : ∀ k, s.sinks[i]? = some k → k.live = true) (h : s.step a = some (.ok s')) :
    s'.out.filter (cancelFor sid) = s.out.filter (cancelFor sid) := by
  cases a with
  | recv f =>
    cases f with
    | payload v =>
      simp only [Sock.step, Sock.processOnce, Option.some.injEq] at h
      cases h
      rcases payload_cancel s v with he | ⟨he, j, k, g1, g2, g3⟩
      · rw [he]
      · rw [he, List.filter_append]
        by_cases hv : v.streamID = sid
        · have := hs _ (mapGet_mem g1) hv
          simp only at this
          rw [this] at g2
          rw [hl k g2] at g3
          cases g3
        · simp [cancelFor, isCancel, Frame.streamID, hv]
    | cancel v =>
      simp only [Sock.step, Sock.processOnce, Option.some.injEq] at h
      rw [(cancel_out h).2]
    | error v =>
      simp only [Sock.step, Sock.processOnce, Option.some.injEq] at h
      rw [(error_out h).2]
    | requestN v =>
      simp only [Sock.step, Sock.processOnce, Option.some.injEq] at h
      cases h
      unfold Sock.onRequestN
      split
      · simp [Sock.send, cancelFor, isCancel, appError]
      · split
        · rfl
        · simp [Sock.send, cancelFor, isCancel, appError]
    | request v =>
      simp only [Sock.step, Sock.processOnce, Option.some.injEq] at h
      split at h
      · cases h; rfl
      · split at h
        · cases h; rfl
        · split at h
          · cases h; rfl
          · cases h; simp [Sock.spawn, Sock.register, (remove_tasks _ _).2]
  | call m md d =>
    simp only [Sock.step, Option.some.injEq] at h
    cases h
    obtain ⟨l, ho, hl⟩ := (called s m md d).out
    rw [ho, List.filter_append]
    rcases hl with ⟨_, rfl⟩ | ⟨v, rfl, _⟩
    · simp
    · simp [cancelFor, isCancel]
  | drop j => simp only [Sock.step, Option.some.injEq] at h; cases h; rfl
  | task t y =>
    rcases stepped h with ⟨_, _, _, hx, _⟩ | ⟨_, hx, _⟩ | ⟨t, y, k, hx, hk, hw⟩ | ⟨_, hx, _⟩ <;> cases hx
    obtain ⟨l, st, r, ho, _, _, hl, _⟩ := hw.did
    rw [ho, List.filter_append, filter_none (l := l), List.append_nil]
    intro g hg
    simp [cancelFor, (hl g hg).2.1]

/-- The sink stays the only one. -/
theorem step_sole {s s' : Sock} {a : SockAct} {sid : UInt32} {i : Nat} (hs : ∀ x ∈ s.handlers, x.1 = sid → x.2 = i)
    (hn : ∀ m md d, a = .call m md d → s.next ≠ sid) (ha : opensChannel sid a = false) (h : s.step a = some (.ok s')) :
    ∀ x ∈ s'.handlers, x.1 = sid → x.2 = i := by
  intro x hx he
  rcases stepped h with ⟨m, md, d, rfl, hc⟩ | ⟨f, rfl, hp⟩ | ⟨t, y, k, rfl, hk, hw⟩ | ⟨j, rfl, _, _, _, _, hd⟩
  · rcases hc.handlers x hx with hx | hx
    · exact hs x hx he
    · exact absurd (hx.symm.trans he) (hn m md d rfl)
  · rcases hp.handlers x hx with hx | ⟨hx, ho⟩
    · exact hs x hx he
    · cases f with
      | request v =>
        have hv : v.streamID = sid := hx.symm.trans he
        simp only [opensChannel, hv, decide_true, Bool.true_and] at ha
        simp only [opens] at ho
        rw [ho] at ha
        cases ha
      | _ => simp [opens] at ho
  · rw [hw.handlers] at hx; exact hs x hx he
  · rw [hd] at hx; exact hs x hx he

theorem avoids_next {next sid : UInt32} {a : SockAct} {as : List SockAct} (h : Avoids next sid (drawn (a :: as))) :
    (∀ m md d, a = .call m md d → next ≠ sid) := by
  rintro m md d rfl
  exact Avoids.head (n := drawn as) (by simpa [drawn] using h)

theorem avoids_step {s s' : Sock} {sid : UInt32} {a : SockAct} {as : List SockAct} (h : Avoids s.next sid (drawn (a :: as)))
    (hs : s.step a = some (.ok s')) : Avoids s'.next sid (drawn as) := by
  rcases stepped hs with ⟨m, md, d, rfl, hc⟩ | ⟨f, rfl, hp⟩ | ⟨t, y, k, rfl, hk, hw⟩ | ⟨j, rfl, hd, _⟩
  · rw [hc.next]; exact Avoids.tail (by simpa [drawn] using h)
  · rw [hp.next]; exact h
  · rw [hw.next]; exact h
  · rw [hd]; exact h

/-- Whoever still waits at the end cancelled nothing. -/
theorem run_cancels (as : List SockAct) : ∀ {s s' : Sock} {sid : UInt32} {i : Nat},
    (∀ x ∈ s.handlers, x.1 = sid → x.2 = i) → Avoids s.next sid (drawn as) → (∀ x ∈ as, opensChannel sid x = false) →
    s.run as = some (.ok s') → (∀ k, s'.sinks[i]? = some k → k.live = true) →
    s'.out.filter (cancelFor sid) = s.out.filter (cancelFor sid) := by
  induction as with
  | nil => intro s s' sid i _ _ _ h _; simp only [Sock.run] at h; cases h; rfl
  | cons a as ih =>
    intro s s' sid i hs hn ha h hl
    obtain ⟨s1, h1, h2⟩ := run_cons h
    rw [ih (step_sole hs (avoids_next hn) (ha a (by simp)) h1) (avoids_step hn h1) (fun x hx => ha x (List.mem_cons_of_mem _ hx)) h2 hl]
    refine step_cancels hs (fun k hk => ?_) h1
    obtain ⟨k', g1, g2⟩ := (Ages.run (a :: as) h) i k hk
    exact g2 (hl k' g1)

/-! ## A handler asks for input once -/

/-- A frame that asks for more on a stream. -/
def demandFor (sid : UInt32) (f : Frame) : Bool := isDemand f && f.streamID = sid

/-- The demands sent are those of the handlers of channels. -/
structure Dem (s : Sock) : Prop where
  count : ∀ sid, s.out.countP (demandFor sid) ≤ s.runs.countP (runFor sid)
  all : ∀ v, Frame.requestN v ∈ s.out → v.n = requestMax

theorem countP_none {α : Type} {q : α → Bool} {l : List α} (h : ∀ x ∈ l, q x = false) : l.countP q = 0 :=
  List.countP_eq_zero.mpr fun x hx => by rw [h x hx]; simp

theorem Dem.grow {s s' : Sock} (h : Dem s) (l : List Frame) (r : List Invoked) (h1 : s'.out = s.out ++ l) (h2 : s'.runs = s.runs ++ r)
    (hl : ∀ g ∈ l, isDemand g = false) : Dem s' := by
  refine ⟨fun sid => ?_, fun v hv => ?_⟩
  · rw [h1, h2, List.countP_append, List.countP_append, countP_none (l := l) fun g hg => by simp [demandFor, hl g hg]]
    have := h.count sid
    omega
  · rw [h1, List.mem_append] at hv
    rcases hv with hv | hv
    · exact h.all v hv
    · have := hl _ hv
      simp [isDemand] at this

theorem not_demand {g : Frame} (h : isRequesting g = false) : isDemand g = false := by
  cases g <;> simp_all [isRequesting, isDemand]

theorem Dem.step {s s' : Sock} {a : SockAct} (h : Dem s) (hs : s.step a = some (.ok s')) : Dem s' := by
  cases a with
  | task t y =>
    have hs0 := hs
    simp only [Sock.step] at hs
    split at hs
    · rename_i k hk
      cases hx : s.runTask t y k with
      | none => rw [hx] at hs; cases hs
      | some s1 =>
        rw [hx] at hs
        cases hs
        obtain ⟨l, st, r, ho, _, hr, hl, _⟩ := (went hk hx).did
        by_cases hc : isRcStart k = true
        · cases k with
          | rcStart sid i =>
            simp only [Sock.runTask, Option.some.injEq] at hx
            subst hx
            refine ⟨fun sid' => ?_, fun v hv => ?_⟩
            · have := h.count sid'
              simp only [Sock.send, List.countP_append, List.countP_cons, List.countP_nil]
              simp only [demandFor, isDemand, Frame.streamID, runFor, Bool.true_and]
              by_cases e : sid = sid' <;> simp [e] <;> omega
            · simp only [Sock.send, List.mem_append, List.mem_singleton, Frame.requestN.injEq] at hv
              rcases hv with hv | rfl
              · exact h.all v hv
              · rfl
          | _ => simp [isRcStart] at hc
        · refine h.grow l r ho hr fun g hg => ?_
          cases hd : isDemand g with
          | false => rfl
          | true => exact absurd ((hl g hg).2.2.2 hd) hc
    · cases hs
  | recv f =>
    rcases stepped hs with ⟨_, _, _, hx, _⟩ | ⟨f, hx, hp⟩ | ⟨_, _, _, hx, _⟩ | ⟨_, hx, _⟩ <;> cases hx
    obtain ⟨l, ho, hl⟩ := hp.out
    obtain ⟨_, r, _, hr, _⟩ := hp.tasks
    exact h.grow l r ho hr fun g hg => not_demand (hl g hg).2.1
  | call m md d =>
    rcases stepped hs with ⟨m, md, d, hx, hc⟩ | ⟨_, hx, _⟩ | ⟨_, _, _, hx, _⟩ | ⟨_, hx, _⟩ <;> cases hx
    obtain ⟨l, ho, hl⟩ := hc.out
    refine h.grow l [] ho (by rw [hc.runs]; simp) fun g hg => ?_
    rcases hl with ⟨_, rfl⟩ | ⟨v, rfl, _⟩
    · cases hg
    · rw [List.mem_singleton.mp hg]; rfl
  | drop j =>
    simp only [Sock.step, Option.some.injEq] at hs
    cases hs
    exact ⟨h.count, h.all⟩

theorem Dem.run (as : List SockAct) : ∀ {s s' : Sock}, Dem s → s.run as = some (.ok s') → Dem s' := by
  induction as with
  | nil => intro s s' h hr; simp only [Sock.run] at hr; cases hr; exact h
  | cons a as ih =>
    intro s s' h hr
    obtain ⟨s1, h1, h2⟩ := run_cons hr
    exact ih (h.step h1) h2

/-! ## What the input of a channel call sends -/

/-- The frames of a stream other than `CANCEL`. -/
def under (sid : UInt32) (f : Frame) : Bool := f.streamID = sid && !isCancel f

/-- The demand of a frame. -/
def wish (sid : UInt32) : Frame → List UInt32
  | .requestN v => if v.streamID = sid then [v.n] else []
  | _ => []

/-- The demands that arrive. -/
def wishes (sid : UInt32) : List SockAct → List UInt32
  | [] => []
  | .recv f :: as => wish sid f ++ wishes sid as
  | _ :: as => wishes sid as

/-- What the task of a channel call sends from now on, given what was asked for, and what its input yields. -/
def feedAhead (sid : UInt32) : Option (Bool × UInt32) → List UInt32 → List Yield → Option (List Frame)
  | _, _, [] => some []
  | none, _, _ :: _ => none
  | some (first, n), ds, y :: ys =>
    if n = 0 then
      match ds with
      | [] => none
      | m :: ms => feedAhead sid (some (first, m)) ms ys
    else match y with
      | .ok md d => (feedAhead sid (some (false, n - 1)) ds ys).map
          ((if first then newRequest tRequestChannel sid md d Rust.flagNext requestMax else nextFrame sid md d) :: ·)
      | .err _ => (feedAhead sid (some (first, n - 1)) ds ys).map (appError sid (lit "REQUEST_CHANNEL failed") :: ·)
      | .done => (feedAhead sid none ds ys).map (completeFrame sid :: ·)

/-- The task `t` of a channel call, with its queue `q`. -/
structure Fed (s : Sock) (sid : UInt32) (t q : Nat) (st : Option (Bool × UInt32)) (l : List UInt32) : Prop where
  at_ : s.tasks[t]? = some (st.map fun x => .feed sid q x.1 x.2)
  queue : s.queues[q]? = some l
  other : ∀ t' k, t' ≠ t → s.tasks[t']? = some (some k) → sidOf k ≠ sid ∧ queueOf k ≠ some q
  chans : ∀ x ∈ s.channels, x.2 = q → x.1 = sid
  open_ : st ≠ none → mapGet s.channels sid = some q

theorem under_other {sid : UInt32} {l : List Frame} (h : ∀ g ∈ l, g.streamID ≠ sid) : l.filter (under sid) = [] :=
  filter_none fun g hg => by simp [under, h g hg]

/-- A frame arrives. -/
theorem Fed.recv {s s' : Sock} {sid : UInt32} {t q : Nat} {st : Option (Bool × UInt32)} {l : List UInt32} {f : Frame}
    (h : Fed s sid t q st l) (hr : f.streamID = sid → isReq f = false)
    (hd : ∀ v, f = .requestN v → v.streamID = sid → v.n ≠ 0 ∧ st ≠ none) (hp : s.processOnce f = .ok s') :
    Fed s' sid t q st (l ++ wish sid f) ∧ s'.out.filter (under sid) = s.out.filter (under sid) := by
  have ht := (List.getElem?_eq_some_iff.mp h.at_).1
  obtain ⟨⟨ts, g1, g2⟩, g3, _, g5⟩ := process_chan hp
  have hat : s'.tasks[t]? = some (st.map fun x => Rust.Task.feed sid q x.1 x.2) := by
    rw [g1, List.getElem?_append_left ht]; exact h.at_
  have hoth : ∀ t' k, t' ≠ t → s'.tasks[t']? = some (some k) → sidOf k ≠ sid ∧ queueOf k ≠ some q := by
    intro t' k hne hk
    rw [g1] at hk
    by_cases hlt : t' < s.tasks.length
    · rw [List.getElem?_append_left hlt] at hk
      exact h.other t' k hne hk
    · rw [List.getElem?_append_right (by omega)] at hk
      obtain ⟨e1, e2, v, e3⟩ := g2 k (List.mem_of_getElem? hk)
      refine ⟨fun e => ?_, by rw [e1]; nofun⟩
      have := hr (e2.symm.trans e)
      rw [e3] at this
      cases this
  have hq : s'.queues[q]? = some (l ++ wish sid f) := by
    rcases g5 with ⟨g5, g6⟩ | ⟨v, q', rfl, hv, g5⟩
    · have hw : wish sid f = [] := by
        cases f with
        | requestN v =>
          simp only [wish]
          split
          · rename_i e
            obtain ⟨d1, d2⟩ := hd v rfl e
            rcases g6 v rfl with g6 | g6
            · exact absurd g6 d1
            · rw [e, h.open_ d2] at g6; cases g6
          · rfl
        | _ => rfl
      rw [g5, hw, List.append_nil]
      exact h.queue
    · rw [g5, List.getElem?_modify]
      by_cases e : q' = q
      · subst e
        have hs := h.chans _ (mapGet_mem hv) rfl
        simp only at hs
        simp [h.queue, wish, hs]
      · have hw : wish sid (.requestN v) = [] := by
          simp only [wish]
          split
          · rename_i e2
            rw [e2, h.open_ (hd v rfl e2).2] at hv
            cases hv
            exact absurd rfl e
          · rfl
        simp [h.queue, e, hw]
  refine ⟨⟨hat, hq, hoth, by rw [g3]; exact h.chans, by rw [g3]; exact h.open_⟩, ?_⟩
  cases f with
  | payload v =>
    simp only [Sock.processOnce] at hp
    cases hp
    rcases payload_cancel s v with he | ⟨he, _⟩
    · rw [he]
    · rw [he, List.filter_append]; simp [under, isCancel]
  | cancel v => simp only [Sock.processOnce] at hp; rw [(cancel_out hp).2]
  | error v => simp only [Sock.processOnce] at hp; rw [(error_out hp).2]
  | request v =>
    obtain ⟨l', ho, hl⟩ := (processed hp).out
    rw [ho, List.filter_append, under_other (l := l'), List.append_nil]
    intro g hg e
    have := hr ((hl g hg).1.symm.trans e)
    cases this
  | requestN v =>
    by_cases e : v.streamID = sid
    · obtain ⟨d1, d2⟩ := hd v rfl e
      simp only [Sock.processOnce] at hp
      cases hp
      unfold Sock.onRequestN
      rw [if_neg d1, e, h.open_ d2]
    · obtain ⟨l', ho, hl⟩ := (processed hp).out
      rw [ho, List.filter_append, under_other (l := l'), List.append_nil]
      intro g hg e'
      exact e ((hl g hg).1.symm.trans e')

/-- Another call is made. -/
theorem Fed.call {s : Sock} {sid : UInt32} {t q : Nat} {st : Option (Bool × UInt32)} {l : List UInt32}
    (h : Fed s sid t q st l) (hn : s.next ≠ sid) (m : Method) (md d : Bytes) :
    Fed (s.request m md d) sid t q st l ∧ (s.request m md d).out.filter (under sid) = s.out.filter (under sid) := by
  have ht := (List.getElem?_eq_some_iff.mp h.at_).1
  have hq := (List.getElem?_eq_some_iff.mp h.queue).1
  obtain ⟨⟨ts, g1, g2⟩, ⟨qs, g3⟩, g4, g5⟩ := call_chan s m md d
  refine ⟨⟨?_, ?_, ?_, ?_, ?_⟩, ?_⟩
  · rw [g1, List.getElem?_append_left ht]; exact h.at_
  · rw [g3, List.getElem?_append_left hq]; exact h.queue
  · intro t' k hne hk
    rw [g1] at hk
    by_cases hlt : t' < s.tasks.length
    · rw [List.getElem?_append_left hlt] at hk
      exact h.other t' k hne hk
    · rw [List.getElem?_append_right (by omega)] at hk
      obtain ⟨e1, e2, _⟩ := g2 k (List.mem_of_getElem? hk)
      exact ⟨by rw [e1]; exact hn, by rw [e2]; simp; omega⟩
  · intro x hx e
    rcases g4 x hx with hx | hx
    · exact h.chans x hx e
    · omega
  · rw [(g5 sid hn).2]; exact h.open_
  · obtain ⟨l', ho, hl⟩ := (called s m md d).out
    rw [ho, List.filter_append, under_other (l := l'), List.append_nil]
    intro g hg e
    rcases hl with ⟨_, rfl⟩ | ⟨v, rfl, hv, _⟩
    · cases hg
    · rw [List.mem_singleton.mp hg] at e
      exact hn (hv.symm.trans e)

/-- Another task goes on. -/
theorem Fed.other_task {s s' : Sock} {sid : UInt32} {t q t' : Nat} {st : Option (Bool × UInt32)} {l : List UInt32} {y : Yield}
    {k : Rust.Task} (h : Fed s sid t q st l) (et : t' ≠ t) (hk : s.tasks[t']? = some (some k)) (hx : s.runTask t' y k = some s') :
    Fed s' sid t q st l ∧ s'.out.filter (under sid) = s.out.filter (under sid) := by
  obtain ⟨g1, g2, g3, g4⟩ := task_chan hx
  obtain ⟨o1, o2⟩ := h.other t' k et hk
  refine ⟨⟨?_, ?_, ?_, fun x hx => h.chans x (g2 x hx), ?_⟩, ?_⟩
  · rcases g1 with ⟨st2, g1, _⟩ | g1
    · rw [g1, List.getElem?_set_ne et]; exact h.at_
    · rw [g1]; exact h.at_
  · rcases g3 with g3 | ⟨q2, ms, g3, g3'⟩
    · rw [g3]; exact h.queue
    · rw [g3', List.getElem?_set_ne (fun e => o2 (by rw [g3, e]))]; exact h.queue
  · intro t2 k2 hne hk2
    rcases g1 with ⟨st2, g1, g1'⟩ | g1
    · rw [g1] at hk2
      by_cases e2 : t' = t2
      · subst e2
        have hlt := (List.getElem?_eq_some_iff.mp hk).1
        simp [hlt] at hk2
        obtain ⟨p1, p2⟩ := g1' k2 hk2
        rw [p1, p2]
        exact ⟨o1, o2⟩
      · rw [List.getElem?_set_ne e2] at hk2
        exact h.other t2 k2 hne hk2
    · rw [g1] at hk2
      exact h.other t2 k2 hne hk2
  · rw [(g4 sid o1).2]; exact h.open_
  · obtain ⟨l', _, _, ho, _, _, hl, _⟩ := (went hk hx).did
    rw [ho, List.filter_append, under_other (l := l'), List.append_nil]
    intro g hg e
    exact o1 ((hl g hg).1.symm.trans e)

/-- What becomes of the task when its input yields, and what it sends. -/
def feedOne (sid : UInt32) (first : Bool) (n : UInt32) : Yield → Option (Bool × UInt32) × List Frame
  | .ok md d => (some (false, n - 1),
      [if first then newRequest tRequestChannel sid md d Rust.flagNext requestMax else nextFrame sid md d])
  | .err _ => (some (first, n - 1), [appError sid (lit "REQUEST_CHANNEL failed")])
  | .done => (none, [completeFrame sid])

/-- The task itself goes on. -/
theorem Fed.task {s s' : Sock} {sid : UInt32} {t q : Nat} {first : Bool} {n : UInt32} {l : List UInt32} {y : Yield}
    (h : Fed s sid t q (some (first, n)) l) (hx : s.runTask t y (.feed sid q first n) = some s') :
    ∃ fs st' l', Fed s' sid t q st' l' ∧ s'.out = s.out ++ fs ∧ s'.out.filter (under sid) = s.out.filter (under sid) ++ fs ∧
      (n = 0 → fs = [] ∧ ∃ m, l = m :: l' ∧ st' = some (first, m)) ∧
      (n ≠ 0 → l' = l ∧ (st', fs) = feedOne sid first n y) := by
  have ht := (List.getElem?_eq_some_iff.mp h.at_).1
  have hq := (List.getElem?_eq_some_iff.mp h.queue).1
  have hset : ∀ x t2 k2, t2 ≠ t → (s.tasks.set t x)[t2]? = some (some k2) → sidOf k2 ≠ sid ∧ queueOf k2 ≠ some q := by
    intro x t2 k2 hne hk2
    rw [List.getElem?_set_ne (Ne.symm hne)] at hk2
    exact h.other t2 k2 hne hk2
  have happ : ∀ f : Frame, under sid f = true → (s.out ++ [f]).filter (under sid) = s.out.filter (under sid) ++ [f] := by
    intro f hf
    rw [List.filter_append]; simp [hf]
  simp only [Sock.runTask] at hx
  split at hx
  · rename_i h0
    split at hx
    · rename_i m ms hm
      rw [h.queue] at hm
      cases hm
      cases hx
      exact ⟨[], some (first, m), ms, ⟨by simp [ht], by simp [hq], hset _, h.chans, fun _ => h.open_ (by simp)⟩, by simp, by simp,
        fun _ => ⟨rfl, m, rfl, rfl⟩, fun hc => absurd h0 hc⟩
    · split at hx
      · cases hx
      · rename_i hc
        exfalso
        apply hc
        exact List.any_eq_true.mpr ⟨_, mapGet_mem (h.open_ (by simp)), by simp⟩
  · rename_i h0
    cases y with
    | ok md d =>
      cases first with
      | true =>
        simp only [if_true, Option.some.injEq] at hx
        subst hx
        exact ⟨_, some (false, n - 1), l, ⟨by simp [Sock.feedSent, Sock.send, ht], h.queue, hset _, h.chans, fun _ => h.open_ (by simp)⟩, rfl,
          happ _ (by simp [under, newRequest, Frame.streamID, isCancel]), fun hc => absurd hc h0, fun _ => ⟨rfl, rfl⟩⟩
      | false =>
        simp only [Bool.false_eq_true, if_false, Option.some.injEq] at hx
        subst hx
        exact ⟨_, some (false, n - 1), l, ⟨by simp [Sock.feedSent, Sock.send, ht], h.queue, hset _, h.chans, fun _ => h.open_ (by simp)⟩, rfl,
          happ _ (by simp [under, nextFrame, newPayload, Frame.streamID, isCancel]), fun hc => absurd hc h0, fun _ => ⟨rfl, rfl⟩⟩
    | err e =>
      simp only [Option.some.injEq] at hx
      subst hx
      exact ⟨_, some (first, n - 1), l, ⟨by simp [Sock.send, ht], h.queue, hset _, h.chans, fun _ => h.open_ (by simp)⟩, rfl,
        happ _ (by simp [under, appError, Frame.streamID, isCancel]), fun hc => absurd hc h0, fun _ => ⟨rfl, rfl⟩⟩
    | done =>
      simp only [Option.some.injEq] at hx
      subst hx
      exact ⟨_, none, l, ⟨by simp [Sock.feedEnd, Sock.send, ht], h.queue, hset _,
        fun x hx => h.chans x (mem_remove.mp hx).1, fun hc => absurd rfl hc⟩, rfl,
        happ _ (by simp [under, completeFrame, newPayload, Frame.streamID, isCancel]), fun hc => absurd hc h0, fun _ => ⟨rfl, rfl⟩⟩

/-- Before anything was asked for, the task waits, and if its request was not sent, no request is out. -/
def Early (s : Sock) (sid : UInt32) (st : Option (Bool × UInt32)) (l : List UInt32) : Prop :=
  l = [] ∧ ((∃ f, st = some (f, 0)) ∨ st = some (true, 1) ∨ st = none) ∧
    ((st = none ∨ ∃ n, st = some (true, n)) → ∀ g ∈ s.out, reqFor sid g = false)

theorem wishes_cons (sid : UInt32) (a : SockAct) (as : List SockAct) : wishes sid (a :: as) = wishes sid [a] ++ wishes sid as := by
  cases a <;> simp [wishes]

theorem other_req {sid : UInt32} {l : List Frame} (h : ∀ g ∈ l, isReq g = true → g.streamID ≠ sid) : ∀ g ∈ l, reqFor sid g = false := by
  intro g hg
  cases hq : reqFor sid g with
  | false => rfl
  | true =>
    obtain ⟨h1, h2⟩ := reqFor_iff.mp hq
    exact absurd h2 (h g hg h1)

theorem Early.grow {s s' : Sock} {sid : UInt32} {st : Option (Bool × UInt32)} {l : List UInt32} (h : Early s sid st l) (fs : List Frame)
    (ho : s'.out = s.out ++ fs) (hf : ∀ g ∈ fs, reqFor sid g = false) : Early s' sid st l := by
  refine ⟨h.1, h.2.1, fun hs g hg => ?_⟩
  rw [ho, List.mem_append] at hg
  rcases hg with hg | hg
  · exact h.2.2 hs g hg
  · exact hf g hg

theorem next_req (sid sid' : UInt32) (md d : Bytes) : reqFor sid' (nextFrame sid md d) = false := by
  simp [reqFor, isReq, nextFrame, newPayload]

theorem err_req (sid sid' : UInt32) (m : Bytes) : reqFor sid' (appError sid m) = false := by simp [reqFor, isReq, appError]

theorem complete_req (sid sid' : UInt32) : reqFor sid' (completeFrame sid) = false := by
  simp [reqFor, isReq, completeFrame, newPayload]

/-- What the input of a channel call sends in a run, in which it is asked for something once, after its request. -/
theorem fed_run (as : List SockAct) : ∀ {s s' : Sock} {sid : UInt32} {t q : Nat} {st : Option (Bool × UInt32)} {l : List UInt32} {b : Bool},
    Fed s sid t q st l → (b = true → Early s sid st l) → Avoids s.next sid (drawn as) →
    (∀ v, SockAct.recv (.request v) ∈ as → v.streamID ≠ sid) →
    (wishes sid as).length ≤ (if b then 1 else 0) → (∀ n ∈ wishes sid as, n ≠ 0) →
    (∀ as1 v as2 s1, as = as1 ++ .recv (.requestN v) :: as2 → v.streamID = sid → s.run as1 = some (.ok s1) → ∃ g ∈ s1.out, reqFor sid g = true) →
    s.run as = some (.ok s') →
    ∃ fs, feedAhead sid st (l ++ wishes sid as) (yields t as) = some fs ∧ s'.out.filter (under sid) = s.out.filter (under sid) ++ fs := by
  induction as with
  | nil =>
    intro s s' sid t q st l b h _ _ _ _ _ _ hr
    simp only [Sock.run] at hr
    cases hr
    exact ⟨[], by simp [yields, feedAhead], by simp⟩
  | cons a as ih =>
    intro s s' sid t q st l b h he hn hv hc hz hq hr
    obtain ⟨s1, h1, h2⟩ := run_cons hr
    have hn1 := avoids_step hn h1
    have hv1 : ∀ v, SockAct.recv (.request v) ∈ as → v.streamID ≠ sid := fun v hx => hv v (List.mem_cons_of_mem _ hx)
    rw [wishes_cons] at hc hz
    rw [List.length_append] at hc
    have hz1 : ∀ n ∈ wishes sid as, n ≠ 0 := fun n hx => hz n (List.mem_append_right _ hx)
    have hq1 : ∀ as1 v as2 s2, as = as1 ++ .recv (.requestN v) :: as2 → v.streamID = sid → s1.run as1 = some (.ok s2) →
        ∃ g ∈ s2.out, reqFor sid g = true := by
      intro as1 v as2 s2 e1 e2 e3
      exact hq (a :: as1) v as2 s2 (by rw [e1]; rfl) e2 (by simp only [Sock.run, h1]; exact e3)
    cases a with
    | recv f =>
      simp only [Sock.step, Option.some.injEq] at h1
      have hreq : f.streamID = sid → isReq f = false := by
        intro e
        cases f with
        | request v => exact absurd e (hv v (by simp))
        | _ => rfl
      have hearly : ∀ v, f = .requestN v → v.streamID = sid → b = true ∧ st ≠ none ∧ v.n ≠ 0 := by
        rintro v rfl e
        have hw : wishes sid [SockAct.recv (.requestN v)] = [v.n] := by simp [wishes, wish, e]
        rw [hw] at hc hz
        have hb : b = true := by
          cases b with
          | true => rfl
          | false => simp at hc
        refine ⟨hb, ?_, hz v.n (by simp)⟩
        rintro rfl
        obtain ⟨g, hg, hg'⟩ := hq [] v as s rfl e rfl
        rw [(he hb).2.2 (.inl rfl) g hg] at hg'
        cases hg'
      obtain ⟨g1, g2⟩ := h.recv hreq (fun v e1 e2 => ⟨(hearly v e1 e2).2.2, (hearly v e1 e2).2.1⟩) h1
      have hw : wishes sid [SockAct.recv f] = wish sid f := by simp [wishes]
      rw [hw] at hc
      have hout := (processed h1).out
      obtain ⟨fs, ho, hl⟩ := hout
      have hfs : ∀ g ∈ fs, reqFor sid g = false := by
        intro g hg
        have := (hl g hg).2.1
        cases g <;> simp_all [isRequesting, reqFor, isReq]
      obtain ⟨b1, e1, e2⟩ : ∃ b1 : Bool, (b1 = true → Early s1 sid st (l ++ wish sid f)) ∧ (wishes sid as).length ≤ (if b1 then 1 else 0) := by
        cases hw0 : wish sid f with
        | nil =>
          refine ⟨b, fun hb => ?_, ?_⟩
          · rw [List.append_nil]
            exact (he hb).grow fs ho hfs
          · rw [hw0] at hc
            simpa using hc
        | cons x xs =>
          refine ⟨false, nofun, ?_⟩
          rw [hw0] at hc
          simp only [List.length_cons] at hc
          have hb1 : (if b = true then 1 else 0) ≤ 1 := by split <;> omega
          have : (wishes sid as).length = 0 := by omega
          rw [this]
          exact Nat.zero_le _
      obtain ⟨out, i1, i2⟩ := ih g1 e1 hn1 hv1 e2 hz1 hq1 h2
      refine ⟨out, ?_, by rw [i2, g2]⟩
      have hy : yields t (.recv f :: as) = yields t as := rfl
      rw [wishes_cons, hw, ← List.append_assoc, hy]
      exact i1
    | call m md d =>
      simp only [Sock.step, Option.some.injEq] at h1
      cases h1
      have hne := avoids_next hn m md d rfl
      obtain ⟨g1, g2⟩ := h.call hne m md d
      obtain ⟨fs, ho, hl⟩ := (called s m md d).out
      have hfs : ∀ g ∈ fs, reqFor sid g = false := by
        refine other_req fun g hg _ e => ?_
        rcases hl with ⟨_, rfl⟩ | ⟨v, rfl, hv, _⟩
        · cases hg
        · rw [List.mem_singleton.mp hg] at e
          exact hne (hv.symm.trans e)
      obtain ⟨out, i1, i2⟩ := ih (b := b) g1 (fun hb => (he hb).grow fs ho hfs) hn1 hv1 (by simpa [wishes] using hc) hz1 hq1 h2
      exact ⟨out, i1, by rw [i2, g2]⟩
    | drop j =>
      simp only [Sock.step, Option.some.injEq] at h1
      cases h1
      exact ih (b := b) (s := { s with sinks := s.sinks.modify j fun k => { k with live := false } })
        ⟨h.at_, h.queue, h.other, h.chans, h.open_⟩ he hn1 hv1 (by simpa [wishes] using hc) hz1 hq1 h2
    | task t' y =>
      have hst := h1
      simp only [Sock.step] at h1
      split at h1
      · rename_i k hk
        cases hx : s.runTask t' y k with
        | none => rw [hx] at h1; cases h1
        | some s2 =>
          rw [hx] at h1
          simp only [Option.map_some, Option.some.injEq, Res.ok.injEq] at h1
          subst h1
          have hwn : wishes sid (.task t' y :: as) = wishes sid as := rfl
          rw [hwn]
          have hc1 : (wishes sid as).length ≤ (if b then 1 else 0) := by simpa [wishes] using hc
          by_cases et : t' = t
          · subst et
            have hat := h.at_
            rw [hk] at hat
            cases st with
            | none => cases hat
            | some x =>
              obtain ⟨first, n⟩ := x
              simp only [Option.map_some, Option.some.injEq] at hat
              subst hat
              obtain ⟨fs, st', l', g1, g2, g3, g4, g5⟩ := h.task hx
              have hy : yields t' (.task t' y :: as) = y :: yields t' as := by simp [yields]
              rw [hy]
              by_cases h0 : n = 0
              · obtain ⟨rfl, m, rfl, rfl⟩ := g4 h0
                have hb : b = false := by
                  cases b with
                  | false => rfl
                  | true => exact absurd (he rfl).1 (by simp)
                obtain ⟨out, i1, i2⟩ := ih (b := b) g1 (fun hb' => by rw [hb] at hb'; cases hb') hn1 hv1 hc1 hz1 hq1 h2
                refine ⟨out, ?_, by rw [i2, g3]; simp⟩
                simp only [feedAhead, if_pos h0, List.cons_append]
                exact i1
              · obtain ⟨rfl, g6⟩ := g5 h0
                have hfirst : b = true → first = true ∧ n = 1 ∧ l' = [] ∧ ∀ g ∈ s.out, reqFor sid g = false := by
                  intro hb
                  obtain ⟨e1, e2, e3⟩ := he hb
                  rcases e2 with ⟨f, e2⟩ | e2 | e2
                  · cases e2; exact absurd rfl h0
                  · cases e2; exact ⟨rfl, rfl, e1, e3 (.inr ⟨_, rfl⟩)⟩
                  · cases e2
                have hgrow : (∀ g ∈ fs, reqFor sid g = false) → b = true → ∀ g ∈ s2.out, reqFor sid g = false := by
                  intro hfs hb g hg
                  rw [g2, List.mem_append] at hg
                  rcases hg with hg | hg
                  · exact (hfirst hb).2.2.2 g hg
                  · exact hfs g hg
                cases y with
                | ok md d =>
                  simp only [feedOne, Prod.mk.injEq] at g6
                  obtain ⟨rfl, rfl⟩ := g6
                  have hE : b = true → Early s2 sid (some (false, n - 1)) l' := by
                    intro hb
                    obtain ⟨_, e2, e3, _⟩ := hfirst hb
                    subst e2
                    exact ⟨e3, .inl ⟨false, rfl⟩, by rintro (hc | ⟨_, hc⟩) <;> cases hc⟩
                  obtain ⟨out, i1, i2⟩ := ih (b := b) g1 hE hn1 hv1 hc1 hz1 hq1 h2
                  refine ⟨_ :: out, ?_, by rw [i2, g3, List.append_assoc]; rfl⟩
                  simp only [feedAhead, if_neg h0]
                  rw [i1]
                  rfl
                | err e =>
                  simp only [feedOne, Prod.mk.injEq] at g6
                  obtain ⟨rfl, rfl⟩ := g6
                  have hE : b = true → Early s2 sid (some (first, n - 1)) l' := by
                    intro hb
                    obtain ⟨_, e2, e3, _⟩ := hfirst hb
                    subst e2
                    exact ⟨e3, .inl ⟨first, rfl⟩, fun _ => hgrow (by simp [err_req]) hb⟩
                  obtain ⟨out, i1, i2⟩ := ih (b := b) g1 hE hn1 hv1 hc1 hz1 hq1 h2
                  refine ⟨_ :: out, ?_, by rw [i2, g3, List.append_assoc]; rfl⟩
                  simp only [feedAhead, if_neg h0]
                  rw [i1]
                  rfl
                | done =>
                  simp only [feedOne, Prod.mk.injEq] at g6
                  obtain ⟨rfl, rfl⟩ := g6
                  have hE : b = true → Early s2 sid none l' := by
                    intro hb
                    exact ⟨(hfirst hb).2.2.1, .inr (.inr rfl), fun _ => hgrow (by simp [complete_req]) hb⟩
                  obtain ⟨out, i1, i2⟩ := ih (b := b) g1 hE hn1 hv1 hc1 hz1 hq1 h2
                  refine ⟨_ :: out, ?_, by rw [i2, g3, List.append_assoc]; rfl⟩
                  simp only [feedAhead, if_neg h0]
                  rw [i1]
                  rfl
          · obtain ⟨g1, g2⟩ := h.other_task et hk hx
            have hy : yields t (.task t' y :: as) = yields t as := by simp [yields, et]
            rw [hy]
            obtain ⟨fs, _, _, ho, _, _, hl, _⟩ := (went hk hx).did
            have hfs : ∀ g ∈ fs, reqFor sid g = false :=
              other_req fun g hg _ e => (h.other t' k et hk).1 ((hl g hg).1.symm.trans e)
            obtain ⟨out, i1, i2⟩ := ih (b := b) g1 (fun hb => (he hb).grow fs ho hfs) hn1 hv1 hc1 hz1 hq1 h2
            exact ⟨out, i1, by rw [i2, g2]⟩
      · cases h1

/-- The frames for what an input gives. -/
def fed (sid : UInt32) : Bool → List Yield → List Frame
  | _, [] => []
  | first, .ok md d :: ys =>
    (if first then newRequest tRequestChannel sid md d Rust.flagNext requestMax else nextFrame sid md d) :: fed sid false ys
  | first, .err _ :: ys => appError sid (lit "REQUEST_CHANNEL failed") :: fed sid first ys
  | _, .done :: _ => [completeFrame sid]

theorem ahead_none {sid : UInt32} {ds : List UInt32} {ys : List Yield} {fs : List Frame} (h : feedAhead sid none ds ys = some fs) :
    ys = [] ∧ fs = [] := by
  cases ys with
  | nil => simp only [feedAhead, Option.some.injEq] at h; exact ⟨rfl, h.symm⟩
  | cons y ys => simp [feedAhead] at h

theorem ahead_rest (sid : UInt32) (ys : List Yield) : ∀ {first : Bool} {n : UInt32} {fs : List Frame},
    feedAhead sid (some (first, n)) [] ys = some fs → fs = fed sid first ys := by
  induction ys with
  | nil => intro first n fs h; simp only [feedAhead, Option.some.injEq] at h; exact h.symm
  | cons y ys ih =>
    intro first n fs h
    simp only [feedAhead] at h
    split at h
    · cases h
    · cases y with
      | ok md d =>
        simp only [Option.map_eq_some_iff] at h
        obtain ⟨fs', h1, rfl⟩ := h
        rw [ih h1]
        rfl
      | err e =>
        simp only [Option.map_eq_some_iff] at h
        obtain ⟨fs', h1, rfl⟩ := h
        rw [ih h1]
        rfl
      | done =>
        simp only [Option.map_eq_some_iff] at h
        obtain ⟨fs', h1, rfl⟩ := h
        rw [(ahead_none h1).2]
        rfl

/-- What was sent is what was given. -/
theorem ahead_given (sid : UInt32) (ds : List UInt32) (hd : ds.length ≤ 1) (ys : List Yield) (fs : List Frame)
    (h : feedAhead sid (some (true, 1)) ds ys = some fs) : fs = fed sid true (given ys) := by
  have hone : (1 : UInt32) - 1 = 0 := rfl
  have hne : ¬ (1 : UInt32) = 0 := by decide
  cases ys with
  | nil => simp only [feedAhead, Option.some.injEq] at h; exact h.symm
  | cons y ys =>
    have hwait : ∀ (first : Bool) (fs : List Frame), feedAhead sid (some (first, 0)) ds ys = some fs → fs = fed sid first (ys.drop 1) := by
      intro first fs h
      cases ys with
      | nil => simp only [feedAhead, Option.some.injEq] at h; exact h.symm
      | cons w ys =>
        simp only [feedAhead, if_true] at h
        cases ds with
        | nil => cases h
        | cons m ms =>
          have : ms = [] := by cases ms with
            | nil => rfl
            | cons _ _ => simp at hd
          subst this
          exact ahead_rest sid ys h
    have hg : given (y :: ys) = y :: ys.drop 1 := by simp [given]
    rw [hg]
    simp only [feedAhead, if_neg hne] at h
    cases y with
    | ok md d =>
      simp only [Option.map_eq_some_iff] at h
      obtain ⟨fs', h1, rfl⟩ := h
      rw [hwait _ _ h1]
      rfl
    | err e =>
      simp only [Option.map_eq_some_iff] at h
      obtain ⟨fs', h1, rfl⟩ := h
      rw [hwait _ _ h1]
      rfl
    | done =>
      simp only [Option.map_eq_some_iff] at h
      obtain ⟨fs', h1, rfl⟩ := h
      rw [(ahead_none h1).2]
      rfl

end Iota.Lemmas.RustChannels
