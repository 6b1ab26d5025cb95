import Verif.Spec.RustFinish
import Verif.Props.RustPair

/-! # Calls between a host and a guest written in Rust go on until all are done with (C175) -/

namespace Iota.Props.RustFinish
open Iota.Go Iota.Frames Iota.Rust Iota.Spec.RustSocket Iota.Spec.RustPair Iota.Spec.RustFinish Iota.Lemmas.RustSocket
open Iota.Props.RustSocket Iota.Props.RustResponder Iota.Props.RustPair

theorem calm_runs {p : Pair} {H : Bool → List SockAct} (h : Calm p H) : Runs p H := by
  induction h with
  | init => exact .init
  | step a _ hs _ hst ih => exact .step a ih hs hst

/-! ## Receivers stay -/

/-- Every receiving end is there. -/
def Alive (s : Sock) : Prop := ∀ k ∈ s.sinks, k.live = true

theorem alive_modify {l : List Sink} {i : Nat} {f : Sink → Sink} (h : ∀ k ∈ l, k.live = true) (hf : ∀ k, (f k).live = k.live) :
    ∀ k ∈ l.modify i f, k.live = true := by
  intro k hk
  obtain ⟨j, hj⟩ := List.mem_iff_getElem?.mp hk
  rw [List.getElem?_modify] at hj
  cases hl : l[j]? with
  | none => rw [hl] at hj; cases hj
  | some x =>
    rw [hl] at hj
    have hx := h x (List.mem_of_getElem? hl)
    split at hj <;> cases hj
    · rw [hf]; exact hx
    · exact hx

theorem alive_remove {s : Sock} (h : Alive s) (sid : UInt32) : Alive (s.remove sid) := by
  unfold Sock.remove
  split
  · exact h
  · exact alive_modify h fun _ => rfl

theorem alive_put {s : Sock} (h : Alive s) (i : Nat) (x : Signal) : Alive (s.put i x) :=
  alive_modify h fun k => by split <;> rfl

theorem alive_register {s : Sock} (h : Alive s) (sid : UInt32) (w : Wait) (l : List Signal) : Alive (s.register sid w l) := by
  intro k hk
  rcases List.mem_append.mp hk with h1 | h1
  · exact alive_remove h sid k h1
  · cases List.mem_singleton.mp h1; rfl

/-- The tables of channels stay as they are, and the queues. -/
theorem remove_queues (s : Sock) (sid : UInt32) : (s.remove sid).queues = s.queues ∧ (s.remove sid).channels = s.channels := by
  unfold Sock.remove
  split <;> exact ⟨rfl, rfl⟩

theorem payload_facts {s : Sock} (h : Alive s) (v : Payload) :
    Alive (s.onPayload v) ∧ (s.onPayload v).tasks = s.tasks ∧ (s.onPayload v).out = s.out ∧ (s.onPayload v).queues = s.queues ∧
    (s.onPayload v).channels = s.channels := by
  have put : ∀ i x, Alive (s.put i x) ∧ (s.put i x).tasks = s.tasks ∧ (s.put i x).out = s.out ∧ (s.put i x).queues = s.queues ∧
      (s.put i x).channels = s.channels := fun i x => ⟨alive_put h i x, rfl, rfl, rfl, rfl⟩
  have rm : ∀ {u : Sock} (sid : UInt32), (Alive u ∧ u.tasks = s.tasks ∧ u.out = s.out ∧ u.queues = s.queues ∧ u.channels = s.channels) →
      (Alive (u.remove sid) ∧ (u.remove sid).tasks = s.tasks ∧ (u.remove sid).out = s.out ∧ (u.remove sid).queues = s.queues ∧
        (u.remove sid).channels = s.channels) := fun {u} sid hu =>
    ⟨alive_remove hu.1 sid, (remove_tasks u sid).1.trans hu.2.1, (remove_tasks u sid).2.trans hu.2.2.1, (remove_queues u sid).1.trans hu.2.2.2.1,
      (remove_queues u sid).2.trans hu.2.2.2.2⟩
  have id : Alive s ∧ s.tasks = s.tasks ∧ s.out = s.out ∧ s.queues = s.queues ∧ s.channels = s.channels := ⟨h, rfl, rfl, rfl, rfl⟩
  unfold Sock.onPayload
  split
  · exact id
  · rename_i i _
    split
    · exact id
    · rename_i k hk
      have hl := h k (List.mem_of_getElem? hk)
      rw [hl]
      simp only [if_true]
      split
      · split
        · exact rm _ (put _ _)
        · exact rm _ id
      · split
        · split
          · exact rm _ (put _ _)
          · exact rm _ id
        · split
          · exact put _ _
          · exact id

/-- What a frame does, if all receivers are there: it does not crash. -/
structure Took (s s' : Sock) (f : Frame) : Prop where
  alive : Alive s'
  channels : s'.channels = s.channels
  work : ∃ l, s'.out = s.out ++ l ∧ sockWork s' + wireWork l + 1 ≤ sockWork s + frameWork f ∧ ∀ g ∈ l, isDemand g = false
  tasks : ∃ l, s'.tasks = s.tasks ++ l ∧ (∀ k, some k ∈ l → isFeed k = false) ∧ (opens f = true → ∃ i, some (.rcStart f.streamID i) ∈ l)
  queues : s'.queues = s.queues ∨ ∃ v q, f = .requestN v ∧ v.n ≠ 0 ∧ mapGet s.channels v.streamID = some q ∧ s'.queues = s.queues.modify q fun l => l ++ [v.n]
  demand : ∀ v q, f = .requestN v → v.n ≠ 0 → mapGet s.channels v.streamID = some q → s'.queues = s.queues.modify q fun l => l ++ [v.n]

theorem sum_modify (l : List (List UInt32)) (q : Nat) (n : UInt32) :
    ((l.modify q fun l => l ++ [n]).map List.length).sum ≤ (l.map List.length).sum + 1 := by
  induction l generalizing q with
  | nil => simp
  | cons x l ih =>
    cases q with
    | zero => simp [List.modify]; omega
    | succ q =>
      have := ih q
      simp only [List.modify_succ_cons, List.map_cons, List.sum_cons]
      omega

theorem took_same {s s' : Sock} {f : Frame} (h : Alive s' ∧ s'.tasks = s.tasks ∧ s'.out = s.out ∧ s'.queues = s.queues ∧ s'.channels = s.channels)
    (hf : opens f = false) (hd : isDemand f = false) (hw : 1 ≤ frameWork f) : Took s s' f := by
  obtain ⟨h1, h2, h3, h4, h5⟩ := h
  refine ⟨h1, h5, ⟨[], by simp [h3], ?_, by simp⟩, ⟨[], by simp [h2], by simp, by simp [hf]⟩, .inl h4, ?_⟩
  · simp only [sockWork, h2, h4, wireWork, List.map_nil, List.sum_nil]; omega
  · rintro v q rfl; cases hd

theorem spawned {s : Sock} {v : RequestPayload} {k : Rust.Task} (h : Alive s) (r : List Invoked) (hk : isFeed k = false)
    (hw : taskWork (some k) + 1 ≤ frameWork (.request v)) (ho : opens (.request v) = true → ∃ i, k = .rcStart v.streamID i) :
    Took s ({ s with runs := r }.spawn k) (.request v) := by
  refine ⟨h, rfl, ⟨[], by simp [Sock.spawn], ?_, by simp⟩, ⟨[some k], rfl, fun k' hk' => ?_, fun h => ?_⟩, .inl rfl, fun v q hv => by cases hv⟩
  · simp only [sockWork, Sock.spawn, List.map_append, List.map_cons, List.map_nil, List.sum_append, List.sum_cons, List.sum_nil, wireWork]
    omega
  · cases List.mem_singleton.mp hk'; exact hk
  · obtain ⟨i, rfl⟩ := ho h
    exact ⟨i, List.mem_singleton.mpr rfl⟩

theorem takes {s : Sock} (h : Alive s) (f : Frame) : ∃ s', s.processOnce f = .ok s' ∧ Took s s' f := by
  cases f with
  | request v =>
    simp only [Sock.processOnce]
    split
    · rename_i ht
      exact ⟨_, rfl, spawned h _ rfl (by simp [frameWork, taskWork, ht]) fun ho => by simp [opens, ht] at ho⟩
    · split
      · rename_i h0 ht
        exact ⟨_, rfl, spawned h _ rfl (by simp [frameWork, taskWork, h0, ht]) fun ho => by simp [opens, ht] at ho⟩
      · split
        · rename_i h0 h1 ht
          exact ⟨_, rfl, spawned h _ rfl (by simp only [frameWork, taskWork, if_neg h0, if_neg h1, if_pos ht]; omega) fun ho => by simp [opens, ht] at ho⟩
        · rename_i h0 h1 h2
          refine ⟨_, rfl, alive_register h _ _ _, (remove_queues s v.streamID).2, ⟨[], ?_, ?_, by simp⟩,
            ⟨[some (.rcStart v.streamID s.sinks.length)], ?_, fun k' hk' => ?_, fun _ => ⟨_, List.mem_singleton.mpr rfl⟩⟩,
            .inl (remove_queues s v.streamID).1, fun v q hv => by cases hv⟩
          · rw [List.append_nil]; exact (remove_tasks s v.streamID).2
          · simp only [sockWork]
            show (((s.remove v.streamID).tasks ++ [_]).map taskWork).sum + ((s.remove v.streamID).queues.map List.length).sum + _ + _ ≤ _
            rw [(remove_tasks s v.streamID).1, (remove_queues s v.streamID).1]
            simp [taskWork, wireWork, frameWork, h0, h1, h2]
            omega
          · show (s.remove v.streamID).tasks ++ [_] = _
            rw [(remove_tasks s v.streamID).1]
          · cases List.mem_singleton.mp hk'; rfl
  | payload v => exact ⟨_, rfl, took_same (payload_facts h v) rfl rfl (Nat.le_refl _)⟩
  | cancel v =>
    have id : Took s s (.cancel v) := took_same ⟨h, rfl, rfl, rfl, rfl⟩ rfl rfl (Nat.le_refl _)
    have rm : ∀ {u : Sock} (sid : UInt32), (Alive u ∧ u.tasks = s.tasks ∧ u.out = s.out ∧ u.queues = s.queues ∧ u.channels = s.channels) →
        Took s (u.remove sid) (.cancel v) := fun {u} sid hu =>
      took_same ⟨alive_remove hu.1 sid, (remove_tasks u sid).1.trans hu.2.1, (remove_tasks u sid).2.trans hu.2.2.1, (remove_queues u sid).1.trans hu.2.2.2.1,
        (remove_queues u sid).2.trans hu.2.2.2.2⟩ rfl rfl (Nat.le_refl _)
    simp only [Sock.processOnce, Sock.onCancel]
    split
    · exact ⟨_, rfl, id⟩
    · split
      · exact ⟨_, rfl, id⟩
      · rename_i k hk
        rw [h k (List.mem_of_getElem? hk)]
        simp only [if_true]
        split
        · exact ⟨_, rfl, rm _ ⟨alive_put h _ _, rfl, rfl, rfl, rfl⟩⟩
        · exact ⟨_, rfl, rm _ ⟨h, rfl, rfl, rfl, rfl⟩⟩
  | error v =>
    have id : Took s s (.error v) := took_same ⟨h, rfl, rfl, rfl, rfl⟩ rfl rfl (Nat.le_refl _)
    have rm : ∀ {u : Sock} (sid : UInt32), (Alive u ∧ u.tasks = s.tasks ∧ u.out = s.out ∧ u.queues = s.queues ∧ u.channels = s.channels) →
        Took s (u.remove sid) (.error v) := fun {u} sid hu =>
      took_same ⟨alive_remove hu.1 sid, (remove_tasks u sid).1.trans hu.2.1, (remove_tasks u sid).2.trans hu.2.2.1, (remove_queues u sid).1.trans hu.2.2.2.1,
        (remove_queues u sid).2.trans hu.2.2.2.2⟩ rfl rfl (Nat.le_refl _)
    simp only [Sock.processOnce, Sock.onError]
    split
    · exact ⟨_, rfl, id⟩
    · split
      · exact ⟨_, rfl, id⟩
      · rename_i k hk
        rw [h k (List.mem_of_getElem? hk)]
        simp only [if_true]
        exact ⟨_, rfl, rm _ ⟨alive_put h _ _, rfl, rfl, rfl, rfl⟩⟩
  | requestN v =>
    refine ⟨_, rfl, ?_⟩
    have err : ∀ m, (v.n ≠ 0 → mapGet s.channels v.streamID = none) → Took s (s.send (appError v.streamID m)) (.requestN v) := by
      intro m hn
      refine ⟨h, rfl, ⟨[_], rfl, ?_, ?_⟩, ⟨[], by simp [Sock.send], by simp, by simp [opens]⟩, .inl rfl, ?_⟩
      · simp [sockWork, Sock.send, wireWork, frameWork, appError]
      · intro g hg; cases List.mem_singleton.mp hg; rfl
      · intro v' q hv h0 hm
        cases hv
        rw [hn h0] at hm; cases hm
    unfold Sock.onRequestN
    split
    · rename_i h0
      exact err _ fun h => absurd h0 h
    · rename_i h0
      split
      · rename_i q hq
        refine ⟨h, rfl, ⟨[], by simp, ?_, by simp⟩, ⟨[], by simp, by simp, by simp [opens]⟩, .inr ⟨v, q, rfl, h0, hq, rfl⟩, ?_⟩
        · have := sum_modify s.queues q v.n
          simp only [sockWork, wireWork, List.map_nil, List.sum_nil, frameWork]
          omega
        · intro v' q' hv _ hm
          cases hv
          rw [hq] at hm; cases hm; rfl
      · rename_i hq
        exact err _ fun _ => hq

/-! ## Tasks -/

theorem sum_set (l : List (Option Rust.Task)) {t : Nat} {k st : Option Rust.Task} (h : l[t]? = some k) :
    ((l.set t st).map taskWork).sum + taskWork k = (l.map taskWork).sum + taskWork st := by
  induction l generalizing t with
  | nil => cases h
  | cons x l ih =>
    cases t with
    | zero => cases h; simp; omega
    | succ t =>
      have := ih h
      simp only [List.set_cons_succ, List.map_cons, List.sum_cons]
      omega

theorem sum_pop (l : List (List UInt32)) {q : Nat} {m : UInt32} {ms : List UInt32} (h : l[q]? = some (m :: ms)) :
    ((l.set q ms).map List.length).sum + 1 = (l.map List.length).sum := by
  induction l generalizing q with
  | nil => cases h
  | cons x l ih =>
    cases q with
    | zero => cases h; simp; omega
    | succ q =>
      have := ih h
      simp only [List.set_cons_succ, List.map_cons, List.sum_cons]
      omega

/-- How a feed goes on: it takes demand from its queue, or sends its first element, or another one. -/
inductive Fed (s s' : Sock) (y : Yield) (sid : UInt32) (q : Nat) : Bool → UInt32 → Bool → UInt32 → Prop
  | demand (first : Bool) (m : UInt32) (ms : List UInt32) : s.queues[q]? = some (m :: ms) → Fed s s' y sid q first 0 first m
  | first (n : UInt32) (f : Frame) : n ≠ 0 → opens f = true → f.streamID = sid → f ∈ s'.out.drop s.out.length → Fed s s' y sid q true n false (n - 1)
  | next (n : UInt32) : n ≠ 0 → Fed s s' y sid q false n false (n - 1)
  | failed (first : Bool) (n : UInt32) (e : Bytes) : n ≠ 0 → y = .err e → Fed s s' y sid q first n first (n - 1)

/-- What a task does. -/
structure Moved (s s' : Sock) (t : Nat) (y : Yield) (k : Rust.Task) : Prop where
  sinks : s'.sinks = s.sinks
  work : ∃ l, s'.out = s.out ++ l ∧ sockWork s' + wireWork l + 1 ≤ sockWork s + (if gives s (.task t y) then 2 else 0) ∧
    (∀ v, Frame.requestN v ∈ l → v.n = requestMax) ∧ ∀ sid i, k = .rcStart sid i → .requestN ⟨sid, requestMax⟩ ∈ l
  tasks : ∃ st, s'.tasks = s.tasks.set t st ∧ (∀ sid q first' n', st = some (.feed sid q first' n') → ∃ first n, k = .feed sid q first n ∧ Fed s s' y sid q first n first' n')
  channels : s'.channels = s.channels ∨ ∃ sid q first n, k = .feed sid q first n ∧ s'.channels = mapRemove s.channels sid ∧ s'.tasks = s.tasks.set t none
  queues : s'.queues = s.queues ∨ ∃ sid q first n m ms, k = .feed sid q first n ∧ s.queues[q]? = some (m :: ms) ∧ s'.queues = s.queues.set q ms

theorem moves {s s' : Sock} {t : Nat} {y : Yield} {k : Rust.Task} (hk : s.tasks[t]? = some (some k)) (h : s.runTask t y k = some s') :
    Moved s s' t y k := by
  have hset : s.tasks = s.tasks.set t (some k) := by
    obtain ⟨ht, he⟩ := List.getElem?_eq_some_iff.mp hk
    rw [← he, List.set_getElem_self]
  have hw : ∀ st, ((s.tasks.set t st).map taskWork).sum + taskWork (some k) = (s.tasks.map taskWork).sum + taskWork st := fun st => sum_set s.tasks hk
  have hg : gives s (.task t y) = (waits (some (some k)) && decide (y ≠ .done)) := by simp only [gives, hk]
  refine ⟨(runTask_core h).2.1, ?_, ?_, ?_, ?_⟩
  · rw [hg]
    cases k with
    | rr sid =>
      have := hw none
      cases y <;> simp only [Sock.runTask] at h <;> cases h
      · exact ⟨[_], rfl, by simp [sockWork, Sock.send, wireWork, newPayload, frameWork, taskWork] at this ⊢; omega, by simp [newPayload], by simp⟩
      · exact ⟨[_], rfl, by simp [sockWork, Sock.send, wireWork, appError, frameWork, taskWork] at this ⊢; omega, by simp [appError], by simp⟩
    | fnf sid =>
      have := hw none
      cases y <;> simp only [Sock.runTask] at h <;> cases h
      · exact ⟨[], by simp, by simp [sockWork, wireWork, taskWork] at this ⊢; omega, by simp, by simp⟩
      · exact ⟨[_], rfl, by simp [sockWork, Sock.send, wireWork, appError, frameWork, taskWork] at this ⊢; omega, by simp [appError], by simp⟩
    | rsStart sid md d =>
      have := hw (some (.rs sid))
      simp only [Sock.runTask] at h
      cases h
      exact ⟨[], by simp, by simp [sockWork, wireWork, taskWork] at this ⊢; omega, by simp, by simp⟩
    | rcStart sid i =>
      have := hw (some (.rc sid))
      simp only [Sock.runTask] at h
      cases h
      exact ⟨[_], rfl, by simp [sockWork, Sock.send, wireWork, frameWork, taskWork] at this ⊢; omega, by simp, by simp⟩
    | rs sid =>
      have := hw none
      cases y <;> simp only [Sock.runTask] at h <;> cases h
      · exact ⟨[_], rfl, by simp [sockWork, Sock.send, wireWork, nextFrame, newPayload, frameWork, waits], by simp [nextFrame, newPayload], by simp⟩
      · exact ⟨[_], rfl, by simp [sockWork, Sock.send, wireWork, appError, frameWork, waits], by simp [appError], by simp⟩
      · exact ⟨[_], rfl, by simp [sockWork, Sock.send, wireWork, completeFrame, newPayload, frameWork, taskWork, waits] at this ⊢; omega, by simp [completeFrame, newPayload], by simp⟩
    | rc sid =>
      have := hw none
      cases y <;> simp only [Sock.runTask] at h <;> cases h
      · exact ⟨[_], rfl, by simp [sockWork, Sock.send, wireWork, nextFrame, newPayload, frameWork, waits], by simp [nextFrame, newPayload], by simp⟩
      · exact ⟨[_], rfl, by simp [sockWork, Sock.send, wireWork, appError, frameWork, waits], by simp [appError], by simp⟩
      · exact ⟨[_], rfl, by simp [sockWork, Sock.send, wireWork, completeFrame, newPayload, frameWork, taskWork, waits] at this ⊢; omega, by simp [completeFrame, newPayload], by simp⟩
    | feed sid q first n =>
      have hpos : 2 ≤ taskWork (some (.feed sid q first n)) := by simp only [taskWork]; split <;> omega
      have fin : ∀ z : Nat, ∃ l, (s.feedEnd t sid).out = s.out ++ l ∧ sockWork (s.feedEnd t sid) + wireWork l + 1 ≤ sockWork s + z ∧
          (∀ v, Frame.requestN v ∈ l → v.n = requestMax) ∧ ∀ sid' i, Rust.Task.feed sid q first n = .rcStart sid' i → .requestN ⟨sid', requestMax⟩ ∈ l := by
        intro z
        have := hw none
        refine ⟨[_], rfl, ?_, by simp [completeFrame, newPayload], by simp⟩
        simp only [sockWork, Sock.feedEnd, Sock.send, wireWork, completeFrame, newPayload, frameWork, List.map_cons, List.map_nil, List.sum_cons, List.sum_nil,
          show taskWork none = 0 from rfl] at this ⊢
        omega
      simp only [Sock.runTask] at h
      split at h
      · rename_i hn
        split at h
        · rename_i m ms hq
          cases h
          have := hw (some (.feed sid q first m))
          have hp := sum_pop s.queues hq
          refine ⟨[], by simp, ?_, by simp, by simp⟩
          simp only [sockWork, wireWork, List.map_nil, List.sum_nil, taskWork] at this ⊢
          omega
        · split at h
          · cases h
          · cases h; exact fin _
      · rename_i hn
        have hw2 : (waits (some (some (.feed sid q first n)))) = true := by simp [waits, hn]
        cases y <;> simp only at h
        · split at h
          · rename_i hfirst
            cases h
            have := hw (some (.feed sid q false (n - 1)))
            refine ⟨[_], rfl, ?_, by simp [newRequest], by simp⟩
            rw [hw2]
            simp [sockWork, Sock.feedSent, Sock.send, wireWork, newRequest, frameWork, taskWork, hfirst, tRequestChannel, tRequestFNF, tRequestResponse, tRequestStream] at this ⊢
            omega
          · rename_i hfirst
            cases h
            have := hw (some (.feed sid q false (n - 1)))
            refine ⟨[_], rfl, ?_, by simp [nextFrame, newPayload], by simp⟩
            rw [hw2]
            simp [sockWork, Sock.feedSent, Sock.send, wireWork, nextFrame, newPayload, frameWork, taskWork, hfirst] at this ⊢
            omega
        · cases h
          have := hw (some (.feed sid q first (n - 1)))
          refine ⟨[_], rfl, ?_, by simp [appError], by simp⟩
          rw [hw2]
          simp [sockWork, Sock.send, wireWork, appError, frameWork, taskWork] at this ⊢
          omega
        · cases h; exact fin _
  · cases k with
    | feed sid q first n =>
      simp only [Sock.runTask] at h
      split at h
      · rename_i hn
        subst hn
        split at h
        · rename_i m ms hq
          cases h
          refine ⟨_, rfl, fun sid' q' f' n' he => ?_⟩
          cases he
          exact ⟨_, _, rfl, .demand _ _ ms hq⟩
        · split at h
          · cases h
          · cases h; exact ⟨none, rfl, fun _ _ _ _ he => by cases he⟩
      · rename_i hn
        cases y <;> simp only at h
        · split at h
          · rename_i md d hfirst
            cases h
            subst hfirst
            refine ⟨_, rfl, fun sid' q' f' n' he => ?_⟩
            cases he
            refine ⟨_, _, rfl, .first _ (newRequest tRequestChannel sid md d Rust.flagNext requestMax) hn ?_ rfl ?_⟩
            · simp [newRequest, opens, tRequestChannel, tRequestFNF, tRequestResponse, tRequestStream]
            · simp [Sock.feedSent, Sock.send]
          · rename_i hfirst
            have hfirst : first = false := by simpa using hfirst
            cases h
            subst hfirst
            refine ⟨_, rfl, fun sid' q' f' n' he => ?_⟩
            cases he
            exact ⟨_, _, rfl, .next _ hn⟩
        · cases h
          refine ⟨_, rfl, fun sid' q' f' n' he => ?_⟩
          cases he
          exact ⟨_, _, rfl, .failed _ _ _ hn rfl⟩
        · cases h; exact ⟨none, rfl, fun _ _ _ _ he => by cases he⟩
    | rs sid =>
      cases y <;> simp only [Sock.runTask] at h <;> cases h
      · exact ⟨_, hset, fun _ _ _ _ he => by cases he⟩
      · exact ⟨_, hset, fun _ _ _ _ he => by cases he⟩
      · exact ⟨_, rfl, fun _ _ _ _ he => by cases he⟩
    | rc sid =>
      cases y <;> simp only [Sock.runTask] at h <;> cases h
      · exact ⟨_, hset, fun _ _ _ _ he => by cases he⟩
      · exact ⟨_, hset, fun _ _ _ _ he => by cases he⟩
      · exact ⟨_, rfl, fun _ _ _ _ he => by cases he⟩
    | rsStart sid md d => simp only [Sock.runTask] at h; cases h; exact ⟨_, rfl, fun _ _ _ _ he => by cases he⟩
    | rcStart sid i => simp only [Sock.runTask] at h; cases h; exact ⟨_, rfl, fun _ _ _ _ he => by cases he⟩
    | rr sid => cases y <;> simp only [Sock.runTask] at h <;> cases h <;> exact ⟨_, rfl, fun _ _ _ _ he => by cases he⟩
    | fnf sid => cases y <;> simp only [Sock.runTask] at h <;> cases h <;> exact ⟨_, rfl, fun _ _ _ _ he => by cases he⟩
  · cases k with
    | feed sid q first n =>
      simp only [Sock.runTask] at h
      split at h
      · split at h
        · cases h; exact .inl rfl
        · split at h
          · cases h
          · cases h; exact .inr ⟨_, _, _, _, rfl, rfl, rfl⟩
      · cases y <;> simp only at h
        · split at h <;> cases h <;> exact .inl rfl
        · cases h; exact .inl rfl
        · cases h; exact .inr ⟨_, _, _, _, rfl, rfl, rfl⟩
    | rsStart sid md d => simp only [Sock.runTask] at h; cases h; exact .inl rfl
    | rcStart sid i => simp only [Sock.runTask] at h; cases h; exact .inl rfl
    | _ => cases y <;> simp only [Sock.runTask] at h <;> cases h <;> exact .inl rfl
  · cases k with
    | feed sid q first n =>
      simp only [Sock.runTask] at h
      split at h
      · split at h
        · rename_i m ms hq
          cases h; exact .inr ⟨_, _, _, _, m, ms, rfl, hq, rfl⟩
        · split at h
          · cases h
          · cases h; exact .inl rfl
      · cases y <;> simp only at h
        · split at h <;> cases h <;> exact .inl rfl
        · cases h; exact .inl rfl
        · cases h; exact .inl rfl
    | rsStart sid md d => simp only [Sock.runTask] at h; cases h; exact .inl rfl
    | rcStart sid i => simp only [Sock.runTask] at h; cases h; exact .inl rfl
    | _ => cases y <;> simp only [Sock.runTask] at h <;> cases h <;> exact .inl rfl

/-! ## Feeds and their channels -/

/-- Every feed has its own channel and queue. -/
structure Feeds (s : Sock) : Prop where
  chan : ∀ {t : Nat} {sid q f n}, s.tasks[t]? = some (some (.feed sid q f n)) → mapGet s.channels sid = some q ∧ q < s.queues.length
  uniq : ∀ {t t' : Nat} {sid sid' q q' f f' n n'}, s.tasks[t]? = some (some (.feed sid q f n)) → s.tasks[t']? = some (some (.feed sid' q' f' n')) →
    sid = sid' ∨ q = q' → t = t'
  all : ∀ l ∈ s.queues, ∀ n ∈ l, n = requestMax

theorem call_facts {s : Sock} (h : Alive s) (m : Method) (md d : Bytes) :
    Alive (s.request m md d) ∧ (∀ g, g ∈ (s.request m md d).out → g ∈ s.out ∨ isDemand g = false) ∧
    (m ≠ .rc → (s.request m md d).tasks = s.tasks ∧ (s.request m md d).channels = s.channels ∧ (s.request m md d).queues = s.queues) ∧
    (m = .rc → (s.request m md d).tasks = s.tasks ++ [some (.feed s.next s.queues.length true 1)] ∧
      (s.request m md d).channels = mapInsert s.channels s.next s.queues.length ∧ (s.request m md d).queues = s.queues ++ [[]]) := by
  cases m with
  | fnf =>
    refine ⟨h, fun g hg => ?_, fun _ => ⟨rfl, rfl, rfl⟩, fun he => by cases he⟩
    rcases List.mem_append.mp hg with h1 | h1
    · exact .inl h1
    · cases List.mem_singleton.mp h1; exact .inr rfl
  | rr =>
    refine ⟨alive_register (s := s.draw) h _ _ _, fun g hg => ?_, fun _ => ⟨(remove_tasks s.draw s.next).1, (remove_queues s.draw s.next).2, (remove_queues s.draw s.next).1⟩,
      fun he => by cases he⟩
    rcases List.mem_append.mp hg with h1 | h1
    · exact .inl (by rw [show (s.draw.register s.next .rr []).out = _ from (remove_tasks s.draw s.next).2] at h1; exact h1)
    · cases List.mem_singleton.mp h1; exact .inr rfl
  | rs =>
    refine ⟨alive_register (s := s.draw) h _ _ _, fun g hg => ?_, fun _ => ⟨(remove_tasks s.draw s.next).1, (remove_queues s.draw s.next).2, (remove_queues s.draw s.next).1⟩,
      fun he => by cases he⟩
    rcases List.mem_append.mp hg with h1 | h1
    · exact .inl (by rw [show (s.draw.register s.next .rs []).out = _ from (remove_tasks s.draw s.next).2] at h1; exact h1)
    · cases List.mem_singleton.mp h1; exact .inr rfl
  | rc =>
    refine ⟨alive_register (s := s.draw) h _ _ _, fun g hg => ?_, fun he => absurd rfl he, fun _ => ⟨?_, rfl, rfl⟩⟩
    · exact .inl (by rw [show (s.request .rc md d).out = _ from (remove_tasks s.draw s.next).2] at hg; exact hg)
    · show (s.draw.register s.next .rc []).tasks ++ [_] = _
      rw [show (s.draw.register s.next .rc []).tasks = _ from (remove_tasks s.draw s.next).1]
      rfl

/-- Where a feed comes from. -/
inductive Origin (s s' : Sock) (b : SockAct) (t : Nat) (sid : UInt32) (q : Nat) (f : Bool) (n : UInt32) : Prop
  | moved (y : Yield) (f0 : Bool) (n0 : UInt32) : b = .task t y → s.tasks[t]? = some (some (.feed sid q f0 n0)) → Fed s s' y sid q f0 n0 f n →
      Origin s s' b t sid q f n
  | same : s.tasks[t]? = some (some (.feed sid q f n)) → (∀ y, b ≠ .task t y) → Origin s s' b t sid q f n
  | new (md d : Bytes) : b = .call .rc md d → t = s.tasks.length → sid = s.next → q = s.queues.length → f = true → n = 1 → Origin s s' b t sid q f n

theorem of_append {l : List (Option Rust.Task)} {m : List (Option Rust.Task)} {t : Nat} {k : Rust.Task} (h : (l ++ m)[t]? = some (some k)) :
    l[t]? = some (some k) ∨ some k ∈ m := by
  rw [List.getElem?_append] at h
  split at h
  · exact .inl h
  · exact .inr (List.mem_of_getElem? h)

theorem task_step {s s' : Sock} {t : Nat} {y : Yield} (h : s.step (.task t y) = some (.ok s')) :
    ∃ k, s.tasks[t]? = some (some k) ∧ s.runTask t y k = some s' := by
  simp only [Sock.step] at h
  split at h
  · rename_i k hk
    cases hx : s.runTask t y k with
    | none => rw [hx] at h; cases h
    | some s1 => rw [hx] at h; cases h; exact ⟨k, hk, hx⟩
  · cases h

theorem origin {s s' : Sock} {b : SockAct} (ha : Alive s) (h : s.step b = some (.ok s')) {t : Nat} {sid : UInt32} {q : Nat} {f : Bool} {n : UInt32}
    (ht : s'.tasks[t]? = some (some (.feed sid q f n))) : Origin s s' b t sid q f n := by
  cases b with
  | recv g =>
    obtain ⟨s1, h1, hk⟩ := takes ha g
    simp only [Sock.step, h1] at h
    cases h
    obtain ⟨l, h2, h3, _⟩ := hk.tasks
    rw [h2] at ht
    rcases of_append ht with h4 | h4
    · exact .same h4 fun y he => by cases he
    · exact absurd (h3 _ h4) (by simp [isFeed])
  | call m md d =>
    simp only [Sock.step] at h
    cases h
    obtain ⟨_, _, h1, h2⟩ := call_facts ha m md d
    by_cases hm : m = .rc
    · subst hm
      have h3 := (h2 rfl).1
      have hlen := (List.getElem?_eq_some_iff.mp ht).1
      rw [h3] at ht hlen
      rw [List.getElem?_append] at ht
      split at ht
      · exact .same ht fun y he => by cases he
      · rename_i hlt
        rw [List.length_append, List.length_cons, List.length_nil] at hlen
        have : t = s.tasks.length := by omega
        subst this
        simp only [Nat.sub_self, List.getElem?_cons_zero, Option.some.injEq, Rust.Task.feed.injEq] at ht
        obtain ⟨rfl, rfl, rfl, rfl⟩ := ht
        exact .new md d rfl rfl rfl rfl rfl rfl
    · rw [(h1 hm).1] at ht
      exact .same ht fun y he => by cases he
  | drop i =>
    simp only [Sock.step] at h
    cases h
    exact .same ht fun y he => by cases he
  | task t' y =>
    obtain ⟨k, hk, hr⟩ := task_step h
    obtain ⟨st, h1, h2⟩ := (moves hk hr).tasks
    rw [h1, List.getElem?_set] at ht
    split at ht
    · rename_i he
      subst he
      split at ht
      · simp only [Option.some.injEq] at ht
        obtain ⟨f0, n0, rfl, hfed⟩ := h2 sid q f n ht
        exact .moved y f0 n0 rfl hk hfed
      · cases ht
    · rename_i he
      exact .same ht fun y' hy => he (by cases hy; rfl)

theorem origin_old {s s' : Sock} {b : SockAct} {t : Nat} {sid : UInt32} {q : Nat} {f : Bool} {n : UInt32} (h : Origin s s' b t sid q f n) :
    (∃ f0 n0, s.tasks[t]? = some (some (.feed sid q f0 n0))) ∨ (∃ md d, b = .call .rc md d) ∧ t = s.tasks.length ∧ sid = s.next ∧ q = s.queues.length := by
  cases h with
  | moved y f0 n0 _ h _ => exact .inl ⟨f0, n0, h⟩
  | same h _ => exact .inl ⟨f, n, h⟩
  | new md d h1 h2 h3 h4 _ _ => exact .inr ⟨⟨md, d, h1⟩, h2, h3, h4⟩

theorem mem_modify {l : List (List UInt32)} {q : Nat} {m : UInt32} {x : List UInt32} (h : x ∈ l.modify q fun l => l ++ [m]) :
    x ∈ l ∨ ∃ z ∈ l, x = z ++ [m] := by
  obtain ⟨j, hj⟩ := List.mem_iff_getElem?.mp h
  rw [List.getElem?_modify] at hj
  cases hl : l[j]? with
  | none => rw [hl] at hj; cases hj
  | some z =>
    rw [hl] at hj
    split at hj <;> cases hj
    · exact .inr ⟨z, List.mem_of_getElem? hl, rfl⟩
    · exact .inl (List.mem_of_getElem? hl)

/-- Feeds keep their channels and queues to themselves. -/
theorem feeds_step {s s' : Sock} {b : SockAct} (ha : Alive s) (hF : Feeds s) (h : s.step b = some (.ok s')) (hd : ∀ i, b ≠ .drop i)
    (hid : ∀ {t : Nat} {sid q f n}, s.tasks[t]? = some (some (.feed sid q f n)) → sid ≠ s.next)
    (hr : ∀ v, b = .recv (.requestN v) → v.n = requestMax) : Alive s' ∧ Feeds s' := by
  have halive : Alive s' := by
    cases b with
    | recv g =>
      obtain ⟨s1, h1, hk⟩ := takes ha g
      simp only [Sock.step, h1] at h
      cases h
      exact hk.alive
    | call m md d => simp only [Sock.step] at h; cases h; exact (call_facts ha m md d).1
    | drop i => exact absurd rfl (hd i)
    | task t y =>
      obtain ⟨k, hk, hr⟩ := task_step h
      intro x hx
      rw [(moves hk hr).sinks] at hx
      exact ha x hx
  have hlen : s.queues.length ≤ s'.queues.length := by
    cases b with
    | recv g =>
      obtain ⟨s1, h1, hk⟩ := takes ha g
      simp only [Sock.step, h1] at h
      cases h
      rcases hk.queues with hq | ⟨v, q, _, _, _, hq⟩ <;> rw [hq]
      · exact Nat.le_refl _
      · rw [List.length_modify]; exact Nat.le_refl _
    | call m md d =>
      simp only [Sock.step] at h; cases h
      by_cases hm : m = .rc
      · rw [((call_facts ha m md d).2.2.2 hm).2.2, List.length_append]; omega
      · rw [((call_facts ha m md d).2.2.1 hm).2.2]; exact Nat.le_refl _
    | drop i => exact absurd rfl (hd i)
    | task t y =>
      obtain ⟨k, hk, hr⟩ := task_step h
      rcases (moves hk hr).queues with hq | ⟨_, q, _, _, m, ms, _, _, hq⟩ <;> rw [hq]
      · exact Nat.le_refl _
      · rw [List.length_set]; exact Nat.le_refl _
  refine ⟨halive, ⟨fun {t sid q f n} ht => ?_, fun {t t' sid sid' q q' f f' n n'} ht ht' he => ?_, fun l hl n hn => ?_⟩⟩
  · rcases origin_old (origin ha h ht) with ⟨f0, n0, h0⟩ | ⟨⟨md, d, rfl⟩, rfl, rfl, rfl⟩
    · obtain ⟨c1, c2⟩ := hF.chan h0
      refine ⟨?_, by omega⟩
      cases b with
      | recv g =>
        obtain ⟨s1, h1, hk⟩ := takes ha g
        simp only [Sock.step, h1] at h
        cases h
        rw [hk.channels]; exact c1
      | call m md d =>
        simp only [Sock.step] at h; cases h
        by_cases hm : m = .rc
        · rw [((call_facts ha m md d).2.2.2 hm).2.1, mapGet_insert_other (hid h0)]; exact c1
        · rw [((call_facts ha m md d).2.2.1 hm).2.1]; exact c1
      | drop i => exact absurd rfl (hd i)
      | task t1 y =>
        obtain ⟨k, hk, hr⟩ := task_step h
        rcases (moves hk hr).channels with hc | ⟨sid1, q1, f1, n1, rfl, hc, hset⟩
        · rw [hc]; exact c1
        · have hne : sid ≠ sid1 := by
            intro he
            have := hF.uniq h0 hk (.inl he)
            subst this
            rw [hset, List.getElem?_set] at ht
            simp only [if_true] at ht
            split at ht <;> cases ht
          rw [hc, mapGet_remove_other hne]; exact c1
    · simp only [Sock.step] at h; cases h
      obtain ⟨_, c2, c3⟩ := (call_facts ha .rc md d).2.2.2 rfl
      rw [c2, c3]
      exact ⟨mapGet_insert_self _ _ _, by simp⟩
  · rcases origin_old (origin ha h ht) with ⟨f0, n0, h0⟩ | ⟨⟨md, d, rfl⟩, rfl, rfl, rfl⟩
    · rcases origin_old (origin ha h ht') with ⟨f1, n1, h1⟩ | ⟨⟨md, d, rfl⟩, rfl, rfl, rfl⟩
      · exact hF.uniq h0 h1 he
      · rcases he with he | he
        · exact absurd he (hid h0)
        · have := (hF.chan h0).2; omega
    · rcases origin_old (origin ha h ht') with ⟨f1, n1, h1⟩ | ⟨_, rfl, rfl, rfl⟩
      · rcases he with he | he
        · exact absurd he.symm (hid h1)
        · have := (hF.chan h1).2; omega
      · rfl
  · cases b with
    | recv g =>
      obtain ⟨s1, h1, hk⟩ := takes ha g
      simp only [Sock.step, h1] at h
      cases h
      rcases hk.queues with hq | ⟨v, q, rfl, _, _, hq⟩ <;> rw [hq] at hl
      · exact hF.all l hl n hn
      · rcases mem_modify hl with h1 | ⟨z, hz, rfl⟩
        · exact hF.all l h1 n hn
        · rcases List.mem_append.mp hn with h2 | h2
          · exact hF.all z hz n h2
          · rw [List.mem_singleton.mp h2]; exact hr v rfl
    | call m md d =>
      simp only [Sock.step] at h; cases h
      by_cases hm : m = .rc
      · rw [((call_facts ha m md d).2.2.2 hm).2.2] at hl
        rcases List.mem_append.mp hl with h1 | h1
        · exact hF.all l h1 n hn
        · cases List.mem_singleton.mp h1; exact absurd hn List.not_mem_nil
      · rw [((call_facts ha m md d).2.2.1 hm).2.2] at hl; exact hF.all l hl n hn
    | drop i => exact absurd rfl (hd i)
    | task t y =>
      obtain ⟨k, hk, hr⟩ := task_step h
      rcases (moves hk hr).queues with hq | ⟨_, q, _, _, m, ms, _, hm, hq⟩ <;> rw [hq] at hl
      · exact hF.all l hl n hn
      · rcases List.mem_or_eq_of_mem_set hl with h1 | rfl
        · exact hF.all l h1 n hn
        · exact hF.all _ (List.mem_of_getElem? hm) n (List.mem_cons_of_mem _ hn)

/-! ## Demand comes -/

/-- Demand for the feed with this id and queue is there or on its way. -/
inductive Due (p : Pair) (e : Bool) (sid : UInt32) (q : Nat) : Prop
  | queued (m : UInt32) (ms : List UInt32) : (p.sock e).queues[q]? = some (m :: ms) → Due p e sid q
  | sent (g : Frame) : g ∈ (p.sock (!e)).out.drop (p.read e) → isDemand g = true → g.streamID = sid → Due p e sid q
  | starting (i : Nat) : some (.rcStart sid i) ∈ (p.sock (!e)).tasks → Due p e sid q
  | asked (g : Frame) : g ∈ (p.sock e).out.drop (p.read (!e)) → opens g = true → g.streamID = sid → Due p e sid q

structure Good (p : Pair) (H : Bool → List SockAct) : Prop where
  alive : ∀ e, Alive (p.sock e)
  feeds : ∀ e, Feeds (p.sock e)
  demands : ∀ e v, .requestN v ∈ (p.sock e).out → v.n = requestMax
  wait : ∀ e {t : Nat} {sid q f n}, (p.sock e).tasks[t]? = some (some (.feed sid q f n)) → (f = true → n = 1) ∧
    (f = false → n = 0 → Due p e sid q ∨ 2 ^ 31 ≤ (yields t (H e)).length) ∧ (f = false → n ≠ 0 → 2 ^ 31 ≤ n.toNat + (yields t (H e)).length)

/-- Frames that were sent before are still there, or were read. -/
theorem drop_next {l : List Frame} {r : Nat} {f : Frame} (h : l[r]? = some f) : l.drop r = f :: l.drop (r + 1) := by
  obtain ⟨h1, h2⟩ := List.getElem?_eq_some_iff.mp h
  rw [List.drop_eq_getElem_cons h1, h2]

theorem out_grows {s s' : Sock} {b : SockAct} (h : s.step b = some (.ok s')) : ∃ l, s'.out = s.out ++ l := by
  rcases stepped h with ⟨m, md, d, _, hc⟩ | ⟨f, _, hp⟩ | ⟨t, y, k, _, _, hw⟩ | ⟨i, _, _, ho, _⟩
  · obtain ⟨l, h1, _⟩ := hc.out; exact ⟨l, h1⟩
  · obtain ⟨l, h1, _⟩ := hp.out; exact ⟨l, h1⟩
  · obtain ⟨l, _, _, h1, _⟩ := hw.did; exact ⟨l, h1⟩
  · exact ⟨[], by simp [ho]⟩

theorem mem_drop_grows {l l' : List Frame} {g : Frame} {r : Nat} (h : g ∈ l.drop r) : g ∈ (l ++ l').drop r := by
  rw [List.drop_append]
  exact List.mem_append.mpr (.inl h)

theorem head_kept {s s' : Sock} {b : SockAct} (ha : Alive s) (hF : Feeds s) (h : s.step b = some (.ok s')) {t : Nat} {sid : UInt32} {q : Nat} {f : Bool}
    {n m : UInt32} {ms : List UInt32} (ht : s.tasks[t]? = some (some (.feed sid q f n))) (hb : ∀ y, b ≠ .task t y)
    (hq : s.queues[q]? = some (m :: ms)) : ∃ m' ms', s'.queues[q]? = some (m' :: ms') := by
  cases b with
  | recv g =>
    obtain ⟨s1, h1, hk⟩ := takes ha g
    simp only [Sock.step, h1] at h
    cases h
    rcases hk.queues with h2 | ⟨v, q', _, _, _, h2⟩ <;> rw [h2]
    · exact ⟨m, ms, hq⟩
    · rw [List.getElem?_modify, hq]
      split
      · exact ⟨m, ms ++ [v.n], rfl⟩
      · exact ⟨m, ms, rfl⟩
  | call m' md d =>
    simp only [Sock.step] at h; cases h
    by_cases hm : m' = .rc
    · rw [((call_facts ha m' md d).2.2.2 hm).2.2, List.getElem?_append_left (List.getElem?_eq_some_iff.mp hq).1]; exact ⟨m, ms, hq⟩
    · rw [((call_facts ha m' md d).2.2.1 hm).2.2]; exact ⟨m, ms, hq⟩
  | drop i => simp only [Sock.step] at h; cases h; exact ⟨m, ms, hq⟩
  | task t1 y =>
    obtain ⟨k, hk, hr⟩ := task_step h
    rcases (moves hk hr).queues with h2 | ⟨sid1, q1, f1, n1, m1, ms1, rfl, _, h2⟩ <;> rw [h2]
    · exact ⟨m, ms, hq⟩
    · have hne : q1 ≠ q := by
        intro he
        have := hF.uniq ht hk (.inr he.symm)
        subst this
        exact hb y rfl
      rw [List.getElem?_set, if_neg hne]; exact ⟨m, ms, hq⟩

theorem task_kept {s s' : Sock} {b : SockAct} (ha : Alive s) (h : s.step b = some (.ok s')) {sid : UInt32} {i : Nat}
    (hm : some (.rcStart sid i) ∈ s.tasks) : some (.rcStart sid i) ∈ s'.tasks ∨ .requestN ⟨sid, requestMax⟩ ∈ s'.out.drop s.out.length := by
  cases b with
  | recv g =>
    obtain ⟨s1, h1, hk⟩ := takes ha g
    simp only [Sock.step, h1] at h
    cases h
    obtain ⟨l, h2, _⟩ := hk.tasks
    rw [h2]; exact .inl (List.mem_append.mpr (.inl hm))
  | call m' md d =>
    simp only [Sock.step] at h; cases h
    by_cases hm' : m' = .rc
    · rw [((call_facts ha m' md d).2.2.2 hm').1]; exact .inl (List.mem_append.mpr (.inl hm))
    · rw [((call_facts ha m' md d).2.2.1 hm').1]; exact .inl hm
  | drop i => simp only [Sock.step] at h; cases h; exact .inl hm
  | task t1 y =>
    obtain ⟨k, hk, hr⟩ := task_step h
    have mv := moves hk hr
    obtain ⟨st, h2, _⟩ := mv.tasks
    obtain ⟨t0, h0⟩ := List.mem_iff_getElem?.mp hm
    by_cases he : t1 = t0
    · subst he
      rw [hk] at h0
      simp only [Option.some.injEq] at h0
      obtain ⟨l, h3, _, _, h5⟩ := mv.work
      rw [h3, List.drop_left]
      exact .inr (h5 sid i h0)
    · rw [h2]
      exact .inl (List.mem_of_getElem? (by rw [List.getElem?_set, if_neg he]; exact h0))

theorem due_step {p p' : Pair} {H : Bool → List SockAct} {a : PairAct} {x : Bool} {b : SockAct} (g : Good p H) (hrd : ∀ e, p.read e ≤ (p.sock (!e)).out.length)
    (hs : p.seen a = some (x, b)) (hst : p.step a = some p') {e : Bool} {t : Nat} {sid : UInt32} {q : Nat} {f : Bool} {n : UInt32}
    (ht : (p.sock e).tasks[t]? = some (some (.feed sid q f n))) (hb : x = e → ∀ y, b ≠ .task t y) (hd : Due p e sid q) : Due p' e sid q := by
  obtain ⟨s1, s2, s3, s4⟩ := pair_step hs hst
  obtain ⟨l, hl⟩ := out_grows s1
  by_cases hx : x = e
  · subst hx
    cases hd with
    | queued m ms hq =>
      obtain ⟨m', ms', h'⟩ := head_kept (g.alive x) (g.feeds x) s1 ht (hb rfl) hq
      exact .queued m' ms' h'
    | sent fr h1 h2 h3 =>
      rcases s4 with ⟨f', rfl, h4, h5⟩ | ⟨_, h5⟩
      · rw [drop_next h4] at h1
        rcases List.mem_cons.mp h1 with rfl | h1
        · obtain ⟨s', t1, t2⟩ := takes (g.alive x) fr
          simp only [Sock.step, t1, Option.some.injEq, Res.ok.injEq] at s1
          subst s1
          cases fr with
          | requestN v =>
            have hv : v.n ≠ 0 := by
              rw [g.demands (!x) v (List.mem_of_getElem? h4)]; decide
            obtain ⟨c1, c2⟩ := (g.feeds x).chan ht
            have h3 : v.streamID = sid := h3
            have hqq := t2.demand v q rfl hv (by rw [h3]; exact c1)
            have hlq : (p'.sock x).queues[q]? = some ((p.sock x).queues[q] ++ [v.n]) := by
              rw [hqq, List.getElem?_modify, List.getElem?_eq_getElem c2]; simp
            cases hz : (p.sock x).queues[q] with
            | nil => rw [hz] at hlq; exact .queued _ _ hlq
            | cons m ms => rw [hz] at hlq; exact .queued _ _ hlq
          | _ => cases h2
        · exact .sent fr (by rw [s2, h5]; exact h1) h2 h3
      · exact .sent fr (by rw [s2, h5]; exact h1) h2 h3
    | starting i h1 => exact .starting i (by rw [s2]; exact h1)
    | asked fr h1 h2 h3 => exact .asked fr (by rw [s3, hl]; exact mem_drop_grows h1) h2 h3
  · have hx : x = !e := by cases x <;> cases e <;> simp_all
    subst hx
    simp only [Bool.not_not] at s2 s3
    cases hd with
    | queued m ms hq => exact .queued m ms (by rw [s2]; exact hq)
    | sent fr h1 h2 h3 => exact .sent fr (by rw [s3, hl]; exact mem_drop_grows h1) h2 h3
    | starting i h1 =>
      rcases task_kept (g.alive (!e)) s1 h1 with h2 | h2
      · exact .starting i h2
      · refine .sent (.requestN ⟨sid, requestMax⟩) ?_ rfl rfl
        rw [s3]
        have := hrd e
        exact List.mem_of_mem_drop (i := (p.sock (!e)).out.length - p.read e) (by
          rw [List.drop_drop, show p.read e + ((p.sock (!e)).out.length - p.read e) = (p.sock (!e)).out.length by omega]; exact h2)
    | asked fr h1 h2 h3 =>
      rcases s4 with ⟨f', rfl, h4, h5⟩ | ⟨_, h5⟩
      · simp only [Bool.not_not] at h4
        rw [drop_next h4] at h1
        rcases List.mem_cons.mp h1 with rfl | h1
        · obtain ⟨s', t1, t2⟩ := takes (g.alive (!e)) fr
          simp only [Sock.step, t1, Option.some.injEq, Res.ok.injEq] at s1
          subst s1
          obtain ⟨l', t3, _, t5⟩ := t2.tasks
          obtain ⟨i, hi⟩ := t5 h2
          rw [h3] at hi
          exact .starting i (by rw [t3]; exact List.mem_append.mpr (.inr hi))
        · exact .asked fr (by rw [s2, h5]; exact h1) h2 h3
      · exact .asked fr (by rw [s2, h5]; exact h1) h2 h3

theorem yields_snoc (t : Nat) (H : List SockAct) (b : SockAct) :
    (yields t (H ++ [b])).length = (yields t H).length + (yields t [b]).length := by
  induction H with
  | nil => simp [yields]
  | cons a H ih =>
    cases a with
    | task t' y =>
      simp only [List.cons_append, yields]
      split
      · simp only [List.length_cons, ih]; omega
      · exact ih
    | _ => simp only [List.cons_append, yields]; exact ih

theorem good {p : Pair} {H : Bool → List SockAct} (h : Calm p H) (hf : Few H) : Good p H := by
  induction h with
  | init =>
    refine ⟨fun e => ?_, fun e => ⟨?_, ?_, ?_⟩, fun e => ?_, fun e => ?_⟩ <;> simp [Pair.init, Sock.init, Alive]
  | @step p p' H x b a hc hs hm hst ih =>
    have hf' : Few H := Few.prefix hf fun y => by
      split
      · exact ⟨[b], rfl⟩
      · exact ⟨[], by simp⟩
    have g := ih hf'
    have hr := calm_runs hc
    have hrd : ∀ e, p.read e ≤ (p.sock (!e)).out.length := fun e => (Runs.each hr e).2.2
    obtain ⟨s1, s2, s3, s4⟩ := pair_step hs hst
    have i := inv hr hf' x
    have hid : ∀ {t : Nat} {sid q f n}, (p.sock x).tasks[t]? = some (some (.feed sid q f n)) → sid ≠ (p.sock x).next := by
      intro t sid q f n ht he
      have hmem := List.mem_of_getElem? ht
      have := (i.taskIds _ hmem).1 (i.feeds _ hmem rfl)
      simp only [sidOf] at this
      rw [he] at this
      omega
    obtain ⟨a1, a2⟩ := feeds_step (g.alive x) (g.feeds x) s1 (fun j hj => by rw [hj] at hm; exact hm) hid (fun v hv => by
      rcases s4 with ⟨f, hb, hf, _⟩ | ⟨hb, _⟩
      · rw [hv] at hb; cases hb
        exact g.demands (!x) v (List.mem_of_getElem? hf)
      · rw [hv] at hb; cases hb)
    have both : ∀ {P : Bool → Prop}, P x → P (!x) → ∀ e, P e := by
      intro P h1 h2 e
      cases x <;> cases e <;> assumption
    refine ⟨both a1 (by rw [s2]; exact g.alive _), both a2 (by rw [s2]; exact g.feeds _), both ?_ (by rw [s2]; exact g.demands _), fun e {t sid q f n} ht => ?_⟩
    · intro v hv
      cases b with
      | recv fr =>
        obtain ⟨s', t1, t2⟩ := takes (g.alive x) fr
        simp only [Sock.step, t1, Option.some.injEq, Res.ok.injEq] at s1
        subst s1
        obtain ⟨l, t3, _, t5⟩ := t2.work
        rw [t3] at hv
        rcases List.mem_append.mp hv with h1 | h1
        · exact g.demands x v h1
        · exact absurd (t5 _ h1) (by simp [isDemand])
      | call m md d =>
        simp only [Sock.step, Option.some.injEq, Res.ok.injEq] at s1
        rw [← s1] at hv
        rcases (call_facts (g.alive x) m md d).2.1 _ hv with h1 | h1
        · exact g.demands x v h1
        · cases h1
      | drop j => exact hm.elim
      | task t y =>
        obtain ⟨k, hk, hrun⟩ := task_step s1
        obtain ⟨l, t3, _, t5, _⟩ := (moves hk hrun).work
        rw [t3] at hv
        rcases List.mem_append.mp hv with h1 | h1
        · exact g.demands x v h1
        · exact t5 v h1
    · by_cases hx : e = x
      · subst hx
        rw [if_pos rfl, yields_snoc]
        cases origin (g.alive e) s1 ht with
        | same h0 hb =>
          obtain ⟨w1, w2, w3⟩ := g.wait e h0
          refine ⟨w1, fun h1 h2 => ?_, fun h1 h2 => by have := w3 h1 h2; omega⟩
          rcases w2 h1 h2 with h3 | h3
          · exact .inl (due_step g hrd hs hst h0 (fun _ => hb) h3)
          · exact .inr (by omega)
        | new md d _ _ _ _ hf1 hn1 => subst hf1 hn1; exact ⟨fun _ => rfl, (fun h => by cases h), (fun h => by cases h)⟩
        | moved y f0 n0 hb h0 hfed =>
          subst hb
          have hlen : (yields t [SockAct.task t y]).length = 1 := by simp [yields]
          obtain ⟨w1, w2, w3⟩ := g.wait e h0
          cases hfed with
          | demand _ _ ms hq =>
            have hmax : n = requestMax := (g.feeds e).all _ (List.mem_of_getElem? hq) n List.mem_cons_self
            have h31 : requestMax.toNat = 2 ^ 31 - 1 := by decide
            refine ⟨fun h1 => absurd (w1 h1) (by decide), fun _ h2 => ?_, fun _ _ => ?_⟩
            · rw [hmax] at h2; exact absurd h2 (by decide)
            · rw [hmax, h31, hlen]; omega
          | first _ fr hn ho hsid hin =>
            have h1 := w1 rfl
            subst h1
            refine ⟨(fun h => by cases h), fun _ _ => .inl (.asked fr ?_ ho hsid), fun _ h => absurd rfl h⟩
            rw [s3]
            have := hrd (!e)
            simp only [Bool.not_not] at this
            exact List.mem_of_mem_drop (i := (p.sock e).out.length - p.read (!e)) (by
              rw [List.drop_drop, show p.read (!e) + ((p.sock e).out.length - p.read (!e)) = (p.sock e).out.length by omega]; exact hin)
          | next _ hn =>
            have h3 := w3 rfl hn
            have hsub : (n0 - 1).toNat = n0.toNat - 1 := by
              rw [UInt32.toNat_sub_of_le _ _ (by
                rw [UInt32.le_iff_toNat_le]
                have : n0.toNat ≠ 0 := fun h => hn (UInt32.toNat_inj.mp h)
                show 1 ≤ _
                omega)]
              rfl
            have hpos : n0.toNat ≠ 0 := fun h => hn (UInt32.toNat_inj.mp h)
            refine ⟨(fun h => by cases h), fun _ h => .inr ?_, fun _ _ => ?_⟩
            · have : (n0 - 1).toNat = 0 := by rw [h]; rfl
              omega
            · omega
          | failed _ _ er hn he =>
            subst he
            simp only [Mild, atFirst, h0] at hm
            subst hm
            have h3 := w3 rfl hn
            have hsub : (n0 - 1).toNat = n0.toNat - 1 := by
              rw [UInt32.toNat_sub_of_le _ _ (by
                rw [UInt32.le_iff_toNat_le]
                have : n0.toNat ≠ 0 := fun h => hn (UInt32.toNat_inj.mp h)
                show 1 ≤ _
                omega)]
              rfl
            have hpos : n0.toNat ≠ 0 := fun h => hn (UInt32.toNat_inj.mp h)
            refine ⟨(fun h => by cases h), fun _ h => .inr ?_, fun _ _ => ?_⟩
            · have : (n0 - 1).toNat = 0 := by rw [h]; rfl
              omega
            · omega
      · have hxe : x ≠ e := fun h => hx h.symm
        have he : (!x) = e := by cases x <;> cases e <;> simp_all
        have hsame : p'.sock e = p.sock e := by rw [← he]; exact s2
        rw [hsame] at ht
        rw [if_neg hx]
        obtain ⟨w1, w2, w3⟩ := g.wait e ht
        refine ⟨w1, fun h1 h2 => ?_, w3⟩
        rcases w2 h1 h2 with h3 | h3
        · exact .inl (due_step g hrd hs hst ht (fun h => absurd h hxe) h3)
        · exact .inr h3

/-! ## How much is left -/

theorem work_at (p : Pair) (x : Bool) : work p = sockWork (p.sock x) + sockWork (p.sock (!x)) + wireWork ((p.sock x).out.drop (p.read (!x))) +
    wireWork ((p.sock (!x)).out.drop (p.read x)) := by
  cases x
  · rfl
  · simp only [work, Bool.not_true]; omega

theorem wire_append (l m : List Frame) : wireWork (l ++ m) = wireWork l + wireWork m := by simp [wireWork]

theorem goes_down {p p' : Pair} {H : Bool → List SockAct} {a : PairAct} {x : Bool} {b : SockAct} (g : Good p H)
    (hrd : ∀ e, p.read e ≤ (p.sock (!e)).out.length) (hg : Goes a) (hs : p.seen a = some (x, b)) (hst : p.step a = some p') :
    work p' + 1 ≤ work p + if gives (p.sock x) b then 2 else 0 := by
  obtain ⟨s1, s2, s3, s4⟩ := pair_step hs hst
  have hx := hrd (!x)
  simp only [Bool.not_not] at hx
  rw [work_at p x, work_at p' x, s2, s3]
  rcases s4 with ⟨f, rfl, h4, h5⟩ | ⟨h4, h5⟩
  · obtain ⟨s', t1, t2⟩ := takes (g.alive x) f
    simp only [Sock.step, t1, Option.some.injEq, Res.ok.injEq] at s1
    subst s1
    obtain ⟨l, w1, w2, _⟩ := t2.work
    rw [w1, List.drop_append_of_le_length hx, wire_append, h5, drop_next h4]
    show _ ≤ _ + (wireWork (f :: _)) + _
    simp only [wireWork, List.map_cons, List.sum_cons] at w2 ⊢
    omega
  · cases b with
    | recv f => cases h4
    | task t y =>
      obtain ⟨k, hk, hr⟩ := task_step s1
      obtain ⟨l, w1, w2, _⟩ := (moves hk hr).work
      rw [w1, List.drop_append_of_le_length hx, wire_append, h5]
      omega
    | call m md d =>
      cases a with
      | take e => simp only [Pair.seen, Option.map_eq_some_iff] at hs; obtain ⟨f, _, hf⟩ := hs; cases hf
      | own e b' =>
        simp only [Pair.seen] at hs
        split at hs
        · cases hs
        · cases hs; exact hg.elim
    | drop i =>
      cases a with
      | take e => simp only [Pair.seen, Option.map_eq_some_iff] at hs; obtain ⟨f, _, hf⟩ := hs; cases hf
      | own e b' =>
        simp only [Pair.seen] at hs
        split at hs
        · cases hs
        · cases hs; exact hg.elim

theorem goes_act {p : Pair} {a : PairAct} {x : Bool} {b : SockAct} (hg : Goes a) (hs : p.seen a = some (x, b)) : drawn [b] = 0 := by
  cases a with
  | take e => simp only [Pair.seen, Option.map_eq_some_iff] at hs; obtain ⟨f, _, hf⟩ := hs; cases hf; rfl
  | own e b' =>
    simp only [Pair.seen] at hs
    split at hs
    · cases hs
    · cases hs
      cases b <;> first | rfl | exact hg.elim

theorem few_goes {H : Bool → List SockAct} (hf : Few H) {x : Bool} {b : SockAct} (hb : drawn [b] = 0) :
    Few (fun y => if y = x then H y ++ [b] else H y) := by
  intro e
  have := hf e
  dsimp only
  split
  · rw [drawn_append, hb]; omega
  · exact this

theorem onward {n k : Nat} {p p' : Pair} {H H' : Bool → List SockAct} (ho : Onward n k p H p' H') (h : Calm p H) (hf : Few H) :
    Calm p' H' ∧ Few H' ∧ n + work p' ≤ work p + 2 * k := by
  induction ho with
  | refl p H => exact ⟨h, hf, by omega⟩
  | @step n k p p1 p' H H' e b a hg hs hm hst _ ih =>
    have g := good h hf
    obtain ⟨i1, i2, i3⟩ := ih (.step a h hs hm hst) (few_goes hf (goes_act hg hs))
    have := goes_down g (fun e => (Runs.each (calm_runs h) e).2.2) hg hs hst
    refine ⟨i1, i2, ?_⟩
    cases hgv : gives (p.sock e) b <;> rw [hgv] at this <;> simp at this ⊢ <;> omega

/-! ## Something can be done -/

theorem take_goes {p : Pair} {H : Bool → List SockAct} (g : Good p H) {e : Bool} (hr : p.read e < (p.sock (!e)).out.length) :
    ∃ b p', p.seen (.take e) = some (e, b) ∧ Mild (p.sock e) b ∧ p.step (.take e) = some p' ∧ gives (p.sock e) b = false := by
  obtain ⟨f, hf⟩ : ∃ f, (p.sock (!e)).out[p.read e]? = some f := ⟨_, List.getElem?_eq_getElem hr⟩
  obtain ⟨s', t1, _⟩ := takes (g.alive e) f
  have hs : p.seen (.take e) = some (e, .recv f) := by simp only [Pair.seen, hf, Option.map_some]
  obtain ⟨p', hp⟩ : ∃ p', p.step (.take e) = some p' := by
    simp only [Pair.step, hs, Sock.step, t1]
    exact ⟨_, rfl⟩
  exact ⟨_, p', hs, trivial, hp, rfl⟩

theorem own_goes {p : Pair} {e : Bool} {t : Nat} {y : Yield} {s' : Sock} {k : Rust.Task} (hk : (p.sock e).tasks[t]? = some (some k))
    (h : (p.sock e).runTask t y k = some s') : ∃ p', p.seen (.own e (.task t y)) = some (e, .task t y) ∧ p.step (.own e (.task t y)) = some p' := by
  obtain ⟨p', hp⟩ : ∃ p', p.step (.own e (.task t y)) = some p' := by
    simp only [Pair.step, Pair.seen, isRecv, Bool.false_eq_true, if_false, Sock.step, hk, h, Option.map_some]
    exact ⟨_, rfl⟩
  exact ⟨p', rfl, hp⟩

/-- As long as not everything is done with, something can be done, without further elements of streams. -/
theorem goes_on {p : Pair} {H : Bool → List SockAct} (h : Calm p H) (hf : Few H) (hb : Brief H) (hns : ¬ Settled p) :
    ∃ a x b p', Goes a ∧ p.seen a = some (x, b) ∧ Mild (p.sock x) b ∧ p.step a = some p' ∧ gives (p.sock x) b = false := by
  have g := good h hf
  refine Classical.byContradiction fun hno => hns ?_
  have hread : ∀ e, p.read e = (p.sock (!e)).out.length := by
    intro e
    have h1 := (Runs.each (calm_runs h) e).2.2
    rcases Nat.lt_or_eq_of_le h1 with h2 | h2
    · obtain ⟨b, p', c1, c2, c3, c4⟩ := take_goes g h2
      exact (hno ⟨.take e, e, b, p', trivial, c1, c2, c3, c4⟩).elim
    · exact h2
  have hrun : ∀ e (t : Nat) (y : Yield) (k : Rust.Task) (s' : Sock), (p.sock e).tasks[t]? = some (some k) → (p.sock e).runTask t y k = some s' →
      Mild (p.sock e) (.task t y) → (waits (some (some k)) && decide (y ≠ .done)) = false → False := by
    intro e t y k s' hk hr hm hg
    obtain ⟨p', c1, c2⟩ := own_goes hk hr
    exact hno ⟨.own e (.task t y), e, .task t y, p', trivial, c1, hm, c2, by simp only [gives, hk]; exact hg⟩
  have hstart : ∀ e sid i, some (.rcStart sid i) ∉ (p.sock e).tasks := by
    intro e sid i hm
    obtain ⟨t, ht⟩ := List.mem_iff_getElem?.mp hm
    exact hrun e t .done _ _ ht rfl trivial rfl
  refine fun e => ⟨hread e, fun st hst => ?_⟩
  cases st with
  | none => rfl
  | some k =>
    obtain ⟨t, ht⟩ := List.mem_iff_getElem?.mp hst
    exfalso
    cases k with
    | rr sid => exact hrun e t (.ok [] []) _ _ ht rfl trivial rfl
    | fnf sid => exact hrun e t (.ok [] []) _ _ ht rfl trivial rfl
    | rsStart sid md d => exact hrun e t .done _ _ ht rfl trivial rfl
    | rs sid => exact hrun e t .done _ _ ht rfl trivial (by simp)
    | rcStart sid i => exact hstart e sid i hst
    | rc sid => exact hrun e t .done _ _ ht rfl trivial (by simp)
    | feed sid q first n =>
      by_cases hn : n = 0
      · obtain ⟨w1, w2, _⟩ := g.wait e ht
        cases first with
        | true => rw [hn] at w1; exact absurd (w1 rfl) (by decide)
        | false =>
          rcases w2 rfl hn with hd | hd
          · cases hd with
            | queued m ms hq =>
              exact hrun e t .done _ { p.sock e with queues := (p.sock e).queues.set q ms, tasks := (p.sock e).tasks.set t (some (.feed sid q false m)) } ht
                (by simp only [Sock.runTask, hn, if_true, hq]) trivial (by simp [waits, hn])
            | sent fr h1 _ _ => rw [hread e, List.drop_length] at h1; exact absurd h1 List.not_mem_nil
            | starting i h1 => exact hstart _ _ _ h1
            | asked fr h1 _ _ =>
              have := hread (!e)
              simp only [Bool.not_not] at this
              rw [this, List.drop_length] at h1; exact absurd h1 List.not_mem_nil
          · have := hb e t; omega
      · exact hrun e t .done _ ((p.sock e).feedEnd t sid) ht (by simp only [Sock.runTask, if_neg hn]) trivial (by simp)

/-! ## Everything is answered -/

theorem sinks_grow {s s' : Sock} {b : SockAct} (h : s.step b = some (.ok s')) : s.sinks.length ≤ s'.sinks.length := by
  have rm : ∀ (u : Sock) (sid : UInt32), s.sinks.length ≤ u.sinks.length → s.sinks.length ≤ (u.remove sid).sinks.length := fun u sid hu => by
    rw [remove_sinks_length]; exact hu
  have put : ∀ i x, s.sinks.length ≤ (s.put i x).sinks.length := fun i x => by simp [Sock.put]
  have reg : ∀ (u : Sock) (sid : UInt32) w l, u.sinks = s.sinks → s.sinks.length ≤ (u.register sid w l).sinks.length := fun u sid w l hu => by
    show _ ≤ ((u.remove sid).sinks ++ _).length
    rw [List.length_append, remove_sinks_length, hu]; omega
  cases b with
  | call m md d =>
    simp only [Sock.step] at h; cases h
    cases m
    · exact Nat.le_refl _
    · exact reg s.draw _ _ _ rfl
    · exact reg s.draw _ _ _ rfl
    · exact reg s.draw _ _ _ rfl
  | drop i => simp only [Sock.step] at h; cases h; simp
  | task t y =>
    obtain ⟨k, hk, hr⟩ := task_step h
    rw [(moves hk hr).sinks]; exact Nat.le_refl _
  | recv f =>
    simp only [Sock.step, Option.some.injEq] at h
    cases f with
    | request v =>
      simp only [Sock.processOnce] at h
      split at h
      · cases h; exact Nat.le_refl _
      · split at h
        · cases h; exact Nat.le_refl _
        · split at h
          · cases h; exact Nat.le_refl _
          · cases h; exact reg s _ _ _ rfl
    | payload v =>
      simp only [Sock.processOnce] at h
      cases h
      unfold Sock.onPayload
      repeat' split
      all_goals first | exact Nat.le_refl _ | exact rm _ _ (put _ _) | exact rm _ _ (Nat.le_refl _) | exact put _ _
    | cancel v =>
      simp only [Sock.processOnce, Sock.onCancel] at h
      split at h
      · cases h; exact Nat.le_refl _
      · split at h
        · cases h; exact Nat.le_refl _
        · split at h
          · split at h <;> cases h
            exact rm _ _ (put _ _)
          · cases h; exact rm _ _ (Nat.le_refl _)
    | error v =>
      simp only [Sock.processOnce, Sock.onError] at h
      split at h
      · cases h; exact Nat.le_refl _
      · split at h
        · cases h; exact Nat.le_refl _
        · split at h <;> cases h
          exact rm _ _ (put _ _)
    | requestN v =>
      simp only [Sock.processOnce] at h
      cases h
      unfold Sock.onRequestN
      repeat' split
      all_goals exact Nat.le_refl _

theorem sinks_run (as : List SockAct) : ∀ {s s' : Sock}, s.run as = some (.ok s') → s.sinks.length ≤ s'.sinks.length := by
  induction as with
  | nil => intro s s' h; simp only [Sock.run] at h; cases h; exact Nat.le_refl _
  | cons a as ih =>
    intro s s' h
    obtain ⟨s1, h1, h2⟩ := run_cons h
    exact Nat.le_trans (sinks_grow h1) (ih h2)

theorem answered {p : Pair} {H : Bool → List SockAct} (h : Calm p H) (hf : Few H) (hs : Settled p) : Answered p H := by
  intro e as bs m md d s1 hH h1 hm
  have hr := calm_runs h
  obtain ⟨r1, r2⟩ := hs (!e)
  simp only [Bool.not_not] at r1
  refine ⟨(rust_requests_handled hr hf e as bs m hm md d hH s1 h1).2 r1 r2, fun hm2 => ?_⟩
  have hm3 : m = .rr ∨ m = .rs := by cases m <;> simp_all
  have hall := (Runs.each hr e).1
  rw [hH, run_append _ h1] at hall
  obtain ⟨s2, q1, q2⟩ := run_cons hall
  have hlen : s1.sinks.length < (p.sock e).sinks.length := by
    refine Nat.lt_of_lt_of_le ?_ (sinks_run _ q2)
    simp only [Sock.step, Option.some.injEq, Res.ok.injEq] at q1
    subst q1
    rcases hm3 with rfl | rfl
    · show _ < ((s1.draw.remove s1.next).sinks ++ _).length
      rw [List.length_append, remove_sinks_length]; simp [Sock.draw]
    · show _ < ((s1.draw.remove s1.next).sinks ++ _).length
      rw [List.length_append, remove_sinks_length]; simp [Sock.draw]
  have hk : (p.sock e).sinks[s1.sinks.length]? = some ((p.sock e).sinks[s1.sinks.length]) := List.getElem?_eq_getElem hlen
  have hl := (good h hf).alive e _ (List.mem_of_getElem? hk)
  obtain ⟨k1, k2⟩ := rust_calls_settle hr hf hs e as bs m hm3 md d hH s1 h1 _ hk hl
  refine ⟨_, hk, k1, k2, fun as' bs' v s2 a1 a2 a3 => ?_⟩
  exact ((rust_callers_told hr hf e as bs m hm3 md d hH s1 h1 _ hk hl).1 as' bs' v s2 a1 a2 a3).2 (hs e).1

/-! ## The theorems -/

/-- **C175** (part) Neither end crashes, whatever it is given next. -/
theorem rust_never_crashes {p : Pair} {H : Bool → List SockAct} (h : Calm p H) (hf : Few H) (x : Bool) (b : SockAct) :
    (p.sock x).step b ≠ some .panic ∧ ∀ m, (p.sock x).step b ≠ some (.err m) := by
  have g := good h hf
  cases b with
  | recv f =>
    obtain ⟨s', t1, _⟩ := takes (g.alive x) f
    simp [Sock.step, t1]
  | call m md d => simp [Sock.step]
  | drop i => simp [Sock.step]
  | task t y =>
    simp only [Sock.step]
    split
    · rename_i k _
      cases (p.sock x).runTask t y k <;> simp
    · simp

/-- **C175** (part) Whatever is done, in whatever order, ends: the number of steps is bounded, but for the elements that streams and inputs give; and when
nothing more can be done, all calls are answered. -/
theorem rust_calls_finish_partial {n k : Nat} {p p' : Pair} {H H' : Bool → List SockAct} (h : Calm p H) (hf : Few H) (ho : Onward n k p H p' H') :
    n ≤ work p + 2 * k ∧
    (Brief H' → (∀ a x b, Goes a → p'.seen a = some (x, b) → Mild (p'.sock x) b → p'.step a = none) → Settled p' ∧ Answered p' H') := by
  obtain ⟨o1, o2, o3⟩ := onward ho h hf
  refine ⟨by omega, fun hb hno => ?_⟩
  have hs : Settled p' := Classical.byContradiction fun hns => by
    obtain ⟨a, x, b, p2, c1, c2, c3, c4, _⟩ := goes_on o1 o2 hb hns
    rw [hno a x b c1 c2 c3] at c4
    cases c4
  exact ⟨hs, answered o1 o2 hs⟩

theorem finishes (m : Nat) : ∀ {p : Pair} {H : Bool → List SockAct}, work p ≤ m → Calm p H → Few H →
    (∀ e t, (yields t (H e)).length + m < 2 ^ 31) → ∃ n p' H', Onward n 0 p H p' H' ∧ n ≤ m ∧ Settled p' ∧ Answered p' H' := by
  induction m with
  | zero =>
    intro p H hw h hf hb
    have hs : Settled p := Classical.byContradiction fun hns => by
      obtain ⟨a, x, b, p2, c1, c2, c3, c4, c5⟩ := goes_on h hf (fun e t => by have := hb e t; omega) hns
      have := goes_down (good h hf) (fun e => (Runs.each (calm_runs h) e).2.2) c1 c2 c4
      rw [c5] at this
      simp at this
      omega
    exact ⟨0, p, H, .refl p H, Nat.le_refl _, hs, answered h hf hs⟩
  | succ m ih =>
    intro p H hw h hf hb
    by_cases hs : Settled p
    · exact ⟨0, p, H, .refl p H, Nat.zero_le _, hs, answered h hf hs⟩
    · obtain ⟨a, x, b, p2, c1, c2, c3, c4, c5⟩ := goes_on h hf (fun e t => by have := hb e t; omega) hs
      have hdown := goes_down (good h hf) (fun e => (Runs.each (calm_runs h) e).2.2) c1 c2 c4
      rw [c5] at hdown
      simp at hdown
      obtain ⟨n, p', H', i1, i2, i3, i4⟩ := ih (p := p2) (H := fun y => if y = x then H y ++ [b] else H y) (by omega) (.step a h c2 c3 c4)
        (few_goes hf (goes_act c1 c2)) (fun e t => by
          have := hb e t
          split
          · rw [yields_snoc]
            have : (yields t [b]).length ≤ 1 := by
              cases b <;> simp [yields]
              split <;> simp
            omega
          · omega)
      have hstep := Onward.step (n := n) (k := 0) a c1 c2 c3 c4 i1
      rw [c5] at hstep
      exact ⟨n + 1, p', H', hstep, by omega, i3, i4⟩

/-- **C175** (part) Both ends can go on until all calls are answered, without further elements of streams. -/
theorem rust_calls_can_finish_partial {p : Pair} {H : Bool → List SockAct} (h : Calm p H) (hf : Few H)
    (hb : ∀ e t, (yields t (H e)).length + work p < 2 ^ 31) : ∃ n p' H', Onward n 0 p H p' H' ∧ n ≤ work p ∧ Settled p' ∧ Answered p' H' :=
  finishes (work p) (Nat.le_refl _) h hf hb

/-! ## A channel whose input begins with an error -/

/-- The host opens a channel, its input begins with an error, and the guest takes up what the host sends. -/
def stuck (md d m : Bytes) : List PairAct := [.own false (.call .rc md d), .own false (.task 0 (.err m)), .take true]

/-- **C175 is false of channels whose input begins with an error**: whatever the payload and the error, both ends come to a state in which nothing
can be done, though not all is done with: the task that sends the input waits for ever, the guest ran no handler, and the host is told nothing. -/
theorem rust_error_channel_refuted (md d m : Bytes) : ∃ p H, Runs p H ∧ play Pair.init (fun _ => []) (stuck md d m) = some (p, H) ∧ Few H ∧ Brief H ∧
    ¬ Settled p ∧ (∀ a, Goes a → p.step a = none) ∧ (p.sock true).runs = [] ∧ (p.sock false).sinks.map (fun k => (k.live, k.got, k.closed)) = [(true, [], false)] := by
  obtain ⟨r, hr⟩ : ∃ r, play Pair.init (fun _ => []) (stuck md d m) = some r := ⟨_, rfl⟩
  have hruns := play_runs _ .init hr
  have ht : (r.1.sock false).tasks = [some (.feed 1 0 true 0)] := by cases hr; rfl
  have ht2 : (r.1.sock true).tasks = [] := by cases hr; rfl
  have hq : (r.1.sock false).queues = [[]] := by cases hr; rfl
  have hc : (r.1.sock false).channels = [(1, 0)] := by cases hr; rfl
  have ho : (r.1.sock false).out.length = 1 := by cases hr; rfl
  have ho2 : (r.1.sock true).out = [] := by cases hr; rfl
  have hrd : r.1.read true = 1 := by cases hr; rfl
  have hrun : (r.1.sock true).runs = [] := by cases hr; rfl
  have hsk : (r.1.sock false).sinks.map (fun k => (k.live, k.got, k.closed)) = [(true, [], false)] := by cases hr; rfl
  have hH0 : r.2 false = [.call .rc md d, .task 0 (.err m)] := by cases hr; rfl
  have hH1 : ∃ f, r.2 true = [.recv f] := by cases hr; exact ⟨_, rfl⟩
  refine ⟨r.1, r.2, hruns, hr, ?_, ?_, ?_, ?_, hrun, hsk⟩
  · intro e
    cases e
    · rw [hH0]; simp [drawn]
    · obtain ⟨f, hf⟩ := hH1; rw [hf]; simp [drawn]
  · intro e t
    cases e
    · rw [hH0]; simp only [yields]; split <;> simp
    · obtain ⟨f, hf⟩ := hH1; rw [hf]; simp [yields]
  · intro hs
    have := (hs false).2 (some (.feed 1 0 true 0)) (by rw [ht]; simp)
    cases this
  · intro a ha
    cases a with
    | take e =>
      cases e
      · simp [Pair.step, Pair.seen, ho2]
      · have : (r.1.sock false).out[1]? = none := List.getElem?_eq_none (by omega)
        simp [Pair.step, Pair.seen, hrd, this]
    | own e b =>
      cases b with
      | task t y =>
        cases e
        · cases t with
          | zero => simp [Pair.step, Pair.seen, isRecv, Sock.step, ht, Sock.runTask, hq, hc]
          | succ t => simp [Pair.step, Pair.seen, isRecv, Sock.step, ht]
        · simp [Pair.step, Pair.seen, isRecv, Sock.step, ht2]
      | recv f => exact ha.elim
      | call m md d => exact ha.elim
      | drop i => exact ha.elim

/-! ## Examples -/

theorem play_calm (l : List PairAct) : ∀ {p : Pair} {H : Bool → List SockAct} {r : Pair × (Bool → List SockAct)}, Calm p H →
    (∀ a ∈ l, ∀ e b, (a = .own e b → (∀ i, b ≠ .drop i) ∧ ∀ t m, b ≠ .task t (.err m))) → play p H l = some r → Calm r.1 r.2 := by
  induction l with
  | nil => intro p H r h _ hp; simp only [play] at hp; cases hp; exact h
  | cons a l ih =>
    intro p H r h hl hp
    simp only [play] at hp
    split at hp
    · rename_i e b p' h1 h2
      refine ih (.step a h h1 ?_ h2) (fun a ha => hl a (by simp [ha])) hp
      cases a with
      | take e => simp only [Pair.seen, Option.map_eq_some_iff] at h1; obtain ⟨f, _, hf⟩ := h1; cases hf; trivial
      | own e' b' =>
        simp only [Pair.seen] at h1
        split at h1
        · cases h1
        · cases h1
          obtain ⟨c1, c2⟩ := hl _ (by simp) e b rfl
          cases b with
          | drop i => exact absurd rfl (c1 i)
          | task t y =>
            cases y with
            | err m => exact absurd rfl (c2 t m)
            | ok md d => trivial
            | done => trivial
          | recv f => trivial
          | call m md d => trivial
    · cases hp

/-- The host asks for a stream and opens a channel; the stream begins, and the channel's first element is sent. -/
def begun : List PairAct := [
  .own false (.call .rs [1] [8]), .own false (.call .rc [2] [9]), .own true (.call .rr [3] [7]), .take true, .own true (.task 0 .done),
  .own true (.task 0 (.ok [] [1])), .own false (.task 0 (.ok [] [4])), .take true]

theorem begun_ok : (play Pair.init (fun _ => []) begun).isSome = true := by decide +kernel

theorem begun_calm : Calm ((play Pair.init (fun _ => []) begun).get begun_ok).1 ((play Pair.init (fun _ => []) begun).get begun_ok).2 :=
  play_calm begun .init (by
    intro a ha e b he
    subst he
    simp only [begun, List.mem_cons, PairAct.own.injEq, reduceCtorEq, List.not_mem_nil, or_false, false_or] at ha
    rcases ha with ⟨rfl, rfl⟩ | ⟨rfl, rfl⟩ | ⟨rfl, rfl⟩ | ⟨rfl, rfl⟩ | ⟨rfl, rfl⟩ | ⟨rfl, rfl⟩ <;> simp) (by simp)

/-- Such a run, not yet settled: at most so many steps are left, and both ends can get to where all calls are answered. -/
example : ∃ p H, Calm p H ∧ Few H ∧ ¬ Settled p ∧ work p = 13 ∧ ∃ n p' H', Onward n 0 p H p' H' ∧ n ≤ work p ∧ Settled p' ∧ Answered p' H' :=
  ⟨((play Pair.init (fun _ => []) begun).get begun_ok).1, ((play Pair.init (fun _ => []) begun).get begun_ok).2, begun_calm,
    by unfold Few; decide +kernel, by unfold Settled; decide +kernel, by decide +kernel,
    rust_calls_can_finish_partial begun_calm (by unfold Few; decide +kernel) (by
      intro e t
      have hl : ∀ (l : List SockAct), (yields t l).length ≤ l.length := by
        intro l
        induction l with
        | nil => simp [yields]
        | cons a l ih =>
          cases a with
          | task u y => simp only [yields]; split <;> simp only [List.length_cons] <;> omega
          | _ => simp only [yields, List.length_cons]; omega
      have h1 := hl (((play Pair.init (fun _ => []) begun).get begun_ok).2 e)
      have h2 : ∀ e, (((play Pair.init (fun _ => []) begun).get begun_ok).2 e).length ≤ 10 := by decide +kernel
      have h3 := h2 e
      have h4 : work ((play Pair.init (fun _ => []) begun).get begun_ok).1 ≤ 100 := by decide +kernel
      omega)⟩

end Iota.Props.RustFinish
