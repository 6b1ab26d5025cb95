import Verif.Props.RustPair

/-! # A Rust socket that makes and serves only single requests, under whatever ids -/

namespace Iota.Lemmas.MixedRust
open Iota.Go Iota.Frames Iota.Rust Iota.Spec.RustSocket Iota.Lemmas.RustSocket
open Iota.Props.RustSocket Iota.Props.RustResponder
open Iota.Props.RustPair (isReq reqFor reqFor_iff recvs recvs_append mem_recvs arrived_eq stepped called run_append run_split)

/-- A frame of a single request: the request, or its result. -/
def meek : Frame → Bool
  | .request v => v.frameType = tRequestResponse || v.frameType = tRequestFNF
  | .payload _ => true
  | .error _ => true
  | _ => false

/-- A task of a single request. -/
def small : Rust.Task → Bool
  | .rr _ => true
  | .fnf _ => true
  | _ => false

/-- Only single requests are made, and only their frames arrive. -/
structure Meek (R : List SockAct) : Prop where
  calls : ∀ x md d, SockAct.call x md d ∈ R → x = .rr ∨ x = .fnf
  frames : ∀ f, SockAct.recv f ∈ R → meek f = true

theorem Meek.tail {a : SockAct} {R : List SockAct} (h : Meek (a :: R)) : Meek R :=
  ⟨fun x md d hx => h.calls x md d (List.mem_cons_of_mem _ hx), fun f hf => h.frames f (List.mem_cons_of_mem _ hf)⟩

theorem Meek.left {as bs : List SockAct} (h : Meek (as ++ bs)) : Meek as :=
  ⟨fun x md d hx => h.calls x md d (List.mem_append_left _ hx), fun f hf => h.frames f (List.mem_append_left _ hf)⟩

theorem Meek.right {as bs : List SockAct} (h : Meek (as ++ bs)) : Meek bs :=
  ⟨fun x md d hx => h.calls x md d (List.mem_append_right _ hx), fun f hf => h.frames f (List.mem_append_right _ hf)⟩

/-! ## What there is -/

/-- The sockets this is about. -/
structure Plain (s : Sock) : Prop where
  tasks : ∀ k, some k ∈ s.tasks → small k = true
  sinks : ∀ k ∈ s.sinks, k.wait = .rr
  out : ∀ f ∈ s.out, meek f = true

theorem plain_init (g : Bool) : Plain (Sock.init g) := ⟨by simp [Sock.init], by simp [Sock.init], by simp [Sock.init]⟩

theorem modify_wait {l : List Sink} {i : Nat} {g : Sink → Sink} (hg : ∀ k, (g k).wait = k.wait) (h : ∀ k ∈ l, k.wait = .rr) :
    ∀ k ∈ l.modify i g, k.wait = .rr := by
  intro k hk
  obtain ⟨j, hj⟩ := List.mem_iff_getElem?.mp hk
  rw [List.getElem?_modify] at hj
  split at hj
  · simp only [Option.map_eq_map, Option.map_eq_some_iff] at hj
    obtain ⟨k', h1, h2⟩ := hj
    rw [← h2, hg]
    exact h k' (List.mem_of_getElem? h1)
  · simp only [id_map'] at hj
    exact h k (List.mem_of_getElem? (by simpa using hj))

theorem Plain.remove {s : Sock} (h : Plain s) (sid : UInt32) : Plain (s.remove sid) := by
  unfold Sock.remove
  split
  · exact h
  · exact ⟨h.tasks, modify_wait (fun _ => rfl) h.sinks, h.out⟩

theorem Plain.put {s : Sock} (h : Plain s) (i : Nat) (x : Signal) : Plain (s.put i x) :=
  ⟨h.tasks, modify_wait (fun k => by split <;> rfl) h.sinks, h.out⟩

theorem Plain.send {s : Sock} (h : Plain s) {f : Frame} (hf : meek f = true) : Plain (s.send f) :=
  ⟨h.tasks, h.sinks, fun g hg => by
    rcases List.mem_append.mp hg with hg | hg
    · exact h.out g hg
    · rw [List.mem_singleton.mp hg]; exact hf⟩

theorem Plain.register {s : Sock} (h : Plain s) (sid : UInt32) (l : List Signal) : Plain (s.register sid .rr l) := by
  have hr := h.remove sid
  refine ⟨hr.tasks, fun k hk => ?_, hr.out⟩
  rcases List.mem_append.mp hk with hk | hk
  · exact hr.sinks k hk
  · rw [List.mem_singleton.mp hk]

theorem Plain.set {s : Sock} (h : Plain s) (t : Nat) : Plain { s with tasks := s.tasks.set t none } :=
  ⟨fun k hk => (List.mem_or_eq_of_mem_set hk).elim (h.tasks k) (fun e => by cases e), h.sinks, h.out⟩

theorem Plain.step {s s' : Sock} {a : SockAct} (h : Plain s) (ha : Meek [a]) (hs : s.step a = some (.ok s')) : Plain s' := by
  cases a with
  | recv f =>
    simp only [Sock.step, Option.some.injEq] at hs
    have hf := ha.frames f (List.mem_singleton.mpr rfl)
    cases f with
    | request v =>
      simp only [meek, Bool.or_eq_true, decide_eq_true_eq] at hf
      simp only [Sock.processOnce] at hs
      have add : ∀ (r : List Invoked) (k : Rust.Task), small k = true → Plain ({ s with runs := r }.spawn k) := fun r k hk =>
        ⟨fun k' hk' => by
          rcases List.mem_append.mp hk' with hk' | hk'
          · exact h.tasks k' hk'
          · rw [Option.some.inj (List.mem_singleton.mp hk')]; exact hk, h.sinks, h.out⟩
      by_cases h1 : v.frameType = tRequestFNF
      · rw [if_pos h1] at hs; cases hs; exact add _ _ rfl
      · rw [if_neg h1, if_pos (hf.resolve_right h1)] at hs; cases hs; exact add _ _ rfl
    | payload v =>
      simp only [Sock.processOnce, Sock.onPayload] at hs
      cases hs
      split
      · exact h
      · split
        · exact h
        · rename_i k hk
          have := h.sinks k (List.mem_of_getElem? hk)
          split
          · refine Plain.remove ?_ _
            split
            · exact h.put _ _
            · exact h
          · rename_i hne; exact absurd this hne
    | error v =>
      simp only [Sock.processOnce, Sock.onError] at hs
      split at hs
      · cases hs; exact h
      · split at hs
        · cases hs; exact h
        · split at hs
          · cases hs; exact (h.put _ _).remove _
          · cases hs
    | requestN v => cases hf
    | cancel v => cases hf
  | call x md d =>
    simp only [Sock.step, Option.some.injEq, Res.ok.injEq] at hs
    subst hs
    have hd : Plain s.draw := ⟨h.tasks, h.sinks, h.out⟩
    rcases ha.calls x md d (List.mem_singleton.mpr rfl) with rfl | rfl
    · exact (hd.register _ _).send rfl
    · exact hd.send rfl
  | drop i =>
    simp only [Sock.step, Option.some.injEq, Res.ok.injEq] at hs
    subst hs
    exact ⟨h.tasks, modify_wait (fun _ => rfl) h.sinks, h.out⟩
  | task t y =>
    simp only [Sock.step] at hs
    split at hs
    · rename_i k hk
      have hsm := h.tasks k (List.mem_of_getElem? hk)
      cases k with
      | rr sid =>
        cases y with
        | ok md d => simp only [Sock.runTask, Option.map_some, Option.some.injEq, Res.ok.injEq] at hs; subst hs; exact (h.set t).send rfl
        | err x => simp only [Sock.runTask, Option.map_some, Option.some.injEq, Res.ok.injEq] at hs; subst hs; exact (h.set t).send rfl
        | done => simp [Sock.runTask] at hs
      | fnf sid =>
        cases y with
        | ok md d => simp only [Sock.runTask, Option.map_some, Option.some.injEq, Res.ok.injEq] at hs; subst hs; exact h.set t
        | err x => simp only [Sock.runTask, Option.map_some, Option.some.injEq, Res.ok.injEq] at hs; subst hs; exact (h.set t).send rfl
        | done => simp [Sock.runTask] at hs
      | _ => cases hsm
    · cases hs

theorem Plain.run (as : List SockAct) : ∀ {s s' : Sock}, Plain s → Meek as → s.run as = some (.ok s') → Plain s' := by
  induction as with
  | nil => intro s s' h _ hr; simp only [Sock.run] at hr; cases hr; exact h
  | cons a as ih =>
    intro s s' h ha hr
    obtain ⟨s1, h1, h2⟩ := run_cons hr
    have : Meek [a] := ⟨fun x md d hx => ha.calls x md d (by rw [List.mem_singleton.mp hx]; exact List.mem_cons_self),
      fun f hf => ha.frames f (by rw [List.mem_singleton.mp hf]; exact List.mem_cons_self)⟩
    exact ih (h.step this h1) ha.tail h2

/-! ## Handlers run -/

/-- The run a request asks for. -/
def asks : Frame → Option Invoked
  | .request v => if v.frameType = tRequestFNF then some (.fnf v.streamID v.metadata v.data) else some (.rr v.streamID v.metadata v.data)
  | _ => none

theorem runs_eq (as : List SockAct) : ∀ {s s' : Sock}, Plain s → Meek as → s.run as = some (.ok s') →
    s'.runs = s.runs ++ (recvs as).filterMap asks := by
  induction as with
  | nil => intro s s' h _ hr; simp only [Sock.run] at hr; cases hr; simp [recvs]
  | cons a as ih =>
    intro s s' h ha hr
    obtain ⟨s1, h1, h2⟩ := run_cons hr
    have hm : Meek [a] := ⟨fun x md d hx => ha.calls x md d (by rw [List.mem_singleton.mp hx]; exact List.mem_cons_self),
      fun f hf => ha.frames f (by rw [List.mem_singleton.mp hf]; exact List.mem_cons_self)⟩
    rw [ih (h.step hm h1) ha.tail h2]
    have key : s1.runs = s.runs ++ (recvs [a]).filterMap asks := by
      cases a with
      | recv f =>
        have hf := ha.frames f List.mem_cons_self
        simp only [Sock.step, Option.some.injEq] at h1
        cases f with
        | request v =>
          simp only [meek, Bool.or_eq_true, decide_eq_true_eq] at hf
          simp only [Sock.processOnce] at h1
          by_cases hx : v.frameType = tRequestFNF
          · rw [if_pos hx] at h1; cases h1; simp [recvs, asks, hx, Sock.spawn]
          · rw [if_neg hx, if_pos (hf.resolve_right hx)] at h1; cases h1; simp [recvs, asks, hx, Sock.spawn]
        | payload v =>
          simp only [Sock.processOnce, Sock.onPayload] at h1
          cases h1
          simp only [recvs, asks, List.filterMap_cons, List.filterMap_nil, List.append_nil]
          split
          · rfl
          · split
            · rfl
            · rename_i k hk
              have := h.sinks k (List.mem_of_getElem? hk)
              split
              · rw [Iota.Props.RustPair.remove_runs]; split <;> rfl
              · rename_i hne; exact absurd this hne
        | error v =>
          simp only [Sock.processOnce, Sock.onError] at h1
          simp only [recvs, asks, List.filterMap_cons, List.filterMap_nil, List.append_nil]
          split at h1
          · cases h1; rfl
          · split at h1
            · cases h1; rfl
            · split at h1
              · cases h1; rw [Iota.Props.RustPair.remove_runs]; rfl
              · cases h1
        | requestN v => cases hf
        | cancel v => cases hf
      | call x md d =>
        simp only [Sock.step, Option.some.injEq, Res.ok.injEq] at h1
        subst h1
        rw [(called s x md d).runs]; simp [recvs]
      | drop i =>
        simp only [Sock.step, Option.some.injEq, Res.ok.injEq] at h1
        subst h1; simp [recvs]
      | task t y =>
        simp only [Sock.step] at h1
        split at h1
        · rename_i k hk
          have hsm := h.tasks k (List.mem_of_getElem? hk)
          cases k with
          | rr sid =>
            cases y <;> simp only [Sock.runTask, Option.map_some, Option.map_none, Option.some.injEq, Res.ok.injEq, reduceCtorEq] at h1 <;>
              subst h1 <;> simp [recvs, Sock.send]
          | fnf sid =>
            cases y <;> simp only [Sock.runTask, Option.map_some, Option.map_none, Option.some.injEq, Res.ok.injEq, reduceCtorEq] at h1 <;>
              subst h1 <;> simp [recvs, Sock.send]
          | _ => cases hsm
        · cases h1
    rw [key, show a :: as = [a] ++ as from rfl, recvs_append, List.filterMap_append, List.append_assoc]

/-! ## Answers -/

theorem Meek.head {a : SockAct} {R : List SockAct} (h : Meek (a :: R)) : Meek [a] :=
  Meek.left (as := [a]) (bs := R) h

/-- A call adds no task and sends no result. -/
theorem call_quiet (s : Sock) {x : Method} (hx : x = .rr ∨ x = .fnf) (md d : Bytes) (sid : UInt32) :
    (s.request x md d).tasks = s.tasks ∧ (s.request x md d).out.filter (isResult sid) = s.out.filter (isResult sid) := by
  have hd : s.draw.tasks = s.tasks ∧ s.draw.out = s.out := ⟨rfl, rfl⟩
  rcases hx with rfl | rfl
  · exact ⟨by simp [Sock.request, Sock.send, Sock.register, (remove_tasks _ _).1, hd.1],
      by simp [Sock.request, Sock.send, Sock.register, (remove_tasks _ _).2, isResult, newRequest, hd.2]⟩
  · exact ⟨by simp [Sock.request, Sock.send, hd.1], by simp [Sock.request, Sock.send, isResult, newRequest, hd.2]⟩

/-- Task `t` is at `st`, and no other task belongs to stream `sid`. -/
structure At (s : Sock) (sid : UInt32) (t : Nat) (st : Option Rust.Task) : Prop where
  at_ : s.tasks[t]? = some st
  mine : ∀ k, st = some k → sidOf k = sid ∧ ∀ q f n, k ≠ .feed sid q f n
  other : ∀ t' k, t' ≠ t → s.tasks[t']? = some (some k) → sidOf k ≠ sid

theorem At.append {s s' : Sock} {sid : UInt32} {t : Nat} {st : Option Rust.Task} {l : List (Option Rust.Task)}
    (h : At s sid t st) (h1 : s'.tasks = s.tasks ++ l) (h2 : ∀ k, some k ∈ l → sidOf k ≠ sid) : At s' sid t st := by
  have ht := (List.getElem?_eq_some_iff.mp h.at_).1
  refine ⟨by rw [h1, List.getElem?_append_left ht]; exact h.at_, h.mine, fun t' k hne hk => ?_⟩
  rw [h1] at hk
  by_cases hlt : t' < s.tasks.length
  · rw [List.getElem?_append_left hlt] at hk
    exact h.other t' k hne hk
  · rw [List.getElem?_append_right (by omega)] at hk
    exact h2 k (List.mem_of_getElem? hk)

theorem At.run (as : List SockAct) : ∀ {s s' : Sock} {sid : UInt32} {t : Nat} {st : Option Rust.Task},
    At s sid t st → Meek as → (∀ f ∈ arrived sid as, isRequesting f = false) → s.run as = some (.ok s') →
    s'.out.filter (isResult sid) = s.out.filter (isResult sid) ++ ahead st (yields t as) := by
  induction as with
  | nil =>
    intro s s' sid t st h _ _ hr
    simp only [Sock.run] at hr
    cases hr
    simp [yields, ahead]
  | cons a as ih =>
    intro s s' sid t st h hm ha hr
    obtain ⟨s1, h1, h2⟩ := run_cons hr
    cases a with
    | recv f =>
      simp only [Sock.step, Option.some.injEq] at h1
      have hf : f.streamID = sid → isRequesting f = false := fun e => ha f (by simp [arrived, e])
      obtain ⟨⟨l, g1, g2⟩, g3⟩ := process_out hf h1
      rw [ih (h.append g1 g2) hm.tail (fun f' hf' => ha f' (by simp only [arrived]; split <;> simp [hf'])) h2, g3]
      rfl
    | call m md d =>
      simp only [Sock.step, Option.some.injEq] at h1
      cases h1
      obtain ⟨g1, g3⟩ := call_quiet s (hm.calls m md d List.mem_cons_self) md d sid
      rw [ih (h.append (l := []) (by rw [g1]; simp) (by simp)) hm.tail ha h2, g3]
      rfl
    | drop j =>
      simp only [Sock.step, Option.some.injEq] at h1
      cases h1
      exact ih (s := { s with sinks := s.sinks.modify j fun k => { k with live := false } }) ⟨h.at_, h.mine, h.other⟩ hm.tail ha h2
    | task t' y =>
      simp only [Sock.step] at h1
      split at h1
      · rename_i k hk
        cases hx : s.runTask t' y k with
        | none => rw [hx] at h1; cases h1
        | some s2 =>
          rw [hx] at h1
          simp only [Option.map_some, Option.some.injEq, Res.ok.injEq] at h1
          subst h1
          by_cases e : t' = t
          · subst e
            have hst := h.at_
            rw [hk] at hst
            cases hst
            obtain ⟨hk1, hk2⟩ := h.mine k rfl
            obtain ⟨fs, st', g1, g2, g3, g4⟩ := runTask_self hk1 hk2 hk hx
            have hlt := (List.getElem?_eq_some_iff.mp hk).1
            have hnew : At s2 sid t' st' := by
              refine ⟨by rw [g3]; simp [List.getElem?_set, hlt], g4, fun t2 k2 hne hk2 => ?_⟩
              rw [g3, List.getElem?_set_ne (Ne.symm hne)] at hk2
              exact h.other t2 k2 hne hk2
            rw [ih hnew hm.tail ha h2, g2]
            simp [yields, ahead, g1]
          · have hsid := h.other t' k e hk
            have hnew : At s2 sid t st := by
              obtain ⟨st', hs | hs⟩ := runTask_tasks hx
              · refine ⟨?_, h.mine, fun t2 k2 hne hk2 => ?_⟩
                · rw [hs.1, List.getElem?_set_ne e]; exact h.at_
                · rw [hs.1] at hk2
                  by_cases e2 : t' = t2
                  · subst e2
                    have hlt := (List.getElem?_eq_some_iff.mp hk).1
                    simp [List.getElem?_set, hlt] at hk2
                    rw [hs.2 k2 hk2]; exact hsid
                  · rw [List.getElem?_set_ne e2] at hk2
                    exact h.other t2 k2 hne hk2
              · exact ⟨by rw [hs]; exact h.at_, h.mine, by rw [hs]; exact h.other⟩
            rw [ih hnew hm.tail ha h2, runTask_other hsid hx]
            simp [yields, e]
      · cases h1

/-- No task belongs to the stream, and nothing was sent for it. -/
structure Free (s : Sock) (sid : UInt32) : Prop where
  tasks : ∀ (t : Nat) k, s.tasks[t]? = some (some k) → sidOf k ≠ sid
  out : s.out.filter (isResult sid) = []

theorem Free.append {s s' : Sock} {sid : UInt32} {l : List (Option Rust.Task)} (h : Free s sid)
    (h1 : s'.tasks = s.tasks ++ l) (h2 : ∀ k, some k ∈ l → sidOf k ≠ sid)
    (h4 : s'.out.filter (isResult sid) = s.out.filter (isResult sid)) : Free s' sid := by
  refine ⟨fun t k hk => ?_, by rw [h4]; exact h.out⟩
  rw [h1] at hk
  by_cases hlt : t < s.tasks.length
  · rw [List.getElem?_append_left hlt] at hk
    exact h.tasks t k hk
  · rw [List.getElem?_append_right (by omega)] at hk
    exact h2 k (List.mem_of_getElem? hk)

theorem Free.run (as : List SockAct) : ∀ {s s' : Sock} {sid : UInt32}, Free s sid → Meek as →
    (∀ f ∈ arrived sid as, isRequesting f = false) → s.run as = some (.ok s') → Free s' sid := by
  induction as with
  | nil => intro s s' sid h _ _ hr; simp only [Sock.run] at hr; cases hr; exact h
  | cons a as ih =>
    intro s s' sid h hm ha hr
    obtain ⟨s1, h1, h2⟩ := run_cons hr
    cases a with
    | recv f =>
      simp only [Sock.step, Option.some.injEq] at h1
      have hf : f.streamID = sid → isRequesting f = false := fun e => ha f (by simp [arrived, e])
      obtain ⟨⟨l, g1, g2⟩, g3⟩ := process_out hf h1
      exact ih (h.append g1 g2 g3) hm.tail (fun f' hf' => ha f' (by simp only [arrived]; split <;> simp [hf'])) h2
    | call m md d =>
      simp only [Sock.step, Option.some.injEq] at h1
      cases h1
      obtain ⟨g1, g3⟩ := call_quiet s (hm.calls m md d List.mem_cons_self) md d sid
      exact ih (h.append (l := []) (by rw [g1]; simp) (by simp) g3) hm.tail ha h2
    | drop j =>
      simp only [Sock.step, Option.some.injEq] at h1
      cases h1
      exact ih (s := { s with sinks := s.sinks.modify j fun k => { k with live := false } }) ⟨h.tasks, h.out⟩ hm.tail ha h2
    | task t' y =>
      simp only [Sock.step] at h1
      split at h1
      · rename_i k hk
        cases hx : s.runTask t' y k with
        | none => rw [hx] at h1; cases h1
        | some s2 =>
          rw [hx] at h1
          simp only [Option.map_some, Option.some.injEq, Res.ok.injEq] at h1
          subst h1
          have hsid := h.tasks t' k hk
          refine ih ⟨?_, by rw [runTask_other hsid hx]; exact h.out⟩ hm.tail ha h2
          obtain ⟨st', hs | hs⟩ := runTask_tasks hx
          · intro t2 k2 hk2
            rw [hs.1] at hk2
            by_cases e2 : t' = t2
            · subst e2
              have hlt := (List.getElem?_eq_some_iff.mp hk).1
              simp [List.getElem?_set, hlt] at hk2
              rw [hs.2 k2 hk2]; exact hsid
            · rw [List.getElem?_set_ne e2] at hk2
              exact h.tasks t2 k2 hk2
          · rw [hs]; exact h.tasks
      · cases h1

theorem free_init (g : Bool) (sid : UInt32) : Free (Sock.init g) sid := ⟨by simp [Sock.init], by simp [Sock.init]⟩

/-- The task made for a request. -/
theorem request_at {s s' : Sock} {v : RequestPayload} (h : s.processOnce (.request v) = .ok s') (hv : meek (.request v) = true)
    (ho : Free s v.streamID) :
    ∃ k, At s' v.streamID s.tasks.length (some k) ∧ s'.out = s.out ∧ (k = .rr v.streamID ∨ k = .fnf v.streamID) ∧
      (v.frameType = tRequestResponse → k = .rr v.streamID) ∧
      ∀ ys, ahead (some k) ys = answer v.frameType v.streamID ys := by
  have key : ∀ k : Rust.Task, sidOf k = v.streamID → (∀ q f n, k ≠ .feed v.streamID q f n) →
      s'.tasks = s.tasks ++ [some k] → At s' v.streamID s.tasks.length (some k) := by
    intro k h1 h2 h3
    refine ⟨by rw [h3]; simp, fun k' e => by cases e; exact ⟨h1, h2⟩, fun t' k' hne hk => ?_⟩
    rw [h3] at hk
    by_cases hlt : t' < s.tasks.length
    · rw [List.getElem?_append_left hlt] at hk
      exact ho.tasks t' k' hk
    · have := (List.getElem?_eq_some_iff.mp hk).1
      simp at this
      omega
  simp only [meek, Bool.or_eq_true, decide_eq_true_eq] at hv
  simp only [Sock.processOnce] at h
  by_cases e1 : v.frameType = tRequestFNF
  · rw [if_pos e1] at h
    cases h
    refine ⟨_, key (.fnf v.streamID) rfl (fun _ _ _ => nofun) rfl, rfl, .inr rfl, fun e => ?_, fun ys => ?_⟩
    · rw [e1] at e; exact absurd e (by decide)
    rw [answer, if_pos e1]
    cases ys with
    | nil => rfl
    | cons y ys => cases y <;> cases ys <;> rfl
  · have e := hv.resolve_right e1
    rw [if_neg e1, if_pos e] at h
    cases h
    refine ⟨_, key (.rr v.streamID) rfl (fun _ _ _ => nofun) rfl, rfl, .inl rfl, fun _ => rfl, fun ys => ?_⟩
    rw [answer, if_neg e1, if_pos e]
    cases ys with
    | nil => rfl
    | cons y ys => cases y <;> cases ys <;> rfl

/-- Without a request nothing is answered. -/
theorem unasked {guest : Bool} {R : List SockAct} {s : Sock} (hr : (Sock.init guest).run R = some (.ok s)) (hm : Meek R) {sid : UInt32}
    (hn : (recvs R).countP (reqFor sid) = 0) : s.out.filter (isResult sid) = [] := by
  refine (Free.run R (free_init guest sid) hm (fun f hf => ?_) hr).out
  rw [arrived_eq, List.mem_filter] at hf
  have h1 := hm.frames f (mem_recvs.mp hf.1)
  cases f with
  | request v => exact absurd (reqFor_iff.mpr ⟨rfl, by simpa using hf.2⟩) (List.countP_eq_zero.mp hn _ hf.1)
  | requestN v => cases h1
  | _ => rfl

/-- A request is answered with what its handler yields. -/
theorem answered {guest : Bool} {before rest : List SockAct} {v : RequestPayload} {s1 s : Sock}
    (h1 : (Sock.init guest).run before = some (.ok s1)) (hr : (Sock.init guest).run (before ++ .recv (.request v) :: rest) = some (.ok s))
    (hm : Meek (before ++ .recv (.request v) :: rest))
    (hn : (recvs (before ++ .recv (.request v) :: rest)).countP (reqFor v.streamID) ≤ 1) :
    s.out.filter (isResult v.streamID) = answer v.frameType v.streamID (yields s1.tasks.length rest) ∧
    ∃ (k : Rust.Task) (s2 : Sock), (k = .rr v.streamID ∨ k = .fnf v.streamID) ∧ (v.frameType = tRequestResponse → k = .rr v.streamID) ∧
      s2.tasks[s1.tasks.length]? = some (some k) ∧ s2.run rest = some (.ok s) := by
  rw [recvs_append, List.countP_append, show recvs (SockAct.recv (.request v) :: rest) = .request v :: recvs rest from rfl,
    List.countP_cons_of_pos (show reqFor v.streamID (.request v) = true from reqFor_iff.mpr ⟨rfl, rfl⟩)] at hn
  have quiet : ∀ l : List SockAct, Meek l → (recvs l).countP (reqFor v.streamID) = 0 → ∀ f ∈ arrived v.streamID l, isRequesting f = false := by
    intro l hl h0 f hf
    rw [arrived_eq, List.mem_filter] at hf
    have h1 := hl.frames f (mem_recvs.mp hf.1)
    cases f with
    | request w => exact absurd (reqFor_iff.mpr ⟨rfl, by simpa using hf.2⟩) (List.countP_eq_zero.mp h0 _ hf.1)
    | requestN w => cases h1
    | _ => rfl
  have hf := Free.run before (free_init guest v.streamID) hm.left (quiet before hm.left (by omega)) h1
  rw [run_append _ h1] at hr
  obtain ⟨s2, h2, h3⟩ := run_cons hr
  simp only [Sock.step, Option.some.injEq] at h2
  obtain ⟨k, g1, g2, g3, g4, g5⟩ := request_at h2 (hm.right.frames _ List.mem_cons_self) hf
  refine ⟨?_, k, s2, g3, g4, g1.at_, h3⟩
  rw [At.run rest g1 hm.right.tail (quiet rest hm.right.tail (by omega)) h3, g2, hf.out, g5, List.nil_append]

/-! ## Requests sent -/

/-- The request of a call. -/
def reqOf (x : Method) (sid : UInt32) (md d : Bytes) : Frame :=
  newRequest (if x = .fnf then tRequestFNF else tRequestResponse) sid md d 0 0

/-- The requests of the calls made, the first under `n`. -/
def reqsFrom (n : UInt32) : List SockAct → List Frame
  | [] => []
  | .call x md d :: as => reqOf x n md d :: reqsFrom (n + 2) as
  | _ :: as => reqsFrom n as

theorem call_sends (s : Sock) {x : Method} (hx : x = .rr ∨ x = .fnf) (md d : Bytes) :
    (s.request x md d).out = s.out ++ [reqOf x s.next md d] := by
  have hd : s.draw.out = s.out := rfl
  rcases hx with rfl | rfl
  · simp [Sock.request, Sock.send, Sock.register, (remove_tasks _ _).2, hd, reqOf]
  · simp [Sock.request, Sock.send, hd, reqOf]

/-- Anything but a call sends no request. -/
theorem other_sends {s s' : Sock} {a : SockAct} (h : Plain s) (ha : ∀ x md d, a ≠ .call x md d) (hs : s.step a = some (.ok s')) :
    s'.out.filter isReq = s.out.filter isReq ∧ s'.next = s.next := by
  cases a with
  | recv f =>
    simp only [Sock.step, Option.some.injEq] at hs
    have hp := Iota.Props.RustPair.processed hs
    obtain ⟨l, h1, h2⟩ := hp.out
    refine ⟨?_, hp.next⟩
    have : l.filter isReq = [] := List.filter_eq_nil_iff.mpr fun g hg => by
      have := (h2 g hg).2.1
      cases g <;> simp_all [isRequesting, isReq]
    rw [h1, List.filter_append, this, List.append_nil]
  | call x md d => exact absurd rfl (ha x md d)
  | drop i => simp only [Sock.step, Option.some.injEq, Res.ok.injEq] at hs; subst hs; exact ⟨rfl, rfl⟩
  | task t y =>
    simp only [Sock.step] at hs
    split at hs
    · rename_i k hk
      have hsm := h.tasks k (List.mem_of_getElem? hk)
      cases k with
      | rr sid =>
        cases y <;> simp only [Sock.runTask, Option.map_some, Option.map_none, Option.some.injEq, Res.ok.injEq, reduceCtorEq] at hs <;>
          subst hs <;> exact ⟨by simp [Sock.send, isReq, newPayload, appError], rfl⟩
      | fnf sid =>
        cases y <;> simp only [Sock.runTask, Option.map_some, Option.map_none, Option.some.injEq, Res.ok.injEq, reduceCtorEq] at hs <;>
          subst hs <;> exact ⟨by simp [Sock.send, isReq, newPayload, appError], rfl⟩
      | _ => cases hsm
    · cases hs

theorem reqs_eq (as : List SockAct) : ∀ {s s' : Sock}, Plain s → Meek as → s.run as = some (.ok s') →
    s'.out.filter isReq = s.out.filter isReq ++ reqsFrom s.next as := by
  induction as with
  | nil => intro s s' h _ hr; simp only [Sock.run] at hr; cases hr; simp [reqsFrom]
  | cons a as ih =>
    intro s s' h ha hr
    obtain ⟨s1, h1, h2⟩ := run_cons hr
    rw [ih (h.step ha.head h1) ha.tail h2]
    by_cases hc : ∃ x md d, a = .call x md d
    · obtain ⟨x, md, d, rfl⟩ := hc
      simp only [Sock.step, Option.some.injEq, Res.ok.injEq] at h1
      subst h1
      rw [call_sends s (ha.calls x md d List.mem_cons_self), call_next, List.filter_append]
      rw [show [reqOf x s.next md d].filter isReq = [reqOf x s.next md d] from rfl, List.append_assoc]
      rfl
    · obtain ⟨g1, g2⟩ := other_sends h (fun x md d e => hc ⟨x, md, d, e⟩) h1
      rw [g1, g2]
      cases a with
      | call x md d => exact absurd ⟨x, md, d, rfl⟩ hc
      | _ => rfl

theorem reqOf_id (x : Method) (n : UInt32) (md d : Bytes) : (reqOf x n md d).streamID = n := rfl

theorem add_two {n : UInt32} (h : n.toNat + 2 < 2 ^ 32) : (n + 2).toNat = n.toNat + 2 := by
  rw [UInt32.toNat_add]
  have : (2 : UInt32).toNat = 2 := rfl
  omega

theorem reqsFrom_ids (as : List SockAct) : ∀ (n : UInt32), n.toNat + 2 * drawn as < 2 ^ 32 → ∀ f ∈ reqsFrom n as,
    isReq f = true ∧ n.toNat ≤ f.streamID.toNat ∧ f.streamID.toNat < n.toNat + 2 * drawn as := by
  induction as with
  | nil => intro n _ f hf; exact absurd hf List.not_mem_nil
  | cons a as ih =>
    intro n hn f hf
    cases a with
    | call x md d =>
      simp only [drawn] at hn ⊢
      have e := add_two (n := n) (by omega)
      rcases List.mem_cons.mp hf with rfl | hf
      · exact ⟨rfl, by rw [reqOf_id]; omega, by rw [reqOf_id]; omega⟩
      · have := ih (n + 2) (by omega) f hf
        exact ⟨this.1, by omega, by omega⟩
    | _ => exact ih n hn f hf

theorem reqsFrom_once (as : List SockAct) : ∀ (n : UInt32), n.toNat + 2 * drawn as < 2 ^ 32 → ∀ sid,
    (reqsFrom n as).countP (reqFor sid) ≤ 1 := by
  induction as with
  | nil => intro n _ sid; simp [reqsFrom]
  | cons a as ih =>
    intro n hn sid
    cases a with
    | call x md d =>
      simp only [drawn] at hn
      have e := add_two (n := n) (by omega)
      have h1 := ih (n + 2) (by omega) sid
      simp only [reqsFrom, List.countP_cons]
      by_cases h : reqFor sid (reqOf x n md d) = true
      · have hs := (reqFor_iff.mp h).2
        rw [reqOf_id] at hs
        have h0 : (reqsFrom (n + 2) as).countP (reqFor sid) = 0 := List.countP_eq_zero.mpr fun f hf hq => by
          have := (reqsFrom_ids as (n + 2) (by omega) f hf).2.1
          rw [(reqFor_iff.mp hq).2, ← hs] at this
          omega
        simp [h, h0]
      · simp [h, h1]
    | _ => exact ih n hn sid

theorem countP_req (sid : UInt32) (l : List Frame) : (l.filter isReq).countP (reqFor sid) = l.countP (reqFor sid) := by
  rw [List.countP_filter]
  congr 1; funext f
  simp [reqFor]; intro h _; exact h

/-- Every request sent is that of a call. -/
theorem req_call (R : List SockAct) : ∀ {s0 s : Sock}, Plain s0 → Meek R → s0.run R = some (.ok s) → ∀ f ∈ s.out, isReq f = true → f ∉ s0.out →
    ∃ as x md d bs s1, R = as ++ SockAct.call x md d :: bs ∧ s0.run as = some (.ok s1) ∧ f = reqOf x s1.next md d := by
  induction R with
  | nil => intro s0 s _ _ hr f hf _ hn; simp only [Sock.run] at hr; cases hr; exact absurd hf hn
  | cons a R ih =>
    intro s0 s h hm hr f hf hq hn
    obtain ⟨s2, h1, h2⟩ := run_cons hr
    by_cases h3 : f ∈ s2.out
    · by_cases hc : ∃ x md d, a = .call x md d
      · obtain ⟨x, md, d, rfl⟩ := hc
        simp only [Sock.step, Option.some.injEq, Res.ok.injEq] at h1
        subst h1
        rw [call_sends s0 (hm.calls x md d List.mem_cons_self)] at h3
        rcases List.mem_append.mp h3 with h3 | h3
        · exact absurd h3 hn
        · exact ⟨[], x, md, d, R, s0, rfl, rfl, List.mem_singleton.mp h3⟩
      · have := (other_sends h (fun x md d e => hc ⟨x, md, d, e⟩) h1).1
        have h4 : f ∈ s2.out.filter isReq := List.mem_filter.mpr ⟨h3, hq⟩
        rw [this] at h4
        exact absurd (List.mem_filter.mp h4).1 hn
    · obtain ⟨as, x, md, d, bs, s1, g1, g2, g3⟩ := ih (h.step hm.head h1) hm.tail h2 f hf hq h3
      refine ⟨a :: as, x, md, d, bs, s1, by rw [g1]; rfl, ?_, g3⟩
      simp only [Sock.run, h1]; exact g2

end Iota.Lemmas.MixedRust
