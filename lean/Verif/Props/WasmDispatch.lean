import Verif.Lemmas.WasmDispatch
import Verif.Props.Handler
import Verif.Spec.WasmDispatch

/-! # Properties of the dispatchers of a WebAssembly host and its guest (C81-C84) -/

namespace Iota.Props.WasmDispatch
open Go Iota.Frames Iota.Registry Iota.WasmDispatch Iota.Spec.Lookup Iota.Spec.Handler Iota.Spec.WasmDispatch
open Iota.Handler hiding Act
open Iota.Lemmas.WasmDispatch Iota.Props.Handler

variable {H : Type}

/-! ## C81: requests -/

/-- The handlers as the specification wants them. -/
def byIndex (hs : Handlers H) : Kind → Nat → Option H := fun k i => hs k (UInt32.ofNat i)

/-- What the history says about requests, whatever context and metadata the handler gets and whatever the error frame
says. -/
def reacted : Ev (H × Ctx) → Option (Reaction H)
  | .invoked k h id data _ => some (.run k h.1 id data)
  | .sent (.error f) => some (.refuse f.streamID)
  | _ => none

/-- The requests among what happened, if they are not marked as to be continued. -/
def requested (hs : Handlers H) : Act → Option (Reaction H)
  | .recv data =>
    match decodeFrame data with
    | .ok (.request v) =>
      if v.follows then none
      else (kindOf v.frameType).map fun k => reactTo (byIndex hs) k v.streamID v.data v.metadata
    | _ => none
  | _ => none

/-- The requests still to be worked on. -/
def pending (hs : Handlers H) : Task → Option (Reaction H)
  | .request k id data md _ => some (reactTo (byIndex hs) k id data md)
  | _ => none

theorem getU32_drop4 {md : Bytes} (h : ¬ md.length < 8) : ∃ x, getU32 (md.drop 4) = .ok x ∧ x.toNat = parentOf md := by
  match md, h with
  | a :: b :: c :: d :: e :: f :: g :: i :: l, _ =>
    refine ⟨UInt32.ofNat (beNat [e, f, g, i]), ?_, ?_⟩
    · unfold getU32; simp
    · have := e.toNat_lt; have := f.toNat_lt; have := g.toNat_lt; have := i.toNat_lt
      simp only [parentOf, beNat, List.length_cons, List.length_nil, UInt32.toNat_ofNat']
      omega
  | [], h => exact absurd (by simp) h
  | [_], h => exact absurd (by simp) h
  | [_, _], h => exact absurd (by simp) h
  | [_, _, _], h => exact absurd (by simp) h
  | [_, _, _, _], h => exact absurd (by simp) h
  | [_, _, _, _, _], h => exact absurd (by simp) h
  | [_, _, _, _, _, _], h => exact absurd (by simp) h
  | [_, _, _, _, _, _, _], h => exact absurd (by simp) h

/-- What the handling of a request comes to. -/
inductive Handled (e : End) (hs : Handlers H) (p : Peer H) (k : Kind) (id : UInt32) (data md : Bytes) (n : UInt32) :
    Peer H → Prop
  /-- too little metadata -/
  | short : md.length < 8 → Handled e hs p k id data md n (p.after ⟨p.st, [], [.sent (errorFrame id (lit "Invalid metadata"))]⟩)
  /-- no such operation -/
  | unknown (op : UInt32) : opIndex md = some op.toNat → hs k op = none →
      Handled e hs p k id data md n (p.after ⟨p.st, [], [.sent (errorFrame id (lit "not_found"))]⟩)
  /-- the handler runs -/
  | run (op parent : UInt32) (h : H) : opIndex md = some op.toNat → parentOf md = parent.toNat → hs k op = some h →
      Handled e hs p k id data md n (p.accept e k h id data md n parent)

/-- The handling of a request never fails. -/
theorem handled (e : End) (hs : Handlers H) (p : Peer H) (k : Kind) (id : UInt32) (data md : Bytes) (n : UInt32) :
    ∃ p', p.handleRequest e hs k id data md n = .ok p' ∧ Handled e hs p k id data md n p' := by
  unfold Peer.handleRequest
  split
  · rename_i h; exact ⟨_, rfl, .short h⟩
  · rename_i h
    obtain ⟨op, h1, h2⟩ := index_long h
    obtain ⟨x, h3, h4⟩ := getU32_drop4 h
    rw [h1, h3]
    simp only [Res.ok_bind]
    split
    · rename_i h5; exact ⟨_, rfl, .unknown op h2 h5⟩
    · rename_i hh h5; exact ⟨_, rfl, .run op x hh h2 h4.symm h5⟩

/-- What `accept` leaves: the tasks and the history. -/
theorem accept_tasks (e : End) (p : Peer H) (k : Kind) (h : H) (id : UInt32) (data md : Bytes) (n parent : UInt32) :
    ∃ ts, (p.accept e k h id data md n parent).tasks = p.tasks ++ ts ∧ (∀ t ∈ ts, ∃ i, t = .attach i n) ∧
      (p.accept e k h id data md n parent).log =
        p.log ++ [.invoked k (h, p.handlerCtx e k id parent) id data (passed e k md)] := by
  unfold Peer.accept
  split
  · exact ⟨[], by simp [Peer.after], by simp, rfl⟩
  · refine ⟨rest k p.st.objs.length n, rfl, ?_, rfl⟩
    intro t ht
    cases k <;> simp [rest] at ht <;> exact ⟨_, ht⟩

/-- The handling of a request leaves one reaction, the right one, and nothing to be done about requests. -/
theorem handled_reacted {e : End} {hs : Handlers H} {p p' : Peer H} {k : Kind} {id : UInt32} {data md : Bytes} {n : UInt32}
    (h : Handled e hs p k id data md n p') :
    p'.log.filterMap reacted = p.log.filterMap reacted ++ [reactTo (byIndex hs) k id data md] ∧
      p'.tasks.filterMap (pending hs) = p.tasks.filterMap (pending hs) := by
  cases h with
  | short hl => simp [Peer.after, reactTo, index_short hl, reacted, errorFrame]
  | unknown op h1 h2 => simp [Peer.after, reactTo, h1, byIndex, h2, reacted, errorFrame]
  | run op parent h h1 h2 h3 =>
    obtain ⟨ts, e1, e2, e3⟩ := accept_tasks e p k h id data md n parent
    rw [e1, e3, List.filterMap_append, List.filterMap_append]
    refine ⟨by simp [reactTo, h1, byIndex, h3, reacted], ?_⟩
    have : ts.filterMap (pending hs) = [] := by
      rw [List.filterMap_eq_nil_iff]
      intro t ht
      obtain ⟨i, rfl⟩ := e2 t ht
      rfl
    rw [this, List.append_nil]

/-- What a received frame does to the requests: a request joins those to be worked on, nothing else changes. -/
theorem recv_requests {hs : Handlers H} {p p' : Peer H} {data : Bytes} (h : p.recvOne data = .ok p') :
    p'.log.filterMap reacted = p.log.filterMap reacted ∧
      p'.tasks.filterMap (pending hs) = p.tasks.filterMap (pending hs) ++ (requested hs (.recv data)).toList := by
  cases hd : decodeFrame data with
  | panic =>
    have := recv_undecoded (by intro f e; rw [hd] at e; cases e) h
    simp [this, requested, hd]
  | err m =>
    have := recv_undecoded (by intro f e; rw [hd] at e; cases e) h
    simp [this, requested, hd]
  | ok f =>
    rw [recv_decoded hd] at h
    by_cases hf : ∃ v, f = .request v
    · obtain ⟨v, rfl⟩ := hf
      simp only [afterDecode] at h
      split at h
      · rename_i hv
        cases h
        simp [requested, hd, hv]
      · rename_i hv
        simp only [dispatch] at h
        cases hk : kindOf v.frameType with
        | none => rw [hk] at h; cases h; simp [Peer.after, requested, hd, hv, hk]
        | some k => rw [hk] at h; cases h; simp [Peer.after, requested, hd, hv, hk, pending]
    · have hf : ∀ v, f ≠ .request v := fun v hv => hf ⟨v, hv⟩
      have hq : requested hs (.recv data) = none := by
        simp only [requested, hd]
        cases f with
        | request v => exact absurd rfl (hf v)
        | _ => rfl
      rw [hq]
      have h : (match getStream p.st f.streamID with
          | none => Res.ok p
          | some i => p.after <$> dispatch p.st (some i) f) = .ok p' := by
        cases f with
        | request v => exact absurd rfl (hf v)
        | _ => exact h
      split at h
      · cases h; simp
      · rename_i i _
        cases ho : dispatch (H := H × Ctx) p.st (some i) f with
        | err m => rw [ho] at h; cases h
        | panic => rw [ho] at h; cases h
        | ok o =>
          rw [ho] at h; cases h
          obtain ⟨_, _, h3, h4⟩ := dispatch_shape hf ho
          simp only [Peer.after, List.filterMap_append, Option.toList_none, List.append_nil]
          constructor
          · have : o.evs.filterMap reacted = [] := by
              rw [List.filterMap_eq_nil_iff]
              intro x hx
              rcases h4 x hx with ⟨d, m, rfl⟩ | rfl | ⟨m, rfl⟩ <;> rfl
            rw [this, List.append_nil]
          · have : o.tasks.filterMap (pending hs) = [] := by
              rw [List.filterMap_eq_nil_iff]
              intro t ht
              obtain ⟨n, rfl⟩ := h3 t ht
              rfl
            rw [this, List.append_nil]

/-- What running a task does to the requests: the task itself is settled. -/
theorem task_requests {e : End} {hs : Handlers H} {live : Bool} {p p' : Peer H} {t : Task}
    (h : p.runTask e hs live t = .ok p') :
    p'.log.filterMap reacted = p.log.filterMap reacted ++ (pending hs t).toList ∧
      p'.tasks.filterMap (pending hs) = p.tasks.filterMap (pending hs) := by
  cases t with
  | request k id data md n =>
    obtain ⟨p2, h1, h2⟩ := handled e hs p k id data md n
    simp only [Peer.runTask] at h
    cases h1.symm.trans h
    exact handled_reacted h2
  | attach i n =>
    simp only [Peer.runTask, Handler.runTask] at h
    split at h
    · cases h; simp [Peer.after, reacted, pending]
    · cases h
  | demand i n =>
    simp only [Peer.runTask, Handler.runTask] at h
    split at h
    · cases h
    · split at h
      · cases h; simp [Peer.after, reacted, pending]
      · cases h

theorem step_requests {e : End} {hs : Handlers H} {p p' : Peer H} {a : Act} (h : p.step e hs a = some (.ok p')) :
    (p'.log.filterMap reacted ++ p'.tasks.filterMap (pending hs)).Perm
      ((p.log.filterMap reacted ++ p.tasks.filterMap (pending hs)) ++ (requested hs a).toList) := by
  cases a with
  | recv data =>
    simp only [Peer.step] at h
    split at h
    · obtain ⟨h1, h2⟩ := recv_requests (hs := hs) (Option.some.inj h)
      rw [h1, h2, List.append_assoc]
    · cases h
  | task i live =>
    simp only [Peer.step] at h
    split at h
    · cases h
    · rename_i t ht
      obtain ⟨h1, h2⟩ := task_requests (Option.some.inj h)
      rw [h1, h2]
      simp only [requested, Option.toList_none, List.append_nil]
      rw [List.append_assoc]
      refine List.Perm.append_left _ ?_
      have := (eraseIdx_perm ht).filterMap (pending hs)
      refine List.Perm.trans ?_ this.symm
      cases hp : pending hs t with
      | none => simp [List.filterMap_cons, hp]
      | some r => simp [List.filterMap_cons, hp]
  | openMono id c => cases h; simp [Peer.register, requested]
  | openFlux id b c => cases h; simp [Peer.register, requested]
  | startIn i b => cases h; simp [requested]
  | openSink i => cases h; simp [requested]

theorem run_cons {e : End} {hs : Handlers H} {p p' : Peer H} {a : Act} {as : List Act}
    (h : p.run e hs (a :: as) = some (.ok p')) : ∃ p1, p.step e hs a = some (.ok p1) ∧ p1.run e hs as = some (.ok p') := by
  simp only [Peer.run] at h
  split at h
  · cases h
  · rename_i p1 h1; exact ⟨p1, h1, h⟩
  · split at h
    · rename_i r hr hn _
      cases h
      exact absurd rfl (hr p')
    · cases h

theorem filterMap_cons_toList {α β : Type} (f : α → Option β) (a : α) (l : List α) :
    (a :: l).filterMap f = (f a).toList ++ l.filterMap f := by
  cases h : f a <;> simp [List.filterMap_cons, h]

theorem run_requests {e : End} {hs : Handlers H} {p p' : Peer H} {as : List Act} (h : p.run e hs as = some (.ok p')) :
    (p'.log.filterMap reacted ++ p'.tasks.filterMap (pending hs)).Perm
      ((p.log.filterMap reacted ++ p.tasks.filterMap (pending hs)) ++ as.filterMap (requested hs)) := by
  induction as generalizing p with
  | nil => cases h; simp
  | cons a as ih =>
    obtain ⟨p1, h1, h2⟩ := run_cons h
    rw [filterMap_cons_toList, ← List.append_assoc]
    exact (ih h2).trans ((step_requests h1).append_right _)

/-- **C81** (part) Over any run of a host or a guest, the reactions so far (handlers run, error frames sent) together
with the requests still to be worked on are exactly those the specification demands for the requests received: none
lost, none doubled, none run by another operation.

Missing: requests marked as to be continued, `follows_lost_refuted`. -/
theorem requests_handled_once_partial (e : End) (hs : Handlers H) (as : List Act) (p : Peer H)
    (h : Peer.init.run e hs as = some (.ok p)) :
    (p.log.filterMap reacted ++ p.tasks.filterMap (pending hs)).Perm (as.filterMap (requested hs)) := by
  simpa [Peer.init] using run_requests h

/-! ### The guest does one thing after the other -/

theorem recv_tasks {p p' : Peer H} {data : Bytes} (h : p.recvOne data = .ok p') :
    ∃ ts, p'.tasks = p.tasks ++ ts ∧ ts.length ≤ 1 := by
  cases hd : decodeFrame data with
  | panic => exact ⟨[], by simp [recv_undecoded (by intro f e; rw [hd] at e; cases e) h], by simp⟩
  | err m => exact ⟨[], by simp [recv_undecoded (by intro f e; rw [hd] at e; cases e) h], by simp⟩
  | ok f =>
    rw [recv_decoded hd] at h
    have key : ∀ i (f : Frame) o, (∀ v, f ≠ .request v) → dispatch (H := H × Ctx) p.st (some i) f = .ok o → o.tasks.length ≤ 1 := by
      intro i f o hf ho
      cases f with
      | request v => exact absurd rfl (hf v)
      | requestN v =>
        simp only [dispatch] at ho
        split at ho
        · cases ho
        · split at ho <;> cases ho; simp
      | cancel v =>
        simp only [dispatch] at ho
        cases hv : deliver (H := H × Ctx) p.st i (.complete i) <;> rw [hv] at ho <;> cases ho; simp
      | payload v =>
        simp only [dispatch] at ho
        cases hv : deliverIf (H := H × Ctx) v.next p.st i (.next i v.data v.metadata) with
        | err m => rw [hv] at ho; cases ho
        | panic => rw [hv] at ho; cases ho
        | ok x =>
          rw [hv] at ho; simp only [Res.ok_bind] at ho
          cases hw : deliverIf (H := H × Ctx) v.complete p.st i (.complete i) <;> rw [hw] at ho <;> cases ho; simp
      | error v =>
        simp only [dispatch] at ho
        cases hv : deliver (H := H × Ctx) p.st i (.error i v.data) with
        | err m => rw [hv] at ho; cases ho
        | panic => rw [hv] at ho; cases ho
        | ok x =>
          rw [hv] at ho; simp only [Res.ok_bind] at ho
          cases hw : deliver (H := H × Ctx) p.st i (.complete i) <;> rw [hw] at ho <;> cases ho; simp
    by_cases hf : ∃ v, f = .request v
    · obtain ⟨v, rfl⟩ := hf
      simp only [afterDecode] at h
      split at h
      · cases h; exact ⟨[], by simp, by simp⟩
      · simp only [dispatch] at h
        cases hk : kindOf v.frameType with
        | none => rw [hk] at h; cases h; exact ⟨[], by simp [Peer.after], by simp⟩
        | some k => rw [hk] at h; cases h; exact ⟨_, rfl, by simp⟩
    · have hf : ∀ v, f ≠ .request v := fun v hv => hf ⟨v, hv⟩
      have h : (match getStream p.st f.streamID with
          | none => Res.ok p
          | some i => p.after <$> dispatch p.st (some i) f) = .ok p' := by
        cases f with
        | request v => exact absurd rfl (hf v)
        | _ => exact h
      split at h
      · cases h; exact ⟨[], by simp, by simp⟩
      · rename_i i _
        cases ho : dispatch (H := H × Ctx) p.st (some i) f with
        | err m => rw [ho] at h; cases h
        | panic => rw [ho] at h; cases h
        | ok o =>
          rw [ho] at h; cases h
          exact ⟨o.tasks, rfl, key i f o hf ho⟩

theorem task_tasks {e : End} {hs : Handlers H} {live : Bool} {p p' : Peer H} {t : Task}
    (h : p.runTask e hs live t = .ok p') : ∃ ts, p'.tasks = p.tasks ++ ts ∧ ts.length ≤ 1 := by
  cases t with
  | request k id data md n =>
    obtain ⟨p2, h1, h2⟩ := handled e hs p k id data md n
    simp only [Peer.runTask] at h
    cases h1.symm.trans h
    cases h2 with
    | short _ => exact ⟨[], rfl, by simp⟩
    | unknown _ _ _ => exact ⟨[], rfl, by simp⟩
    | run op parent h _ _ _ =>
      unfold Peer.accept
      split
      · exact ⟨[], rfl, by simp⟩
      · exact ⟨_, rfl, by cases k <;> simp [rest]⟩
  | attach i n =>
    simp only [Peer.runTask, Handler.runTask] at h
    split at h
    · cases h; exact ⟨[], rfl, by simp⟩
    · cases h
  | demand i n =>
    simp only [Peer.runTask, Handler.runTask] at h
    split at h
    · cases h
    · split at h
      · cases h; exact ⟨[], rfl, by simp⟩
      · cases h

theorem guest_step {hs : Handlers H} {p p' : Peer H} {a : Act} (hl : p.tasks.length ≤ 1)
    (h : p.step .guest hs a = some (.ok p')) : p'.tasks.length ≤ 1 ∧
    p'.log.filterMap reacted ++ p'.tasks.filterMap (pending hs) =
      (p.log.filterMap reacted ++ p.tasks.filterMap (pending hs)) ++ (requested hs a).toList := by
  cases a with
  | recv data =>
    simp only [Peer.step] at h
    split at h
    · rename_i hr
      have hr : p.tasks = [] := by simpa [Peer.ready] using hr
      obtain ⟨h1, h2⟩ := recv_requests (hs := hs) (Option.some.inj h)
      obtain ⟨ts, h3, h4⟩ := recv_tasks (Option.some.inj h)
      refine ⟨by rw [h3, hr]; simpa using h4, by rw [h1, h2, List.append_assoc]⟩
    · cases h
  | task i live =>
    simp only [Peer.step] at h
    split at h
    · cases h
    · rename_i t ht
      obtain ⟨h1, h2⟩ := task_requests (Option.some.inj h)
      obtain ⟨ts, h3, h4⟩ := task_tasks (Option.some.inj h)
      have he : p.tasks = [t] := by
        match hp : p.tasks, hl with
        | [], _ => rw [hp] at ht; simp at ht
        | [x], _ =>
          rw [hp] at ht
          cases i with
          | zero => simpa using ht
          | succ i => simp at ht
        | _ :: _ :: _, hl => exact absurd hl (by simp)
      have hi : i = 0 := by
        rw [he] at ht
        cases i with
        | zero => rfl
        | succ i => simp at ht
      subst hi
      rw [he] at h3 h2
      refine ⟨by rw [h3]; simpa using h4, ?_⟩
      rw [h1, h2, he]
      simp only [requested]
      cases hp : pending hs t <;> simp [List.filterMap_cons, hp]
  | openMono id c => cases h; exact ⟨hl, by simp [Peer.register, requested]⟩
  | openFlux id b c => cases h; exact ⟨hl, by simp [Peer.register, requested]⟩
  | startIn i b => cases h; exact ⟨hl, by simp [requested]⟩
  | openSink i => cases h; exact ⟨hl, by simp [requested]⟩

theorem guest_run {hs : Handlers H} {p p' : Peer H} {as : List Act} (hl : p.tasks.length ≤ 1)
    (h : p.run .guest hs as = some (.ok p')) : p'.tasks.length ≤ 1 ∧
    p'.log.filterMap reacted ++ p'.tasks.filterMap (pending hs) =
      (p.log.filterMap reacted ++ p.tasks.filterMap (pending hs)) ++ as.filterMap (requested hs) := by
  induction as generalizing p with
  | nil => cases h; exact ⟨hl, by simp⟩
  | cons a as ih =>
    obtain ⟨p1, h1, h2⟩ := run_cons h
    obtain ⟨g1, g2⟩ := guest_step hl h1
    obtain ⟨g3, g4⟩ := ih g1 h2
    exact ⟨g3, by rw [g4, g2, filterMap_cons_toList, List.append_assoc]⟩

/-- **C81** (part) A guest reacts to requests in the order in which they arrive: its reactions, and the request it is at,
if any, are those the specification demands, one after the other. -/
theorem guest_in_order_partial (hs : Handlers H) (as : List Act) (p : Peer H)
    (h : Peer.init.run .guest hs as = some (.ok p)) :
    p.log.filterMap reacted ++ p.tasks.filterMap (pending hs) = as.filterMap (requested hs) := by
  simpa [Peer.init] using (guest_run (p := Peer.init) (by simp [Peer.init]) h).2

/-! ### Requests that are to be continued -/

/-- Two handlers of each kind. -/
def hs2 : Handlers Nat := fun k i =>
  if i < 2 then some (match k with | .rr => 10 | .fnf => 20 | .rs => 30 | .rc => 40 + i.toNat) else none

/-- A request whose rest follows: request-response on stream 2, operation 1, with the flags METADATA, FOLLOWS, NEXT. -/
def firstPart : Bytes := [0, 0, 0, 2, 17, 160, 0, 0, 8, 0, 0, 0, 1, 0, 0, 0, 0, 5]

/-- The rest of it: PAYLOAD with NEXT and COMPLETE. -/
def lastPart : Bytes := [0, 0, 0, 2, 40, 96, 6]

/-- **C81** is false for requests in more than one frame: either end puts the first frame aside and drops the others. The
request is never reacted to, though the operation exists and nothing is left to be done. -/
theorem follows_lost_refuted (e : End) : ∃ p : Peer Nat, Peer.init.run e hs2 [.recv firstPart, .recv lastPart] = some (.ok p) ∧
    decodeFrame firstPart = .ok (.request ⟨4, 2, [0, 0, 0, 1, 0, 0, 0, 0], [5], true, true, 1⟩) ∧
    decodeFrame lastPart = .ok (.payload ⟨2, [], [6], false, true, true⟩) ∧
    reactTo (byIndex hs2) .rr 2 [5, 6] [0, 0, 0, 1, 0, 0, 0, 0] = .run .rr 10 2 [5, 6] ∧ p.log = [] ∧ p.tasks = [] := by
  cases e <;> exact ⟨_, rfl, rfl, rfl, by decide, rfl, rfl⟩

/-- A channel request on stream 4 for an operation, in bytes. -/
def channel (op : UInt8) : Bytes := [0, 0, 0, 4, 29, 0, 0, 0, 0, 9, 0, 0, 8, 0, 0, 0, op, 0, 0, 0, 0, 7]

/-- The theorems say something: two requests to a host, the second worked on first; an unknown operation is refused. -/
example : ∃ p : Peer Nat, Peer.init.run .host hs2 [.recv (channel 1), .recv (channel 5), .task 1 true] = some (.ok p) ∧
    p.log.filterMap reacted = [.refuse 4] ∧ p.tasks.filterMap (pending hs2) = [.run .rc 41 4 [7]] := ⟨_, rfl, by decide, by decide⟩

/-- The guest takes the second request only after the first. -/
example : Peer.init.run .guest hs2 [.recv (channel 1), .recv (channel 5)] = none ∧
    ∃ p : Peer Nat, Peer.init.run .guest hs2 [.recv (channel 1), .task 0 true, .task 0 true, .recv (channel 5), .task 0 true] =
      some (.ok p) ∧ p.log.filterMap reacted = [.run .rc 41 4 [7], .refuse 4] := ⟨rfl, _, rfl, by decide⟩

end Iota.Props.WasmDispatch
