import Verif.Spec.RustPair
import Verif.Props.RustResponder

/-! # Calls between a host and a guest written in Rust (C148) -/

namespace Iota.Props.RustPair
open Iota.Go Iota.Frames Iota.Rust Iota.Spec.RustSocket Iota.Spec.RustPair Iota.Lemmas.RustSocket
open Iota.Props.RustSocket Iota.Props.RustResponder

/-! ## What a step adds -/

/-- A request frame. -/
def isReq : Frame → Bool
  | .request _ => true
  | _ => false

/-- A demand frame. -/
def isDemand : Frame → Bool
  | .requestN _ => true
  | _ => false

/-- A cancellation. -/
def isCancel : Frame → Bool
  | .cancel _ => true
  | _ => false

/-- The task that sends the elements of a channel call. -/
def isFeed : Rust.Task → Bool
  | .feed _ _ _ _ => true
  | _ => false

/-- A channel task that has not started. -/
def isRcStart : Rust.Task → Bool
  | .rcStart _ _ => true
  | _ => false

/-- A feed that has not sent its request. -/
def isFirst : Rust.Task → Bool
  | .feed _ _ f _ => f
  | _ => false

/-- A request for a channel. -/
def opens : Frame → Bool
  | .request v => v.frameType != tRequestFNF && v.frameType != tRequestResponse && v.frameType != tRequestStream
  | _ => false

/-- A task that has not run its handler yet. -/
def starting (sid : UInt32) : Option Rust.Task → Bool
  | some (.rsStart i _ _) => i = sid
  | some (.rcStart i _) => i = sid
  | _ => false

/-- The run of a handler that a request asks for (of a channel, only its id). -/
def Fits (f : Frame) (r : Invoked) : Prop :=
  ∃ v, f = .request v ∧ match r with
    | .fnf i md d => v.frameType = tRequestFNF ∧ v.streamID = i ∧ v.metadata = md ∧ v.data = d
    | .rr i md d => v.frameType = tRequestResponse ∧ v.streamID = i ∧ v.metadata = md ∧ v.data = d
    | .rs i md d => v.frameType = tRequestStream ∧ v.streamID = i ∧ v.metadata = md ∧ v.data = d
    | .rc i _ => v.streamID = i ∧ opens f = true

/-- The same for a task that will run it. -/
def FitsTask (f : Frame) : Rust.Task → Prop
  | .rsStart i md d => Fits f (.rs i md d)
  | .rcStart i n => Fits f (.rc i n)
  | _ => True

/-- What the frame `f` made a socket do. -/
structure Processed (s s' : Sock) (f : Frame) : Prop where
  next : s'.next = s.next
  out : ∃ l, s'.out = s.out ++ l ∧ ∀ g ∈ l, g.streamID = f.streamID ∧ isRequesting g = false ∧
    (isCancel g = true → ∃ i, (f.streamID, i) ∈ s.handlers)
  tasks : ∃ l r, s'.tasks = s.tasks ++ l ∧ s'.runs = s.runs ++ r ∧
    (∀ k, some k ∈ l → sidOf k = f.streamID ∧ isFeed k = false ∧ isReq f = true ∧ (isRcStart k = true → opens f = true) ∧
      FitsTask f k) ∧
    (∀ x ∈ r, Fits f x) ∧
    ∀ sid, r.countP (runFor sid) + l.countP (starting sid) = if isReq f = true ∧ f.streamID = sid then 1 else 0
  handlers : ∀ x ∈ s'.handlers, x ∈ s.handlers ∨ x.1 = f.streamID ∧ opens f = true

theorem same {s s' : Sock} {f : Frame} (hf : isReq f = false) (h1 : s'.next = s.next) (h2 : s'.out = s.out) (h3 : s'.tasks = s.tasks)
    (h5 : s'.runs = s.runs) (h4 : ∀ x ∈ s'.handlers, x ∈ s.handlers) : Processed s s' f :=
  ⟨h1, ⟨[], by simp [h2], by simp⟩, ⟨[], [], by simp [h3], by simp [h5], by simp, by simp, by simp [hf]⟩, fun x hx => .inl (h4 x hx)⟩

theorem remove_runs (s : Sock) (sid : UInt32) : (s.remove sid).runs = s.runs := by
  unfold Sock.remove
  split <;> rfl

theorem Processed.remove {s s' : Sock} {f : Frame} (h : Processed s s' f) (sid : UInt32) : Processed s (s'.remove sid) f := by
  refine ⟨(remove_next _ _).trans h.next, ?_, ?_, fun x hx => h.handlers x (remove_handlers hx)⟩
  · rw [(remove_tasks s' sid).2]; exact h.out
  · rw [(remove_tasks s' sid).1, remove_runs]; exact h.tasks

theorem sent {s : Sock} {f g : Frame} (hf : isReq f = false) (h1 : g.streamID = f.streamID) (h2 : isRequesting g = false)
    (h3 : isCancel g = true → ∃ i, (f.streamID, i) ∈ s.handlers) : Processed s (s.send g) f :=
  ⟨rfl, ⟨[g], rfl, fun x hx => by cases List.mem_singleton.mp hx; exact ⟨h1, h2, h3⟩⟩,
    ⟨[], [], by simp [Sock.send], by simp [Sock.send], by simp, by simp, by simp [hf]⟩, fun x hx => .inl hx⟩

theorem processed {s s' : Sock} {f : Frame} (h : s.processOnce f = .ok s') : Processed s s' f := by
  cases f with
  | request v =>
    simp only [Sock.processOnce] at h
    split at h
    · rename_i ht
      cases h
      refine ⟨rfl, ⟨[], by simp [Sock.spawn], by simp⟩, ⟨[some (.fnf v.streamID)], [.fnf v.streamID v.metadata v.data], rfl, rfl, fun k hk => ?_,
        fun x hx => ?_, fun sid => ?_⟩, fun x hx => .inl hx⟩
      · cases List.mem_singleton.mp hk; exact ⟨rfl, rfl, rfl, fun h => (by cases h), trivial⟩
      · cases List.mem_singleton.mp hx; exact ⟨v, rfl, ht, rfl, rfl, rfl⟩
      · by_cases hs : v.streamID = sid <;> simp [runFor, starting, isReq, Frame.streamID, hs]
    · split at h
      · rename_i ht
        cases h
        refine ⟨rfl, ⟨[], by simp [Sock.spawn], by simp⟩, ⟨[some (.rr v.streamID)], [.rr v.streamID v.metadata v.data], rfl, rfl, fun k hk => ?_,
          fun x hx => ?_, fun sid => ?_⟩, fun x hx => .inl hx⟩
        · cases List.mem_singleton.mp hk; exact ⟨rfl, rfl, rfl, fun h => (by cases h), trivial⟩
        · cases List.mem_singleton.mp hx; exact ⟨v, rfl, ht, rfl, rfl, rfl⟩
        · by_cases hs : v.streamID = sid <;> simp [runFor, starting, isReq, Frame.streamID, hs]
      · split at h
        · rename_i ht
          cases h
          refine ⟨rfl, ⟨[], by simp [Sock.spawn], by simp⟩, ⟨[some (.rsStart v.streamID v.metadata v.data)], [], rfl, by simp [Sock.spawn],
            fun k hk => ?_, by simp, fun sid => ?_⟩, fun x hx => .inl hx⟩
          · cases List.mem_singleton.mp hk; exact ⟨rfl, rfl, rfl, fun h => (by cases h), v, rfl, ht, rfl, rfl, rfl⟩
          · by_cases hs : v.streamID = sid <;> simp [starting, isReq, Frame.streamID, hs]
        · rename_i h1 h2 h3
          cases h
          have ho : opens (.request v) = true := by simp [opens, h1, h2, h3]
          refine ⟨?_, ⟨[], ?_, by simp⟩, ⟨[some (.rcStart v.streamID s.sinks.length)], [], ?_, ?_, fun k hk => ?_, by simp, fun sid => ?_⟩,
            fun x hx => ?_⟩
          · exact remove_next s v.streamID
          · rw [List.append_nil]; exact (remove_tasks s v.streamID).2
          · show (s.remove v.streamID).tasks ++ [_] = _
            rw [(remove_tasks s v.streamID).1]
          · rw [List.append_nil]; exact remove_runs s v.streamID
          · cases List.mem_singleton.mp hk; exact ⟨rfl, rfl, rfl, fun _ => ho, v, rfl, rfl, ho⟩
          · by_cases hs : v.streamID = sid <;> simp [starting, isReq, Frame.streamID, hs]
          · have hx : x ∈ mapInsert s.handlers v.streamID s.sinks.length := hx
            simp only [mapInsert, List.mem_append, List.mem_singleton] at hx
            rcases hx with hx | hx
            · exact .inl (mem_remove.mp hx).1
            · exact .inr ⟨by rw [hx]; rfl, ho⟩
  | payload v =>
    simp only [Sock.processOnce] at h
    cases h
    have id : Processed s s (.payload v) := same rfl rfl rfl rfl rfl fun _ hx => hx
    unfold Sock.onPayload
    split
    · exact id
    · rename_i i hg
      have hin : ∃ i, ((Frame.payload v).streamID, i) ∈ s.handlers := ⟨i, mapGet_mem hg⟩
      have put : ∀ x, Processed s (s.put i x) (.payload v) := fun x => same rfl rfl rfl rfl rfl fun _ hx => hx
      have cancel : Processed s (s.send (.cancel ⟨v.streamID⟩)) (.payload v) := sent rfl rfl rfl fun _ => hin
      split
      · exact id
      · split
        · split
          · exact (put _).remove _
          · exact id.remove _
        · split
          · split
            · split
              · exact (put _).remove _
              · exact cancel.remove _
            · exact id.remove _
          · split
            · split
              · exact put _
              · exact cancel
            · exact id
  | cancel v =>
    have id : Processed s s (.cancel v) := same rfl rfl rfl rfl rfl fun _ hx => hx
    have put : ∀ i x, Processed s (s.put i x) (.cancel v) := fun i x => same rfl rfl rfl rfl rfl fun _ hx => hx
    simp only [Sock.processOnce, Sock.onCancel] at h
    split at h
    · cases h; exact id
    · split at h
      · cases h; exact id
      · split at h
        · split at h
          · cases h
            exact (put _ _).remove _
          · cases h
        · cases h
          exact id.remove _
  | error v =>
    have id : Processed s s (.error v) := same rfl rfl rfl rfl rfl fun _ hx => hx
    have put : ∀ i x, Processed s (s.put i x) (.error v) := fun i x => same rfl rfl rfl rfl rfl fun _ hx => hx
    simp only [Sock.processOnce, Sock.onError] at h
    split at h
    · cases h; exact id
    · split at h
      · cases h; exact id
      · split at h
        · cases h
          exact (put _ _).remove _
        · cases h
  | requestN v =>
    simp only [Sock.processOnce] at h
    cases h
    unfold Sock.onRequestN
    split
    · exact sent rfl rfl rfl fun h => by cases h
    · split
      · exact same rfl rfl rfl rfl rfl fun _ hx => hx
      · exact sent rfl rfl rfl fun h => by cases h

/-- Whether a feed has not sent its request, as a number. -/
def firsts (sid : UInt32) : Option Rust.Task → Bool
  | some (.feed i _ f _) => f && i = sid
  | _ => false

/-- The requests under an id. -/
def reqFor (sid : UInt32) (f : Frame) : Bool := isReq f && f.streamID = sid

/-- What a task did. -/
structure Went (s s' : Sock) (t : Nat) (k : Rust.Task) : Prop where
  next : s'.next = s.next
  handlers : s'.handlers = s.handlers
  did : ∃ l st r, s'.out = s.out ++ l ∧ s'.tasks = s.tasks.set t st ∧ s'.runs = s.runs ++ r ∧
    (∀ g ∈ l, g.streamID = sidOf k ∧ isCancel g = false ∧ (isReq g = true → isFeed k = true) ∧
      (isDemand g = true → isRcStart k = true)) ∧
    (∀ k', st = some k' → sidOf k' = sidOf k ∧ isFeed k' = isFeed k ∧ isRcStart k' = false ∧ ∀ f, FitsTask f k') ∧
    (∀ x ∈ r, ∀ f, FitsTask f k → Fits f x) ∧
    ∀ sid, l.countP (reqFor sid) + (if firsts sid st then 1 else 0) ≤ (if firsts sid (some k) then 1 else 0) ∧
      r.countP (runFor sid) = (if starting sid (some k) then 1 else 0) ∧ starting sid st = false

theorem went {s s' : Sock} {t : Nat} {y : Yield} {k : Rust.Task} (hk : s.tasks[t]? = some (some k))
    (h : s.runTask t y k = some s') : Went s s' t k := by
  have hset : s.tasks = s.tasks.set t (some k) := by
    obtain ⟨ht, he⟩ := List.getElem?_eq_some_iff.mp hk
    rw [← he, List.set_getElem_self]
  obtain ⟨c1, c2, c3⟩ := runTask_core h
  refine ⟨c3, c1, ?_⟩
  cases k with
  | rr sid =>
    cases y <;> simp only [Sock.runTask] at h <;> cases h
    · refine ⟨[_], none, [], rfl, rfl, by simp [Sock.send], ?_, by simp, by simp, by simp [firsts, starting, reqFor, isReq, newPayload]⟩
      intro g hg; cases List.mem_singleton.mp hg
      exact ⟨rfl, rfl, fun h => (by cases h), fun h => (by cases h)⟩
    · refine ⟨[_], none, [], rfl, rfl, by simp [Sock.send], ?_, by simp, by simp, by simp [firsts, starting, reqFor, isReq, appError]⟩
      intro g hg; cases List.mem_singleton.mp hg
      exact ⟨rfl, rfl, fun h => (by cases h), fun h => (by cases h)⟩
  | fnf sid =>
    cases y <;> simp only [Sock.runTask] at h <;> cases h
    · exact ⟨[], none, [], by simp, rfl, by simp, by simp, by simp, by simp, by simp [firsts, starting]⟩
    · refine ⟨[_], none, [], rfl, rfl, by simp [Sock.send], ?_, by simp, by simp, by simp [firsts, starting, reqFor, isReq, appError]⟩
      intro g hg; cases List.mem_singleton.mp hg
      exact ⟨rfl, rfl, fun h => (by cases h), fun h => (by cases h)⟩
  | rsStart sid md d =>
    simp only [Sock.runTask] at h
    cases h
    refine ⟨[], some (.rs sid), [.rs sid md d], by simp, rfl, rfl, by simp, ?_, ?_, ?_⟩
    · intro k' hk'; cases hk'; exact ⟨rfl, rfl, rfl, fun _ => trivial⟩
    · intro x hx f hf; cases List.mem_singleton.mp hx; exact hf
    · intro i; simp [firsts, starting, runFor]
  | rcStart sid n =>
    simp only [Sock.runTask] at h
    cases h
    refine ⟨[.requestN ⟨sid, requestMax⟩], some (.rc sid), [.rc sid n], rfl, rfl, rfl, ?_, ?_, ?_, ?_⟩
    · intro g hg; cases List.mem_singleton.mp hg
      exact ⟨rfl, rfl, fun h => (by cases h), fun h => rfl⟩
    · intro k' hk'; cases hk'; exact ⟨rfl, rfl, rfl, fun _ => trivial⟩
    · intro x hx f hf; cases List.mem_singleton.mp hx; exact hf
    · intro i; simp [firsts, starting, runFor, reqFor, isReq]
  | rs sid =>
    cases y <;> simp only [Sock.runTask] at h <;> cases h
    · refine ⟨[_], some (.rs sid), [], rfl, hset, by simp [Sock.send], ?_, ?_, by simp, by simp [firsts, starting, reqFor, isReq, nextFrame, newPayload]⟩
      · intro g hg; cases List.mem_singleton.mp hg
        exact ⟨rfl, rfl, fun h => (by cases h), fun h => (by cases h)⟩
      · intro k' hk'; cases hk'; exact ⟨rfl, rfl, rfl, fun _ => trivial⟩
    · refine ⟨[_], some (.rs sid), [], rfl, hset, by simp [Sock.send], ?_, ?_, by simp, by simp [firsts, starting, reqFor, isReq, appError]⟩
      · intro g hg; cases List.mem_singleton.mp hg
        exact ⟨rfl, rfl, fun h => (by cases h), fun h => (by cases h)⟩
      · intro k' hk'; cases hk'; exact ⟨rfl, rfl, rfl, fun _ => trivial⟩
    · refine ⟨[_], none, [], rfl, rfl, by simp [Sock.send], ?_, by simp, by simp, by simp [firsts, starting, reqFor, isReq, completeFrame, newPayload]⟩
      intro g hg; cases List.mem_singleton.mp hg
      exact ⟨rfl, rfl, fun h => (by cases h), fun h => (by cases h)⟩
  | rc sid =>
    cases y <;> simp only [Sock.runTask] at h <;> cases h
    · refine ⟨[_], some (.rc sid), [], rfl, hset, by simp [Sock.send], ?_, ?_, by simp, by simp [firsts, starting, reqFor, isReq, nextFrame, newPayload]⟩
      · intro g hg; cases List.mem_singleton.mp hg
        exact ⟨rfl, rfl, fun h => (by cases h), fun h => (by cases h)⟩
      · intro k' hk'; cases hk'; exact ⟨rfl, rfl, rfl, fun _ => trivial⟩
    · refine ⟨[_], some (.rc sid), [], rfl, hset, by simp [Sock.send], ?_, ?_, by simp, by simp [firsts, starting, reqFor, isReq, appError]⟩
      · intro g hg; cases List.mem_singleton.mp hg
        exact ⟨rfl, rfl, fun h => (by cases h), fun h => (by cases h)⟩
      · intro k' hk'; cases hk'; exact ⟨rfl, rfl, rfl, fun _ => trivial⟩
    · refine ⟨[_], none, [], rfl, rfl, by simp [Sock.send], ?_, by simp, by simp, by simp [firsts, starting, reqFor, isReq, completeFrame, newPayload]⟩
      intro g hg; cases List.mem_singleton.mp hg
      exact ⟨rfl, rfl, fun h => (by cases h), fun h => (by cases h)⟩
  | feed sid q first n =>
    have fin : ∃ l st r, (s.feedEnd t sid).out = s.out ++ l ∧ (s.feedEnd t sid).tasks = s.tasks.set t st ∧ (s.feedEnd t sid).runs = s.runs ++ r ∧
        (∀ g ∈ l, g.streamID = sidOf (.feed sid q first n) ∧ isCancel g = false ∧ (isReq g = true → isFeed (.feed sid q first n) = true) ∧
          (isDemand g = true → isRcStart (.feed sid q first n) = true)) ∧
        (∀ k', st = some k' → sidOf k' = sidOf (.feed sid q first n) ∧ isFeed k' = isFeed (.feed sid q first n) ∧ isRcStart k' = false ∧ ∀ f, FitsTask f k') ∧
        (∀ x ∈ r, ∀ f, FitsTask f (.feed sid q first n) → Fits f x) ∧
        ∀ i, l.countP (reqFor i) + (if firsts i st then 1 else 0) ≤ (if firsts i (some (.feed sid q first n)) then 1 else 0) ∧
          r.countP (runFor i) = (if starting i (some (.feed sid q first n)) then 1 else 0) ∧ starting i st = false := by
      refine ⟨[_], none, [], rfl, rfl, by simp [Sock.feedEnd, Sock.send], ?_, by simp, by simp, by simp [firsts, starting, reqFor, isReq, completeFrame, newPayload]⟩
      intro g hg; cases List.mem_singleton.mp hg
      exact ⟨rfl, rfl, fun h => (by cases h), fun h => (by cases h)⟩
    simp only [Sock.runTask] at h
    split at h
    · split at h
      · cases h
        refine ⟨[], some (.feed sid q first _), [], by simp, rfl, by simp, by simp, ?_, by simp, by simp [firsts, starting]⟩
        intro k' hk'; cases hk'; exact ⟨rfl, rfl, rfl, fun _ => trivial⟩
      · split at h
        · cases h
        · cases h; exact fin
    · cases y <;> simp only at h
      · split at h
        · rename_i hfirst
          cases h
          refine ⟨[_], some (.feed sid q false _), [], rfl, rfl, by simp [Sock.feedSent, Sock.send], ?_, ?_, by simp, ?_⟩
          · intro g hg; cases List.mem_singleton.mp hg
            exact ⟨rfl, rfl, fun _ => rfl, fun h => (by cases h)⟩
          · intro k' hk'; cases hk'; exact ⟨rfl, rfl, rfl, fun _ => trivial⟩
          · intro i
            by_cases hi : sid = i <;> simp [firsts, starting, reqFor, isReq, newRequest, hfirst, hi, Frame.streamID]
        · cases h
          refine ⟨[_], some (.feed sid q false _), [], rfl, rfl, by simp [Sock.feedSent, Sock.send], ?_, ?_, by simp, ?_⟩
          · intro g hg; cases List.mem_singleton.mp hg
            exact ⟨rfl, rfl, fun h => (by cases h), fun h => (by cases h)⟩
          · intro k' hk'; cases hk'; exact ⟨rfl, rfl, rfl, fun _ => trivial⟩
          · intro i; simp [firsts, starting, reqFor, isReq, nextFrame, newPayload]
      · cases h
        refine ⟨[_], some (.feed sid q first _), [], rfl, rfl, by simp [Sock.send], ?_, ?_, by simp, ?_⟩
        · intro g hg; cases List.mem_singleton.mp hg
          exact ⟨rfl, rfl, fun h => (by cases h), fun h => (by cases h)⟩
        · intro k' hk'; cases hk'; exact ⟨rfl, rfl, rfl, fun _ => trivial⟩
        · intro i; simp [firsts, starting, reqFor, isReq, appError]
      · cases h; exact fin

/-- What a call did. -/
structure Called (s s' : Sock) (m : Method) (md d : Bytes) : Prop where
  next : s'.next = s.next + 2
  runs : s'.runs = s.runs
  out : ∃ l, s'.out = s.out ++ l ∧ ((m = .rc ∧ l = []) ∨ ∃ v, l = [.request v] ∧ v.streamID = s.next ∧
    (m ≠ .rc → v.metadata = md ∧ v.data = d ∧
      v.frameType = (match m with | .fnf => tRequestFNF | .rr => tRequestResponse | _ => tRequestStream)) ∧ m ≠ .rc)
  tasks : ∃ l, s'.tasks = s.tasks ++ l ∧ ((m ≠ .rc ∧ l = []) ∨ (m = .rc ∧ ∃ q, l = [some (.feed s.next q true 1)]))
  handlers : ∀ x ∈ s'.handlers, x ∈ s.handlers ∨ x.1 = s.next

theorem register_facts (s : Sock) (sid : UInt32) (w : Wait) (f : List Signal) :
    (s.register sid w f).out = s.out ∧ (s.register sid w f).tasks = s.tasks ∧ (s.register sid w f).runs = s.runs ∧
    ∀ x ∈ (s.register sid w f).handlers, x ∈ s.handlers ∨ x.1 = sid := by
  refine ⟨(remove_tasks s sid).2, (remove_tasks s sid).1, remove_runs s sid, fun x hx => ?_⟩
  have hx : x ∈ mapInsert s.handlers sid s.sinks.length := hx
  simp only [mapInsert, List.mem_append, List.mem_singleton] at hx
  rcases hx with hx | hx
  · exact .inl (mem_remove.mp hx).1
  · exact .inr (by rw [hx])

theorem called (s : Sock) (m : Method) (md d : Bytes) : Called s (s.request m md d) m md d := by
  have h0 := call_next s m md d
  cases m with
  | fnf =>
    exact ⟨h0, rfl, ⟨[_], rfl, .inr ⟨_, rfl, rfl, fun _ => ⟨rfl, rfl, rfl⟩, by simp⟩⟩, ⟨[], by simp [Sock.request, Sock.draw, Sock.send], .inl ⟨by simp, rfl⟩⟩,
      fun x hx => .inl hx⟩
  | rr =>
    obtain ⟨h1, h2, h3, h4⟩ := register_facts s.draw s.next .rr []
    refine ⟨h0, h3, ⟨[newRequest tRequestResponse s.next md d 0 0], ?_, .inr ⟨⟨tRequestResponse, s.next, md, d, false, false, 0⟩, rfl, rfl, fun _ => ⟨rfl, rfl, rfl⟩, by simp⟩⟩, ⟨[], ?_, .inl ⟨by simp, rfl⟩⟩, h4⟩
    · show (s.draw.register s.next .rr []).out ++ [_] = _; rw [h1]; rfl
    · rw [List.append_nil]; exact h2
  | rs =>
    obtain ⟨h1, h2, h3, h4⟩ := register_facts s.draw s.next .rs []
    refine ⟨h0, h3, ⟨[newRequest tRequestStream s.next md d 0 0], ?_, .inr ⟨⟨tRequestStream, s.next, md, d, false, false, 0⟩, rfl, rfl, fun _ => ⟨rfl, rfl, rfl⟩, by simp⟩⟩, ⟨[], ?_, .inl ⟨by simp, rfl⟩⟩, h4⟩
    · show (s.draw.register s.next .rs []).out ++ [_] = _; rw [h1]; rfl
    · rw [List.append_nil]; exact h2
  | rc =>
    obtain ⟨h1, h2, h3, h4⟩ := register_facts s.draw s.next .rc []
    refine ⟨h0, h3, ⟨[], ?_, .inl ⟨rfl, rfl⟩⟩, ⟨[_], ?_, .inr ⟨rfl, s.queues.length, rfl⟩⟩, h4⟩
    · rw [List.append_nil]; exact h1
    · show (s.draw.register s.next .rc []).tasks ++ [_] = _; rw [h2]; rfl

/-- What any step did. -/
theorem stepped {s s' : Sock} {a : SockAct} (h : s.step a = some (.ok s')) :
    (∃ m md d, a = .call m md d ∧ Called s s' m md d) ∨ (∃ f, a = .recv f ∧ Processed s s' f) ∨
    (∃ t y k, a = .task t y ∧ s.tasks[t]? = some (some k) ∧ Went s s' t k) ∨
    (∃ i, a = .drop i ∧ s'.next = s.next ∧ s'.out = s.out ∧ s'.tasks = s.tasks ∧ s'.runs = s.runs ∧ s'.handlers = s.handlers) := by
  cases a with
  | recv f => simp only [Sock.step, Option.some.injEq] at h; exact .inr (.inl ⟨f, rfl, processed h⟩)
  | call m md d =>
    simp only [Sock.step, Option.some.injEq] at h
    cases h
    exact .inl ⟨m, md, d, rfl, called s m md d⟩
  | drop i =>
    simp only [Sock.step, Option.some.injEq] at h
    cases h
    exact .inr (.inr (.inr ⟨i, rfl, rfl, rfl, rfl, rfl, rfl⟩))
  | task t y =>
    simp only [Sock.step] at h
    split at h
    · rename_i k hk
      cases hx : s.runTask t y k with
      | none => rw [hx] at h; cases h
      | some s1 =>
        rw [hx] at h
        cases h
        exact .inr (.inr (.inl ⟨t, y, k, rfl, hk, went hk hx⟩))
    · cases h

/-! ## What holds of both ends -/

/-- The ids an end draws. -/
def own (e : Bool) (sid : UInt32) : Prop := sid.toNat % 2 = if e then 0 else 1

theorem own_or (e : Bool) (sid : UInt32) : own e sid ∨ own (!e) sid := by
  cases e <;> simp [own] <;> omega

theorem not_both {e : Bool} {sid : UInt32} (h1 : own e sid) (h2 : own (!e) sid) : False := by
  cases e <;> simp [own] at h1 h2 <;> omega

/-- An id that was drawn. -/
def Known (e : Bool) (s o : Sock) (sid : UInt32) : Prop :=
  (own e sid → sid.toNat < s.next.toNat) ∧ (own (!e) sid → sid.toNat < o.next.toNat)

theorem Known.swap {e : Bool} {s o : Sock} {sid : UInt32} (h : Known e s o sid) : Known (!e) o s sid :=
  ⟨h.2, fun ho => h.1 (by simpa using ho)⟩

theorem Known.mono {e : Bool} {s o s' o' : Sock} {sid : UInt32} (h : Known e s o sid) (h1 : s.next.toNat ≤ s'.next.toNat)
    (h2 : o.next.toNat ≤ o'.next.toNat) : Known e s' o' sid :=
  ⟨fun ho => Nat.lt_of_lt_of_le (h.1 ho) h1, fun ho => Nat.lt_of_lt_of_le (h.2 ho) h2⟩

/-- A channel was opened under an id. -/
def Opened (o : Sock) (sid : UInt32) : Prop := ∃ g ∈ o.out, opens g = true ∧ g.streamID = sid

/-- End `e` with socket `s`, of which the other end has socket `o`; it has processed `r` frames. -/
structure End (e : Bool) (s o : Sock) (r : Nat) : Prop where
  par : own e s.next
  read : r ≤ o.out.length
  outIds : ∀ g ∈ s.out, Known e s o g.streamID
  taskIds : ∀ k, some k ∈ s.tasks → Known e s o (sidOf k)
  reqs : ∀ g ∈ s.out, isReq g = true → own e g.streamID
  feeds : ∀ k, some k ∈ s.tasks → isFeed k = true → own e (sidOf k)
  resp : ∀ k, some k ∈ s.tasks → isFeed k = false → own (!e) (sidOf k)
  demands : ∀ g ∈ s.out, isDemand g = true → Opened o g.streamID
  rcs : ∀ k, some k ∈ s.tasks → isRcStart k = true → Opened o (sidOf k)
  handlers : ∀ x ∈ s.handlers, own e x.1 ∨ Opened o x.1
  cancels : ∀ g ∈ s.out, isCancel g = true → own e g.streamID ∨ Opened o g.streamID
  runs : ∀ x ∈ s.runs, ∃ f ∈ o.out.take r, Fits f x
  starts : ∀ k, some k ∈ s.tasks → starting (sidOf k) (some k) = true → ∃ f ∈ o.out.take r, FitsTask f k
  ran : ∀ sid, s.runs.countP (runFor sid) + s.tasks.countP (starting sid) = (o.out.take r).countP (reqFor sid)
  once : ∀ sid, s.out.countP (reqFor sid) + s.tasks.countP (firsts sid) ≤ 1

theorem countP_set' {α : Type} (q : α → Bool) {l : List α} {t : Nat} {x y : α} (h : l[t]? = some x) :
    (l.set t y).countP q + (if q x then 1 else 0) = l.countP q + (if q y then 1 else 0) := by
  induction l generalizing t with
  | nil => simp at h
  | cons z l ih =>
    cases t with
    | zero =>
      simp only [List.getElem?_cons_zero, Option.some.injEq] at h
      subst h
      simp only [List.set_cons_zero, List.countP_cons]
      omega
    | succ t =>
      simp only [List.getElem?_cons_succ] at h
      have := ih h
      simp only [List.set_cons_succ, List.countP_cons]
      omega

theorem runFor_some (x : Invoked) : ∃ i, runFor i x = true := by
  cases x <;> simp [runFor]

theorem starting_sid {i : UInt32} {k : Rust.Task} (h : starting i (some k) = true) : i = sidOf k := by
  cases k <;> simp [starting] at h <;> exact h.symm

theorem firsts_sid {i : UInt32} {k : Rust.Task} (h : firsts i (some k) = true) : i = sidOf k ∧ isFeed k = true := by
  cases k <;> simp [firsts] at h
  exact ⟨h.2.symm, rfl⟩

theorem reqFor_iff {i : UInt32} {f : Frame} : reqFor i f = true ↔ isReq f = true ∧ f.streamID = i := by
  simp [reqFor]

/-- No frame or task belongs to an id that was not drawn. -/
theorem End.clean {e : Bool} {s o : Sock} {r : Nat} (h : End e s o r) (sid : UInt32) (hn : own e sid → ¬ sid.toNat < s.next.toNat) :
    s.out.countP (reqFor sid) = 0 ∧ s.tasks.countP (firsts sid) = 0 := by
  constructor
  · rw [List.countP_eq_zero]
    intro g hg hc
    obtain ⟨h1, h2⟩ := reqFor_iff.mp hc
    have ho := h.reqs g hg h1
    rw [h2] at ho
    have := (h.outIds g hg).1
    rw [h2] at this
    exact hn ho (this ho)
  · rw [List.countP_eq_zero]
    intro k hk hc
    cases k with
    | none => simp [firsts] at hc
    | some k =>
      obtain ⟨h1, h2⟩ := firsts_sid hc
      have ho := h.feeds k hk h2
      rw [← h1] at ho
      have := (h.taskIds k hk).1
      rw [← h1] at this
      exact hn ho (this ho)

/-- The other end goes on. -/
theorem End.grow {e : Bool} {s o o' : Sock} {r : Nat} (h : End e s o r) (l : List Frame) (h1 : o'.out = o.out ++ l)
    (h2 : o.next.toNat ≤ o'.next.toNat) : End e s o' r := by
  have ho : ∀ {sid}, Opened o sid → Opened o' sid := fun ⟨g, hg, hx⟩ => ⟨g, by rw [h1]; exact List.mem_append_left _ hg, hx⟩
  have ht : o'.out.take r = o.out.take r := by rw [h1, List.take_append_of_le_length h.read]
  exact { par := h.par
          read := by rw [h1, List.length_append]; have := h.read; omega
          outIds := fun g hg => (h.outIds g hg).mono (Nat.le_refl _) h2
          taskIds := fun k hk => (h.taskIds k hk).mono (Nat.le_refl _) h2
          reqs := h.reqs
          feeds := h.feeds
          resp := h.resp
          demands := fun g hg hd => ho (h.demands g hg hd)
          rcs := fun k hk hd => ho (h.rcs k hk hd)
          handlers := fun x hx => (h.handlers x hx).imp id ho
          cancels := fun g hg hd => (h.cancels g hg hd).imp id ho
          runs := by rw [ht]; exact h.runs
          starts := by rw [ht]; exact h.starts
          ran := by rw [ht]; exact h.ran
          once := h.once }

/-- An end makes a call. -/
theorem End.call {e : Bool} {s s' o : Sock} {r : Nat} {m : Method} {md d : Bytes} (h : End e s o r) (hc : Called s s' m md d)
    (hn : s.next.toNat + 2 < 2 ^ 32) : End e s' o r := by
  have hnx : s'.next.toNat = s.next.toNat + 2 := by rw [hc.next, draw_toNat hn]
  have hself : Known e s' o s.next := ⟨fun _ => by omega, fun hx => (not_both h.par hx).elim⟩
  have hmono : ∀ {sid}, Known e s o sid → Known e s' o sid := fun hk => hk.mono (by omega) (Nat.le_refl _)
  obtain ⟨c1, c2⟩ := h.clean s.next fun _ => Nat.lt_irrefl _
  obtain ⟨lo, ho, hlo⟩ := hc.out
  obtain ⟨lt, ht, hlt⟩ := hc.tasks
  have hout : ∀ g ∈ lo, g.streamID = s.next ∧ isDemand g = false ∧ isCancel g = false := by
    intro g hg
    rcases hlo with ⟨_, rfl⟩ | ⟨v, rfl, hv, _⟩
    · cases hg
    · cases List.mem_singleton.mp hg; exact ⟨hv, rfl, rfl⟩
  have htask : ∀ k, some k ∈ lt → sidOf k = s.next ∧ isFeed k = true ∧ isRcStart k = false ∧ starting (sidOf k) (some k) = false := by
    intro k hk
    rcases hlt with ⟨_, rfl⟩ | ⟨_, q, rfl⟩
    · cases hk
    · cases List.mem_singleton.mp hk; exact ⟨rfl, rfl, rfl, rfl⟩
  refine { par := ?_, read := h.read, outIds := ?_, taskIds := ?_, reqs := ?_, feeds := ?_, resp := ?_, demands := ?_, rcs := ?_,
           handlers := ?_, cancels := ?_, runs := by rw [hc.runs]; exact h.runs, starts := ?_, ran := ?_, once := ?_ }
  · rw [hc.next]; have := h.par; unfold own at this ⊢; rw [parity_add]; exact this
  · intro g hg; rw [ho] at hg
    rcases List.mem_append.mp hg with hg | hg
    · exact hmono (h.outIds g hg)
    · rw [(hout g hg).1]; exact hself
  · intro k hk; rw [ht] at hk
    rcases List.mem_append.mp hk with hk | hk
    · exact hmono (h.taskIds k hk)
    · rw [(htask k hk).1]; exact hself
  · intro g hg hq; rw [ho] at hg
    rcases List.mem_append.mp hg with hg | hg
    · exact h.reqs g hg hq
    · rw [(hout g hg).1]; exact h.par
  · intro k hk hq; rw [ht] at hk
    rcases List.mem_append.mp hk with hk | hk
    · exact h.feeds k hk hq
    · rw [(htask k hk).1]; exact h.par
  · intro k hk hq; rw [ht] at hk
    rcases List.mem_append.mp hk with hk | hk
    · exact h.resp k hk hq
    · rw [(htask k hk).2.1] at hq; cases hq
  · intro g hg hq; rw [ho] at hg
    rcases List.mem_append.mp hg with hg | hg
    · exact h.demands g hg hq
    · rw [(hout g hg).2.1] at hq; cases hq
  · intro k hk hq; rw [ht] at hk
    rcases List.mem_append.mp hk with hk | hk
    · exact h.rcs k hk hq
    · rw [(htask k hk).2.2.1] at hq; cases hq
  · intro x hx
    rcases hc.handlers x hx with hx | hx
    · exact h.handlers x hx
    · rw [hx]; exact .inl h.par
  · intro g hg hq; rw [ho] at hg
    rcases List.mem_append.mp hg with hg | hg
    · exact h.cancels g hg hq
    · rw [(hout g hg).2.2] at hq; cases hq
  · intro k hk hq; rw [ht] at hk
    rcases List.mem_append.mp hk with hk | hk
    · exact h.starts k hk hq
    · rw [(htask k hk).2.2.2] at hq; cases hq
  · intro sid
    have h0 : lt.countP (starting sid) = 0 := by
      rcases hlt with ⟨_, rfl⟩ | ⟨_, q, rfl⟩ <;> simp [starting]
    rw [hc.runs, ht, List.countP_append, h0]
    exact h.ran sid
  · intro sid
    have h1 := h.once sid
    rw [ho, ht, List.countP_append, List.countP_append]
    by_cases hs : s.next = sid
    · subst hs
      have : lo.countP (reqFor s.next) + lt.countP (firsts s.next) ≤ 1 := by
        rcases hlo with ⟨_, rfl⟩ | ⟨v, rfl, hv, _, hm⟩ <;> rcases hlt with ⟨hm', rfl⟩ | ⟨hm', q, rfl⟩
        · simp
        · simp [firsts]
        · simp only [List.countP_cons, List.countP_nil]; split <;> omega
        · exact absurd hm' hm
      omega
    · have : lo.countP (reqFor sid) = 0 ∧ lt.countP (firsts sid) = 0 := by
        constructor
        · rw [List.countP_eq_zero]
          intro g hg hq
          exact hs ((hout g hg).1.symm.trans (reqFor_iff.mp hq).2)
        · rw [List.countP_eq_zero]
          intro k hk hq
          cases k with
          | none => simp [firsts] at hq
          | some k => exact hs ((htask k hk).1.symm.trans (firsts_sid hq).1.symm)
      omega

/-- An end processes the next frame. -/
theorem End.take {e : Bool} {s s' o : Sock} {r : Nat} {f : Frame} (h : End e s o r) (hp : Processed s s' f)
    (hf : o.out[r]? = some f) (hk : Known e s o f.streamID) (hq : isReq f = true → own (!e) f.streamID) : End e s' o (r + 1) := by
  have hfm : f ∈ o.out := List.mem_of_getElem? hf
  have hlen := (List.getElem?_eq_some_iff.mp hf).1
  have hmono : ∀ {sid}, Known e s o sid → Known e s' o sid := fun hk => hk.mono (Nat.le_of_eq (by rw [hp.next])) (Nat.le_refl _)
  have htk : o.out.take (r + 1) = o.out.take r ++ [f] := by
    rw [List.take_add_one, hf]; rfl
  obtain ⟨lo, ho, hlo⟩ := hp.out
  obtain ⟨lt, lr, ht, hr, hlt, hlr, hcnt⟩ := hp.tasks
  have hreqd : ∀ g, isReq g = true → isRequesting g = true := by intro g; cases g <;> simp [isReq, isRequesting]
  have hdemd : ∀ g, isDemand g = true → isRequesting g = true := by intro g; cases g <;> simp [isDemand, isRequesting]
  have hop : opens f = true → Opened o f.streamID := fun hx => ⟨f, hfm, hx, rfl⟩
  refine { par := by rw [hp.next]; exact h.par, read := by omega, outIds := ?_, taskIds := ?_, reqs := ?_, feeds := ?_, resp := ?_,
           demands := ?_, rcs := ?_, handlers := ?_, cancels := ?_, runs := ?_, starts := ?_, ran := ?_, once := ?_ }
  · intro g hg; rw [ho] at hg
    rcases List.mem_append.mp hg with hg | hg
    · exact hmono (h.outIds g hg)
    · rw [(hlo g hg).1]; exact hmono hk
  · intro k hk'; rw [ht] at hk'
    rcases List.mem_append.mp hk' with hk' | hk'
    · exact hmono (h.taskIds k hk')
    · rw [(hlt k hk').1]; exact hmono hk
  · intro g hg hx; rw [ho] at hg
    rcases List.mem_append.mp hg with hg | hg
    · exact h.reqs g hg hx
    · have := hreqd g hx; rw [(hlo g hg).2.1] at this; cases this
  · intro k hk' hx; rw [ht] at hk'
    rcases List.mem_append.mp hk' with hk' | hk'
    · exact h.feeds k hk' hx
    · rw [(hlt k hk').2.1] at hx; cases hx
  · intro k hk' hx; rw [ht] at hk'
    rcases List.mem_append.mp hk' with hk' | hk'
    · exact h.resp k hk' hx
    · rw [(hlt k hk').1]; exact hq (hlt k hk').2.2.1
  · intro g hg hx; rw [ho] at hg
    rcases List.mem_append.mp hg with hg | hg
    · exact h.demands g hg hx
    · have := hdemd g hx; rw [(hlo g hg).2.1] at this; cases this
  · intro k hk' hx; rw [ht] at hk'
    rcases List.mem_append.mp hk' with hk' | hk'
    · exact h.rcs k hk' hx
    · rw [(hlt k hk').1]; exact hop ((hlt k hk').2.2.2.1 hx)
  · intro x hx
    rcases hp.handlers x hx with hx | ⟨hx, hx'⟩
    · exact h.handlers x hx
    · rw [hx]; exact .inr (hop hx')
  · intro g hg hx; rw [ho] at hg
    rcases List.mem_append.mp hg with hg | hg
    · exact h.cancels g hg hx
    · obtain ⟨i, hi⟩ := (hlo g hg).2.2 hx
      rw [(hlo g hg).1]
      exact h.handlers _ hi
  · intro x hx; rw [hr] at hx; rw [htk]
    rcases List.mem_append.mp hx with hx | hx
    · obtain ⟨g, hg, hfit⟩ := h.runs x hx
      exact ⟨g, List.mem_append_left _ hg, hfit⟩
    · exact ⟨f, by simp, hlr x hx⟩
  · intro k hk' hx; rw [ht] at hk'; rw [htk]
    rcases List.mem_append.mp hk' with hk' | hk'
    · obtain ⟨g, hg, hfit⟩ := h.starts k hk' hx
      exact ⟨g, List.mem_append_left _ hg, hfit⟩
    · exact ⟨f, by simp, (hlt k hk').2.2.2.2⟩
  · intro sid
    rw [htk, hr, ht, List.countP_append, List.countP_append, List.countP_append, ← h.ran sid]
    have := hcnt sid
    have hone : [f].countP (reqFor sid) = if isReq f = true ∧ f.streamID = sid then 1 else 0 := by
      simp only [List.countP_cons, List.countP_nil, reqFor_iff]
      omega
    omega
  · intro sid
    have h0 : lo.countP (reqFor sid) = 0 := by
      rw [List.countP_eq_zero]
      intro g hg hx
      have := hreqd g (reqFor_iff.mp hx).1; rw [(hlo g hg).2.1] at this; cases this
    have h1 : lt.countP (firsts sid) = 0 := by
      rw [List.countP_eq_zero]
      intro k hk' hx
      cases k with
      | none => simp [firsts] at hx
      | some k => have := (firsts_sid hx).2; rw [(hlt k hk').2.1] at this; cases this
    rw [ho, ht, List.countP_append, List.countP_append, h0, h1]
    exact h.once sid

/-- A task of an end goes on. -/
theorem End.task {e : Bool} {s s' o : Sock} {r t : Nat} {k : Rust.Task} (h : End e s o r) (hk : s.tasks[t]? = some (some k))
    (hw : Went s s' t k) : End e s' o r := by
  have hkm : some k ∈ s.tasks := List.mem_of_getElem? hk
  have hmono : ∀ {sid}, Known e s o sid → Known e s' o sid := fun hk => hk.mono (Nat.le_of_eq (by rw [hw.next])) (Nat.le_refl _)
  obtain ⟨l, st, lr, ho, ht, hr, hl, hst, hrun, hcnt⟩ := hw.did
  have hmem : ∀ k', some k' ∈ s'.tasks → some k' ∈ s.tasks ∨ st = some k' := by
    intro k' hk'
    rw [ht] at hk'
    rcases List.mem_or_eq_of_mem_set hk' with hk' | hk'
    · exact .inl hk'
    · exact .inr hk'.symm
  refine { par := by rw [hw.next]; exact h.par, read := h.read, outIds := ?_, taskIds := ?_, reqs := ?_, feeds := ?_, resp := ?_,
           demands := ?_, rcs := ?_, handlers := by rw [hw.handlers]; exact h.handlers, cancels := ?_, runs := ?_, starts := ?_, ran := ?_, once := ?_ }
  · intro g hg; rw [ho] at hg
    rcases List.mem_append.mp hg with hg | hg
    · exact hmono (h.outIds g hg)
    · rw [(hl g hg).1]; exact hmono (h.taskIds k hkm)
  · intro k' hk'
    rcases hmem k' hk' with hk' | hk'
    · exact hmono (h.taskIds k' hk')
    · rw [(hst k' hk').1]; exact hmono (h.taskIds k hkm)
  · intro g hg hx; rw [ho] at hg
    rcases List.mem_append.mp hg with hg | hg
    · exact h.reqs g hg hx
    · rw [(hl g hg).1]; exact h.feeds k hkm ((hl g hg).2.2.1 hx)
  · intro k' hk' hx
    rcases hmem k' hk' with hk' | hk'
    · exact h.feeds k' hk' hx
    · rw [(hst k' hk').2.1] at hx; rw [(hst k' hk').1]; exact h.feeds k hkm hx
  · intro k' hk' hx
    rcases hmem k' hk' with hk' | hk'
    · exact h.resp k' hk' hx
    · rw [(hst k' hk').2.1] at hx; rw [(hst k' hk').1]; exact h.resp k hkm hx
  · intro g hg hx; rw [ho] at hg
    rcases List.mem_append.mp hg with hg | hg
    · exact h.demands g hg hx
    · rw [(hl g hg).1]; exact h.rcs k hkm ((hl g hg).2.2.2 hx)
  · intro k' hk' hx
    rcases hmem k' hk' with hk' | hk'
    · exact h.rcs k' hk' hx
    · rw [(hst k' hk').2.2.1] at hx; cases hx
  · intro g hg hx; rw [ho] at hg
    rcases List.mem_append.mp hg with hg | hg
    · exact h.cancels g hg hx
    · rw [(hl g hg).2.1] at hx; cases hx
  · intro x hx; rw [hr] at hx
    rcases List.mem_append.mp hx with hx | hx
    · exact h.runs x hx
    · obtain ⟨i, hi⟩ := runFor_some x
      have hpos : 0 < lr.countP (runFor i) := List.countP_pos_iff.mpr ⟨x, hx, hi⟩
      have hstart : starting i (some k) = true := by
        cases hc : starting i (some k)
        · have := (hcnt i).2.1; rw [hc] at this; simp at this; exact absurd this (by
            intro hh; have := hh x hx; rw [hi] at this; cases this)
        · rfl
      have hi' := starting_sid hstart
      obtain ⟨f, hf, hfit⟩ := h.starts k hkm (by rw [← hi']; exact hstart)
      exact ⟨f, hf, hrun x hx f hfit⟩
  · intro k' hk' hx
    rcases hmem k' hk' with hk' | hk'
    · exact h.starts k' hk' hx
    · have := (hcnt (sidOf k')).2.2; rw [hk', hx] at this; cases this
  · intro sid
    obtain ⟨_, h2, h3⟩ := hcnt sid
    have hc := countP_set' (starting sid) (y := st) hk
    rw [h3] at hc
    rw [hr, ht, List.countP_append, h2, ← h.ran sid]
    simp at hc
    omega
  · intro sid
    obtain ⟨h1, _, _⟩ := hcnt sid
    have hc := countP_set' (firsts sid) (y := st) hk
    rw [ho, ht, List.countP_append]
    have := h.once sid
    omega

/-! ## Runs -/

/-- The frames that arrived. -/
def recvs : List SockAct → List Frame
  | [] => []
  | .recv f :: as => f :: recvs as
  | _ :: as => recvs as

theorem recvs_append (as bs : List SockAct) : recvs (as ++ bs) = recvs as ++ recvs bs := by
  induction as with
  | nil => rfl
  | cons a as ih => cases a <;> simp [recvs, ih]

theorem mem_recvs {f : Frame} {as : List SockAct} : f ∈ recvs as ↔ SockAct.recv f ∈ as := by
  induction as with
  | nil => simp [recvs]
  | cons a as ih => cases a <;> simp [recvs, ih]

theorem arrived_eq (sid : UInt32) (as : List SockAct) : arrived sid as = (recvs as).filter fun f => decide (f.streamID = sid) := by
  induction as with
  | nil => rfl
  | cons a as ih =>
    cases a <;> simp only [arrived, recvs, ih]
    simp only [List.filter_cons]
    split <;> simp_all

theorem drawn_append (as bs : List SockAct) : drawn (as ++ bs) = drawn as + drawn bs := by
  induction as with
  | nil => simp [drawn]
  | cons a as ih =>
    rw [List.cons_append, drawn_cons, ih, drawn_cons a as]
    omega

theorem run_append {s s1 : Sock} {as : List SockAct} (bs : List SockAct) (h : s.run as = some (.ok s1)) : s.run (as ++ bs) = s1.run bs := by
  induction as generalizing s with
  | nil => simp only [Sock.run] at h; cases h; rfl
  | cons a as ih =>
    obtain ⟨s2, h1, h2⟩ := run_cons h
    simp only [List.cons_append, Sock.run, h1]
    exact ih h2

theorem run_split {s s' : Sock} (as bs : List SockAct) (h : s.run (as ++ bs) = some (.ok s')) :
    ∃ s1, s.run as = some (.ok s1) ∧ s1.run bs = some (.ok s') := by
  induction as generalizing s with
  | nil => exact ⟨s, rfl, h⟩
  | cons a as ih =>
    obtain ⟨s2, h1, h2⟩ := run_cons h
    obtain ⟨s1, h3, h4⟩ := ih h2
    exact ⟨s1, by simp only [Sock.run, h1]; exact h3, h4⟩

/-- What was sent stays sent. -/
theorem step_out {s s' : Sock} {a : SockAct} (h : s.step a = some (.ok s')) : ∃ l, s'.out = s.out ++ l := by
  rcases stepped h with ⟨m, md, d, _, hc⟩ | ⟨f, _, hp⟩ | ⟨t, y, k, _, _, hw⟩ | ⟨i, _, _, ho, _⟩
  · obtain ⟨l, ho, _⟩ := hc.out; exact ⟨l, ho⟩
  · obtain ⟨l, ho, _⟩ := hp.out; exact ⟨l, ho⟩
  · obtain ⟨l, _, _, ho, _⟩ := hw.did; exact ⟨l, ho⟩
  · exact ⟨[], by simp [ho]⟩

/-- A step of a pair, at the end where it happens and at the other one. -/
theorem pair_step {p p' : Pair} {a : PairAct} {e : Bool} {b : SockAct} (hs : p.seen a = some (e, b)) (h : p.step a = some p') :
    (p.sock e).step b = some (.ok (p'.sock e)) ∧ p'.sock (!e) = p.sock (!e) ∧ p'.read (!e) = p.read (!e) ∧
    ((∃ f, b = .recv f ∧ (p.sock (!e)).out[p.read e]? = some f ∧ p'.read e = p.read e + 1) ∨
      (isRecv b = false ∧ p'.read e = p.read e)) := by
  simp only [Pair.step, hs] at h
  cases hx : (p.sock e).step b with
  | none => rw [hx] at h; simp at h
  | some x =>
    rw [hx] at h
    cases x with
    | panic => simp at h
    | err m => simp at h
    | ok s =>
      simp only [Option.some.injEq] at h
      subst h
      have hne : ((!e) = e) = False := by cases e <;> simp
      refine ⟨by simp [Pair.set], by simp [Pair.set, hne], by simp [hne], ?_⟩
      cases a with
      | own e' b' =>
        simp only [Pair.seen] at hs
        split at hs
        · cases hs
        · rename_i hb
          cases hs
          exact .inr ⟨by simpa using hb, by simp [hb]⟩
      | take e' =>
        simp only [Pair.seen, Option.map_eq_some_iff] at hs
        obtain ⟨f, hf, he⟩ := hs
        cases he
        exact .inl ⟨f, rfl, hf, by simp [isRecv]⟩

theorem recvs_own {b : SockAct} (h : isRecv b = false) : recvs [b] = [] := by
  cases b <;> simp_all [isRecv, recvs]

theorem not_eq_bool {x e : Bool} (h : x ≠ e) : x = !e := by cases x <;> cases e <;> simp_all

/-- Each end ran its history, and received what the other end sent. -/
theorem Runs.each {p : Pair} {H : Bool → List SockAct} (h : Runs p H) (e : Bool) :
    (Sock.init e).run (H e) = some (.ok (p.sock e)) ∧ recvs (H e) = (p.sock (!e)).out.take (p.read e) ∧
    p.read e ≤ (p.sock (!e)).out.length := by
  induction h generalizing e with
  | init => exact ⟨rfl, by simp [recvs, Pair.init], Nat.zero_le _⟩
  | @step p p' H e' b a _ hs hst ih =>
    obtain ⟨h1, h2, h3, h4⟩ := pair_step hs hst
    obtain ⟨l, hl⟩ := step_out h1
    by_cases he : e = e'
    · subst he
      obtain ⟨i1, i2, i3⟩ := ih e
      simp only [if_pos]
      refine ⟨?_, ?_, ?_⟩
      · rw [run_append _ i1]; simp only [Sock.run, h1]
      · rw [recvs_append, i2, h2]
        rcases h4 with ⟨f, rfl, hf, hr⟩ | ⟨hb, hr⟩
        · rw [hr, List.take_add_one, hf]; rfl
        · rw [hr, recvs_own hb, List.append_nil]
      · rw [h2]
        rcases h4 with ⟨f, rfl, hf, hr⟩ | ⟨hb, hr⟩
        · rw [hr]; exact (List.getElem?_eq_some_iff.mp hf).1
        · rw [hr]; exact i3
    · have he' := not_eq_bool he
      subst he'
      obtain ⟨i1, i2, i3⟩ := ih (!e')
      simp only [Bool.not_not] at i2 i3 ⊢
      simp only [if_neg he]
      refine ⟨by rw [h2]; exact i1, ?_, ?_⟩
      · rw [h3, hl, List.take_append_of_le_length i3]; exact i2
      · rw [h3, hl, List.length_append]; omega

theorem Few.prefix {H H' : Bool → List SockAct} (h : Few H) (hp : ∀ e, ∃ r, H e = H' e ++ r) : Few H' := by
  intro e
  obtain ⟨r, hr⟩ := hp e
  have := h e
  rw [hr, drawn_append] at this
  omega

/-- The next id of an end. -/
theorem next_toNat {p : Pair} {H : Bool → List SockAct} (h : Runs p H) (hf : Few H) (e : Bool) :
    (p.sock e).next.toNat = firstId e + 2 * drawn (H e) := by
  rw [next_id e (H e) _ (Runs.each h e).1]
  have := hf e
  cases e <;> simp [firstId] <;> omega

theorem inv {p : Pair} {H : Bool → List SockAct} (h : Runs p H) (hf : Few H) (e : Bool) :
    End e (p.sock e) (p.sock (!e)) (p.read e) := by
  induction h generalizing e with
  | init =>
    refine { par := ?_, read := ?_, outIds := ?_, taskIds := ?_, reqs := ?_, feeds := ?_, resp := ?_, demands := ?_, rcs := ?_, handlers := ?_,
             cancels := ?_, runs := ?_, starts := ?_, ran := ?_, once := ?_ } <;> simp [Pair.init, Sock.init]
    cases e <;> simp [own]
  | @step p p' H e' b a hr hs hst ih =>
    obtain ⟨h1, h2, h3, h4⟩ := pair_step hs hst
    obtain ⟨l, hl⟩ := step_out h1
    have hf0 : Few H := Few.prefix hf fun x => by
      by_cases hx : x = e'
      · exact ⟨[b], by simp [hx]⟩
      · exact ⟨[], by simp [hx]⟩
    have hn1 := next_toNat hr hf0
    have hn2 := next_toNat (Runs.step a hr hs hst) hf
    have hle : (p.sock e').next.toNat ≤ (p'.sock e').next.toNat := by
      rw [hn1, hn2]; simp only [if_pos]; rw [drawn_append]; omega
    by_cases he : e = e'
    · subst he
      have i1 := ih hf0 e
      have i2 := ih hf0 (!e)
      simp only [Bool.not_not] at i2
      rw [h2]
      rcases stepped h1 with ⟨m, md, d, hb, hc⟩ | ⟨f, hb, hp⟩ | ⟨t, y, k, hb, hk, hw⟩ | ⟨i, hb, d1, d2, d3, d4, d5⟩
      · subst hb
        rcases h4 with ⟨f, hb, _⟩ | ⟨_, hrd⟩
        · cases hb
        · rw [hrd]
          refine i1.call hc ?_
          have := hf0 e
          rw [hn1]
          cases e <;> simp [firstId] <;> omega
      · subst hb
        rcases h4 with ⟨f', hb, hf', hrd⟩ | ⟨hb, _⟩
        · cases hb
          rw [hrd]
          have hm := List.mem_of_getElem? hf'
          refine i1.take hp hf' ?_ fun hq => i2.reqs f hm hq
          have := (i2.outIds f hm).swap
          simpa using this
        · cases hb
      · subst hb
        rcases h4 with ⟨f, hb, _⟩ | ⟨_, hrd⟩
        · cases hb
        · rw [hrd]; exact i1.task hk hw
      · subst hb
        rcases h4 with ⟨f, hb, _⟩ | ⟨_, hrd⟩
        · cases hb
        · rw [hrd]
          have hkn : ∀ {sid}, Known e (p.sock e) (p.sock !e) sid → Known e (p'.sock e) (p.sock !e) sid :=
            fun hk => hk.mono hle (Nat.le_refl _)
          exact { par := by rw [d1]; exact i1.par
                  read := i1.read
                  outIds := fun g hg => hkn (i1.outIds g (by rw [← d2]; exact hg))
                  taskIds := fun k hk => hkn (i1.taskIds k (by rw [← d3]; exact hk))
                  reqs := by rw [d2]; exact i1.reqs
                  feeds := by rw [d3]; exact i1.feeds
                  resp := by rw [d3]; exact i1.resp
                  demands := by rw [d2]; exact i1.demands
                  rcs := by rw [d3]; exact i1.rcs
                  handlers := by rw [d5]; exact i1.handlers
                  cancels := by rw [d2]; exact i1.cancels
                  runs := by rw [d4]; exact i1.runs
                  starts := by rw [d3]; exact i1.starts
                  ran := by rw [d3, d4]; exact i1.ran
                  once := by rw [d2, d3]; exact i1.once }
    · have he' := not_eq_bool he
      subst he'
      have i1 := ih hf0 (!e')
      simp only [Bool.not_not] at i1 ⊢
      rw [h2, h3]
      exact i1.grow l hl hle

/-- Every prefix of what happened at an end is what had happened there at some earlier time. -/
theorem Runs.before {p : Pair} {H : Bool → List SockAct} (h : Runs p H) (e : Bool) (as bs : List SockAct) (hH : H e = as ++ bs) :
    ∃ p1 H1, Runs p1 H1 ∧ H1 e = as ∧ ∀ x, ∃ r, H x = H1 x ++ r := by
  induction h generalizing bs with
  | init =>
    have : as = [] := (List.append_eq_nil_iff.mp hH.symm).1
    exact ⟨_, _, .init, this.symm, fun x => ⟨[], rfl⟩⟩
  | @step p p' H e' b a hr hs hst ih =>
    have key : ∀ bs, H e = as ++ bs →
        ∃ p1 H1, Runs p1 H1 ∧ H1 e = as ∧ ∀ x, ∃ r, (if x = e' then H x ++ [b] else H x) = H1 x ++ r := by
      intro bs hb
      obtain ⟨p1, H1, g1, g2, g3⟩ := ih bs hb
      refine ⟨p1, H1, g1, g2, fun x => ?_⟩
      obtain ⟨r, hr⟩ := g3 x
      by_cases hx : x = e'
      · exact ⟨r ++ [b], by simp only [if_pos hx, hr, List.append_assoc]⟩
      · exact ⟨r, by simp only [if_neg hx, hr]⟩
    by_cases he : e = e'
    · simp only [if_pos he] at hH
      rcases List.eq_nil_or_concat bs with rfl | ⟨bs', b', rfl⟩
      · rw [List.append_nil] at hH
        exact ⟨p', _, .step a hr hs hst, by simp only [if_pos he]; exact hH, fun x => ⟨[], by simp⟩⟩
      · rw [List.concat_eq_append, ← List.append_assoc] at hH
        have := (List.append_inj' hH rfl).1
        exact key bs' this
    · simp only [if_neg he] at hH
      exact key bs hH

/-! ## A call -/

theorem run_out (as : List SockAct) : ∀ {s s' : Sock}, s.run as = some (.ok s') → ∃ l, s'.out = s.out ++ l := by
  induction as with
  | nil => intro s s' h; simp only [Sock.run] at h; cases h; exact ⟨[], by simp⟩
  | cons a as ih =>
    intro s s' h
    obtain ⟨s1, h1, h2⟩ := run_cons h
    obtain ⟨l1, e1⟩ := step_out h1
    obtain ⟨l2, e2⟩ := ih h2
    exact ⟨l1 ++ l2, by rw [e2, e1, List.append_assoc]⟩

theorem unique {α : Type} {q : α → Bool} {l : List α} (h : l.countP q ≤ 1) {x y : α} (hx : x ∈ l) (hy : y ∈ l) (qx : q x = true)
    (qy : q y = true) : x = y := by
  rw [List.countP_eq_length_filter] at h
  have h1 := List.mem_filter.mpr ⟨hx, qx⟩
  have h2 := List.mem_filter.mpr ⟨hy, qy⟩
  match hf : l.filter q with
  | [] => rw [hf] at h1; cases h1
  | [z] => rw [hf] at h1 h2; rw [List.mem_singleton.mp h1, List.mem_singleton.mp h2]
  | _ :: _ :: _ => rw [hf] at h; simp at h

/-- A call that was made: where, when, and what it was. -/
structure Made (p : Pair) (H : Bool → List SockAct) (e : Bool) (as bs : List SockAct) (m : Method) (md d : Bytes) (s1 : Sock) : Prop where
  runs : Runs p H
  few : Few H
  split : H e = as ++ .call m md d :: bs
  before : (Sock.init e).run as = some (.ok s1)

section
variable {p : Pair} {H : Bool → List SockAct} {e : Bool} {as bs : List SockAct} {m : Method} {md d : Bytes} {s1 : Sock}

theorem Made.after (c : Made p H e as bs m md d s1) : s1.run (.call m md d :: bs) = some (.ok (p.sock e)) := by
  have h := (Runs.each c.runs e).1
  rw [c.split, run_append _ c.before] at h
  exact h

/-- When the call was made. -/
theorem Made.then_ (c : Made p H e as bs m md d s1) : ∃ p1 H1, Runs p1 H1 ∧ Few H1 ∧ H1 e = as ∧ p1.sock e = s1 := by
  obtain ⟨p1, H1, g1, g2, g3⟩ := Runs.before c.runs e as _ c.split
  refine ⟨p1, H1, g1, Few.prefix c.few g3, g2, ?_⟩
  have := (Runs.each g1 e).1
  rw [g2, c.before] at this
  cases this
  rfl

theorem Made.own (c : Made p H e as bs m md d s1) : own e s1.next := by
  obtain ⟨p1, H1, g1, g2, _, rfl⟩ := c.then_
  exact (inv g1 g2 e).par

theorem Made.counts (c : Made p H e as bs m md d s1) : drawn as + drawn bs + 2 < 2 ^ 31 := by
  have := c.few e
  rw [c.split, drawn_append, drawn_cons] at this
  omega

/-- No frame for the call arrived before it was made. -/
theorem Made.early (c : Made p H e as bs m md d s1) : arrived s1.next as = [] := by
  obtain ⟨p1, H1, g1, g2, g3, rfl⟩ := c.then_
  rw [arrived_eq, ← g3, (Runs.each g1 e).2.1, List.filter_eq_nil_iff]
  intro f hf he
  have he : f.streamID = (p1.sock e).next := by simpa using he
  have hk := (inv g1 g2 (!e)).outIds f (List.mem_of_mem_take hf)
  have ho : RustPair.own e f.streamID := by rw [he]; exact (inv g1 g2 e).par
  have := hk.2 (by simpa using ho)
  rw [he] at this
  simp at this

theorem Made.arrived (c : Made p H e as bs m md d s1) :
    arrived s1.next bs = ((p.sock (!e)).out.take (p.read e)).filter fun f => decide (f.streamID = s1.next) := by
  rw [← (Runs.each c.runs e).2.1, c.split, recvs_append, List.filter_append, ← arrived_eq, c.early, List.nil_append, ← arrived_eq]
  rfl

theorem Made.quiet (c : Made p H e as bs m md d s1) : ∀ x ∈ bs, opensChannel s1.next x = false := by
  intro x hx
  cases hc : opensChannel s1.next x with
  | false => rfl
  | true =>
    cases x with
    | recv f =>
      cases f with
      | request v =>
        simp only [opensChannel, Bool.and_eq_true, decide_eq_true_eq] at hc
        have hm : Frame.request v ∈ recvs bs := mem_recvs.mpr hx
        have hr := (Runs.each c.runs e).2.1
        rw [c.split, recvs_append] at hr
        have hm' : Frame.request v ∈ (p.sock (!e)).out :=
          List.mem_of_mem_take (hr ▸ List.mem_append_right _ (show Frame.request v ∈ recvs (.call m md d :: bs) from hm))
        have := (inv c.runs c.few (!e)).reqs _ hm' rfl
        rw [show (Frame.request v).streamID = s1.next from hc.1.1.1] at this
        exact (not_both c.own this).elim
      | _ => simp [opensChannel] at hc
    | _ => simp [opensChannel] at hc

/-- What the caller is told is what the frames for its call mean. -/
theorem Made.told (c : Made p H e as bs m md d s1) (hm : m ≠ .fnf) (k : Sink) (hk : (p.sock e).sinks[s1.sinks.length]? = some k)
    (hl : k.live = true) :
    (k.got, k.closed) = outcome (m = .rr) (((p.sock (!e)).out.take (p.read e)).filter fun f => decide (f.streamID = s1.next)) := by
  rw [← c.arrived]
  exact caller_outcome_partial e as bs m hm md d s1 (p.sock e) c.before c.after c.counts c.quiet k hk hl

/-- The type of request of a call. -/
def typeOf : Method → FrameType
  | .fnf => tRequestFNF
  | .rr => tRequestResponse
  | .rs => tRequestStream
  | .rc => tRequestChannel

/-- The request of the call. -/
theorem Made.request (c : Made p H e as bs m md d s1) (hm : m ≠ .rc) :
    ∃ v, Frame.request v ∈ (p.sock e).out ∧ v.streamID = s1.next ∧ v.metadata = md ∧ v.data = d ∧ v.frameType = typeOf m := by
  obtain ⟨s2, h1, h2⟩ := run_cons c.after
  simp only [Sock.step, Option.some.injEq, Res.ok.injEq] at h1
  subst h1
  obtain ⟨l, ho, hl⟩ := (called s1 m md d).out
  obtain ⟨l2, ho2⟩ := run_out bs h2
  rcases hl with ⟨hx, _⟩ | ⟨v, rfl, hv, hv2, _⟩
  · exact absurd hx hm
  · obtain ⟨e1, e2, e3⟩ := hv2 hm
    refine ⟨v, by rw [ho2, ho]; simp, hv, e1, e2, ?_⟩
    rw [e3]
    cases m <;> first | rfl | exact absurd rfl hm

/-- It is the only one under its id. -/
theorem Made.only (c : Made p H e as bs m md d s1) {v : RequestPayload} (hv : Frame.request v ∈ (p.sock e).out) (hs : v.streamID = s1.next)
    {f : Frame} (hf : f ∈ (p.sock e).out) (hr : isReq f = true) (hi : f.streamID = s1.next) : f = .request v := by
  have h := (inv c.runs c.few e).once s1.next
  exact unique (q := reqFor s1.next) (by omega) hf hv (reqFor_iff.mpr ⟨hr, hi⟩) (reqFor_iff.mpr ⟨rfl, hs⟩)

theorem opens_req {g : Frame} (h : opens g = true) : isReq g = true := by cases g <;> simp_all [opens, isReq]

theorem Made.closed (c : Made p H e as bs m md d s1) (hm : m ≠ .rc) : ¬ Opened (p.sock e) s1.next := by
  rintro ⟨g, hg, ho, hs⟩
  obtain ⟨v, hv, h1, _, _, h4⟩ := c.request hm
  have := c.only hv h1 hg (opens_req ho) hs
  subst this
  simp only [opens, h4] at ho
  cases m <;> first | (exact absurd rfl hm) | (revert ho; decide)

/-- Under an id that is not that of a channel, the other end sends only results. -/
theorem Made.results (c : Made p H e as bs m md d s1) (hn : ¬ Opened (p.sock e) s1.next) :
    ((p.sock (!e)).out.filter fun f => decide (f.streamID = s1.next)) = (p.sock (!e)).out.filter (isResult s1.next) := by
  refine List.filter_congr fun g hg => ?_
  have i := inv c.runs c.few (!e)
  simp only [Bool.not_not] at i
  cases g with
  | payload v => rfl
  | error v => rfl
  | request v =>
    by_cases hs : (Frame.request v).streamID = s1.next
    · have := i.reqs _ hg rfl
      rw [hs] at this
      exact (not_both c.own this).elim
    · simp [isResult, hs]
  | requestN v =>
    by_cases hs : (Frame.requestN v).streamID = s1.next
    · have := i.demands _ hg rfl
      rw [hs] at this
      exact absurd this hn
    · simp [isResult, hs]
  | cancel v =>
    by_cases hs : (Frame.cancel v).streamID = s1.next
    · have := i.cancels _ hg rfl
      rw [hs] at this
      rcases this with h | h
      · exact (not_both c.own h).elim
      · exact absurd h hn
    · simp [isResult, hs]

/-- No demand is sent under the id of a call by its caller. -/
theorem Made.patient (c : Made p H e as bs m md d s1) {f : Frame} (hf : f ∈ (p.sock e).out) (hs : f.streamID = s1.next) :
    isDemand f = false := by
  cases hd : isDemand f with
  | false => rfl
  | true =>
    obtain ⟨g, hg, ho, hi⟩ := (inv c.runs c.few e).demands f hf hd
    have := (inv c.runs c.few (!e)).reqs g hg (opens_req ho)
    rw [hi, hs] at this
    exact (not_both c.own this).elim

theorem filter_take {α : Type} (q : α → Bool) (n : Nat) (l : List α) : ∃ n', (l.take n).filter q = (l.filter q).take n' := by
  refine ⟨((l.take n).filter q).length, ?_⟩
  rw [← List.take_append_drop n l, List.filter_append]
  simp

/-- Before the request is processed there is no answer. -/
theorem Made.nothing (c : Made p H e as bs m md d s1) (hn : ∀ v, SockAct.recv (.request v) ∈ H (!e) → v.streamID ≠ s1.next) :
    (p.sock (!e)).out.filter (isResult s1.next) = [] := by
  have hr := Runs.each c.runs (!e)
  simp only [Bool.not_not] at hr
  have hfresh : Fresh (Sock.init (!e)) s1.next := by
    refine ⟨fun t k hk => by simp [Sock.init] at hk, rfl, ?_⟩
    have := c.own
    cases e <;> simp [RustPair.own] at this <;> simp [Sock.init, this]
  refine (Fresh.run (H (!e)) hfresh ?_ hr.1).out
  intro f hf
  rw [arrived_eq, hr.2.1] at hf
  obtain ⟨hf, hs⟩ := List.mem_filter.mp hf
  have hs : f.streamID = s1.next := by simpa using hs
  have hp := c.patient (List.mem_of_mem_take hf) hs
  cases f with
  | request v =>
    refine absurd hs (hn v ?_)
    rw [← hr.2.1] at hf
    exact mem_recvs.mp hf
  | requestN v => simp [isDemand] at hp
  | _ => rfl

/-- The answer to the request. -/
theorem Made.answers (c : Made p H e as bs m md d s1) {as' bs' : List SockAct} {v : RequestPayload} {s2 : Sock}
    (hH : H (!e) = as' ++ .recv (.request v) :: bs') (hv : v.streamID = s1.next) (h2 : (Sock.init (!e)).run as' = some (.ok s2)) :
    (p.sock (!e)).out.filter (isResult s1.next) = answer v.frameType s1.next (yields s2.tasks.length bs') := by
  have hr := Runs.each c.runs (!e)
  simp only [Bool.not_not] at hr
  have hlist : recvs as' ++ Frame.request v :: recvs bs' = (p.sock e).out.take (p.read (!e)) := by
    rw [← hr.2.1, hH, recvs_append]; rfl
  have hcount : (recvs as' ++ Frame.request v :: recvs bs').countP (reqFor s1.next) ≤ 1 := by
    rw [hlist]
    have := (inv c.runs c.few e).once s1.next
    have hle : ((p.sock e).out.take (p.read (!e))).countP (reqFor s1.next) ≤ (p.sock e).out.countP (reqFor s1.next) :=
      (List.take_sublist _ _).countP_le
    omega
  rw [List.countP_append, List.countP_cons, if_pos (reqFor_iff.mpr ⟨rfl, show (Frame.request v).streamID = s1.next from hv⟩)] at hcount
  have hother : ∀ l : List Frame, l.countP (reqFor s1.next) = 0 → (∀ f ∈ l, f ∈ (p.sock e).out) → ∀ f ∈ l, f.streamID = s1.next → isRequesting f = false := by
    intro l h0 hl f hf hs
    have hd := c.patient (hl f hf) hs
    rw [List.countP_eq_zero] at h0
    cases f with
    | request v' => exact absurd (reqFor_iff.mpr ⟨rfl, hs⟩) (h0 _ hf)
    | requestN v' => simp [isDemand] at hd
    | _ => rfl
  have hin : ∀ f, f ∈ recvs as' ∨ f ∈ recvs bs' → f ∈ (p.sock e).out := by
    intro f hf
    refine List.mem_of_mem_take (i := p.read (!e)) ?_
    rw [← hlist]
    rcases hf with hf | hf
    · exact List.mem_append_left _ hf
    · exact List.mem_append_right _ (List.mem_cons_of_mem _ hf)
  have hrun : s2.run (.recv (.request v) :: bs') = some (.ok (p.sock (!e))) := by
    have h := hr.1
    rw [hH, run_append _ h2] at h
    exact h
  have := answers_partial (!e) as' bs' v s2 (p.sock (!e)) h2 hrun
    (by rw [hv]; have := c.own; cases e <;> simp [RustPair.own] at this <;> simp [this])
    (fun f hf => by
      rw [arrived_eq] at hf
      obtain ⟨hf, hs⟩ := List.mem_filter.mp hf
      exact hother (recvs as') (by omega) (fun f hf => hin f (.inl hf)) f hf (by rw [← hv]; simpa using hs))
    (fun f hf => by
      rw [arrived_eq] at hf
      obtain ⟨hf, hs⟩ := List.mem_filter.mp hf
      exact hother (recvs bs') (by omega) (fun f hf => hin f (.inr hf)) f hf (by rw [← hv]; simpa using hs))
  rw [hv] at this
  exact this

end

/-! ## What answers mean -/

theorem outcome_many (sid : UInt32) (ys : List Yield) : outcome false (answerMany sid ys) = toldMany ys := by
  induction ys with
  | nil => rfl
  | cons y ys ih => cases y <;> simp [answerMany, toldMany, outcome, meaning, ih]

theorem outcome_many_take (sid : UInt32) (ys : List Yield) : ∀ n, ∃ n', outcome false ((answerMany sid ys).take n) = toldMany (ys.take n') := by
  induction ys with
  | nil => intro n; exact ⟨0, by simp [answerMany, outcome, toldMany]⟩
  | cons y ys ih =>
    intro n
    cases n with
    | zero => exact ⟨0, by simp [outcome, toldMany]⟩
    | succ n =>
      obtain ⟨n', hn⟩ := ih n
      refine ⟨n' + 1, ?_⟩
      cases y <;> simp [answerMany, toldMany, outcome, meaning, hn]

theorem outcome_one (sid : UInt32) (ys : List Yield) : outcome true (answerOne sid ys) = toldOne ys := by
  cases ys with
  | nil => rfl
  | cons y ys => cases y <;> simp [answerOne, toldOne, outcome, meaning]

theorem answer_of (m : Method) (hm : m = .rr ∨ m = .rs) (sid : UInt32) (ys : List Yield) :
    outcome (m = .rr) (answer (typeOf m) sid ys) = told m ys := by
  rcases hm with rfl | rfl
  · simp only [answer, typeOf, told, if_true, decide_true]
    exact outcome_one sid ys
  · simp only [answer, typeOf, told]
    exact outcome_many sid ys.tail

theorem answer_take (m : Method) (hm : m = .rr ∨ m = .rs) (sid : UInt32) (ys : List Yield) (n : Nat) :
    ∃ n', outcome (m = .rr) ((answer (typeOf m) sid ys).take n) = told m (ys.take n') := by
  rcases hm with rfl | rfl
  · have h1 : answer (typeOf .rr) sid ys = answerOne sid ys := rfl
    cases n with
    | zero => exact ⟨0, by simp [outcome, told, toldOne]⟩
    | succ n =>
      refine ⟨ys.length, ?_⟩
      rw [List.take_length, ← answer_of .rr (.inl rfl) sid ys, h1]
      congr 1
      cases ys with
      | nil => rfl
      | cons y ys => cases y <;> simp [answerOne]
  · have h1 : answer (typeOf .rs) sid ys = answerMany sid ys.tail := rfl
    obtain ⟨n', hn⟩ := outcome_many_take sid ys.tail n
    refine ⟨n' + 1, ?_⟩
    rw [h1]
    refine hn.trans ?_
    simp only [told]
    cases ys <;> simp

/-! ## Tasks end -/

/-- The task is over once it was given these. -/
def ends : Option Rust.Task → List Yield → Prop
  | none, _ => True
  | some _, [] => False
  | some k, y :: ys =>
    match goesOn k y with
    | none => False
    | some (_, st) => ends st ys

theorem other_task {s s' : Sock} {a : SockAct} {t : Nat} {st : Option Rust.Task} (h : s.step a = some (.ok s')) (hn : ∀ y, a ≠ .task t y)
    (hs : s.tasks[t]? = some st) : s'.tasks[t]? = some st := by
  have hlt := (List.getElem?_eq_some_iff.mp hs).1
  rcases stepped h with ⟨m, md, d, _, hc⟩ | ⟨f, _, hp⟩ | ⟨t', y, k, ha, _, hw⟩ | ⟨i, _, _, _, ht, _⟩
  · obtain ⟨l, ht, _⟩ := hc.tasks
    rw [ht, List.getElem?_append_left hlt]; exact hs
  · obtain ⟨l, _, ht, _⟩ := hp.tasks
    rw [ht, List.getElem?_append_left hlt]; exact hs
  · obtain ⟨_, st', _, _, ht, _⟩ := hw.did
    have hne : t' ≠ t := fun he => hn y (by rw [ha, he])
    rw [ht, List.getElem?_set_ne hne]; exact hs
  · rw [ht]; exact hs

theorem yields_other {a : SockAct} {t : Nat} (as : List SockAct) (hn : ∀ y, a ≠ .task t y) : yields t (a :: as) = yields t as := by
  cases a with
  | task t' y =>
    have : t' ≠ t := fun he => hn y (by rw [he])
    simp [yields, this]
  | _ => rfl

theorem run_ends (as : List SockAct) : ∀ {s s' : Sock} {t : Nat} {st : Option Rust.Task}, s.tasks[t]? = some st →
    (∀ k, st = some k → isFeed k = false) → s.run as = some (.ok s') → s'.tasks[t]? = some none → ends st (yields t as) := by
  induction as with
  | nil =>
    intro s s' t st h hf hr h'
    simp only [Sock.run] at hr
    cases hr
    rw [h] at h'
    cases h'
    simp [ends]
  | cons a as ih =>
    intro s s' t st h hf hr h'
    obtain ⟨s1, h1, h2⟩ := run_cons hr
    by_cases ha : ∃ y, a = .task t y
    · obtain ⟨y, rfl⟩ := ha
      simp only [Sock.step, h] at h1
      cases st with
      | none => simp [ends]
      | some k =>
        cases hx : s.runTask t y k with
        | none => simp only [hx, Option.map_none] at h1; cases h1
        | some s2 =>
          simp only [hx, Option.map_some, Option.some.injEq, Res.ok.injEq] at h1
          subst h1
          have hkf := hf k rfl
          obtain ⟨fs, st', g1, _, g3, g4⟩ := runTask_self (sid := sidOf k) rfl
            (fun q f n he => by rw [he] at hkf; cases hkf) h hx
          have hat : s2.tasks[t]? = some st' := by
            rw [g3, List.getElem?_set_self (List.getElem?_eq_some_iff.mp h).1]
          have hfd : ∀ k', st' = some k' → isFeed k' = false := by
            intro k' hk'
            obtain ⟨e1, e2⟩ := g4 k' hk'
            cases k' with
            | feed sid q f n => exact absurd (show Rust.Task.feed sid q f n = .feed (sidOf k) q f n by rw [← e1]; rfl) (e2 q f n)
            | _ => rfl
          have := ih hat hfd h2 h'
          simp only [yields, if_true, ends, g1]
          exact this
    · have hn : ∀ y, a ≠ .task t y := fun y he => ha ⟨y, he⟩
      rw [yields_other as hn]
      exact ih (other_task h1 hn h) hf h2 h'

theorem ends_one {sid : UInt32} {ys : List Yield} (h : ends (some (.rr sid)) ys) : (toldOne ys).1.length = 1 ∧ (toldOne ys).2 = true := by
  cases ys with
  | nil => cases h
  | cons y ys => cases y <;> simp [ends, goesOn, toldOne] at h ⊢

theorem ends_many {sid : UInt32} {ys : List Yield} (h : ends (some (.rs sid)) ys) : (toldMany ys).2 = true := by
  induction ys with
  | nil => cases h
  | cons y ys ih =>
    cases y with
    | ok md d => simp only [ends, goesOn] at h; exact ih h
    | err x => rfl
    | done => rfl

theorem step_length {s s' : Sock} {a : SockAct} (h : s.step a = some (.ok s')) : s.tasks.length ≤ s'.tasks.length := by
  rcases stepped h with ⟨m, md, d, _, hc⟩ | ⟨f, _, hp⟩ | ⟨t', y, k, ha, _, hw⟩ | ⟨i, _, _, _, ht, _⟩
  · obtain ⟨l, ht, _⟩ := hc.tasks
    rw [ht, List.length_append]; omega
  · obtain ⟨l, _, ht, _⟩ := hp.tasks
    rw [ht, List.length_append]; omega
  · obtain ⟨_, st', _, _, ht, _⟩ := hw.did
    rw [ht, List.length_set]; exact Nat.le_refl _
  · rw [ht]; exact Nat.le_refl _

theorem run_length (as : List SockAct) : ∀ {s s' : Sock}, s.run as = some (.ok s') → s.tasks.length ≤ s'.tasks.length := by
  induction as with
  | nil => intro s s' h; simp only [Sock.run] at h; cases h; exact Nat.le_refl _
  | cons a as ih =>
    intro s s' h
    obtain ⟨s1, h1, h2⟩ := run_cons h
    exact Nat.le_trans (step_length h1) (ih h2)

/-! ## The theorems -/

/-- **C148, requests.** A fire-and-forget, request-response or stream call of one end runs at most one handler at
the other end, with the bytes the caller gave and under no other call's id; and exactly one once its frames are processed
and the tasks there are done. `Few` is the bound of the claim: after 2^30-2 calls of an end ids repeat
(`ids_repeat_refuted`). Channels are not part of the claim; see `rust_empty_channel_refuted`. -/
theorem rust_requests_handled {p : Pair} {H : Bool → List SockAct} (h : Runs p H) (hf : Few H) (e : Bool) (as bs : List SockAct)
    (m : Method) (hm : m ≠ .rc) (md d : Bytes) (hH : H e = as ++ .call m md d :: bs) (s1 : Sock)
    (h1 : (Sock.init e).run as = some (.ok s1)) :
    ((p.sock (!e)).runs.filter (runFor s1.next) = [] ∨ (p.sock (!e)).runs.filter (runFor s1.next) = [asked m s1.next md d]) ∧
    (p.read (!e) = (p.sock e).out.length → (∀ t ∈ (p.sock (!e)).tasks, t = none) →
      (p.sock (!e)).runs.filter (runFor s1.next) = [asked m s1.next md d]) := by
  have c : Made p H e as bs m md d s1 := ⟨h, hf, hH, h1⟩
  obtain ⟨v, hv, v1, v2, v3, v4⟩ := c.request hm
  have i := inv h hf (!e)
  simp only [Bool.not_not] at i
  have hone := (inv h hf e).once s1.next
  have hran := i.ran s1.next
  have hle : ((p.sock e).out.take (p.read (!e))).countP (reqFor s1.next) ≤ (p.sock e).out.countP (reqFor s1.next) :=
    (List.take_sublist _ _).countP_le
  have hall : ∀ x ∈ (p.sock (!e)).runs.filter (runFor s1.next), x = asked m s1.next md d := by
    intro x hx
    obtain ⟨hx, hr⟩ := List.mem_filter.mp hx
    obtain ⟨f, hfm, w, rfl, hw⟩ := i.runs x hx
    have hws : w.streamID = s1.next := by
      cases x <;> simp only [runFor, decide_eq_true_eq] at hr <;> simp only at hw
      · rw [hw.2.1, hr]
      · rw [hw.2.1, hr]
      · rw [hw.2.1, hr]
      · rw [hw.1, hr]
    have he := c.only hv v1 (List.mem_of_mem_take hfm) rfl hws
    cases he
    cases x <;> simp only [runFor, decide_eq_true_eq] at hr <;> simp only at hw
    · obtain ⟨w1, w2, w3, w4⟩ := hw
      rw [v4] at w1
      cases m <;> first | (exact absurd w1 (by decide)) | (exact absurd rfl hm) | (subst w2; rw [← v2, ← v3, ← v1, w3, w4]; rfl)
    · obtain ⟨w1, w2, w3, w4⟩ := hw
      rw [v4] at w1
      cases m <;> first | (exact absurd w1 (by decide)) | (exact absurd rfl hm) | (subst w2; rw [← v2, ← v3, ← v1, w3, w4]; rfl)
    · obtain ⟨w1, w2, w3, w4⟩ := hw
      rw [v4] at w1
      cases m <;> first | (exact absurd w1 (by decide)) | (exact absurd rfl hm) | (subst w2; rw [← v2, ← v3, ← v1, w3, w4]; rfl)
    · exact absurd ⟨_, hv, hw.2, v1⟩ (c.closed hm)
  rw [List.countP_eq_length_filter] at hran
  have hcases : (p.sock (!e)).runs.filter (runFor s1.next) = [] ∨ (p.sock (!e)).runs.filter (runFor s1.next) = [asked m s1.next md d] := by
    match hl : (p.sock (!e)).runs.filter (runFor s1.next) with
    | [] => exact .inl rfl
    | [x] => exact .inr (by rw [hall x (by rw [hl]; simp)])
    | _ :: _ :: _ => rw [hl] at hran; simp at hran; omega
  refine ⟨hcases, fun hr ht => hcases.resolve_left fun h0 => ?_⟩
  have ht0 : (p.sock (!e)).tasks.countP (starting s1.next) = 0 := by
    rw [List.countP_eq_zero]
    intro t htm hs
    rw [ht t htm] at hs
    simp [starting] at hs
  have hpos : 0 < (p.sock e).out.countP (reqFor s1.next) := List.countP_pos_iff.mpr ⟨_, hv, reqFor_iff.mpr ⟨rfl, v1⟩⟩
  rw [h0, ht0, hr, List.take_length] at hran
  simp only [List.length_nil] at hran
  omega

/-- **C148, results.** What the caller of a request-response or stream operation is told is what the handler the
other end ran for this call has yielded: a beginning of it at any time, all of it once every frame was processed, and
nothing before the request was processed. -/
theorem rust_callers_told {p : Pair} {H : Bool → List SockAct} (h : Runs p H) (hf : Few H) (e : Bool) (as bs : List SockAct)
    (m : Method) (hm : m = .rr ∨ m = .rs) (md d : Bytes) (hH : H e = as ++ .call m md d :: bs) (s1 : Sock)
    (h1 : (Sock.init e).run as = some (.ok s1)) (k : Sink) (hk : (p.sock e).sinks[s1.sinks.length]? = some k) (hl : k.live = true) :
    (∀ as' bs' v s2, H (!e) = as' ++ .recv (.request v) :: bs' → v.streamID = s1.next → (Sock.init (!e)).run as' = some (.ok s2) →
      (∃ n, (k.got, k.closed) = told m ((yields s2.tasks.length bs').take n)) ∧
      (p.read e = (p.sock (!e)).out.length → (k.got, k.closed) = told m (yields s2.tasks.length bs'))) ∧
    ((∀ v, SockAct.recv (.request v) ∈ H (!e) → v.streamID ≠ s1.next) → k.got = [] ∧ k.closed = false) := by
  have c : Made p H e as bs m md d s1 := ⟨h, hf, hH, h1⟩
  have hrc : m ≠ .rc := by rcases hm with rfl | rfl <;> simp
  have hfnf : m ≠ .fnf := by rcases hm with rfl | rfl <;> simp
  have ht := c.told hfnf k hk hl
  have hres := c.results (c.closed hrc)
  obtain ⟨n, hn⟩ := filter_take (fun f => decide (f.streamID = s1.next)) (p.read e) (p.sock (!e)).out
  refine ⟨fun as' bs' v s2 hH' hv h2 => ?_, fun hno => ?_⟩
  · have ha := c.answers hH' hv h2
    obtain ⟨w, hw, w1, _, _, w4⟩ := c.request hrc
    have hvt : v.frameType = typeOf m := by
      have hmem : Frame.request v ∈ (p.sock e).out := by
        have hr := (Runs.each h (!e)).2.1
        simp only [Bool.not_not] at hr
        refine List.mem_of_mem_take (i := p.read (!e)) ?_
        rw [← hr, hH', recvs_append]
        exact List.mem_append_right _ (List.mem_cons_self)
      have := c.only hw w1 hmem rfl hv
      cases this
      exact w4
    rw [hvt] at ha
    constructor
    · obtain ⟨n', hn'⟩ := answer_take m hm s1.next (yields s2.tasks.length bs') n
      exact ⟨n', by rw [ht, hn, hres, ha, hn']⟩
    · intro hr
      rw [ht, hr, List.take_length, hres, ha, answer_of m hm]
  · rw [hn, hres, c.nothing hno] at ht
    simp only [List.take_nil, outcome, Prod.mk.injEq] at ht
    exact ht

/-- **C148, results arrive.** Once every frame is processed and no task is left, the caller of a request-response
operation has been told exactly one result, and that of a stream its end. -/
theorem rust_calls_settle {p : Pair} {H : Bool → List SockAct} (h : Runs p H) (hf : Few H) (hs : Settled p) (e : Bool)
    (as bs : List SockAct) (m : Method) (hm : m = .rr ∨ m = .rs) (md d : Bytes) (hH : H e = as ++ .call m md d :: bs) (s1 : Sock)
    (h1 : (Sock.init e).run as = some (.ok s1)) (k : Sink) (hk : (p.sock e).sinks[s1.sinks.length]? = some k) (hl : k.live = true) :
    k.closed = true ∧ (m = .rr → k.got.length = 1) := by
  have c : Made p H e as bs m md d s1 := ⟨h, hf, hH, h1⟩
  have hrc : m ≠ .rc := by rcases hm with rfl | rfl <;> simp
  obtain ⟨v, hv, v1, _, _, v4⟩ := c.request hrc
  have hr := Runs.each h (!e)
  simp only [Bool.not_not] at hr
  have hs' := hs (!e)
  simp only [Bool.not_not] at hs'
  have hin : SockAct.recv (.request v) ∈ H (!e) := by
    rw [← mem_recvs, hr.2.1, hs'.1, List.take_length]; exact hv
  obtain ⟨as', bs', hH'⟩ := List.append_of_mem hin
  have hrun := hr.1
  rw [hH'] at hrun
  obtain ⟨s2, h2, h3⟩ := run_split as' _ hrun
  have htold := ((rust_callers_told h hf e as bs m hm md d hH s1 h1 k hk hl).1 as' bs' v s2 hH' v1 h2).2 (hs e).1
  obtain ⟨s3, h4, h5⟩ := run_cons h3
  simp only [Sock.step, Option.some.injEq] at h4
  have hend : ∀ st, s3.tasks[s2.tasks.length]? = some st → (∀ k, st = some k → isFeed k = false) → ends st (yields s2.tasks.length bs') := by
    intro st hst hfd
    have hlt := Nat.lt_of_lt_of_le (List.getElem?_eq_some_iff.mp hst).1 (run_length bs' h5)
    refine run_ends bs' hst hfd h5 ?_
    rw [List.getElem?_eq_getElem hlt, hs'.2 _ (List.getElem_mem hlt)]
  rcases hm with rfl | rfl
  · have ht : s3.tasks = s2.tasks ++ [some (.rr v.streamID)] := by
      simp only [Sock.processOnce, v4, typeOf] at h4
      rw [if_neg (by decide), if_pos trivial] at h4
      cases h4
      rfl
    have := ends_one (hend (some (.rr v.streamID)) (by rw [ht]; simp) (fun k hk => by cases hk; rfl))
    simp only [told, if_true] at htold
    rw [← htold] at this
    exact ⟨this.2, fun _ => this.1⟩
  · have ht : s3.tasks = s2.tasks ++ [some (.rsStart v.streamID v.metadata v.data)] := by
      simp only [Sock.processOnce, v4, typeOf] at h4
      rw [if_neg (by decide), if_neg (by decide), if_pos trivial] at h4
      cases h4
      rfl
    have he := hend (some (.rsStart v.streamID v.metadata v.data)) (by rw [ht]; simp) (fun k hk => by cases hk; rfl)
    cases hy : yields s2.tasks.length bs' with
    | nil => rw [hy] at he; cases he
    | cons y ys =>
      rw [hy] at he htold
      have := ends_many (sid := v.streamID) (show ends (some (.rs v.streamID)) ys from he)
      have h6 : k.closed = (toldMany ys).2 := by
        have := congrArg Prod.snd htold
        exact this
      exact ⟨by rw [h6]; exact this, fun hx => by cases hx⟩

/-- No request is sent under an id, and none will be. -/
theorem run_none (as : List SockAct) : ∀ {s s' : Sock} {sid : UInt32}, s.run as = some (.ok s') →
    s.out.countP (reqFor sid) = 0 → s.tasks.countP (firsts sid) = 0 → sid.toNat < s.next.toNat → s.next.toNat + 2 * drawn as < 2 ^ 32 →
    s'.out.countP (reqFor sid) = 0 := by
  induction as with
  | nil => intro s s' sid h h1 _ _ _; simp only [Sock.run] at h; cases h; exact h1
  | cons a as ih =>
    intro s s' sid h h1 h2 h3 h4
    obtain ⟨s1, g1, g2⟩ := run_cons h
    rcases stepped g1 with ⟨m, md, d, rfl, hc⟩ | ⟨f, rfl, hp⟩ | ⟨t, y, k, rfl, hk, hw⟩ | ⟨i, rfl, d1, d2, d3, _⟩
    · simp only [drawn] at h4
      have hnx : s1.next.toNat = s.next.toNat + 2 := by rw [hc.next, draw_toNat (by omega)]
      have hne : s.next ≠ sid := fun he => by rw [he] at h3; omega
      obtain ⟨lo, ho, hlo⟩ := hc.out
      obtain ⟨lt, ht, hlt⟩ := hc.tasks
      refine ih g2 ?_ ?_ (by omega) (by omega)
      · rw [ho, List.countP_append, h1]
        rcases hlo with ⟨_, rfl⟩ | ⟨v, rfl, hv, _⟩
        · rfl
        · rw [← hv] at hne; simp [reqFor, isReq, Frame.streamID, hne]
      · rw [ht, List.countP_append, h2]
        rcases hlt with ⟨_, rfl⟩ | ⟨_, q, rfl⟩
        · rfl
        · simp [firsts, hne]
    · simp only [drawn] at h4
      obtain ⟨lo, ho, hlo⟩ := hp.out
      obtain ⟨lt, lr, ht, _, hlt, _⟩ := hp.tasks
      refine ih g2 ?_ ?_ (by rw [hp.next]; exact h3) (by rw [hp.next]; exact h4)
      · rw [ho, List.countP_append, h1, Nat.zero_add, List.countP_eq_zero]
        intro g hg hx
        have h5 := (hlo g hg).2.1
        have h6 := (reqFor_iff.mp hx).1
        cases g <;> simp_all [isReq, isRequesting]
      · rw [ht, List.countP_append, h2, Nat.zero_add, List.countP_eq_zero]
        intro k hk hx
        cases k with
        | none => simp [firsts] at hx
        | some k => have := (firsts_sid hx).2; rw [(hlt k hk).2.1] at this; cases this
    · simp only [drawn] at h4
      obtain ⟨l, st, lr, ho, ht, _, _, _, _, hcnt⟩ := hw.did
      obtain ⟨c1, _, _⟩ := hcnt sid
      have hset := countP_set' (firsts sid) (y := st) hk
      rw [h2] at hset
      have hno : (if firsts sid (some k) = true then 1 else 0) = 0 := by
        rw [List.countP_eq_zero] at h2
        have := h2 _ (List.mem_of_getElem? hk)
        simp [this]
      refine ih g2 ?_ ?_ (by rw [hw.next]; exact h3) (by rw [hw.next]; exact h4)
      · rw [ho, List.countP_append, h1]; omega
      · rw [ht]; omega
    · simp only [drawn] at h4
      exact ih g2 (by rw [d2]; exact h1) (by rw [d3]; exact h2) (by rw [d1]; exact h3) (by rw [d1]; exact h4)

theorem run_quiet (as : List SockAct) : ∀ {s s' : Sock} {t : Nat} {st : Option Rust.Task}, s.run as = some (.ok s') → yields t as = [] →
    s.tasks[t]? = some st → s'.tasks[t]? = some st := by
  induction as with
  | nil => intro s s' t st h _ hs; simp only [Sock.run] at h; cases h; exact hs
  | cons a as ih =>
    intro s s' t st h hy hs
    obtain ⟨s1, h1, h2⟩ := run_cons h
    by_cases ha : ∃ y, a = .task t y
    · obtain ⟨y, rfl⟩ := ha
      simp [yields] at hy
    · have hn : ∀ y, a ≠ .task t y := fun y he => ha ⟨y, he⟩
      rw [yields_other as hn] at hy
      exact ih h2 hy (other_task h1 hn hs)

/-- **C148 is false of channels**: a call whose input ends before its first element is sent as a COMPLETE without any
request. The other end never runs a handler for it, and the caller is never told anything, not even an end, in any run. -/
theorem rust_empty_channel_refuted {p : Pair} {H : Bool → List SockAct} (h : Runs p H) (hf : Few H) (e : Bool) (as cs ds : List SockAct)
    (md d : Bytes) (s1 : Sock) (h1 : (Sock.init e).run as = some (.ok s1))
    (hH : H e = as ++ .call .rc md d :: (cs ++ .task s1.tasks.length .done :: ds)) (hy : yields s1.tasks.length cs = [])
    (k : Sink) (hk : (p.sock e).sinks[s1.sinks.length]? = some k) (hl : k.live = true) :
    (p.sock (!e)).runs.filter (runFor s1.next) = [] ∧ k.got = [] ∧ k.closed = false := by
  have c : Made p H e as _ .rc md d s1 := ⟨h, hf, hH, h1⟩
  obtain ⟨s2, r1, r2⟩ := run_cons c.after
  simp only [Sock.step, Option.some.injEq, Res.ok.injEq] at r1
  subst r1
  obtain ⟨s3, r3, r4⟩ := run_split cs _ r2
  obtain ⟨s4, r5, r6⟩ := run_cons r4
  -- the feed waits for its first element
  obtain ⟨lt, ht, hlt⟩ := (called s1 .rc md d).tasks
  have hlt : ∃ q, lt = [some (.feed s1.next q true 1)] := by
    rcases hlt with ⟨hx, _⟩ | ⟨_, hx⟩
    · exact absurd rfl hx
    · exact hx
  obtain ⟨q, rfl⟩ := hlt
  have hfeed : s3.tasks[s1.tasks.length]? = some (some (.feed s1.next q true 1)) :=
    run_quiet cs r3 hy (by rw [ht]; simp)
  -- so the request was not sent
  obtain ⟨p3, H3, g1, g2, g3⟩ := Runs.before h e (as ++ .call .rc md d :: cs) (.task s1.tasks.length .done :: ds) (by rw [hH]; simp)
  have hf3 := Few.prefix hf g3
  have hp3 : p3.sock e = s3 := by
    have := (Runs.each g1 e).1
    rw [g2, run_append _ h1] at this
    simp only [Sock.run, Sock.step, r3] at this
    cases this
    rfl
  have i3 := inv g1 hf3 e
  rw [hp3] at i3
  have hfirst : firsts s1.next (some (.feed s1.next q true 1)) = true := by simp [firsts]
  have hone := i3.once s1.next
  have hpos : 0 < s3.tasks.countP (firsts s1.next) := List.countP_pos_iff.mpr ⟨_, List.mem_of_getElem? hfeed, hfirst⟩
  -- and is not sent when the input ends
  simp only [Sock.step, hfeed, Sock.runTask] at r5
  rw [if_neg (by decide)] at r5
  simp only [Option.map_some, Option.some.injEq, Res.ok.injEq] at r5
  subst r5
  have hset := countP_set' (firsts s1.next) (y := none) hfeed
  rw [hfirst] at hset
  simp only [if_true, show firsts s1.next none = false from rfl] at hset
  have hnext3 : s3.next.toNat = firstId e + 2 * drawn (as ++ .call .rc md d :: cs) := by
    rw [← hp3, next_toNat g1 hf3 e, g2]
  have hnext1 : s1.next.toNat = firstId e + 2 * drawn as := by
    obtain ⟨p1, H1, q1, q2, q3, rfl⟩ := c.then_
    rw [next_toNat q1 q2 e, q3]
  have hfew := hf e
  rw [hH, drawn_append, drawn_cons, drawn_append, drawn_cons (.task s1.tasks.length .done) ds] at hfew
  have hfi : firstId e ≤ 2 := by cases e <;> simp [firstId]
  rw [drawn_append, drawn_cons] at hnext3
  have hd1 : drawn [SockAct.call .rc md d] = 1 := rfl
  have hnone := run_none (sid := s1.next) ds r6 (by
      show (s3.out ++ [completeFrame s1.next]).countP _ = 0
      rw [List.countP_append]
      have : [completeFrame s1.next].countP (reqFor s1.next) = 0 := by simp [completeFrame, newPayload, reqFor, isReq]
      omega)
    (by show (s3.tasks.set s1.tasks.length none).countP _ = 0; simp at hset; omega)
    (by show s1.next.toNat < s3.next.toNat; omega) (by show s3.next.toNat + _ < _; omega)
  rw [List.countP_eq_zero] at hnone
  have hclosed : ¬ Opened (p.sock e) s1.next := by
    rintro ⟨g, hg, ho, hs⟩
    exact hnone g hg (reqFor_iff.mpr ⟨opens_req ho, hs⟩)
  have hr := Runs.each h (!e)
  simp only [Bool.not_not] at hr
  have hno : ∀ v, SockAct.recv (.request v) ∈ H (!e) → v.streamID ≠ s1.next := by
    intro v hv hs
    rw [← mem_recvs, hr.2.1] at hv
    exact hnone _ (List.mem_of_mem_take hv) (reqFor_iff.mpr ⟨rfl, hs⟩)
  have i := inv h hf (!e)
  simp only [Bool.not_not] at i
  refine ⟨?_, ?_⟩
  · have hran := i.ran s1.next
    have h0 : ((p.sock e).out.take (p.read (!e))).countP (reqFor s1.next) = 0 := by
      rw [List.countP_eq_zero]
      exact fun f hf => hnone f (List.mem_of_mem_take hf)
    rw [h0] at hran
    have : (p.sock (!e)).runs.countP (runFor s1.next) = 0 := by omega
    rw [List.countP_eq_length_filter] at this
    exact List.eq_nil_of_length_eq_zero this
  · have ht := c.told (by simp) k hk hl
    obtain ⟨n, hn⟩ := filter_take (fun f => decide (f.streamID = s1.next)) (p.read e) (p.sock (!e)).out
    rw [hn, c.results hclosed, c.nothing hno] at ht
    simp only [List.take_nil, outcome, Prod.mk.injEq] at ht
    exact ht

/-! ## Examples -/

/-- Several steps, with what happens at each end. -/
def play : Pair → (Bool → List SockAct) → List PairAct → Option (Pair × (Bool → List SockAct))
  | p, H, [] => some (p, H)
  | p, H, a :: l =>
    match p.seen a, p.step a with
    | some (e, b), some p' => play p' (fun x => if x = e then H x ++ [b] else H x) l
    | _, _ => none

theorem play_runs (l : List PairAct) : ∀ {p : Pair} {H : Bool → List SockAct} {r : Pair × (Bool → List SockAct)}, Runs p H →
    play p H l = some r → Runs r.1 r.2 := by
  induction l with
  | nil => intro p H r h hp; simp only [play] at hp; cases hp; exact h
  | cons a l ih =>
    intro p H r h hp
    simp only [play] at hp
    split at hp
    · rename_i e b p' h1 h2
      exact ih (.step a h h1 h2) hp
    · cases hp

/-- The host asks for a result and for a stream, and the guest asks the host for a result meanwhile. -/
def demo : List PairAct := [
  .own false (.call .rr [0] [7]), .own false (.call .rs [1] [8]), .own true (.call .rr [2] [9]), .take true, .take true, .take false,
  .own true (.task 1 .done), .own true (.task 1 (.ok [] [1])), .own true (.task 0 (.err [5])), .own false (.task 0 (.ok [] [3])),
  .own true (.task 1 (.ok [] [2])), .own true (.task 1 .done), .take false, .take false, .take false, .take false, .take true]

theorem demo_ok : (play Pair.init (fun _ => []) demo).isSome = true := by decide +kernel

example : ∃ p H, Runs p H ∧ Few H ∧ Settled p ∧
    H false = [] ++ .call .rr [0] [7] :: (H false).tail ∧ H false = [.call .rr [0] [7]] ++ .call .rs [1] [8] :: (H false).tail.tail ∧
    (p.sock false).sinks.map (fun k => (k.got, k.closed)) = [([.err 513 [5]], true), ([.ok [] [1], .ok [] [2]], true)] ∧
    (p.sock true).sinks.map (fun k => (k.got, k.closed)) = [([.ok [] [3]], true)] ∧
    (p.sock true).runs = [.rr 1 [0] [7], .rs 3 [1] [8]] ∧ (p.sock false).runs = [.rr 2 [2] [9]] :=
  ⟨((play Pair.init (fun _ => []) demo).get demo_ok).1, ((play Pair.init (fun _ => []) demo).get demo_ok).2,
    play_runs demo .init (by simp), by unfold Few; decide +kernel, by unfold Settled; decide +kernel, by decide +kernel, by decide +kernel,
    by decide +kernel, by decide +kernel, by decide +kernel, by decide +kernel⟩

/-- A channel without elements. -/
def mute : List PairAct := [.own false (.call .rc [0] [7]), .own false (.task 0 .done), .take true]

theorem mute_ok : (play Pair.init (fun _ => []) mute).isSome = true := by decide +kernel

example : ∃ p H, Runs p H ∧ Few H ∧ Settled p ∧ H false = [] ++ .call .rc [0] [7] :: ([] ++ .task (Sock.init false).tasks.length .done :: []) ∧
    (p.sock false).sinks.map (fun k => (k.live, k.got, k.closed)) = [(true, [], false)] :=
  ⟨((play Pair.init (fun _ => []) mute).get mute_ok).1, ((play Pair.init (fun _ => []) mute).get mute_ok).2,
    play_runs mute .init (by simp), by unfold Few; decide +kernel, by unfold Settled; decide +kernel, by decide +kernel, by decide +kernel⟩

end Iota.Props.RustPair
