import Verif.Model.Serve
import Verif.Props.Block
import Verif.Props.Caller
import Verif.Props.Framing

/-!
# Streams from end to end (C136)

The theorems on fluxes (C17), frames on a connection (C36), streams of a connection (C77) and processors (C120) are
put together: what the callbacks of a caller's subscriber see is what the flux of the handler on the other side gave
to the subscriber that serves it.
-/

namespace Iota.Props.Streamed
open Go Iota.Frames Iota.Registry Iota.Handler Iota.Spec.Lookup Iota.Props.Handler Iota.Spec.Caller Iota.Props.Caller Iota.Serve
open Iota.Spec.Flux (Seen seenOf deliver deliverMap Grammar wanted calls)
open Iota.Props.Flux (neverFails)

variable {H V E : Type}

/-! ## A stream that has ended -/

/-- The stream at position `i` exists and is in the tables under no id but its own. -/
def Alone (id : UInt32) (i : Nat) (st : State) : Prop :=
  i < st.objs.length ∧ Entries (fun id' j => j = i → id' = id) st

theorem Alone.register {id : UInt32} {i : Nat} {st : State} (h : Alone id i st) (id' : UInt32) (o : Obj) :
    Alone id i (registerStream { st with objs := st.objs ++ [o] } id' st.objs.length) := by
  have hlt := h.1
  refine ⟨by rw [registerStream_objs]; simp; omega, (entries_objs h.2 _).registered fun e => by omega⟩

theorem Alone.modify {id : UInt32} {i : Nat} {st : State} (h : Alone id i st) (j : Nat) (g : Obj → Obj) :
    Alone id i { st with objs := st.objs.modify j g } := ⟨by simpa using h.1, entries_objs h.2 _⟩

theorem Alone.remove {id : UInt32} {i : Nat} {st : State} (h : Alone id i st) (id' : UInt32) :
    Alone id i (removeStream st id') := by
  refine ⟨?_, h.2.removed _⟩
  have : (removeStream st id').objs = st.objs := by unfold removeStream; split <;> rfl
  rw [this]; exact h.1

/-- The frames with the id that answer a call, among the actions. -/
def answered (id : UInt32) (as : List Act) : List Frame := (arrived id as).filter answers

theorem arrived_append (id : UInt32) (as bs : List Act) : arrived id (as ++ bs) = arrived id as ++ arrived id bs := by
  induction as with
  | nil => rfl
  | cons a as ih => rw [List.cons_append, arrived_cons, ih, arrived_cons id a as, List.append_assoc]

theorem quiet_step {reg : Reg H} {id : UInt32} {i : Nat} {c c' : Conn H} {a : Act} (ho : Alone id i c.st)
    (hq : answered id [a] = []) (h : c.step reg a = .ok c') :
    Alone id i c'.st ∧ told i c'.log = told i c.log := by
  cases a with
  | recv f =>
    simp only [Conn.step] at h
    cases hd : handleFrame (H := H) c.st f with
    | err e => rw [hd] at h; cases h
    | panic => rw [hd] at h; cases h
    | ok o =>
      rw [hd] at h; cases h
      simp only [Conn.after, told, List.filterMap_append]
      by_cases hf : ∃ v, f = .request v
      · obtain ⟨v, rfl⟩ := hf
        obtain ⟨h1, h2, _⟩ := handle_request hd
        rw [h1, h2]
        exact ⟨ho, by simp⟩
      · have hf : ∀ v, f ≠ .request v := fun v hv => hf ⟨v, hv⟩
        rcases handle_other hf hd with ⟨_, rfl⟩ | ⟨j, hj, hd⟩
        · exact ⟨ho, by simp⟩
        · obtain ⟨_, h2, _, h4⟩ := dispatch_shape hf hd
          constructor
          · rcases h2 with h2 | h2 <;> rw [h2]
            · exact ho
            · exact ho.remove _
          · suffices hs : o.evs.filterMap (sigOf i) = [] by rw [hs, List.append_nil]
            by_cases hid : f.streamID = id
            · have ha : answers f = false := by
                cases ha : answers f with
                | false => rfl
                | true => simp [answered, arrived, hid, ha] at hq
              cases f with
              | request v => exact absurd rfl (hf v)
              | requestN v =>
                simp only [dispatch] at hd
                split at hd
                · cases hd
                · split at hd <;> cases hd
                  rfl
              | cancel v => cases ha
              | error v => cases ha
              | payload v => cases ha
            · have hji : j ≠ i := fun e => hid (ho.2.lookup hj e)
              rw [List.filterMap_eq_nil_iff]
              intro e he
              rcases h4 e he with ⟨d, m, rfl⟩ | rfl | ⟨m, rfl⟩ <;> simp [sigOf, hji]
  | task j live =>
    simp only [Conn.step] at h
    split at h
    · cases h; exact ⟨ho, rfl⟩
    · rename_i t ht
      cases hd : runTask reg live c.st t with
      | err e => rw [hd] at h; cases h
      | panic => rw [hd] at h; cases h
      | ok o =>
        rw [hd] at h; cases h
        simp only [Conn.after, told, List.filterMap_append]
        suffices hs : Alone id i o.st ∧ o.evs.filterMap (sigOf i) = [] by
          exact ⟨hs.1, by rw [hs.2, List.append_nil]⟩
        cases t with
        | request k id' data md n =>
          simp only [runTask, handleRequest] at hd
          split at hd
          · cases hd; exact ⟨ho, rfl⟩
          · rename_i hl
            obtain ⟨op, h3, _⟩ := index_long hl
            rw [h3] at hd
            simp only [Res.ok_bind] at hd
            split at hd
            · cases hd; exact ⟨ho, rfl⟩
            · cases hd; cases k
              · exact ⟨ho, rfl⟩
              · exact ⟨ho.register _ _, rfl⟩
              · exact ⟨ho.register _ _, rfl⟩
              · exact ⟨ho.register _ _, rfl⟩
        | attach j n =>
          simp only [runTask] at hd
          split at hd <;> cases hd
          exact ⟨ho.modify _ _, rfl⟩
        | demand j n =>
          simp only [runTask] at hd
          split at hd
          · cases hd
          · split at hd <;> cases hd; exact ⟨ho, rfl⟩
  | openMono id' => cases h; exact ⟨ho.register _ _, rfl⟩
  | openFlux id' b => cases h; exact ⟨ho.register _ _, rfl⟩
  | startIn j b => cases h; exact ⟨ho.modify _ _, rfl⟩
  | openSink j => cases h; exact ⟨ho.modify _ _, rfl⟩

theorem answered_cons (id : UInt32) (a : Act) (as : List Act) :
    answered id (a :: as) = answered id [a] ++ answered id as := by
  unfold answered; rw [arrived_cons, List.filter_append]

theorem quiet_run {reg : Reg H} {id : UInt32} {i : Nat} {as : List Act} {c c' : Conn H} (ho : Alone id i c.st)
    (hq : answered id as = []) (h : Conn.run reg c as = .ok c') : told i c'.log = told i c.log := by
  induction as generalizing c with
  | nil => cases h; rfl
  | cons a as ih =>
    simp only [Conn.run] at h
    rw [answered_cons, List.append_eq_nil_iff] at hq
    cases hs : c.step reg a with
    | err e => rw [hs] at h; cases h
    | panic => rw [hs] at h; cases h
    | ok c1 =>
      rw [hs] at h
      obtain ⟨h1, h2⟩ := quiet_step ho hq.1 hs
      rw [ih h1 hq.2 h, h2]

theorem run_app {reg : Reg H} {a b : List Act} {c c' : Conn H} (h : Conn.run reg c (a ++ b) = .ok c') :
    ∃ m, Conn.run reg c a = .ok m ∧ Conn.run reg m b = .ok c' := by
  induction a generalizing c with
  | nil => exact ⟨c, rfl, h⟩
  | cons x a ih =>
    simp only [List.cons_append, Conn.run] at h ⊢
    cases hs : c.step reg x with
    | err e => rw [hs] at h; cases h
    | panic => rw [hs] at h; cases h
    | ok c1 =>
      rw [hs] at h
      exact ih h

theorem split_last {id : UInt32} {xs ys : List Frame} {l : Frame} {as : List Act} (h : answered id as = xs ++ l :: ys) :
    ∃ a b, as = a ++ .recv l :: b ∧ answered id a = xs ∧ answered id b = ys ∧ l.streamID = id ∧ answers l = true := by
  induction as generalizing xs with
  | nil => simp [answered, arrived] at h
  | cons x as ih =>
    rw [answered_cons] at h
    cases hx : answered id [x] with
    | nil =>
      rw [hx, List.nil_append] at h
      obtain ⟨a, b, rfl, h2, h3⟩ := ih h
      exact ⟨x :: a, b, rfl, by rw [answered_cons, hx, h2]; rfl, h3⟩
    | cons f r =>
      have hf : x = .recv f ∧ r = [] ∧ f.streamID = id ∧ answers f = true := by
        cases x <;> simp only [answered, arrived] at hx <;> try cases hx
        split at hx
        · rename_i f' hid
          simp only [List.filter_cons] at hx
          split at hx
          · rename_i ha
            cases hx; exact ⟨rfl, rfl, hid, ha⟩
          · cases hx
        · cases hx
      obtain ⟨rfl, rfl, hid, ha⟩ := hf
      rw [hx] at h
      cases xs with
      | nil =>
        simp only [List.cons_append, List.nil_append, List.cons.injEq] at h
        obtain ⟨rfl, h⟩ := h
        exact ⟨[], as, rfl, rfl, h, hid, ha⟩
      | cons y xs =>
        simp only [List.cons_append, List.nil_append, List.cons.injEq] at h
        obtain ⟨rfl, h⟩ := h
        obtain ⟨a, b, rfl, h2, h3⟩ := ih h
        exact ⟨.recv f :: a, b, rfl, by rw [answered_cons, hx, h2]; rfl, h3⟩

theorem ends_answers {f : Frame} (h : ends f = true) : answers f = true := by cases f <;> first | rfl | cases h

theorem meaning_silent {f : Frame} (h : answers f = false) : meaning f = [] := by cases f <;> first | rfl | cases h

theorem meaning_answered (fs : List Frame) : (fs.filter answers).flatMap meaning = fs.flatMap meaning := by
  induction fs with
  | nil => rfl
  | cons f fs ih =>
    rw [List.filter_cons]
    split
    · rw [List.flatMap_cons, List.flatMap_cons, ih]
    · rename_i h
      rw [List.flatMap_cons, ih, meaning_silent (by simpa using h)]; rfl

/-- What the stream of a call has been told when the frames that answer it end with the first that ends it. -/
theorem told_whole {reg : Reg H} {id : UInt32} {before after : List Act} {a : Act} {c1 c : Conn H}
    (h1 : Conn.run reg Conn.init before = .ok c1) (fresh : ∀ b ∈ before, ¬ uses id b) (ha : Opens id a)
    (h2 : Conn.run reg c1 (a :: after) = .ok c) {xs t : List Frame} (hs : answered id after = xs ++ t)
    (hx : ∀ f ∈ xs, ends f = false) (ht : t = [] ∨ ∃ l, t = [l]) :
    told c1.st.objs.length c.log = (xs ++ t).flatMap meaning := by
  have noEnd : ∀ {as : List Act}, answered id as = xs → ∀ f ∈ arrived id as, ends f = false := by
    intro as e f hf
    cases he : ends f with
    | false => rfl
    | true =>
      have : f ∈ answered id as := List.mem_filter.mpr ⟨hf, ends_answers he⟩
      rw [e] at this
      rw [hx f this] at he; cases he
  rcases ht with rfl | ⟨l, rfl⟩
  · rw [List.append_nil] at hs ⊢
    rw [(caller_sees_partial reg id before after a c1 c h1 fresh ha h2 (noEnd hs)).1, ← meaning_answered]
    unfold answered at hs
    rw [hs]
  · obtain ⟨a1, a2, rfl, e1, e2, hid, hl⟩ := split_last hs
    rw [show a :: (a1 ++ Act.recv l :: a2) = (a :: a1) ++ Act.recv l :: a2 from rfl] at h2
    obtain ⟨m, r1, r2⟩ := run_app h2
    have hmid := caller_sees_partial reg id before a1 a c1 m h1 fresh ha r1 (noEnd e1)
    obtain ⟨c', s1, s2⟩ := hmid.2 l hid hl
    simp only [Conn.run, s1] at r2
    have hal : Alone id c1.st.objs.length c'.st := by
      have hn : getStream c1.st id = none :=
        unused_lookup (unused_run (c := Conn.init) ⟨⟨by simp [Conn.init, State.init], by simp [Conn.init, State.init]⟩,
          by simp [Conn.init]⟩ fresh h1)
      have hw := wf_run wf_init h1
      have hu := untold_run (c := Conn.init) wf_init (fun _ _ => rfl) h1
      simp only [Conn.run] at r1
      cases hs : c1.step reg a with
      | err e => rw [hs] at r1; cases r1
      | panic => rw [hs] at r1; cases r1
      | ok c2 =>
        rw [hs] at r1
        obtain ⟨ho, _⟩ := open_own hw hn hu ha hs
        obtain ⟨ho', _⟩ := own_run ho (noEnd e1) r1
        simp only [Conn.step] at s1
        obtain ⟨o, g1, _⟩ := answer_handled (H := H) ho' hid hl
        rw [g1] at s1
        cases s1
        have hf : ∀ v, l ≠ .request v := by rintro v rfl; cases hl
        rcases handle_other hf g1 with ⟨_, rfl⟩ | ⟨j, _, hd⟩
        · exact ⟨ho'.lt, ho'.only⟩
        · obtain ⟨_, h2, _, _⟩ := dispatch_shape hf hd
          have hm : Alone id c1.st.objs.length m.st := ⟨ho'.lt, ho'.only⟩
          simp only [Conn.after]
          rcases h2 with h2 | h2 <;> rw [h2]
          · exact hm
          · exact hm.remove _
    rw [quiet_run hal e2 r2, s2, List.flatMap_append, ← meaning_answered]
    unfold answered at e1
    rw [e1]; simp

/-! ## The two ends -/

/-- The frame for something a subscriber saw. -/
def frameOf (msg : E → Bytes) (id : UInt32) : Seen E Pay → Frame
  | .next p => .payload ⟨id, p.2, p.1, false, false, true⟩
  | .complete => .payload ⟨id, [], [], false, true, false⟩
  | .error e => .error ⟨id, 0, msg e⟩

/-- Errors travel as their text. -/
def text (msg : E → Bytes) : Seen E Pay → Seen Bytes Pay
  | .next p => .next p
  | .complete => .complete
  | .error e => .error (msg e)

/-- The serving subscriber sends one frame for each thing it sees, in order. -/
theorem sent_seen (msg : E → Bytes) (id : UInt32) (i : Nat) (log : List (Flux.Ev V E Pay)) :
    sent msg id i log = (Spec.Flux.seen i log).map (frameOf msg id) := by
  unfold sent Spec.Flux.seen
  rw [List.map_reverse, List.map_filterMap]
  congr 2
  funext e
  cases e <;> simp only [sendOf, seenOf, Option.map_none] <;> split <;> rfl

theorem frameOf_answers (msg : E → Bytes) (id : UInt32) (x : Seen E Pay) :
    (frameOf msg id x).streamID = id ∧ answers (frameOf msg id x) = true := by
  cases x <;> exact ⟨rfl, rfl⟩

/-- What a caller's processor is told for something the serving subscriber saw. -/
def callsOf (msg : E → Bytes) : Seen E Pay → List (Flux.Call Pay Bytes)
  | .next p => [.next p]
  | .complete => [.complete]
  | .error e => [.error (msg e), .complete]

def callOfSig : Sig → Flux.Call Pay Bytes
  | .next d m => .next (d, m)
  | .complete => .complete
  | .error m => .error m

theorem fed_told (i : Nat) (log : List (Ev H)) : log.filterMap (fed i) = (told i log).map callOfSig := by
  unfold told
  rw [List.map_filterMap]
  congr 1
  funext e
  cases e <;> simp only [fed, sigOf, Option.map_none] <;> split <;> rfl

theorem meaning_calls (msg : E → Bytes) (id : UInt32) (l : List (Seen E Pay)) :
    ((l.map (frameOf msg id)).flatMap meaning).map callOfSig = l.flatMap (callsOf msg) := by
  induction l with
  | nil => rfl
  | cons x l ih =>
    rw [List.map_cons, List.flatMap_cons, List.flatMap_cons, List.map_append, ih]
    congr 1
    cases x <;> rfl

theorem deliver_calls (msg : E → Bytes) {l : List (Seen E Pay)} (h : Grammar l) :
    deliver (l.flatMap (callsOf msg)) = l.map (text msg) := by
  obtain ⟨vs, t, rfl, ht⟩ := h
  induction vs with
  | nil => rcases ht with rfl | rfl | ⟨e, rfl⟩ <;> rfl
  | cons v vs ih =>
    rw [List.map_cons, List.cons_append, List.flatMap_cons, List.map_cons, ← ih]
    rfl

theorem grammar_take {W : Type} {l : List (Seen E W)} (h : Grammar l) (k : Nat) : Grammar (l.take k) := by
  obtain ⟨vs, t, rfl, ht⟩ := h
  rw [List.take_append, ← List.map_take]
  refine ⟨vs.take k, _, rfl, ?_⟩
  rcases ht with rfl | rfl | ⟨e, rfl⟩
  · left; simp
  · cases hk : k - (vs.map (Seen.next (E := E))).length with
    | zero => left; rfl
    | succ n => right; left; simp
  · cases hk : k - (vs.map (Seen.next (E := E))).length with
    | zero => left; rfl
    | succ n => right; right; exact ⟨e, by simp⟩

/-- The frames a connection received, among its actions. -/
def recvs : List Act → List Frame
  | [] => []
  | .recv f :: as => f :: recvs as
  | _ :: as => recvs as

/-- The frame answers the call with this id. -/
def isAnswer (id : UInt32) (f : Frame) : Bool := decide (f.streamID = id) && answers f

theorem answered_recvs (id : UInt32) (as : List Act) : answered id as = (recvs as).filter (isAnswer id) := by
  induction as with
  | nil => rfl
  | cons a as ih =>
    rw [answered_cons, ih]
    cases a <;> simp only [answered, arrived, recvs, List.filter_nil, List.nil_append]
    rename_i f
    by_cases h : f.streamID = id <;> by_cases h' : answers f = true <;> simp [isAnswer, h, h']

theorem isAnswer_received (id : UInt32) (f : Frame) :
    isAnswer id (Iota.Props.Frames.received f) = isAnswer id f ∧
      (isAnswer id f = true → Iota.Props.Frames.received f = f) := by
  cases f with
  | request v => exact ⟨rfl, fun h => by simp [isAnswer, answers] at h⟩
  | _ => exact ⟨rfl, fun _ => rfl⟩

theorem filter_received (id : UInt32) (fs : List Frame) :
    (fs.map Iota.Props.Frames.received).filter (isAnswer id) = fs.filter (isAnswer id) := by
  induction fs with
  | nil => rfl
  | cons f fs ih =>
    rw [List.map_cons, List.filter_cons, List.filter_cons, (isAnswer_received id f).1, ih]
    split
    · rename_i h
      rw [(isAnswer_received id f).2 h]
    · rfl

/-- A beginning of a list has a beginning of what a filter keeps of it. -/
theorem filter_take {α : Type} (p : α → Bool) (l : List α) (k : Nat) : ∃ m, (l.take k).filter p = (l.filter p).take m := by
  induction l generalizing k with
  | nil => exact ⟨0, by simp⟩
  | cons x l ih =>
    cases k with
    | zero => exact ⟨0, rfl⟩
    | succ k =>
      obtain ⟨m, hm⟩ := ih k
      rw [List.take_succ_cons, List.filter_cons, List.filter_cons]
      split
      · exact ⟨m + 1, by rw [hm]; rfl⟩
      · exact ⟨m, hm⟩

/-! ## C136 -/

/-- **C136** at the level of frames: the caller's connection has handled the frames `fs` and the responder sent for
the call what the serving subscriber sent. -/
theorem stream_over_frames {reg : Reg H} {id : UInt32} {before after : List Act} {a : Act} {c1 c : Conn H}
    (h1 : Conn.run reg Conn.init before = .ok c1) (fresh : ∀ b ∈ before, ¬ uses id b) (ha : Opens id a)
    (h2 : Conn.run reg c1 (a :: after) = .ok c) (msg : E → Bytes) (l : List (Seen E Pay)) (hg : Grammar l)
    (hs : answered id after = l.map (frameOf msg id)) :
    deliver (c.log.filterMap (fed c1.st.objs.length)) = l.map (text msg) := by
  rw [fed_told]
  obtain ⟨vs, t, hl, ht⟩ := hg
  have := told_whole h1 fresh ha h2 (xs := (vs.map Seen.next).map (frameOf msg id)) (t := t.map (frameOf msg id))
    (by rw [hs, hl, List.map_append])
    (by intro f hf; rw [List.map_map] at hf; obtain ⟨v, _, rfl⟩ := List.mem_map.mp hf; rfl)
    (by rcases ht with rfl | rfl | ⟨e, rfl⟩
        · exact .inl rfl
        · exact .inr ⟨_, rfl⟩
        · exact .inr ⟨_, rfl⟩)
  rw [this, ← List.map_append, ← hl, meaning_calls, deliver_calls msg ⟨vs, t, hl, ht⟩]

/-- No answer arrives under an id nobody used: the connection would have ended. -/
theorem unanswered {reg : Reg H} {id : UInt32} {as : List Act} {c c' : Conn H} (hu : Unused id c)
    (fresh : ∀ b ∈ as, ¬ uses id b) (h : Conn.run reg c as = .ok c') : answered id as = [] := by
  induction as generalizing c with
  | nil => rfl
  | cons a as ih =>
    simp only [Conn.run] at h
    cases hs : c.step reg a with
    | err e => rw [hs] at h; cases h
    | panic => rw [hs] at h; cases h
    | ok c1 =>
      rw [hs] at h
      have ha := fresh a List.mem_cons_self
      rw [answered_cons, ih (unused_step hu ha hs) (fun b hb => fresh b (List.mem_cons_of_mem _ hb)) h, List.append_nil]
      cases hx : answered id [a] with
      | nil => rfl
      | cons f r =>
        obtain ⟨p, q, hpq, _, _, hid, hf⟩ := split_last (xs := []) hx
        have he : a = .recv f := by
          cases p with
          | nil => exact (List.cons.injEq .. ▸ hpq).1
          | cons y p => simp at hpq
        subst he
        have hn : getStream c.st f.streamID = none := by rw [hid]; exact unused_lookup hu
        have ht : f.type ≥ tRequestN ∧ f.type ≠ tRequestN := by
          cases f with
          | request v => cases hf
          | requestN v => cases hf
          | _ => simp only [Frame.type]; decide
        simp [Conn.step, handleFrame, ht.1, ht.2, hn] at hs

theorem recvs_append (as bs : List Act) : recvs (as ++ bs) = recvs as ++ recvs bs := by
  induction as with
  | nil => rfl
  | cons a as ih => cases a <;> simp [recvs, ih]

theorem answered_append (id : UInt32) (as bs : List Act) : answered id (as ++ bs) = answered id as ++ answered id bs := by
  unfold answered; rw [arrived_append, List.filter_append]

theorem grammar_deliverMap {W : Type} (tx : V → Except E W) (cs : List (Flux.Call V E)) : Grammar (deliverMap tx cs) := by
  induction cs with
  | nil => exact ⟨[], [], rfl, Or.inl rfl⟩
  | cons x cs ih =>
    cases x with
    | next v =>
      simp only [deliverMap]
      split
      · exact Iota.Props.Flux.grammar_cons _ ih
      · exact ⟨[], _, rfl, .inr (.inr ⟨_, rfl⟩)⟩
    | complete => exact ⟨[], _, rfl, .inr (.inl rfl)⟩
    | error e => exact ⟨[], _, rfl, .inr (.inr ⟨_, rfl⟩)⟩
    | cancel => exact ⟨[], [], rfl, .inl rfl⟩

/-- **C136** (part) A stream from end to end. On the responding side a handler's flux is served by subscriber `i`; its
source, its other users and any number of goroutines act as they like. The frames of the connection go over the wire
in any order that keeps those of the stream in theirs, mixed with any other frames, flushed or not, cut into reads at
will. On the calling side, any execution with a call under an id nobody used before, in which the first `k` frames
that come out of the decoder have been handled. The call's flux is subscribed to once, before anything is pushed, and
is not cancelled. Then the callbacks of that subscriber have seen a beginning of what the source told the serving
subscriber up to its first end, values as the handler's `flux.Map` transforms them (if it uses one) and errors as their
text; and all of it if all frames have been handled.

Missing: transforms that fail; `map_failure_ends_connection_refuted`. -/
theorem stream_end_to_end_partial (msg : E → Bytes) (id : UInt32)
    -- the responding side
    (cfg : Flux.Cfg V E Pay) (xs : List V) (as : List (Flux.Action V E)) (s : Flux.State V E Pay)
    (hr : Flux.run cfg (Flux.init xs) as = some s) (i : Nat) (b : Flux.Subscriber E)
    (hb : s.subs[i]? = some b) (hserve : b.h = serve) (hnf : neverFails cfg.tx (calls i s.log) = true)
    -- the wire
    (sends : List (Frame × Bool)) (hl : ∀ p ∈ sends, Iota.Props.Frames.Legal p.1 ∧ p.1.size < 2 ^ 24)
    (hsent : (sends.map Prod.fst).filter (isAnswer id) = sent msg id i s.log)
    (w : Framing.Writer)
    (hw : Framing.runOps Iota.Props.Framing.newWriter (sends.flatMap (fun p => Framing.sendOps p.1 p.2) ++ [.flush]) = .ok w)
    (evs : List Framing.Ev) (hev : ∀ e ∈ evs, e.stalls ≤ 100) (final : Framing.IoErr) (n k : Nat) (hn : sends.length < n)
    -- the calling side
    (reg : Reg H) (before after : List Act) (a : Act) (c1 c : Conn H)
    (h1 : Conn.run reg Conn.init before = .ok c1) (fresh : ∀ b ∈ before, ¬ uses id b) (ha : Opens id a)
    (h2 : Conn.run reg c1 (a :: after) = .ok c)
    (hrecv : recvs (before ++ a :: after) =
      ((Framing.recvAll n (Framing.newDecoder ⟨w.sent, evs, false, final⟩)).1.map Prod.fst).take k)
    (host' : Bool) (pre post : List (Block.FAct Pay Bytes)) (g : Nat) (hd : Flux.Handlers) (x : Block.FluxProc Pay Bytes)
    (hx : Block.FluxProc.new.run host' (pre ++ .subscribe g hd :: post) = some x)
    (hpre : ∀ a ∈ pre, Block.isNew a = false ∧ Block.pushedCall a = none ∧ ∀ g j, a ≠ .cancel g j)
    (hpost : ∀ a ∈ post, Block.isNew a = false ∧ ∀ g j, a ≠ .cancel g j)
    (hfed : post.filterMap Block.pushedCall = c.log.filterMap (fed c1.st.objs.length))
    (b' : Flux.Subscriber Bytes) (hb' : x.m.subs[0]? = some b') :
    (∃ m, Spec.Flux.seen 0 x.m.log = (((deliverMap cfg.tx (calls i s.log)).take m).map (text msg)).filter (wanted b'.h)) ∧
    (sends.length ≤ k →
      Spec.Flux.seen 0 x.m.log = ((deliverMap cfg.tx (calls i s.log)).map (text msg)).filter (wanted b'.h)) := by
  have hseen : Spec.Flux.seen i s.log = deliverMap cfg.tx (calls i s.log) := by
    rw [(Iota.Props.Flux.map_flux_partial cfg xs as s hr i b hb hnf).1, hserve]
    apply List.filter_eq_self.mpr
    intro y _; cases y <;> rfl
  have hgram : Grammar (deliverMap cfg.tx (calls i s.log)) := grammar_deliverMap _ _
  obtain ⟨w', e1, _, e2⟩ := Iota.Props.Framing.framing_roundtrip sends hl
  rw [hw] at e1; cases e1
  have hR := (e2 evs final n hev hn).1
  rw [hR] at hrecv
  have hin : answered id after = ((sends.map fun p => Iota.Props.Frames.received p.1).take k).filter (isAnswer id) := by
    rw [← hrecv, ← answered_recvs, answered_append,
      unanswered (c := Conn.init) ⟨⟨by simp [Conn.init, State.init], by simp [Conn.init, State.init]⟩, by simp [Conn.init]⟩ fresh h1,
      List.nil_append, answered_cons]
    rcases ha with rfl | ⟨b, rfl⟩ <;> rfl
  have hall : (sends.map fun p => Iota.Props.Frames.received p.1).filter (isAnswer id) =
      (deliverMap cfg.tx (calls i s.log)).map (frameOf msg id) := by
    rw [← hseen, ← sent_seen, ← hsent, ← filter_received id (sends.map Prod.fst), List.map_map]; rfl
  have key : ∀ l : List (Seen E Pay), Grammar l → answered id after = l.map (frameOf msg id) →
      Spec.Flux.seen 0 x.m.log = (l.map (text msg)).filter (wanted b'.h) := by
    intro l hg hs
    rw [Block.fluxProc_one_partial host' pre post g hd x hx hpre hpost b' hb', hfed,
      stream_over_frames h1 fresh ha h2 msg l hg hs]
  constructor
  · obtain ⟨m, hm⟩ := filter_take (isAnswer id) (sends.map fun p => Iota.Props.Frames.received p.1) k
    exact ⟨m, key _ (grammar_take hgram m) (by rw [hin, hm, hall, List.map_take])⟩
  · intro hk
    refine key _ hgram ?_
    rw [hin, List.take_of_length_le (by simpa using hk), hall]

/-- The actions of a handler's source that emits two values and completes, while it is served. -/
def emits : List (Flux.Action Pay Bytes) :=
  [.subscribe 0 serve, .onSubscribe 0 0 true true, .ret 0, .request 0 0 5, .start 1 0, .signal 1 0 (.next ([7], [])), .ret 1,
   .signal 1 0 (.next ([8], [1])), .ret 1, .signal 1 0 .complete, .ret 1, .ret 1]

/-- What its responder sends, with the answer of another call in between. -/
def emitted : List (Frame × Bool) :=
  [(.payload ⟨3, [], [7], false, false, true⟩, false), (.payload ⟨1, [], [9], false, true, true⟩, true),
   (.payload ⟨3, [1], [8], false, false, true⟩, false), (.payload ⟨3, [], [], false, true, false⟩, true)]

/-- The caller's side: the frames are handled while it does other things. -/
def handled : List Act := [.recv (.payload ⟨3, [], [7], false, false, true⟩), .recv (.payload ⟨1, [], [9], false, true, true⟩),
  .openMono 5, .recv (.payload ⟨3, [1], [8], false, false, true⟩), .recv (.payload ⟨3, [], [], false, true, false⟩)]

/-- What happens to the processor of the call after the subscription. -/
def pushed : List (Block.FAct Pay Bytes) :=
  [.next 1 ([7], []), .ret 1, .next 1 ([8], [1]), .ret 1, .complete 1, .ret 1, .ret 1]

/-- The hypotheses of `stream_end_to_end_partial` are met. -/
example : ∃ s w c1 c x, Flux.run (Iota.Props.Flux.plain true .user) (Flux.init []) emits = some s ∧
    (s.subs[0]?.map (·.h) = some serve) ∧ neverFails (V := Pay) (E := Bytes) (W := Pay) .ok (calls 0 s.log) = true ∧
    (emitted.map Prod.fst).filter (isAnswer 3) = sent id 3 0 s.log ∧
    Framing.runOps Iota.Props.Framing.newWriter (emitted.flatMap (fun p => Framing.sendOps p.1 p.2) ++ [.flush]) = .ok w ∧
    Conn.run reg4 Conn.init [.openMono 1] = .ok c1 ∧ Conn.run reg4 c1 (.openFlux 3 false :: handled) = .ok c ∧
    recvs ([.openMono 1] ++ .openFlux 3 false :: handled) =
      ((Framing.recvAll 9 (Framing.newDecoder ⟨w.sent, [], false, .eof⟩)).1.map Prod.fst).take 4 ∧
    Block.FluxProc.new.run true ([.onSubscribe 0 true true] ++ .subscribe 0 Iota.Props.Flux.all :: pushed) = some x ∧
    pushed.filterMap Block.pushedCall = c.log.filterMap (fed c1.st.objs.length) ∧
    Spec.Flux.seen 0 x.m.log = [.next ([7], []), .next ([8], [1]), .complete] := by
  obtain ⟨w, h1, _, h2⟩ := Iota.Props.Framing.framing_roundtrip emitted (by decide)
  refine ⟨_, w, _, _, _, rfl, rfl, by decide, by decide, h1, rfl, rfl, ?_, rfl, by decide, by decide⟩
  rw [(h2 [] .eof 9 (by simp) (by decide)).1]
  rfl

/-- **C136** fails for a handler that returns `flux.Map` of something, when the transform fails and the source goes on,
as it has no way to notice (C20): ERROR is followed by PAYLOAD. The caller has forgotten the stream by then, unless it
was the first of its connection, and the whole connection ends. This is so for every transform and all values. -/
theorem map_failure_ends_connection_refuted (msg : E → Bytes) (tx : V → Except E Pay) (v u : V) (e : E) (p : Pay)
    (hv : tx v = .error e) (hu : tx u = .ok p) (reg : Reg H) :
    ∃ s, Flux.run ⟨true, .user, tx⟩ (Flux.init [])
      [.subscribe 0 serve, .ret 0, .signal 0 0 (.next v), .ret 0, .signal 0 0 (.next u), .ret 0] = some s ∧
    sent msg 3 0 s.log = [.error ⟨3, 0, msg e⟩, .payload ⟨3, p.2, p.1, false, false, true⟩] ∧
    (∃ c, Conn.run reg Conn.init [.openMono 1, .openFlux 3 false, .recv (.error ⟨3, 0, msg e⟩)] = .ok c ∧
      told 1 c.log = [.error (msg e), .complete]) ∧
    Conn.run reg Conn.init ([.openMono 1, .openFlux 3 false] ++ (sent msg 3 0 s.log).map .recv) = .err notFound := by
  have hrun : ∃ s, Flux.run ⟨true, .user, tx⟩ (Flux.init [])
      [.subscribe 0 serve, .ret 0, .signal 0 0 (.next v), .ret 0, .signal 0 0 (.next u), .ret 0] = some s ∧
      sent msg 3 0 s.log = [.error ⟨3, 0, msg e⟩, .payload ⟨3, p.2, p.1, false, false, true⟩] := by
    simp [Flux.run, Flux.step, Flux.subscribe, Flux.addSub, Flux.push, Flux.resume, Flux.pop, Flux.proceed, Flux.init,
      Flux.handleOnSubscribe, serve, Flux.signal, Flux.tell, Flux.callNext, hv, hu, Flux.emit, Flux.setSub, Flux.mapFinally,
      Flux.endNext, sent, sendOf]
    rfl
  obtain ⟨s, h1, h2⟩ := hrun
  have hop : Conn.run reg Conn.init [.openMono 1, .openFlux 3 false] =
      .ok (⟨openFlux (openMono State.init 1) 3 false, [], []⟩ : Conn H) := rfl
  have app : ∀ {as bs : List Act} {c c' : Conn H}, Conn.run reg c as = .ok c' → Conn.run reg c (as ++ bs) = Conn.run reg c' bs := by
    intro as bs c c' h
    induction as generalizing c with
    | nil => cases h; rfl
    | cons a as ih =>
      simp only [List.cons_append, Conn.run] at h ⊢
      cases hs : c.step reg a with
      | err e => rw [hs] at h; cases h
      | panic => rw [hs] at h; cases h
      | ok c1 => rw [hs] at h; exact ih h
  have herr : Conn.step reg (⟨openFlux (openMono State.init 1) 3 false, [], []⟩ : Conn H) (.recv (.error ⟨3, 0, msg e⟩)) =
      .ok ⟨removeStream (openFlux (openMono State.init 1) 3 false) 3, [], [.error 1 (msg e), .complete 1]⟩ := by
    have g : getStream (openFlux (openMono State.init 1) 3 false) 3 = some 1 := by decide
    have t : (Frame.error ⟨3, 0, msg e⟩).type ≥ tRequestN := by simp only [Frame.type]; decide
    have k : (openFlux (openMono State.init 1) 3 false).objs[1]? = some (.flux none) := by decide
    have d : ∀ ev : Ev H, Handler.deliver (openFlux (openMono State.init 1) 3 false) 1 ev = .ok [ev] := by
      intro ev; unfold Handler.deliver; rw [k]; rfl
    have hf : handleFrame (openFlux (openMono State.init 1) 3 false) (.error ⟨3, 0, msg e⟩) = .ok (⟨removeStream (openFlux (openMono State.init 1) 3 false) 3, [],
        [.error 1 (msg e), .complete 1]⟩ : Out H) := by
      unfold handleFrame
      rw [if_pos t, show (Frame.error ⟨3, 0, msg e⟩).streamID = 3 from rfl, g]
      simp only [dispatch, d]
      rfl
    simp only [Conn.step, hf]
    rfl
  have hpay : Conn.step reg (⟨removeStream (openFlux (openMono State.init 1) 3 false) 3, [],
      [.error 1 (msg e), .complete 1]⟩ : Conn H) (.recv (.payload ⟨3, p.2, p.1, false, false, true⟩)) = .err notFound := by
    have g : getStream (removeStream (openFlux (openMono State.init 1) 3 false) 3) 3 = none := by decide
    have t : (Frame.payload ⟨3, p.2, p.1, false, false, true⟩).type ≥ tRequestN ∧
        (Frame.payload ⟨3, p.2, p.1, false, false, true⟩).type ≠ tRequestN := by simp only [Frame.type]; decide
    have hf : handleFrame (H := H) (removeStream (openFlux (openMono State.init 1) 3 false) 3)
        (.payload ⟨3, p.2, p.1, false, false, true⟩) = .err notFound := by
      unfold handleFrame
      rw [if_pos t.1, show (Frame.payload ⟨3, p.2, p.1, false, false, true⟩).streamID = 3 from rfl, g]
      exact if_pos t.2
    simp only [Conn.step, hf]
    rfl
  refine ⟨s, h1, h2, ⟨⟨removeStream (openFlux (openMono State.init 1) 3 false) 3, [], [.error 1 (msg e), .complete 1]⟩, ?_, rfl⟩, ?_⟩
  · show Conn.run reg Conn.init ([.openMono 1, .openFlux 3 false] ++ [.recv (.error ⟨3, 0, msg e⟩)]) = _
    rw [app hop]
    simp only [Conn.run, herr]
    rfl
  · rw [app hop, h2]
    simp only [Conn.run, List.map, herr, Res.ok_bind, hpay]
    rfl

end Iota.Props.Streamed
