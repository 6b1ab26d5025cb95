import Verif.Model.FrameSender
import Verif.Spec.FrameSender
import Verif.Props.Handler

/-!
# Theorems about where the frames of a handler go
-/

namespace Iota.Props.FrameSender
open Go Iota.Frames Iota.Registry Iota.Handler Iota.FrameSender Iota.Spec.FrameSender

variable {H : Type}

/-- The connection behind a frame sender. -/
def behind : Target → Option Nat
  | .unset => none
  | .self => none
  | .conn i => some i

/-- The notes of the model in the terms of the specification. -/
def told : Iota.FrameSender.Note → Spec.FrameSender.Note Frame
  | .set t => .joined (behind t)
  | .sent f => .sent f

/-- The connection an end is joined to in the end. -/
def final (cur : Option Nat) : List (Spec.FrameSender.Note Frame) → Option Nat
  | [] => cur
  | .joined j :: ns => final j ns
  | .sent _ :: ns => final cur ns

theorem carried_append (i : Nat) (cur : Option Nat) (a b : List (Spec.FrameSender.Note Frame)) :
    carried i cur (a ++ b) = carried i cur a ++ carried i (final cur a) b := by
  induction a generalizing cur with
  | nil => rfl
  | cons n a ih =>
    cases n with
    | joined j => exact ih j
    | sent f =>
      simp only [List.cons_append, carried, final]
      split
      · rw [ih, List.cons_append]
      · exact ih cur

theorem final_append (cur : Option Nat) (a b : List (Spec.FrameSender.Note Frame)) : final cur (a ++ b) = final (final cur a) b := by
  induction a generalizing cur with
  | nil => rfl
  | cons n a ih => cases n <;> exact ih _

/-- What holds at all times. -/
structure Inv (e : End H) : Prop where
  wire : ∀ i, e.wire i = carried i none (e.notes.map told)
  cur : behind e.target = final none (e.notes.map told)

theorem inv_send {e e' : End H} {f : Frame} (hi : Inv e) (h : send e f = .ok e') : Inv e' ∧ e'.target = e.target ∧ e'.notes = e.notes ++ [.sent f] := by
  have hc : final none ((e.notes ++ [Iota.FrameSender.Note.sent f]).map told) = behind e.target := by
    rw [List.map_append, final_append, ← hi.cur]; rfl
  have hw : ∀ i, carried i none ((e.notes ++ [Iota.FrameSender.Note.sent f]).map told) = if behind e.target = some i then e.wire i ++ [f] else e.wire i := by
    intro i
    rw [List.map_append, carried_append, ← hi.cur, ← hi.wire]
    simp only [List.map_cons, List.map_nil, told, carried]
    split <;> simp
  unfold send call at h
  cases ht : e.target with
  | unset => rw [ht] at h; cases h
  | self =>
    rw [ht] at h hc hw
    have hw' : ∀ i, e.wire i = carried i none ((e.notes ++ [Iota.FrameSender.Note.sent f]).map told) := fun i => by rw [hw]; simp [behind]
    simp only [loop] at h
    split at h
    · cases h; exact ⟨⟨hw', hc.symm⟩, rfl, rfl⟩
    · cases h; exact ⟨⟨hw', hc.symm⟩, rfl, rfl⟩
    · cases h
  | conn j =>
    rw [ht] at h hc hw
    cases h
    refine ⟨⟨fun i => ?_, hc.symm⟩, rfl, rfl⟩
    rw [hw]
    simp only [behind, Option.some.injEq]
    by_cases h : j = i
    · rw [if_pos h, if_pos h.symm]
    · rw [if_neg h, if_neg fun x => h x.symm]

theorem bind_ok {α β : Type} {x : Res α} {f : α → Res β} {b : β} (h : (x >>= f) = .ok b) : ∃ a, x = .ok a ∧ f a = .ok b := by
  cases x with
  | ok a => exact ⟨a, rfl, h⟩
  | err e => cases h
  | panic => cases h

theorem inv_all {fs : List Frame} {e e' : End H} (hi : Inv e) (h : sendAll e fs = .ok e') :
    Inv e' ∧ e'.target = e.target ∧ e'.notes = e.notes ++ fs.map .sent := by
  induction fs generalizing e with
  | nil => cases h; exact ⟨hi, rfl, by simp⟩
  | cons f fs ih =>
    obtain ⟨e1, h1, h2⟩ := bind_ok h
    obtain ⟨i1, t1, n1⟩ := inv_send hi h1
    obtain ⟨i2, t2, n2⟩ := ih i1 h2
    exact ⟨i2, by rw [t2, t1], by rw [n2, n1]; simp⟩

theorem inv_step {reg : Reg H} {e e' : End H} {a : Iota.FrameSender.Act} (hi : Inv e) (h : step reg e a = .ok e') : Inv e' := by
  have hset : ∀ t, Inv (setSender e t) := fun t =>
    ⟨fun i => by
      rw [setSender, List.map_append, carried_append, ← hi.wire]
      simp [told, carried], by
      rw [setSender, List.map_append, final_append]; rfl⟩
  cases a with
  | newTransport => cases h; exact hset _
  | attach i => cases h; exact hset _
  | inside a =>
    obtain ⟨c, _, h⟩ := bind_ok h
    exact (inv_all (e := { e with c := c }) ⟨hi.wire, hi.cur⟩ h).1
  | send f => exact (inv_send hi h).1

theorem inv_run {reg : Reg H} {as : List Iota.FrameSender.Act} {e e' : End H} (hi : Inv e) (h : run reg e as = .ok e') : Inv e' := by
  induction as generalizing e with
  | nil => cases h; exact hi
  | cons a as ih =>
    obtain ⟨e1, h1, h2⟩ := bind_ok h
    exact ih (inv_step hi h1) h2

theorem inv_init : Inv (End.init (H := H)) := ⟨fun _ => rfl, rfl⟩

/-- **C186** In every run, a connection carries exactly the frames that were sent while its transport was the frame sender of
the handler, in this order. -/
theorem frames_carried (reg : Reg H) (as : List Iota.FrameSender.Act) (e : End H) (h : run reg End.init as = .ok e) (i : Nat) :
    e.wire i = carried i none (e.notes.map told) := (inv_run inv_init h).wire i

/-- Neither `NewTransport` nor `SetFrameSender`. -/
def Left : Iota.FrameSender.Act → Prop
  | .newTransport => False
  | .attach _ => False
  | .inside _ => True
  | .send _ => True

/-- The notes and the frame sender of a handler that is left alone. -/
theorem left_step {reg : Reg H} {e e' : End H} {a : Iota.FrameSender.Act} (hi : Inv e) (ha : Left a) (h : step reg e a = .ok e') :
    e'.target = e.target ∧ ∃ fs : List Frame, e'.notes = e.notes ++ fs.map .sent := by
  cases a with
  | newTransport => exact ha.elim
  | attach i => exact ha.elim
  | inside a =>
    obtain ⟨c, _, h⟩ := bind_ok h
    obtain ⟨_, h1, h2⟩ := inv_all (e := { e with c := c }) ⟨hi.wire, hi.cur⟩ h
    exact ⟨h1, _, h2⟩
  | send f =>
    obtain ⟨_, h1, h2⟩ := inv_send hi h
    exact ⟨h1, [f], h2⟩

theorem left_run {reg : Reg H} {as : List Iota.FrameSender.Act} {e e' : End H} (hi : Inv e) (ha : ∀ a ∈ as, Left a) (h : run reg e as = .ok e') :
    e'.target = e.target ∧ ∃ fs : List Frame, e'.notes = e.notes ++ fs.map .sent := by
  induction as generalizing e with
  | nil => cases h; exact ⟨rfl, [], by simp⟩
  | cons a as ih =>
    obtain ⟨e1, h1, h2⟩ := bind_ok h
    obtain ⟨t1, f1, n1⟩ := left_step hi (ha a List.mem_cons_self) h1
    obtain ⟨t2, f2, n2⟩ := ih (inv_step hi h1) (fun b hb => ha b (List.mem_cons_of_mem _ hb)) h2
    exact ⟨by rw [t2, t1], f1 ++ f2, by rw [n2, n1]; simp⟩

theorem carried_sent (i : Nat) (cur : Option Nat) (fs : List Frame) :
    carried i cur (fs.map .sent) = if cur = some i then fs else [] := by
  induction fs with
  | nil => simp [carried]
  | cons f fs ih =>
    simp only [List.map_cons, carried, ih]
    split <;> rfl

theorem everything_sent (fs : List Frame) : everything (fs.map Spec.FrameSender.Note.sent) = fs := by
  induction fs with
  | nil => rfl
  | cons f fs ih => simp only [List.map_cons, everything, ih]

theorem told_sent (fs : List Frame) : (fs.map Iota.FrameSender.Note.sent).map told = fs.map Spec.FrameSender.Note.sent := by
  simp [told, Function.comp_def]

/-- **C186 (partial)** Full statement: whatever the handler of a transport sends is carried by the connection of the transport.
Proved for the handlers that `NewClient` and `Listen` make: everything they send is carried by their own connection, in order, no other
connection carries any of it, and sending never crashes. Missing: the exported constructors `NewTransport` and
`NewTCPClientTransport` on their own (`own_transport_refuted`). -/
theorem client_frames_partial (reg : Reg H) (i : Nat) (as : List Iota.FrameSender.Act) (ha : ∀ a ∈ as, Left a) (e : End H)
    (h : run reg End.init (wired i ++ as) = .ok e) :
    e.wire i = everything (e.notes.map told) ∧ (∀ j, j ≠ i → e.wire j = []) ∧
    (∀ f, ∃ e', send e f = .ok e' ∧ e'.wire i = e.wire i ++ [f]) := by
  have hi := inv_run inv_init h
  have h' : run reg (setSender (setSender End.init .self) (.conn i)) as = .ok e := h
  have hi' : Inv (setSender (setSender (End.init (H := H)) .self) (.conn i)) := ⟨fun _ => rfl, rfl⟩
  obtain ⟨ht, fs, hn⟩ := left_run hi' ha h'
  have hn : e.notes.map told = [.joined none, .joined (some i)] ++ fs.map .sent := by rw [hn, List.map_append, told_sent]; rfl
  have hw : ∀ j, e.wire j = if some i = some j then fs else [] := by
    intro j; rw [hi.wire, hn]; exact carried_sent j (some i) fs
  refine ⟨?_, fun j hj => ?_, fun f => ?_⟩
  · rw [hw, if_pos rfl, hn]; exact (everything_sent fs).symm
  · rw [hw, if_neg]; intro hc; exact hj (Option.some.inj hc).symm
  · have ht : e.target = .conn i := ht
    exact ⟨_, by rw [send, call]; simp only [ht]; rfl, by simp⟩

/-- The frames among events. -/
def framesIn : List (Ev H) → List Frame
  | [] => []
  | .sent f :: es => f :: framesIn es
  | _ :: es => framesIn es

theorem filterMap_frames (es : List (Ev H)) : es.filterMap frameOf = framesIn es := by
  induction es with
  | nil => rfl
  | cons e es ih => cases e <;> simp only [List.filterMap_cons, frameOf, framesIn, ih]

theorem sendAll_conn {i : Nat} (fs : List Frame) (e : End H) (ht : e.target = .conn i) :
    ∃ e', sendAll e fs = .ok e' ∧ e'.c = e.c ∧ e'.wire i = e.wire i ++ fs := by
  induction fs generalizing e with
  | nil => exact ⟨e, rfl, rfl, by simp⟩
  | cons f fs ih =>
    have h1 : send e f = .ok { e with notes := e.notes ++ [.sent f], wire := fun j => if j = i then e.wire j ++ [f] else e.wire j } := by
      rw [send, call]; simp only [ht]
    obtain ⟨e', h2, h3, h4⟩ := ih { e with notes := e.notes ++ [.sent f], wire := fun j => if j = i then e.wire j ++ [f] else e.wire j } ht
    exact ⟨e', by rw [sendAll, h1]; exact h2, h3, by rw [h4]; simp⟩

/-- **C186** At every moment of a handler that `NewClient` or `Listen` made: what it is made to send is written to its connection as it
is, and a step of its own is possible whenever it is without a connection, has the same effects, and what it sends is written, in this
order. -/
theorem client_step (reg : Reg H) (i : Nat) (as : List Iota.FrameSender.Act) (ha : ∀ a ∈ as, Left a) (e : End H)
    (h : run reg End.init (wired i ++ as) = .ok e) :
    (∀ f, ∃ e', step reg e (.send f) = .ok e' ∧ e'.c = e.c ∧ e'.wire i = e.wire i ++ [f]) ∧
    (∀ a c, e.c.step reg a = .ok c → ∃ e', step reg e (.inside a) = .ok e' ∧ e'.c = c ∧
      e'.wire i = e.wire i ++ framesIn (c.log.drop e.c.log.length)) := by
  have h' : run reg (setSender (setSender End.init .self) (.conn i)) as = .ok e := h
  have hi' : Inv (setSender (setSender (End.init (H := H)) .self) (.conn i)) := ⟨fun _ => rfl, rfl⟩
  have ht : e.target = .conn i := (left_run hi' ha h').1
  refine ⟨fun f => ?_, fun a c hc => ?_⟩
  · obtain ⟨e', h1, h2, h3⟩ := sendAll_conn [f] e ht
    obtain ⟨e1, h4, h5⟩ := bind_ok (x := send e f) h1
    cases h5
    exact ⟨e', h4, h2, h3⟩
  · obtain ⟨e', h1, h2, h3⟩ := sendAll_conn ((c.log.drop e.c.log.length).filterMap frameOf) { e with c := c } ht
    refine ⟨e', by rw [step, hc]; exact h1, h2, ?_⟩
    rw [h3, filterMap_frames]

/-- **C186 is false of the code** for a handler that was given to `NewTransport` or `NewTCPClientTransport` and to nothing else: no
connection ever carries a frame, whatever happens and whatever is sent. -/
theorem own_transport_refuted (reg : Reg H) (as : List Iota.FrameSender.Act) (ha : ∀ a ∈ as, Left a) (e : End H)
    (h : run reg End.init (.newTransport :: as) = .ok e) (i : Nat) : e.wire i = [] := by
  have hi := inv_run inv_init h
  have h' : run reg (setSender End.init .self) as = .ok e := h
  have hi' : Inv (setSender (End.init (H := H)) .self) := ⟨fun _ => rfl, rfl⟩
  obtain ⟨ht, fs, hn⟩ := left_run hi' ha h'
  have hn : e.notes.map told = [.joined none] ++ fs.map .sent := by rw [hn, List.map_append, told_sent]; rfl
  rw [hi.wire, hn]
  exact (carried_sent i none fs).trans (if_neg (by simp))

/-- **C186 is false of the code** also for a client that is given to `NewTransport` once more: from then on its connection carries
nothing. -/
theorem second_transport_refuted (reg : Reg H) (i : Nat) (as bs : List Iota.FrameSender.Act) (hb : ∀ a ∈ bs, Left a) (e e' : End H)
    (h : run reg End.init (wired i ++ as) = .ok e) (h' : run reg e (.newTransport :: bs) = .ok e') : e'.wire = e.wire := by
  have hi := inv_run inv_init h
  have hs : Inv (setSender e .self) := inv_step (reg := reg) (a := .newTransport) hi rfl
  have h'' : run reg (setSender e .self) bs = .ok e' := h'
  obtain ⟨ht, fs, hn⟩ := left_run hs hb h''
  have hi2 := inv_run hs h''
  funext j
  rw [hi2.wire, hi.wire, hn]
  simp only [setSender, List.map_append, told_sent, List.append_assoc]
  rw [carried_append]
  have : carried j (final none (e.notes.map told)) ([Iota.FrameSender.Note.set Target.self].map told ++ fs.map Spec.FrameSender.Note.sent) = [] :=
    (carried_sent j none fs).trans (if_neg (by simp))
  rw [this, List.append_nil]

/-- **C186** A handler that was given to no transport crashes when it sends something. -/
theorem unset_crashes_refuted (reg : Reg H) (as : List Iota.FrameSender.Act) (ha : ∀ a ∈ as, Left a) (e : End H)
    (h : run reg End.init as = .ok e) (f : Frame) : send e f = .panic := by
  obtain ⟨ht, _⟩ := left_run inv_init ha h
  have ht : e.target = .unset := ht
  rw [send, call]
  simp only [ht]

/-- **C186 is false of the code**: with `NewTransport` alone, a request goes to the handlers of the caller itself. Whatever has happened
before, the handler with this number is run in the own process. -/
theorem own_handler_refuted (reg : Reg H) (as : List Iota.FrameSender.Act) (ha : ∀ a ∈ as, Left a) (e : End H)
    (h : run reg End.init (.newTransport :: as) = .ok e) (k : Kind) (h0 : H) (op : UInt32) (v : RequestPayload) (live : Bool)
    (hk : kindOf v.frameType = some k) (ht : v.frameType < tRequestN) (hm : ¬ v.metadata.length < 8) (ho : getU32 v.metadata = .ok op)
    (hh : getHandler reg k op = some h0) :
    ∃ e1 e2, send e (.request v) = .ok e1 ∧ step reg e1 (.inside (.task e.c.tasks.length live)) = .ok e2 ∧
      e2.c.log = e.c.log ++ [.invoked k h0 v.streamID v.data (passedMetadata k v.metadata)] ∧ e2.wire = e.wire := by
  have h' : run reg (setSender End.init .self) as = .ok e := h
  have hi' : Inv (setSender (End.init (H := H)) .self) := ⟨fun _ => rfl, rfl⟩
  obtain ⟨hta, _⟩ := left_run hi' ha h'
  have hta : e.target = .self := hta
  have hf : handleFrame (H := H) e.c.st (.request v) = .ok ⟨e.c.st, [.request k v.streamID v.data v.metadata v.initialN], []⟩ := by
    unfold handleFrame
    rw [if_neg (by simpa [Frame.type] using ht)]
    simp only [dispatch, hk]
  have ha : ∀ st, (accept st k h0 v.streamID v.data v.metadata v.initialN).evs = [.invoked k h0 v.streamID v.data (passedMetadata k v.metadata)] := by
    intro st; cases k <;> rfl
  refine ⟨{ e with c := e.c.after ⟨e.c.st, [.request k v.streamID v.data v.metadata v.initialN], []⟩, notes := e.notes ++ [.sent (.request v)] },
    { e with c := e.c.after (accept e.c.st k h0 v.streamID v.data v.metadata v.initialN), notes := e.notes ++ [.sent (.request v)] }, ?_, ?_, ?_, rfl⟩
  · rw [send, call]
    simp only [hta, loop, hf]
  · have hr : handleRequest reg e.c.st k v.streamID v.data v.metadata v.initialN = .ok (accept e.c.st k h0 v.streamID v.data v.metadata v.initialN) := by
      rw [handleRequest, if_neg hm, ho]
      simp only [Res.ok_bind, hh]
      rfl
    simp only [step, Conn.step, Conn.after, List.append_nil, runTask, hr, Res.ok_bind, List.getElem?_append_right (Nat.le_refl _), Nat.sub_self,
      List.getElem?_cons_zero, List.eraseIdx_append_of_length_le (Nat.le_refl _), List.eraseIdx_cons_zero]
    simp only [pure, Res.ok_bind, ha, List.drop_left, List.filterMap_cons, frameOf, List.filterMap_nil, sendAll]
  · simp only [Conn.after, List.append_nil, ha]

/-- **C186 is false of the code**: a single-result call through such a transport is answered by the handler of the caller itself,
for all arguments and results; nothing is sent to anyone. -/
theorem own_answer_refuted (reg : Reg H) (h0 : H) (op : UInt32) (data md out om : Bytes) (live : Bool) (hm : ¬ md.length < 8)
    (ho : getU32 md = .ok op) (hh : getHandler reg .rr op = some h0) :
    ∃ e, run reg End.init [.newTransport, .inside (.openMono 1), .send (.request ⟨tRequestResponse, 1, md, data, false, true, 1⟩),
        .inside (.task 0 live), .send (.payload ⟨1, om, out, false, true, true⟩)] = .ok e ∧
      e.c.log = [.invoked .rr h0 1 data (md.drop 8), .next 0 out om, .complete 0] ∧ ∀ i, e.wire i = [] := by
  have hr : handleRequest reg (openMono State.init 1) .rr 1 data md 1 =
      .ok ⟨openMono State.init 1, [], [.invoked .rr h0 1 data (md.drop 8)]⟩ := by
    rw [handleRequest, if_neg hm, ho]
    simp only [Res.ok_bind, hh]
    rfl
  have h1 : step reg (setSender End.init .self) (.inside (.openMono 1)) = .ok ⟨⟨openMono State.init 1, [], []⟩, .self, fun _ => [], [.set .self]⟩ := rfl
  have h2 : step reg ⟨⟨openMono State.init 1, [], []⟩, .self, fun _ => [], [.set .self]⟩
      (.send (.request ⟨tRequestResponse, 1, md, data, false, true, 1⟩)) =
      .ok ⟨⟨openMono State.init 1, [.request .rr 1 data md 1], []⟩, .self, fun _ => [],
        [.set .self, .sent (.request ⟨tRequestResponse, 1, md, data, false, true, 1⟩)]⟩ := rfl
  have h3 : step reg ⟨⟨openMono State.init 1, [.request .rr 1 data md 1], []⟩, .self, fun _ => [],
        [.set .self, .sent (.request ⟨tRequestResponse, 1, md, data, false, true, 1⟩)]⟩ (.inside (.task 0 live)) =
      .ok ⟨⟨openMono State.init 1, [], [.invoked .rr h0 1 data (md.drop 8)]⟩, .self, fun _ => [],
        [.set .self, .sent (.request ⟨tRequestResponse, 1, md, data, false, true, 1⟩)]⟩ := by
    simp only [step, Conn.step, List.getElem?_cons_zero, runTask, hr, Res.ok_bind]
    rfl
  have hg : getStream (openMono State.init 1) 1 = some 0 := by decide +kernel
  have h4 : handleFrame (H := H) (openMono State.init 1) (.payload ⟨1, om, out, false, true, true⟩) =
      .ok ⟨removeStream (openMono State.init 1) 1, [], [.next 0 out om, .complete 0]⟩ := by
    have ht : tPayload ≥ tRequestN := by decide
    simp only [handleFrame, Frame.type, if_pos ht, Frame.streamID, hg]
    have ho : (openMono State.init 1).objs[0]? = some .mono := by decide +kernel
    simp only [dispatch, deliverIf, if_true, deliver, ho, Obj.hasSink, Res.ok_bind]
    rfl
  refine ⟨⟨⟨removeStream (openMono State.init 1) 1, [], [.invoked .rr h0 1 data (md.drop 8), .next 0 out om, .complete 0]⟩, .self, fun _ => [],
    [.set .self, .sent (.request ⟨tRequestResponse, 1, md, data, false, true, 1⟩), .sent (.payload ⟨1, om, out, false, true, true⟩)]⟩, ?_, rfl, fun _ => rfl⟩
  · rw [run, step, Res.ok_bind, run, h1, Res.ok_bind, run, h2, Res.ok_bind, run, h3, Res.ok_bind, run, step, send, call, loop]
    simp only [h4]
    rfl

/-! ## Cases -/

/-- One handler for single results. -/
def one : Reg Nat := ⟨fun _ => [7], fun _ => [⟨[1], [1]⟩], fun _ => []⟩

def request1 : Frame := .request ⟨tRequestResponse, 1, [0, 0, 0, 0, 0, 0, 0, 0], [5], false, true, 1⟩

example : ∃ e, run one End.init (wired 3 ++ [.send request1, .inside (.recv (.request ⟨tRequestResponse, 2, [], [], false, true, 1⟩)), .inside (.task 0 true)]) = .ok e ∧
    e.wire 3 = [request1, errorFrame 2 (lit "Invalid metadata")] ∧ e.wire 2 = [] := ⟨_, rfl, rfl, rfl⟩

end Iota.Props.FrameSender
