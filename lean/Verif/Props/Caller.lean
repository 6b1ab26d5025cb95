import Verif.Props.Handler
import Verif.Spec.Caller

/-!
# What a caller sees (C77)

The counterpart of `frame_acts_on_own_stream`: frames are not only kept from other streams, each one reaches the
stream it names, once and in order, whatever else the connection does in between.
-/

namespace Iota.Props.Caller
open Go Iota.Frames Iota.Registry Iota.Handler Iota.Props.Handler Iota.Spec.Lookup Iota.Spec.Caller

variable {H : Type}

/-- What an event tells the stream at position `i`. -/
def sigOf (i : Nat) : Ev H → Option Sig
  | .next j d m => if j = i then some (.next d m) else none
  | .complete j => if j = i then some .complete else none
  | .error j m => if j = i then some (.error m) else none
  | _ => none

/-- What the stream at position `i` was told, oldest first. -/
def told (i : Nat) (log : List (Ev H)) : List Sig := log.filterMap (sigOf i)

/-- The action uses the id for a stream: a local call or a request of the peer. -/
def uses (id : UInt32) : Act → Prop
  | .openMono id' => id' = id
  | .openFlux id' _ => id' = id
  | .recv (.request v) => v.streamID = id
  | _ => False

/-- The frames with the id among the actions. -/
def arrived (id : UInt32) : List Act → List Frame
  | [] => []
  | .recv f :: as => if f.streamID = id then f :: arrived id as else arrived id as
  | _ :: as => arrived id as

/-! ## No stream under an id nobody used -/

/-- A goroutine that will register a stream under the id. -/
def Task.uses (id : UInt32) : Task → Prop
  | .request _ id' _ _ _ => id' = id
  | _ => False

/-- Nothing is or will be registered under the id. -/
def Unused (id : UInt32) (c : Conn H) : Prop :=
  Entries (fun id' _ => id' ≠ id) c.st ∧ ∀ t ∈ c.tasks, ¬ Task.uses id t

theorem entries_objs {P : UInt32 → Nat → Prop} {st : State} (h : Entries P st) (os : List Obj) :
    Entries P { st with objs := os } := ⟨h.1, h.2⟩

theorem unused_step {reg : Reg H} {id : UInt32} {c c' : Conn H} {a : Act} (hu : Unused id c) (ha : ¬ uses id a)
    (h : c.step reg a = .ok c') : Unused id c' := by
  cases a with
  | recv f =>
    simp only [Conn.step] at h
    cases ho : handleFrame (H := H) c.st f with
    | err e => rw [ho] at h; cases h
    | panic => rw [ho] at h; cases h
    | ok o =>
      rw [ho] at h; cases h
      by_cases hf : ∃ v, f = .request v
      · obtain ⟨v, rfl⟩ := hf
        obtain ⟨h1, _, h3⟩ := handle_request ho
        refine ⟨by simpa [Conn.after, h1] using hu.1, ?_⟩
        intro t ht
        rcases List.mem_append.mp ht with ht | ht
        · exact hu.2 t ht
        · rw [h3] at ht
          cases hk : kindOf v.frameType with
          | none => rw [hk] at ht; cases ht
          | some k => rw [hk] at ht; simp at ht; subst ht; exact ha
      · have hf : ∀ v, f ≠ .request v := fun v hv => hf ⟨v, hv⟩
        rcases handle_other hf ho with ⟨_, rfl⟩ | ⟨i, _, hd⟩
        · exact ⟨hu.1, by simpa [Conn.after] using hu.2⟩
        · obtain ⟨_, h2, h3, _⟩ := dispatch_shape hf hd
          constructor
          · simp only [Conn.after]
            rcases h2 with h2 | h2 <;> rw [h2]
            · exact hu.1
            · exact hu.1.removed _
          · intro t ht
            rcases List.mem_append.mp ht with ht | ht
            · exact hu.2 t ht
            · obtain ⟨n, rfl⟩ := h3 t ht; exact fun h => h
  | task j live =>
    simp only [Conn.step] at h
    split at h
    · cases h; exact hu
    · rename_i t ht
      have hm := List.mem_of_getElem? ht
      have hrest : ∀ t ∈ c.tasks.eraseIdx j, ¬ Task.uses id t := fun t h => hu.2 t (List.mem_of_mem_eraseIdx h)
      cases ho : runTask reg live c.st t with
      | err e => rw [ho] at h; cases h
      | panic => rw [ho] at h; cases h
      | ok o =>
        rw [ho] at h; cases h
        suffices hs : Entries (fun id' _ => id' ≠ id) o.st ∧ ∀ t ∈ o.tasks, ¬ Task.uses id t by
          refine ⟨hs.1, fun t ht => ?_⟩
          rcases List.mem_append.mp ht with ht | ht
          · exact hrest t ht
          · exact hs.2 t ht
        cases t with
        | request k id' data md n =>
          have hne : id' ≠ id := hu.2 _ hm
          simp only [runTask, handleRequest] at ho
          split at ho
          · cases ho; exact ⟨hu.1, by simp⟩
          · rename_i hl
            obtain ⟨op, h3, _⟩ := index_long hl
            rw [h3] at ho
            simp only [Res.ok_bind] at ho
            split at ho
            · cases ho; exact ⟨hu.1, by simp⟩
            · cases ho; cases k
              · exact ⟨hu.1, by simp [accept]⟩
              · exact ⟨(entries_objs hu.1 _).registered hne, by simp [accept]⟩
              · exact ⟨(entries_objs hu.1 _).registered hne, by simp [accept, Task.uses]⟩
              · exact ⟨(entries_objs hu.1 _).registered hne, by simp [accept, Task.uses]⟩
        | attach i n =>
          simp only [runTask] at ho
          split at ho <;> cases ho
          exact ⟨entries_objs hu.1 _, by simp⟩
        | demand i n =>
          simp only [runTask] at ho
          split at ho
          · cases ho
          · split at ho <;> cases ho; exact ⟨hu.1, by simp⟩
  | openMono id' => cases h; exact ⟨(entries_objs hu.1 _).registered ha, hu.2⟩
  | openFlux id' b => cases h; exact ⟨(entries_objs hu.1 _).registered ha, hu.2⟩
  | startIn i b => cases h; exact ⟨entries_objs hu.1 _, hu.2⟩
  | openSink i => cases h; exact ⟨entries_objs hu.1 _, hu.2⟩

theorem unused_run {reg : Reg H} {id : UInt32} {as : List Act} {c c' : Conn H} (hu : Unused id c)
    (ha : ∀ a ∈ as, ¬ uses id a) (h : Conn.run reg c as = .ok c') : Unused id c' := by
  induction as generalizing c with
  | nil => cases h; exact hu
  | cons a as ih =>
    simp only [Conn.run] at h
    cases hs : c.step reg a with
    | err e => rw [hs] at h; cases h
    | panic => rw [hs] at h; cases h
    | ok c1 =>
      rw [hs] at h
      exact ih (unused_step hu (ha a List.mem_cons_self) hs) (fun b hb => ha b (List.mem_cons_of_mem _ hb)) h

theorem unused_lookup {id : UInt32} {c : Conn H} (h : Unused id c) : getStream c.st id = none := by
  cases hg : getStream c.st id with
  | none => rfl
  | some i => exact absurd rfl (h.1.lookup hg)

/-! ## The stream of a call -/

theorem sticky_get_add_none {S : Type} {t : Sticky S} {id : UInt32} (s : S) (h : t.get id = none) :
    (t.add id s).get id = some s := by
  unfold Sticky.get at h
  simp only [Sticky.get, Sticky.add, List.find?_append]
  cases hf : t.entries.find? fun e => e.1 = id with
  | none => simp
  | some e => rw [hf] at h; cases h

theorem sticky_get_add_some {S : Type} {t : Sticky S} {id id' : UInt32} {s s' : S} (h : t.get id = some s) :
    (t.add id' s').get id = some s := by
  unfold Sticky.get at h
  simp only [Sticky.get, Sticky.add, List.find?_append]
  cases hf : t.entries.find? fun e => e.1 = id with
  | none => rw [hf] at h; cases h
  | some e => rw [hf] at h; simpa using h

theorem get_register_none {st : State} {id : UInt32} (i : Nat) (h : getStream st id = none) :
    getStream (registerStream st id i) id = some i := by
  unfold getStream at h
  unfold getStream registerStream
  split <;> rename_i hp <;> simp only [hp, if_true, if_false] at h ⊢
  · exact sticky_get_add_none i h
  · exact sticky_get_add_none i h

theorem get_register_some {st : State} {id id' : UInt32} {i j : Nat} (h : getStream st id = some i) :
    getStream (registerStream st id' j) id = some i := by
  unfold getStream at h
  unfold getStream registerStream
  split at h <;> rename_i hp <;> simp only [hp, if_true, if_false]
  · split
    · exact sticky_get_add_some h
    · exact h
  · split
    · exact h
    · exact sticky_get_add_some h

/-- The stream at `i` is the one of the call with the id: it is found, it can take events, and it is found under
no other id. -/
structure Own (id : UInt32) (i : Nat) (st : State) : Prop where
  found : getStream st id = some i
  sink : st.objs[i]? = some .mono ∨ ∃ b, st.objs[i]? = some (.flux b)
  only : Entries (fun id' j => j = i → id' = id) st

theorem Own.lt {id : UInt32} {i : Nat} {st : State} (h : Own id i st) : i < st.objs.length := by
  rcases h.sink with h | ⟨b, h⟩ <;> exact (List.getElem?_eq_some_iff.mp h).1

theorem Own.hasSink {id : UInt32} {i : Nat} {st : State} (h : Own id i st) :
    ∃ o, st.objs[i]? = some o ∧ o.hasSink = true := by
  rcases h.sink with h | ⟨b, h⟩
  · exact ⟨_, h, rfl⟩
  · exact ⟨_, h, rfl⟩

theorem Own.register {id : UInt32} {i : Nat} {st : State} (h : Own id i st) (id' : UInt32) (o : Obj) :
    Own id i (registerStream { st with objs := st.objs ++ [o] } id' st.objs.length) := by
  have hlt := h.lt
  refine ⟨get_register_some (st := { st with objs := st.objs ++ [o] }) h.found, ?_, ?_⟩
  · rw [registerStream_objs]
    simp only [List.getElem?_append_left hlt]
    exact h.sink
  · exact (entries_objs h.only _).registered fun e => by omega

theorem Own.modify {id : UInt32} {i : Nat} {st : State} (h : Own id i st) (j : Nat) (g : Obj → Obj)
    (hm : g .mono = .mono) (hf : ∀ b, ∃ b', g (.flux b) = .flux b') : Own id i { st with objs := st.objs.modify j g } := by
  refine ⟨h.found, ?_, entries_objs h.only _⟩
  simp only [List.getElem?_modify]
  rcases h.sink with h | ⟨b, h⟩
  · left; rw [h]; split <;> simp [hm]
  · right
    rw [h]
    split
    · obtain ⟨b', hb⟩ := hf b; exact ⟨b', by simp [hb]⟩
    · exact ⟨b, rfl⟩

theorem Own.remove {id id' : UInt32} {i : Nat} {st : State} (h : Own id i st) (hne : id ≠ id') :
    Own id i (removeStream st id') := by
  refine ⟨(getStream_remove st hne).trans h.found, ?_, h.only.removed _⟩
  have : (removeStream st id').objs = st.objs := by unfold removeStream; split <;> rfl
  rw [this]; exact h.sink

theorem deliver_own {id : UInt32} {i : Nat} {st : State} (h : Own id i st) (e : Ev H) : deliver st i e = .ok [e] := by
  obtain ⟨o, ho, hs⟩ := h.hasSink
  rw [deliver_panic ho, if_pos hs]

/-- A frame for the stream that answers the call is handled, and its meaning is delivered. -/
theorem answer_handled {id : UInt32} {i : Nat} {st : State} (h : Own id i st) {f : Frame} (hid : f.streamID = id)
    (ha : answers f = true) : ∃ o : Out H, handleFrame st f = .ok o ∧ told i o.evs = meaning f ∧ o.tasks = [] ∧
      (ends f = false → o.st = st) := by
  have ht : f.type ≥ tRequestN := by
    cases f with
    | request v => cases ha
    | _ => simp only [Frame.type]; decide
  unfold handleFrame
  rw [if_pos ht, hid, h.found]
  cases f with
  | request v => cases ha
  | requestN v => cases ha
  | cancel v =>
    simp only [dispatch, deliver_own h]
    exact ⟨_, rfl, by simp [told, sigOf, meaning], rfl, fun he => by cases he⟩
  | error v =>
    simp only [dispatch, deliver_own h]
    exact ⟨_, rfl, by simp [told, sigOf, meaning], rfl, fun he => by cases he⟩
  | payload v =>
    simp only [dispatch, deliverIf, deliver_own h]
    cases hn : v.next <;> cases hc : v.complete <;>
      exact ⟨_, rfl, by simp [told, sigOf, meaning, hn, hc], rfl, fun he => by simp_all [ends]⟩

theorem sigOf_requested (i j : Nat) (n : UInt32) : sigOf i (.requested j n : Ev H) = none := rfl

/-- A step that is not the end of the call keeps its stream, and tells it what the frame means, if it is one. -/
theorem own_step {reg : Reg H} {id : UInt32} {i : Nat} {c c' : Conn H} {a : Act} (ho : Own id i c.st)
    (hne : ∀ f, a = .recv f → f.streamID = id → ends f = false) (h : c.step reg a = .ok c') :
    Own id i c'.st ∧ told i c'.log = told i c.log ++ (arrived id [a]).flatMap meaning := by
  cases a with
  | recv f =>
    simp only [Conn.step] at h
    cases hd : handleFrame (H := H) c.st f with
    | err e => rw [hd] at h; cases h
    | panic => rw [hd] at h; cases h
    | ok o =>
      rw [hd] at h; cases h
      simp only [Conn.after, told, List.filterMap_append]
      by_cases hf : ∃ v, f = .request v
      · obtain ⟨v, rfl⟩ := hf
        obtain ⟨h1, h2, _⟩ := handle_request hd
        rw [h1, h2]
        refine ⟨ho, ?_⟩
        simp only [arrived]
        split <;> simp [meaning]
      · have hf : ∀ v, f ≠ .request v := fun v hv => hf ⟨v, hv⟩
        by_cases hid : f.streamID = id
        · by_cases ha : answers f = true
          · obtain ⟨o', h1, h2, _, h4⟩ := answer_handled (H := H) ho hid ha
            rw [h1] at hd; cases hd
            refine ⟨by rw [h4 (hne f rfl hid)]; exact ho, ?_⟩
            have h2 : o.evs.filterMap (sigOf i) = meaning f := h2
            simp [h2, arrived, hid]
          · cases f with
            | request v => exact absurd rfl (hf v)
            | requestN v =>
              rcases handle_other hf hd with ⟨_, rfl⟩ | ⟨j, _, hd⟩
              · exact ⟨ho, by simp [arrived, hid, meaning]⟩
              · simp only [dispatch] at hd
                split at hd
                · cases hd
                · split at hd <;> cases hd
                  exact ⟨ho, by simp [arrived, hid, meaning]⟩
            | cancel v => exact absurd rfl ha
            | error v => exact absurd rfl ha
            | payload v => exact absurd rfl ha
        · rcases handle_other hf hd with ⟨_, rfl⟩ | ⟨j, hj, hd⟩
          · exact ⟨ho, by simp [arrived, hid]⟩
          · obtain ⟨h1, h2, _, h4⟩ := dispatch_shape hf hd
            have hji : j ≠ i := fun e => hid (ho.only.lookup hj e)
            constructor
            · rcases h2 with h2 | h2 <;> rw [h2]
              · exact ho
              · exact ho.remove (Ne.symm hid)
            · have : o.evs.filterMap (sigOf i) = [] := by
                rw [List.filterMap_eq_nil_iff]
                intro e he
                rcases h4 e he with ⟨d, m, rfl⟩ | rfl | ⟨m, rfl⟩ <;> simp [sigOf, hji]
              simp [this, arrived, hid]
  | task j live =>
    simp only [Conn.step] at h
    split at h
    · cases h; exact ⟨ho, by simp [arrived]⟩
    · rename_i t ht
      cases hd : runTask reg live c.st t with
      | err e => rw [hd] at h; cases h
      | panic => rw [hd] at h; cases h
      | ok o =>
        rw [hd] at h; cases h
        simp only [Conn.after, told, List.filterMap_append, arrived, List.flatMap_nil, List.append_nil]
        suffices hs : Own id i o.st ∧ o.evs.filterMap (sigOf i) = [] by
          exact ⟨hs.1, by rw [hs.2, List.append_nil]⟩
        cases t with
        | request k id' data md n =>
          simp only [runTask, handleRequest] at hd
          split at hd
          · cases hd; exact ⟨ho, rfl⟩
          · rename_i hl
            obtain ⟨op, h3, _⟩ := index_long hl
            rw [h3] at hd
            simp only [Res.ok_bind] at hd
            split at hd
            · cases hd; exact ⟨ho, rfl⟩
            · cases hd; cases k
              · exact ⟨ho, rfl⟩
              · exact ⟨ho.register _ _, rfl⟩
              · exact ⟨ho.register _ _, rfl⟩
              · exact ⟨ho.register _ _, rfl⟩
        | attach j n =>
          simp only [runTask] at hd
          split at hd <;> cases hd
          exact ⟨ho.modify _ _ rfl fun b => ⟨b, rfl⟩, rfl⟩
        | demand j n =>
          simp only [runTask] at hd
          split at hd
          · cases hd
          · split at hd <;> cases hd; exact ⟨ho, rfl⟩
  | openMono id' => cases h; exact ⟨ho.register _ _, by simp [arrived]⟩
  | openFlux id' b => cases h; exact ⟨ho.register _ _, by simp [arrived]⟩
  | startIn j b =>
    cases h
    refine ⟨ho.modify _ _ rfl fun b => ?_, by simp [arrived]⟩
    cases b <;> exact ⟨_, rfl⟩
  | openSink j => cases h; exact ⟨ho.modify _ _ rfl fun b => ⟨b, rfl⟩, by simp [arrived]⟩

theorem arrived_cons (id : UInt32) (a : Act) (as : List Act) : arrived id (a :: as) = arrived id [a] ++ arrived id as := by
  cases a <;> simp only [arrived, List.nil_append]
  split <;> rfl

theorem own_run {reg : Reg H} {id : UInt32} {i : Nat} {as : List Act} {c c' : Conn H} (ho : Own id i c.st)
    (hne : ∀ f ∈ arrived id as, ends f = false) (h : Conn.run reg c as = .ok c') :
    Own id i c'.st ∧ told i c'.log = told i c.log ++ (arrived id as).flatMap meaning := by
  induction as generalizing c with
  | nil => cases h; exact ⟨ho, by simp [arrived]⟩
  | cons a as ih =>
    simp only [Conn.run] at h
    cases hs : c.step reg a with
    | err e => rw [hs] at h; cases h
    | panic => rw [hs] at h; cases h
    | ok c1 =>
      rw [hs] at h
      rw [arrived_cons] at hne ⊢
      have h1 := own_step ho (fun f hf hid => hne f (by subst hf; simp [arrived, hid])) hs
      have h2 := ih h1.1 (fun f hf => hne f (List.mem_append_right _ hf)) h
      exact ⟨h2.1, by rw [h2.2, h1.2, List.flatMap_append, List.append_assoc]⟩

/-- The actions that make a call with the id. -/
def Opens (id : UInt32) (a : Act) : Prop := a = .openMono id ∨ ∃ b, a = .openFlux id b

theorem objs_grow {reg : Reg H} {c c' : Conn H} {a : Act} (h : c.step reg a = .ok c') :
    c.st.objs.length ≤ c'.st.objs.length := by
  cases a with
  | recv f =>
    simp only [Conn.step] at h
    cases hd : handleFrame (H := H) c.st f with
    | err e => rw [hd] at h; cases h
    | panic => rw [hd] at h; cases h
    | ok o =>
      rw [hd] at h; cases h
      by_cases hf : ∃ v, f = .request v
      · obtain ⟨v, rfl⟩ := hf
        simp [Conn.after, (handle_request hd).1]
      · have hf : ∀ v, f ≠ .request v := fun v hv => hf ⟨v, hv⟩
        simp [Conn.after, (frame_acts_on_own_stream _ f hf o hd).2.1]
  | task j live =>
    simp only [Conn.step] at h
    split at h
    · cases h; omega
    · rename_i t ht
      cases hd : runTask reg live c.st t with
      | err e => rw [hd] at h; cases h
      | panic => rw [hd] at h; cases h
      | ok o =>
        rw [hd] at h; cases h
        simp only [Conn.after]
        cases t with
        | request k id' data md n =>
          simp only [runTask, handleRequest] at hd
          split at hd
          · cases hd; simp
          · rename_i hl
            obtain ⟨op, h3, _⟩ := index_long hl
            rw [h3] at hd
            simp only [Res.ok_bind] at hd
            split at hd
            · cases hd; simp
            · cases hd; cases k <;> simp [accept, registerStream_objs]
        | attach j n =>
          simp only [runTask] at hd
          split at hd <;> cases hd
          simp
        | demand j n =>
          simp only [runTask] at hd
          split at hd
          · cases hd
          · split at hd <;> cases hd; simp
  | openMono id' => cases h; simp [openMono, registerStream_objs]
  | openFlux id' b => cases h; simp [openFlux, registerStream_objs]
  | startIn j b => cases h; simp [startIn]
  | openSink j => cases h; simp [openSink]

/-- Nothing is told to a stream that does not exist yet. -/
def Untold (c : Conn H) : Prop := ∀ i, c.st.objs.length ≤ i → told i c.log = []

theorem untold_step {reg : Reg H} {c c' : Conn H} {a : Act} (hw : Wf' c.st) (hu : Untold c)
    (h : c.step reg a = .ok c') : Untold c' := by
  intro i hi
  have hg := objs_grow h
  have hc := hu i (by omega)
  cases a with
  | recv f =>
    simp only [Conn.step] at h
    cases hd : handleFrame (H := H) c.st f with
    | err e => rw [hd] at h; cases h
    | panic => rw [hd] at h; cases h
    | ok o =>
      rw [hd] at h; cases h
      simp only [Conn.after, told, List.filterMap_append]
      have hc : c.log.filterMap (sigOf i) = [] := hc
      rw [hc, List.nil_append]
      by_cases hf : ∃ v, f = .request v
      · obtain ⟨v, rfl⟩ := hf
        rw [(handle_request hd).2.1]; rfl
      · have hf : ∀ v, f ≠ .request v := fun v hv => hf ⟨v, hv⟩
        rw [List.filterMap_eq_nil_iff]
        intro e he
        obtain ⟨j, h1, h2⟩ := (frame_acts_on_own_stream _ f hf o hd).2.2.1 e he
        have hlt := hw.wf _ _ h2
        cases e <;> simp only [sigOf, Ev.target, Option.some.injEq] at h1 ⊢ <;> first
          | rfl
          | (rw [if_neg]; omega)
  | task j live =>
    simp only [Conn.step] at h
    split at h
    · cases h; exact hc
    · rename_i t ht
      cases hd : runTask reg live c.st t with
      | err e => rw [hd] at h; cases h
      | panic => rw [hd] at h; cases h
      | ok o =>
        rw [hd] at h; cases h
        simp only [Conn.after, told, List.filterMap_append]
        have hc : c.log.filterMap (sigOf i) = [] := hc
        rw [hc, List.nil_append]
        cases t with
        | request k id' data md n =>
          simp only [runTask, handleRequest] at hd
          split at hd
          · cases hd; rfl
          · rename_i hl
            obtain ⟨op, h3, _⟩ := index_long hl
            rw [h3] at hd
            simp only [Res.ok_bind] at hd
            split at hd
            · cases hd; rfl
            · cases hd; cases k <;> rfl
        | attach j n =>
          simp only [runTask] at hd
          split at hd <;> cases hd
          rfl
        | demand j n =>
          simp only [runTask] at hd
          split at hd
          · cases hd
          · split at hd <;> cases hd; rfl
  | openMono id' => cases h; exact hc
  | openFlux id' b => cases h; exact hc
  | startIn j b => cases h; exact hc
  | openSink j => cases h; exact hc

theorem untold_run {reg : Reg H} {as : List Act} {c c' : Conn H} (hw : Wf' c.st) (hu : Untold c)
    (h : Conn.run reg c as = .ok c') : Untold c' := by
  induction as generalizing c with
  | nil => cases h; exact hu
  | cons a as ih =>
    simp only [Conn.run] at h
    cases hs : c.step reg a with
    | err e => rw [hs] at h; cases h
    | panic => rw [hs] at h; cases h
    | ok c1 => rw [hs] at h; exact ih (wf_step hw hs) (untold_step hw hu hs) h

theorem open_own {reg : Reg H} {id : UInt32} {c c' : Conn H} {a : Act} (hw : Wf' c.st) (hn : getStream c.st id = none)
    (hu : Untold c) (ha : Opens id a) (h : c.step reg a = .ok c') :
    Own id c.st.objs.length c'.st ∧ told c.st.objs.length c'.log = [] := by
  have key : ∀ o : Obj, (o = .mono ∨ ∃ b, o = .flux b) →
      Own id c.st.objs.length (registerStream { c.st with objs := c.st.objs ++ [o] } id c.st.objs.length) := by
    intro o ho
    refine ⟨get_register_none (st := { c.st with objs := c.st.objs ++ [o] }) _ hn, ?_, ?_⟩
    · rw [registerStream_objs]
      rcases ho with rfl | ⟨b, rfl⟩
      · left; simp
      · right; exact ⟨b, by simp⟩
    · refine Entries.registered ?_ fun _ => rfl
      have := Entries.mono (Q := fun id' j => j = c.st.objs.length → id' = id) hw fun id' j hj e => by omega
      exact entries_objs this _
  rcases ha with rfl | ⟨b, rfl⟩
  · cases h; exact ⟨key _ (.inl rfl), hu _ (Nat.le_refl _)⟩
  · cases h; exact ⟨key _ (.inr ⟨_, rfl⟩), hu _ (Nat.le_refl _)⟩

/-- **C77** (part) A caller sees what the peer sends for its call, while the call lasts. Take any execution in
which a call is made under an id nobody used before, followed by anything at all in which no frame ends that
stream: other calls, requests of the peer (even under the same id), frames for other streams, goroutines in any
order. The stream of the call has then been told exactly what the frames under its id mean, in order. The next
PAYLOAD, ERROR or CANCEL frame under the id is handled without error or panic and its meaning is told too.

Missing: nothing is said about frames that come after the last one of the stream; `late_frames_refuted`. -/
theorem caller_sees_partial (reg : Reg H) (id : UInt32) (before after : List Act) (a : Act) (c1 c : Conn H)
    (h1 : Conn.run reg Conn.init before = .ok c1) (fresh : ∀ b ∈ before, ¬ uses id b) (ha : Opens id a)
    (h2 : Conn.run reg c1 (a :: after) = .ok c) (open' : ∀ f ∈ arrived id after, ends f = false) :
    told c1.st.objs.length c.log = (arrived id after).flatMap meaning ∧
    ∀ f, f.streamID = id → answers f = true → ∃ c', c.step reg (.recv f) = .ok c' ∧
      told c1.st.objs.length c'.log = (arrived id after).flatMap meaning ++ meaning f := by
  have hn : getStream c1.st id = none :=
    unused_lookup (unused_run (c := Conn.init) ⟨⟨by simp [Conn.init, State.init], by simp [Conn.init, State.init]⟩,
      by simp [Conn.init]⟩ fresh h1)
  have hw := wf_run wf_init h1
  have hu := untold_run (c := Conn.init) wf_init (fun _ _ => rfl) h1
  simp only [Conn.run] at h2
  cases hs : c1.step reg a with
  | err e => rw [hs] at h2; cases h2
  | panic => rw [hs] at h2; cases h2
  | ok c2 =>
    rw [hs] at h2
    obtain ⟨ho, ht⟩ := open_own hw hn hu ha hs
    obtain ⟨ho', ht'⟩ := own_run ho open' h2
    rw [ht, List.nil_append] at ht'
    refine ⟨ht', fun f hid hf => ?_⟩
    obtain ⟨o, e1, e2, _, _⟩ := answer_handled (H := H) ho' hid hf
    refine ⟨c.after o, by simp only [Conn.step, e1]; rfl, ?_⟩
    have e2 : o.evs.filterMap (sigOf c1.st.objs.length) = meaning f := e2
    have ht' : c.log.filterMap (sigOf c1.st.objs.length) = _ := ht'
    simp only [Conn.after, told, List.filterMap_append, e2, ht']

/-- Two calls; the elements of the stream arrive between frames of the other, a request of the peer under the
same id runs in between. -/
example : ∃ c, Conn.run reg4 (Conn.init (H := Nat)) [.openMono 1, .openFlux 3 false, .recv (.payload ⟨3, [], [7], false, false, true⟩),
      .recv (req 6 3 1), .recv (.payload ⟨1, [], [9], false, true, true⟩), .task 0 true,
      .recv (.payload ⟨3, [1], [8], false, false, true⟩), .recv (.error ⟨3, 0, [6]⟩)] = .ok c ∧
    told 1 c.log = [.next [7] [], .next [8] [1], .error [6], .complete] ∧ told 0 c.log = [.next [9] [], .complete] :=
  ⟨_, rfl, by decide, by decide⟩

/-- **C77** fails after the last frame: the first stream of a connection is never forgotten (C13), and it is told
whatever arrives under its id later. Here a mono is completed twice, the second time with other data. -/
theorem late_frames_refuted : ∃ c, Conn.run reg4 (Conn.init (H := Nat)) [.openMono 1, .recv (.payload ⟨1, [], [7], false, true, true⟩),
      .recv (.payload ⟨1, [], [8], false, true, true⟩)] = .ok c ∧
    told 0 c.log = [.next [7] [], .complete, .next [8] [], .complete] := ⟨_, rfl, by decide⟩

end Iota.Props.Caller
