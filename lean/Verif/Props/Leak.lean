import Verif.Props.Handler
import Verif.Spec.Leak

/-!
# What calls leave behind (C126)

An ended call should leave no entry in the tables of streams. Frames that end a call take its entry out, except for the
entries that the tables cannot give up (C13). But nobody takes out the streams that are registered for requests of the
peer: unless the peer sends a frame that ends them (a caller that gets all it asked for has no reason to), they stay.
-/

namespace Iota.Props.Leak
open Go Iota.Frames Iota.Registry Iota.Handler Iota.Spec.Lookup Iota.Spec.Leak Iota.Props.Handler

variable {H : Type}

/-! ## Counting entries -/

theorem remove_size {S : Type} (t : Sticky S) (id : UInt32) :
    (t.remove id).entries.length ≤ t.entries.length ∧ t.entries.length ≤ (t.remove id).entries.length + 1 := by
  unfold Sticky.remove
  split
  · exact ⟨Nat.le_refl _, by omega⟩
  · split
    · exact ⟨Nat.le_refl _, by simp⟩
    · simp only [List.length_eraseIdx]
      split <;> omega

theorem size_removed (st : State) (id : UInt32) :
    size (removeStream st id) ≤ size st ∧ size st ≤ size (removeStream st id) + 1 := by
  unfold removeStream size
  split
  · have := remove_size st.guest id; simp only; omega
  · have := remove_size st.host id; simp only; omega

theorem size_registered (st : State) (id : UInt32) (i : Nat) : size (registerStream st id i) = size st + 1 := by
  unfold registerStream size
  split <;> simp only [Sticky.add, List.length_append, List.length_cons, List.length_nil] <;> omega

theorem size_objs (st : State) (l : List Obj) : size { st with objs := l } = size st := rfl

theorem removed_objs (st : State) (id : UInt32) : (removeStream st id).objs = st.objs := by
  unfold removeStream; split <;> rfl

/-- A frame that ends nothing leaves the tables alone; the others take the stream out. -/
theorem dispatch_tables {st : State} {i : Nat} {f : Frame} {o : Out H} (hf : ∀ v, f ≠ .request v)
    (h : dispatch st (some i) f = .ok o) : o.st = if ends f then removeStream st f.streamID else st := by
  cases f with
  | request v => exact absurd rfl (hf v)
  | requestN v =>
    simp only [dispatch] at h
    split at h
    · cases h
    · split at h <;> cases h
      rfl
  | cancel v =>
    simp only [dispatch] at h
    cases hd : deliver (H := H) st i (.complete i) with
    | ok e => rw [hd] at h; cases h; rfl
    | err e => rw [hd] at h; cases h
    | panic => rw [hd] at h; cases h
  | payload v =>
    simp only [dispatch] at h
    cases hd : deliverIf (H := H) v.next st i (.next i v.data v.metadata) with
    | ok e =>
      rw [hd] at h; simp only [Res.ok_bind] at h
      cases hd' : deliverIf (H := H) v.complete st i (.complete i) with
      | ok e' => rw [hd'] at h; cases h; rfl
      | err e' => rw [hd'] at h; cases h
      | panic => rw [hd'] at h; cases h
    | err e => rw [hd] at h; cases h
    | panic => rw [hd] at h; cases h
  | error v =>
    simp only [dispatch] at h
    cases hd : deliver (H := H) st i (.error i v.data) with
    | ok e =>
      rw [hd] at h; simp only [Res.ok_bind] at h
      cases hd' : deliver (H := H) st i (.complete i) with
      | ok e' => rw [hd'] at h; cases h; rfl
      | err e' => rw [hd'] at h; cases h
      | panic => rw [hd'] at h; cases h
    | err e => rw [hd] at h; cases h
    | panic => rw [hd] at h; cases h

theorem served_append (a b : List (Ev H)) : served (a ++ b) = served a + served b := by
  simp [served, List.countP_append]

/-- What a frame does to the numbers. -/
theorem handle_size {st : State} {f : Frame} {o : Out H} (h : handleFrame st f = .ok o) :
    o.st.objs = st.objs ∧ size o.st ≤ size st ∧ size st ≤ size o.st + (if ends f then 1 else 0) ∧ served o.evs = 0 := by
  by_cases hf : ∃ v, f = .request v
  · obtain ⟨v, rfl⟩ := hf
    obtain ⟨h1, h2, _⟩ := handle_request h
    rw [h1, h2]
    exact ⟨rfl, Nat.le_refl _, by simp [ends], rfl⟩
  · have hf : ∀ v, f ≠ .request v := fun v hv => hf ⟨v, hv⟩
    rcases handle_other hf h with ⟨_, rfl⟩ | ⟨i, _, hd⟩
    · exact ⟨rfl, Nat.le_refl _, by simp, rfl⟩
    · obtain ⟨h1, _, _, h4⟩ := dispatch_shape hf hd
      refine ⟨h1, ?_⟩
      have e : served o.evs = 0 := by
        unfold served
        rw [List.countP_eq_zero]
        intro x hx
        rcases h4 x hx with ⟨d, m, rfl⟩ | rfl | ⟨m, rfl⟩ <;> simp
      rw [dispatch_tables hf hd]
      split
      · have := size_removed st f.streamID; exact ⟨this.1, this.2, e⟩
      · exact ⟨Nat.le_refl _, Nat.le_refl _, e⟩

/-- What a goroutine does to the numbers: a stream and an entry for each request served. -/
theorem task_size {reg : Reg H} {live : Bool} {st : State} {t : Task} {o : Out H} (h : runTask reg live st t = .ok o) :
    o.st.objs.length = st.objs.length + served o.evs ∧ size o.st = size st + served o.evs := by
  cases t with
  | request k id data md n =>
    simp only [runTask, handleRequest] at h
    split at h
    · cases h; exact ⟨rfl, rfl⟩
    · rename_i hl
      obtain ⟨op, h3, _⟩ := index_long hl
      rw [h3] at h
      simp only [Res.ok_bind] at h
      split at h
      · cases h; exact ⟨rfl, rfl⟩
      · cases h; cases k
        · exact ⟨rfl, rfl⟩
        all_goals
          refine ⟨?_, ?_⟩
          · simp [accept, registerStream_objs, served]
          · simp only [accept, size_registered]; rfl
  | attach i n =>
    simp only [runTask] at h
    split at h <;> cases h
    simp only [List.length_modify]
    exact ⟨rfl, rfl⟩
  | demand i n =>
    simp only [runTask] at h
    split at h
    · cases h
    · split at h <;> cases h
      exact ⟨rfl, rfl⟩

theorem step_size {reg : Reg H} {c c' : Conn H} {a : Act} (h : c.step reg a = .ok c') :
    c'.st.objs.length = c.st.objs.length + opened [a] + (served c'.log - served c.log) ∧ served c.log ≤ served c'.log ∧
    size c'.st ≤ size c.st + opened [a] + (served c'.log - served c.log) ∧
    size c.st + opened [a] + (served c'.log - served c.log) ≤ size c'.st + endings [a] := by
  cases a with
  | recv f =>
    simp only [Conn.step] at h
    cases ho : handleFrame (H := H) c.st f with
    | err e => rw [ho] at h; cases h
    | panic => rw [ho] at h; cases h
    | ok o =>
      rw [ho] at h; cases h
      obtain ⟨h1, h2, h3, h4⟩ := handle_size ho
      have e : endings [.recv f] = if ends f then 1 else 0 := by simp [endings, List.countP_cons]
      have e2 : opened [.recv f] = 0 := rfl
      simp only [Conn.after, served_append, h1, e2]
      omega
  | task i live =>
    simp only [Conn.step] at h
    split at h
    · cases h
      have e2 : opened [.task i live] = 0 := rfl
      have e1 : endings [.task i live] = 0 := rfl
      omega
    · rename_i t ht
      cases ho : runTask reg live c.st t with
      | err e => rw [ho] at h; cases h
      | panic => rw [ho] at h; cases h
      | ok o =>
        rw [ho] at h; cases h
        obtain ⟨h1, h2⟩ := task_size ho
        have e2 : opened [.task i live] = 0 := rfl
        have e1 : endings [.task i live] = 0 := rfl
        simp only [Conn.after, served_append]
        omega
  | openMono id =>
    cases h
    have e2 : opened [.openMono id] = 1 := rfl
    have e1 : endings [.openMono id] = 0 := rfl
    simp only [openMono, registerStream_objs, size_registered, size_objs, List.length_append, List.length_cons, List.length_nil]
    omega
  | openFlux id b =>
    cases h
    have e2 : opened [.openFlux id b] = 1 := rfl
    have e1 : endings [.openFlux id b] = 0 := rfl
    simp only [openFlux, registerStream_objs, size_registered, size_objs, List.length_append, List.length_cons, List.length_nil]
    omega
  | startIn i b =>
    cases h
    have e2 : opened [.startIn i b] = 0 := rfl
    have e1 : endings [.startIn i b] = 0 := rfl
    have : size (startIn c.st i b) = size c.st := rfl
    have : (startIn c.st i b).objs.length = c.st.objs.length := by simp [startIn]
    simp only
    omega
  | openSink i =>
    cases h
    have e2 : opened [.openSink i] = 0 := rfl
    have e1 : endings [.openSink i] = 0 := rfl
    have : size (openSink c.st i) = size c.st := rfl
    have : (openSink c.st i).objs.length = c.st.objs.length := by simp [openSink]
    simp only
    omega

theorem run_size {reg : Reg H} {acts : List Act} {c c' : Conn H} (h : Conn.run reg c acts = .ok c') :
    served c.log ≤ served c'.log ∧
    size c'.st ≤ size c.st + opened acts + (served c'.log - served c.log) ∧
    size c.st + opened acts + (served c'.log - served c.log) ≤ size c'.st + endings acts := by
  induction acts generalizing c with
  | nil =>
    cases h
    have e1 : opened [] = 0 := rfl
    have e2 : endings [] = 0 := rfl
    omega
  | cons a as ih =>
    simp only [Conn.run] at h
    cases ha : c.step reg a with
    | err e => rw [ha] at h; cases h
    | panic => rw [ha] at h; cases h
    | ok c1 =>
      rw [ha] at h
      have i1 := ih h
      have i2 := step_size ha
      have e1 : opened (a :: as) = opened [a] + opened as := by
        unfold opened; rw [← List.countP_append]; rfl
      have e2 : endings (a :: as) = endings [a] + endings as := by
        unfold endings; rw [← List.countP_append]; rfl
      omega

/-- **C126 (refuted).** In every run, the tables hold a stream for each request that was served (those for one result left
out) and for each call, less at most one for each frame of the peer that ends a call. So a responder that serves streams
to callers who take all of them, and so need not send such frames, keeps every one of them. -/
theorem served_stay_refuted (reg : Reg H) (acts : List Act) (c : Conn H) (h : Conn.run reg Conn.init acts = .ok c) :
    served c.log + opened acts ≤ size c.st + endings acts := by
  have := (run_size h).2.2
  have e1 : size (Conn.init (H := H)).st = 0 := rfl
  have e2 : served (Conn.init (H := H)).log = 0 := rfl
  omega

/-- Without frames that end something, the tables have grown by exactly the requests served and the calls. -/
theorem table_grows_refuted (reg : Reg H) (acts : List Act) (c : Conn H) (h : Conn.run reg Conn.init acts = .ok c)
    (he : endings acts = 0) : size c.st = served c.log + opened acts := by
  have := run_size h
  have e1 : size (Conn.init (H := H)).st = 0 := rfl
  have e2 : served (Conn.init (H := H)).log = 0 := rfl
  omega

/-! ## What goes -/

/-- **C126.** A request for one result, and a request that is refused, leave no entry. -/
theorem nothing_kept (reg : Reg H) (st : State) (live : Bool) (k : Kind) (id : UInt32) (data md : Bytes) (n : UInt32)
    (o : Out H) (h : runTask reg live st (.request k id data md n) = .ok o) (hk : k = .rr ∨ served o.evs = 0) : o.st = st := by
  simp only [runTask, handleRequest] at h
  split at h
  · cases h; rfl
  · rename_i hl
    obtain ⟨op, h3, _⟩ := index_long hl
    rw [h3] at h
    simp only [Res.ok_bind] at h
    split at h
    · cases h; rfl
    · cases h; cases k
      · rfl
      all_goals
        rcases hk with hk | hk
        · cases hk
        · simp [accept, served] at hk

theorem mem_eraseIdx_self {α : Type} (l : List α) (p : α → Bool) (i : Nat) (x : α) (hi : l.findIdx? p = some i)
    (hone : l.countP p ≤ 1) (hx : x ∈ l.eraseIdx i) : p x = false := by
  induction l generalizing i with
  | nil => cases hx
  | cons y ys ih =>
    rw [List.findIdx?_cons] at hi
    by_cases hq : p y = true
    · simp only [hq, if_true, Option.some.injEq] at hi
      subst hi
      simp only [List.eraseIdx_cons_zero] at hx
      rw [List.countP_cons_of_pos hq] at hone
      have : ys.countP p = 0 := by omega
      rw [List.countP_eq_zero] at this
      simpa using this x hx
    · rw [if_neg hq] at hi
      obtain ⟨k, hk, rfl⟩ := Option.map_eq_some_iff.mp hi
      simp only [List.eraseIdx_cons_succ, List.mem_cons] at hx
      rw [List.countP_cons_of_neg hq] at hone
      rcases hx with rfl | hx
      · simpa using hq
      · exact ih k hk hone hx

theorem removed_gone {S : Type} (t : Sticky S) (id : UInt32) (hone : t.entries.countP (fun e => e.1 = id) ≤ 1)
    (hs : ∀ e ∈ t.entries.take t.stuck, e.1 ≠ id) (s : S) : (id, s) ∉ (t.remove id).entries := by
  intro hm
  unfold Sticky.remove at hm
  split at hm
  · rename_i hn
    rw [List.findIdx?_eq_none_iff] at hn
    have := hn _ hm
    simp at this
  · rename_i i hi
    split at hm
    · rename_i hlt
      have hi' := List.findIdx?_eq_some_iff_getElem.mp hi
      obtain ⟨hl, hp, _⟩ := hi'
      exact hs t.entries[i] (List.mem_take_iff_getElem.mpr ⟨i, by omega, rfl⟩) (by simpa using hp)
    · have := mem_eraseIdx_self _ _ _ _ hi hone hm
      simp at this

/-- The ids of a table are those of its side. -/
def Sided (st : State) : Prop := (∀ e ∈ st.guest.entries, e.1 &&& 1 = 1) ∧ (∀ e ∈ st.host.entries, e.1 &&& 1 ≠ 1)

/-- **C126 (partial).** When a frame ends a call that was registered once, no entry of it is left, unless the table cannot
give it up (C13; the first entry of a table never goes). -/
theorem ended_gone_partial (st : State) (f : Frame) (o : Out H) (hs : Sided st) (he : ends f = true)
    (h : handleFrame st f = .ok o)
    (hone : (st.guest.entries ++ st.host.entries).countP (fun e => e.1 = f.streamID) ≤ 1)
    (hk : ∀ e ∈ st.guest.entries.take st.guest.stuck ++ st.host.entries.take st.host.stuck, e.1 ≠ f.streamID) :
    ¬ held o.st f.streamID := by
  have hf : ∀ v, f ≠ .request v := by intro v hv; subst hv; cases he
  rcases handle_other hf h with ⟨hn, _⟩ | ⟨i, _, hd⟩
  · exfalso
    unfold handleFrame at h
    have ht : f.type ≥ tRequestN := by
      cases f with
      | request v => exact absurd rfl (hf v)
      | _ => simp only [Frame.type]; decide
    rw [if_pos ht, hn] at h
    simp only at h
    split at h
    · cases h
    · rename_i hne
      cases f <;> simp [ends] at he <;> simp [Frame.type, tRequestN, tCancel, tError, tPayload] at hne
  · rw [dispatch_tables hf hd, if_pos he]
    rw [List.countP_append] at hone
    rintro ⟨j, hj⟩
    unfold removeStream at hj
    split at hj
    · rename_i hodd
      rcases hj with hj | hj
      · exact removed_gone _ _ (by omega) (fun e he => hk e (List.mem_append_left _ he)) _ hj
      · exact hs.2 _ hj hodd
    · rename_i hodd
      rcases hj with hj | hj
      · exact hodd (hs.1 _ hj)
      · exact removed_gone _ _ (by omega) (fun e he => hk e (List.mem_append_right _ he)) _ hj

theorem sided_registered {st : State} (h : Sided st) (id : UInt32) (i : Nat) : Sided (registerStream st id i) := by
  unfold registerStream
  split <;> rename_i hodd
  · refine ⟨fun e he => ?_, h.2⟩
    rcases List.mem_append.mp he with he | he
    · exact h.1 e he
    · rw [List.mem_singleton] at he; rw [he]; exact hodd
  · refine ⟨h.1, fun e he => ?_⟩
    rcases List.mem_append.mp he with he | he
    · exact h.2 e he
    · rw [List.mem_singleton] at he; rw [he]; exact hodd

theorem sided_new {st : State} (h : Sided st) (l : List Obj) (id : UInt32) (i : Nat) :
    Sided (registerStream { st with objs := l } id i) := sided_registered (st := { st with objs := l }) h id i

theorem sided_removed {st : State} (h : Sided st) (id : UInt32) : Sided (removeStream st id) := by
  unfold removeStream
  split
  · exact ⟨fun e he => h.1 e (sticky_mem_remove he), h.2⟩
  · exact ⟨h.1, fun e he => h.2 e (sticky_mem_remove he)⟩

/-- All states that occur are such. -/
theorem sided_run {reg : Reg H} {acts : List Act} {c c' : Conn H} (hw : Sided c.st)
    (h : Conn.run reg c acts = .ok c') : Sided c'.st := by
  induction acts generalizing c with
  | nil => cases h; exact hw
  | cons a as ih =>
    simp only [Conn.run] at h
    cases ha : c.step reg a with
    | err e => rw [ha] at h; cases h
    | panic => rw [ha] at h; cases h
    | ok c1 =>
      rw [ha] at h
      refine ih ?_ h
      clear ih h
      cases a with
      | recv f =>
        simp only [Conn.step] at ha
        cases ho : handleFrame (H := H) c.st f with
        | err e => rw [ho] at ha; cases ha
        | panic => rw [ho] at ha; cases ha
        | ok o =>
          rw [ho] at ha; cases ha
          show Sided o.st
          by_cases hf : ∃ v, f = .request v
          · obtain ⟨v, rfl⟩ := hf
            rw [(handle_request ho).1]; exact hw
          · have hf : ∀ v, f ≠ .request v := fun v hv => hf ⟨v, hv⟩
            rcases handle_other hf ho with ⟨_, rfl⟩ | ⟨i, _, hd⟩
            · exact hw
            · rw [dispatch_tables hf hd]
              split
              · exact sided_removed hw _
              · exact hw
      | task i live =>
        simp only [Conn.step] at ha
        split at ha
        · cases ha; exact hw
        · rename_i t ht
          cases ho : runTask reg live c.st t with
          | err e => rw [ho] at ha; cases ha
          | panic => rw [ho] at ha; cases ha
          | ok o =>
            rw [ho] at ha; cases ha
            show Sided o.st
            cases t with
            | request k id data md n =>
              simp only [runTask, handleRequest] at ho
              split at ho
              · cases ho; exact hw
              · rename_i hl
                obtain ⟨op, h3, _⟩ := index_long hl
                rw [h3] at ho
                simp only [Res.ok_bind] at ho
                split at ho
                · cases ho; exact hw
                · cases ho; cases k
                  · exact hw
                  all_goals exact sided_new hw _ _ _
            | attach i n =>
              simp only [runTask] at ho
              split at ho <;> cases ho
              exact hw
            | demand i n =>
              simp only [runTask] at ho
              split at ho
              · cases ho
              · split at ho <;> cases ho
                exact hw
      | openMono id => cases ha; exact sided_new hw _ _ _
      | openFlux id b => cases ha; exact sided_new hw _ _ _
      | startIn i b => cases ha; exact hw
      | openSink i => cases ha; exact hw

theorem sided_init : Sided State.init := ⟨by simp [State.init], by simp [State.init]⟩

/-! ## A case -/

/-- Three streams are asked for, served and wholly taken; the tables hold all three. -/
def three : List Act := [.recv (req 6 1 0), .task 0 true, .task 0 true, .recv (req 6 3 0), .task 0 true, .task 0 true,
  .recv (req 6 5 0), .task 0 true, .task 0 true]

example : ∃ c, Conn.run reg4 Conn.init three = .ok c ∧ endings three = 0 ∧ served c.log = 3 ∧ size c.st = 3 :=
  ⟨_, rfl, rfl, by decide, by decide⟩

/-- Calls with ids 2 and 4: the end of the second one takes out its entry, that of the first one does not. -/
def two : List Act := [.openMono 2, .openMono 4]

example : ∃ c : Conn Nat, ∃ o o' : Out Nat, Conn.run reg4 Conn.init two = .ok c ∧
    handleFrame c.st (.payload ⟨4, [], [1], false, true, true⟩) = .ok o ∧ size c.st = 2 ∧ size o.st = 1 ∧
    handleFrame c.st (.payload ⟨2, [], [1], false, true, true⟩) = .ok o' ∧ size o'.st = 2 :=
  ⟨_, _, _, rfl, rfl, by decide, by decide, rfl, by decide⟩

end Iota.Props.Leak
