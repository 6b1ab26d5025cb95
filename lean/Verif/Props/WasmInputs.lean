import Verif.Spec.WasmInputs
import Verif.Props.WasmStreams

/-! # The input of channels and the demand for streams between a WebAssembly host and its guest (C159, C160) -/

namespace Iota.Props.WasmInputs
open Iota.Go Iota.Frames Iota.Registry Iota.WasmDispatch Iota.WasmCalls Iota.Spec.Handler Iota.Spec.WasmDispatch Iota.Spec.WasmCalls
open Iota.Spec.WasmStreams Iota.Spec.WasmInputs
open Iota.Spec.Caller (Sig meaning ends)
open Iota.Handler hiding Act
open Iota.StreamId (Side)
open Iota.Peers (Result requestFrame answerFrame isRequest)
open Iota.Spec.Polite (queued isTask)
open Iota.Props.Polite (queued_append queued_erase)
open Iota.Lemmas.WasmDispatch Iota.Props.Handler Iota.Props.WasmDispatch
open Iota.Props.WasmCaller (Sound Untold sound_step untold_step removeStream_objs effect Effect frameOf mem_eraseIdx_or)
open Iota.Props.Caller (sigOf told get_register_none get_register_some entries_objs)
open Iota.Props.WasmCalls Iota.Props.WasmStreams

variable {H : Type}

/-! ## Lists -/

theorem requestedOf_append (o : Nat) (a b : List (Ev H)) : requestedOf o (a ++ b) = requestedOf o a ++ requestedOf o b := by
  simp [requestedOf]

theorem waitingOf_append (o : Nat) (a b : List Task) : waitingOf o (a ++ b) = waitingOf o a ++ waitingOf o b := by
  simp [waitingOf]

theorem requestedOf_none {o : Nat} {evs : List (Ev H)} (h : ∀ ev ∈ evs, requestIn o ev = none) : requestedOf o evs = [] :=
  List.filterMap_eq_nil_iff.mpr h

theorem waitingOf_none {o : Nat} {ts : List Task} (h : ∀ t ∈ ts, waitIn o t = none) : waitingOf o ts = [] :=
  List.filterMap_eq_nil_iff.mpr h

theorem waitingOf_erase {o : Nat} {ts : List Task} {i : Nat} {t : Task} (h : ts[i]? = some t) :
    (waitingOf o ts).Perm ((waitIn o t).toList ++ waitingOf o (ts.eraseIdx i)) := by
  have := (eraseIdx_perm h).filterMap (waitIn o)
  simp only [List.filterMap_cons] at this
  simp only [waitingOf]
  cases hw : waitIn o t with
  | none => rw [hw] at this; exact this
  | some n => rw [hw] at this; exact this

theorem waitingOf_erase_none {o : Nat} {ts : List Task} {i : Nat} {t : Task} (h : ts[i]? = some t) (hw : waitIn o t = none) :
    waitingOf o (ts.eraseIdx i) = waitingOf o ts := by
  induction ts generalizing i with
  | nil => cases h
  | cons u ts ih =>
    cases i with
    | zero =>
      cases h
      simp [waitingOf, hw]
    | succ i =>
      simp only [List.getElem?_cons_succ] at h
      have := ih h
      simp only [waitingOf] at this ⊢
      simp only [List.eraseIdx_cons_succ, List.filterMap_cons, this]

/-- The same demand; in the same order in a guest. -/
def Same (t : End) (a b : List UInt32) : Prop := a.Perm b ∧ (t = .guest → a = b)

theorem Same.app {t : End} {a b : List UInt32} (h : Same t a b) (c : List UInt32) : Same t (a ++ c) (b ++ c) :=
  ⟨h.1.append_right c, fun ht => by rw [h.2 ht]⟩

/-- Demand is passed on. -/
theorem Same.pass {t : End} {l req : List UInt32} {o : Nat} {ts : List Task} {i : Nat} {u : Task} (h : Same t l (req ++ waitingOf o ts))
    (hu : ts[i]? = some u) (h1 : t = .guest → ts.length ≤ 1) : Same t l (req ++ (waitIn o u).toList ++ waitingOf o (ts.eraseIdx i)) := by
  refine ⟨h.1.trans ?_, fun ht => ?_⟩
  · rw [List.append_assoc]
    exact (waitingOf_erase hu).append_left req
  · rw [h.2 ht]
    match ts, h1 ht, i, hu with
    | [v], _, 0, hu =>
      cases hu
      simp only [waitingOf, List.filterMap_cons, List.filterMap_nil, List.eraseIdx_cons_zero, List.append_nil]
      cases hw : waitIn o u <;> simp
    | _ :: _ :: _, hl, _, _ => simp at hl
    | [], _, i, hu => cases hu
    | [_], _, i + 1, hu => simp at hu

theorem queued_none {id : UInt32} {ts : List Task} (h : ∀ k d m n, Task.request k id d m n ∉ ts) : queued id ts = 0 := by
  refine List.countP_eq_zero.mpr fun t ht => ?_
  cases t with
  | request k i d m n =>
    intro he
    have : i = id := by simpa [isTask] using he
    subst this; exact h _ _ _ _ ht
  | attach i n => simp [isTask]
  | demand i n => simp [isTask]

theorem queued_pos {id : UInt32} {ts : List Task} {k : Kind} {d m : Bytes} {n : UInt32} (h : Task.request k id d m n ∈ ts) :
    0 < queued id ts := List.countP_pos_iff.mpr ⟨_, h, by simp [isTask]⟩

/-! ## Requests of streams and channels -/

/-- What the handling of a request of a stream or channel comes to. -/
theorem many_ran {e : End} {hs : Handlers H} {p p' : WasmDispatch.Peer H} {k : Kind} {id : UInt32} {d m : Bytes} {n : UInt32}
    (hk : many k = true) (h : p.handleRequest e hs k id d m n = .ok p') :
    ((∀ op : UInt32, opIndex m = some op.toNat → hs k op = none) ∧
      ∃ msg, p' = p.after ⟨p.st, [], [.sent (errorFrame id msg)]⟩) ∨
    ∃ op g cx c, opIndex m = some op.toNat ∧ hs k op = some g ∧
      p' = (p.register (.resp false false) c id).after ⟨(p.register (.resp false false) c id).st, [.attach p.st.objs.length n],
        [.invoked k (g, cx) id d (passed e k m)]⟩ := by
  obtain ⟨p2, h1, h2⟩ := handled e hs p k id d m n
  cases h1.symm.trans h
  cases h2 with
  | short hl => exact .inl ⟨fun op ho => (by rw [index_short hl] at ho; cases ho), _, rfl⟩
  | unknown op ho hn =>
    refine .inl ⟨fun op' ho' => ?_, _, rfl⟩
    rw [ho] at ho'
    have : op = op' := UInt32.toNat_inj.mp (Option.some.inj ho')
    rw [← this]; exact hn
  | run op parent g ho hp hg =>
    refine .inr ⟨op, g, p.handlerCtx e k id parent, (kept e k (p.handlerCtx e k id parent)).getD .nil, ho, hg, ?_⟩
    cases k with
    | rs => cases e <;> rfl
    | rc => cases e <;> rfl
    | _ => cases hk

/-- The handling of any request records one event. -/
theorem request_log {e : End} {hs : Handlers H} {p p' : WasmDispatch.Peer H} {i : Nat} {live : Bool} {k : Kind} {id : UInt32}
    {d m : Bytes} {n : UInt32} (ht : p.tasks[i]? = some (.request k id d m n)) (h : p.step e hs (.task i live) = some (.ok p')) :
    ∃ ev, p'.log = p.log ++ [ev] ∧ (∀ o, requestIn o ev = none) ∧ ∀ x, jobOf ev = some x → x.id = id := by
  simp only [Peer.step, ht] at h
  have h := Option.some.inj h
  simp only [Peer.runTask] at h
  cases ran h with
  | refused msg _ _ _ h3 => exact ⟨_, h3, fun _ => rfl, fun x hx => (by cases hx)⟩
  | run op g c ts _ _ _ _ _ h6 =>
    obtain ⟨c', h6⟩ := h6
    exact ⟨_, h6, fun _ => rfl, fun x hx => (by cases hx; rfl)⟩

/-! ## Steps that have nothing to do with an id -/

theorem started_nil {p p' : WasmDispatch.Peer H} {evs : List (Ev (H × Ctx))} (h : p'.log = p.log ++ evs)
    (hev : ∀ ev ∈ evs, jobOf ev = none) : started p p' = [] := by
  have : evs.filterMap jobOf = [] := List.filterMap_eq_nil_iff.mpr hev
  simp [started, h, this]

/-- What a step leaves as it is that has nothing to do with the stream under an id. -/
structure Calm (t : End) (id : UInt32) (p p' : WasmDispatch.Peer H) : Prop where
  entries : ∀ P : UInt32 → Nat → Prop, (∀ id', id' ≠ id → P id' p.st.objs.length) → Entries P p.st → Entries P p'.st
  tasks : ∀ k d m n, Task.request k id d m n ∈ p'.tasks → Task.request k id d m n ∈ p.tasks
  queued : queued id p'.tasks = queued id p.tasks
  found : ∀ o, getStream p.st id = some o → getStream p'.st id = some o
  len : p.st.objs.length ≤ p'.st.objs.length
  told : ∀ o, o < p.st.objs.length → Entries (fun id' j => j = o → id' = id) p.st → told o p'.log = told o p.log
  same : ∀ o l, o < p.st.objs.length → Entries (fun id' j => j = o → id' = id) p.st →
    Same t l (requestedOf o p.log ++ waitingOf o p.tasks) → Same t l (requestedOf o p'.log ++ waitingOf o p'.tasks)
  started : givenFor id (started p p') = []

/-- The action has nothing to do with the id. -/
structure Apart (id : UInt32) (p : WasmDispatch.Peer H) (a : WasmDispatch.Act) : Prop where
  frame : frameOf id a = none
  mono : ∀ c, a ≠ .openMono id c
  flux : ∀ b c, a ≠ .openFlux id b c
  task : ∀ i live k d m n, a = .task i live → p.tasks[i]? ≠ some (.request k id d m n)

/-- Every piece of work and every event of demand is for a stream that exists. -/
structure Room (p : WasmDispatch.Peer H) : Prop where
  log : ∀ o, p.st.objs.length ≤ o → requestedOf o p.log = []
  tasks : ∀ o, p.st.objs.length ≤ o → waitingOf o p.tasks = []

theorem calm_register {t : End} {id id' : UInt32} {p : WasmDispatch.Peer H} (hne : id' ≠ id) (ob : Obj) (c : Ctx) :
    Calm t id p (p.register ob c id') := by
  have hobjs : (p.register ob c id').st.objs = p.st.objs ++ [ob] := registerStream_objs _ _ _
  refine ⟨?_, fun _ _ _ _ h => h, rfl, ?_, by rw [hobjs]; simp, fun _ _ _ => rfl, fun _ _ _ _ h => h, ?_⟩
  · intro P hP hE
    exact Entries.registered (entries_objs hE _) (hP _ hne)
  · intro o ho
    exact get_register_some (st := { p.st with objs := p.st.objs ++ [ob] }) ho
  · have : started p (p.register ob c id') = [] := started_nil (evs := []) (by simp [Peer.register]) (by simp)
    rw [this]; rfl

theorem calm_objs {t : End} {id : UInt32} {p : WasmDispatch.Peer H} (i : Nat) (g : Obj → Obj) :
    Calm t id p { p with st := { p.st with objs := p.st.objs.modify i g } } := by
  refine ⟨fun P _ hE => entries_objs hE _, fun _ _ _ _ h => h, rfl, fun o h => h, by simp, fun _ _ _ => rfl, fun _ _ _ _ h => h, ?_⟩
  have : started p { p with st := { p.st with objs := p.st.objs.modify i g } } = [] := started_nil (evs := []) (by simp) (by simp)
  rw [this]; rfl

/-- A piece of demand is passed on. -/
theorem calm_pass {t : End} {id : UInt32} {p : WasmDispatch.Peer H} {j i : Nat} {n : UInt32} {u : Task} (hu : p.tasks[j]? = some u)
    (hw : ∀ o, waitIn o u = if i = o then some n else none) (hq : ∀ k d m n, u ≠ .request k id d m n)
    (h1 : t = .guest → p.tasks.length ≤ 1) (os : List Obj) (hos : os.length = p.st.objs.length) :
    Calm t id p ({ p with tasks := p.tasks.eraseIdx j }.after ⟨{ p.st with objs := os }, [], [.requested i n]⟩) := by
  refine ⟨fun P _ hE => entries_objs hE _, ?_, ?_, fun o h => h, by show _ ≤ os.length; omega, ?_, ?_, ?_⟩
  · intro k d m n' h
    have h : Task.request k id d m n' ∈ p.tasks.eraseIdx j := by simpa [Peer.after] using h
    exact List.mem_of_mem_eraseIdx h
  · have : isTask id u = false := by
      cases u with
      | request k i' d m n' =>
        simp only [isTask, beq_eq_false_iff_ne]
        rintro rfl; exact hq _ _ _ _ rfl
      | _ => rfl
    rw [queued_erase (id := id) hu, this]
    simp [Peer.after]
  · intro o _ _
    simp [Peer.after, told, sigOf]
  · intro o l _ _ h
    have h2 := h.pass hu h1
    have e1 : requestedOf o ({ p with tasks := p.tasks.eraseIdx j }.after ⟨{ p.st with objs := os }, [], [.requested i n]⟩).log =
        requestedOf o p.log ++ (waitIn o u).toList := by
      simp only [Peer.after, requestedOf_append, hw]
      by_cases hio : i = o <;> simp [requestedOf, requestIn, hio]
    have e2 : waitingOf o ({ p with tasks := p.tasks.eraseIdx j }.after ⟨{ p.st with objs := os }, [], [.requested i n]⟩).tasks =
        waitingOf o (p.tasks.eraseIdx j) := by simp [Peer.after]
    rw [e1, e2]; exact h2
  · have : started p ({ p with tasks := p.tasks.eraseIdx j }.after ⟨{ p.st with objs := os }, [], [.requested i n]⟩) = [] :=
      started_nil (evs := [.requested i n]) rfl (by simp [jobOf])
    rw [this]; rfl

theorem givenFor_started {p p' : WasmDispatch.Peer H} {id id' : UInt32} {ev : Ev (H × Ctx)} (h : p'.log = p.log ++ [ev])
    (hj : ∀ x, jobOf ev = some x → x.id = id') (hne : id' ≠ id) : givenFor id (started p p') = [] := by
  refine List.filter_eq_nil_iff.mpr fun x hx => ?_
  simp only [started, h, List.drop_left'] at hx
  obtain ⟨y, hy, rfl⟩ := List.mem_map.mp hx
  obtain ⟨ev', hm, hev⟩ := List.mem_filterMap.mp (List.mem_of_mem_filter hy)
  cases List.mem_singleton.mp hm
  simpa [hj _ hev] using hne

theorem calm_step {t : End} {hs : Handlers H} {id : UInt32} {p p' : WasmDispatch.Peer H} {a : WasmDispatch.Act}
    (h1 : t = .guest → p.tasks.length ≤ 1) (ha : Apart id p a) (h : p.step t hs a = some (.ok p')) : Calm t id p p' := by
  have stay : ∀ s, Calm t id p { p with stash := s } := fun s =>
    ⟨fun P _ hE => hE, fun _ _ _ _ h => h, rfl, fun o h => h, Nat.le_refl _, fun _ _ _ => rfl, fun _ _ _ _ h => h,
      (by rw [started_nil (evs := []) (by simp) (by simp)]; rfl)⟩
  cases effect h with
  | skip data s _ => exact stay s
  | ask data v k hd =>
    have hv : v.streamID ≠ id := by
      intro he
      have := ha.frame
      simp [frameOf, hd, Frame.streamID, he] at this
    refine ⟨fun P _ hE => hE, ?_, ?_, fun o h => h, Nat.le_refl _, ?_, ?_, ?_⟩
    · intro k' d m n ht
      rcases List.mem_append.mp ht with ht | ht
      · exact ht
      · cases List.mem_singleton.mp ht; exact absurd rfl hv
    · simp [Peer.after, queued_append, queued, isTask, hv]
    · intro o _ _; simp [Peer.after]
    · intro o l _ _ hl
      have e1 : waitingOf o [.request k v.streamID v.data v.metadata v.initialN] = [] := rfl
      simp only [Peer.after, List.append_nil, waitingOf_append, e1]
      exact hl
    · rw [started_nil (evs := []) (by simp [Peer.after]) (by simp)]; rfl
  | frame data f j o hd hf hg ho =>
    have hid : f.streamID ≠ id := by
      intro he
      have := ha.frame
      simp [frameOf, hd, he] at this
    obtain ⟨h1, h2, h3, h4⟩ := dispatch_shape hf ho
    refine ⟨?_, ?_, ?_, ?_, ?_, ?_, ?_, ?_⟩
    · intro P _ hE
      show Entries P o.st
      rcases h2 with h2 | h2 <;> rw [h2]
      · exact hE
      · exact hE.removed _
    · intro k' d m n ht
      rcases List.mem_append.mp ht with ht | ht
      · exact ht
      · obtain ⟨_, h⟩ := h3 _ ht; cases h
    · have : queued id o.tasks = 0 := queued_none fun k d m n hm => by
        obtain ⟨_, h⟩ := h3 _ hm; cases h
      show queued id (p.tasks ++ o.tasks) = _
      rw [queued_append, this]; rfl
    · intro i hi
      show getStream o.st id = some i
      rcases h2 with h2 | h2 <;> rw [h2]
      · exact hi
      · rw [getStream_remove _ (Ne.symm hid)]; exact hi
    · show _ ≤ o.st.objs.length; rw [h1]; exact Nat.le_refl _
    · intro i _ honly
      have hji : j ≠ i := fun e => hid (honly.lookup hg e)
      have : o.evs.filterMap (sigOf i) = [] := by
        rw [List.filterMap_eq_nil_iff]
        intro x hx
        rcases h4 x hx with ⟨d, m, rfl⟩ | rfl | ⟨m, rfl⟩ <;> simp [sigOf, hji]
      simp [Peer.after, told, this]
    · intro i l _ honly hl
      have hji : j ≠ i := fun e => hid (honly.lookup hg e)
      have e1 : requestedOf i o.evs = [] := requestedOf_none fun ev hev => by
        rcases h4 ev hev with ⟨d, m, rfl⟩ | rfl | ⟨m, rfl⟩ <;> rfl
      have e2 : waitingOf i o.tasks = [] := waitingOf_none fun u hu => by
        obtain ⟨n, rfl⟩ := h3 u hu; simp [waitIn, hji]
      simp only [Peer.after, requestedOf_append, waitingOf_append, e1, e2, List.append_nil]
      exact hl
    · rw [started_nil (evs := o.evs) rfl ?_]
      · rfl
      · intro ev hev
        rcases h4 ev hev with ⟨d, m, rfl⟩ | rfl | ⟨m, rfl⟩ <;> rfl
  | answer j live k id' data md n ev ht hs' _ =>
    have hid : id' ≠ id := by
      rintro rfl; exact ha.task _ _ _ _ _ _ rfl ht
    obtain ⟨ev', hl, hr, hj⟩ := request_log ht h
    refine ⟨fun P _ hE => hE, ?_, ?_, fun o h => h, Nat.le_refl _, ?_, ?_, givenFor_started hl hj hid⟩
    · intro k' d m n' h
      have h : Task.request k' id d m n' ∈ p.tasks.eraseIdx j := by simpa [Peer.after] using h
      exact List.mem_of_mem_eraseIdx h
    · rw [queued_erase (id := id) ht]
      simp [Peer.after, isTask, hid]
    · intro o _ _; simp [Peer.after, told, hs' o]
    · intro o l _ _ hs2
      rw [hl, requestedOf_append, requestedOf_none (evs := [ev']) (by simpa using hr o), List.append_nil]
      have : waitingOf o ({ p with tasks := p.tasks.eraseIdx j }.after ⟨p.st, [], [ev]⟩).tasks = waitingOf o p.tasks := by
        simp only [Peer.after, List.append_nil]
        exact waitingOf_erase_none ht rfl
      rw [this]; exact hs2
  | serve j live k id' data md n g c m ht _ _ =>
    have hid : id' ≠ id := by
      rintro rfl; exact ha.task _ _ _ _ _ _ rfl ht
    have hobjs : (p.register (.resp false false) c id').st.objs = p.st.objs ++ [.resp false false] := registerStream_objs _ _ _
    have hrest : ∀ u ∈ rest k p.st.objs.length n, u = .attach p.st.objs.length n := by
      intro u hu; cases k <;> simp [rest] at hu <;> exact hu
    refine ⟨?_, ?_, ?_, ?_, ?_, ?_, ?_, ?_⟩
    · intro P hP hE
      show Entries P (p.register (.resp false false) c id').st
      exact Entries.registered (entries_objs hE _) (hP _ hid)
    · intro k' d m n' h
      rcases List.mem_append.mp h with h | h
      · exact List.mem_of_mem_eraseIdx h
      · have := hrest _ h; cases this
    · have : queued id (rest k p.st.objs.length n) = 0 := queued_none fun k d m n hm => by
        have := hrest _ hm; cases this
      show queued id (p.tasks.eraseIdx j ++ rest k p.st.objs.length n) = _
      rw [queued_append, this, queued_erase (id := id) ht]
      simp [isTask, hid]
    · intro o ho
      exact get_register_some (st := { p.st with objs := p.st.objs ++ [.resp false false] }) ho
    · show _ ≤ (p.register (.resp false false) c id').st.objs.length
      rw [hobjs]; simp
    · intro o _ _; simp [Peer.after, Peer.register, told, sigOf]
    · intro o l hlt _ hl
      have e1 : requestedOf o [(.invoked k g id' data m : Ev (H × Ctx))] = [] := rfl
      have e2 : waitingOf o (rest k p.st.objs.length n) = [] := waitingOf_none fun u hu => by
        rw [hrest u hu]; simp only [waitIn]; rw [if_neg (by omega)]
      simp only [Peer.after, Peer.register, requestedOf_append, waitingOf_append, e1, e2, List.append_nil]
      rw [waitingOf_erase_none ht rfl]; exact hl
    · exact givenFor_started (ev := .invoked k g id' data m) rfl (fun x hx => by cases hx; rfl) hid
  | attach j i' n ht => exact calm_pass ht (fun _ => rfl) (fun _ _ _ _ h => nomatch h) h1 _ (by simp)
  | demand j live i' n o ht _ _ => exact calm_pass ht (fun _ => rfl) (fun _ _ _ _ h => nomatch h) h1 _ rfl
  | openMono id' c => exact calm_register (fun he => ha.mono c (by rw [he])) _ c
  | openFlux id' b c => exact calm_register (fun he => ha.flux b c (by rw [he])) _ c
  | startIn j b => exact calm_objs j _
  | openSink j => exact calm_objs j _

/-! ## Demand is for streams that exist -/

theorem room_step {t : End} {hs : Handlers H} {p p' : WasmDispatch.Peer H} {a : WasmDispatch.Act} (hw : Sound p) (hr : Room p)
    (h : p.step t hs a = some (.ok p')) : Room p' := by
  have grow : ∀ (st : State) (evs : List (Ev (H × Ctx))) (ts : List Task), p.st.objs.length ≤ st.objs.length →
      (∀ o, st.objs.length ≤ o → requestedOf o evs = []) → (∀ o, st.objs.length ≤ o → waitingOf o ts = []) →
      p'.st.objs = st.objs → p'.log = p.log ++ evs → p'.tasks = p.tasks ++ ts → Room p' := by
    intro st evs ts hl h1 h2 e1 e2 e3
    constructor
    · intro o ho
      rw [e1] at ho
      rw [e2, requestedOf_append, hr.log o (Nat.le_trans hl ho), h1 o ho]; rfl
    · intro o ho
      rw [e1] at ho
      rw [e3, waitingOf_append, hr.tasks o (Nat.le_trans hl ho), h2 o ho]; rfl
  have shrink : ∀ (st : State) (j : Nat) (u : Task) (evs : List (Ev (H × Ctx))) (ts : List Task), p.tasks[j]? = some u →
      p.st.objs.length ≤ st.objs.length → (∀ o, st.objs.length ≤ o → requestedOf o evs = []) →
      (∀ o, st.objs.length ≤ o → waitingOf o ts = []) →
      p'.st.objs = st.objs → p'.log = p.log ++ evs → p'.tasks = p.tasks.eraseIdx j ++ ts → Room p' := by
    intro st j u evs ts hu hl h1 h2 e1 e2 e3
    constructor
    · intro o ho
      rw [e1] at ho
      rw [e2, requestedOf_append, hr.log o (Nat.le_trans hl ho), h1 o ho]; rfl
    · intro o ho
      rw [e1] at ho
      rw [e3, waitingOf_append, h2 o ho, List.append_nil]
      have h3 := waitingOf_erase (o := o) hu
      rw [hr.tasks o (Nat.le_trans hl ho)] at h3
      have h4 := List.nil_perm.mp h3
      exact (List.append_eq_nil_iff.mp h4).2
  -- the stream of a piece of work exists
  have lt : ∀ (j : Nat) (u : Task) (i : Nat) (n : UInt32), p.tasks[j]? = some u → (∀ o, waitIn o u = if i = o then some n else none) →
      i < p.st.objs.length := by
    intro j u i n hu hw
    refine Classical.byContradiction fun hn => ?_
    have h3 := waitingOf_erase (o := i) hu
    rw [hr.tasks i (by omega)] at h3
    have h4 := (List.append_eq_nil_iff.mp (List.nil_perm.mp h3)).1
    rw [hw, if_pos rfl] at h4; cases h4
  cases effect h with
  | skip data s _ => exact ⟨hr.log, hr.tasks⟩
  | ask data v k hd => exact grow p.st [] _ (Nat.le_refl _) (fun _ _ => rfl) (fun _ _ => rfl) rfl (by simp [Peer.after]) rfl
  | frame data f j o hd hf hg ho =>
    obtain ⟨h1, h2, h3, h4⟩ := dispatch_shape hf ho
    have hlt := hw.1.wf _ _ hg
    refine grow p.st o.evs o.tasks (Nat.le_refl _) ?_ ?_ h1 rfl rfl
    · intro i _
      exact requestedOf_none fun ev hev => by
        rcases h4 ev hev with ⟨d, m, rfl⟩ | rfl | ⟨m, rfl⟩ <;> rfl
    · intro i hi
      exact waitingOf_none fun u hu => by
        obtain ⟨n, rfl⟩ := h3 u hu
        simp only [waitIn]; rw [if_neg (by omega)]
  | answer j live k id' data md n ev ht hs' _ =>
    obtain ⟨ev', hl, hr', hj⟩ := request_log ht h
    exact shrink p.st j _ [ev'] [] ht (Nat.le_refl _) (fun o _ => requestedOf_none (by simpa using hr' o)) (fun _ _ => rfl) rfl hl
      (by simp [Peer.after])
  | serve j live k id' data md n g c m ht _ _ =>
    have hobjs : (p.register (.resp false false) c id').st.objs = p.st.objs ++ [.resp false false] := registerStream_objs _ _ _
    refine shrink (p.register (.resp false false) c id').st j _ [.invoked k g id' data m] (rest k p.st.objs.length n) ht ?_ (fun _ _ => rfl) ?_ rfl rfl rfl
    · rw [hobjs]; simp
    · intro o ho
      rw [hobjs] at ho
      simp at ho
      exact waitingOf_none fun u hu => by
        have : u = .attach p.st.objs.length n := by cases k <;> simp [rest] at hu <;> exact hu
        subst this
        simp only [waitIn]; rw [if_neg (by omega)]
  | attach j i' n ht =>
    have := lt j _ i' n ht (fun _ => rfl)
    refine shrink { p.st with objs := p.st.objs.modify i' fun o => match o with | .resp _ sink => .resp true sink | o => o } j _
      [.requested i' n] [] ht (by simp) (fun o ho => requestedOf_none fun ev hev => ?_) (fun _ _ => rfl) rfl rfl (by simp [Peer.after])
    cases List.mem_singleton.mp hev
    have ho : p.st.objs.length ≤ o := by simpa using ho
    simp only [requestIn]; rw [if_neg (by omega)]
  | demand j live i' n o ht _ _ =>
    have := lt j _ i' n ht (fun _ => rfl)
    refine shrink p.st j _ [.requested i' n] [] ht (Nat.le_refl _) (fun o ho => requestedOf_none fun ev hev => ?_) (fun _ _ => rfl) rfl rfl
      (by simp [Peer.after])
    cases List.mem_singleton.mp hev
    simp only [requestIn]; rw [if_neg (by omega)]
  | openMono id' c =>
    exact grow (p.register .mono c id').st [] [] (by simp [Peer.register, registerStream_objs]) (fun _ _ => rfl) (fun _ _ => rfl) rfl
      (by simp [Peer.register]) (by simp [Peer.register])
  | openFlux id' b c =>
    exact grow (p.register (.flux (if b then some false else none)) c id').st [] [] (by simp [Peer.register, registerStream_objs]) (fun _ _ => rfl)
      (fun _ _ => rfl) rfl (by simp [Peer.register]) (by simp [Peer.register])
  | startIn j b => exact grow (startIn p.st j b) [] [] (by simp [startIn]) (fun _ _ => rfl) (fun _ _ => rfl) rfl (by simp) (by simp)
  | openSink j => exact grow (openSink p.st j) [] [] (by simp [openSink]) (fun _ _ => rfl) (fun _ _ => rfl) rfl (by simp) (by simp)

/-- A guest has at most one piece of work. -/
theorem single_step {t : End} {hs : Handlers H} {p p' : WasmDispatch.Peer H} {a : WasmDispatch.Act} (h1 : t = .guest → p.tasks.length ≤ 1)
    (h : p.step t hs a = some (.ok p')) : t = .guest → p'.tasks.length ≤ 1 := by
  intro ht
  replace h1 := h1 ht
  subst ht
  have recv : ∀ data, a = .recv data → p.tasks = [] := by
    rintro data rfl
    simp only [Peer.step] at h
    split at h
    · rename_i hr; simpa [Peer.ready] using hr
    · cases h
  have erase : ∀ (j : Nat) (u : Task), p.tasks[j]? = some u → p.tasks.eraseIdx j = [] := by
    intro j u hu
    match p.tasks, h1, j, hu with
    | [v], _, 0, _ => rfl
    | _ :: _ :: _, hl, _, _ => simp at hl
    | [], _, j, hu => cases hu
    | [_], _, j + 1, hu => simp at hu
  cases effect h with
  | skip data s _ => exact h1
  | ask data v k hd => simp [Peer.after, recv _ rfl]
  | frame data f j o hd hf hg ho =>
    have hr := recv _ rfl
    have : o.tasks.length ≤ 1 := by
      cases f with
      | request v => exact absurd rfl (hf v)
      | requestN v =>
        simp only [dispatch] at ho
        split at ho
        · cases ho
        · split at ho <;> cases ho
          simp
      | cancel v =>
        simp only [dispatch] at ho
        cases hx : deliver (H := H × Ctx) p.st j (.complete j) <;> rw [hx] at ho <;> cases ho
        simp
      | payload v =>
        simp only [dispatch] at ho
        cases hx : deliverIf (H := H × Ctx) v.next p.st j (.next j v.data v.metadata) <;> rw [hx] at ho <;> try (cases ho)
        simp only [Res.ok_bind] at ho
        cases hy : deliverIf (H := H × Ctx) v.complete p.st j (.complete j) <;> rw [hy] at ho <;> cases ho
        simp
      | error v =>
        simp only [dispatch] at ho
        cases hx : deliver (H := H × Ctx) p.st j (.error j v.data) <;> rw [hx] at ho <;> try (cases ho)
        simp only [Res.ok_bind] at ho
        cases hy : deliver (H := H × Ctx) p.st j (.complete j) <;> rw [hy] at ho <;> cases ho
        simp
    simpa [Peer.after, hr] using this
  | answer j live k id' data md n ev ht hs' _ => simp [Peer.after, erase j _ ht]
  | serve j live k id' data md n g c m ht _ _ =>
    simp only [Peer.after, Peer.register, erase j _ ht, List.nil_append]
    cases k <;> simp [rest]
  | attach j i' n ht => simp [Peer.after, erase j _ ht]
  | demand j live i' n o ht _ _ => simp [Peer.after, erase j _ ht]
  | openMono id' c => exact h1
  | openFlux id' b c => exact h1
  | startIn j b => exact h1
  | openSink j => exact h1

/-! ## A call and the stream that serves it -/

/-- Where the call `c` is, which was begun with demand `n`: `W` are the frames for it that are on their way, `fed` what was sent
after the request, `G` the handlers started for it at `p`, which is end `t` and has the handlers `hs`. -/
inductive Phase (t : End) (hs : Handlers H) (c : WasmCalls.Call) (n : UInt32) (p : WasmDispatch.Peer H) (W : List Frame)
    (G : List (WasmCalls.Job H × Nat)) (fed : List Frame) : Prop
  | sent (v : RequestPayload) : W = .request v :: fed → Asks c v → v.initialN = n → Entries (fun id _ => id ≠ c.id) p.st →
      queued c.id p.tasks = 0 → G = [] → Phase t hs c n p W G fed
  | waits (lost : List Frame) : fed = lost ++ W → (t = .guest → lost = []) → Entries (fun id _ => id ≠ c.id) p.st →
      queued c.id p.tasks = 1 → (∀ k d m n', Task.request k c.id d m n' ∈ p.tasks → k = c.kind ∧ d = c.data ∧ m = c.metadata ∧ n' = n) →
      G = [] → Phase t hs c n p W G fed
  | refused (lost : List Frame) : fed = lost ++ W → Unknown hs c → Entries (fun id _ => id ≠ c.id) p.st →
      queued c.id p.tasks = 0 → G = [] → Phase t hs c n p W G fed
  | given (x : WasmCalls.Job H) (o : Nat) (lost took : List Frame) : G = [(x, o)] → Serves t hs c x → fed = lost ++ (took ++ W) →
      (t = .guest → lost = []) → queued c.id p.tasks = 0 → o < p.st.objs.length →
      Entries (fun id j => j = o → id = c.id) p.st → (Tidy fed → told o p.log = took.flatMap meaning) →
      ((∀ f ∈ took, ends f = false) → getStream p.st c.id = some o ∧
        Same t (n :: took.filterMap demandOf) (requestedOf o p.log ++ waitingOf o p.tasks)) → Phase t hs c n p W G fed

theorem phase_calm {t : End} {hs : Handlers H} {c : WasmCalls.Call} {n : UInt32} {p p' : WasmDispatch.Peer H} {W : List Frame}
    {G : List (WasmCalls.Job H × Nat)} {fed : List Frame} (ph : Phase t hs c n p W G fed) (C : Calm t c.id p p') :
    Phase t hs c n p' W G fed := by
  have hne : Entries (fun id _ => id ≠ c.id) p.st → Entries (fun id _ => id ≠ c.id) p'.st := C.entries _ fun _ h => h
  cases ph with
  | sent v h1 h2 h3 h4 h5 h6 => exact .sent v h1 h2 h3 (hne h4) (by rw [C.queued]; exact h5) h6
  | waits lost h1 h2 h3 h4 h5 h6 =>
    exact .waits lost h1 h2 (hne h3) (by rw [C.queued]; exact h4) (fun k d m n' h => h5 k d m n' (C.tasks _ _ _ _ h)) h6
  | refused lost h1 h2 h3 h4 h5 => exact .refused lost h1 h2 (hne h3) (by rw [C.queued]; exact h4) h5
  | given x o lost took h1 h2 h3 h4 h5 h6 h7 h8 h9 =>
    refine .given x o lost took h1 h2 h3 h4 (by rw [C.queued]; exact h5) (Nat.lt_of_lt_of_le h6 C.len)
      (C.entries _ (fun id' _ he => absurd he (by omega)) h7) (fun ht => by rw [C.told o h6 h7]; exact h8 ht) (fun hall => ?_)
    obtain ⟨h10, h11⟩ := h9 hall
    exact ⟨C.found o h10, C.same o _ h6 h7 h11⟩

/-- What a frame does to the stream that was found. -/
theorem dispatch_found {st : State} {o : Nat} {f : Frame} {out : Out (H × Ctx)} (hf : ∀ v, f ≠ .request v)
    (h : dispatch st (some o) f = .ok out) :
    told o out.evs = meaning f ∧ requestedOf o out.evs = [] ∧ waitingOf o out.tasks = (demandOf f).toList ∧ (ends f = false → out.st = st) := by
  have del : ∀ (ev : Ev (H × Ctx)) evs, deliver st o ev = .ok evs → evs = [ev] := by
    intro ev evs h
    unfold deliver at h
    split at h
    · cases h
    · split at h <;> cases h
      rfl
  have delIf : ∀ (b : Bool) (ev : Ev (H × Ctx)) evs, deliverIf b st o ev = .ok evs → evs = if b then [ev] else [] := by
    intro b ev evs h
    unfold deliverIf at h
    split at h
    · rename_i hb; rw [if_pos hb]; exact del _ _ h
    · rename_i hb; rw [if_neg hb]; cases h; rfl
  cases f with
  | request v => exact absurd rfl (hf v)
  | requestN v =>
    simp only [dispatch] at h
    split at h
    · cases h
    · split at h <;> cases h
      exact ⟨rfl, rfl, by simp [waitingOf, waitIn, demandOf], fun _ => rfl⟩
  | cancel v =>
    simp only [dispatch] at h
    cases hx : deliver (H := H × Ctx) st o (.complete o) with
    | ok evs =>
      rw [hx] at h; cases h
      have := del _ _ hx
      subst this
      exact ⟨by simp [told, sigOf, meaning], rfl, rfl, fun he => by cases he⟩
    | err m => rw [hx] at h; cases h
    | panic => rw [hx] at h; cases h
  | payload v =>
    simp only [dispatch] at h
    cases hx : deliverIf (H := H × Ctx) v.next st o (.next o v.data v.metadata) with
    | err m => rw [hx] at h; cases h
    | panic => rw [hx] at h; cases h
    | ok evs =>
      rw [hx, Res.ok_bind] at h
      cases hy : deliverIf (H := H × Ctx) v.complete st o (.complete o) with
      | err m => rw [hy] at h; cases h
      | panic => rw [hy] at h; cases h
      | ok evs' =>
        rw [hy] at h; cases h
        have e1 := delIf _ _ _ hx
        have e2 := delIf _ _ _ hy
        subst e1; subst e2
        refine ⟨?_, ?_, rfl, ?_⟩
        · simp only [told, meaning]
          cases v.next <;> cases v.complete <;> simp [sigOf]
        · cases v.next <;> cases v.complete <;> rfl
        · intro he
          have he : v.complete = false := he
          simp [he]
  | error v =>
    simp only [dispatch] at h
    cases hx : deliver (H := H × Ctx) st o (.error o v.data) with
    | err m => rw [hx] at h; cases h
    | panic => rw [hx] at h; cases h
    | ok evs =>
      rw [hx, Res.ok_bind] at h
      cases hy : deliver (H := H × Ctx) st o (.complete o) with
      | err m => rw [hy] at h; cases h
      | panic => rw [hy] at h; cases h
      | ok evs' =>
        rw [hy] at h; cases h
        have e1 := del _ _ hx
        have e2 := del _ _ hy
        subst e1; subst e2
        exact ⟨by simp [told, sigOf, meaning], rfl, rfl, fun he => by cases he⟩

theorem entries_none {id : UInt32} {st : State} (h : Entries (fun id' _ => id' ≠ id) st) : getStream st id = none := by
  cases hg : getStream st id with
  | none => rfl
  | some i => exact absurd rfl (h.lookup hg)

theorem not_end {fs : List Frame} (h : ¬ ∀ f ∈ fs, ends f = false) : ∃ pre f post, fs = pre ++ f :: post ∧ ends f = true := by
  obtain ⟨f, hf⟩ := Classical.not_forall.mp h
  have hf1 : f ∈ fs := Classical.byContradiction fun hn => hf fun h => absurd h hn
  have hf2 : ends f = true := by
    cases he : ends f with
    | true => rfl
    | false => exact absurd (fun _ => he) hf
  obtain ⟨pre, post, h⟩ := List.append_of_mem hf1
  exact ⟨pre, f, post, h, hf2⟩

theorem frame_started {e : End} {hs : Handlers H} {p p' : WasmDispatch.Peer H} {data : Bytes}
    (h : p.step e hs (.recv data) = some (.ok p')) : started p p' = [] := by
  cases effect h with
  | skip _ s _ => exact started_nil (evs := []) (by simp) (by simp)
  | ask _ v k hd => exact started_nil (evs := []) (by simp [Peer.after]) (by simp)
  | frame _ f j o hd hf hg ho =>
    obtain ⟨_, _, _, h4⟩ := dispatch_shape hf ho
    refine started_nil (evs := o.evs) rfl fun ev hev => ?_
    rcases h4 ev hev with ⟨d, m, rfl⟩ | rfl | ⟨m, rfl⟩ <;> rfl

/-- The next frame for the call is taken up. -/
theorem phase_frame {t : End} {hs : Handlers H} {c : WasmCalls.Call} {n : UInt32} {p p' : WasmDispatch.Peer H} {W : List Frame}
    {G : List (WasmCalls.Job H × Nat)} {fed : List Frame} {data : Bytes} {f : Frame} (ph : Phase t hs c n p (f :: W) G fed)
    (plain : ∀ g ∈ fed, isRequest g = false) (hd : decodeFrame data = .ok f) (hid : f.streamID = c.id)
    (h : p.step t hs (.recv data) = some (.ok p')) : Phase t hs c n p' W G fed := by
  have ready : t = .guest → p.tasks = [] := by
    rintro rfl
    simp only [Peer.step] at h
    split at h
    · rename_i hr; simpa [Peer.ready] using hr
    · cases h
  -- a frame that finds no stream
  have skip : isRequest f = false → Entries (fun id _ => id ≠ c.id) p.st → p' = p := by
    intro hf hE
    rcases recv_other hd hf h with ⟨_, h⟩ | ⟨i, o, hg, _⟩
    · exact h
    · rw [hid, entries_none hE] at hg; cases hg
  cases ph with
  | sent v h1 h2 h3 h4 h5 h6 =>
    simp only [List.cons.injEq] at h1
    obtain ⟨rfl, rfl⟩ := h1
    have hp := recv_request hd h2 h
    subst hp
    have hq0 : ∀ k d m n', Task.request k c.id d m n' ∉ p.tasks := fun k d m n' hm => by
      have := queued_pos hm; omega
    refine .waits [] rfl (fun _ => rfl) h4 ?_ ?_ h6
    · show queued c.id (p.tasks ++ _) = 1
      rw [queued_append, h5]
      simp [queued, isTask, h2.id]
    · intro k d m n' hm
      rcases List.mem_append.mp hm with hm | hm
      · exact absurd hm (hq0 _ _ _ _)
      · have := List.mem_singleton.mp hm
        simp only [Task.request.injEq] at this
        obtain ⟨rfl, _, rfl, rfl, rfl⟩ := this
        exact ⟨rfl, h2.data, h2.metadata, h3⟩
  | waits lost h1 h2 h3 h4 h5 h6 =>
    have hf := plain f (by rw [h1]; simp)
    rw [skip hf h3]
    refine .waits (lost ++ [f]) (by rw [h1]; simp) (fun ht => ?_) h3 h4 h5 h6
    have := ready ht
    rw [this] at h4
    cases h4
  | refused lost h1 h2 h3 h4 h5 =>
    have hf := plain f (by rw [h1]; simp)
    rw [skip hf h3]
    exact .refused (lost ++ [f]) (by rw [h1]; simp) h2 h3 h4 h5
  | given x o lost took h1 h2 h3 h4 h5 h6 h7 h8 h9 =>
    have hf := plain f (by rw [h3]; simp)
    have hnr : ∀ v, f ≠ .request v := by rintro v rfl; cases hf
    have hfo : frameOf c.id (.recv data) = some f := by simp [frameOf, hd, hid]
    -- what goes on besides the stream
    have hbase : queued c.id p'.tasks = 0 ∧ o < p'.st.objs.length ∧ Entries (fun id j => j = o → id = c.id) p'.st := by
      rcases recv_other hd hf h with ⟨_, rfl⟩ | ⟨i, out, hg, hdisp, rfl⟩
      · exact ⟨h5, h6, h7⟩
      · obtain ⟨e1, e2, e3, _⟩ := dispatch_shape hnr hdisp
        refine ⟨?_, by show o < out.st.objs.length; rw [e1]; exact h6, ?_⟩
        · have : queued c.id out.tasks = 0 := queued_none fun k d m n hm => by
            obtain ⟨_, h⟩ := e3 _ hm; cases h
          show queued c.id (p.tasks ++ out.tasks) = 0
          rw [queued_append, this, h5]
        · show Entries _ out.st
          rcases e2 with e2 | e2 <;> rw [e2]
          · exact h7
          · exact h7.removed _
    obtain ⟨b1, b2, b3⟩ := hbase
    refine .given x o lost (took ++ [f]) h1 h2 (by rw [h3]; simp) h4 b1 b2 b3 ?_ ?_
    · intro tidy
      by_cases hend : ∀ f ∈ took, ends f = false
      · obtain ⟨h10, _⟩ := h9 hend
        rcases recv_other hd hf h with ⟨hg, _⟩ | ⟨i, out, hg, hdisp, rfl⟩
        · rw [hid, h10] at hg; cases hg
        · rw [hid, h10] at hg
          obtain rfl := Option.some.inj hg
          have e1 := (dispatch_found hnr hdisp).1
          have e1 : out.evs.filterMap (sigOf o) = meaning f := e1
          have h8 := h8 tidy
          have h8 : p.log.filterMap (sigOf o) = took.flatMap meaning := h8
          simp [Peer.after, told, e1, h8]
      · obtain ⟨pre, g, post, rfl, hg⟩ := not_end hend
        have hna : Spec.Caller.answers f = false := by
          refine tidy (lost ++ pre) g (post ++ f :: W) (by rw [h3]; simp) hg f (by simp)
        rw [told_quiet (fun id' j hg hj => h7.lookup hg hj) (fun g hg => by rw [hfo] at hg; cases hg; exact hna) h, h8 tidy]
        have : meaning f = [] := by cases f <;> first | rfl | cases hna
        simp [this]
    · intro hall
      have hend : ∀ g ∈ took, ends g = false := fun g hg => hall g (by simp [hg])
      obtain ⟨h10, h11⟩ := h9 hend
      rcases recv_other hd hf h with ⟨hg, _⟩ | ⟨i, out, hg, hdisp, rfl⟩
      · rw [hid, h10] at hg; cases hg
      · rw [hid, h10] at hg
        obtain rfl := Option.some.inj hg
        obtain ⟨_, e2, e3, e4⟩ := dispatch_found hnr hdisp
        refine ⟨by show getStream out.st c.id = _; rw [e4 (hall f (by simp))]; exact h10, ?_⟩
        have := h11.app (demandOf f).toList
        simp only [Peer.after, requestedOf_append, waitingOf_append, e2, e3, List.append_nil]
        rw [List.append_assoc] at this
        have e5 : n :: (took ++ [f]).filterMap demandOf = n :: took.filterMap demandOf ++ (demandOf f).toList := by
          rw [List.filterMap_append]
          cases hdm : demandOf f <;> simp [hdm]
        rw [e5]; exact this

/-- The request of the call is handled. -/
theorem phase_task {t : End} {hs : Handlers H} {c : WasmCalls.Call} {n : UInt32} {p p' : WasmDispatch.Peer H} {W : List Frame}
    {G : List (WasmCalls.Job H × Nat)} {fed : List Frame} {i : Nat} {live : Bool} {k : Kind} {d m : Bytes} {n' : UInt32}
    (hw : Sound p) (hu : Untold p) (hr : Room p) (hk : many c.kind = true) (ph : Phase t hs c n p W G fed)
    (ht : p.tasks[i]? = some (.request k c.id d m n')) (h : p.step t hs (.task i live) = some (.ok p')) :
    Phase t hs c n p' W (G ++ givenFor c.id (started p p')) fed := by
  have hpos := queued_pos (List.mem_of_getElem? ht)
  cases ph with
  | sent v h1 h2 h3 h4 h5 h6 => omega
  | refused lost h1 h2 h3 h4 h5 => omega
  | given x o lost took h1 h2 h3 h4 h5 h6 h7 h8 h9 => omega
  | waits lost h1 h2 h3 h4 h5 h6 =>
    obtain ⟨rfl, rfl, rfl, rfl⟩ := h5 _ _ _ _ (List.mem_of_getElem? ht)
    simp only [Peer.step, ht] at h
    have h := Option.some.inj h
    simp only [Peer.runTask] at h
    have hq : queued c.id (p.tasks.eraseIdx i) = 0 := by
      have := queued_erase (id := c.id) ht
      rw [h4] at this
      simp [isTask] at this
      exact this
    rcases many_ran hk h with ⟨hun, msg, rfl⟩ | ⟨op, g, cx, cc, ho, hg, rfl⟩
    · have hst : started p ({ p with tasks := p.tasks.eraseIdx i }.after ⟨p.st, [], [.sent (errorFrame c.id msg)]⟩) = [] :=
        started_nil (evs := [.sent (errorFrame c.id msg)]) rfl (by simp [jobOf])
      have hst : givenFor c.id (started p ({ p with tasks := p.tasks.eraseIdx i }.after ⟨p.st, [], [.sent (errorFrame c.id msg)]⟩)) = [] := by
        rw [hst]; rfl
      refine .refused lost h1 hun h3 ?_ ?_
      · show queued c.id (p.tasks.eraseIdx i ++ []) = 0
        rw [List.append_nil]; exact hq
      · rw [h6]; exact hst
    · have hobjs : (p.register (.resp false false) cc c.id).st.objs = p.st.objs ++ [.resp false false] := registerStream_objs _ _ _
      refine .given ⟨c.kind, g, c.id, c.data, passed t c.kind c.metadata⟩ p.st.objs.length lost [] ?_ ?_ h1 h2 ?_ ?_ ?_ ?_ ?_
      · rw [h6]
        simp [started, givenFor, Peer.after, Peer.register, jobOf, hk]
      · exact ⟨rfl, rfl, rfl, shown_passed _ _ _, op, ho, hg⟩
      · show queued c.id (p.tasks.eraseIdx i ++ _) = 0
        rw [queued_append, hq]; simp [queued, isTask]
      · show _ < (p.register (.resp false false) cc c.id).st.objs.length
        rw [hobjs]; simp
      · show Entries _ (p.register (.resp false false) cc c.id).st
        refine Entries.registered ?_ fun _ => rfl
        refine entries_objs ?_ _
        exact hw.1.mono fun id' j hj e => by omega
      · intro _
        have := hu _ (Nat.le_refl _)
        simp only [told] at this
        simp [Peer.after, Peer.register, told, sigOf, this]
      · intro _
        refine ⟨get_register_none (st := { p.st with objs := p.st.objs ++ [.resp false false] }) _ (entries_none h3), ?_⟩
        have e1 : requestedOf p.st.objs.length [(.invoked c.kind (g, cx) c.id c.data (passed t c.kind c.metadata) : Ev (H × Ctx))] = [] := rfl
        have e2 : waitingOf p.st.objs.length [.attach p.st.objs.length n'] = [n'] := by simp [waitingOf, waitIn]
        simp only [Peer.after, Peer.register, requestedOf_append, waitingOf_append, e1, e2, hr.log _ (Nat.le_refl _),
          waitingOf_erase_none ht (o := p.st.objs.length) rfl, hr.tasks _ (Nat.le_refl _)]
        exact ⟨List.Perm.refl _, fun _ => rfl⟩

/-- The serving end does something, and takes up the next frame for the call if it is one. -/
theorem phase_step {t : End} {hs : Handlers H} {c : WasmCalls.Call} {n : UInt32} {p p' : WasmDispatch.Peer H} {W W' : List Frame}
    {G : List (WasmCalls.Job H × Nat)} {fed : List Frame} {a : WasmDispatch.Act} (hw : Sound p) (hu : Untold p) (hr : Room p)
    (h1 : t = .guest → p.tasks.length ≤ 1) (hk : many c.kind = true) (plain : ∀ g ∈ fed, isRequest g = false)
    (hm : ∀ x, a ≠ .openMono c.id x) (hf : ∀ b x, a ≠ .openFlux c.id b x) (hW : W = (frameOf c.id a).toList ++ W')
    (ph : Phase t hs c n p W G fed) (h : p.step t hs a = some (.ok p')) :
    Phase t hs c n p' W' (G ++ givenFor c.id (started p p')) fed := by
  cases hfo : frameOf c.id a with
  | some f =>
    rw [hfo] at hW
    subst hW
    cases a with
    | recv data =>
      simp only [frameOf] at hfo
      split at hfo
      · rename_i g hd
        split at hfo
        · rename_i hid
          cases hfo
          rw [frame_started h]
          simp only [givenFor, List.filter_nil, List.append_nil]
          exact phase_frame ph plain hd hid h
        · cases hfo
      · cases hfo
    | _ => cases hfo
  | none =>
    rw [hfo] at hW
    have hW : W = W' := hW
    subst hW
    by_cases ht : ∃ i live k d m n', a = .task i live ∧ p.tasks[i]? = some (.request k c.id d m n')
    · obtain ⟨i, live, k, d, m, n', rfl, ht⟩ := ht
      exact phase_task hw hu hr hk ph ht h
    · have C : Calm t c.id p p' := calm_step h1 ⟨hfo, hm, hf, fun i live k d m n' e1 e2 => ht ⟨i, live, k, d, m, n', e1, e2⟩⟩ h
      rw [C.started, List.append_nil]
      exact phase_calm ph C

/-! ## Invariant -/

/-- The id of a call that may be known to the other end; a stream or channel must have been begun for that. -/
def Begun (p : Node H) (asked : List (Nat × UInt32)) (id : UInt32) : Prop :=
  ∃ (j : Nat) (c : WasmCalls.Call), p.calls[j]? = some c ∧ c.id = id ∧ (many c.kind = true → ∃ n, (j, n) ∈ asked)

theorem Begun.mono {p p' : Node H} {as as' : List (Nat × UInt32)} {id : UInt32} (h : Begun p as id)
    (hc : ∀ (j : Nat) (c : WasmCalls.Call), p.calls[j]? = some c → p'.calls[j]? = some c) (ha : ∀ x ∈ as, x ∈ as') : Begun p' as' id := by
  obtain ⟨j, c, h1, h2, h3⟩ := h
  exact ⟨j, c, hc j c h1, h2, fun hk => (h3 hk).imp fun n hn => ha _ hn⟩

/-- What holds of the calls of `p`, served by `q`, which is end `t` and has the handlers `hs`; `wp` are the frames of `p`. -/
structure Feed (t : End) (hs : Handlers H) (p q : Node H) (wp : List Frame) (asked : List (Nat × UInt32)) (fed : List Frame)
    (given : List (WasmCalls.Job H × Nat)) : Prop where
  valid : ∀ j n, (j, n) ∈ asked → ∃ c, p.calls[j]? = some c ∧ many c.kind = true
  plain : ∀ f ∈ fed, isRequest f = false
  wire : ∀ f ∈ wp, Begun p asked f.streamID ∨ ∃ c ∈ q.calls, c.id = f.streamID
  known : ∀ f ∈ fed, Begun p asked f.streamID
  tasks : ∀ k id d m n, Task.request k id d m n ∈ q.peer.tasks → Begun p asked id
  started : ∀ x ∈ given, Begun p asked x.1.id
  entries : Entries (fun id _ => Begun p asked id ∨ ∃ c ∈ q.calls, c.id = id) q.peer.st
  room : Room q.peer
  single : t = .guest → q.peer.tasks.length ≤ 1
  jobs : q.jobs.filter (fun x => many x.kind) = given.map (·.1)
  phase : ∀ j n c, (j, n) ∈ asked → p.calls[j]? = some c →
    Phase t hs c n q.peer (under c.id wp) (givenFor c.id given) (under c.id fed)

theorem givenFor_append (id : UInt32) (a b : List (WasmCalls.Job H × Nat)) : givenFor id (a ++ b) = givenFor id a ++ givenFor id b :=
  List.filter_append ..

/-- The calling end goes on: it makes calls or sends frames that are for no stream or channel of its own. -/
theorem feed_near {t : End} {hs : Handlers H} {p p' q : Node H} {wp out : List Frame} {asked : List (Nat × UInt32)} {fed : List Frame}
    {given : List (WasmCalls.Job H × Nat)} (F : Feed t hs p q wp asked fed given)
    (hc : ∀ (j : Nat) (c : WasmCalls.Call), p.calls[j]? = some c → p'.calls[j]? = some c)
    (hout : ∀ f ∈ out, Begun p' asked f.streamID ∨ ∃ c ∈ q.calls, c.id = f.streamID)
    (hno : ∀ (j : Nat) c, p.calls[j]? = some c → many c.kind = true → under c.id out = []) : Feed t hs p' q (wp ++ out) asked fed given := by
  have hb : ∀ id, Begun p asked id → Begun p' asked id := fun id h => h.mono hc fun _ h => h
  refine ⟨?_, F.plain, ?_, fun f hf => hb _ (F.known f hf), fun k id d m n h => hb _ (F.tasks k id d m n h), fun x hx => hb _ (F.started x hx),
    F.entries.mono fun id _ h => h.imp_left (hb _), F.room, F.single, F.jobs, ?_⟩
  · intro j n h
    obtain ⟨c, h1, h2⟩ := F.valid j n h
    exact ⟨c, hc j c h1, h2⟩
  · intro f hf
    rcases List.mem_append.mp hf with hf | hf
    · exact (F.wire f hf).imp_left (hb _)
    · exact hout f hf
  · intro j n c h1 h2
    obtain ⟨c', h3, h4⟩ := F.valid j n h1
    obtain rfl := Option.some.inj ((hc j c' h3).symm.trans h2)
    rw [under_append, hno j c' h3 h4, List.append_nil]
    exact F.phase j n c' h1 h3

/-- A stream or channel is begun. -/
theorem feed_start {t e : End} {hs : Handlers H} {p q : Node H} {wp : List Frame} {asked : List (Nat × UInt32)} {fed : List Frame}
    {given : List (WasmCalls.Job H × Nat)} {j : Nat} {n : UInt32} {c : WasmCalls.Call} {v : RequestPayload} (F : Feed t hs p q wp asked fed given)
    (hl : Local e p) (hlq : Local (other e) q) (hb : p.calls.length ≤ 2 ^ 30) (hc : p.calls[j]? = some c) (hk : many c.kind = true)
    (hfresh : ∀ n, (j, n) ∉ asked) (hv : Asks c v) (hn : v.initialN = n) :
    Feed t hs p q (wp ++ [.request v]) (asked ++ [(j, n)]) fed given := by
  have hb' : ∀ id, Begun p asked id → Begun p (asked ++ [(j, n)]) id := fun id h => h.mono (fun _ _ h => h) fun _ h => List.mem_append_left _ h
  have hme : Begun p (asked ++ [(j, n)]) c.id := ⟨j, c, hc, rfl, fun _ => ⟨n, by simp⟩⟩
  have hnb : ¬ Begun p asked c.id := by
    rintro ⟨i, d, h1, h2, h3⟩
    cases index_unique hl hb h1 hc h2
    cases h1.symm.trans hc
    obtain ⟨n', h4⟩ := h3 hk
    exact hfresh n' h4
  have hnq : ¬ ∃ d ∈ q.calls, d.id = c.id := by
    rintro ⟨d, h1, h2⟩
    exact ids_disjoint hl hlq (List.mem_of_getElem? hc) h1 h2.symm
  refine ⟨?_, F.plain, ?_, fun f hf => hb' _ (F.known f hf), fun k id d m n h => hb' _ (F.tasks k id d m n h), fun x hx => hb' _ (F.started x hx),
    F.entries.mono fun id _ h => h.imp_left (hb' _), F.room, F.single, F.jobs, ?_⟩
  · intro j' n' h
    rcases List.mem_append.mp h with h | h
    · exact F.valid j' n' h
    · cases List.mem_singleton.mp h; exact ⟨c, hc, hk⟩
  · intro f hf
    rcases List.mem_append.mp hf with hf | hf
    · exact (F.wire f hf).imp_left (hb' _)
    · cases List.mem_singleton.mp hf
      left
      show Begun _ _ v.streamID
      rw [hv.id]; exact hme
  · intro j' n' c' h1 h2
    rw [under_append, under_cons]
    rcases List.mem_append.mp h1 with h1 | h1
    · have hne : v.streamID ≠ c'.id := by
        intro he
        rw [hv.id] at he
        cases index_unique hl hb hc h2 he
        exact hfresh n' h1
      have hne : (Frame.request v).streamID ≠ c'.id := hne
      rw [if_neg hne]
      simp only [under, List.filter_nil, List.append_nil]
      exact F.phase j' n' c' h1 h2
    · have := List.mem_singleton.mp h1
      simp only [Prod.mk.injEq] at this
      obtain ⟨rfl, rfl⟩ := this
      obtain rfl := Option.some.inj (hc.symm.trans h2)
      have hid : (Frame.request v).streamID = c.id := hv.id
      have w0 : under c.id wp = [] := under_none fun f hf he => by
        rcases F.wire f hf with h | h
        · exact hnb (he ▸ h)
        · exact hnq (he ▸ h)
      have f0 : under c.id fed = [] := under_none fun f hf he => hnb (he ▸ F.known f hf)
      refine .sent v ?_ hv hn ?_ ?_ ?_
      · rw [w0, f0, if_pos hid]; rfl
      · refine F.entries.mono fun id _ h he => ?_
        subst he
        rcases h with h | h
        · exact hnb h
        · exact hnq h
      · exact queued_none fun k d m n'' hm => hnb (F.tasks _ _ _ _ _ hm)
      · refine List.filter_eq_nil_iff.mpr fun x hx => ?_
        have := F.started x hx
        simp only [decide_eq_true_eq]
        intro he
        exact hnb (he ▸ this)

theorem phase_more {t : End} {hs : Handlers H} {c : WasmCalls.Call} {n : UInt32} {p : WasmDispatch.Peer H} {W : List Frame}
    {G : List (WasmCalls.Job H × Nat)} {fed : List Frame} (ph : Phase t hs c n p W G fed) (l : List Frame) :
    Phase t hs c n p (W ++ l) G (fed ++ l) := by
  cases ph with
  | sent v h1 h2 h3 h4 h5 h6 => exact .sent v (by rw [h1]; rfl) h2 h3 h4 h5 h6
  | waits lost h1 h2 h3 h4 h5 h6 => exact .waits lost (by rw [h1]; simp) h2 h3 h4 h5 h6
  | refused lost h1 h2 h3 h4 h5 => exact .refused lost (by rw [h1]; simp) h2 h3 h4 h5
  | given x o lost took h1 h2 h3 h4 h5 h6 h7 h8 h9 =>
    exact .given x o lost took h1 h2 (by rw [h3]; simp) h4 h5 h6 h7 (fun ht => h8 (tidy_prefix ht)) h9

/-- A frame is sent for a stream or channel. -/
theorem feed_own {t e : End} {hs : Handlers H} {p q : Node H} {wp : List Frame} {asked : List (Nat × UInt32)} {fed : List Frame}
    {given : List (WasmCalls.Job H × Nat)} {j : Nat} {n : UInt32} {c : WasmCalls.Call} {f : Frame} (F : Feed t hs p q wp asked fed given)
    (hc : p.calls[j]? = some c) (hask : (j, n) ∈ asked) (hf : f.streamID = c.id)
    (hr : isRequest f = false) : Feed t hs p q (wp ++ [f]) asked (fed ++ [f]) given := by
  have hme : Begun p asked f.streamID := ⟨j, c, hc, hf.symm, fun _ => ⟨n, hask⟩⟩
  refine ⟨F.valid, ?_, ?_, ?_, F.tasks, F.started, F.entries, F.room, F.single, F.jobs, ?_⟩
  · intro g hg
    rcases List.mem_append.mp hg with hg | hg
    · exact F.plain g hg
    · cases List.mem_singleton.mp hg; exact hr
  · intro g hg
    rcases List.mem_append.mp hg with hg | hg
    · exact F.wire g hg
    · cases List.mem_singleton.mp hg; exact .inl hme
  · intro g hg
    rcases List.mem_append.mp hg with hg | hg
    · exact F.known g hg
    · cases List.mem_singleton.mp hg; exact hme
  · intro j' n' c' h1 h2
    rw [under_append, under_append]
    exact phase_more (F.phase j' n' c' h1 h2) _

/-- The serving end makes calls, or handlers that are no streams or channels resolve. -/
theorem feed_far {t : End} {hs : Handlers H} {p q q' : Node H} {wp : List Frame} {asked : List (Nat × UInt32)} {fed : List Frame}
    {given : List (WasmCalls.Job H × Nat)} (F : Feed t hs p q wp asked fed given) (hp : q'.peer = q.peer)
    (hc : ∀ c ∈ q.calls, c ∈ q'.calls) (hj : q'.jobs.filter (fun x => many x.kind) = q.jobs.filter (fun x => many x.kind)) :
    Feed t hs p q' wp asked fed given := by
  refine ⟨F.valid, F.plain, fun f hf => (F.wire f hf).imp_right fun ⟨c, h1, h2⟩ => ⟨c, hc c h1, h2⟩, F.known, by rw [hp]; exact F.tasks, F.started, ?_,
    by rw [hp]; exact F.room, by rw [hp]; exact F.single, by rw [hj]; exact F.jobs, by rw [hp]; exact F.phase⟩
  rw [hp]
  exact F.entries.mono fun id _ h => h.imp_right fun ⟨c, h1, h2⟩ => ⟨c, hc c h1, h2⟩

/-- The ids that requests and streams are under. -/
theorem ids_step {t : End} {hs : Handlers H} {R P : UInt32 → Prop} (hRP : ∀ id, R id → P id) {p p' : WasmDispatch.Peer H}
    {a : WasmDispatch.Act} (hE : Entries (fun id _ => P id) p.st) (hT : ∀ k id d m n, Task.request k id d m n ∈ p.tasks → R id)
    (hreq : ∀ data v, a = .recv data → decodeFrame data = .ok (.request v) → R v.streamID)
    (hm : ∀ id x, a = .openMono id x → P id) (hf : ∀ id b x, a = .openFlux id b x → P id) (h : p.step t hs a = some (.ok p')) :
    Entries (fun id _ => P id) p'.st ∧ (∀ k id d m n, Task.request k id d m n ∈ p'.tasks → R id) ∧ ∀ x ∈ started p p', R x.1.id := by
  have job : ∀ (ev : Ev (H × Ctx)) (id : UInt32), p'.log = p.log ++ [ev] → (∀ x, jobOf ev = some x → x.id = id) → R id →
      ∀ x ∈ started p p', R x.1.id := by
    intro ev id hl hj hr x hx
    simp only [started, hl, List.drop_left'] at hx
    obtain ⟨y, hy, rfl⟩ := List.mem_map.mp hx
    obtain ⟨ev', hm', hev⟩ := List.mem_filterMap.mp (List.mem_of_mem_filter hy)
    cases List.mem_singleton.mp hm'
    show R y.id
    rw [hj _ hev]; exact hr
  have none : ∀ evs : List (Ev (H × Ctx)), p'.log = p.log ++ evs → (∀ ev ∈ evs, jobOf ev = none) → ∀ x ∈ started p p', R x.1.id := by
    intro evs hl hj x hx
    rw [started_nil hl hj] at hx
    exact absurd hx List.not_mem_nil
  cases effect h with
  | skip data s _ => exact ⟨hE, hT, none [] (by simp) (by simp)⟩
  | ask data v k hd =>
    refine ⟨hE, ?_, none [] (by simp [Peer.after]) (by simp)⟩
    intro k' id d m n ht
    rcases List.mem_append.mp ht with ht | ht
    · exact hT _ _ _ _ _ ht
    · cases List.mem_singleton.mp ht; exact hreq data v rfl hd
  | frame data f j o hd hf' hg ho =>
    obtain ⟨h1, h2, h3, h4⟩ := dispatch_shape hf' ho
    refine ⟨?_, ?_, none o.evs rfl ?_⟩
    · show Entries _ o.st
      rcases h2 with h2 | h2 <;> rw [h2]
      · exact hE
      · exact hE.removed _
    · intro k' id d m n ht
      rcases List.mem_append.mp ht with ht | ht
      · exact hT _ _ _ _ _ ht
      · obtain ⟨_, h⟩ := h3 _ ht; cases h
    · intro ev hev
      rcases h4 ev hev with ⟨d, m, rfl⟩ | rfl | ⟨m, rfl⟩ <;> rfl
  | answer j live k id' data md n ev ht hs' _ =>
    obtain ⟨ev', hl, hr, hj⟩ := request_log ht h
    refine ⟨hE, ?_, job ev' id' hl hj (hT _ _ _ _ _ (List.mem_of_getElem? ht))⟩
    intro k' id d m n' h
    have h : Task.request k' id d m n' ∈ p.tasks.eraseIdx j := by simpa [Peer.after] using h
    exact hT _ _ _ _ _ (List.mem_of_mem_eraseIdx h)
  | serve j live k id' data md n g c m ht _ _ =>
    have hR := hT _ _ _ _ _ (List.mem_of_getElem? ht)
    refine ⟨?_, ?_, job (.invoked k g id' data m) id' rfl (fun x hx => (by cases hx; rfl)) hR⟩
    · show Entries _ (p.register (.resp false false) c id').st
      exact Entries.registered (entries_objs hE _) (hRP _ hR)
    · intro k' id d m n' h
      rcases List.mem_append.mp h with h | h
      · exact hT _ _ _ _ _ (List.mem_of_mem_eraseIdx h)
      · cases k <;> simp [rest] at h
  | attach j i' n ht =>
    refine ⟨entries_objs hE _, ?_, none [.requested i' n] rfl (by simp [jobOf])⟩
    intro k' id d m n' h
    have h : Task.request k' id d m n' ∈ p.tasks.eraseIdx j := by simpa [Peer.after] using h
    exact hT _ _ _ _ _ (List.mem_of_mem_eraseIdx h)
  | demand j live i' n o ht _ _ =>
    refine ⟨hE, ?_, none [.requested i' n] rfl (by simp [jobOf])⟩
    intro k' id d m n' h
    have h : Task.request k' id d m n' ∈ p.tasks.eraseIdx j := by simpa [Peer.after] using h
    exact hT _ _ _ _ _ (List.mem_of_mem_eraseIdx h)
  | openMono id' c => exact ⟨Entries.registered (entries_objs hE _) (hm _ _ rfl), hT, none [] (by simp [Peer.register]) (by simp)⟩
  | openFlux id' b c => exact ⟨Entries.registered (entries_objs hE _) (hf _ _ _ rfl), hT, none [] (by simp [Peer.register]) (by simp)⟩
  | startIn j b => exact ⟨entries_objs hE _, hT, none [] (by simp) (by simp)⟩
  | openSink j => exact ⟨entries_objs hE _, hT, none [] (by simp) (by simp)⟩

/-- The dispatcher of the serving end does something. -/
theorem feed_does {t : End} {hs : Handlers H} {p q q' : Node H} {wp wp' : List Frame} {asked : List (Nat × UInt32)} {fed : List Frame}
    {given : List (WasmCalls.Job H × Nat)} {a : WasmDispatch.Act} (F : Feed t hs p q wp asked fed given) (hl : Local t q)
    (h : q.peer.step t hs a = some (.ok q'.peer)) (hc : q'.calls = q.calls) (hsub : ∀ f ∈ wp', f ∈ wp)
    (hq : ∀ d ∈ q.calls, ∀ c ∈ p.calls, c.id ≠ d.id)
    (hm : ∀ id x, a = .openMono id x → ∃ c ∈ q.calls, c.id = id)
    (hf : ∀ id b x, a = .openFlux id b x → ∃ c ∈ q.calls, c.id = id)
    (hreq : ∀ data v, a = .recv data → decodeFrame data = .ok (.request v) → Frame.request v ∈ wp ∧ ∃ c ∈ p.calls, c.id = v.streamID)
    (hW : ∀ c ∈ p.calls, under c.id wp = (frameOf c.id a).toList ++ under c.id wp')
    (hj : q'.jobs.filter (fun x => many x.kind) = q.jobs.filter (fun x => many x.kind) ++ (Spec.WasmInputs.started q.peer q'.peer).map (·.1)) :
    Feed t hs p q' wp' asked fed (given ++ Spec.WasmInputs.started q.peer q'.peer) := by
  obtain ⟨g1, g2, g3⟩ := ids_step (R := Begun p asked) (P := fun id => Begun p asked id ∨ ∃ c ∈ q.calls, c.id = id) (fun id h => .inl h)
    F.entries F.tasks (by
      intro data v ha hd
      obtain ⟨h1, c, h2, h3⟩ := hreq data v ha hd
      rcases F.wire _ h1 with h4 | ⟨d, h4, h5⟩
      · exact h4
      · exact absurd (h3.trans h5.symm) (hq d h4 c h2)) (fun id x ha => .inr (hm id x ha)) (fun id b x ha => .inr (hf id b x ha)) h
  refine ⟨F.valid, F.plain, fun f hf => hc ▸ F.wire f (hsub f hf), F.known, g2, ?_, by rw [hc]; exact g1, room_step hl.sound F.room h,
    single_step F.single h, by rw [hj, F.jobs, List.map_append], ?_⟩
  · intro x hx
    rcases List.mem_append.mp hx with hx | hx
    · exact F.started x hx
    · exact g3 x hx
  · intro j n c h1 h2
    obtain ⟨c', h3, h4⟩ := F.valid j n h1
    obtain rfl := Option.some.inj (h3.symm.trans h2)
    have hcm := List.mem_of_getElem? h2
    rw [givenFor_append]
    refine phase_step hl.sound hl.untold F.room F.single h4 (fun g hg => F.plain g (List.mem_of_mem_filter hg)) ?_ ?_ (hW c' hcm) (F.phase j n c' h1 h2) h
    · intro x he
      obtain ⟨d, h5, h6⟩ := hm _ x he
      exact hq d h5 c' hcm h6.symm
    · intro b x he
      obtain ⟨d, h5, h6⟩ := hf _ b x he
      exact hq d h5 c' hcm h6.symm

/-! ## Every run -/

/-- What holds of an instance. -/
def Feeds (hs : End → Handlers H) (y : WasmCalls.Sys H) (h : Hist H) : Prop :=
  ∀ e, Feed (other e) (hs (other e)) (y.node e) (y.node (other e)) (y.wire e) (h.asked e) (h.fed e) (h.given (other e))

theorem feeds_init (hs : End → Handlers H) : Feeds hs (WasmCalls.Sys.init : WasmCalls.Sys H) Hist.init := by
  intro e
  refine ⟨?_, ?_, ?_, ?_, ?_, ?_, ?_, ⟨fun _ _ => rfl, fun _ _ => rfl⟩, fun _ => Nat.zero_le _, rfl, ?_⟩
  · intro j n h; exact absurd h List.not_mem_nil
  · intro f hf; exact absurd hf List.not_mem_nil
  · intro f hf; exact absurd hf List.not_mem_nil
  · intro f hf; exact absurd hf List.not_mem_nil
  · intro k id d m n h; exact absurd h List.not_mem_nil
  · intro x hx; exact absurd hx List.not_mem_nil
  · exact ⟨fun x hx => absurd hx List.not_mem_nil, fun x hx => absurd hx List.not_mem_nil⟩
  · intro j n c h; exact absurd h List.not_mem_nil

theorem feeds_put {hs : End → Handlers H} {y : WasmCalls.Sys H} {h : Hist H} (e : End) (n : Node H) (out : List Frame) (r : Bool)
    (a : WasmCalls.Act) (as : List (Nat × UInt32)) (fs : List Frame) (gs : List (WasmCalls.Job H × Nat))
    (hA : ∀ t, asksIn a t = if t = e then as else []) (hF : ∀ t, feedsIn a t = if t = e then fs else [])
    (hG : ∀ t, givesIn y (y.put e n out r) a t = if t = e then gs else [])
    (h1 : Feed (other e) (hs (other e)) n (y.node (other e)) (y.wire e ++ out) (h.asked e ++ as) (h.fed e ++ fs) (h.given (other e)))
    (h2 : Feed e (hs e) (y.node (other e)) n (if r then (y.wire (other e)).tail else y.wire (other e)) (h.asked (other e)) (h.fed (other e))
      (h.given e ++ gs)) :
    Feeds hs (y.put e n out r) (h.after y (y.put e n out r) a) := by
  intro t
  simp only [Hist.after, hA, hF, hG]
  rcases eq_or_other e t with rfl | rfl
  · simp only [WasmCalls.Sys.put, if_true, if_neg (other_ne t), List.append_nil]
    exact h1
  · simp only [WasmCalls.Sys.put, other_other, if_true, if_neg (other_ne e), List.append_nil]
    exact h2

theorem many_erase {js : List (WasmCalls.Job H)} {i : Nat} {x : WasmCalls.Job H} (h : js[i]? = some x) (hk : x.kind = .rr) :
    (js.eraseIdx i).filter (fun x => many x.kind) = js.filter (fun x => many x.kind) := by
  induction js generalizing i with
  | nil => cases h
  | cons z js ih =>
    cases i with
    | zero =>
      cases h
      have : many x.kind = false := by rw [hk]; rfl
      simp [this]
    | succ i =>
      simp only [List.getElem?_cons_succ] at h
      simp only [List.eraseIdx_cons_succ, List.filter_cons, ih h]

theorem jobs_absorb (q : Node H) (p : WasmDispatch.Peer H) : (q.absorb p).jobs.filter (fun x => many x.kind) =
    q.jobs.filter (fun x => many x.kind) ++ (Spec.WasmInputs.started q.peer p).map (·.1) := by
  simp only [Node.absorb, List.filter_append, Spec.WasmInputs.started, Node.news, List.map_map]
  congr 1
  exact (List.map_id _).symm

theorem feeds_step {hs : End → Handlers H} {y y' : WasmCalls.Sys H} {h : Hist H} {a : WasmCalls.Act} (hg : Good hs y)
    (hg' : Good hs y') (hb : Bounded y) (hb' : Bounded y') (F : Feeds hs y h) (ha : InTurn h a) (hst : y.step hs a = some y') :
    Feeds hs y' (h.after y y' a) := by
  have far : ∀ e, Feed e (hs e) (y.node (other e)) (y.node e) (y.wire (other e)) (h.asked (other e)) (h.fed (other e)) (h.given e) := by
    intro e
    have := F (other e)
    rwa [other_other] at this
  have lfar : ∀ e, Link (other e) (hs e) (y.node (other e)) (y.node e) (y.wire (other e)) (y.wire e) := by
    intro e
    have := hg.link (other e)
    rwa [other_other] at this
  -- the calls of the two ends have different ids
  have apart : ∀ (e : End) (n : Node H), Local e n → ∀ d ∈ n.calls, ∀ c ∈ (y.node (other e)).calls, c.id ≠ d.id :=
    fun e n hln d hd c hc he => ids_disjoint hln (hg.loc (other e)) hd hc he.symm
  -- frames that are for calls of the other end are not for calls of the sender
  have alien : ∀ (e : End) (out : List Frame), (∀ f ∈ out, ∃ c ∈ (y.node (other e)).calls, c.id = f.streamID) →
      ∀ (j : Nat) (c : WasmCalls.Call), (y.node e).calls[j]? = some c → many c.kind = true → under c.id out = [] := by
    intro e out hout j c hc _
    refine under_none fun f hf he => ?_
    obtain ⟨d, h1, h2⟩ := hout f hf
    exact apart e _ (hg.loc e) c (List.mem_of_getElem? hc) d h1 (h2.trans he)
  have nilA : ∀ (e t : End), ([] : List (Nat × UInt32)) = if t = e then [] else [] := by intro e t; split <;> rfl
  have nilF : ∀ (e t : End), ([] : List Frame) = if t = e then [] else [] := by intro e t; split <;> rfl
  have nilG : ∀ (e t : End), ([] : List (WasmCalls.Job H × Nat)) = if t = e then [] else [] := by intro e t; split <;> rfl
  -- the caller does something that is not about its own streams
  have near : ∀ (e : End) (n : Node H) (out : List Frame), n.calls = (y.node e).calls →
      (∀ f ∈ out, ∃ c ∈ (y.node (other e)).calls, c.id = f.streamID) →
      Feed (other e) (hs (other e)) n (y.node (other e)) (y.wire e ++ out) (h.asked e ++ []) (h.fed e ++ []) (h.given (other e)) := by
    intro e n out hc hout
    rw [List.append_nil, List.append_nil]
    exact feed_near (F e) (fun j c h => by rw [hc]; exact h) (fun f hf => .inr (hout f hf)) (alien e out hout)
  -- the dispatcher does something
  have does : ∀ (e : End) (p : WasmDispatch.Peer H) (b : WasmDispatch.Act) (r : Bool) (a : WasmCalls.Act),
      y' = y.put e ((y.node e).absorb p) (((y.node e).news p).filterMap sentOf) r →
      (∀ t, asksIn a t = []) → (∀ t, feedsIn a t = []) →
      (∀ t, givesIn y (y.put e ((y.node e).absorb p) (((y.node e).news p).filterMap sentOf) r) a t =
        if t = e then started (y.node e).peer p else []) →
      (y.node e).peer.step e (hs e) b = some (.ok p) → (∀ id x, b ≠ .openMono id x) → (∀ id f x, b ≠ .openFlux id f x) →
      (∀ data v, b = .recv data → decodeFrame data = .ok (.request v) → Frame.request v ∈ y.wire (other e)) →
      (∀ c ∈ (y.node (other e)).calls, under c.id (y.wire (other e)) =
        (frameOf c.id b).toList ++ under c.id (if r then (y.wire (other e)).tail else y.wire (other e))) →
      Feeds hs y' (h.after y y' a) := by
    intro e p b r a he hA hF hG hp hm hf hreq hW
    have hsents := hg'.link (other e)
    subst he
    rw [other_other, put_node, put_other] at hsents
    refine feeds_put e _ _ r a [] [] (started (y.node e).peer p) (fun t => (hA t).trans (nilA e t)) (fun t => (hF t).trans (nilF e t)) hG
      (near e _ _ rfl ?_) ?_
    · intro f hf
      obtain ⟨ev, h1, h2⟩ := List.mem_filterMap.mp hf
      cases ev with
      | sent g =>
        cases h2
        obtain ⟨c, h3, h4, _⟩ := hsents.sents _ (List.mem_of_mem_drop h1)
        exact ⟨c, h3, h4⟩
      | _ => cases h2
    · refine feed_does (q' := (y.node e).absorb p) (a := b) (far e) (hg.loc e) hp rfl ?_ (apart e _ (hg.loc e)) (fun id x hb => absurd hb (hm id x))
        (fun id f x hb => absurd hb (hf id f x)) ?_ hW (jobs_absorb _ _)
      · intro f hf
        split at hf
        · exact List.mem_of_mem_tail hf
        · exact hf
      · intro data v hb hd
        have h1 := hreq data v hb hd
        obtain ⟨c, h2, h3⟩ := (lfar e).asks v h1
        exact ⟨h1, c, h2, h3.id.symm⟩
  cases a with
  | call e k d m ctx =>
    simp only [WasmCalls.Sys.step, Option.map_eq_some_iff] at hst
    obtain ⟨⟨n, out⟩, h1, rfl⟩ := hst
    have hln := hg'.loc e
    have hbn := hb' e
    rw [put_node] at hln hbn
    unfold Node.call at h1
    split at h1
    · cases h1
    · rename_i ctr id b hnx
      cases h1
      have hout : ∀ f ∈ (if k = .fnf then [Frame.request (requestFrame k id d m)] else []), k = .fnf ∧ f = .request (requestFrame k id d m) := by
        intro f hf
        split at hf
        · rename_i hk; exact ⟨hk, List.mem_singleton.mp hf⟩
        · exact absurd hf List.not_mem_nil
      have hlast : ((y.node e).calls ++ [⟨k, id, d, m, ctx⟩])[(y.node e).calls.length]? = some ⟨k, id, d, m, ctx⟩ := by simp
      have hid := (requestFrame_asks' ⟨k, id, d, m, ctx⟩).id
      have hgrow : ∀ (j : Nat) (c : WasmCalls.Call), (y.node e).calls[j]? = some c → ((y.node e).calls ++ [⟨k, id, d, m, ctx⟩])[j]? = some c := by
        intro j c hc
        rw [List.getElem?_append_left (List.getElem?_eq_some_iff.mp hc).1]; exact hc
      refine feeds_put e _ _ false _ [] [] [] (nilA e) (nilF e) (nilG e) ?_ ?_
      · rw [List.append_nil, List.append_nil]
        refine feed_near (F e) hgrow ?_ ?_
        · intro f hf
          obtain ⟨hk, rfl⟩ := hout f hf
          left
          refine ⟨_, _, hlast, hid.symm, fun hm => ?_⟩
          subst hk; cases hm
        · intro j c hc hm
          refine under_none fun f hf he => ?_
          obtain ⟨hk, rfl⟩ := hout f hf
          have he : (requestFrame k id d m).streamID = c.id := he
          rw [hid] at he
          have := index_unique hln hbn hlast (hgrow j c hc) he
          subst this
          have := Option.some.inj (hlast.symm.trans (hgrow _ c hc))
          subst this; subst hk; cases hm
      · rw [List.append_nil]
        exact feed_far (far e) rfl (fun c hc => List.mem_append_left _ hc) rfl
  | subscribe e j =>
    simp only [WasmCalls.Sys.step, Option.map_eq_some_iff] at hst
    obtain ⟨⟨n, out⟩, h1, rfl⟩ := hst
    obtain ⟨c, o, hc, _, hn, hp, hk⟩ := subscribe_shape h1
    have hcalls : n.calls = (y.node e).calls := by rw [hn]
    refine feeds_put e n out false _ [] [] [] (nilA e) (nilF e) (nilG e) ?_ ?_
    · rw [List.append_nil, List.append_nil]
      refine feed_near (F e) (fun j c h => by rw [hcalls]; exact h) ?_ ?_
      · intro f hf
        rcases hk with ⟨hk, _, rfl⟩ | ⟨_, rfl⟩
        · cases List.mem_singleton.mp hf
          left
          refine ⟨j, c, by rw [hcalls]; exact hc, (requestFrame_asks' c).id.symm, fun hm => ?_⟩
          rw [hk] at hm; cases hm
        · exact absurd hf List.not_mem_nil
      · intro j' c' hc' hm
        rcases hk with ⟨hk, _, rfl⟩ | ⟨_, rfl⟩
        · refine under_none fun f hf he => ?_
          cases List.mem_singleton.mp hf
          have he : (requestFrame c.kind c.id c.data c.metadata).streamID = c'.id := he
          rw [(requestFrame_asks' c).id] at he
          have := index_unique (hg.loc e) (hb e) hc hc' he
          subst this
          have := Option.some.inj (hc.symm.trans hc')
          subst this
          rw [hk] at hm; cases hm
        · rfl
    · have hev : started (y.node e).peer n.peer = [] := started_nil (evs := []) (by rw [hn]; simp [Peer.register]) (by simp)
      have hjobs : n.jobs = (y.node e).jobs := by rw [hn]
      have hopen : ∀ id, (∃ x, (openAct c).getD (.openSink 0) = .openMono id x) ∨ (∃ b x, (openAct c).getD (.openSink 0) = .openFlux id b x) →
          ∃ c ∈ (y.node e).calls, c.id = id := by
        intro id ho
        refine ⟨c, List.mem_of_getElem? hc, ?_⟩
        unfold openAct at ho
        rcases ho with ⟨x, ho⟩ | ⟨b, x, ho⟩ <;> split at ho <;> cases ho <;> rfl
      have hfo : ∀ id, frameOf id ((openAct c).getD (.openSink 0)) = none := by
        intro id; unfold openAct; split <;> rfl
      have := feed_does (q' := n) (far e) (hg.loc e) hp hcalls (fun _ h => h) (apart e _ (hg.loc e)) (fun id x hb => hopen id (.inl ⟨x, hb⟩))
        (fun id b x hb => hopen id (.inr ⟨b, x, hb⟩)) ?_ (fun c _ => by rw [hfo]; rfl) (by rw [hev, hjobs]; simp)
      · rw [hev] at this; exact this
      · intro data v hb hd
        exfalso
        unfold openAct at hb
        split at hb <;> cases hb
  | start e j n =>
    simp only [WasmCalls.Sys.step, Option.bind_eq_some_iff] at hst
    obtain ⟨c, h1, h2⟩ := hst
    split at h2
    · rename_i hk
      cases h2
      refine feeds_put e _ _ false _ [(j, n)] [] [] (fun t => rfl) (nilF e) (nilG e) ?_ ?_
      · rw [List.append_nil]
        exact feed_start (F e) (hg.loc e) (hg.loc _) (hb e) h1 hk ha (requestFrame_asks c n (decide (c.kind = .rs))) rfl
      · rw [List.append_nil]
        exact far e
    · cases h2
  | own e j f =>
    simp only [WasmCalls.Sys.step, Option.bind_eq_some_iff] at hst
    obtain ⟨c, h1, h2⟩ := hst
    split at h2
    · rename_i hk
      cases h2
      obtain ⟨n, hn⟩ := ha
      refine feeds_put e _ _ false _ [] [f] [] (nilA e) (fun t => rfl) (nilG e) ?_ ?_
      · rw [List.append_nil]
        exact feed_own (e := e) (F e) h1 hn hk.2.1 hk.2.2
      · rw [List.append_nil]
        exact far e
    · cases h2
  | recv e data =>
    simp only [WasmCalls.Sys.step, Option.bind_eq_some_iff] at hst
    obtain ⟨f, h1, h2⟩ := hst
    split at h2
    · rename_i hd
      unfold WasmCalls.Sys.does at h2
      split at h2
      · rename_i p hp
        cases h2
        obtain ⟨ws, hws⟩ : ∃ ws, y.wire (other e) = f :: ws := by
          cases hw : y.wire (other e) with
          | nil => rw [hw] at h1; cases h1
          | cons g ws => rw [hw] at h1; cases h1; exact ⟨ws, rfl⟩
        refine does e p (.recv data) true _ rfl (fun _ => rfl) (fun _ => rfl) ?_ hp (fun _ _ h => nomatch h) (fun _ _ _ h => nomatch h) ?_ ?_
        · intro t
          rw [frame_started hp]
          exact nilG e t
        · intro data' v hb hd'
          cases hb
          have : f = .request v := by rw [hd] at hd'; cases hd'; rfl
          rw [hws, this]; simp
        · intro c _
          rw [if_pos rfl, hws, under_cons]
          simp only [frameOf, hd, List.tail_cons]
          split <;> rfl
      · cases h2
    · cases h2
  | task e i live =>
    simp only [WasmCalls.Sys.step, WasmCalls.Sys.does] at hst
    split at hst
    · rename_i p hp
      cases hst
      refine does e p (.task i live) false _ rfl (fun _ => rfl) (fun _ => rfl) ?_ hp (fun _ _ h => nomatch h) (fun _ _ _ h => nomatch h)
        (fun _ _ h => nomatch h) (fun _ _ => rfl)
      intro t
      simp only [givesIn, put_node]
      rfl
    · cases hst
  | startIn e i live =>
    simp only [WasmCalls.Sys.step, WasmCalls.Sys.does] at hst
    split at hst
    · rename_i p hp
      cases hst
      refine does e p (.startIn i live) false _ rfl (fun _ => rfl) (fun _ => rfl) ?_ hp (fun _ _ h => nomatch h) (fun _ _ _ h => nomatch h)
        (fun _ _ h => nomatch h) (fun _ _ => rfl)
      intro t
      cases hp
      rw [started_nil (evs := []) (by simp) (by simp)]
      exact nilG e t
    · cases hst
  | openSink e i =>
    simp only [WasmCalls.Sys.step, WasmCalls.Sys.does] at hst
    split at hst
    · rename_i p hp
      cases hst
      refine does e p (.openSink i) false _ rfl (fun _ => rfl) (fun _ => rfl) ?_ hp (fun _ _ h => nomatch h) (fun _ _ _ h => nomatch h)
        (fun _ _ h => nomatch h) (fun _ _ => rfl)
      intro t
      cases hp
      rw [started_nil (evs := []) (by simp) (by simp)]
      exact nilG e t
    · cases hst
  | answer e i r =>
    simp only [WasmCalls.Sys.step, Option.map_eq_some_iff] at hst
    obtain ⟨⟨n, out⟩, h1, rfl⟩ := hst
    unfold Node.answer at h1
    split at h1
    · cases h1
    · rename_i x hx
      split at h1
      · rename_i hk
        cases h1
        obtain ⟨c, hc, hsv⟩ := (lfar e).jobs x (List.mem_of_getElem? hx)
        refine feeds_put e _ _ false _ [] [] [] (nilA e) (nilF e) (nilG e) (near e _ _ rfl ?_) ?_
        · intro f hf
          cases List.mem_singleton.mp hf
          rw [answerFrame_id]
          exact ⟨c, hc, hsv.id.symm⟩
        · rw [List.append_nil]
          exact feed_far (far e) rfl (fun _ h => h) (many_erase hx hk)
      · cases h1
  | emit e i f =>
    simp only [WasmCalls.Sys.step, Option.bind_eq_some_iff] at hst
    obtain ⟨x, h1, h2⟩ := hst
    split at h2
    · rename_i hk
      cases h2
      obtain ⟨c, hc, hsv⟩ := (lfar e).jobs x (List.mem_of_getElem? h1)
      refine feeds_put e _ _ false _ [] [] [] (nilA e) (nilF e) (nilG e) (near e _ _ rfl ?_) ?_
      · intro g hg
        cases List.mem_singleton.mp hg
        rw [hk.2.1]
        exact ⟨c, hc, hsv.id.symm⟩
      · rw [List.append_nil]
        exact far e
    · cases h2

theorem fed_reach {hs : End → Handlers H} {y : WasmCalls.Sys H} {h : Hist H} (hf : Fed hs y h) : Reach hs y := by
  induction hf with
  | init => exact .init
  | step a _ _ h2 ih => exact .step a ih h2

theorem feeds_fed {hs : End → Handlers H} {y : WasmCalls.Sys H} {h : Hist H} (hf : Fed hs y h) (hb : Bounded y) : Feeds hs y h := by
  induction hf with
  | init => exact feeds_init hs
  | step a h1 h2 h3 ih =>
    have hb1 := bounded_before h3 hb
    have hr := fed_reach h1
    exact feeds_step (good_reach hr hb1) (good_reach (.step a hr h3) hb) hb1 hb (ih hb1) h2 h3

/-! ## C159 -/

/-- Which call a handler was started for, and where the frames of that call are. -/
theorem given_phase {hs : End → Handlers H} {y : WasmCalls.Sys H} {h : Hist H} (hf : Fed hs y h) (hb : Bounded y) (e : End)
    {x : WasmCalls.Job H} {o : Nat} (hx : (x, o) ∈ h.given (other e)) : ∃ (j : Nat) (c : WasmCalls.Call) (n : UInt32),
      (y.node e).calls[j]? = some c ∧ (j, n) ∈ h.asked e ∧ Serves (other e) (hs (other e)) c x ∧
      givenFor c.id (h.given (other e)) = [(x, o)] ∧
      ∃ lost took, under c.id (h.fed e) = lost ++ (took ++ under c.id (y.wire e)) ∧ (other e = .guest → lost = []) ∧
        (Tidy (under c.id (h.fed e)) → signals o (y.node (other e)).peer.log = took.flatMap meaning) ∧
        ((∀ f ∈ took, ends f = false) → Same (other e) (n :: took.filterMap demandOf)
          (requestedOf o (y.node (other e)).peer.log ++ waitingOf o (y.node (other e)).peer.tasks)) := by
  have F := feeds_fed hf hb e
  have hgood := good_reach (fed_reach hf) hb
  have hjob : x ∈ (y.node (other e)).jobs ∧ many x.kind = true := by
    have : x ∈ (h.given (other e)).map (·.1) := List.mem_map.mpr ⟨_, hx, rfl⟩
    rw [← F.jobs] at this
    exact List.mem_filter.mp this
  obtain ⟨d, hd, hsv⟩ := (hgood.link e).jobs x hjob.1
  obtain ⟨j, c, hc, hid, hask⟩ := F.started _ hx
  have hcd := call_unique (hgood.loc e) (hb e) hc hd (hsv.id.symm.trans hid.symm)
  rw [hcd] at hsv
  clear hcd
  obtain ⟨n, hn⟩ := hask (by rw [← hsv.kind]; exact hjob.2)
  have hmem : (x, o) ∈ givenFor c.id (h.given (other e)) := List.mem_filter.mpr ⟨hx, by simp [hsv.id]⟩
  have ph := F.phase j n c hn hc
  refine ⟨j, c, n, hc, hn, hsv, ?_⟩
  cases ph with
  | sent v h1 h2 h3 h4 h5 h6 => rw [h6] at hmem; exact absurd hmem List.not_mem_nil
  | waits lost h1 h2 h3 h4 h5 h6 => rw [h6] at hmem; exact absurd hmem List.not_mem_nil
  | refused lost h1 h2 h3 h4 h5 => rw [h5] at hmem; exact absurd hmem List.not_mem_nil
  | given x' o' lost took h1 h2 h3 h4 h5 h6 h7 h8 h9 =>
    rw [h1] at hmem
    have := List.mem_singleton.mp hmem
    simp only [Prod.mk.injEq] at this
    obtain ⟨rfl, rfl⟩ := this
    exact ⟨h1, lost, took, h3, h4, fun ht => (by rw [signals_told]; exact h8 ht), fun he => (h9 he).2⟩

/-- **C159** What the input of a handler in a guest is told, together with what is still on its way, is exactly what the caller sent for the
call after its request, in order; and the handler is the one the call names, started once, with the data and metadata of the call. -/
theorem channel_input_arrives {hs : End → Handlers H} {y : WasmCalls.Sys H} {h : Hist H} (hf : Fed hs y h) (hb : Bounded y)
    {x : WasmCalls.Job H} {o : Nat} (hx : (x, o) ∈ h.given .guest) : ∃ (j : Nat) (c : WasmCalls.Call) (n : UInt32),
      (y.node .host).calls[j]? = some c ∧ (j, n) ∈ h.asked .host ∧ Serves .guest (hs .guest) c x ∧ givenFor c.id (h.given .guest) = [(x, o)] ∧
      (Tidy (under c.id (h.fed .host)) → signals o (y.node .guest).peer.log ++ (under c.id (y.wire .host)).flatMap meaning =
        (under c.id (h.fed .host)).flatMap meaning) := by
  obtain ⟨j, c, n, h1, h2, h3, h4, lost, took, h5, h6, h7, _⟩ := given_phase hf hb .host hx
  refine ⟨j, c, n, h1, h2, h3, h4, fun ht => ?_⟩
  have h7 : signals o (y.node .guest).peer.log = took.flatMap meaning := h7 ht
  rw [h7, h5, h6 rfl]
  simp

theorem meaning_answers (fs : List Frame) : (fs.filter Spec.Caller.answers).flatMap meaning = fs.flatMap meaning := by
  induction fs with
  | nil => rfl
  | cons f fs ih =>
    cases f <;> simp [List.filter_cons, Spec.Caller.answers, meaning, ih]

theorem tidy_filter {fs : List Frame} (h : Tidy (fs.filter Spec.Caller.answers)) : Tidy fs := by
  rintro pre f post rfl hf g hg
  cases ha : Spec.Caller.answers g with
  | false => rfl
  | true =>
    have := h (pre.filter Spec.Caller.answers) f (post.filter Spec.Caller.answers)
      (by simp [List.filter_append, ends_answers hf]) hf g (List.mem_filter.mpr ⟨hg, ha⟩)
    rw [ha] at this; cases this

/-- **C159** (part) If the caller's input yields the signals `sigs`, then the handler's input is told a first part of them, in order, and
all of them once nothing is on its way; demand may be sent in between. -/
theorem handler_input_sees {hs : End → Handlers H} {y : WasmCalls.Sys H} {h : Hist H} (hf : Fed hs y h) (hb : Bounded y)
    {x : WasmCalls.Job H} {o : Nat} (hx : (x, o) ∈ h.given .guest) (sigs : List Sig) (proper : Proper sigs)
    (hsent : (under x.id (h.fed .host)).filter Spec.Caller.answers = sigs.map (frameFor x.id)) :
    ∃ n, signals o (y.node .guest).peer.log = (sigs.take n).flatMap Spec.WasmStreams.seen ∧
      ((∀ f ∈ y.wire .host, f.streamID ≠ x.id) → sigs.length ≤ n) := by
  obtain ⟨j, c, n, _, _, h3, _, lost, took, h5, h6, h7, _⟩ := given_phase hf hb .host hx
  have hid := h3.id
  rw [hid] at hsent
  have h5 : under c.id (h.fed .host) = took ++ under c.id (y.wire .host) := by rw [h5, h6 rfl]; rfl
  have h7 := h7 (tidy_filter (by rw [hsent]; exact proper_tidy proper))
  rw [h5, List.filter_append] at hsent
  obtain ⟨a, b, h8, h9, h10⟩ := List.map_eq_append_iff.mp hsent.symm
  refine ⟨a.length, ?_, ?_⟩
  · have h7 : signals o (y.node .guest).peer.log = took.flatMap meaning := h7
    rw [h7, ← meaning_answers, ← h9, h8]
    simp only [List.take_left']
    exact frames_meaning _ _
  · intro hw
    rw [hid] at hw
    rw [under_none hw] at h10
    rw [h8, List.map_eq_nil_iff.mp h10]; simp

/-- **C159** (part) For every stream or channel that was begun, at either end: its request is on its way, or waits to be handled, or was
refused because there is no handler, or the handler it names was started for it, once. -/
theorem stream_handler_started {hs : End → Handlers H} {y : WasmCalls.Sys H} {h : Hist H} (hf : Fed hs y h) (hb : Bounded y) (e : End)
    {j : Nat} {n : UInt32} {c : WasmCalls.Call} (hn : (j, n) ∈ h.asked e) (hc : (y.node e).calls[j]? = some c) :
    (∃ v, Frame.request v ∈ y.wire e ∧ v.streamID = c.id) ∨ (∃ k d m n', Task.request k c.id d m n' ∈ (y.node (other e)).peer.tasks) ∨
    Unknown (hs (other e)) c ∨ ∃ x o, givenFor c.id (h.given (other e)) = [(x, o)] ∧ x ∈ (y.node (other e)).jobs ∧
      Serves (other e) (hs (other e)) c x := by
  have F := feeds_fed hf hb e
  cases F.phase j n c hn hc with
  | sent v h1 h2 h3 h4 h5 h6 =>
    left
    have : Frame.request v ∈ under c.id (y.wire e) := by rw [h1]; simp
    exact ⟨v, List.mem_of_mem_filter this, h2.id⟩
  | waits lost h1 h2 h3 h4 h5 h6 =>
    right; left
    refine Classical.byContradiction fun hno => ?_
    have := queued_none (id := c.id) (ts := (y.node (other e)).peer.tasks) fun k d m n' ht => hno ⟨k, d, m, n', ht⟩
    omega
  | refused lost h1 h2 h3 h4 h5 => exact .inr (.inr (.inl h2))
  | given x o lost took h1 h2 h3 h4 h5 h6 h7 h8 h9 =>
    right; right; right
    have hx : (x, o) ∈ h.given (other e) := List.mem_of_mem_filter (p := fun x => decide (x.1.id = c.id)) (by
      show (x, o) ∈ givenFor c.id (h.given (other e))
      rw [h1]; simp)
    have : x ∈ (h.given (other e)).map (·.1) := List.mem_map.mpr ⟨_, hx, rfl⟩
    rw [← F.jobs] at this
    exact ⟨x, o, h1, List.mem_of_mem_filter this, h2⟩

/-! ## C160 -/

/-- **C160** As long as the caller has neither cancelled nor ended its input, what was requested of the result of a handler in a guest,
together with what waits and what is on its way, is exactly what the caller requested, in order, and its first demand came first. -/
theorem demand_arrives_partial {hs : End → Handlers H} {y : WasmCalls.Sys H} {h : Hist H} (hf : Fed hs y h) (hb : Bounded y)
    {x : WasmCalls.Job H} {o : Nat} (hx : (x, o) ∈ h.given .guest) (hopen : ∀ f ∈ under x.id (h.fed .host), ends f = false) :
    ∃ (j : Nat) (c : WasmCalls.Call) (n : UInt32), (y.node .host).calls[j]? = some c ∧ (j, n) ∈ h.asked .host ∧ Serves .guest (hs .guest) c x ∧
      requestedOf o (y.node .guest).peer.log ++ (waitingOf o (y.node .guest).peer.tasks ++ (under c.id (y.wire .host)).filterMap demandOf) =
        n :: (under c.id (h.fed .host)).filterMap demandOf := by
  obtain ⟨j, c, n, h1, h2, h3, h4, lost, took, h5, h6, _, h7⟩ := given_phase hf hb .host hx
  have h5 : under c.id (h.fed .host) = took ++ under c.id (y.wire .host) := by rw [h5, h6 rfl]; rfl
  rw [h3.id] at hopen
  have h8 := (h7 fun f hf => hopen f (by rw [h5]; exact List.mem_append_left _ hf)).2 rfl
  refine ⟨j, c, n, h1, h2, h3, ?_⟩
  rw [h5, List.filterMap_append, ← List.append_assoc, ← List.cons_append, h8]
  rfl

/-! ## C161 -/

/-- **C161** (part) The input of a handler in a host is told what the caller sent, in order, except for a first part that may be lost. -/
theorem host_input_partial {hs : End → Handlers H} {y : WasmCalls.Sys H} {h : Hist H} (hf : Fed hs y h) (hb : Bounded y)
    {x : WasmCalls.Job H} {o : Nat} (hx : (x, o) ∈ h.given .host) : ∃ (j : Nat) (c : WasmCalls.Call) (n : UInt32),
      (y.node .guest).calls[j]? = some c ∧ (j, n) ∈ h.asked .guest ∧ Serves .host (hs .host) c x ∧ givenFor c.id (h.given .host) = [(x, o)] ∧
      ∃ lost rest, under c.id (h.fed .guest) = lost ++ rest ∧
        (Tidy (under c.id (h.fed .guest)) → signals o (y.node .host).peer.log ++ (under c.id (y.wire .guest)).flatMap meaning = rest.flatMap meaning) ∧
        ((∀ f ∈ rest, ends f = false) → (requestedOf o (y.node .host).peer.log ++
          (waitingOf o (y.node .host).peer.tasks ++ (under c.id (y.wire .guest)).filterMap demandOf)).Perm (n :: rest.filterMap demandOf)) := by
  obtain ⟨j, c, n, h1, h2, h3, h4, lost, took, h5, _, h6, h7⟩ := given_phase hf hb .guest hx
  refine ⟨j, c, n, h1, h2, h3, h4, lost, _, h5, fun ht => ?_, fun hopen => ?_⟩
  · have h6 : signals o (y.node .host).peer.log = took.flatMap meaning := h6 ht
    rw [h6, List.flatMap_append]
  · have h8 := (h7 fun f hf => hopen f (List.mem_append_left _ hf)).1
    rw [List.filterMap_append, ← List.append_assoc, ← List.cons_append]
    exact (h8.append_right _).symm

/-! ### Cases -/

/-- A step is taken in turn. -/
def inTurn (h : Hist H) : WasmCalls.Act → Bool
  | .start e j _ => (h.asked e).all fun x => x.1 != j
  | .own e j _ => (h.asked e).any fun x => x.1 == j
  | _ => true

theorem inTurn_iff {h : Hist H} {a : WasmCalls.Act} (ha : inTurn h a = true) : InTurn h a := by
  cases a with
  | start e j n =>
    intro n' hm
    have := List.all_eq_true.mp ha _ hm
    simp at this
  | own e j f =>
    obtain ⟨⟨i, n⟩, h1, h2⟩ := List.any_eq_true.mp ha
    have : i = j := by simpa using h2
    exact ⟨n, this ▸ h1⟩
  | _ => trivial

/-- A run given by its steps. -/
def runFed (hs : End → Handlers H) : WasmCalls.Sys H → Hist H → List WasmCalls.Act → Option (WasmCalls.Sys H × Hist H)
  | y, h, [] => some (y, h)
  | y, h, a :: as => if inTurn h a = true then (y.step hs a).bind fun y' => runFed hs y' (h.after y y' a) as else none

theorem runFed_fed {hs : End → Handlers H} {y y' : WasmCalls.Sys H} {h h' : Hist H} {as : List WasmCalls.Act}
    (ht : Fed hs y h) (hr : runFed hs y h as = some (y', h')) : Fed hs y' h' := by
  induction as generalizing y h with
  | nil => cases hr; exact ht
  | cons a as ih =>
    simp only [runFed] at hr
    split at hr
    · rename_i ha
      obtain ⟨y1, h1, h2⟩ := Option.bind_eq_some_iff.mp hr
      exact ih (.step a ht (inTurn_iff ha) h1) h2
    · cases hr

/-- What a run comes to. -/
theorem run_fed {hs : End → Handlers H} {as : List WasmCalls.Act} (hsome : (runFed hs WasmCalls.Sys.init Hist.init as).isSome = true)
    (h1 : (runFed hs WasmCalls.Sys.init Hist.init as).map (fun p => decide ((p.1.node .host).calls.length ≤ 2 ^ 30 ∧
      (p.1.node .guest).calls.length ≤ 2 ^ 30)) = some true) : ∃ y h, Fed hs y h ∧ Bounded y ∧
      ∀ {α : Type} (g : WasmCalls.Sys H × Hist H → α) (v : α), (runFed hs WasmCalls.Sys.init Hist.init as).map g = some v → g (y, h) = v := by
  obtain ⟨⟨y, h⟩, he⟩ := Option.isSome_iff_exists.mp hsome
  rw [he] at h1
  have h1 := of_decide_eq_true (Option.some.inj h1)
  refine ⟨y, h, runFed_fed .init he, fun e => (by cases e; exacts [h1.1, h1.2]), ?_⟩
  intro α g v hv
  rw [he] at hv
  exact Option.some.inj hv

/-- The request of a channel, under an id, with its first demand. -/
def channelAsk (id n op d : UInt8) : Bytes := [0, 0, 0, id, 29, 0, 0, 0, 0, n, 0, 0, 8] ++ opMd op ++ [d]

/-- A host calls two channels of its guest and feeds both; it requests more of the second. Two frames are on their way. -/
def twoChannels : List WasmCalls.Act :=
  [.call .host .rc [5] (opMd 1) .background, .call .host .rc [6] (opMd 1) .background, .start .host 1 2, .start .host 0 7,
   .own .host 1 (frameFor 4 (.next [1] [])), .own .host 0 (frameFor 2 (.next [2] [])), .own .host 1 (.requestN ⟨4, 3⟩),
   .recv .guest (channelAsk 4 2 1 6), .task .guest 0 true, .task .guest 0 true, .openSink .guest 0,
   .recv .guest (channelAsk 2 7 1 5), .task .guest 0 true, .openSink .guest 1, .task .guest 0 true,
   .recv .guest [0, 0, 0, 4, 40, 32, 1], .recv .guest [0, 0, 0, 2, 40, 32, 2], .recv .guest [0, 0, 0, 4, 32, 0, 0, 0, 0, 3],
   .task .guest 0 true, .own .host 0 (frameFor 2 .complete), .own .host 1 (frameFor 4 (.next [3] [])), .own .host 1 (frameFor 4 (.next [4] [])),
   .own .host 1 (.requestN ⟨4, 9⟩), .recv .guest [0, 0, 0, 2, 40, 64], .recv .guest [0, 0, 0, 4, 40, 32, 3]]

/-- The first channel got its element and the end; the second an element and another one, the third and more demand are on their way. -/
example : ∃ y h, Fed (fun _ => hs2) y h ∧ Bounded y ∧ (h.given .guest).map (fun x => (x.1.id, x.2)) = [(4, 0), (2, 1)] ∧
    h.asked .host = [(1, 2), (0, 7)] ∧
    under 4 (h.fed .host) = [frameFor 4 (.next [1] []), .requestN ⟨4, 3⟩, frameFor 4 (.next [3] []), frameFor 4 (.next [4] []), .requestN ⟨4, 9⟩] ∧
    under 2 (h.fed .host) = [frameFor 2 (.next [2] []), frameFor 2 .complete] ∧
    signals 0 (y.node .guest).peer.log = [.next [1] [], .next [3] []] ∧ signals 1 (y.node .guest).peer.log = [.next [2] [], .complete] ∧
    requestedOf 0 (y.node .guest).peer.log = [2, 3] ∧ requestedOf 1 (y.node .guest).peer.log = [7] ∧
    y.wire .host = [frameFor 4 (.next [4] []), .requestN ⟨4, 9⟩] := by
  obtain ⟨y, h, h1, h2, get⟩ := run_fed (hs := fun _ => hs2) (as := twoChannels) (by decide +kernel) (by decide +kernel)
  exact ⟨y, h, h1, h2, get (fun p => (p.2.given .guest).map (fun x => (x.1.id, x.2))) _ (by decide +kernel),
    get (fun p => p.2.asked .host) _ (by decide +kernel),
    get (fun p => under 4 (p.2.fed .host)) _ (by decide +kernel), get (fun p => under 2 (p.2.fed .host)) _ (by decide +kernel),
    get (fun p => signals 0 (p.1.node .guest).peer.log) _ (by decide +kernel), get (fun p => signals 1 (p.1.node .guest).peer.log) _ (by decide +kernel),
    get (fun p => requestedOf 0 (p.1.node .guest).peer.log) _ (by decide +kernel),
    get (fun p => requestedOf 1 (p.1.node .guest).peer.log) _ (by decide +kernel), get (fun p => p.1.wire .host) _ (by decide +kernel)⟩

/-- A host calls two channels of its guest, the second with demand for one element; it ends the input of the second, and then requests five
more elements of it. (The stream that was registered first is never removed, C13.) -/
def endsInput : List WasmCalls.Act :=
  [.call .host .rc [5] (opMd 1) .background, .call .host .rc [6] (opMd 1) .background, .start .host 0 1, .start .host 1 1,
   .recv .guest (channelAsk 2 1 1 5), .task .guest 0 true, .task .guest 0 true, .recv .guest (channelAsk 4 1 1 6), .task .guest 0 true,
   .task .guest 0 true, .openSink .guest 1, .own .host 1 (frameFor 4 .complete), .recv .guest [0, 0, 0, 4, 40, 64],
   .own .host 1 (.requestN ⟨4, 5⟩), .recv .guest [0, 0, 0, 4, 32, 0, 0, 0, 0, 5]]

/-- The end of the input closes both directions: demand that comes after it is dropped, and the handler's result is never asked for more
(`/repo/go/transport/wasmrs/guest/guest.go:124-135`, `280-283`). -/
theorem demand_after_input_refuted : ∃ (y : WasmCalls.Sys Nat) (h : Hist Nat), Fed (fun _ => hs2) y h ∧ Bounded y ∧
    h.asked .host = [(0, 1), (1, 1)] ∧ h.fed .host = [frameFor 4 .complete, .requestN ⟨4, 5⟩] ∧ y.wire .host = [] ∧
    (y.node .guest).peer.tasks = [] ∧
    (h.given .guest).map (fun x => (x.1.id, x.2)) = [(2, 0), (4, 1)] ∧ requestedOf 1 (y.node .guest).peer.log = [1] := by
  obtain ⟨y, h, h1, h2, get⟩ := run_fed (hs := fun _ => hs2) (as := endsInput) (by decide +kernel) (by decide +kernel)
  exact ⟨y, h, h1, h2, get (fun p => p.2.asked .host) _ (by decide +kernel), get (fun p => p.2.fed .host) _ (by decide +kernel),
    get (fun p => p.1.wire .host) _ (by decide +kernel), get (fun p => (p.1.node .guest).peer.tasks) _ (by decide +kernel),
    get (fun p => (p.2.given .guest).map (fun x => (x.1.id, x.2))) _ (by decide +kernel),
    get (fun p => requestedOf 1 (p.1.node .guest).peer.log) _ (by decide +kernel)⟩

/-- A guest calls a channel of its host, whose input has one element, and requests more at once; the host reads these frames before the goroutine of
the request runs. -/
def earlyInput : List WasmCalls.Act :=
  [.call .guest .rc [5] (opMd 1) .background, .start .guest 0 1, .own .guest 0 (frameFor 1 (.next [8] [])), .own .guest 0 (.requestN ⟨1, 5⟩),
   .own .guest 0 (frameFor 1 .complete), .recv .host (channelAsk 1 1 1 5), .recv .host [0, 0, 0, 1, 40, 32, 8],
   .recv .host [0, 0, 0, 1, 32, 0, 0, 0, 0, 5], .recv .host [0, 0, 0, 1, 40, 64], .task .host 0 true, .openSink .host 0, .task .host 0 true]

/-- A host drops what it reads before the goroutine of a request has registered the stream: the handler waits for its input for ever, and
its result is never asked for more (`/repo/go/transport/wasmrs/host/instance.go:263-275`). -/
theorem early_input_lost_refuted : ∃ (y : WasmCalls.Sys Nat) (h : Hist Nat), Fed (fun _ => hs2) y h ∧ Bounded y ∧
    h.asked .guest = [(0, 1)] ∧ h.fed .guest = [frameFor 1 (.next [8] []), .requestN ⟨1, 5⟩, frameFor 1 .complete] ∧ y.wire .guest = [] ∧
    (y.node .host).peer.tasks = [] ∧ (h.given .host).map (fun x => (x.1.id, x.2)) = [(1, 0)] ∧
    signals 0 (y.node .host).peer.log = [] ∧ requestedOf 0 (y.node .host).peer.log = [1] := by
  obtain ⟨y, h, h1, h2, get⟩ := run_fed (hs := fun _ => hs2) (as := earlyInput) (by decide +kernel) (by decide +kernel)
  exact ⟨y, h, h1, h2, get (fun p => p.2.asked .guest) _ (by decide +kernel), get (fun p => p.2.fed .guest) _ (by decide +kernel),
    get (fun p => p.1.wire .guest) _ (by decide +kernel), get (fun p => (p.1.node .host).peer.tasks) _ (by decide +kernel),
    get (fun p => (p.2.given .host).map (fun x => (x.1.id, x.2))) _ (by decide +kernel),
    get (fun p => signals 0 (p.1.node .host).peer.log) _ (by decide +kernel), get (fun p => requestedOf 0 (p.1.node .host).peer.log) _ (by decide +kernel)⟩

/-- A guest calls a channel of its host, and the goroutine of the request runs in time. -/
def timelyInput : List WasmCalls.Act :=
  [.call .guest .rc [5] (opMd 1) .background, .start .guest 0 1, .own .guest 0 (frameFor 1 (.next [8] [])), .recv .host (channelAsk 1 1 1 5),
   .recv .host [0, 0, 0, 1, 40, 32, 8], .task .host 0 true, .openSink .host 0, .own .guest 0 (.requestN ⟨1, 5⟩), .recv .host [0, 0, 0, 1, 32, 0, 0, 0, 0, 5],
   .task .host 0 true, .task .host 0 true, .own .guest 0 (frameFor 1 (.next [9] [])), .recv .host [0, 0, 0, 1, 40, 32, 9]]

/-- One element is lost, everything else arrives. -/
example : ∃ y h, Fed (fun _ => hs2) y h ∧ Bounded y ∧ (h.given .host).map (fun x => (x.1.id, x.2)) = [(1, 0)] ∧ h.asked .guest = [(0, 1)] ∧
    under 1 (h.fed .guest) = [frameFor 1 (.next [8] []), .requestN ⟨1, 5⟩, frameFor 1 (.next [9] [])] ∧
    signals 0 (y.node .host).peer.log = [.next [9] []] ∧ requestedOf 0 (y.node .host).peer.log = [1, 5] ∧ y.wire .guest = [] := by
  obtain ⟨y, h, h1, h2, get⟩ := run_fed (hs := fun _ => hs2) (as := timelyInput) (by decide +kernel) (by decide +kernel)
  exact ⟨y, h, h1, h2, get (fun p => (p.2.given .host).map (fun x => (x.1.id, x.2))) _ (by decide +kernel),
    get (fun p => p.2.asked .guest) _ (by decide +kernel), get (fun p => under 1 (p.2.fed .guest)) _ (by decide +kernel),
    get (fun p => signals 0 (p.1.node .host).peer.log) _ (by decide +kernel),
    get (fun p => requestedOf 0 (p.1.node .host).peer.log) _ (by decide +kernel), get (fun p => p.1.wire .guest) _ (by decide +kernel)⟩

end Iota.Props.WasmInputs
