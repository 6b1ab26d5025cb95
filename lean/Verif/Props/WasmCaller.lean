import Verif.Props.WasmDispatch
import Verif.Props.Caller

/-! # Calls, crashes and contexts of a WebAssembly host and its guest (C82-C84) -/

namespace Iota.Props.WasmCaller
open Go Iota.Frames Iota.Registry Iota.WasmDispatch Iota.Spec.Lookup Iota.Spec.Handler Iota.Spec.WasmDispatch Iota.Spec.Caller
open Iota.Handler hiding Act
open Iota.Lemmas.WasmDispatch Iota.Props.Handler Iota.Props.WasmDispatch Iota.Props.Frames
open Iota.Props.Caller (sigOf told Own entries_objs get_register_none answer_handled)

variable {H : Type}

/-- What a step does, case by case. -/
inductive Effect (e : End) (p : Peer H) : Act → Peer H → Prop
  /-- a frame that is ignored or put aside -/
  | skip (data : Bytes) (s : List RequestPayload) :
      (∀ f, decodeFrame data = .ok f → (∃ v, f = .request v) ∨ getStream p.st f.streamID = none) →
      Effect e p (.recv data) { p with stash := s }
  /-- a request is to be worked on -/
  | ask (data : Bytes) (v : RequestPayload) (k : Kind) : decodeFrame data = .ok (.request v) →
      Effect e p (.recv data) (p.after ⟨p.st, [.request k v.streamID v.data v.metadata v.initialN], []⟩)
  /-- a frame for an open stream -/
  | frame (data : Bytes) (f : Frame) (i : Nat) (o : Out (H × Ctx)) : decodeFrame data = .ok f → (∀ v, f ≠ .request v) →
      getStream p.st f.streamID = some i → dispatch p.st (some i) f = .ok o → Effect e p (.recv data) (p.after o)
  /-- a request that leads to no stream -/
  | answer (j : Nat) (live : Bool) (k : Kind) (id : UInt32) (data md : Bytes) (n : UInt32) (ev : Ev (H × Ctx)) :
      p.tasks[j]? = some (.request k id data md n) → (∀ i, sigOf i ev = none) → (∀ k' h i d m, ev = .invoked k' h i d m → k' = k) →
      Effect e p (.task j live) ({ p with tasks := p.tasks.eraseIdx j }.after ⟨p.st, [], [ev]⟩)
  /-- a request that leads to a stream -/
  | serve (j : Nat) (live : Bool) (k : Kind) (id : UInt32) (data md : Bytes) (n : UInt32) (h : H × Ctx) (c : Ctx) (m : Bytes) :
      p.tasks[j]? = some (.request k id data md n) → k ≠ .rr → (e = .host → k ≠ .fnf) →
      Effect e p (.task j live) (({ p with tasks := p.tasks.eraseIdx j }.register (.resp false false) c id).after
        ⟨(p.register (.resp false false) c id).st, rest k p.st.objs.length n, [.invoked k h id data m]⟩)
  /-- the flux of a stream or channel is known -/
  | attach (j : Nat) (i : Nat) (n : UInt32) : p.tasks[j]? = some (.attach i n) →
      Effect e p (.task j true) ({ p with tasks := p.tasks.eraseIdx j }.after
        ⟨{ p.st with objs := p.st.objs.modify i fun o => match o with | .resp _ sink => .resp true sink | o => o }, [], [.requested i n]⟩)
  /-- demand is passed on -/
  | demand (j : Nat) (live : Bool) (i : Nat) (n : UInt32) (o : Obj) : p.tasks[j]? = some (.demand i n) →
      p.st.objs[i]? = some o → o.hasSub = true →
      Effect e p (.task j live) ({ p with tasks := p.tasks.eraseIdx j }.after ⟨p.st, [], [.requested i n]⟩)
  /-- a local call -/
  | openMono (id : UInt32) (c : Ctx) : Effect e p (.openMono id c) (p.register .mono c id)
  | openFlux (id : UInt32) (b : Bool) (c : Ctx) :
      Effect e p (.openFlux id b c) (p.register (.flux (if b then some false else none)) c id)
  | startIn (i : Nat) (b : Bool) : Effect e p (.startIn i b) { p with st := startIn p.st i b }
  | openSink (i : Nat) : Effect e p (.openSink i) { p with st := openSink p.st i }

theorem effect {e : End} {hs : Handlers H} {p p' : Peer H} {a : Act} (h : p.step e hs a = some (.ok p')) : Effect e p a p' := by
  cases a with
  | recv data =>
    simp only [Peer.step] at h
    split at h
    · have h := Option.some.inj h
      cases hd : decodeFrame data with
      | panic =>
        have := recv_undecoded (by intro f e; rw [hd] at e; cases e) h
        rw [this]; exact .skip data p.stash (by intro f e; rw [hd] at e; cases e)
      | err m =>
        have := recv_undecoded (by intro f e; rw [hd] at e; cases e) h
        rw [this]; exact .skip data p.stash (by intro f e; rw [hd] at e; cases e)
      | ok f =>
        rw [recv_decoded hd] at h
        by_cases hf : ∃ v, f = .request v
        · obtain ⟨v, rfl⟩ := hf
          simp only [afterDecode] at h
          split at h
          · cases h; exact .skip data _ (by intro f e; rw [hd] at e; cases e; exact .inl ⟨_, rfl⟩)
          · simp only [dispatch] at h
            cases hk : kindOf v.frameType with
            | none =>
              rw [hk] at h; cases h
              have := Effect.skip (e := e) (p := p) data p.stash (by intro f e; rw [hd] at e; cases e; exact .inl ⟨_, rfl⟩)
              simpa [Peer.after] using this
            | some k => rw [hk] at h; cases h; exact .ask data v k hd
        · have hf : ∀ v, f ≠ .request v := fun v hv => hf ⟨v, hv⟩
          have h : (match getStream p.st f.streamID with
              | none => Res.ok p
              | some i => p.after <$> dispatch p.st (some i) f) = .ok p' := by
            cases f with
            | request v => exact absurd rfl (hf v)
            | _ => exact h
          split at h
          · rename_i hg
            cases h; exact .skip data p.stash (by intro f' e; rw [hd] at e; cases e; exact .inr hg)
          · rename_i i hg
            cases ho : dispatch (H := H × Ctx) p.st (some i) f with
            | err m => rw [ho] at h; cases h
            | panic => rw [ho] at h; cases h
            | ok o =>
              rw [ho] at h; cases h
              exact .frame data f i o hd hf hg ho
    · cases h
  | task j live =>
    simp only [Peer.step] at h
    split at h
    · cases h
    · rename_i t ht
      have h := Option.some.inj h
      cases t with
      | request k id data md n =>
        simp only [Peer.runTask] at h
        obtain ⟨p2, h1, h2⟩ := handled e hs { p with tasks := p.tasks.eraseIdx j } k id data md n
        cases h1.symm.trans h
        cases h2 with
        | short _ => exact .answer j live k id data md n _ ht (fun _ => rfl) (fun _ _ _ _ _ h => nomatch h)
        | unknown _ _ _ => exact .answer j live k id data md n _ ht (fun _ => rfl) (fun _ _ _ _ _ h => nomatch h)
        | run op parent h _ _ _ =>
          unfold Peer.accept
          split
          · exact .answer j live k id data md n _ ht (fun _ => rfl) (fun _ _ _ _ _ h => by cases h; rfl)
          · rename_i c hk
            refine .serve j live k id data md n _ c _ ht ?_ ?_
            · rintro rfl; cases e <;> cases hk
            · rintro rfl rfl; cases hk
      | attach i n =>
        simp only [Peer.runTask, Handler.runTask] at h
        split at h
        · rename_i hl; cases h; subst hl; exact .attach j i n ht
        · cases h
      | demand i n =>
        simp only [Peer.runTask, Handler.runTask] at h
        split at h
        · cases h
        · rename_i o ho
          split at h
          · rename_i hs; cases h; exact .demand j live i n o ht ho hs
          · cases h
  | openMono id c => cases h; exact .openMono id c
  | openFlux id b c => cases h; exact .openFlux id b c
  | startIn i b => cases h; exact .startIn i b
  | openSink i => cases h; exact .openSink i

theorem removeStream_objs (st : State) (id : UInt32) : (removeStream st id).objs = st.objs := by
  unfold removeStream; split <;> rfl

/-! ## Streams that can be found exist, and have a context -/

/-- Every entry is a stream, every stream has a context. -/
def Sound (p : Peer H) : Prop := Wf' p.st ∧ p.ctxs.length = p.st.objs.length

theorem sound_step {e : End} {hs : Handlers H} {p p' : Peer H} {a : Act} (hw : Sound p)
    (h : p.step e hs a = some (.ok p')) : Sound p' := by
  have hr : ∀ (o : Obj) (c : Ctx) (id : UInt32), Sound (p.register o c id) := by
    intro o c id
    exact ⟨wf_new hw.1 o id, by simp [Peer.register, registerStream_objs, hw.2]⟩
  cases effect h with
  | skip data s _ => exact hw
  | ask data v k _ => exact hw
  | frame data f i o hd hf hg ho =>
    obtain ⟨h1, h2, _, _⟩ := dispatch_shape hf ho
    refine ⟨?_, by simp only [Peer.after, h1]; exact hw.2⟩
    simp only [Peer.after]
    rcases h2 with h2 | h2 <;> rw [h2]
    · exact hw.1
    · have := hw.1.removed f.streamID
      unfold Wf'
      rw [removeStream_objs]
      exact this
  | answer => exact hw
  | serve j live k id data md n h c m ht _ _ => exact ⟨(hr _ c id).1, (hr _ c id).2⟩
  | attach j i n ht => exact ⟨wf_modify hw.1 _ _, by simpa [Peer.after] using hw.2⟩
  | demand => exact hw
  | openMono id c => exact hr _ c id
  | openFlux id b c => exact hr _ c id
  | startIn i b => exact ⟨wf_modify hw.1 _ _, by simpa [startIn] using hw.2⟩
  | openSink i => exact ⟨wf_modify hw.1 _ _, by simpa [openSink] using hw.2⟩

theorem sound_run {e : End} {hs : Handlers H} {p p' : Peer H} {as : List Act} (hw : Sound p)
    (h : p.run e hs as = some (.ok p')) : Sound p' := by
  induction as generalizing p with
  | nil => cases h; exact hw
  | cons a as ih =>
    obtain ⟨p1, h1, h2⟩ := run_cons h
    exact ih (sound_step hw h1) h2

theorem sound_init : Sound (Peer.init : Peer H) := ⟨wf_init, rfl⟩

/-! ## C84: what a caller sees -/

/-- The action uses the id for a stream: a local call or a request of the peer. -/
def uses (id : UInt32) : Act → Prop
  | .openMono id' _ => id' = id
  | .openFlux id' _ _ => id' = id
  | .recv data => ∃ v, decodeFrame data = .ok (.request v) ∧ v.streamID = id
  | _ => False

/-- The frame an action receives, if it has the id. -/
def frameOf (id : UInt32) : Act → Option Frame
  | .recv data =>
    match decodeFrame data with
    | .ok f => if f.streamID = id then some f else none
    | _ => none
  | _ => none

/-- The frames with the id among the actions. -/
def arrived (id : UInt32) (as : List Act) : List Frame := as.filterMap (frameOf id)

/-- Nothing is or will be registered under the id. -/
def Unused (id : UInt32) (p : Peer H) : Prop :=
  Entries (fun id' _ => id' ≠ id) p.st ∧ ∀ t ∈ p.tasks, ¬ Caller.Task.uses id t

theorem unused_register {id id' : UInt32} {p : Peer H} (hu : Entries (fun id' _ => id' ≠ id) p.st) (hne : id' ≠ id)
    (o : Obj) (c : Ctx) : Entries (fun id' _ => id' ≠ id) (p.register o c id').st :=
  (entries_objs hu _).registered hne

theorem unused_step {e : End} {hs : Handlers H} {id : UInt32} {p p' : Peer H} {a : Act} (hu : Unused id p)
    (ha : ¬ uses id a) (h : p.step e hs a = some (.ok p')) : Unused id p' := by
  have hrest : ∀ j, ∀ t ∈ p.tasks.eraseIdx j, ¬ Caller.Task.uses id t := fun j t h => hu.2 t (List.mem_of_mem_eraseIdx h)
  cases effect h with
  | skip data s _ => exact hu
  | ask data v k hd =>
    refine ⟨hu.1, fun t ht => ?_⟩
    rcases List.mem_append.mp ht with ht | ht
    · exact hu.2 t ht
    · simp at ht; subst ht
      exact fun hv => ha ⟨v, hd, hv⟩
  | frame data f i o hd hf hg ho =>
    obtain ⟨_, h2, h3, _⟩ := dispatch_shape hf ho
    constructor
    · simp only [Peer.after]
      rcases h2 with h2 | h2 <;> rw [h2]
      · exact hu.1
      · exact hu.1.removed _
    · intro t ht
      rcases List.mem_append.mp ht with ht | ht
      · exact hu.2 t ht
      · obtain ⟨n, rfl⟩ := h3 t ht; exact fun h => h
  | answer j live k id' data md n ev ht hs _ =>
    exact ⟨hu.1, by simpa [Peer.after] using hrest j⟩
  | serve j live k id' data md n h c m ht _ _ =>
    refine ⟨unused_register (p := p) hu.1 (hu.2 _ (List.mem_of_getElem? ht)) _ c, fun t h => ?_⟩
    rcases List.mem_append.mp h with h | h
    · exact hrest j t h
    · cases k <;> simp [rest] at h <;> subst h <;> exact fun h => h
  | attach j i n ht => exact ⟨entries_objs hu.1 _, by simpa [Peer.after] using hrest j⟩
  | demand j live i n o ht _ _ => exact ⟨hu.1, by simpa [Peer.after] using hrest j⟩
  | openMono id' c => exact ⟨unused_register hu.1 ha _ c, hu.2⟩
  | openFlux id' b c => exact ⟨unused_register hu.1 ha _ c, hu.2⟩
  | startIn i b => exact ⟨entries_objs hu.1 _, hu.2⟩
  | openSink i => exact ⟨entries_objs hu.1 _, hu.2⟩

theorem unused_run {e : End} {hs : Handlers H} {id : UInt32} {as : List Act} {p p' : Peer H} (hu : Unused id p)
    (ha : ∀ a ∈ as, ¬ uses id a) (h : p.run e hs as = some (.ok p')) : Unused id p' := by
  induction as generalizing p with
  | nil => cases h; exact hu
  | cons a as ih =>
    obtain ⟨p1, h1, h2⟩ := run_cons h
    exact ih (unused_step hu (ha a List.mem_cons_self) h1) (fun b hb => ha b (List.mem_cons_of_mem _ hb)) h2

theorem unused_lookup {id : UInt32} {p : Peer H} (h : Unused id p) : getStream p.st id = none := by
  cases hg : getStream p.st id with
  | none => rfl
  | some i => exact absurd rfl (h.1.lookup hg)

theorem unused_init (id : UInt32) : Unused id (Peer.init : Peer H) :=
  ⟨⟨by simp [Peer.init, State.init], by simp [Peer.init, State.init]⟩, by simp [Peer.init]⟩

/-- An answer to the call is delivered. -/
theorem answer_dispatched {id : UInt32} {i : Nat} {st : State} (h : Own id i st) {f : Frame} (hid : f.streamID = id)
    (ha : answers f = true) : ∃ o : Out (H × Ctx), dispatch st (some i) f = .ok o ∧ told i o.evs = meaning f ∧
      (ends f = false → o.st = st) := by
  obtain ⟨o, h1, h2, _, h4⟩ := answer_handled (H := H × Ctx) h hid ha
  refine ⟨o, ?_, h2, h4⟩
  have ht : f.type ≥ tRequestN := by
    cases f with
    | request v => cases ha
    | _ => simp only [Frame.type]; decide
  unfold handleFrame at h1
  rw [if_pos ht, hid, h.found] at h1
  exact h1

/-- A step that is not the end of the call keeps its stream, and tells it what the frame means, if it is one. -/
theorem own_step {e : End} {hs : Handlers H} {id : UInt32} {i : Nat} {p p' : Peer H} {a : Act} (ho : Own id i p.st)
    (hne : ∀ f, frameOf id a = some f → ends f = false) (h : p.step e hs a = some (.ok p')) :
    Own id i p'.st ∧ told i p'.log = told i p.log ++ (frameOf id a).toList.flatMap meaning := by
  cases effect h with
  | skip data s hd =>
    refine ⟨ho, ?_⟩
    simp only [frameOf]
    split
    · rename_i f hf
      split
      · rename_i hid
        rcases hd f hf with ⟨v, rfl⟩ | hg
        · simp [meaning]
        · rw [hid, ho.found] at hg; cases hg
      · simp
    · simp
  | ask data v k hd =>
    refine ⟨ho, ?_⟩
    simp only [frameOf, hd, Peer.after, List.append_nil]
    split <;> simp [meaning]
  | frame data f j o hd hf hg hx =>
    simp only [Peer.after, told, List.filterMap_append, frameOf, hd]
    by_cases hid : f.streamID = id
    · have hj : j = i := by rw [hid, ho.found] at hg; exact (Option.some.inj hg).symm
      subst hj
      rw [if_pos hid]
      by_cases ha : answers f = true
      · obtain ⟨o', h1, h2, h4⟩ := answer_dispatched (H := H) ho hid ha
        cases h1.symm.trans hx
        have h2 : o.evs.filterMap (sigOf j) = meaning f := h2
        refine ⟨by rw [h4 (hne f (by simp [frameOf, hd, hid]))]; exact ho, by simp [h2]⟩
      · cases f with
        | request v => exact absurd rfl (hf v)
        | requestN v =>
          simp only [dispatch] at hx
          split at hx
          · cases hx
          · split at hx <;> cases hx
            exact ⟨ho, by simp [meaning]⟩
        | cancel v => exact absurd rfl ha
        | error v => exact absurd rfl ha
        | payload v => exact absurd rfl ha
    · obtain ⟨_, h2, _, h4⟩ := dispatch_shape hf hx
      have hji : j ≠ i := fun e => hid (ho.only.lookup hg e)
      rw [if_neg hid]
      constructor
      · rcases h2 with h2 | h2 <;> rw [h2]
        · exact ho
        · exact ho.remove (Ne.symm hid)
      · have : o.evs.filterMap (sigOf i) = [] := by
          rw [List.filterMap_eq_nil_iff]
          intro x hx
          rcases h4 x hx with ⟨d, m, rfl⟩ | rfl | ⟨m, rfl⟩ <;> simp [sigOf, hji]
        simp [this]
  | answer j live k id' data md n ev ht hs _ =>
    exact ⟨ho, by simp [Peer.after, told, frameOf, hs i]⟩
  | serve j live k id' data md n h c m ht _ _ =>
    exact ⟨ho.register id' _, by simp [Peer.after, Peer.register, told, frameOf, sigOf]⟩
  | attach j i' n ht =>
    exact ⟨ho.modify _ _ rfl fun b => ⟨b, rfl⟩, by simp [Peer.after, told, frameOf, sigOf]⟩
  | demand j live i' n o ht _ _ => exact ⟨ho, by simp [Peer.after, told, frameOf, sigOf]⟩
  | openMono id' c => exact ⟨ho.register id' _, by simp [Peer.register, frameOf]⟩
  | openFlux id' b c => exact ⟨ho.register id' _, by simp [Peer.register, frameOf]⟩
  | startIn j b =>
    refine ⟨ho.modify _ _ rfl fun b => ?_, by simp [frameOf]⟩
    cases b <;> exact ⟨_, rfl⟩
  | openSink j => exact ⟨ho.modify _ _ rfl fun b => ⟨b, rfl⟩, by simp [frameOf]⟩

theorem own_run {e : End} {hs : Handlers H} {id : UInt32} {i : Nat} {as : List Act} {p p' : Peer H} (ho : Own id i p.st)
    (hne : ∀ f ∈ arrived id as, ends f = false) (h : p.run e hs as = some (.ok p')) :
    Own id i p'.st ∧ told i p'.log = told i p.log ++ (arrived id as).flatMap meaning := by
  induction as generalizing p with
  | nil => cases h; exact ⟨ho, by simp [arrived]⟩
  | cons a as ih =>
    obtain ⟨p1, h1, h2⟩ := run_cons h
    have ha : arrived id (a :: as) = (frameOf id a).toList ++ arrived id as := filterMap_cons_toList _ _ _
    rw [ha] at hne ⊢
    have g1 := own_step ho (fun f hf => hne f (by simp [hf])) h1
    have g2 := ih g1.1 (fun f hf => hne f (List.mem_append_right _ hf)) h2
    exact ⟨g2.1, by rw [g2.2, g1.2, List.flatMap_append, List.append_assoc]⟩

/-- Nothing is told to a stream that does not exist yet. -/
def Untold (p : Peer H) : Prop := ∀ i, p.st.objs.length ≤ i → told i p.log = []

theorem untold_step {e : End} {hs : Handlers H} {p p' : Peer H} {a : Act} (hw : Sound p) (hu : Untold p)
    (h : p.step e hs a = some (.ok p')) : Untold p' := by
  intro i hi
  cases effect h with
  | skip data s _ => exact hu i hi
  | ask data v k _ => simpa [Peer.after] using hu i hi
  | frame data f j o hd hf hg ho =>
    obtain ⟨h1, _, _, h4⟩ := dispatch_shape hf ho
    have hi : o.st.objs.length ≤ i := hi
    rw [h1] at hi
    have hlt := hw.1.wf _ _ hg
    have h0 : p.log.filterMap (sigOf i) = [] := hu i hi
    simp only [Peer.after, told, List.filterMap_append, h0, List.nil_append]
    rw [List.filterMap_eq_nil_iff]
    intro x hx
    have : j ≠ i := by omega
    rcases h4 x hx with ⟨d, m, rfl⟩ | rfl | ⟨m, rfl⟩ <;> simp [sigOf, this]
  | answer j live k id' data md n ev ht hs _ =>
    have := hu i hi
    simp only [told] at this
    simp [Peer.after, told, this, hs i]
  | serve j live k id' data md n h c m ht _ _ =>
    have : p.st.objs.length ≤ i := by
      simp [Peer.after, Peer.register, registerStream_objs] at hi; omega
    have := hu i this
    simp only [told] at this
    simp [Peer.after, Peer.register, told, this, sigOf]
  | attach j i' n ht =>
    have : p.st.objs.length ≤ i := by simpa [Peer.after] using hi
    have := hu i this
    simp only [told] at this
    simp [Peer.after, told, this, sigOf]
  | demand j live i' n o ht _ _ =>
    have := hu i hi
    simp only [told] at this
    simp [Peer.after, told, this, sigOf]
  | openMono id' c => exact hu i (by simp [Peer.register, registerStream_objs] at hi; omega)
  | openFlux id' b c => exact hu i (by simp [Peer.register, registerStream_objs] at hi; omega)
  | startIn j b => exact hu i (by simpa [startIn] using hi)
  | openSink j => exact hu i (by simpa [openSink] using hi)

theorem untold_run {e : End} {hs : Handlers H} {as : List Act} {p p' : Peer H} (hw : Sound p) (hu : Untold p)
    (h : p.run e hs as = some (.ok p')) : Untold p' := by
  induction as generalizing p with
  | nil => cases h; exact hu
  | cons a as ih =>
    obtain ⟨p1, h1, h2⟩ := run_cons h
    exact ih (sound_step hw h1) (untold_step hw hu h1) h2

/-- The actions that make a call with the id, under a context. -/
def Opens (id : UInt32) (c : Ctx) (a : Act) : Prop := a = .openMono id c ∨ ∃ b, a = .openFlux id b c

theorem open_own {e : End} {hs : Handlers H} {id : UInt32} {c : Ctx} {p p' : Peer H} {a : Act} (hw : Sound p)
    (hn : getStream p.st id = none) (ha : Opens id c a) (h : p.step e hs a = some (.ok p')) :
    Own id p.st.objs.length p'.st ∧ p'.log = p.log ∧ p'.ctxs = p.ctxs ++ [c] := by
  have key : ∀ o : Obj, (o = .mono ∨ ∃ b, o = .flux b) → Own id p.st.objs.length (p.register o c id).st := by
    intro o ho
    refine ⟨get_register_none (st := { p.st with objs := p.st.objs ++ [o] }) _ hn, ?_, ?_⟩
    · simp only [Peer.register]
      rw [registerStream_objs]
      rcases ho with rfl | ⟨b, rfl⟩
      · left; simp
      · right; exact ⟨b, by simp⟩
    · refine Entries.registered ?_ fun _ => rfl
      have := Entries.mono (Q := fun id' j => j = p.st.objs.length → id' = id) hw.1 fun id' j hj e => by omega
      exact entries_objs this _
  rcases ha with rfl | ⟨b, rfl⟩
  · cases h; exact ⟨key _ (.inl rfl), rfl, rfl⟩
  · cases h; exact ⟨key _ (.inr ⟨_, rfl⟩), rfl, rfl⟩

/-- **C84** A caller in a host or guest sees what the other end sends for its call, while the call lasts: take any
execution in which a call is made under an id nobody used before, followed by anything at all in which no frame ends
that stream. The stream of the call has then been told exactly what the frames under its id mean, in order, and bytes
that are a PAYLOAD, ERROR or CANCEL frame under the id are handled without panic and told too.

Frames that come after the last one of the stream: `late_frames_refuted` in `Verif/Props/Caller.lean`. -/
theorem caller_sees (e : End) (hs : Handlers H) (id : UInt32) (c : Ctx) (before after : List Act) (a : Act)
    (p1 p : Peer H) (h1 : Peer.init.run e hs before = some (.ok p1)) (fresh : ∀ b ∈ before, ¬ uses id b)
    (ha : Opens id c a) (h2 : p1.run e hs (a :: after) = some (.ok p)) (open' : ∀ f ∈ arrived id after, ends f = false) :
    told p1.st.objs.length p.log = (arrived id after).flatMap meaning ∧
    ∀ data f, decodeFrame data = .ok f → f.streamID = id → answers f = true → ∃ p', p.recvOne data = .ok p' ∧
      told p1.st.objs.length p'.log = (arrived id after).flatMap meaning ++ meaning f := by
  have hn := unused_lookup (unused_run (unused_init id) fresh h1)
  have hw := sound_run sound_init h1
  have hu := untold_run sound_init (fun _ _ => rfl) h1 _ (Nat.le_refl _)
  obtain ⟨p2, h3, h4⟩ := run_cons h2
  obtain ⟨ho, hl, _⟩ := open_own hw hn ha h3
  obtain ⟨ho', ht'⟩ := own_run ho open' h4
  rw [hl, hu, List.nil_append] at ht'
  refine ⟨ht', fun data f hd hid hf => ?_⟩
  obtain ⟨o, e1, e2, _⟩ := answer_dispatched (H := H) ho' hid hf
  rw [recv_decoded hd]
  refine ⟨p.after o, ?_, ?_⟩
  · cases f with
    | request v => cases hf
    | _ => simp only [afterDecode, hid, ho'.found, e1]; rfl
  · have e2 : o.evs.filterMap (sigOf p1.st.objs.length) = meaning f := e2
    have ht' : p.log.filterMap (sigOf p1.st.objs.length) = _ := ht'
    simp only [Peer.after, told, List.filterMap_append, e2, ht']

/-- A call answered by two elements, the second of which ends it. -/
def elem (id : UInt8) (fl : UInt8) : Bytes := [0, 0, 0, id, 40, fl, 6]

example : ∃ p : Peer Nat, Peer.init.run .host hs2 [.recv (channel 1)] = some (.ok p) ∧
    (∃ p', p.run .host hs2 [.openFlux 2 false (.caller 3), .recv (elem 2 32), .recv (elem 4 32), .recv (elem 2 32)] = some (.ok p') ∧
      told p.st.objs.length p'.log = [.next [6] [], .next [6] []]) ∧
    (∃ f, decodeFrame (elem 2 96) = .ok f ∧ f.streamID = 2 ∧ answers f = true) := by
  exact ⟨_, rfl, ⟨_, rfl, by decide⟩, _, rfl, by decide, by decide⟩

/-! ## C82: crashes -/

theorem dispatch_panics_iff {st : State} (hw : Wf st) {f : Frame} (hf : ∀ v, f ≠ .request v) {i : Nat}
    (hg : getStream st f.streamID = some i) : dispatch (H := H) st (some i) f = .panic ↔ ∃ o, st.objs[i]? = some o ∧ Crash o f := by
  have ht : f.type ≥ tRequestN := by
    cases f with
    | request v => exact absurd rfl (hf v)
    | _ => simp only [Frame.type]; decide
  have := handle_panics_iff (H := H) st hw f
  unfold handleFrame at this
  rw [if_pos ht, hg] at this
  rw [this]
  constructor
  · rintro ⟨j, o, e, h1, h2⟩; cases e; exact ⟨o, h1, h2⟩
  · rintro ⟨o, h1, h2⟩; exact ⟨i, o, rfl, h1, h2⟩

/-- **C82**, the exact extent: bytes received by a host or guest crash it just in case they are too short for the frame
they begin, unless that frame is for a stream nobody knows, or they are a frame its open stream cannot take. -/
theorem recv_panics_iff (e : End) (hs : Handlers H) (as : List Act) (p : Peer H)
    (h : Peer.init.run e hs as = some (.ok p)) (data : Bytes) :
    p.recvOne data = .panic ↔
      (¬ LongEnough data ∧ ¬ (6 ≤ data.length ∧ Header.type (data.take 6) ≥ tRequestN ∧
          getStream p.st (Header.streamID (data.take 6)) = none)) ∨
      ∃ f i o, decodeFrame data = .ok f ∧ getStream p.st f.streamID = some i ∧ p.st.objs[i]? = some o ∧ Crash o f := by
  have hw := (sound_run sound_init h).1.wf
  have hl := decode_panics_iff_short_partial data
  cases hd : decodeFrame data with
  | panic =>
    rw [recv_short hd]
    have : ¬ LongEnough data := hl.mp hd
    simp only [this, not_false_eq_true, true_and, reduceCtorEq, false_and, exists_const, or_false]
    split
    · rename_i hc; simp [hc]
    · rename_i hc; simp only [true_iff]; exact .inl hc
  | err m =>
    rw [recv_unknown hd]
    have : LongEnough data := Classical.not_not.mp fun hn => by rw [hl.mpr hn] at hd; cases hd
    simp [this]
  | ok f =>
    have : LongEnough data := Classical.not_not.mp fun hn => by rw [hl.mpr hn] at hd; cases hd
    rw [recv_decoded hd]
    simp only [this, not_true_eq_false, false_and, false_or]
    by_cases hf : ∃ v, f = .request v
    · obtain ⟨v, rfl⟩ := hf
      constructor
      · intro h
        simp only [afterDecode, dispatch] at h
        split at h
        · cases h
        · split at h <;> cases h
      · rintro ⟨f, i, o, e1, _, _, hc⟩
        cases e1
        cases o with
        | resp a b => cases b <;> exact absurd hc id
        | _ => exact absurd hc id
    · have hf : ∀ v, f ≠ .request v := fun v hv => hf ⟨v, hv⟩
      have he : afterDecode p f = (match getStream p.st f.streamID with
          | none => Res.ok p
          | some i => p.after <$> dispatch p.st (some i) f) := by
        cases f with
        | request v => exact absurd rfl (hf v)
        | _ => rfl
      rw [he]
      cases hg : getStream p.st f.streamID with
      | none =>
        constructor
        · intro h; cases h
        · rintro ⟨f', i, o, e1, e2, _⟩; cases e1; rw [hg] at e2; cases e2
      | some i =>
        have key := dispatch_panics_iff (H := H × Ctx) hw hf hg
        simp only
        constructor
        · intro h
          have : dispatch (H := H × Ctx) p.st (some i) f = .panic := by
            cases hx : dispatch (H := H × Ctx) p.st (some i) f with
            | panic => rfl
            | ok o => rw [hx] at h; cases h
            | err m => rw [hx] at h; cases h
          obtain ⟨o, h1, h2⟩ := key.mp this
          exact ⟨f, i, o, rfl, hg, h1, h2⟩
        · rintro ⟨f', j, o, e1, e2, e3, e4⟩
          cases e1
          cases hg.symm.trans e2
          rw [key.mpr ⟨o, e3, e4⟩]; rfl

/-- **C82** (part) A frame for a stream that was never opened is dropped, whatever it contains: nothing changes. In
`handler.go` it ends the connection. -/
theorem stray_ignored_partial (e : End) (hs : Handlers H) (as : List Act) (p : Peer H)
    (h : Peer.init.run e hs as = some (.ok p)) (data : Bytes) (h6 : 6 ≤ data.length)
    (ht : Header.type (data.take 6) ≥ tRequestN) (hu : ∀ a ∈ as, ¬ uses (Header.streamID (data.take 6)) a) :
    p.recvOne data = .ok p := by
  have hg := unused_lookup (unused_run (unused_init _) hu h)
  have hp : parseHeader data = .ok (data.take 6) := by simp [parseHeader, headerLen, h6]
  have hsl : sliceFrom data headerLen = .ok (data.drop 6) := by simp [sliceFrom, headerLen, h6]
  unfold Peer.recvOne
  rw [hp, Res.ok_bind, hsl, Res.ok_bind, if_pos ht, hg]
  rfl

/-- Bytes of an ERROR frame cut short, for a stream never opened: ignored, though decoding them would panic. -/
example : decodeFrame [0, 0, 0, 9, 44, 0, 1] = .panic ∧ Header.type [0, 0, 0, 9, 44, 0] ≥ tRequestN ∧
    (Peer.init : Peer Nat).recvOne [0, 0, 0, 9, 44, 0, 1] = .ok Peer.init := ⟨by decide +kernel, by decide, rfl⟩

/-- **C82** is false: a frame of five bytes crashes either end. -/
theorem short_crashes_refuted (e : End) : Peer.init.run e hs2 [.recv [0, 0, 0, 2, 40]] = some .panic := by
  cases e <;> rfl

/-- **C82** is false: demand for a request-response call crashes the caller. -/
theorem demand_for_mono_refuted (e : End) (id : Ctx) :
    Peer.init.run e hs2 [.openMono 2 id, .recv [0, 0, 0, 2, 32, 0, 0, 0, 0, 1]] = some .panic := by
  cases e <;> rfl

/-- **C82** is false: a caller that cancels a stream crashes the end that serves it. -/
theorem cancel_crashes_refuted (e : End) :
    Peer.init.run e hs2 [.recv (channel 1), .task 0 true, .task 0 true, .recv [0, 0, 0, 4, 36, 0]] = some .panic := by
  cases e <;> rfl

/-- **C82** is false: demand that overtakes the handler crashes a host. The guest cannot take up the frame yet. -/
theorem early_demand_refuted :
    Peer.init.run .host hs2 [.recv (channel 1), .task 0 true, .recv [0, 0, 0, 4, 32, 0, 0, 0, 0, 1], .task 1 true] =
      some .panic ∧
    Peer.init.run .guest hs2 [.recv (channel 1), .task 0 true, .recv [0, 0, 0, 4, 32, 0, 0, 0, 0, 1], .task 1 true] =
      none := ⟨rfl, rfl⟩

/-! ### Demand in the guest -/

/-- Every stream that is served has its flux, or is about to get it. -/
def Attached (p : Peer H) : Prop :=
  ∀ (i : Nat) b, p.st.objs[i]? = some (.resp false b) → ∃ n, Task.attach i n ∈ p.tasks

theorem mem_eraseIdx_or {α : Type} {l : List α} {j : Nat} {t x : α} (h : l[j]? = some t) (hx : x ∈ l) :
    x = t ∨ x ∈ l.eraseIdx j := by
  have := (eraseIdx_perm h).mem_iff.mp hx
  simpa using this

theorem attached_step {e : End} {hs : Handlers H} (hf : hs .fnf = fun _ => none) {p p' : Peer H} {a : Act} (ha : Attached p)
    (h : p.step e hs a = some (.ok p')) : Attached p' := by
  intro i b hb
  cases effect h with
  | skip data s _ => exact ha i b hb
  | ask data v k _ =>
    obtain ⟨n, hn⟩ := ha i b hb
    exact ⟨n, List.mem_append_left _ hn⟩
  | frame data f j o hd hf' hg ho =>
    obtain ⟨h1, _, _, _⟩ := dispatch_shape hf' ho
    simp only [Peer.after, h1] at hb
    obtain ⟨n, hn⟩ := ha i b hb
    exact ⟨n, List.mem_append_left _ hn⟩
  | answer j live k id' data md n ev ht _ _ =>
    obtain ⟨m, hm⟩ := ha i b hb
    rcases mem_eraseIdx_or ht hm with hx | hx
    · cases hx
    · exact ⟨m, List.mem_append_left _ hx⟩
  | serve j live k id' data md n g c m ht hk _ =>
    have hkf : k ≠ .fnf := by
      rintro rfl
      simp only [Peer.step, ht] at h
      have h := Option.some.inj h
      simp only [Peer.runTask] at h
      obtain ⟨p2, h1, h2⟩ := handled e hs { p with tasks := p.tasks.eraseIdx j } .fnf id' data md n
      have h3 := h1.symm.trans h
      have h3 := congrArg (fun r => match r with | Res.ok q => q.log | _ => []) h3
      cases h2 with
      | run op parent g' _ _ hx => rw [hf] at hx; cases hx
      | short _ => simp [Peer.after, Peer.register] at h3
      | unknown _ _ _ => simp [Peer.after, Peer.register] at h3
    simp only [Peer.after, Peer.register, registerStream_objs] at hb ⊢
    rw [List.getElem?_append] at hb
    split at hb
    · obtain ⟨m, hm⟩ := ha i b hb
      rcases mem_eraseIdx_or ht hm with hx | hx
      · cases hx
      · exact ⟨m, List.mem_append_left _ hx⟩
    · rename_i hlt
      have : i = p.st.objs.length := by
        have := (List.getElem?_eq_some_iff.mp hb).1
        simp at this; omega
      subst this
      refine ⟨n, List.mem_append_right _ ?_⟩
      cases k <;> simp [rest] at hk hkf ⊢
  | attach j i' n ht =>
    simp only [Peer.after, List.getElem?_modify, List.append_nil] at hb ⊢
    by_cases hi : i' = i
    · subst hi
      cases ho : p.st.objs[i']? with
      | none => rw [ho] at hb; cases hb
      | some o => rw [ho] at hb; cases o <;> simp at hb
    · simp only [if_neg hi] at hb
      obtain ⟨m, hm⟩ := ha i b (by simpa using hb)
      rcases mem_eraseIdx_or ht hm with hx | hx
      · cases hx; exact absurd rfl hi
      · exact ⟨m, hx⟩
  | demand j live i' n o ht _ _ =>
    obtain ⟨m, hm⟩ := ha i b hb
    rcases mem_eraseIdx_or ht hm with hx | hx
    · cases hx
    · exact ⟨m, List.mem_append_left _ hx⟩
  | openMono id' c =>
    simp only [Peer.register, registerStream_objs] at hb ⊢
    rw [List.getElem?_append] at hb
    split at hb
    · exact ha i b hb
    · have := List.mem_of_getElem? hb; simp at this
  | openFlux id' b' c =>
    simp only [Peer.register, registerStream_objs] at hb ⊢
    rw [List.getElem?_append] at hb
    split at hb
    · exact ha i b hb
    · have := List.mem_of_getElem? hb; simp at this
  | startIn j b' =>
    simp only [startIn, List.getElem?_modify] at hb
    cases ho : p.st.objs[i]? with
    | none => rw [ho] at hb; split at hb <;> cases hb
    | some o =>
      rw [ho] at hb
      refine ha i b ?_
      rw [ho]
      split at hb
      · cases o with
        | flux x => cases x <;> simp at hb
        | _ => simpa using hb
      · simpa using hb
  | openSink j =>
    simp only [openSink, List.getElem?_modify] at hb
    cases ho : p.st.objs[i]? with
    | none => rw [ho] at hb; split at hb <;> cases hb
    | some o =>
      rw [ho] at hb
      split at hb
      · cases o with
        | resp x y =>
          simp at hb
          exact ha i y (by rw [ho, hb.1])
        | _ => simp at hb
      · exact ha i b (by simpa [ho] using hb)

theorem attached_run {e : End} {hs : Handlers H} (hf : hs .fnf = fun _ => none) {as : List Act} {p p' : Peer H} (ha : Attached p)
    (h : p.run e hs as = some (.ok p')) : Attached p' := by
  induction as generalizing p with
  | nil => cases h; exact ha
  | cons a as ih =>
    obtain ⟨p1, h1, h2⟩ := run_cons h
    exact ih (attached_step hf ha h1) h2

/-- **C82** (part) Demand for a stream a guest serves never crashes it and is never lost: whenever the guest can take up
a frame and its stream is known, a RequestN frame for it is passed on to the flux the handler returned.

Missing: guests with fire-and-forget handlers, which leave streams without flux behind
(`demand_after_fnf_refuted`), and hosts (`early_demand_refuted`). -/
theorem guest_demand_partial (hs : Handlers H) (hf : hs .fnf = fun _ => none) (as : List Act) (p : Peer H)
    (h : Peer.init.run .guest hs as = some (.ok p)) (data : Bytes) (v : RequestN) (hd : decodeFrame data = .ok (.requestN v))
    (i : Nat) (a b : Bool) (hg : getStream p.st v.streamID = some i) (ho : p.st.objs[i]? = some (.resp a b))
    (hr : p.tasks = []) (live : Bool) :
    ∃ p', p.run .guest hs [.recv data, .task 0 live] = some (.ok p') ∧ p'.log = p.log ++ [.requested i v.n] := by
  have ha := attached_run hf (p := Peer.init) (by intro i b hb; simp [Peer.init, State.init] at hb) h
  have haa : a = true := by
    cases a with
    | true => rfl
    | false => obtain ⟨n, hn⟩ := ha i b ho; rw [hr] at hn; cases hn
  subst haa
  have e1 : p.recvOne data = .ok (p.after ⟨p.st, [.demand i v.n], []⟩) := by
    rw [recv_decoded hd]
    simp only [afterDecode, Frame.streamID, hg, dispatch, ho, Obj.isDoRequest]
    rfl
  refine ⟨{ (p.after ⟨p.st, [.demand i v.n], []⟩) with tasks := [] }.after ⟨p.st, [], [.requested i v.n]⟩, ?_, ?_⟩
  · simp only [Peer.run, Peer.step, Peer.ready, hr, List.isEmpty_nil, if_true, e1]
    simp [Peer.after, hr, Peer.runTask, Handler.runTask, ho, Obj.hasSub]
    rfl
  · simp [Peer.after]

/-- Handlers without fire and forget. -/
def hs3 : Handlers Nat := fun k i => match k with | .fnf => none | k => hs2 k i

example : hs3 .fnf = (fun _ => none) ∧ ∃ p : Peer Nat,
    Peer.init.run .guest hs3 [.recv (channel 1), .task 0 true, .task 0 true] = some (.ok p) ∧ p.tasks = [] ∧
    decodeFrame [0, 0, 0, 4, 32, 0, 0, 0, 0, 5] = .ok (.requestN ⟨4, 5⟩) ∧
    getStream p.st 4 = some 0 ∧ p.st.objs[0]? = some (.resp true false) := ⟨rfl, _, rfl, by decide, rfl, by decide, by decide⟩

/-- A fire-and-forget request on stream 4. -/
def forget : Bytes := [0, 0, 0, 4, 21, 0, 0, 0, 8, 0, 0, 0, 1, 0, 0, 0, 0, 7]

/-- **C82** is false: demand for a fire-and-forget request crashes a guest; a host ignores it. -/
theorem demand_after_fnf_refuted :
    Peer.init.run .guest hs2 [.recv forget, .task 0 true, .recv [0, 0, 0, 4, 32, 0, 0, 0, 0, 1], .task 0 true] = some .panic ∧
    ∃ p, Peer.init.run .host hs2 [.recv forget, .task 0 true, .recv [0, 0, 0, 4, 32, 0, 0, 0, 0, 1]] = some (.ok p) ∧
      p.tasks = [] := ⟨rfl, _, rfl, rfl⟩

/-! ## C83: the context of nested calls -/

theorem ctxs_step {e : End} {hs : Handlers H} {p p' : Peer H} {a : Act} (h : p.step e hs a = some (.ok p')) :
    ∃ cs, p'.ctxs = p.ctxs ++ cs := by
  cases effect h with
  | serve j live k id' data md n g c m ht _ _ => exact ⟨[c], rfl⟩
  | openMono id' c => exact ⟨[c], rfl⟩
  | openFlux id' b c => exact ⟨[c], rfl⟩
  | _ => exact ⟨[], by simp [Peer.after]⟩

theorem ctxs_run {e : End} {hs : Handlers H} {as : List Act} {p p' : Peer H} (h : p.run e hs as = some (.ok p')) :
    ∃ cs, p'.ctxs = p.ctxs ++ cs := by
  induction as generalizing p with
  | nil => cases h; exact ⟨[], by simp⟩
  | cons a as ih =>
    obtain ⟨p1, h1, h2⟩ := run_cons h
    obtain ⟨cs, e1⟩ := ctxs_step h1
    obtain ⟨ds, e2⟩ := ih h2
    exact ⟨cs ++ ds, by rw [e2, e1, List.append_assoc]⟩

/-- What a piece of work for a request does if its operation exists. -/
theorem task_runs {e : End} {hs : Handlers H} {p : Peer H} {j : Nat} {live : Bool} {k : Kind} {id : UInt32} {data md : Bytes}
    {n op parent : UInt32} {g : H} (ht : p.tasks[j]? = some (.request k id data md n)) (ho : opIndex md = some op.toNat)
    (hp : parentOf md = parent.toNat) (hg : hs k op = some g) :
    p.step e hs (.task j live) = some (.ok ({ p with tasks := p.tasks.eraseIdx j }.accept e k g id data md n parent)) := by
  simp only [Peer.step, ht, Peer.runTask]
  obtain ⟨p2, h1, h2⟩ := handled e hs { p with tasks := p.tasks.eraseIdx j } k id data md n
  rw [h1]
  cases h2 with
  | short hl => rw [index_short hl] at ho; cases ho
  | unknown op' h3 h4 =>
    have : op' = op := UInt32.toNat_inj.mp (Option.some.inj (h3.symm.trans ho))
    subst this; rw [h4] at hg; cases hg
  | run op' parent' g' h3 h4 h5 =>
    have : op' = op := UInt32.toNat_inj.mp (Option.some.inj (h3.symm.trans ho))
    subst this
    have : parent' = parent := UInt32.toNat_inj.mp (h4.symm.trans hp)
    subst this
    cases h5.symm.trans hg
    rfl

theorem accept_log (e : End) (p : Peer H) (k : Kind) (g : H) (id : UInt32) (data md : Bytes) (n parent : UInt32) :
    (p.accept e k g id data md n parent).log =
      p.log ++ [.invoked k (g, p.handlerCtx e k id parent) id data (passed e k md)] := by
  unfold Peer.accept
  split <;> rfl

/-- **C83**, the half of the host: while a call is open that local code made under a context, any request that names it
as its parent is handled under that context. -/
theorem parent_context_partial (hs : Handlers H) (id : UInt32) (hz : id ≠ 0) (c : Ctx) (before after : List Act) (a : Act)
    (p1 p : Peer H) (h1 : Peer.init.run .host hs before = some (.ok p1)) (fresh : ∀ b ∈ before, ¬ uses id b)
    (ha : Opens id c a) (h2 : p1.run .host hs (a :: after) = some (.ok p)) (open' : ∀ f ∈ arrived id after, ends f = false)
    (j : Nat) (live : Bool) (k : Kind) (rid : UInt32) (data md : Bytes) (n op : UInt32) (g : H)
    (ht : p.tasks[j]? = some (.request k rid data md n)) (ho : opIndex md = some op.toNat) (hp : parentOf md = id.toNat)
    (hg : hs k op = some g) :
    ∃ p', p.step .host hs (.task j live) = some (.ok p') ∧ p'.log = p.log ++ [.invoked k (g, c) rid data md] := by
  have hn := unused_lookup (unused_run (unused_init id) fresh h1)
  have hw := sound_run sound_init h1
  obtain ⟨p2, h3, h4⟩ := run_cons h2
  obtain ⟨hown, _, hc⟩ := open_own hw hn ha h3
  obtain ⟨ho', _⟩ := own_run hown open' h4
  obtain ⟨cs, e1⟩ := ctxs_run h4
  refine ⟨_, task_runs ht ho hp hg, ?_⟩
  rw [accept_log]
  have : p.ctxs[p1.st.objs.length]? = some c := by
    rw [e1, hc, ← hw.2]; simp
  simp only [Peer.handlerCtx, Peer.parentCtx, if_pos hz, ho'.found, this, Option.getD_some, passed]

theorem call_fields (op : UInt32) (c : Ctx) (md : Bytes) (h : callMetadata op c = .ok md) :
    opIndex md = some op.toNat ∧ parentOf md = (match c with | .serving id => id.toNat | _ => 0) := by
  have key : ∀ x : UInt32, opIndex (be32 op ++ be32 x) = some op.toNat ∧ parentOf (be32 op ++ be32 x) = x.toNat := by
    intro x
    have := op.toNat_lt; have := x.toNat_lt
    constructor
    · simp only [be32, beBytes, List.cons_append, List.nil_append, opIndex, List.append_assoc, UInt8.toNat_ofNat']
      congr 1; omega
    · simp only [be32, beBytes, List.cons_append, List.nil_append, parentOf, List.append_assoc, UInt8.toNat_ofNat']
      omega
  cases c with
  | nil => cases h
  | background => cases h; simpa using key 0
  | caller n => cases h; simpa using key 0
  | serving id => cases h; exact key id

/-- **C83** (part) A call made while serving a call runs under the context of the first one. Local code of a host calls
a request-response or fire-and-forget operation of its guest under a context. The guest runs the handler; generated
code of the handler makes a call under the context it was given. While the first call is open, the host runs the
operation so called under the context local code gave.

Missing: the handlers of streams and channels of the guest, `stream_context_refuted`. -/
theorem nested_context_partial (hs gs : Handlers H) (id : UInt32) (hz : id ≠ 0) (c : Ctx) (before after : List Act) (a : Act)
    (p1 p : Peer H) (h1 : Peer.init.run .host hs before = some (.ok p1)) (fresh : ∀ b ∈ before, ¬ uses id b)
    (ha : Opens id c a) (h2 : p1.run .host hs (a :: after) = some (.ok p)) (open' : ∀ f ∈ arrived id after, ends f = false)
    -- the guest gets the request
    (q : Peer H) (i : Nat) (l : Bool) (kq : Kind) (hk : kq = .rr ∨ kq = .fnf) (dq mq : Bytes) (nq oq : UInt32) (gq : H)
    (hq : q.tasks[i]? = some (.request kq id dq mq nq)) (hoq : opIndex mq = some oq.toNat) (hgq : gs kq oq = some gq) :
    ∃ q' cq, q.step .guest gs (.task i l) = some (.ok q') ∧ q'.log = q.log ++ [.invoked kq (gq, cq) id dq (mq.drop 8)] ∧
      -- the handler makes a call, which reaches the host
      ∀ op : UInt32, ∃ md, callMetadata op cq = .ok md ∧
        ∀ (j : Nat) (live : Bool) (k : Kind) (rid : UInt32) (data : Bytes) (n : UInt32) (g : H),
          p.tasks[j]? = some (.request k rid data md n) → hs k op = some g →
          ∃ p', p.step .host hs (.task j live) = some (.ok p') ∧ p'.log = p.log ++ [.invoked k (g, c) rid data md] := by
  have hl : ¬ mq.length < 8 := fun hl => by rw [index_short hl] at hoq; cases hoq
  obtain ⟨x, _, hx⟩ := getU32_drop4 hl
  refine ⟨_, .serving id, task_runs hq hoq hx.symm hgq, ?_, fun op => ⟨be32 op ++ be32 id, rfl, ?_⟩⟩
  · rw [accept_log]
    rcases hk with rfl | rfl <;> rfl
  · intro j live k rid data n g ht hg
    obtain ⟨e1, e2⟩ := call_fields op (.serving id) _ rfl
    exact parent_context_partial hs id hz c before after a p1 p h1 fresh ha h2 open' j live k rid data _ n op g ht e1 e2 hg

/-- A request-response request on a stream for operation 1 whose parent is 2. -/
def nested (id : UInt8) : Bytes := [0, 0, 0, id, 17, 32, 0, 0, 8, 0, 0, 0, 1, 0, 0, 0, 2, 5]

/-- Local code calls under context 3 on stream 2; the guest answers with a call of its own. -/
example : (∃ p : Peer Nat, Peer.init.run .host hs2 [.openMono 2 (.caller 3), .recv (nested 1)] = some (.ok p) ∧
      p.tasks = [.request .rr 1 [5] [0, 0, 0, 1, 0, 0, 0, 2] 1]) ∧
    ∃ p : Peer Nat, Peer.init.run .host hs2 [.openMono 2 (.caller 3), .recv (nested 1), .task 0 true] = some (.ok p) ∧
      p.log = [.invoked .rr (10, .caller 3) 1 [5] [0, 0, 0, 1, 0, 0, 0, 2]] := ⟨⟨_, rfl, rfl⟩, _, rfl, rfl⟩

/-- **C83** is false for streams and channels: the handler runs under a context that says nothing of the request, so
that its calls name no parent and the host runs them under `context.Background()`, here instead of `caller 3`. -/
theorem stream_context_refuted : ∃ (p q : Peer Nat) (md : Bytes),
    -- the host calls channel operation 1 of its guest on stream 4
    Peer.init.run .host hs2 [.openFlux 4 true (.caller 3)] = some (.ok p) ∧
    Peer.init.run .guest hs2 [.recv (channel 1), .task 0 true] = some (.ok q) ∧
    q.log = [.invoked .rc (41, .background) 4 [7] [0, 0, 0, 1, 0, 0, 0, 0]] ∧ callMetadata 1 .background = .ok md ∧
    -- the call of the handler
    ∀ rid data n, ∃ p', { p with tasks := [.request .rr rid data md n] }.step .host hs2 (.task 0 true) = some (.ok p') ∧
      p'.log = [.invoked .rr (10, .background) rid data md] :=
  ⟨_, _, _, rfl, rfl, rfl, rfl, fun _ _ _ => ⟨_, rfl, rfl⟩⟩

/-- **C83** is false for streams and channels, always: whatever guest serves the request under whatever id, a call its
handler makes is handled by the host under `context.Background()`. -/
theorem stream_context_lost_refuted (hs gs : Handlers H) (q : Peer H) (i : Nat) (l : Bool) (kq : Kind) (hk : kq = .rs ∨ kq = .rc)
    (id : UInt32) (dq mq : Bytes) (nq oq : UInt32) (gq : H) (hq : q.tasks[i]? = some (.request kq id dq mq nq))
    (hoq : opIndex mq = some oq.toNat) (hgq : gs kq oq = some gq) :
    ∃ q' cq, q.step .guest gs (.task i l) = some (.ok q') ∧ q'.log = q.log ++ [.invoked kq (gq, cq) id dq mq] ∧
      ∀ op : UInt32, ∃ md, callMetadata op cq = .ok md ∧
        ∀ (p : Peer H) (j : Nat) (live : Bool) (k : Kind) (rid : UInt32) (data : Bytes) (n : UInt32) (g : H),
          p.tasks[j]? = some (.request k rid data md n) → hs k op = some g →
          ∃ p', p.step .host hs (.task j live) = some (.ok p') ∧ p'.log = p.log ++ [.invoked k (g, .background) rid data md] := by
  have hl : ¬ mq.length < 8 := fun hl => by rw [index_short hl] at hoq; cases hoq
  obtain ⟨x, _, hx⟩ := getU32_drop4 hl
  refine ⟨_, .background, task_runs hq hoq hx.symm hgq, ?_, fun op => ⟨be32 op ++ be32 0, rfl, ?_⟩⟩
  · rw [accept_log]
    rcases hk with rfl | rfl <;> rfl
  · intro p j live k rid data n g ht hg
    obtain ⟨e1, e2⟩ := call_fields op .background _ rfl
    refine ⟨_, task_runs (parent := 0) ht e1 e2 hg, ?_⟩
    rw [accept_log]
    simp [Peer.handlerCtx, Peer.parentCtx, passed]

end Iota.Props.WasmCaller
