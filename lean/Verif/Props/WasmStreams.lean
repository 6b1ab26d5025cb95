import Verif.Spec.WasmStreams
import Verif.Props.WasmCalls

/-! # Streams between a WebAssembly host and its guest (C157) -/

namespace Iota.Props.WasmStreams
open Iota.Go Iota.Frames Iota.Registry Iota.WasmDispatch Iota.WasmCalls Iota.Spec.Handler Iota.Spec.WasmDispatch Iota.Spec.WasmCalls
open Iota.Spec.WasmStreams
open Iota.Spec.Caller (Sig meaning ends)
open Iota.Handler hiding Act
open Iota.StreamId (Side)
open Iota.Peers (Result requestFrame answerFrame isRequest)
open Iota.Lemmas.WasmDispatch Iota.Props.Handler Iota.Props.WasmDispatch
open Iota.Props.WasmCaller (Sound Untold sound_step untold_step removeStream_objs effect Effect frameOf own_step open_own answer_dispatched)
open Iota.Props.Caller (sigOf told Own get_register_none get_register_some entries_objs)
open Iota.Props.WasmCalls

variable {H : Type}

theorem signals_told (o : Nat) (log : List (Ev H)) : signals o log = told o log := by
  have : (signal o : Ev H → Option Sig) = sigOf o := funext fun ev => signal_eq o ev
  rw [signals, this]; rfl

/-! ## Lists -/

theorem under_append (id : UInt32) (a b : List Frame) : under id (a ++ b) = under id a ++ under id b := List.filter_append ..

theorem saidUnder_append (id : UInt32) (a b : List (Said H)) : saidUnder id (a ++ b) = saidUnder id a ++ saidUnder id b := by
  simp [saidUnder, under_append]

theorem under_none {id : UInt32} {fs : List Frame} (h : ∀ f ∈ fs, f.streamID ≠ id) : under id fs = [] := by
  refine List.filter_eq_nil_iff.mpr fun f hf => ?_
  simpa using h f hf

theorem under_cons (id : UInt32) (f : Frame) (fs : List Frame) :
    under id (f :: fs) = (if f.streamID = id then [f] else []) ++ under id fs := by
  simp only [under, List.filter_cons, decide_eq_true_eq]
  split <;> rfl

theorem tidy_prefix {a b : List Frame} (h : Tidy (a ++ b)) : Tidy a := by
  intro pre f post he hf g hg
  exact h pre f (post ++ b) (by rw [he]; simp) hf g (List.mem_append_left _ hg)

theorem ends_answers {f : Frame} (h : ends f = true) : Spec.Caller.answers f = true := by
  cases f <;> first | rfl | exact h

/-! ## What a stream is told in a step -/

/-- A step tells a stream what the frame means that is received for it. -/
theorem told_step {e : End} {hs : Handlers H} {id : UInt32} {i : Nat} {p p' : WasmDispatch.Peer H} {a : WasmDispatch.Act}
    (ho : Own id i p.st) (h : p.step e hs a = some (.ok p')) :
    told i p'.log = told i p.log ++ (frameOf id a).toList.flatMap meaning := by
  by_cases hne : ∀ f, frameOf id a = some f → ends f = false
  · exact (own_step ho hne h).2
  · obtain ⟨f, hf⟩ := Classical.not_forall.mp hne
    have hf' : frameOf id a = some f ∧ ends f = true := by
      constructor
      · exact Classical.byContradiction fun hn => hf fun h => absurd h hn
      · cases he : ends f with
        | true => rfl
        | false => exact absurd (fun _ => he) hf
    obtain ⟨hf, he⟩ := hf'
    have ha := ends_answers he
    cases a with
    | recv data =>
      simp only [frameOf] at hf ⊢
      split at hf
      · rename_i g hd
        split at hf
        · rename_i hid
          cases hf
          obtain ⟨o, e1, e2, _⟩ := answer_dispatched (H := H) ho hid ha
          have hnr : isRequest f = false := by cases f <;> first | rfl | cases ha
          rcases recv_other hd hnr h with ⟨hg, _⟩ | ⟨j, o', hg, hdisp, rfl⟩
          · rw [hid, ho.found] at hg; cases hg
          · rw [hid, ho.found] at hg; cases hg
            cases e1.symm.trans hdisp
            have e2 : o.evs.filterMap (sigOf i) = meaning f := e2
            simp [told, WasmDispatch.Peer.after, e2, hd, hid]
        · cases hf
      · cases hf
    | _ => cases hf

/-- A stream is told nothing by a frame for another one, by demand, and by what else goes on. -/
theorem told_quiet {e : End} {hs : Handlers H} {id : UInt32} {i : Nat} {p p' : WasmDispatch.Peer H} {a : WasmDispatch.Act}
    (hent : ∀ id' j, getStream p.st id' = some j → j = i → id' = id)
    (hne : ∀ f, frameOf id a = some f → Spec.Caller.answers f = false)
    (h : p.step e hs a = some (.ok p')) : told i p'.log = told i p.log := by
  cases effect h with
  | skip data s _ => rfl
  | ask data v k _ => simp [WasmDispatch.Peer.after]
  | frame data f j o hd hf hg ho =>
    obtain ⟨h1, _, _, h4⟩ := dispatch_shape hf ho
    simp only [WasmDispatch.Peer.after, told, List.filterMap_append]
    have : o.evs.filterMap (sigOf i) = [] := by
      by_cases hji : j = i
      · have hid := hent _ _ hg hji
        have hna := hne f (by simp [frameOf, hd, hid])
        cases f with
        | requestN v =>
          simp only [dispatch] at ho
          split at ho
          · cases ho
          · split at ho <;> cases ho
            rfl
        | request v => exact absurd rfl (hf v)
        | _ => cases hna
      · rw [List.filterMap_eq_nil_iff]
        intro x hx
        rcases h4 x hx with ⟨d, m, rfl⟩ | rfl | ⟨m, rfl⟩ <;> simp [sigOf, hji]
    rw [this, List.append_nil]
  | answer j live k id' data md n ev ht hs _ => simp [WasmDispatch.Peer.after, told, hs i]
  | serve j live k id' data md n h c m ht _ _ => simp [WasmDispatch.Peer.after, WasmDispatch.Peer.register, told, sigOf]
  | attach j i' n ht => simp [WasmDispatch.Peer.after, told, sigOf]
  | demand j live i' n o ht _ _ => simp [WasmDispatch.Peer.after, told, sigOf]
  | openMono id' c => rfl
  | openFlux id' b c => rfl
  | startIn j b => rfl
  | openSink j => rfl

/-! ## Invariant -/

/-- The id of a call that may have been asked for: of fire and forget, or subscribed to. -/
def Live (p : Node H) (id : UInt32) : Prop :=
  ∃ (j : Nat) (c : WasmCalls.Call), p.calls[j]? = some c ∧ c.id = id ∧ (c.kind = .fnf ∨ (p.obj j).isSome = true)

/-- What holds of the calls of `p`, answered by `q`, which has said `said`; `wp` are the frames of `p`, `wq` those of `q`. -/
structure Flow (p q : Node H) (wp wq : List Frame) (said : List (Said H)) : Prop where
  asked : ∀ v, Frame.request v ∈ wp → Live p v.streamID
  queued : ∀ k id d m n, Task.request k id d m n ∈ q.peer.tasks → Live p id
  jobs : ∀ x ∈ q.jobs, Live p x.id
  known : ∀ s ∈ said, Live p s.2.streamID
  wire : ∀ f ∈ wq, Live p f.streamID ∨ ∃ c ∈ q.calls, c.id = f.streamID
  heard : ∀ (j : Nat) (c : WasmCalls.Call) (o : Nat), p.calls[j]? = some c → p.obj j = some o → Tidy (saidUnder c.id said) →
    ∃ took, saidUnder c.id said = took ++ under c.id wq ∧ told o p.peer.log = took.flatMap meaning ∧
      ((∀ f ∈ took, ends f = false) → Own c.id o p.peer.st)

theorem Live.mono {p p' : Node H} {id : UInt32} (h : Live p id) (hc : ∀ (j : Nat) (c : WasmCalls.Call), p.calls[j]? = some c → p'.calls[j]? = some c)
    (ho : ∀ j, (p.obj j).isSome = true → (p'.obj j).isSome = true) : Live p' id := by
  obtain ⟨j, c, h1, h2, h3⟩ := h
  exact ⟨j, c, hc j c h1, h2, h3.imp_right (ho j)⟩

/-- The other end goes on: it may send frames that are not for the calls of `p`, and says something. -/
theorem flow_far {p q q' : Node H} {wp wp' wq : List Frame} {said new : List (Said H)} {out : List Frame}
    (F : Flow p q wp wq said) (hw : ∀ f ∈ wp', f ∈ wp)
    (hq : ∀ k id d m n, Task.request k id d m n ∈ q'.peer.tasks → Live p id)
    (hj : ∀ x ∈ q'.jobs, Live p x.id) (hn : ∀ s ∈ new, Live p s.2.streamID)
    (hc : ∀ c ∈ q.calls, c ∈ q'.calls) (hof : ∀ f ∈ out, Live p f.streamID ∨ ∃ c ∈ q'.calls, c.id = f.streamID)
    (ho : ∀ c ∈ p.calls, under c.id out = saidUnder c.id new) : Flow p q' wp' (wq ++ out) (said ++ new) := by
  refine ⟨fun v hv => F.asked v (hw _ hv), hq, hj, ?_, ?_, ?_⟩
  · intro s hs
    rcases List.mem_append.mp hs with hs | hs
    · exact F.known s hs
    · exact hn s hs
  · intro f hf
    rcases List.mem_append.mp hf with hf | hf
    · exact (F.wire f hf).imp_right fun ⟨c, h1, h2⟩ => ⟨c, hc c h1, h2⟩
    · exact hof f hf
  · intro j c o hc hob ht
    rw [saidUnder_append] at ht
    obtain ⟨took, h1, h2, h3⟩ := F.heard j c o hc hob (tidy_prefix ht)
    exact ⟨took, by rw [saidUnder_append, under_append, h1, ho c (List.mem_of_getElem? hc), List.append_assoc], h2, h3⟩

/-- The calling end goes on by a step of its dispatcher. -/
theorem flow_near {e : End} {hs : Handlers H} {p q p' : Node H} {wp wq wq' out : List Frame} {said : List (Said H)} {a : WasmDispatch.Act}
    (F : Flow p q wp wq said) (hl : Local e p) (hc : p'.calls = p.calls) (ho : p'.obj = p.obj)
    (hs' : p.peer.step e hs a = some (.ok p'.peer)) (hout : ∀ v, Frame.request v ∈ out → Live p v.streamID)
    (hsub : ∀ f ∈ wq', f ∈ wq)
    (hw : ∀ c ∈ p.calls, under c.id wq = (frameOf c.id a).toList ++ under c.id wq') :
    Flow p' q (wp ++ out) wq' said := by
  have hlive : ∀ id, Live p id → Live p' id := fun id h => h.mono (fun j c h => by rw [hc]; exact h) (fun j h => by rw [ho]; exact h)
  refine ⟨?_, fun k id d m n ht => hlive _ (F.queued k id d m n ht), fun x hx => hlive _ (F.jobs x hx),
    fun s hs => hlive _ (F.known s hs), fun f hf => (F.wire f (hsub f hf)).imp_left (hlive _), ?_⟩
  · intro v hv
    rcases List.mem_append.mp hv with hv | hv
    · exact hlive _ (F.asked v hv)
    · exact hlive _ (hout v hv)
  · intro j c o hcj hoj ht
    rw [hc] at hcj
    rw [ho] at hoj
    obtain ⟨took, h1, h2, h3⟩ := F.heard j c o hcj hoj ht
    have hwc := hw c (List.mem_of_getElem? hcj)
    have hent : ∀ id' i, getStream p.peer.st id' = some i → i = o → id' = c.id := by
      intro id' i hg hi
      subst hi
      exact (hl.entries.lookup hg j c hcj hoj).symm
    by_cases hend : ∀ f ∈ took, ends f = false
    · have hown := h3 hend
      refine ⟨took ++ (frameOf c.id a).toList, by rw [h1, hwc, List.append_assoc], ?_, ?_⟩
      · rw [told_step hown hs', h2, List.flatMap_append]
      · intro hall
        exact (own_step hown (fun f hf => hall f (by simp [hf])) hs').1
    · obtain ⟨f, hf⟩ := Classical.not_forall.mp hend
      have hf1 : f ∈ took := Classical.byContradiction fun hn => hf fun h => absurd h hn
      have hf2 : ends f = true := by
        cases he : ends f with
        | true => rfl
        | false => exact absurd (fun _ => he) hf
      obtain ⟨pre, post, rfl⟩ := List.append_of_mem hf1
      have hna : ∀ g, frameOf c.id a = some g → Spec.Caller.answers g = false := by
        intro g hg
        refine ht pre f (post ++ ((frameOf c.id a).toList ++ under c.id wq')) ?_ hf2 g ?_
        · rw [h1, hwc]; simp
        · simp [hg]
      refine ⟨pre ++ f :: post ++ (frameOf c.id a).toList, by rw [h1, hwc]; simp, ?_, ?_⟩
      · rw [told_quiet hent hna hs', h2, List.flatMap_append (xs := pre ++ f :: post)]
        have : (frameOf c.id a).toList.flatMap meaning = [] := by
          cases hg : frameOf c.id a with
          | none => rfl
          | some g =>
            have := hna g hg
            cases g <;> first | rfl | cases this
        rw [this, List.append_nil]
      · intro hall
        have := hall f (by simp)
        rw [hf2] at this; cases this

/-- The calling end sends frames or makes calls; its dispatcher does nothing. -/
theorem flow_calm {p q p' : Node H} {wp wq out : List Frame} {said : List (Said H)} (F : Flow p q wp wq said)
    (hp : p'.peer = p.peer) (ho : p'.obj = p.obj) (hc : ∀ (j : Nat) (c : WasmCalls.Call), p.calls[j]? = some c → p'.calls[j]? = some c)
    (hnew : ∀ (j : Nat) (c : WasmCalls.Call) (o : Nat), p'.calls[j]? = some c → p.obj j = some o → p.calls[j]? = some c)
    (hout : ∀ v, Frame.request v ∈ out → Live p' v.streamID) : Flow p' q (wp ++ out) wq said := by
  have hlive : ∀ id, Live p id → Live p' id := fun id h => h.mono hc (fun j h => by rw [ho]; exact h)
  refine ⟨?_, fun k id d m n ht => hlive _ (F.queued k id d m n ht), fun x hx => hlive _ (F.jobs x hx),
    fun s hs => hlive _ (F.known s hs), fun f hf => (F.wire f hf).imp_left (hlive _), ?_⟩
  · intro v hv
    rcases List.mem_append.mp hv with hv | hv
    · exact hlive _ (F.asked v hv)
    · exact hout v hv
  · intro j c o hcj hoj ht
    rw [ho] at hoj
    rw [hp]
    exact F.heard j c o (hnew j c o hcj hoj) hoj ht

/-- A call is subscribed to. -/
theorem flow_subscribe {e : End} {hs hs' : Handlers H} {p q p' : Node H} {wp wq out : List Frame} {said : List (Said H)} {j : Nat}
    (F : Flow p q wp wq said) (hl : Local e p) (hlq : Local (other e) q) (L : Link e hs p q wp wq) (hb : p.calls.length ≤ 2 ^ 30)
    (h : p.subscribe e hs' j = some (p', out)) : Flow p' q (wp ++ out) wq said := by
  have hkind : ∃ c, p.calls[j]? = some c ∧ c.kind ≠ .fnf := by
    unfold Node.subscribe at h
    split at h
    · rename_i c hc _
      refine ⟨c, hc, fun hk => ?_⟩
      simp [openAct, hk] at h
    · cases h
  obtain ⟨c', hc', hnf⟩ := hkind
  obtain ⟨c, ob, hc, hno, rfl, hstep, hout⟩ := subscribe_shape h
  rw [Option.some.inj (hc'.symm.trans hc)] at hnf
  have hcm := List.mem_of_getElem? hc
  have hnl : ¬ Live p c.id := by
    rintro ⟨i, d, h1, h2, h3⟩
    cases index_unique hl hb h1 hc h2
    cases h1.symm.trans hc
    rcases h3 with h3 | h3
    · exact hnf h3
    · rw [hno] at h3; cases h3
  have hnone : getStream p.peer.st c.id = none := by
    cases hg : getStream p.peer.st c.id with
    | none => rfl
    | some i =>
      rcases L.known.lookup hg with ⟨i, d, h1, h2, h3⟩ | ⟨d, h1, h2⟩
      · cases index_unique hl hb h1 hc h3
        rw [hno] at h2; cases h2
      · exact absurd h2.symm (ids_disjoint hl hlq hcm h1)
  have hopen : WasmCaller.Opens c.id c.ctx ((openAct c).getD (.openSink 0)) := by
    unfold openAct
    cases hk : c.kind with
    | rr => exact .inl rfl
    | fnf => exact absurd hk hnf
    | rs => exact .inr ⟨_, rfl⟩
    | rc => exact .inr ⟨_, rfl⟩
  have hfo : ∀ id, frameOf id ((openAct c).getD (.openSink 0)) = none := by
    intro id
    rcases hopen with h | ⟨b, h⟩ <;> rw [h] <;> rfl
  obtain ⟨hown, hlog, _⟩ := open_own hl.sound hnone hopen hstep
  have hlive : ∀ id, Live p id → Live { p with peer := p.peer.register ob c.ctx c.id, obj := fun i => if i = j then some p.peer.st.objs.length else p.obj i } id := by
    intro id h
    refine h.mono (fun _ _ h => h) fun i hi => ?_
    show (if i = j then some p.peer.st.objs.length else p.obj i).isSome = true
    split
    · rfl
    · exact hi
  have hme : Live { p with peer := p.peer.register ob c.ctx c.id, obj := fun i => if i = j then some p.peer.st.objs.length else p.obj i } c.id :=
    ⟨j, c, hc, rfl, .inr (by simp)⟩
  refine ⟨?_, fun k id d m n ht => hlive _ (F.queued k id d m n ht), fun x hx => hlive _ (F.jobs x hx),
    fun s hs => hlive _ (F.known s hs), fun f hf => (F.wire f hf).imp_left (hlive _), ?_⟩
  · intro v hv
    rcases List.mem_append.mp hv with hv | hv
    · exact hlive _ (F.asked v hv)
    · rcases hout with ⟨_, _, rfl⟩ | ⟨_, rfl⟩
      · cases List.mem_singleton.mp hv
        have := (requestFrame_asks' c).id
        rw [this]; exact hme
      · exact absurd hv List.not_mem_nil
  · intro i d o hd ho ht
    replace ho : (if i = j then some p.peer.st.objs.length else p.obj i) = some o := ho
    have hd : p.calls[i]? = some d := hd
    show ∃ took, _ ∧ told o (p.peer.register ob c.ctx c.id).log = _ ∧ (_ → Own d.id o (p.peer.register ob c.ctx c.id).st)
    by_cases hi : i = j
    · rw [if_pos hi] at ho
      subst hi
      obtain rfl := Option.some.inj ho
      cases hc.symm.trans hd
      have h1 : saidUnder c.id said = [] := by
        refine under_none fun f hf => ?_
        obtain ⟨s, hs, rfl⟩ := List.mem_map.mp hf
        intro he
        exact hnl (he ▸ F.known s hs)
      have h2 : under c.id wq = [] := by
        refine under_none fun f hf he => ?_
        rcases F.wire f hf with h | ⟨d, h3, h4⟩
        · exact hnl (he ▸ h)
        · exact ids_disjoint hl hlq hcm h3 (he.symm.trans h4.symm)
      refine ⟨[], by rw [h1, h2]; rfl, ?_, fun _ => hown⟩
      show told _ p.peer.log = []
      exact hl.untold _ (Nat.le_refl _)
    · rw [if_neg hi] at ho
      obtain ⟨took, h1, h2, h3⟩ := F.heard i d o hd ho ht
      refine ⟨took, h1, h2, fun hall => ?_⟩
      exact (own_step (h3 hall) (fun f hf => by rw [hfo] at hf; cases hf) hstep).1

/-! ## Every run -/

/-- What holds of an instance. -/
def Flows (y : WasmCalls.Sys H) (said : End → List (Said H)) : Prop :=
  ∀ e, Flow (y.node e) (y.node (other e)) (y.wire e) (y.wire (other e)) (said (other e))

theorem flows_put {y : WasmCalls.Sys H} {said : End → List (Said H)} (e : End) (n : Node H) (out : List Frame) (r : Bool)
    (new : List (Said H)) (new' : End → List (Said H)) (hn : ∀ t, new' t = if t = e then new else [])
    (h1 : Flow n (y.node (other e)) (y.wire e ++ out) (if r then (y.wire (other e)).tail else y.wire (other e)) (said (other e)))
    (h2 : Flow (y.node (other e)) n (if r then (y.wire (other e)).tail else y.wire (other e)) (y.wire e ++ out) (said e ++ new)) :
    Flows (y.put e n out r) (fun t => said t ++ new' t) := by
  intro t
  rcases eq_or_other e t with rfl | rfl
  · simp only [WasmCalls.Sys.put, if_true, if_neg (other_ne t), hn, List.append_nil]
    exact h1
  · simp only [WasmCalls.Sys.put, other_other, if_true, if_neg (other_ne e), hn]
    exact h2

theorem flows_init : Flows (WasmCalls.Sys.init : WasmCalls.Sys H) fun _ => [] := by
  intro e
  refine ⟨?_, ?_, ?_, ?_, ?_, ?_⟩
  · intro v hv; exact absurd hv List.not_mem_nil
  · intro k id d m n ht; exact absurd ht List.not_mem_nil
  · intro x hx; exact absurd hx List.not_mem_nil
  · intro s hs; exact absurd hs List.not_mem_nil
  · intro f hf; exact absurd hf List.not_mem_nil
  · intro j c o hc; simp [WasmCalls.Sys.init, Node.init] at hc

/-- The other end handles a request of `p`, or does something that is not about calls. -/
theorem flow_ran {e : End} {hs : Handlers H} {p q : Node H} {wp wq : List Frame} {said : List (Said H)} {k : Kind} {id : UInt32}
    {d m : Bytes} {n : UInt32} {i : Nat} {q' : WasmDispatch.Peer H} (F : Flow p q wp wq said)
    (ht : q.peer.tasks[i]? = some (.request k id d m n))
    (h : Ran e hs k id d m { q.peer with tasks := q.peer.tasks.eraseIdx i } q') :
    Flow p (q.absorb q') wp (wq ++ (q.news q').filterMap sentOf) (said ++ ((q.news q').filterMap sentOf).map fun f => (none, f)) := by
  have hlive := F.queued _ _ _ _ _ (List.mem_of_getElem? ht)
  cases h with
  | refused msg hu h1 h2 h3 =>
    have h2 : q'.tasks = q.peer.tasks.eraseIdx i := h2
    have h3 : q'.log = q.peer.log ++ [.sent (errorFrame id msg)] := h3
    have hn : q.news q' = [.sent (errorFrame id msg)] := by simp [Node.news, h3]
    have hout : (q.news q').filterMap sentOf = [errorFrame id msg] := by rw [hn]; rfl
    have hjobs : (q.absorb q').jobs = q.jobs := by simp [Node.absorb, hn, jobOf]
    rw [hout]
    refine flow_far F (fun _ h => h) ?_ (by rw [hjobs]; exact F.jobs) ?_ (fun _ h => h) ?_ ?_
    · intro k' id' d' m' n' ht'
      have ht' : Task.request k' id' d' m' n' ∈ q'.tasks := ht'
      rw [h2] at ht'
      exact F.queued _ _ _ _ _ (List.mem_of_mem_eraseIdx ht')
    · intro s hs
      cases List.mem_singleton.mp hs
      exact hlive
    · intro f hf
      cases List.mem_singleton.mp hf
      exact .inl hlive
    · intro c _; rfl
  | run op g c ts h1 h2 h3 h4 h5 h6 =>
    have h4 : q'.tasks = q.peer.tasks.eraseIdx i ++ ts := h4
    obtain ⟨c', h6⟩ := h6
    have h6 : q'.log = q.peer.log ++ [.invoked k (g, c') id d (passed e k m)] := h6
    have hn : q.news q' = [.invoked k (g, c') id d (passed e k m)] := by simp [Node.news, h6]
    have hout : (q.news q').filterMap sentOf = [] := by rw [hn]; rfl
    have hjobs : (q.absorb q').jobs = q.jobs ++ [⟨k, g, id, d, passed e k m⟩] := by simp [Node.absorb, hn, jobOf]
    rw [hout]
    refine flow_far F (fun _ h => h) ?_ ?_ (fun s hs => absurd hs List.not_mem_nil) (fun _ h => h)
      (fun f hf => absurd hf List.not_mem_nil) (fun c _ => rfl)
    · intro k' id' d' m' n' ht'
      have ht' : Task.request k' id' d' m' n' ∈ q'.tasks := ht'
      rw [h4] at ht'
      rcases List.mem_append.mp ht' with ht' | ht'
      · exact F.queued _ _ _ _ _ (List.mem_of_mem_eraseIdx ht')
      · obtain ⟨_, _, h⟩ := h5 _ ht'; cases h
    · rw [hjobs]
      intro x hx
      rcases List.mem_append.mp hx with hx | hx
      · exact F.jobs x hx
      · cases List.mem_singleton.mp hx; exact hlive

theorem mute_out {q : Node H} {q' : WasmDispatch.Peer H} (h : Mute q.peer q') :
    (q.news q').filterMap sentOf = [] ∧ (q.absorb q').jobs = q.jobs := by
  obtain ⟨evs, hlog, hev⟩ := h.log
  have hn : q.news q' = evs := by simp [Node.news, hlog]
  constructor
  · rw [hn]
    refine List.filterMap_eq_nil_iff.mpr fun ev hm => ?_
    obtain ⟨i, n, rfl⟩ := hev ev hm; rfl
  · have : evs.filterMap jobOf = [] := List.filterMap_eq_nil_iff.mpr fun ev hm => by
      obtain ⟨i, n, rfl⟩ := hev ev hm; rfl
    simp [Node.absorb, hn, this]

theorem flow_mute {p q : Node H} {wp wq : List Frame} {said : List (Said H)} {q' : WasmDispatch.Peer H} (F : Flow p q wp wq said)
    (h : Mute q.peer q') : Flow p (q.absorb q') wp (wq ++ (q.news q').filterMap sentOf) (said ++ []) := by
  obtain ⟨h1, h2⟩ := mute_out h
  rw [h1]
  refine flow_far F (fun _ h => h) ?_ (by rw [h2]; exact F.jobs) (fun s hs => absurd hs List.not_mem_nil) (fun _ h => h)
      (fun f hf => absurd hf List.not_mem_nil) (fun c _ => rfl)
  intro k id d m n ht
  exact F.queued _ _ _ _ _ ((mute_tasks h).2 _ ht)

theorem flows_step {hs : End → Handlers H} {y y' : WasmCalls.Sys H} {said : End → List (Said H)} {a : WasmCalls.Act} (hg : Good hs y)
    (hg' : Good hs y') (hb : Bounded y) (F : Flows y said) (ha : InOrder y a) (h : y.step hs a = some y') :
    Flows y' fun t => said t ++ saysIn y y' a t := by
  have far : ∀ e, Flow (y.node (other e)) (y.node e) (y.wire (other e)) (y.wire e) (said e) := by
    intro e
    have := F (other e)
    rwa [other_other] at this
  have lfar : ∀ e, Link (other e) (hs e) (y.node (other e)) (y.node e) (y.wire (other e)) (y.wire e) := by
    intro e
    have := hg.link (other e)
    rwa [other_other] at this
  -- frames that are for calls of the sender are not for calls of the other end
  have alien : ∀ (e : End) (n : Node H) (out : List Frame), Local e n → (∀ f ∈ out, ∃ c ∈ n.calls, c.id = f.streamID) →
      ∀ c ∈ (y.node (other e)).calls, under c.id out = saidUnder c.id ([] : List (Said H)) := by
    intro e n out hln hout c hc
    refine under_none fun f hf he => ?_
    obtain ⟨d, h1, h2⟩ := hout f hf
    have hl2 := hg.loc (other e)
    exact ids_disjoint hln hl2 h1 hc (h2.trans he)
  -- the dispatcher does something that is not about calls
  have mute : ∀ (e : End) (p : WasmDispatch.Peer H) (a : WasmDispatch.Act) (new' : End → List (Said H)),
      (∀ t, new' t = if t = e then [] else []) → (∀ id, frameOf id a = none) →
      (y.node e).peer.step e (hs e) a = some (.ok p) → Mute (y.node e).peer p →
      Flows (y.put e ((y.node e).absorb p) (((y.node e).news p).filterMap sentOf) false) (fun t => said t ++ new' t) := by
    intro e p a new' hn hfo hs1 hm
    refine flows_put e _ _ false [] new' hn ?_ (flow_mute (far e) hm)
    rw [(mute_out hm).1]
    exact flow_near (F e) (hg.loc e) rfl rfl hs1 (fun v hv => absurd hv List.not_mem_nil) (fun _ h => h) (fun c _ => by rw [hfo]; rfl)
  have nil' : ∀ (e t : End), ([] : List (Said H)) = if t = e then [] else [] := by intro e t; split <;> rfl
  cases a with
  | call e k d m ctx =>
    simp only [WasmCalls.Sys.step, Option.map_eq_some_iff] at h
    obtain ⟨⟨n, out⟩, h1, rfl⟩ := h
    have hln := hg'.loc e
    rw [put_node] at hln
    have hl := hg.loc e
    unfold Node.call at h1
    split at h1
    · cases h1
    · rename_i ctr id b hnx
      cases h1
      have hout : ∀ f ∈ (if k = .fnf then [Frame.request (requestFrame k id d m)] else []), k = .fnf ∧ f = .request (requestFrame k id d m) := by
        intro f hf
        split at hf
        · rename_i hk; exact ⟨hk, List.mem_singleton.mp hf⟩
        · exact absurd hf List.not_mem_nil
      have hlast : ((y.node e).calls ++ [⟨k, id, d, m, ctx⟩])[(y.node e).calls.length]? = some ⟨k, id, d, m, ctx⟩ := by simp
      have hid := (requestFrame_asks' ⟨k, id, d, m, ctx⟩).id
      refine flows_put e _ _ false [] _ (nil' e) ?_ ?_
      · refine flow_calm (F e) rfl rfl ?_ ?_ ?_
        · intro j c hc
          show ((y.node e).calls ++ _)[j]? = some c
          rw [List.getElem?_append_left (List.getElem?_eq_some_iff.mp hc).1]; exact hc
        · intro j c o hc ho
          rcases Iota.Props.Peers.getElem?_snoc hc with ⟨_, hc⟩ | ⟨rfl, rfl⟩
          · exact hc
          · exact absurd (hl.objs _ _ ho).1 (Nat.lt_irrefl _)
        · intro v hv
          obtain ⟨hk, hv⟩ := hout _ hv
          cases hv
          rw [hid]
          exact ⟨_, _, hlast, rfl, .inl hk⟩
      · refine flow_far (far e) (fun _ h => h) (far e).queued (far e).jobs (fun s hs => absurd hs List.not_mem_nil)
          (fun c hc => List.mem_append_left _ hc) ?_ (alien e _ _ hln ?_)
        · intro f hf
          obtain ⟨hk, rfl⟩ := hout f hf
          exact .inr ⟨_, List.mem_of_getElem? hlast, hid.symm⟩
        · intro f hf
          obtain ⟨hk, rfl⟩ := hout f hf
          exact ⟨_, List.mem_of_getElem? hlast, hid.symm⟩
  | subscribe e j =>
    simp only [WasmCalls.Sys.step, Option.map_eq_some_iff] at h
    obtain ⟨⟨n, out⟩, h1, rfl⟩ := h
    have hln := hg'.loc e
    rw [put_node] at hln
    refine flows_put e n out false [] _ (nil' e) (flow_subscribe (F e) (hg.loc e) (hg.loc _) (hg.link e) (hb e) h1) ?_
    obtain ⟨c, o, hc, _, rfl, _, hk⟩ := subscribe_shape h1
    have hout : ∀ f ∈ out, ∃ c ∈ (y.node e).calls, c.id = f.streamID := by
      intro f hf
      rcases hk with ⟨_, _, rfl⟩ | ⟨_, rfl⟩
      · cases List.mem_singleton.mp hf
        exact ⟨c, List.mem_of_getElem? hc, (requestFrame_asks' c).id.symm⟩
      · exact absurd hf List.not_mem_nil
    exact flow_far (far e) (fun _ h => h) (far e).queued (far e).jobs (fun s hs => absurd hs List.not_mem_nil) (fun _ h => h)
      (fun f hf => .inr (hout f hf)) (alien e _ _ hln hout)
  | start e j n =>
    simp only [WasmCalls.Sys.step, Option.bind_eq_some_iff] at h
    obtain ⟨c, h1, h2⟩ := h
    split at h2
    · cases h2
      have hid := (requestFrame_asks c n (decide (c.kind = .rs))).id
      refine flows_put e _ _ false [] _ (nil' e) ?_ ?_
      · refine flow_calm (F e) rfl rfl (fun _ _ h => h) (fun _ _ _ h _ => h) ?_
        intro v hv
        cases List.mem_singleton.mp hv
        exact ⟨j, c, h1, hid.symm, .inr ha⟩
      · have hout : ∀ f ∈ [Frame.request { requestFrame c.kind c.id c.data c.metadata with initialN := n, complete := c.kind = .rs }],
            ∃ c ∈ (y.node e).calls, c.id = f.streamID := by
          intro f hf
          cases List.mem_singleton.mp hf
          exact ⟨c, List.mem_of_getElem? h1, hid.symm⟩
        exact flow_far (far e) (fun _ h => h) (far e).queued (far e).jobs (fun s hs => absurd hs List.not_mem_nil) (fun _ h => h)
          (fun f hf => .inr (hout f hf)) (alien e _ _ (hg.loc e) hout)
    · cases h2
  | own e j f =>
    simp only [WasmCalls.Sys.step, Option.bind_eq_some_iff] at h
    obtain ⟨c, h1, h2⟩ := h
    split at h2
    · rename_i hk
      cases h2
      refine flows_put e _ _ false [] _ (nil' e) ?_ ?_
      · refine flow_calm (F e) rfl rfl (fun _ _ h => h) (fun _ _ _ h _ => h) ?_
        intro v hv
        cases List.mem_singleton.mp hv
        cases hk.2.2
      · have hout : ∀ g ∈ [f], ∃ c ∈ (y.node e).calls, c.id = g.streamID := by
          intro g hf
          cases List.mem_singleton.mp hf
          exact ⟨c, List.mem_of_getElem? h1, hk.2.1.symm⟩
        exact flow_far (far e) (fun _ h => h) (far e).queued (far e).jobs (fun s hs => absurd hs List.not_mem_nil) (fun _ h => h)
          (fun f hf => .inr (hout f hf)) (alien e _ _ (hg.loc e) hout)
    · cases h2
  | recv e data =>
    simp only [WasmCalls.Sys.step, Option.bind_eq_some_iff] at h
    obtain ⟨f, h1, h2⟩ := h
    split at h2
    · rename_i hd
      unfold WasmCalls.Sys.does at h2
      split at h2
      · rename_i p hp
        cases h2
        obtain ⟨ws, hws⟩ : ∃ ws, y.wire (other e) = f :: ws := by
          cases hw : y.wire (other e) with
          | nil => rw [hw] at h1; cases h1
          | cons g ws => rw [hw] at h1; cases h1; exact ⟨ws, rfl⟩
        have htail : ∀ c ∈ (y.node e).calls, under c.id (y.wire (other e)) =
            (frameOf c.id (.recv data)).toList ++ under c.id (y.wire (other e)).tail := by
          intro c _
          rw [hws, under_cons]
          simp only [frameOf, hd, List.tail_cons]
          split <;> rfl
        have near : ∀ out, out = [] → Flow ((y.node e).absorb p) (y.node (other e)) (y.wire e ++ out) (y.wire (other e)).tail (said (other e)) := by
          rintro out rfl
          exact flow_near (F e) (hg.loc e) rfl rfl hp (fun v hv => absurd hv List.not_mem_nil) (fun _ h => List.mem_of_mem_tail h) htail
        cases hf : isRequest f with
        | true =>
          cases f with
          | request v =>
            have hl := (far e).asked v (List.mem_of_mem_head? h1)
            obtain ⟨c, hc, hak⟩ := (lfar e).asks v (List.mem_of_mem_head? h1)
            have hpe := recv_request hd hak hp
            have hn : (y.node e).news p = [] := by rw [hpe]; exact news_after _ _ rfl _
            have hout : ((y.node e).news p).filterMap sentOf = [] := by rw [hn]; rfl
            have hjobs : ((y.node e).absorb p).jobs = (y.node e).jobs := by simp [Node.absorb, hn]
            refine flows_put e _ _ true [] _ (nil' e) (near _ hout) ?_
            rw [hout, if_pos rfl]
            refine flow_far (far e) (fun _ h => List.mem_of_mem_tail h) ?_ (by rw [hjobs]; exact (far e).jobs)
              (fun s hs => absurd hs List.not_mem_nil) (fun _ h => h) (fun f hf => absurd hf List.not_mem_nil) (fun c _ => rfl)
            intro k' id' d' m' n' ht'
            have ht' : Task.request k' id' d' m' n' ∈ p.tasks := ht'
            rw [hpe] at ht'
            rcases List.mem_append.mp ht' with ht' | ht'
            · exact (far e).queued _ _ _ _ _ ht'
            · cases List.mem_singleton.mp ht'; exact hl
          | _ => cases hf
        | false =>
          have hcase := recv_other hd hf hp
          have hout := (link_frame_far (lfar e) h1 hf hcase).2
          have hnr : ∀ v, f ≠ .request v := by rintro v rfl; cases hf
          have hsame : ((y.node e).absorb p).jobs = (y.node e).jobs ∧
              ∀ k id d m n, Task.request k id d m n ∈ p.tasks → Task.request k id d m n ∈ (y.node e).peer.tasks := by
            rcases hcase with ⟨_, rfl⟩ | ⟨i, o, _, hdisp, rfl⟩
            · exact ⟨by simp [Node.absorb, Node.news], fun _ _ _ _ _ h => h⟩
            · obtain ⟨_, _, h3, h4⟩ := dispatch_shape hnr hdisp
              have hn : (y.node e).news ((y.node e).peer.after o) = o.evs := news_after _ _ rfl _
              refine ⟨?_, ?_⟩
              · have : o.evs.filterMap jobOf = [] := List.filterMap_eq_nil_iff.mpr fun ev hev => by
                  rcases h4 ev hev with ⟨d, m, rfl⟩ | rfl | ⟨m, rfl⟩ <;> rfl
                simp [Node.absorb, hn, this]
              · intro k id d m n ht
                rcases List.mem_append.mp ht with ht | ht
                · exact ht
                · obtain ⟨_, h⟩ := h3 _ ht; cases h
          refine flows_put e _ _ true [] _ (nil' e) (near _ hout) ?_
          rw [hout, if_pos rfl]
          refine flow_far (far e) (fun _ h => List.mem_of_mem_tail h) (fun k id d m n ht => (far e).queued _ _ _ _ _ (hsame.2 _ _ _ _ _ ht))
            (by rw [hsame.1]; exact (far e).jobs)
            (fun s hs => absurd hs List.not_mem_nil) (fun _ h => h) (fun f hf => absurd hf List.not_mem_nil) (fun c _ => rfl)
      · cases h2
    · cases h2
  | task e i live =>
    simp only [WasmCalls.Sys.step, WasmCalls.Sys.does] at h
    split at h
    · rename_i p hp
      cases h
      have hnew : ∀ t, saysIn y (y.put e ((y.node e).absorb p) (((y.node e).news p).filterMap sentOf) false) (.task e i live) t =
          if t = e then (((y.node e).news p).filterMap sentOf).map fun f => (none, f) else [] := by
        intro t
        simp only [saysIn, put_node]
        rfl
      have near : ∀ out, (∀ f ∈ out, isRequest f = false) →
          Flow ((y.node e).absorb p) (y.node (other e)) (y.wire e ++ out) (y.wire (other e)) (said (other e)) := by
        intro out hout
        refine flow_near (F e) (hg.loc e) rfl rfl hp (fun v hv => ?_) (fun _ h => h) (fun c _ => rfl)
        have := hout _ hv; cases this
      rcases task_cases hp with ⟨k, id, d, m, n, ht, hr⟩ | hm
      · refine flows_put e _ _ false _ _ hnew (near _ ?_) (flow_ran (far e) ht hr)
        intro f hf
        obtain ⟨ev, h1, h2⟩ := List.mem_filterMap.mp hf
        cases hr with
        | refused msg _ _ _ h3 =>
          have h3 : p.log = (y.node e).peer.log ++ [.sent (errorFrame id msg)] := h3
          simp [Node.news, h3] at h1
          subst h1; cases h2; rfl
        | run op g c ts _ _ _ _ _ h6 =>
          obtain ⟨c', h6⟩ := h6
          have h6 : p.log = (y.node e).peer.log ++ [.invoked k (g, c') id d (passed e k m)] := h6
          simp [Node.news, h6] at h1
          subst h1; cases h2
      · refine mute e p (.task i live) _ ?_ (fun _ => rfl) hp hm
        intro t
        rw [hnew, (mute_out hm).1]; rfl
    · cases h
  | startIn e i live =>
    simp only [WasmCalls.Sys.step, WasmCalls.Sys.does] at h
    split at h
    · rename_i p hp
      cases h
      refine mute e p (.startIn i live) _ (nil' e) (fun _ => rfl) hp ?_
      cases hp
      exact ⟨⟨_, rfl⟩, .inl rfl, [], by simp, by simp⟩
    · cases h
  | openSink e i =>
    simp only [WasmCalls.Sys.step, WasmCalls.Sys.does] at h
    split at h
    · rename_i p hp
      cases h
      refine mute e p (.openSink i) _ (nil' e) (fun _ => rfl) hp ?_
      cases hp
      exact ⟨⟨_, rfl⟩, .inl rfl, [], by simp, by simp⟩
    · cases h
  | answer e i r =>
    simp only [WasmCalls.Sys.step, Option.map_eq_some_iff] at h
    obtain ⟨⟨n, out⟩, h1, rfl⟩ := h
    obtain ⟨hc, hp, ho, hctr⟩ := answer_calls h1
    unfold Node.answer at h1
    split at h1
    · cases h1
    · rename_i x hx
      split at h1
      · cases h1
        have hl := (far e).jobs x (List.mem_of_getElem? hx)
        refine flows_put e _ _ false [(some x, answerFrame x.id r)] _ ?_ ?_ ?_
        · intro t; simp only [saysIn, hx]; rfl
        · refine flow_calm (F e) rfl rfl (fun _ _ h => h) (fun _ _ _ h _ => h) ?_
          intro v hv
          have := List.mem_singleton.mp hv
          have hno := answerFrame_not x.id r
          rw [← this] at hno; cases hno
        · refine flow_far (far e) (fun _ h => h) (far e).queued (fun z hz => (far e).jobs z (List.mem_of_mem_eraseIdx hz)) ?_ (fun _ h => h) ?_
            (fun c _ => rfl)
          · intro s hs
            cases List.mem_singleton.mp hs
            show Live _ (answerFrame x.id r).streamID
            rw [answerFrame_id]; exact hl
          · intro f hf
            cases List.mem_singleton.mp hf
            rw [answerFrame_id]; exact .inl hl
      · cases h1
  | emit e i f =>
    simp only [WasmCalls.Sys.step, Option.bind_eq_some_iff] at h
    obtain ⟨x, h1, h2⟩ := h
    split at h2
    · rename_i hk
      cases h2
      have hl := (far e).jobs x (List.mem_of_getElem? h1)
      rw [← hk.2.1] at hl
      refine flows_put e _ _ false [(some x, f)] _ ?_ ?_ ?_
      · intro t; simp only [saysIn, h1]; rfl
      · refine flow_calm (F e) rfl rfl (fun _ _ h => h) (fun _ _ _ h _ => h) ?_
        intro v hv
        cases List.mem_singleton.mp hv
        cases hk.2.2
      · refine flow_far (far e) (fun _ h => h) (far e).queued (far e).jobs ?_ (fun _ h => h) ?_ (fun c _ => rfl)
        · intro s hs
          cases List.mem_singleton.mp hs
          exact hl
        · intro g hg
          cases List.mem_singleton.mp hg
          exact .inl hl
    · cases h2

theorem told_reach {hs : End → Handlers H} {y : WasmCalls.Sys H} {said : End → List (Said H)} (h : Told hs y said) : Reach hs y := by
  induction h with
  | init => exact .init
  | step a _ _ h2 ih => exact .step a ih h2

theorem flows_told {hs : End → Handlers H} {y : WasmCalls.Sys H} {said : End → List (Said H)} (h : Told hs y said) (hb : Bounded y) :
    Flows y said := by
  induction h with
  | init => exact flows_init
  | step a h1 h2 h3 ih =>
    have hb1 := bounded_before h3 hb
    have hr := told_reach h1
    exact flows_step (good_reach hr hb1) (good_reach (.step a hr h3) hb) hb1 (ih hb1) h2 h3

/-! ## Where it comes from -/

/-- What was said comes from the handler of a call of the other end. -/
theorem source {hs : End → Handlers H} {y : WasmCalls.Sys H} {said : End → List (Said H)} (h : Told hs y said) (hb : Bounded y) (e : End) :
    ∀ s ∈ said (other e), ∃ c ∈ (y.node e).calls, c.id = s.2.streamID ∧ Source (other e) (hs (other e)) c s := by
  induction h with
  | init => intro s hs'; exact absurd hs' List.not_mem_nil
  | @step y y' said a h1 h2 h3 ih =>
    have hb1 := bounded_before h3 hb
    have hg := good_reach (told_reach h1) hb1
    have hg' := good_reach (.step a (told_reach h1) h3) hb
    obtain ⟨l, hl⟩ := calls_grow h3 e
    have grow : ∀ c ∈ (y.node e).calls, c ∈ (y'.node e).calls := by
      intro c hc; rw [hl]; exact List.mem_append_left _ hc
    intro s hs'
    rcases List.mem_append.mp hs' with hs' | hs'
    · obtain ⟨c, h4, h5⟩ := ih hb1 s hs'
      exact ⟨c, grow c h4, h5⟩
    · -- said in this step, by a handler
      have byJob : ∀ (x : WasmCalls.Job H) (f : Frame), x ∈ (y.node (other e)).jobs → f.streamID = x.id →
          ∃ c ∈ (y'.node e).calls, c.id = f.streamID ∧ Source (other e) (hs (other e)) c (some x, f) := by
        intro x f hx hf
        obtain ⟨c, hc, hsv⟩ := (hg.link e).jobs x hx
        exact ⟨c, grow c hc, by rw [hf, hsv.id], .handler x f hsv⟩
      cases a with
      | emit t i f =>
        simp only [saysIn] at hs'
        split at hs'
        · rename_i ht
          subst ht
          simp only [WasmCalls.Sys.step, Option.bind_eq_some_iff] at h3
          obtain ⟨x, h4, h5⟩ := h3
          split at h5
          · rename_i hk
            rw [h4] at hs'
            cases List.mem_singleton.mp hs'
            exact byJob x f (List.mem_of_getElem? h4) hk.2.1
          · cases h5
        · exact absurd hs' List.not_mem_nil
      | answer t i r =>
        simp only [saysIn] at hs'
        split at hs'
        · rename_i ht
          subst ht
          cases hx : (y.node (other e)).jobs[i]? with
          | none => rw [hx] at hs'; exact absurd hs' List.not_mem_nil
          | some x =>
            rw [hx] at hs'
            cases List.mem_singleton.mp hs'
            exact byJob x _ (List.mem_of_getElem? hx) (answerFrame_id _ _)
        · exact absurd hs' List.not_mem_nil
      | task t i live =>
        simp only [saysIn] at hs'
        split at hs'
        · rename_i ht
          subst ht
          simp only [WasmCalls.Sys.step, WasmCalls.Sys.does] at h3
          split at h3
          · rename_i p hp
            cases h3
            rw [put_node] at hs'
            have hs' : s ∈ (((y.node (other e)).news p).filterMap sentOf).map fun f => (none, f) := hs'
            obtain ⟨f, hf, rfl⟩ := List.mem_map.mp hs'
            rcases task_cases hp with ⟨k, id, d, m, n, ht, hr⟩ | hm
            · obtain ⟨c, hc, rfl, rfl, rfl, rfl⟩ := (hg.link e).tasks _ _ _ _ _ (List.mem_of_getElem? ht)
              obtain ⟨ev, h5, h6⟩ := List.mem_filterMap.mp hf
              cases hr with
              | refused msg hu _ _ h7 hmsg =>
                have h7 : p.log = (y.node (other e)).peer.log ++ [.sent (errorFrame c.id msg)] := h7
                simp [Node.news, h7] at h5
                subst h5; cases h6
                exact ⟨c, grow c hc, rfl, .refused msg hu hmsg⟩
              | run op g c2 ts _ _ _ _ _ h7 =>
                obtain ⟨c', h7⟩ := h7
                have h7 : p.log = (y.node (other e)).peer.log ++ [.invoked c.kind (g, c') c.id c.data (passed (other e) c.kind c.metadata)] := h7
                simp [Node.news, h7] at h5
                subst h5; cases h6
            · rw [(mute_out hm).1] at hf; exact absurd hf List.not_mem_nil
          · cases h3
        · exact absurd hs' List.not_mem_nil
      | _ => exact absurd hs' List.not_mem_nil

/-! ## C157 -/

/-- **C157** What the subscriber of a call is told, together with what is still on its way, is exactly what was sent for the call,
in order; and it was sent by the handler the call names, for the data and metadata of this call, or the call was refused because
there is none. -/
theorem stream_arrives {hs : End → Handlers H} {y : WasmCalls.Sys H} {said : End → List (Said H)} (h : Told hs y said)
    (hb : Bounded y) (e : End) (j : Nat) (c : WasmCalls.Call) (o : Nat) (hc : (y.node e).calls[j]? = some c)
    (ho : (y.node e).obj j = some o) (tidy : Tidy (saidUnder c.id (said (other e)))) :
    signals o (y.node e).peer.log ++ (under c.id (y.wire (other e))).flatMap meaning =
      (saidUnder c.id (said (other e))).flatMap meaning ∧
    ∀ s ∈ said (other e), s.2.streamID = c.id → Source (other e) (hs (other e)) c s := by
  constructor
  · obtain ⟨took, h1, h2, _⟩ := (flows_told h hb e).heard j c o hc ho tidy
    rw [signals_told, h2, h1, List.flatMap_append]
  · intro s hs' hid
    obtain ⟨d, h1, h2, h3⟩ := source h hb e s hs'
    cases call_unique ((good_reach (told_reach h) hb).loc e) (hb e) hc h1 (h2.trans hid)
    exact h3

theorem frameFor_meaning (id : UInt32) (s : Sig) : meaning (frameFor id s) = Spec.WasmStreams.seen s := by
  cases s <;> simp [frameFor, meaning, Spec.WasmStreams.seen]

theorem frames_meaning (id : UInt32) (l : List Sig) : (l.map (frameFor id)).flatMap meaning = l.flatMap Spec.WasmStreams.seen := by
  induction l with
  | nil => rfl
  | cons s l ih => simp only [List.map_cons, List.flatMap_cons, frameFor_meaning, ih]

theorem proper_tidy {id : UInt32} {sigs : List Sig} (h : Proper sigs) : Tidy (sigs.map (frameFor id)) := by
  intro pre f post he hf g hg
  obtain ⟨a, b, h1, h2, h3⟩ := List.map_eq_append_iff.mp he
  obtain ⟨s, b', rfl, h4, h5⟩ := List.map_eq_cons_iff.mp h3
  have := h a s b' h1 (by rintro d m rfl; rw [← h4] at hf; cases hf)
  subst this
  cases h5
  exact absurd hg List.not_mem_nil

/-- **C157** (part) If the handler of a stream sends the signals `sigs`, then its subscriber is told a first part of them, in order, and
all of them once nothing is on its way. -/
theorem subscriber_sees {hs : End → Handlers H} {y : WasmCalls.Sys H} {said : End → List (Said H)} (h : Told hs y said)
    (hb : Bounded y) (e : End) (j : Nat) (c : WasmCalls.Call) (o : Nat) (hc : (y.node e).calls[j]? = some c)
    (ho : (y.node e).obj j = some o) (sigs : List Sig) (proper : Proper sigs)
    (hsent : saidUnder c.id (said (other e)) = sigs.map (frameFor c.id)) :
    ∃ n, signals o (y.node e).peer.log = (sigs.take n).flatMap Spec.WasmStreams.seen ∧
      ((∀ f ∈ y.wire (other e), f.streamID ≠ c.id) → sigs.length ≤ n) := by
  obtain ⟨took, h1, h2, _⟩ := (flows_told h hb e).heard j c o hc ho (by rw [hsent]; exact proper_tidy proper)
  rw [hsent] at h1
  obtain ⟨a, b, h3, h4, h5⟩ := List.map_eq_append_iff.mp h1
  refine ⟨a.length, ?_, ?_⟩
  · rw [signals_told, h2, ← h4, h3]
    simp only [List.take_left', List.take_append_of_le_length (Nat.le_refl _), List.take_length]
    exact frames_meaning _ _
  · intro hw
    rw [under_none hw] at h5
    rw [h3, List.map_eq_nil_iff.mp h5]; simp

/-! ### A case -/

/-- A run given by its steps. -/
def runTold (hs : End → Handlers H) : WasmCalls.Sys H → (End → List (Said H)) → List WasmCalls.Act →
    Option (WasmCalls.Sys H × (End → List (Said H)))
  | y, said, [] => some (y, said)
  | y, said, a :: as =>
    match a with
    | .start e j _ => if ((y.node e).obj j).isSome = true then
        (y.step hs a).bind fun y' => runTold hs y' (fun t => said t ++ saysIn y y' a t) as else none
    | _ => (y.step hs a).bind fun y' => runTold hs y' (fun t => said t ++ saysIn y y' a t) as

theorem runTold_told {hs : End → Handlers H} {y y' : WasmCalls.Sys H} {said said' : End → List (Said H)} {as : List WasmCalls.Act}
    (ht : Told hs y said) (h : runTold hs y said as = some (y', said')) : Told hs y' said' := by
  induction as generalizing y said with
  | nil => cases h; exact ht
  | cons a as ih =>
    have go : InOrder y a → ((y.step hs a).bind fun y' => runTold hs y' (fun t => said t ++ saysIn y y' a t) as) = some (y', said') →
        Told hs y' said' := by
      intro ha h
      obtain ⟨y1, h1, h2⟩ := Option.bind_eq_some_iff.mp h
      exact ih (.step a ht ha h1) h2
    unfold runTold at h
    split at h
    · split at h
      · rename_i hs'; exact go hs' h
      · cases h
    · rename_i hn
      refine go ?_ h
      cases a <;> first | trivial | exact absurd rfl (hn _ _ _)

/-- A host asks its guest for two streams at once; one yields two elements, the other fails after one. The last frame is on its way. -/
def twoStreams : List WasmCalls.Act :=
  [.call .host .rs [5] (opMd 1) .background, .call .host .rs [6] (opMd 1) .background, .subscribe .host 1, .subscribe .host 0,
   .start .host 1 2, .start .host 0 7,
   .recv .guest ([0, 0, 0, 4, 25, 0, 0, 0, 0, 2, 0, 0, 8] ++ opMd 1 ++ [6]), .task .guest 0 true, .task .guest 0 true,
   .emit .guest 0 (frameFor 4 (.next [1] [])),
   .recv .guest ([0, 0, 0, 2, 25, 0, 0, 0, 0, 7, 0, 0, 8] ++ opMd 1 ++ [5]), .task .guest 0 true, .task .guest 0 true,
   .emit .guest 1 (frameFor 2 (.next [2] [])), .emit .guest 0 (frameFor 4 (.error [9])), .emit .guest 1 (frameFor 2 (.next [3] [])),
   .emit .guest 1 (frameFor 2 .complete),
   .recv .host [0, 0, 0, 4, 40, 32, 1], .recv .host [0, 0, 0, 2, 40, 32, 2], .recv .host [0, 0, 0, 4, 44, 0, 0, 0, 0, 0, 9],
   .recv .host [0, 0, 0, 2, 40, 32, 3]]

/-- Its state. -/
def twoEnd : Option (WasmCalls.Sys Nat × (End → List (Said Nat))) :=
  runTold (fun _ => hs2) WasmCalls.Sys.init (fun _ => []) twoStreams

/-- The subscriber of the second call has been told an element, an error and the end; that of the first call two elements, and the
end is on its way. -/
example : ∃ y said, Told (fun _ => hs2) y said ∧ Bounded y ∧ (y.node .host).obj 0 = some 1 ∧ (y.node .host).obj 1 = some 0 ∧
    ((y.node .host).calls.map (·.id) = [2, 4]) ∧
    saidUnder 2 (said .guest) = [.next [2] [], .next [3] [], .complete].map (frameFor 2) ∧
    saidUnder 4 (said .guest) = [.next [1] [], .error [9]].map (frameFor 4) ∧
    signals 1 (y.node .host).peer.log = [.next [2] [], .next [3] []] ∧
    signals 0 (y.node .host).peer.log = [.next [1] [], .error [9], .complete] ∧
    y.wire .guest = [frameFor 2 .complete] := by
  have hs' : twoEnd.isSome = true := by decide +kernel
  obtain ⟨⟨y, said⟩, he⟩ := Option.isSome_iff_exists.mp hs'
  have hr := runTold_told .init (show runTold (fun _ => hs2) WasmCalls.Sys.init (fun _ => []) twoStreams = some (y, said) from he)
  have get : ∀ {α : Type} (g : WasmCalls.Sys Nat × (End → List (Said Nat)) → α) (v : α), twoEnd.map g = some v → g (y, said) = v := by
    intro α g v hv
    rw [he] at hv
    exact Option.some.inj hv
  refine ⟨y, said, hr, ?_, get (fun p => (p.1.node .host).obj 0) _ (by decide +kernel),
    get (fun p => (p.1.node .host).obj 1) _ (by decide +kernel),
    get (fun p => (p.1.node .host).calls.map (·.id)) _ (by decide +kernel), get (fun p => saidUnder 2 (p.2 .guest)) _ (by decide +kernel),
    get (fun p => saidUnder 4 (p.2 .guest)) _ (by decide +kernel),
    get (fun p => signals 1 (p.1.node .host).peer.log) _ (by decide +kernel),
    get (fun p => signals 0 (p.1.node .host).peer.log) _ (by decide +kernel), get (fun p => p.1.wire .guest) _ (by decide +kernel)⟩
  intro e
  cases e
  · have := get (fun p => (p.1.node .host).calls.length) 2 (by decide +kernel)
    dsimp only at this; omega
  · have := get (fun p => (p.1.node .guest).calls.length) 0 (by decide +kernel)
    dsimp only at this; omega

/-- A host calls a channel of its guest, whose handler sends an element, cancels its input, and sends another element. -/
def cancelsInput : List WasmCalls.Act :=
  [.call .host .rc [5] (opMd 1) .background, .subscribe .host 0, .start .host 0 7,
   .recv .guest ([0, 0, 0, 2, 29, 0, 0, 0, 0, 7, 0, 0, 8] ++ opMd 1 ++ [5]), .task .guest 0 true, .task .guest 0 true,
   .emit .guest 0 (frameFor 2 (.next [1] [])), .emit .guest 0 (.cancel ⟨2⟩), .emit .guest 0 (frameFor 2 (.next [2] [])),
   .recv .host [0, 0, 0, 2, 40, 32, 1], .recv .host [0, 0, 0, 2, 36, 0], .recv .host [0, 0, 0, 2, 40, 32, 2]]

/-- The condition on what handlers send is needed for channels: CANCEL is what a handler sends to cancel its *input*
(`/repo/go/transport/wasmrs/guest/guest.go:427-431`), and the caller takes it for the end of the *results*. -/
theorem cancelled_input_refuted : ∃ (y : WasmCalls.Sys Nat) (said : End → List (Said Nat)), Told (fun _ => hs2) y said ∧ Bounded y ∧
    (y.node .host).obj 0 = some 0 ∧
    saidUnder 2 (said .guest) = [frameFor 2 (.next [1] []), .cancel ⟨2⟩, frameFor 2 (.next [2] [])] ∧
    signals 0 (y.node .host).peer.log = [.next [1] [], .complete, .next [2] []] := by
  have hs' : (runTold (fun _ => hs2) (WasmCalls.Sys.init : WasmCalls.Sys Nat) (fun _ => []) cancelsInput).isSome = true := by decide +kernel
  obtain ⟨⟨y, said⟩, he⟩ := Option.isSome_iff_exists.mp hs'
  have get : ∀ {α : Type} (g : WasmCalls.Sys Nat × (End → List (Said Nat)) → α) (v : α),
      (runTold (fun _ => hs2) (WasmCalls.Sys.init : WasmCalls.Sys Nat) (fun _ => []) cancelsInput).map g = some v → g (y, said) = v := by
    intro α g v hv
    rw [he] at hv
    exact Option.some.inj hv
  refine ⟨y, said, runTold_told .init he, ?_, get (fun p => (p.1.node .host).obj 0) _ (by decide +kernel),
    get (fun p => saidUnder 2 (p.2 .guest)) _ (by decide +kernel),
    get (fun p => signals 0 (p.1.node .host).peer.log) _ (by decide +kernel)⟩
  intro e
  cases e
  · have := get (fun p => (p.1.node .host).calls.length) 1 (by decide +kernel)
    dsimp only at this; omega
  · have := get (fun p => (p.1.node .guest).calls.length) 0 (by decide +kernel)
    dsimp only at this; omega

end Iota.Props.WasmStreams
