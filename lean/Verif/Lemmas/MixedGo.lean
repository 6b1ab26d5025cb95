import Verif.Spec.Mixed
import Verif.Props.WasmCalls

/-! # A Go end that makes and serves only single requests, whoever the other end is -/

namespace Iota.Lemmas.MixedGo
open Iota.Go Iota.Frames Iota.Registry Iota.WasmDispatch Iota.WasmCalls Iota.Spec.Handler Iota.Spec.WasmDispatch
open Iota.Mixed (goDoes goStep)
open Iota.Handler hiding Act
open Iota.Peers (Result requestFrame answerFrame isRequest)
open Iota.Spec.WasmCalls (shown results resultOf signal handlers refusals isRefusal)
open Iota.Spec.RustSocket (isResult)
open Iota.Spec.Polite (requests answers queued isTask)
open Iota.Lemmas.WasmDispatch Iota.Props.Handler Iota.Props.WasmDispatch
open Iota.Props.WasmCalls Iota.Props.WasmCaller
open Iota.Props.Caller (get_register_none get_register_some entries_objs)
open Iota.Props.Polite (requests_append answers_append queued_append queued_erase)
open Iota.Props.Peers (getElem?_snoc)

variable {H : Type}

/-- The result in a frame. -/
def resOf : Frame → Option Result
  | .payload v => if v.next then some (.value v.data v.metadata) else none
  | .error v => some (.failure v.data)
  | _ => none

/-- The work asked for by a request. -/
structure ServesReq (e : End) (hs : Handlers H) (v : RequestPayload) (x : WasmCalls.Job H) : Prop where
  kind : kindOf v.frameType = some x.kind
  id : x.id = v.streamID
  data : x.data = v.data
  metadata : x.metadata = shown e x.kind v.metadata
  handler : ∃ op : UInt32, opIndex v.metadata = some op.toNat ∧ hs x.kind op = some x.handler

/-- There is no handler for a request. -/
def UnknownReq (hs : Handlers H) (v : RequestPayload) : Prop :=
  ∀ k, kindOf v.frameType = some k → ∀ op : UInt32, opIndex v.metadata = some op.toNat → hs k op = none

/-- How many results handlers gave for an id. -/
def given (id : UInt32) (made : List (WasmCalls.Job H × Result)) : Nat := made.countP fun y => y.1.id == id

/-- A request that may arrive. -/
def Welcome (e : End) (v : RequestPayload) : Prop :=
  v.follows = false ∧ (kindOf v.frameType = some .rr ∨ (kindOf v.frameType = some .fnf ∧ e = .host))

/-- The calls of the end. -/
structure Calls (e : End) (n : Node H) (sent : List Frame) : Prop where
  loc : Local e n
  asks : ∀ v, Frame.request v ∈ sent → ∃ c ∈ n.calls, Asks c v
  count : ∀ (j : Nat) (c : WasmCalls.Call), n.calls[j]? = some c →
    requests c.id sent = if c.kind = .fnf ∨ (n.obj j).isSome = true then 1 else 0
  entries : Entries (fun id i => ∃ (j : Nat) (c : WasmCalls.Call), n.calls[j]? = some c ∧ n.obj j = some i ∧ c.id = id ∧ c.kind = .rr) n.peer.st

/-- What the end does for requests. -/
structure Work (e : End) (hs : Handlers H) (n : Node H) (sent got : List Frame) : Prop where
  welcome : ∀ v, Frame.request v ∈ got → Welcome e v
  tasks : ∀ t ∈ n.peer.tasks, ∃ k v x, t = .request k v.streamID v.data v.metadata x ∧ Frame.request v ∈ got ∧ kindOf v.frameType = some k
  jobs : ∀ x ∈ n.jobs, ∃ v, Frame.request v ∈ got ∧ ServesReq e hs v x
  made : ∀ y ∈ n.made, y.1.kind = .rr ∧ ∃ v, Frame.request v ∈ got ∧ ServesReq e hs v y.1
  shape : ∀ f ∈ sent, isRequest f = false → (∃ y ∈ n.made, f = answerFrame y.1.id y.2) ∨
    ∃ v msg, Frame.request v ∈ got ∧ f = errorFrame v.streamID msg ∧ UnknownReq hs v ∧ msg = Iota.Spec.WasmCalls.refusal v.metadata
  flow : ∀ id, requests id got = queued id n.peer.tasks + handlers id n.jobs + given id n.made + refusals id n.peer.log
  back : ∀ id, answers id sent = given id n.made + refusals id n.peer.log

/-- What the callers were told. -/
def Told (n : Node H) (got : List Frame) : Prop :=
  ∀ (j : Nat) (c : WasmCalls.Call) (o : Nat), n.calls[j]? = some c → n.obj j = some o → c.kind = .rr →
    results o n.peer.log = (got.filter (isResult c.id)).filterMap resOf ∧
    (got.filter (isResult c.id) = [] → getStream n.peer.st c.id = some o)

/-! ## Calls are made -/

theorem Work.same {e : End} {hs : Handlers H} {n n' : Node H} {sent got out : List Frame} (w : Work e hs n sent got)
    (h1 : n'.peer.tasks = n.peer.tasks) (h2 : n'.jobs = n.jobs) (h3 : n'.made = n.made) (h4 : n'.peer.log = n.peer.log)
    (ho : ∀ f ∈ out, isRequest f = true) : Work e hs n' (sent ++ out) got := by
  refine ⟨w.welcome, by rw [h1]; exact w.tasks, by rw [h2]; exact w.jobs, by rw [h3]; exact w.made, ?_, ?_, ?_⟩
  · rw [h3]
    intro f hf hq
    rcases List.mem_append.mp hf with hf | hf
    · exact w.shape f hf hq
    · rw [ho f hf] at hq; cases hq
  · rw [h1, h2, h3, h4]; exact w.flow
  · intro id
    have : answers id out = 0 := List.countP_eq_zero.mpr fun f hf => by simp [ho f hf]
    rw [h3, h4, answers_append, this]; exact w.back id

theorem Work.call {e : End} {hs : Handlers H} {n n' : Node H} {k : Kind} {d m : Bytes} {ctx : Ctx} {sent got out : List Frame}
    (w : Work e hs n sent got) (h : n.call e k d m ctx = some (n', out)) : Work e hs n' (sent ++ out) got := by
  unfold Node.call at h
  split at h
  · cases h
  · cases h
    refine w.same rfl rfl rfl rfl fun f hf => ?_
    split at hf
    · cases List.mem_singleton.mp hf; rfl
    · exact absurd hf List.not_mem_nil

theorem requests_one {c : WasmCalls.Call} {v : RequestPayload} (ha : Asks c v) (id : UInt32) :
    requests id [Frame.request v] = if c.id = id then 1 else 0 := by
  by_cases h : c.id = id <;> simp [requests, isRequest, Frame.streamID, ha.id, h]

/-- An id drawn later is new. -/
theorem Calls.fresh {e : End} {n n' : Node H} {sent : List Frame} (h : Calls e n sent) (hl' : Local e n') (hb : n'.calls.length ≤ 2 ^ 30)
    {c : WasmCalls.Call} (hc : n'.calls = n.calls ++ [c]) : (∀ d ∈ n.calls, d.id ≠ c.id) ∧ requests c.id sent = 0 := by
  have hfresh : ∀ d ∈ n.calls, d.id ≠ c.id := by
    intro d hd he
    obtain ⟨j, hj⟩ := List.mem_iff_getElem?.mp hd
    obtain ⟨hlt, _⟩ := List.getElem?_eq_some_iff.mp hj
    have h1 : n'.calls[j]? = some d := by rw [hc, List.getElem?_append_left hlt]; exact hj
    have h2 : n'.calls[n.calls.length]? = some c := by rw [hc]; simp
    have := index_unique hl' hb h1 h2 he
    omega
  refine ⟨hfresh, List.countP_eq_zero.mpr fun f hm => ?_⟩
  simp only [Bool.and_eq_true, beq_iff_eq, not_and]
  intro hq he
  cases f with
  | request v =>
    obtain ⟨d, h1, h2⟩ := h.asks v hm
    exact hfresh d h1 (h2.id.symm.trans he)
  | _ => cases hq

theorem call_shape {e : End} {n n' : Node H} {k : Kind} {d m : Bytes} {ctx : Ctx} {out : List Frame} (h : n.call e k d m ctx = some (n', out)) :
    ∃ c : WasmCalls.Call, c.kind = k ∧ n'.calls = n.calls ++ [c] ∧ n'.obj = n.obj ∧ n'.peer = n.peer ∧
      out = if k = .fnf then [.request (requestFrame c.kind c.id c.data c.metadata)] else [] := by
  unfold Node.call at h
  split at h
  · cases h
  · rename_i ctr id b hn
    cases h
    exact ⟨⟨k, id, d, m, ctx⟩, rfl, rfl, rfl, rfl, rfl⟩

theorem Calls.call {e : End} {n n' : Node H} {k : Kind} {d m : Bytes} {ctx : Ctx} {sent out : List Frame} (h : Calls e n sent)
    (hb : n'.calls.length ≤ 2 ^ 30) (hn : n.call e k d m ctx = some (n', out)) : Calls e n' (sent ++ out) := by
  have hl' := local_call h.loc hb hn
  obtain ⟨c, hk, hcalls, hobj, hpeer, rfl⟩ := call_shape hn
  obtain ⟨hfresh, hz⟩ := h.fresh hl' hb hcalls
  have hnone : n.obj n.calls.length = none := by
    cases ho : n.obj n.calls.length with
    | none => rfl
    | some o => exact absurd (h.loc.objs _ _ ho).1 (Nat.lt_irrefl _)
  refine ⟨hl', ?_, ?_, ?_⟩
  · intro v hv
    rw [hcalls]
    rcases List.mem_append.mp hv with hv | hv
    · obtain ⟨d, h1, h2⟩ := h.asks v hv
      exact ⟨d, List.mem_append_left _ h1, h2⟩
    · refine ⟨c, by simp, ?_⟩
      split at hv
      · cases List.mem_singleton.mp hv; exact requestFrame_asks' c
      · exact absurd hv List.not_mem_nil
  · intro j d hd
    rw [hcalls] at hd
    rw [hobj, requests_append]
    rcases getElem?_snoc hd with ⟨_, hd⟩ | ⟨rfl, rfl⟩
    · rw [h.count j d hd]
      have hne := hfresh d (List.mem_of_getElem? hd)
      have : requests d.id (if k = .fnf then [Frame.request (requestFrame c.kind c.id c.data c.metadata)] else []) = 0 := by
        split
        · rw [requests_one (requestFrame_asks' c), if_neg (Ne.symm hne)]
        · rfl
      omega
    · rw [hz, hnone, ← hk]
      have h1 := requests_one (requestFrame_asks' d) d.id
      rw [if_pos rfl] at h1
      by_cases hf : d.kind = .fnf
      · rw [if_pos hf, if_pos (.inl hf), h1]
      · simp [hf, requests]
  · rw [hpeer]
    refine h.entries.mono ?_
    rintro id i ⟨j, d, h1, h2, h3⟩
    refine ⟨j, d, ?_, by rw [hobj]; exact h2, h3⟩
    rw [hcalls, List.getElem?_append_left (List.getElem?_eq_some_iff.mp h1).1]; exact h1

theorem Told.call {e : End} {n n' : Node H} {k : Kind} {d m : Bytes} {ctx : Ctx} {got out : List Frame} (h : Told n got) (hl : Local e n)
    (hn : n.call e k d m ctx = some (n', out)) : Told n' got := by
  obtain ⟨c, hk, hcalls, hobj, hpeer, rfl⟩ := call_shape hn
  intro j d o hd ho hr
  rw [hcalls] at hd
  rw [hobj] at ho
  rw [hpeer]
  rcases getElem?_snoc hd with ⟨_, hd⟩ | ⟨rfl, rfl⟩
  · exact h j d o hd ho hr
  · exact absurd (hl.objs _ _ ho).1 (Nat.lt_irrefl _)

/-! ## Results are subscribed to -/

theorem subscribe_rr {e : End} {hs : Handlers H} {n n' : Node H} {j : Nat} {out : List Frame} (hk : ∀ c ∈ n.calls, c.kind = .rr ∨ c.kind = .fnf)
    (h : n.subscribe e hs j = some (n', out)) : ∃ c, n.calls[j]? = some c ∧ c.kind = .rr ∧ n.obj j = none ∧
      n' = { n with peer := n.peer.register .mono c.ctx c.id, obj := fun i => if i = j then some n.peer.st.objs.length else n.obj i } ∧
      out = [.request (requestFrame c.kind c.id c.data c.metadata)] := by
  unfold Node.subscribe at h
  split at h
  · rename_i c hc ho
    rcases hk c (List.mem_of_getElem? hc) with hr | hr
    · simp only [openAct, hr, Peer.step, if_true] at h
      cases h
      exact ⟨c, hc, hr, ho, rfl, by rw [hr]⟩
    · simp only [openAct, hr] at h; cases h
  · cases h

theorem Calls.subscribe {e : End} {hs : Handlers H} {n n' : Node H} {j : Nat} {sent out : List Frame} (h : Calls e n sent)
    (hk : ∀ c ∈ n.calls, c.kind = .rr ∨ c.kind = .fnf) (hb : n.calls.length ≤ 2 ^ 30) (hn : n.subscribe e hs j = some (n', out)) :
    Calls e n' (sent ++ out) := by
  have hl' := local_subscribe h.loc hn
  obtain ⟨c, hc, hr, ho, rfl, rfl⟩ := subscribe_rr hk hn
  refine ⟨hl', ?_, ?_, ?_⟩
  · intro v hv
    rcases List.mem_append.mp hv with hv | hv
    · exact h.asks v hv
    · cases List.mem_singleton.mp hv
      exact ⟨c, List.mem_of_getElem? hc, requestFrame_asks' c⟩
  · intro i d hd
    have hd : n.calls[i]? = some d := hd
    rw [requests_append, h.count i d hd, requests_one (requestFrame_asks' c)]
    by_cases hi : i = j
    · subst hi
      cases hc.symm.trans hd
      simp [ho, hr]
    · have hne : c.id ≠ d.id := fun he => hi (index_unique h.loc hb hd hc he.symm)
      simp [hne, hi]
  · refine Entries.registered (entries_objs (h.entries.mono ?_) _) ⟨j, c, hc, by simp, rfl, hr⟩
    rintro id i ⟨j', d, h1, h2, h3⟩
    refine ⟨j', d, h1, ?_, h3⟩
    have : j' ≠ j := by rintro rfl; rw [ho] at h2; cases h2
    simp [this, h2]

theorem Told.subscribe {e : End} {hs : Handlers H} {n n' : Node H} {j : Nat} {sent got out : List Frame} (h : Told n got) (hc0 : Calls e n sent)
    (hk : ∀ c ∈ n.calls, c.kind = .rr ∨ c.kind = .fnf) (hb : n.calls.length ≤ 2 ^ 30)
    (hq : ∀ id, requests id sent = 0 → got.filter (isResult id) = []) (hn : n.subscribe e hs j = some (n', out)) : Told n' got := by
  obtain ⟨c, hc, hr, ho, rfl, rfl⟩ := subscribe_rr hk hn
  intro i d o hd hx hkd
  have hd : n.calls[i]? = some d := hd
  simp only at hx ⊢
  by_cases hi : i = j
  · subst hi
    cases hc.symm.trans hd
    simp only [if_true, Option.some.injEq] at hx
    subst hx
    have h0 : got.filter (isResult c.id) = [] := hq c.id (by rw [hc0.count i c hc, ho, hr]; simp)
    have hz : results n.peer.st.objs.length n.peer.log = [] := by
      rw [results_told, hc0.loc.untold _ (Nat.le_refl _)]; rfl
    have hnone : getStream n.peer.st c.id = none := by
      cases hg : getStream n.peer.st c.id with
      | none => rfl
      | some x =>
        obtain ⟨j', c', h1, h2, h3, _⟩ := hc0.entries.lookup hg
        cases index_unique hc0.loc hb h1 hc h3
        rw [ho] at h2; cases h2
    rw [h0]
    exact ⟨hz, fun _ => get_register_none _ hnone⟩
  · rw [if_neg hi] at hx
    obtain ⟨h1, h2⟩ := h i d o hd hx hkd
    exact ⟨h1, fun h0 => get_register_some (st := { n.peer.st with objs := n.peer.st.objs ++ [.mono] }) (h2 h0)⟩

/-! ## Handlers answer -/

theorem answer_shape {n n' : Node H} {i : Nat} {r : Result} {out : List Frame} (h : n.answer i r = some (n', out)) :
    ∃ x, n.jobs[i]? = some x ∧ x.kind = .rr ∧ n' = { n with jobs := n.jobs.eraseIdx i, made := n.made ++ [(x, r)] } ∧ out = [answerFrame x.id r] := by
  unfold Node.answer at h
  split at h
  · cases h
  · rename_i x hx
    split at h
    · rename_i hk; cases h; exact ⟨x, hx, hk, rfl, rfl⟩
    · cases h

/-- The end sends frames that are no requests. -/
theorem Calls.more {e : End} {n n' : Node H} {sent out : List Frame} (h : Calls e n sent) (hl : Local e n') (h1 : n'.calls = n.calls) (h2 : n'.obj = n.obj)
    (h3 : ∀ P : UInt32 → Nat → Prop, Entries P n.peer.st → Entries P n'.peer.st) (ho : ∀ f ∈ out, isRequest f = false) : Calls e n' (sent ++ out) := by
  refine ⟨hl, ?_, ?_, ?_⟩
  · intro v hv
    rw [h1]
    rcases List.mem_append.mp hv with hv | hv
    · exact h.asks v hv
    · have := ho _ hv; cases this
  · intro j c hc
    rw [h1] at hc
    have : requests c.id out = 0 := List.countP_eq_zero.mpr fun f hf => by simp [ho f hf]
    rw [requests_append, this, h2]; exact h.count j c hc
  · rw [h1, h2]; exact h3 _ h.entries

theorem answers_one {f : Frame} (hf : isRequest f = false) (id : UInt32) : answers id [f] = (f.streamID == id).toNat := by
  simp only [answers, List.countP_cons, List.countP_nil, hf]
  cases f.streamID == id <;> rfl

theorem Work.answer {e : End} {hs : Handlers H} {n n' : Node H} {i : Nat} {r : Result} {sent got out : List Frame}
    (w : Work e hs n sent got) (h : n.answer i r = some (n', out)) : Work e hs n' (sent ++ out) got := by
  obtain ⟨x, hx, hk, rfl, rfl⟩ := answer_shape h
  have hgiven : ∀ id, given id (n.made ++ [(x, r)]) = given id n.made + (x.id == id).toNat := by
    intro id
    rw [given, List.countP_append]
    simp only [List.countP_cons, List.countP_nil]
    cases x.id == id <;> rfl
  refine ⟨w.welcome, w.tasks, fun y hy => w.jobs y (List.mem_of_mem_eraseIdx hy), ?_, ?_, ?_, ?_⟩
  · intro y hy
    rcases List.mem_append.mp hy with hy | hy
    · exact w.made y hy
    · cases List.mem_singleton.mp hy
      exact ⟨hk, w.jobs x (List.mem_of_getElem? hx)⟩
  · intro f hf hq
    rcases List.mem_append.mp hf with hf | hf
    · rcases w.shape f hf hq with ⟨y, h1, h2⟩ | h
      · exact .inl ⟨y, List.mem_append_left _ h1, h2⟩
      · exact .inr h
    · exact .inl ⟨(x, r), by simp, List.mem_singleton.mp hf⟩
  · intro id
    have := w.flow id
    have h1 := handlers_erase (id := id) hx
    rw [hgiven]; dsimp only; omega
  · intro id
    have := w.back id
    rw [hgiven, answers_append, answers_one (answerFrame_not _ _), answerFrame_id]; dsimp only; omega

/-! ## The dispatcher goes on -/

/-- The dispatcher does nothing that is about calls. -/
theorem Work.quiet {e : End} {hs : Handlers H} {n : Node H} {p : WasmDispatch.Peer H} {sent got : List Frame} {evs : List (Ev (H × Ctx))}
    (w : Work e hs n sent got) (h1 : p.tasks = n.peer.tasks) (h2 : p.log = n.peer.log ++ evs)
    (h3 : ∀ ev ∈ evs, jobOf ev = none ∧ sentOf ev = none) (f : Option Frame) (hf : ∀ g, f = some g → isRequest g = false) :
    Work e hs (n.absorb p) (sent ++ (n.news p).filterMap sentOf) (got ++ f.toList) ∧ (n.news p).filterMap sentOf = [] := by
  have hn : n.news p = evs := by simp [Node.news, h2]
  have e1 : evs.filterMap jobOf = [] := List.filterMap_eq_nil_iff.mpr fun ev hev => (h3 ev hev).1
  have e2 : evs.filterMap sentOf = [] := List.filterMap_eq_nil_iff.mpr fun ev hev => (h3 ev hev).2
  have hjobs : (n.absorb p).jobs = n.jobs := by simp [Node.absorb, hn, e1]
  have hmem : ∀ v, Frame.request v ∈ got ++ f.toList ↔ Frame.request v ∈ got := by
    intro v
    rw [List.mem_append]
    refine ⟨fun h => h.elim id fun h => ?_, .inl⟩
    cases f with
    | none => exact absurd h List.not_mem_nil
    | some g => cases List.mem_singleton.mp h; have := hf _ rfl; cases this
  have hreq : ∀ id, requests id (got ++ f.toList) = requests id got := by
    intro id
    rw [requests_append]
    have : requests id f.toList = 0 := List.countP_eq_zero.mpr fun g hg => by
      have := hf g (by simpa using hg); simp [this]
    omega
  have hrefu : ∀ id, refusals id p.log = refusals id n.peer.log := by
    intro id
    rw [h2, refusals_append]
    have : refusals id evs = 0 := List.countP_eq_zero.mpr fun ev hev => by
      have := (h3 ev hev).2
      cases ev <;> simp_all [isRefusal, sentOf]
    omega
  refine ⟨?_, by rw [hn, e2]⟩
  rw [hn, e2, List.append_nil]
  refine ⟨fun v hv => w.welcome v ((hmem v).mp hv), ?_, ?_, ?_, ?_, ?_, ?_⟩
  · intro t ht
    have ht : t ∈ p.tasks := ht
    rw [h1] at ht
    obtain ⟨k, v, x, g1, g2, g3⟩ := w.tasks t ht
    exact ⟨k, v, x, g1, (hmem v).mpr g2, g3⟩
  · rw [hjobs]
    intro x hx
    obtain ⟨v, g1, g2⟩ := w.jobs x hx
    exact ⟨v, (hmem v).mpr g1, g2⟩
  · intro y hy
    obtain ⟨g0, v, g1, g2⟩ := w.made y hy
    exact ⟨g0, v, (hmem v).mpr g1, g2⟩
  · intro g hg hq
    rcases w.shape g hg hq with h | ⟨v, msg, g1, g2⟩
    · exact .inl h
    · exact .inr ⟨v, msg, (hmem v).mpr g1, g2⟩
  · intro id
    have e3 : (n.absorb p).peer.tasks = n.peer.tasks := h1
    have e4 : refusals id (n.absorb p).peer.log = refusals id n.peer.log := hrefu id
    rw [hreq, hjobs, e3, e4]; exact w.flow id
  · intro id
    have e4 : refusals id (n.absorb p).peer.log = refusals id n.peer.log := hrefu id
    rw [e4]; exact w.back id

/-- A request arrives. -/
theorem Work.ask {e : End} {hs : Handlers H} {n : Node H} {sent got : List Frame} {v : RequestPayload} {k : Kind}
    (w : Work e hs n sent got) (hv : Welcome e v) (hk : kindOf v.frameType = some k) :
    Work e hs { n with peer := n.peer.after ⟨n.peer.st, [.request k v.streamID v.data v.metadata v.initialN], []⟩ } sent (got ++ [.request v]) := by
  have up : ∀ w, Frame.request w ∈ got → Frame.request w ∈ got ++ [.request v] := fun w h => List.mem_append_left _ h
  refine ⟨?_, ?_, ?_, ?_, ?_, ?_, ?_⟩
  · intro u hu
    rcases List.mem_append.mp hu with hu | hu
    · exact w.welcome u hu
    · cases List.mem_singleton.mp hu; exact hv
  · intro t ht
    rcases List.mem_append.mp ht with ht | ht
    · obtain ⟨k, u, x, g1, g2, g3⟩ := w.tasks t ht
      exact ⟨k, u, x, g1, up _ g2, g3⟩
    · exact ⟨k, v, v.initialN, List.mem_singleton.mp ht, by simp, hk⟩
  · intro x hx
    obtain ⟨u, g1, g2⟩ := w.jobs x hx
    exact ⟨u, up _ g1, g2⟩
  · intro y hy
    obtain ⟨g0, u, g1, g2⟩ := w.made y hy
    exact ⟨g0, u, up _ g1, g2⟩
  · intro g hg hq
    rcases w.shape g hg hq with h | ⟨u, msg, g1, g2⟩
    · exact .inl h
    · exact .inr ⟨u, msg, up _ g1, g2⟩
  · intro id
    have := w.flow id
    have e1 : requests id [Frame.request v] = (v.streamID == id).toNat := by
      simp only [requests, List.countP_cons, List.countP_nil, isRequest, Frame.streamID, Bool.true_and]
      cases v.streamID == id <;> rfl
    have e2 : queued id [Task.request k v.streamID v.data v.metadata v.initialN] = (v.streamID == id).toNat := by
      by_cases hv : v.streamID = id
      · simp [queued, isTask, hv]
      · have hv' := beq_eq_false_iff_ne.mpr hv
        simp [queued, isTask, hv, hv']
    rw [requests_append, e1]
    simp only [Peer.after, queued_append, e2, List.append_nil]
    omega
  · intro id
    have := w.back id
    simpa [Peer.after] using this

/-- A request is handled. -/
theorem Work.ran {e : End} {hs : Handlers H} {n : Node H} {p : WasmDispatch.Peer H} {sent got : List Frame} {k : Kind} {id : UInt32} {d m : Bytes}
    {x : UInt32} {i : Nat} (w : Work e hs n sent got) (ht : n.peer.tasks[i]? = some (.request k id d m x))
    (h : Ran e hs k id d m { n.peer with tasks := n.peer.tasks.eraseIdx i } p) (hts : ∀ t ∈ p.tasks, ∀ a b, t ≠ .attach a b) :
    Work e hs (n.absorb p) (sent ++ (n.news p).filterMap sentOf) got ∧ (∀ f ∈ (n.news p).filterMap sentOf, isRequest f = false) ∧
      (∀ o, results o p.log = results o n.peer.log) := by
  obtain ⟨k', v, x', hv, hgot, hkind⟩ := w.tasks _ (List.mem_of_getElem? ht)
  cases hv
  have hqe : ∀ y, queued y n.peer.tasks = queued y (n.peer.tasks.eraseIdx i) + (v.streamID == y).toNat := by
    intro y; exact queued_erase ht
  cases h with
  | refused msg hu h1 h2 h3 hmsg =>
    have h2 : p.tasks = n.peer.tasks.eraseIdx i := h2
    have h3 : p.log = n.peer.log ++ [.sent (errorFrame v.streamID msg)] := h3
    have hn : n.news p = [.sent (errorFrame v.streamID msg)] := by simp [Node.news, h3]
    have hout : (n.news p).filterMap sentOf = [errorFrame v.streamID msg] := by rw [hn]; rfl
    have hjobs : (n.absorb p).jobs = n.jobs := by simp [Node.absorb, hn, jobOf]
    have hr : ∀ y, refusals y (n.absorb p).peer.log = refusals y n.peer.log + (v.streamID == y).toNat := by
      intro y
      show refusals y p.log = _
      rw [h3, refusals_append]
      have : refusals y [(.sent (errorFrame v.streamID msg) : Ev (H × Ctx))] = (v.streamID == y).toNat := by
        by_cases hv : v.streamID = y
        · simp [refusals, isRefusal, errorFrame, Frame.streamID, hv]
        · have hv' := beq_eq_false_iff_ne.mpr hv
          simp [refusals, isRefusal, errorFrame, Frame.streamID, hv', hv]
      rw [this]
    rw [hout]
    refine ⟨⟨w.welcome, ?_, by rw [hjobs]; exact w.jobs, w.made, ?_, ?_, ?_⟩, ?_, ?_⟩
    · intro t ht
      have ht : t ∈ p.tasks := ht
      rw [h2] at ht
      exact w.tasks t (List.mem_of_mem_eraseIdx ht)
    · intro g hg hq
      rcases List.mem_append.mp hg with hg | hg
      · exact w.shape g hg hq
      · refine .inr ⟨v, msg, hgot, List.mem_singleton.mp hg, ?_, hmsg⟩
        intro k' hk' op ho
        cases hkind.symm.trans hk'
        exact hu op ho
    · intro y
      have h4 := w.flow y
      have h5 := hqe y
      have e3 : (n.absorb p).peer.tasks = n.peer.tasks.eraseIdx i := h2
      have e4 : (n.absorb p).made = n.made := rfl
      rw [hr, hjobs, e3, e4]; omega
    · intro y
      have h4 := w.back y
      have e4 : (n.absorb p).made = n.made := rfl
      rw [hr, answers_append, answers_one rfl, e4]
      show _ + (v.streamID == y).toNat = _
      omega
    · intro f hf; cases List.mem_singleton.mp hf; rfl
    · intro o; rw [h3, results_append]; simp [results, signal]
  | run op g cx ts ho hg h1 h2 hts' h3 =>
    obtain ⟨c', h3⟩ := h3
    have hnil : ts = [] := by
      cases ts with
      | nil => rfl
      | cons t ts =>
        obtain ⟨a, b, rfl⟩ := hts' t List.mem_cons_self
        exact absurd rfl (hts (.attach a b) (by rw [h2]; simp) a b)
    subst hnil
    have h2 : p.tasks = n.peer.tasks.eraseIdx i := by simpa using h2
    have h3 : p.log = n.peer.log ++ [.invoked k (g, c') v.streamID v.data (passed e k v.metadata)] := h3
    have hn : n.news p = [.invoked k (g, c') v.streamID v.data (passed e k v.metadata)] := by simp [Node.news, h3]
    have hout : (n.news p).filterMap sentOf = [] := by rw [hn]; rfl
    have hjobs : (n.absorb p).jobs = n.jobs ++ [⟨k, g, v.streamID, v.data, passed e k v.metadata⟩] := by simp [Node.absorb, hn, jobOf]
    have hr : ∀ y, refusals y (n.absorb p).peer.log = refusals y n.peer.log := by
      intro y
      show refusals y p.log = _
      rw [h3, refusals_append]; rfl
    rw [hout, List.append_nil]
    refine ⟨⟨w.welcome, ?_, ?_, w.made, w.shape, ?_, ?_⟩, fun f hf => absurd hf List.not_mem_nil, ?_⟩
    · intro t ht
      have ht : t ∈ p.tasks := ht
      rw [h2] at ht
      exact w.tasks t (List.mem_of_mem_eraseIdx ht)
    · intro y hy
      rw [hjobs] at hy
      rcases List.mem_append.mp hy with hy | hy
      · exact w.jobs y hy
      · cases List.mem_singleton.mp hy
        exact ⟨v, hgot, hkind, rfl, rfl, shown_passed _ _ _, op, ho, hg⟩
    · intro y
      have h4 := w.flow y
      have h5 := hqe y
      have e3 : (n.absorb p).peer.tasks = n.peer.tasks.eraseIdx i := h2
      have e4 : (n.absorb p).made = n.made := rfl
      have e5 : handlers y [(⟨k, g, v.streamID, v.data, passed e k v.metadata⟩ : WasmCalls.Job H)] = (v.streamID == y).toNat := by
        simp only [handlers, List.countP_cons, List.countP_nil]
        cases v.streamID == y <;> rfl
      rw [hr, hjobs, handlers_append, e3, e4, e5]; omega
    · intro y
      have e4 : (n.absorb p).made = n.made := rfl
      rw [hr, e4]; exact w.back y
    · intro o; rw [h3, results_append]; simp [results, signal]

/-- Work for a single request makes no stream. -/
theorem Work.served {e : End} {hs : Handlers H} {n : Node H} {p : WasmDispatch.Peer H} {sent got : List Frame} {i : Nat} {live : Bool}
    (w : Work e hs n sent got) (h : n.peer.step e hs (.task i live) = some (.ok p)) :
    ∃ (k : Kind) (id : UInt32) (d m : Bytes) (x : UInt32), n.peer.tasks[i]? = some (.request k id d m x) ∧
      Ran e hs k id d m { n.peer with tasks := n.peer.tasks.eraseIdx i } p ∧ p.st = n.peer.st ∧ ∀ t ∈ p.tasks, ∀ a b, t ≠ .attach a b := by
  have hno : ∀ t ∈ n.peer.tasks, ∀ a b, t ≠ .attach a b := by
    intro t ht a b he
    obtain ⟨k, v, x, h1, _⟩ := w.tasks t ht
    rw [he] at h1; cases h1
  have hex : ∃ (k : Kind) (id : UInt32) (d m : Bytes) (x : UInt32), n.peer.tasks[i]? = some (.request k id d m x) ∧
      Ran e hs k id d m { n.peer with tasks := n.peer.tasks.eraseIdx i } p := by
    have h0 := h
    simp only [Peer.step] at h0
    split at h0
    · cases h0
    · rename_i t ht
      obtain ⟨k, v, x, rfl, _, _⟩ := w.tasks t (List.mem_of_getElem? ht)
      exact ⟨k, _, _, _, x, ht, Iota.Props.WasmCalls.ran (Option.some.inj h0)⟩
  obtain ⟨k, id, d, m, x, ht, hr⟩ := hex
  refine ⟨k, id, d, m, x, ht, hr, ?_⟩
  cases effect h with
  | answer _ _ k' id' d' md n' ev h1 _ _ =>
    refine ⟨rfl, fun t ht => hno t ?_⟩
    simp only [Peer.after, List.append_nil] at ht
    exact List.mem_of_mem_eraseIdx ht
  | serve _ _ k' id' d' md n' g c m' h1 h2 h3 =>
    obtain ⟨k2, v, x2, h4, h5, h6⟩ := w.tasks _ (List.mem_of_getElem? h1)
    cases h4
    rcases (w.welcome v h5).2 with h7 | ⟨h7, h8⟩
    · cases h6.symm.trans h7; exact absurd rfl h2
    · cases h6.symm.trans h7; exact absurd rfl (h3 h8)
  | attach _ a b h1 => exact absurd rfl (hno _ (List.mem_of_getElem? h1) a b)
  | demand _ _ a b o h1 => rw [ht] at h1; cases h1

/-- A result arrives. -/
theorem dispatch_meek {st : State} {i : Nat} {f : Frame} {o : Out (H × Ctx)} (hf : (∃ v, f = .payload v) ∨ ∃ v, f = .error v)
    (h : dispatch st (some i) f = .ok o) : o.tasks = [] ∧ ∀ x, results x o.evs = if x = i then (resOf f).toList else [] := by
  have hd : ∀ (ev : Ev (H × Ctx)) (l : List (Ev (H × Ctx))), deliver st i ev = .ok l → l = [ev] := by
    intro ev l hl
    unfold deliver at hl
    split at hl
    · cases hl
    · split at hl
      · cases hl; rfl
      · cases hl
  have hdi : ∀ (b : Bool) (ev : Ev (H × Ctx)) (l : List (Ev (H × Ctx))), deliverIf b st i ev = .ok l → l = if b then [ev] else [] := by
    intro b ev l hl
    cases b with
    | false => cases hl; rfl
    | true => exact hd ev l hl
  rcases hf with ⟨v, rfl⟩ | ⟨v, rfl⟩
  · simp only [dispatch] at h
    cases h1 : deliverIf v.next st i (.next i v.data v.metadata : Ev (H × Ctx)) with
    | ok l1 =>
      rw [h1, Res.ok_bind] at h
      cases h2 : deliverIf v.complete st i (.complete i : Ev (H × Ctx)) with
      | ok l2 =>
        rw [h2, Res.ok_bind] at h
        cases h
        refine ⟨rfl, fun x => ?_⟩
        rw [hdi _ _ _ h1, hdi _ _ _ h2]
        by_cases hx : x = i
        · subst hx
          cases hn : v.next <;> cases hc : v.complete <;> simp [results, signal, resultOf, resOf, hn]
        · have hx' : ¬ i = x := fun h => hx h.symm
          cases v.next <;> cases v.complete <;> simp [results, signal, hx, hx']
      | err m => rw [h2] at h; cases h
      | panic => rw [h2] at h; cases h
    | err m => rw [h1] at h; cases h
    | panic => rw [h1] at h; cases h
  · simp only [dispatch] at h
    cases h1 : deliver st i (.error i v.data : Ev (H × Ctx)) with
    | ok l1 =>
      rw [h1, Res.ok_bind] at h
      cases h2 : deliver st i (.complete i : Ev (H × Ctx)) with
      | ok l2 =>
        rw [h2, Res.ok_bind] at h
        cases h
        refine ⟨rfl, fun x => ?_⟩
        rw [hd _ _ h1, hd _ _ h2]
        by_cases hx : x = i
        · subst hx; simp [results, signal, resultOf, resOf]
        · have hx' : ¬ i = x := fun h => hx h.symm
          simp [results, signal, hx, hx']
      | err m => rw [h2] at h; cases h
      | panic => rw [h2] at h; cases h
    | err m => rw [h1] at h; cases h
    | panic => rw [h1] at h; cases h

theorem isResult_id {f : Frame} (hf : (∃ v, f = .payload v) ∨ ∃ v, f = .error v) (id : UInt32) : isResult id f = decide (f.streamID = id) := by
  rcases hf with ⟨v, rfl⟩ | ⟨v, rfl⟩ <;> rfl

/-- The end, its calls and its work. -/
structure Good (e : End) (hs : Handlers H) (n : Node H) (sent got : List Frame) : Prop where
  calls : Calls e n sent
  work : Work e hs n sent got
  told : Told n got

theorem good_init (e : End) (hs : Handlers H) : Good e hs Node.init [] [] := by
  refine ⟨⟨⟨rfl, ?_, ?_, ?_, Iota.Props.WasmCaller.sound_init, fun _ _ => rfl, ?_⟩, ?_, ?_, ?_⟩, ⟨?_, ?_, ?_, ?_, ?_, ?_, ?_⟩, ?_⟩
  · intro j c hc; simp [Node.init] at hc
  · intro j o ho; simp [Node.init] at ho
  · intro j c o hc; simp [Node.init] at hc
  · exact ⟨fun x hx => by simp [Node.init, Peer.init, State.init] at hx, fun x hx => by simp [Node.init, Peer.init, State.init] at hx⟩
  · intro v hv; exact absurd hv List.not_mem_nil
  · intro j c hc; simp [Node.init] at hc
  · exact ⟨fun x hx => by simp [Node.init, Peer.init, State.init] at hx, fun x hx => by simp [Node.init, Peer.init, State.init] at hx⟩
  · intro v hv; exact absurd hv List.not_mem_nil
  · intro t ht; exact absurd ht List.not_mem_nil
  · intro t ht; exact absurd ht List.not_mem_nil
  · intro t ht; exact absurd ht List.not_mem_nil
  · intro t ht; exact absurd ht List.not_mem_nil
  · intro id; rfl
  · intro id; rfl
  · intro j c o hc; simp [Node.init] at hc

theorem goDoes_eq {e : End} {hs : Handlers H} {n n' : Node H} {a : WasmDispatch.Act} {out : List Frame} (h : goDoes e hs n a = some (n', out)) :
    ∃ p, n.peer.step e hs a = some (.ok p) ∧ n' = n.absorb p ∧ out = (n.news p).filterMap sentOf := by
  unfold goDoes at h
  split at h
  · rename_i p hp; cases h; exact ⟨p, hp, rfl, rfl⟩
  · cases h

/-- Only the objects change. -/
theorem Good.objs {e : End} {hs : Handlers H} {n : Node H} {p : WasmDispatch.Peer H} {sent got : List Frame} {os : List Obj} (g : Good e hs n sent got)
    (hl : Local e (n.absorb p)) (h : p = { n.peer with st := { n.peer.st with objs := os } }) :
    Good e hs (n.absorb p) (sent ++ (n.news p).filterMap sentOf) got := by
  have hlog : p.log = n.peer.log := by rw [h]
  have hst : p.st = { n.peer.st with objs := os } := by rw [h]
  obtain ⟨w, h0⟩ := g.work.quiet (p := p) (evs := []) (by rw [h]) (by simp [hlog]) (fun ev hev => absurd hev List.not_mem_nil) none
    (fun g hg => by cases hg)
  simp only [Option.toList_none, List.append_nil] at w
  refine ⟨g.calls.more hl rfl rfl ?_ (by rw [h0]; exact fun f hf => absurd hf List.not_mem_nil), w, ?_⟩
  · intro P hP
    show Entries P p.st
    rw [hst]; exact entries_objs hP _
  · intro j c o hc ho hk
    show results o p.log = _ ∧ (_ → getStream p.st c.id = _)
    rw [hlog, hst]
    exact g.told j c o hc ho hk

theorem Good.step {e : End} {hs : Handlers H} {n n' : Node H} {sent got out : List Frame} {a : Iota.Mixed.GoAct} (g : Good e hs n sent got)
    (h : goStep e hs n a = some (n', out)) (hk : ∀ c ∈ n'.calls, c.kind = .rr ∨ c.kind = .fnf) (hb : n'.calls.length ≤ 2 ^ 30)
    (hq : ∀ id, requests id sent = 0 → got.filter (isResult id) = []) : Good e hs n' (sent ++ out) got := by
  have hone : ∀ k : Kind, k = .rr ∨ k = .fnf → many k = false := by rintro k (rfl | rfl) <;> rfl
  cases a with
  | call k d m ctx => exact ⟨g.calls.call hb h, g.work.call h, g.told.call g.calls.loc h⟩
  | subscribe j =>
    have hc : n'.calls = n.calls := subscribe_calls h
    rw [hc] at hk hb
    refine ⟨g.calls.subscribe hk hb h, ?_, g.told.subscribe g.calls hk hb hq h⟩
    obtain ⟨c, _, _, _, rfl, rfl⟩ := subscribe_rr hk h
    exact g.work.same rfl rfl rfl rfl fun f hf => by cases List.mem_singleton.mp hf; rfl
  | start j x =>
    simp only [goStep, Option.bind_eq_some_iff] at h
    obtain ⟨c, hc, h⟩ := h
    split at h
    · rename_i hm
      cases h
      rw [hone _ (hk c (List.mem_of_getElem? hc))] at hm; cases hm
    · cases h
  | own j f =>
    simp only [goStep, Option.bind_eq_some_iff] at h
    obtain ⟨c, hc, h⟩ := h
    split at h
    · rename_i hm
      cases h
      rw [hone _ (hk c (List.mem_of_getElem? hc))] at hm; cases hm.1
    · cases h
  | task i live =>
    obtain ⟨p, hp, rfl, rfl⟩ := goDoes_eq h
    obtain ⟨k, id, d, m, x, ht, hr, hst, hts⟩ := g.work.served hp
    obtain ⟨w, h1, h2⟩ := g.work.ran ht hr hts
    have hl := local_does g.calls.loc (a := .task i live) trivial hp
    refine ⟨g.calls.more hl rfl rfl (fun P hP => ?_) h1, w, ?_⟩
    · show Entries P p.st; rw [hst]; exact hP
    · intro j c o hc ho hkc
      show results o p.log = _ ∧ (_ → getStream p.st c.id = _)
      rw [h2, hst]
      exact g.told j c o hc ho hkc
  | startIn i live =>
    obtain ⟨p, hp, rfl, rfl⟩ := goDoes_eq (hs := hs) (a := .startIn i live) h
    have hl := local_does g.calls.loc (a := .startIn i live) trivial hp
    simp only [Peer.step, Option.some.injEq, Res.ok.injEq] at hp
    exact g.objs hl hp.symm
  | openSink i =>
    obtain ⟨p, hp, rfl, rfl⟩ := goDoes_eq (hs := hs) (a := .openSink i) h
    have hl := local_does g.calls.loc (a := .openSink i) trivial hp
    simp only [Peer.step, Option.some.injEq, Res.ok.injEq] at hp
    exact g.objs hl hp.symm
  | answer i r =>
    have h0 : n.answer i r = some (n', out) := h
    have w := g.work.answer h0
    obtain ⟨x, _, _, rfl, rfl⟩ := answer_shape h0
    refine ⟨g.calls.more ?_ rfl rfl (fun P hP => hP) (fun f hf => by rw [List.mem_singleton.mp hf]; exact answerFrame_not _ _), w, g.told⟩
    exact ⟨g.calls.loc.counter, g.calls.loc.ids, g.calls.loc.objs, g.calls.loc.mono, g.calls.loc.sound, g.calls.loc.untold, g.calls.loc.entries⟩
  | emit i f =>
    simp only [goStep, Option.bind_eq_some_iff] at h
    obtain ⟨x, hx, h⟩ := h
    split at h
    · rename_i hm
      obtain ⟨v, h1, h2⟩ := g.work.jobs x (List.mem_of_getElem? hx)
      have : x.kind = .rr ∨ x.kind = .fnf := by
        rcases (g.work.welcome v h1).2 with h3 | ⟨h3, _⟩
        · exact .inl (Option.some.inj (h2.kind.symm.trans h3))
        · exact .inr (Option.some.inj (h2.kind.symm.trans h3))
      rw [hone _ this] at hm; cases hm.1
    · cases h

theorem Good.recv {e : End} {hs : Handlers H} {n n' : Node H} {sent got out : List Frame} {data : Bytes} {f : Frame} (g : Good e hs n sent got)
    (h : goDoes e hs n (.recv data) = some (n', out)) (hd : decodeFrame data = .ok f)
    (hf : (∃ v, f = .request v ∧ Welcome e v) ∨
      (((∃ v, f = .payload v) ∨ ∃ v, f = .error v) ∧ got.filter (isResult f.streamID) = [])) :
    Good e hs n' (sent ++ out) (got ++ [f]) ∧ out = [] := by
  obtain ⟨p, hp, rfl, rfl⟩ := goDoes_eq h
  have hl := local_does g.calls.loc (a := .recv data) trivial hp
  rcases hf with ⟨v, rfl, hv⟩ | ⟨hf, hr⟩
  · obtain ⟨k, hk⟩ : ∃ k, kindOf v.frameType = some k := by
      rcases hv.2 with h | ⟨h, _⟩ <;> exact ⟨_, h⟩
    have hp' : p = n.peer.after ⟨n.peer.st, [.request k v.streamID v.data v.metadata v.initialN], []⟩ := by
      simp only [Peer.step] at hp
      split at hp
      · have hp := Option.some.inj hp
        rw [recv_decoded hd] at hp
        simp only [afterDecode, hv.1, dispatch, hk] at hp
        cases hp; rfl
      · cases hp
    have hn : n.news p = [] := by rw [hp']; exact news_after n n.peer rfl _
    have hab : n.absorb p = { n with peer := n.peer.after ⟨n.peer.st, [.request k v.streamID v.data v.metadata v.initialN], []⟩ } := by
      simp only [Node.absorb, hn, List.filterMap_nil, List.append_nil]
      rw [hp']
    have hnr : ∀ id, isResult id (.request v) = false := fun _ => rfl
    have w := g.work.ask hv hk
    have hlog : p.log = n.peer.log := by rw [hp']; simp [Peer.after]
    have hst : p.st = n.peer.st := by rw [hp']; rfl
    refine ⟨⟨g.calls.more hl rfl rfl (fun P hP => ?_) (by rw [hn]; exact fun f hf => absurd hf List.not_mem_nil), ?_, ?_⟩, by rw [hn]; rfl⟩
    · show Entries P p.st; rw [hst]; exact hP
    · rw [hn, hab]; simpa using w
    · intro j c o hc ho hkc
      show results o p.log = _ ∧ (_ → getStream p.st c.id = _)
      rw [hlog, hst, List.filter_append]
      simp only [List.filter_cons, hnr, Bool.false_eq_true, if_false, List.filter_nil, List.append_nil]
      exact g.told j c o hc ho hkc
  · have hnq : isRequest f = false := by rcases hf with ⟨v, rfl⟩ | ⟨v, rfl⟩ <;> rfl
    have hnr : ∀ v, f ≠ .request v := by rintro v rfl; cases hnq
    rcases recv_other hd hnq hp with ⟨hnone, rfl⟩ | ⟨i, o, hg, hdisp, rfl⟩
    · obtain ⟨w, h0⟩ := g.work.quiet (p := n.peer) (evs := []) rfl (by simp) (fun ev hev => absurd hev List.not_mem_nil) (some f)
        (fun g hg => by cases hg; exact hnq)
      refine ⟨⟨g.calls.more hl rfl rfl (fun P hP => hP) (by rw [h0]; exact fun f hf => absurd hf List.not_mem_nil), w, ?_⟩, h0⟩
      intro j c o hc ho hkc
      have hne : f.streamID ≠ c.id := by
        intro he
        rw [he] at hr hnone
        rw [(g.told j c o hc ho hkc).2 hr] at hnone; cases hnone
      show results o n.peer.log = _ ∧ (_ → getStream n.peer.st c.id = _)
      rw [List.filter_append]
      simp only [List.filter_cons, isResult_id hf, decide_eq_true_eq, hne, if_false, List.filter_nil, List.append_nil]
      exact g.told j c o hc ho hkc
    · obtain ⟨h1, h2, _, h4⟩ := dispatch_shape hnr hdisp
      obtain ⟨h5, h6⟩ := dispatch_meek hf hdisp
      obtain ⟨w, h0⟩ := g.work.quiet (p := n.peer.after o) (evs := o.evs) (by simp [Peer.after, h5]) rfl
        (fun ev hev => by rcases h4 ev hev with ⟨d, m, rfl⟩ | rfl | ⟨m, rfl⟩ <;> exact ⟨rfl, rfl⟩) (some f)
        (fun g hg => by cases hg; exact hnq)
      refine ⟨⟨g.calls.more hl rfl rfl (fun P hP => ?_) (by rw [h0]; exact fun f hf => absurd hf List.not_mem_nil), w, ?_⟩, h0⟩
      · show Entries P o.st
        rcases h2 with h2 | h2 <;> rw [h2]
        · exact hP
        · exact hP.removed _
      · intro j c x hc hx hkc
        have hx : n.obj j = some x := hx
        have hc : n.calls[j]? = some c := hc
        obtain ⟨t1, t2⟩ := g.told j c x hc hx hkc
        show results x (n.peer.log ++ o.evs) = _ ∧ (_ → getStream o.st c.id = _)
        rw [List.filter_append, results_append, h6, t1]
        by_cases he : f.streamID = c.id
        · have hi : x = i := by
            rw [he] at hr hg
            rw [t2 hr] at hg; exact Option.some.inj hg
          have hone : [f].filter (isResult c.id) = [f] := by simp [isResult_id hf, he]
          rw [if_pos hi, hone, List.filterMap_append]
          refine ⟨?_, fun h => by simp at h⟩
          cases hres : resOf f <;> simp [hres]
        · have hi : x ≠ i := by
            rintro rfl
            exact he (g.calls.loc.entries.lookup hg j c hc hx).symm
          have hone : [f].filter (isResult c.id) = [] := by simp [isResult_id hf, he]
          rw [if_neg hi, hone, List.append_nil, List.append_nil]
          refine ⟨rfl, fun h => ?_⟩
          have := t2 h
          rcases h2 with h2 | h2 <;> rw [h2]
          · exact this
          · rw [getStream_remove _ (Ne.symm he)]; exact this

end Iota.Lemmas.MixedGo
