import Verif.Spec.WasmCalls
import Verif.Props.WasmCaller
import Verif.Props.Polite

/-! # Calls between a WebAssembly host and its guest are answered by their own handlers (C144) -/

namespace Iota.Props.WasmCalls
open Iota.Go Iota.Frames Iota.Registry Iota.WasmDispatch Iota.WasmCalls Iota.Spec.Handler Iota.Spec.WasmDispatch Iota.Spec.WasmCalls
open Iota.Spec.Caller (Sig)
open Iota.Handler hiding Act
open Iota.StreamId (Side)
open Iota.Peers (Result requestFrame answerFrame isRequest)
open Iota.Spec.Polite (requests answers queued isTask)
open Iota.Lemmas.WasmDispatch Iota.Props.Handler Iota.Props.WasmDispatch
open Iota.Props.WasmCaller (Sound Untold sound_step untold_step removeStream_objs effect Effect)
open Iota.Props.Caller (sigOf told get_register_none get_register_some entries_objs)
open Iota.Props.StreamId (idOf idOf_inj finish_id finish_server_none)
open Iota.Props.Polite (requests_append answers_append queued_append queued_erase requests_tail answers_tail)
open Iota.Props.Peers (getElem?_snoc)

variable {H : Type}

/-! ## Ends -/

theorem other_ne (e : End) : other e ≠ e := by cases e <;> decide
theorem other_other (e : End) : other (other e) = e := by cases e <;> rfl
theorem eq_or_other (e t : End) : t = e ∨ t = other e := by cases e <;> cases t <;> decide

/-! ## Results -/

theorem signal_eq (o : Nat) (ev : Ev H) : signal o ev = sigOf o ev := by cases ev <;> rfl

theorem results_told (o : Nat) (log : List (Ev H)) : results o log = (told o log).filterMap resultOf := by
  have : (signal o : Ev H → Option Sig) = sigOf o := funext (signal_eq o)
  simp only [results, told, this]

theorem results_append (o : Nat) (a b : List (Ev H)) : results o (a ++ b) = results o a ++ results o b := by
  simp [results]

theorem refusals_append (id : UInt32) (a b : List (Ev H)) : refusals id (a ++ b) = refusals id a + refusals id b :=
  List.countP_append

theorem handlers_append (id : UInt32) (a b : List (WasmCalls.Job H)) : handlers id (a ++ b) = handlers id a + handlers id b :=
  List.countP_append

theorem handlers_erase {id : UInt32} {js : List (WasmCalls.Job H)} {i : Nat} {j : WasmCalls.Job H} (h : js[i]? = some j) :
    handlers id js = handlers id (js.eraseIdx i) + (j.id == id).toNat := by
  rw [handlers, (eraseIdx_perm h).countP_eq, List.countP_cons]; cases j.id == id <;> rfl

/-- Nothing is told. -/
theorem results_none {o : Nat} {evs : List (Ev H)} (h : ∀ ev ∈ evs, signal o ev = none) : results o evs = [] := by
  have : evs.filterMap (signal o) = [] := List.filterMap_eq_nil_iff.mpr h
  simp [results, this]

/-! ## Invariant -/

/-- The request asks for the call. -/
structure Asks (c : WasmCalls.Call) (v : RequestPayload) : Prop where
  kind : kindOf v.frameType = some c.kind
  id : v.streamID = c.id
  data : v.data = c.data
  metadata : v.metadata = c.metadata
  whole : v.follows = false

/-- What holds of one end on its own. -/
structure Local (e : End) (n : Node H) : Prop where
  counter : n.counter.toNat = n.calls.length
  ids : ∀ (j : Nat) (c : WasmCalls.Call), n.calls[j]? = some c → c.id.toNat = idOf (sideOf e) (j + 1)
  objs : ∀ (j o : Nat), n.obj j = some o → j < n.calls.length ∧ o < n.peer.st.objs.length
  mono : ∀ (j : Nat) (c : WasmCalls.Call) (o : Nat), n.calls[j]? = some c → c.kind = .rr → n.obj j = some o →
    n.peer.st.objs[o]? = some .mono
  sound : Sound n.peer
  untold : Untold n.peer
  entries : Entries (fun id i => ∀ (j : Nat) (c : WasmCalls.Call), n.calls[j]? = some c → n.obj j = some i → c.id = id) n.peer.st

/-- What holds of the calls of `p`, which is end `e`, answered by `q`, which has the handlers `hs`; `wp` and `wq` are the
frames they sent. -/
structure Link (e : End) (hs : Handlers H) (p q : Node H) (wp wq : List Frame) : Prop where
  asks : ∀ v, Frame.request v ∈ wp → ∃ c ∈ p.calls, Asks c v
  tasks : ∀ k id d m n, Task.request k id d m n ∈ q.peer.tasks →
    ∃ c ∈ p.calls, c.kind = k ∧ c.id = id ∧ c.data = d ∧ c.metadata = m
  jobs : ∀ x ∈ q.jobs, ∃ c ∈ p.calls, Serves (other e) hs c x
  sents : ∀ f, Ev.sent f ∈ q.peer.log → ∃ c ∈ p.calls, c.id = f.streamID ∧ Unknown hs c
  back : ∀ f ∈ wq, isRequest f = false →
    (∃ c ∈ p.calls, c.id = f.streamID ∧
      (c.kind = .rr → ∃ r, f = answerFrame c.id r ∧ Answered (other e) hs q.made c r)) ∨
    ∃ c ∈ q.calls, many c.kind = true ∧ c.id = f.streamID
  single : ∀ (j : Nat) (c : WasmCalls.Call), p.calls[j]? = some c → c.kind = .rr →
    inFlight q wp wq c + (toldCall p j).length = if (p.obj j).isSome then 1 else 0
  forget : ∀ (j : Nat) (c : WasmCalls.Call), p.calls[j]? = some c → c.kind = .fnf →
    requests c.id wp + queued c.id q.peer.tasks + handlers c.id q.jobs + refusals c.id q.peer.log = 1
  opened : ∀ (j : Nat) (c : WasmCalls.Call) (o : Nat), p.calls[j]? = some c → c.kind = .rr → p.obj j = some o →
    results o p.peer.log = [] → getStream p.peer.st c.id = some o
  known : Entries (fun id _ => (∃ (j : Nat) (c : WasmCalls.Call), p.calls[j]? = some c ∧ (p.obj j).isSome = true ∧ c.id = id) ∨
    ∃ c ∈ q.calls, c.id = id) p.peer.st
  heard : ∀ (j : Nat) (c : WasmCalls.Call), p.calls[j]? = some c → c.kind = .rr → ∀ r ∈ toldCall p j,
    Answered (other e) hs q.made c r

/-- What holds of an instance. -/
structure Good (hs : End → Handlers H) (y : WasmCalls.Sys H) : Prop where
  loc : ∀ e, Local e (y.node e)
  link : ∀ e, Link e (hs (other e)) (y.node e) (y.node (other e)) (y.wire e) (y.wire (other e))

theorem good_put {hs : End → Handlers H} {y : WasmCalls.Sys H} (hg : Good hs y) (e : End) (n : Node H) (out : List Frame) (r : Bool)
    (h0 : Local e n)
    (h1 : Link e (hs (other e)) n (y.node (other e)) (y.wire e ++ out) (if r then (y.wire (other e)).tail else y.wire (other e)))
    (h2 : Link (other e) (hs e) (y.node (other e)) n (if r then (y.wire (other e)).tail else y.wire (other e)) (y.wire e ++ out)) :
    Good hs (y.put e n out r) := by
  constructor
  · intro t
    rcases eq_or_other e t with rfl | rfl
    · simp only [WasmCalls.Sys.put, if_true]; exact h0
    · simp only [WasmCalls.Sys.put, if_neg (other_ne e)]; exact hg.loc _
  · intro t
    rcases eq_or_other e t with rfl | rfl
    · simp only [WasmCalls.Sys.put, if_true, if_neg (other_ne t)]
      exact h1
    · simp only [WasmCalls.Sys.put, other_other, if_true, if_neg (other_ne e)]
      exact h2

/-! ## Ids -/

theorem index_unique {e : End} {n : Node H} (h : Local e n) (hb : n.calls.length ≤ 2 ^ 30) {i j : Nat} {c d : WasmCalls.Call}
    (hi : n.calls[i]? = some c) (hj : n.calls[j]? = some d) (he : c.id = d.id) : i = j := by
  have h1 := h.ids i c hi
  have h2 := h.ids j d hj
  rw [he, h2] at h1
  obtain ⟨li, _⟩ := List.getElem?_eq_some_iff.mp hi
  obtain ⟨lj, _⟩ := List.getElem?_eq_some_iff.mp hj
  have := idOf_inj (side := sideOf e) (by omega) (by omega) (by omega) (by omega) h1
  omega

theorem call_unique {e : End} {n : Node H} (h : Local e n) (hb : n.calls.length ≤ 2 ^ 30) {j : Nat} {c d : WasmCalls.Call}
    (hj : n.calls[j]? = some c) (hd : d ∈ n.calls) (he : d.id = c.id) : d = c := by
  obtain ⟨i, hi⟩ := List.mem_iff_getElem?.mp hd
  have := index_unique h hb hi hj he
  subst this
  exact Option.some.inj (hi.symm.trans hj)

theorem ids_disjoint {e : End} {p q : Node H} (hp : Local e p) (hq : Local (other e) q) {c d : WasmCalls.Call}
    (hc : c ∈ p.calls) (hd : d ∈ q.calls) : c.id ≠ d.id := by
  intro he
  obtain ⟨i, hi⟩ := List.mem_iff_getElem?.mp hc
  obtain ⟨j, hj⟩ := List.mem_iff_getElem?.mp hd
  have h1 := hp.ids i c hi
  have h2 := hq.ids j d hj
  rw [he, h2] at h1
  cases e <;> simp only [other, sideOf, idOf] at h1 <;> omega

theorem next_id {s : Side} {ctr : UInt64} {l : Nat} (h : ctr.toNat = l) (hb : l + 1 ≤ 2 ^ 30)
    {c : UInt64} {id : UInt32} {b : Bool} (hn : StreamId.next s ctr = some (c, id, b)) :
    c.toNat = l + 1 ∧ id.toNat = idOf s (l + 1) := by
  have hc : (ctr + 1).toNat = l + 1 := by
    rw [UInt64.toNat_add, h]
    have : (1 : UInt64).toNat = 1 := rfl
    rw [this]; omega
  unfold StreamId.next at hn
  cases hf : StreamId.finish s (ctr + 1) with
  | some r =>
    rw [hf] at hn
    simp only [Option.some.injEq, Prod.mk.injEq] at hn
    obtain ⟨rfl, h2⟩ := hn
    have := finish_id hf
    rw [hc] at this
    rw [h2] at this
    exact ⟨hc, this⟩
  | none =>
    exfalso
    cases s with
    | server =>
      have := finish_server_none.mp hf
      rw [hc] at this; omega
    | client => exact Iota.Props.StreamId.finish_client_some _ hf

/-! ## The dispatcher of the caller goes on -/

/-- `p` goes on without hearing anything about its calls, and sends frames that are no requests. -/
theorem link_calm {e : End} {hs : Handlers H} {p q p' : Node H} {wp wq out : List Frame} (L : Link e hs p q wp wq)
    (hc : p'.calls = p.calls) (ho : p'.obj = p.obj) (hr : ∀ o, results o p'.peer.log = results o p.peer.log)
    (hg : ∀ id i, getStream p.peer.st id = some i → getStream p'.peer.st id = some i)
    (hk : ∀ P : UInt32 → Nat → Prop, (∀ id i, (∃ c ∈ q.calls, c.id = id) → P id i) → Entries P p.peer.st → Entries P p'.peer.st)
    (hout : ∀ f ∈ out, isRequest f = false) : Link e hs p' q (wp ++ out) wq := by
  have hreq : ∀ id, requests id (wp ++ out) = requests id wp := by
    intro id
    rw [requests_append]
    have : requests id out = 0 := List.countP_eq_zero.mpr fun f hf => by simp [hout f hf]
    omega
  have ht : ∀ j, toldCall p' j = toldCall p j := by
    intro j; simp only [toldCall, ho]
    cases p.obj j with
    | none => rfl
    | some o => exact hr o
  refine ⟨?_, ?_, ?_, ?_, ?_, ?_, ?_, ?_, ?_, ?_⟩
  · intro v hv
    rw [hc]
    rcases List.mem_append.mp hv with hv | hv
    · exact L.asks v hv
    · have := hout _ hv; cases this
  · rw [hc]; exact L.tasks
  · rw [hc]; exact L.jobs
  · rw [hc]; exact L.sents
  · rw [hc]; exact L.back
  · intro j c h1 h2
    rw [hc] at h1
    have := L.single j c h1 h2
    simp only [inFlight, hreq, ht, ho] at this ⊢
    exact this
  · intro j c h1 h2
    rw [hc] at h1
    rw [hreq]; exact L.forget j c h1 h2
  · intro j c o h1 h2 h3 h4
    rw [hc] at h1; rw [ho] at h3; rw [hr] at h4
    exact hg _ _ (L.opened j c o h1 h2 h3 h4)
  · rw [hc, ho]
    exact hk _ (fun id i h => .inr h) L.known
  · intro j c h1 h2
    rw [hc] at h1; rw [ht]
    exact L.heard j c h1 h2

/-! ## A call is made -/

theorem requestFrame_asks (c : WasmCalls.Call) (n : UInt32) (b : Bool) :
    Asks c { requestFrame c.kind c.id c.data c.metadata with initialN := n, complete := b } := by
  cases c with
  | mk k id d m ctx => cases k <;> exact ⟨rfl, rfl, rfl, rfl, rfl⟩

theorem requestFrame_asks' (c : WasmCalls.Call) : Asks c (requestFrame c.kind c.id c.data c.metadata) := by
  cases c with
  | mk k id d m ctx => cases k <;> exact ⟨rfl, rfl, rfl, rfl, rfl⟩

theorem local_call {e : End} {n n' : Node H} {k : Kind} {d m : Bytes} {ctx : Ctx} {out : List Frame} (hl : Local e n)
    (hb : n'.calls.length ≤ 2 ^ 30) (h : n.call e k d m ctx = some (n', out)) : Local e n' := by
  unfold Node.call at h
  split at h
  · cases h
  · rename_i ctr id b hn
    cases h
    simp only [List.length_append, List.length_cons, List.length_nil] at hb
    obtain ⟨h1, h2⟩ := next_id hl.counter hb hn
    have hne : ∀ (j o : Nat) (c : WasmCalls.Call), (n.calls ++ [⟨k, id, d, m, ctx⟩])[j]? = some c → n.obj j = some o →
        n.calls[j]? = some c := by
      intro j o c hc ho
      rcases getElem?_snoc hc with ⟨_, hc⟩ | ⟨rfl, rfl⟩
      · exact hc
      · exact absurd (hl.objs _ _ ho).1 (Nat.lt_irrefl _)
    refine ⟨?_, ?_, ?_, ?_, hl.sound, hl.untold, ?_⟩
    · simpa using h1
    · intro j c hc
      rcases getElem?_snoc hc with ⟨_, hc⟩ | ⟨rfl, rfl⟩
      · exact hl.ids j c hc
      · exact h2
    · intro j o ho
      have := hl.objs j o ho
      simp only [List.length_append, List.length_cons, List.length_nil]
      exact ⟨by omega, this.2⟩
    · intro j c o hc hk ho
      exact hl.mono j c o (hne j o c hc ho) hk ho
    · exact hl.entries.mono fun id' i hp j c hc ho => hp j c (hne j i c hc ho) ho

/-- The calls of the end that calls. -/
theorem link_call {e : End} {hs : Handlers H} {p q p' : Node H} {wp wq : List Frame} {k : Kind} {d m : Bytes} {ctx : Ctx}
    {out : List Frame} (L : Link e hs p q wp wq) (hl : Local e p) (hl' : Local e p') (hlq : Local (other e) q)
    (hb : p'.calls.length ≤ 2 ^ 30) (h : p.call e k d m ctx = some (p', out)) : Link e hs p' q (wp ++ out) wq := by
  unfold Node.call at h
  split at h
  · cases h
  · rename_i ctr id b hn
    cases h
    have hnew : (p.calls ++ [⟨k, id, d, m, ctx⟩])[p.calls.length]? = some ⟨k, id, d, m, ctx⟩ := by simp
    have hold : ∀ {j : Nat} {c : WasmCalls.Call}, p.calls[j]? = some c → (p.calls ++ [⟨k, id, d, m, ctx⟩])[j]? = some c := by
      intro j c hc
      obtain ⟨hlt, _⟩ := List.getElem?_eq_some_iff.mp hc
      rw [List.getElem?_append_left hlt]; exact hc
    have hfresh : ∀ c ∈ p.calls, c.id ≠ id := by
      intro c hc he
      obtain ⟨j, hj'⟩ := List.mem_iff_getElem?.mp hc
      have := index_unique hl' hb (hold hj') hnew he
      obtain ⟨hlt, _⟩ := List.getElem?_eq_some_iff.mp hj'
      omega
    have hfar : ∀ c ∈ q.calls, c.id ≠ id := by
      intro c hc he
      exact ids_disjoint hl' hlq (List.mem_of_getElem? hnew) hc he.symm
    have e1 : requests id wp = 0 := by
      refine List.countP_eq_zero.mpr fun f hm => ?_
      simp only [Bool.and_eq_true, beq_iff_eq, not_and]
      intro hq he
      cases f with
      | request v =>
        obtain ⟨c, h1, h2⟩ := L.asks v hm
        exact hfresh c h1 (h2.id.symm.trans he)
      | _ => cases hq
    have e2 : queued id q.peer.tasks = 0 := by
      refine List.countP_eq_zero.mpr fun t hm => ?_
      cases t with
      | request k' i' d' m' n' =>
        obtain ⟨c, h1, _, h2, _⟩ := L.tasks _ _ _ _ _ hm
        simp only [isTask, beq_iff_eq]
        intro he
        exact hfresh c h1 (h2.trans he)
      | _ => simp [isTask]
    have e3 : handlers id q.jobs = 0 := by
      refine List.countP_eq_zero.mpr fun t hm => ?_
      obtain ⟨c, h1, h2⟩ := L.jobs _ hm
      simp only [beq_iff_eq]
      intro he
      exact hfresh c h1 (h2.id.symm.trans he)
    have e4 : answers id wq = 0 := by
      refine List.countP_eq_zero.mpr fun f hm => ?_
      simp only [Bool.and_eq_true, Bool.not_eq_true', beq_iff_eq, not_and]
      intro hq he
      rcases L.back f hm hq with ⟨c, h1, h2, _⟩ | ⟨c, h1, _, h2⟩
      · exact hfresh c h1 (h2.trans he)
      · exact hfar c h1 (h2.trans he)
    have e5 : refusals id q.peer.log = 0 := by
      refine List.countP_eq_zero.mpr fun ev hm => ?_
      cases ev with
      | sent f =>
        obtain ⟨c, h1, h2, _⟩ := L.sents f hm
        simp only [isRefusal, beq_iff_eq]
        intro he
        exact hfresh c h1 (h2.trans he)
      | _ => simp [isRefusal]
    have e6 : p.obj p.calls.length = none := by
      cases ho : p.obj p.calls.length with
      | none => rfl
      | some o => exact absurd (hl.objs _ _ ho).1 (Nat.lt_irrefl _)
    have hout : ∀ i, i ≠ id → requests i (if k = .fnf then [Frame.request (requestFrame k id d m)] else []) = 0 := by
      intro i hi
      split
      · rename_i hk; subst hk
        have hi' : id ≠ i := fun h => hi h.symm
        simp [requests, isRequest, Frame.streamID, requestFrame, hi']
      · rfl
    refine ⟨?_, ?_, ?_, ?_, ?_, ?_, ?_, ?_, ?_, ?_⟩
    · intro v hv
      rcases List.mem_append.mp hv with hv | hv
      · obtain ⟨c, h1, h2⟩ := L.asks v hv
        exact ⟨c, List.mem_append_left _ h1, h2⟩
      · refine ⟨⟨k, id, d, m, ctx⟩, by simp, ?_⟩
        split at hv
        · cases List.mem_singleton.mp hv
          exact requestFrame_asks' ⟨k, id, d, m, ctx⟩
        · exact absurd hv List.not_mem_nil
    · intro k' i' d' m' n' ht
      obtain ⟨c, h1, h2⟩ := L.tasks k' i' d' m' n' ht
      exact ⟨c, List.mem_append_left _ h1, h2⟩
    · intro x hx
      obtain ⟨c, h1, h2⟩ := L.jobs x hx
      exact ⟨c, List.mem_append_left _ h1, h2⟩
    · intro f hf
      obtain ⟨c, h1, h2⟩ := L.sents f hf
      exact ⟨c, List.mem_append_left _ h1, h2⟩
    · intro f hf hq
      rcases L.back f hf hq with ⟨c, h1, h2⟩ | h
      · exact .inl ⟨c, List.mem_append_left _ h1, h2⟩
      · exact .inr h
    · intro j c hc hk
      rcases getElem?_snoc hc with ⟨_, hc⟩ | ⟨rfl, rfl⟩
      · have := L.single j c hc hk
        have h0 := hout c.id (hfresh c (List.mem_of_getElem? hc))
        simp only [inFlight, requests_append, h0] at this ⊢
        simpa [toldCall] using this
      · simp only [inFlight, requests_append, e1, e2, e3, e4, toldCall, e6]
        have hk : k = .rr := hk
        subst hk
        simp [requests]
    · intro j c hc hk
      rcases getElem?_snoc hc with ⟨_, hc⟩ | ⟨rfl, rfl⟩
      · have := L.forget j c hc hk
        have h0 := hout c.id (hfresh c (List.mem_of_getElem? hc))
        rw [requests_append, h0]; exact this
      · have hk : k = .fnf := hk
        subst hk
        simp only [requests_append, e1, e2, e3, e5]
        simp [requests, isRequest, Frame.streamID, requestFrame]
    · intro j c o hc hk ho
      rcases getElem?_snoc hc with ⟨_, hc⟩ | ⟨rfl, rfl⟩
      · exact L.opened j c o hc hk ho
      · have ho : p.obj p.calls.length = some o := ho
        rw [e6] at ho; cases ho
    · refine L.known.mono ?_
      rintro id' i (⟨j, c, h1, h2⟩ | h)
      · exact .inl ⟨j, c, hold h1, h2⟩
      · exact .inr h
    · intro j c hc hk r hr
      rcases getElem?_snoc hc with ⟨_, hc⟩ | ⟨rfl, rfl⟩
      · exact L.heard j c hc hk r hr
      · simp only [toldCall, e6] at hr; exact absurd hr List.not_mem_nil

/-- `q` sends frames and may make more calls. -/
theorem link_out {e : End} {hs : Handlers H} {p q q' : Node H} {wp wq out : List Frame} (L : Link e hs p q wp wq)
    (hp : q'.peer.tasks = q.peer.tasks) (hlog : q'.peer.log = q.peer.log) (hj : q'.jobs = q.jobs) (hm : q'.made = q.made)
    (hc : ∀ c ∈ q.calls, c ∈ q'.calls)
    (hout : ∀ f ∈ out, isRequest f = false → ∃ c ∈ q'.calls, many c.kind = true ∧ c.id = f.streamID)
    (hfar : ∀ c ∈ p.calls, ∀ f ∈ out, isRequest f = false → c.id ≠ f.streamID) : Link e hs p q' wp (wq ++ out) := by
  have hans : ∀ c ∈ p.calls, answers c.id (wq ++ out) = answers c.id wq := by
    intro c hc
    rw [answers_append]
    have : answers c.id out = 0 := by
      refine List.countP_eq_zero.mpr fun f hf => ?_
      simp only [Bool.and_eq_true, Bool.not_eq_true', beq_iff_eq, not_and]
      intro hq he
      exact hfar c hc f hf hq he.symm
    omega
  refine ⟨L.asks, by rw [hp]; exact L.tasks, by rw [hj]; exact L.jobs, by rw [hlog]; exact L.sents, ?_, ?_, ?_, L.opened, ?_, by rw [hm]; exact L.heard⟩
  · intro f hf hq
    rw [hm]
    rcases List.mem_append.mp hf with hf | hf
    · rcases L.back f hf hq with h | ⟨c, h1, h2⟩
      · exact .inl h
      · exact .inr ⟨c, hc c h1, h2⟩
    · exact .inr (hout f hf hq)
  · intro j c h1 h2
    have := L.single j c h1 h2
    simp only [inFlight, hans c (List.mem_of_getElem? h1), hp, hj] at this ⊢
    exact this
  · rw [hp, hlog, hj]; exact L.forget
  · refine L.known.mono ?_
    rintro id' i (h | ⟨c, h1, h2⟩)
    · exact .inl h
    · exact .inr ⟨c, hc c h1, h2⟩

/-- The calls of the other end. -/
theorem link_call_far {e : End} {hs : Handlers H} {p q q' : Node H} {wp wq : List Frame} {k : Kind} {d m : Bytes} {ctx : Ctx}
    {out : List Frame} (L : Link (other e) hs p q wp wq) (h : q.call e k d m ctx = some (q', out)) :
    Link (other e) hs p q' wp (wq ++ out) := by
  unfold Node.call at h
  split at h
  · cases h
  · rename_i ctr id b hn
    cases h
    have hno : ∀ f ∈ (if k = .fnf then [Frame.request (requestFrame k id d m)] else []), isRequest f = false → False := by
      intro f hf hq
      split at hf
      · cases List.mem_singleton.mp hf; cases hq
      · exact absurd hf List.not_mem_nil
    exact link_out L rfl rfl rfl rfl (fun c hc => List.mem_append_left _ hc) (fun f hf hq => (hno f hf hq).elim)
      (fun c _ f hf hq => (hno f hf hq).elim)

/-! ## The result of a call is subscribed to -/

theorem subscribe_shape {e : End} {hs : Handlers H} {n n' : Node H} {j : Nat} {out : List Frame}
    (h : n.subscribe e hs j = some (n', out)) : ∃ c o, n.calls[j]? = some c ∧ n.obj j = none ∧
      n' = { n with peer := n.peer.register o c.ctx c.id, obj := fun i => if i = j then some n.peer.st.objs.length else n.obj i } ∧
      n.peer.step e hs ((openAct c).getD (.openSink 0)) = some (.ok n'.peer) ∧
      ((c.kind = .rr ∧ o = .mono ∧ out = [.request (requestFrame c.kind c.id c.data c.metadata)]) ∨
        (c.kind ≠ .rr ∧ out = [])) := by
  unfold Node.subscribe at h
  split at h
  · rename_i c hc ho
    split at h
    · cases h
    · rename_i a ha
      split at h
      · rename_i p hp
        cases h
        unfold openAct at ha
        split at ha <;> rename_i hk
        · cases ha; cases hp
          exact ⟨c, .mono, hc, ho, rfl, by simp [openAct, hk, Peer.step], .inl ⟨hk, rfl, by simp [hk]⟩⟩
        · cases ha
        · cases ha; cases hp
          exact ⟨c, _, hc, ho, rfl, by simp [openAct, hk, Peer.step], .inr ⟨by simp [hk], by simp [hk]⟩⟩
        · cases ha; cases hp
          exact ⟨c, _, hc, ho, rfl, by simp [openAct, hk, Peer.step], .inr ⟨by simp [hk], by simp [hk]⟩⟩
      · cases h
  · cases h

theorem local_subscribe {e : End} {hs : Handlers H} {n n' : Node H} {j : Nat} {out : List Frame} (hl : Local e n)
    (h : n.subscribe e hs j = some (n', out)) : Local e n' := by
  obtain ⟨c, o, hc, hno, rfl, hstep, hkind⟩ := subscribe_shape h
  have hlt : j < n.calls.length := (List.getElem?_eq_some_iff.mp hc).1
  have hobjs : (n.peer.register o c.ctx c.id).st.objs = n.peer.st.objs ++ [o] := registerStream_objs _ _ _
  refine ⟨hl.counter, hl.ids, ?_, ?_, sound_step hl.sound hstep, untold_step hl.sound hl.untold hstep, ?_⟩
  · intro i o' ho'
    simp only at ho' ⊢
    rw [hobjs, List.length_append, List.length_cons, List.length_nil]
    split at ho'
    · rename_i hi; subst hi; cases ho'; exact ⟨hlt, by omega⟩
    · have := hl.objs i o' ho'; exact ⟨this.1, by omega⟩
  · intro i d o' hd hk ho'
    simp only at ho' ⊢
    rw [hobjs]
    split at ho'
    · rename_i hi; subst hi; cases ho'
      cases hc.symm.trans hd
      rcases hkind with ⟨_, rfl, _⟩ | ⟨hk', _⟩
      · simp
      · exact absurd hk hk'
    · have h1 := (hl.objs i o' ho').2
      rw [List.getElem?_append_left h1]
      exact hl.mono i d o' hd hk ho'
  · refine Entries.registered ?_ ?_
    · refine entries_objs ?_ _
      have h0 : Entries (fun _ i => i < n.peer.st.objs.length) n.peer.st := hl.sound.1
      have h2 : Entries (fun id i => i < n.peer.st.objs.length ∧ ∀ (j : Nat) (c : WasmCalls.Call), n.calls[j]? = some c → n.obj j = some i → c.id = id) n.peer.st :=
        ⟨fun x hx => ⟨h0.1 x hx, hl.entries.1 x hx⟩, fun x hx => ⟨h0.2 x hx, hl.entries.2 x hx⟩⟩
      refine h2.mono ?_
      rintro id i ⟨hi, hp⟩ j' c' hc' ho'
      simp only at ho'
      split at ho'
      · cases ho'; omega
      · exact hp j' c' hc' ho'
    · intro j' c' hc' ho'
      simp only at ho'
      split at ho'
      · rename_i hi; subst hi; cases hc.symm.trans hc'; rfl
      · exact absurd (hl.objs j' _ ho').2 (Nat.lt_irrefl _)

theorem link_subscribe {e : End} {hs hs' : Handlers H} {p q p' : Node H} {wp wq : List Frame} {j : Nat} {out : List Frame}
    (L : Link e hs p q wp wq) (hl : Local e p) (hlq : Local (other e) q) (hb : p.calls.length ≤ 2 ^ 30)
    (h : p.subscribe e hs' j = some (p', out)) : Link e hs p' q (wp ++ out) wq := by
  obtain ⟨c, o, hc, hno, rfl, hstep, hkind⟩ := subscribe_shape h
  have hcm := List.mem_of_getElem? hc
  have hnone : getStream p.peer.st c.id = none := by
    cases hg : getStream p.peer.st c.id with
    | none => rfl
    | some i =>
      rcases L.known.lookup hg with ⟨i, d, h1, h2, h3⟩ | ⟨d, h1, h2⟩
      · cases index_unique hl hb h1 hc h3
        rw [hno] at h2; cases h2
      · exact absurd h2.symm (ids_disjoint hl hlq hcm h1)
  have hz : results p.peer.st.objs.length p.peer.log = [] := by
    rw [results_told, hl.untold _ (Nat.le_refl _)]; rfl
  have htold : ∀ i, toldCall { p with peer := p.peer.register o c.ctx c.id, obj := fun i => if i = j then some p.peer.st.objs.length else p.obj i } i =
      toldCall p i := by
    intro i
    simp only [toldCall]
    by_cases hi : i = j
    · subst hi
      simp only [if_true, hno]
      exact hz
    · simp only [if_neg hi]; rfl
  refine ⟨?_, L.tasks, L.jobs, L.sents, L.back, ?_, ?_, ?_, ?_, ?_⟩
  · intro v hv
    rcases List.mem_append.mp hv with hv | hv
    · exact L.asks v hv
    · rcases hkind with ⟨_, _, rfl⟩ | ⟨_, rfl⟩
      · cases List.mem_singleton.mp hv
        exact ⟨c, hcm, requestFrame_asks' c⟩
      · exact absurd hv List.not_mem_nil
  · intro i d hd hk
    rw [htold]
    have := L.single i d hd hk
    simp only [inFlight, requests_append] at this ⊢
    by_cases hi : i = j
    · subst hi
      cases hc.symm.trans hd
      simp only [if_true, Option.isSome_some]
      rcases hkind with ⟨_, _, rfl⟩ | ⟨hk', _⟩
      · have h1 : requests c.id [Frame.request (requestFrame c.kind c.id c.data c.metadata)] = 1 := by
          simp [requests, isRequest, Frame.streamID, (requestFrame_asks' c).id]
        rw [hno] at this
        simp only [Option.isSome_none] at this
        have : requests c.id wp + queued c.id q.peer.tasks + handlers c.id q.jobs + answers c.id wq + (toldCall p i).length = 0 := this
        rw [h1]; omega
      · exact absurd hk hk'
    · have h1 : requests d.id out = 0 := by
        rcases hkind with ⟨_, _, rfl⟩ | ⟨_, rfl⟩
        · have hne : c.id ≠ d.id := fun h => hi (index_unique hl hb hd hc h.symm)
          simp [requests, isRequest, Frame.streamID, (requestFrame_asks' c).id, hne]
        · rfl
      simp only [if_neg hi, h1]
      exact this
  · intro i d hd hk
    have := L.forget i d hd hk
    have h1 : requests d.id out = 0 := by
      rcases hkind with ⟨hk', _, rfl⟩ | ⟨_, rfl⟩
      · have hne : c.id ≠ d.id := by
          intro h
          cases index_unique hl hb hd hc h.symm
          cases hc.symm.trans hd
          rw [hk'] at hk; cases hk
        simp [requests, isRequest, Frame.streamID, (requestFrame_asks' c).id, hne]
      · rfl
    rw [requests_append, h1]; exact this
  · intro i d o' hd hk ho' hr
    simp only at ho' hr ⊢
    split at ho'
    · rename_i hi; subst hi; cases ho'
      cases hc.symm.trans hd
      exact get_register_none _ hnone
    · exact get_register_some (st := { p.peer.st with objs := p.peer.st.objs ++ [o] }) (L.opened i d o' hd hk ho' hr)
  · refine Entries.registered ?_ (.inl ⟨j, c, hc, by simp, rfl⟩)
    refine entries_objs (L.known.mono ?_) _
    rintro id i (⟨j', d, h1, h2, h3⟩ | h)
    · refine .inl ⟨j', d, h1, ?_, h3⟩
      simp only
      split
      · rfl
      · exact h2
    · exact .inr h
  · intro i d hd hk r hr
    rw [htold] at hr
    exact L.heard i d hd hk r hr

theorem link_subscribe_far {e e' : End} {hs hs' : Handlers H} {p q q' : Node H} {wp wq : List Frame} {j : Nat} {out : List Frame}
    (L : Link e hs p q wp wq) (h : q.subscribe e' hs' j = some (q', out)) : Link e hs p q' wp (wq ++ out) := by
  obtain ⟨c, o, hc, hno, rfl, hstep, hkind⟩ := subscribe_shape h
  have hno : ∀ f ∈ out, isRequest f = false → False := by
    intro f hf hq
    rcases hkind with ⟨_, _, rfl⟩ | ⟨_, rfl⟩
    · cases List.mem_singleton.mp hf; cases hq
    · exact absurd hf List.not_mem_nil
  exact link_out L rfl rfl rfl rfl (fun c hc => hc) (fun f hf hq => (hno f hf hq).elim) (fun c _ f hf hq => (hno f hf hq).elim)

/-! ## Proxies of streams and handlers of streams send frames -/

/-- The proxy of a stream or channel call sends a frame. -/
theorem link_own {e : End} {hs : Handlers H} {p q : Node H} {wp wq : List Frame} {j : Nat} {c : WasmCalls.Call} {f : Frame}
    (L : Link e hs p q wp wq) (hl : Local e p) (hb : p.calls.length ≤ 2 ^ 30) (hc : p.calls[j]? = some c)
    (hk : many c.kind = true) (hf : isRequest f = false ∨ ∃ v, f = .request v ∧ Asks c v) : Link e hs p q (wp ++ [f]) wq := by
  rcases hf with hf | ⟨v, rfl, hv⟩
  · exact link_calm L rfl rfl (fun _ => rfl) (fun _ _ h => h) (fun _ _ h => h) (by simpa using hf)
  · have hz : ∀ (i : Nat) (d : WasmCalls.Call), p.calls[i]? = some d → d.kind = .rr ∨ d.kind = .fnf → requests d.id [Frame.request v] = 0 := by
      intro i d hd hk'
      have hne : v.streamID ≠ d.id := by
        rw [hv.id]
        intro h
        cases index_unique hl hb hd hc h.symm
        cases hc.symm.trans hd
        rcases hk' with h | h <;> rw [h] at hk <;> cases hk
      simp [requests, isRequest, Frame.streamID, hne]
    refine ⟨?_, L.tasks, L.jobs, L.sents, L.back, ?_, ?_, L.opened, L.known, L.heard⟩
    · intro w hw
      rcases List.mem_append.mp hw with hw | hw
      · exact L.asks w hw
      · cases List.mem_singleton.mp hw
        exact ⟨c, List.mem_of_getElem? hc, hv⟩
    · intro i d hd hkd
      have := L.single i d hd hkd
      simp only [inFlight, requests_append, hz i d hd (.inl hkd)] at this ⊢
      exact this
    · intro i d hd hkd
      have := L.forget i d hd hkd
      rw [requests_append, hz i d hd (.inr hkd)]; exact this

theorem link_own_far {e : End} {hs : Handlers H} {p q : Node H} {wp wq : List Frame} {c : WasmCalls.Call} {f : Frame}
    (L : Link e hs p q wp wq) (hl : Local e p) (hlq : Local (other e) q) (hc : c ∈ q.calls)
    (hk : many c.kind = true) (hf : f.streamID = c.id) : Link e hs p q wp (wq ++ [f]) := by
  refine link_out L rfl rfl rfl rfl (fun c hc => hc) ?_ ?_
  · intro g hg _
    cases List.mem_singleton.mp hg
    exact ⟨c, hc, hk, hf.symm⟩
  · intro d hd g hg _ he
    cases List.mem_singleton.mp hg
    exact ids_disjoint hl hlq hd hc (he.trans hf)

/-- The handler of a stream or channel sends a frame. -/
theorem link_emit_far {e : End} {hs : Handlers H} {p q : Node H} {wp wq : List Frame} {x : WasmCalls.Job H} {f : Frame}
    (L : Link e hs p q wp wq) (hl : Local e p) (hb : p.calls.length ≤ 2 ^ 30) (hx : x ∈ q.jobs)
    (hk : many x.kind = true) (hf : f.streamID = x.id) : Link e hs p q wp (wq ++ [f]) := by
  obtain ⟨c, hc, hs'⟩ := L.jobs x hx
  obtain ⟨j, hj⟩ := List.mem_iff_getElem?.mp hc
  have hkc : many c.kind = true := hs'.kind ▸ hk
  have hid : c.id = f.streamID := by rw [hf, hs'.id]
  have hans : ∀ (i : Nat) (d : WasmCalls.Call), p.calls[i]? = some d → d.kind = .rr → answers d.id [f] = 0 := by
    intro i d hd hkd
    have hne : f.streamID ≠ d.id := by
      rw [← hid]; intro h
      cases index_unique hl hb hd hj h.symm
      cases hj.symm.trans hd
      rw [hkd] at hkc; cases hkc
    simp [answers, hne]
  refine ⟨L.asks, L.tasks, L.jobs, L.sents, ?_, ?_, L.forget, L.opened, L.known, L.heard⟩
  · intro g hg hq
    rcases List.mem_append.mp hg with hg | hg
    · exact L.back g hg hq
    · cases List.mem_singleton.mp hg
      exact .inl ⟨c, hc, hid, fun h => by rw [h] at hkc; cases hkc⟩
  · intro i d hd hkd
    have := L.single i d hd hkd
    simp only [inFlight, answers_append, hans i d hd hkd] at this ⊢
    exact this

/-! ## A handler answers -/

theorem answered_more {e : End} {hs : Handlers H} {made made' : List (WasmCalls.Job H × Result)} {c : WasmCalls.Call} {r : Result}
    (h : Answered e hs made c r) (hm : ∀ x ∈ made, x ∈ made') : Answered e hs made' c r := by
  cases h with
  | handler x r h1 h2 => exact .handler x r (hm _ h1) h2
  | refused msg h hm => exact .refused msg h hm

theorem answerFrame_id (id : UInt32) (r : Result) : (answerFrame id r).streamID = id := by cases r <;> rfl
theorem answerFrame_not (id : UInt32) (r : Result) : isRequest (answerFrame id r) = false := by cases r <;> rfl

theorem link_answer_far {e : End} {hs : Handlers H} {p q q' : Node H} {wp wq : List Frame} {i : Nat} {r : Result}
    {out : List Frame} (L : Link e hs p q wp wq) (hl : Local e p) (hb : p.calls.length ≤ 2 ^ 30)
    (h : q.answer i r = some (q', out)) : Link e hs p q' wp (wq ++ out) := by
  unfold Node.answer at h
  split at h
  · cases h
  · rename_i x hx
    split at h
    · rename_i hk
      cases h
      obtain ⟨c, hc, hs'⟩ := L.jobs x (List.mem_of_getElem? hx)
      obtain ⟨j, hj⟩ := List.mem_iff_getElem?.mp hc
      have hkc : c.kind = .rr := hs'.kind ▸ hk
      have hmade : Answered (other e) hs (q.made ++ [(x, r)]) c r := .handler x r (by simp) hs'
      have hflow : ∀ id, handlers id (q.jobs.eraseIdx i) + answers id (wq ++ [answerFrame x.id r]) =
          handlers id q.jobs + answers id wq := by
        intro id
        rw [handlers_erase hx, answers_append]
        have : answers id [answerFrame x.id r] = (x.id == id).toNat := by
          simp only [answers, List.countP_cons, List.countP_nil, answerFrame_not, answerFrame_id]
          cases x.id == id <;> rfl
        omega
      refine ⟨L.asks, L.tasks, fun y hy => L.jobs y (List.mem_of_mem_eraseIdx hy), L.sents, ?_, ?_, ?_, L.opened, L.known, ?_⟩
      · intro g hg hq
        rcases List.mem_append.mp hg with hg | hg
        · rcases L.back g hg hq with ⟨d, h1, h2, h3⟩ | h
          · refine .inl ⟨d, h1, h2, fun hd => ?_⟩
            obtain ⟨r', h4, h5⟩ := h3 hd
            exact ⟨r', h4, answered_more h5 fun y hy => List.mem_append_left _ hy⟩
          · exact .inr h
        · cases List.mem_singleton.mp hg
          refine .inl ⟨c, hc, by rw [answerFrame_id, hs'.id], fun _ => ⟨r, by rw [hs'.id], hmade⟩⟩
      · intro k d hd hkd
        have := L.single k d hd hkd
        have hf := hflow d.id
        simp only [inFlight] at this ⊢
        omega
      · intro k d hd hkd
        have := L.forget k d hd hkd
        have hne : (x.id == d.id) = false := by
          rw [beq_eq_false_iff_ne, hs'.id]
          intro h
          cases index_unique hl hb hd hj h.symm
          cases hj.symm.trans hd
          rw [hkd] at hkc; cases hkc
        have he := handlers_erase (id := d.id) hx
        rw [hne] at he
        simp only [Bool.toNat_false] at he
        show requests d.id wp + queued d.id q.peer.tasks + handlers d.id (q.jobs.eraseIdx i) + refusals d.id q.peer.log = 1
        omega
      · intro k d hd hkd r' hr'
        exact answered_more (L.heard k d hd hkd r' hr') fun y hy => List.mem_append_left _ hy
    · cases h

/-! ## The dispatcher of an end does something -/

/-- It does not open a stream for local code. -/
def Inner : WasmDispatch.Act → Prop
  | .openMono _ _ => False
  | .openFlux _ _ _ => False
  | _ => True

theorem modify_mono {os : List Obj} {o i : Nat} {g : Obj → Obj} (hg : g .mono = .mono) (h : os[o]? = some .mono) :
    (os.modify i g)[o]? = some .mono := by
  rw [List.getElem?_modify, h]
  by_cases hi : i = o <;> simp [hi, hg]

theorem local_does {e : End} {hs : Handlers H} {n : Node H} {p : WasmDispatch.Peer H} {a : WasmDispatch.Act} (hl : Local e n)
    (ha : Inner a) (h : n.peer.step e hs a = some (.ok p)) : Local e (n.absorb p) := by
  have hsnd := sound_step hl.sound h
  have hunt := untold_step hl.sound hl.untold h
  have build : ∀ (hlen : n.peer.st.objs.length ≤ p.st.objs.length)
      (hmono : ∀ o : Nat, n.peer.st.objs[o]? = some .mono → p.st.objs[o]? = some .mono)
      (hent : Entries (fun id i => ∀ (j : Nat) (c : WasmCalls.Call), n.calls[j]? = some c → n.obj j = some i → c.id = id) p.st),
      Local e (n.absorb p) := by
    intro hlen hmono hent
    refine ⟨hl.counter, hl.ids, ?_, ?_, hsnd, hunt, hent⟩
    · intro j o ho
      have := hl.objs j o ho
      exact ⟨this.1, by show o < p.st.objs.length; omega⟩
    · intro j c o hc hk ho
      exact hmono o (hl.mono j c o hc hk ho)
  cases effect h with
  | skip data s _ => exact build (Nat.le_refl _) (fun _ h => h) hl.entries
  | ask data v k _ => exact build (Nat.le_refl _) (fun _ h => h) hl.entries
  | frame data f i o hd hf hg ho =>
    obtain ⟨h1, h2, _, _⟩ := dispatch_shape hf ho
    refine build ?_ ?_ ?_
    · show _ ≤ o.st.objs.length; rw [h1]; exact Nat.le_refl _
    · intro x hx; show o.st.objs[x]? = _; rw [h1]; exact hx
    · show Entries _ o.st
      rcases h2 with h2 | h2 <;> rw [h2]
      · exact hl.entries
      · exact hl.entries.removed _
  | answer => exact build (Nat.le_refl _) (fun _ h => h) hl.entries
  | serve j live k id data md m g c md' ht _ _ =>
    have hobjs : (n.peer.register (.resp false false) c id).st.objs = n.peer.st.objs ++ [.resp false false] := registerStream_objs _ _ _
    refine build ?_ ?_ ?_
    · show _ ≤ (n.peer.register (.resp false false) c id).st.objs.length
      rw [hobjs]; simp
    · intro o ho
      show (n.peer.register (.resp false false) c id).st.objs[o]? = _
      rw [hobjs, List.getElem?_append_left (List.getElem?_eq_some_iff.mp ho).1]; exact ho
    · show Entries _ (n.peer.register (.resp false false) c id).st
      refine Entries.registered (entries_objs hl.entries _) ?_
      intro j' c' _ ho'
      exact absurd (hl.objs j' _ ho').2 (Nat.lt_irrefl _)
  | attach j i m ht =>
    refine build ?_ ?_ ?_
    · show _ ≤ (List.modify _ _ _).length; simp
    · intro o ho; exact modify_mono rfl ho
    · exact entries_objs hl.entries _
  | demand => exact build (Nat.le_refl _) (fun _ h => h) hl.entries
  | openMono id c => exact ha.elim
  | openFlux id b c => exact ha.elim
  | startIn i b =>
    refine build ?_ ?_ ?_
    · show _ ≤ (List.modify _ _ _).length; simp
    · intro o ho; exact modify_mono rfl ho
    · exact entries_objs hl.entries _
  | openSink i =>
    refine build ?_ ?_ ?_
    · show _ ≤ (List.modify _ _ _).length; simp
    · intro o ho; exact modify_mono rfl ho
    · exact entries_objs hl.entries _

theorem news_after (n : Node H) (p : WasmDispatch.Peer H) (hp : p.log = n.peer.log) (o : Out (H × Ctx)) : n.news (p.after o) = o.evs := by
  simp [Node.news, Peer.after, hp]

/-! ### A frame is taken up -/

theorem recv_request {e : End} {hs : Handlers H} {p p' : WasmDispatch.Peer H} {data : Bytes} {v : RequestPayload} {c : WasmCalls.Call}
    (hd : decodeFrame data = .ok (.request v)) (ha : Asks c v) (h : p.step e hs (.recv data) = some (.ok p')) :
    p' = p.after ⟨p.st, [.request c.kind v.streamID v.data v.metadata v.initialN], []⟩ := by
  simp only [Peer.step] at h
  split at h
  · have h := Option.some.inj h
    rw [recv_decoded hd] at h
    simp only [afterDecode, ha.whole, dispatch, ha.kind] at h
    cases h; rfl
  · cases h

theorem recv_other {e : End} {hs : Handlers H} {p p' : WasmDispatch.Peer H} {data : Bytes} {f : Frame}
    (hd : decodeFrame data = .ok f) (hf : isRequest f = false) (h : p.step e hs (.recv data) = some (.ok p')) :
    (getStream p.st f.streamID = none ∧ p' = p) ∨
    ∃ i o, getStream p.st f.streamID = some i ∧ dispatch p.st (some i) f = .ok o ∧ p' = p.after o := by
  simp only [Peer.step] at h
  split at h
  · have h := Option.some.inj h
    rw [recv_decoded hd] at h
    have h : (match getStream p.st f.streamID with
        | none => Res.ok p
        | some i => p.after <$> dispatch p.st (some i) f) = .ok p' := by
      cases f with
      | request v => cases hf
      | _ => exact h
    split at h
    · rename_i hg; cases h; exact .inl ⟨hg, rfl⟩
    · rename_i i hg
      cases ho : dispatch (H := H × Ctx) p.st (some i) f with
      | err m => rw [ho] at h; cases h
      | panic => rw [ho] at h; cases h
      | ok o => rw [ho] at h; cases h; exact .inr ⟨i, o, hg, ho, rfl⟩
  · cases h

/-- `p` takes up a request of `q`. -/
theorem link_ask {e : End} {hs : Handlers H} {p q : Node H} {wp wq : List Frame} {v : RequestPayload} (k : Kind)
    (L : Link e hs p q wp wq) (hh : wq.head? = some (.request v)) :
    Link e hs { p with peer := p.peer.after ⟨p.peer.st, [.request k v.streamID v.data v.metadata v.initialN], []⟩ } q wp wq.tail := by
  have hans : ∀ id, answers id wq.tail = answers id wq := by
    intro id; rw [answers_tail hh]; simp [isRequest]
  refine ⟨L.asks, L.tasks, L.jobs, L.sents, fun f hf => L.back f (List.mem_of_mem_tail hf), ?_, L.forget, ?_, L.known, ?_⟩
  · intro j c hc hk
    have := L.single j c hc hk
    simp only [inFlight, hans] at this ⊢
    simpa [toldCall, Peer.after] using this
  · intro j c o hc hk ho hr
    exact L.opened j c o hc hk ho (by simpa [Peer.after] using hr)
  · intro j c hc hk r hr
    exact L.heard j c hc hk r (by simpa [toldCall, Peer.after] using hr)

theorem link_ask_far {e : End} {hs : Handlers H} {p q : Node H} {wp wq : List Frame} {v : RequestPayload} {c : WasmCalls.Call}
    (L : Link e hs p q wp wq) (hc : c ∈ p.calls) (ha : Asks c v) (hh : wp.head? = some (.request v)) :
    Link e hs p { q with peer := q.peer.after ⟨q.peer.st, [.request c.kind v.streamID v.data v.metadata v.initialN], []⟩ } wp.tail wq := by
  have hq : ∀ id, requests id wp.tail + queued id (q.peer.tasks ++ [.request c.kind v.streamID v.data v.metadata v.initialN]) =
      requests id wp + queued id q.peer.tasks := by
    intro id
    rw [requests_tail (id := id) hh, queued_append]
    have : queued id [.request c.kind v.streamID v.data v.metadata v.initialN] = (v.streamID == id).toNat := by
      by_cases hv : v.streamID = id
      · simp [queued, isTask, hv]
      · have hv' := beq_eq_false_iff_ne.mpr hv
        simp [queued, isTask, hv']
    rw [this]
    simp only [isRequest, Frame.streamID, Bool.true_and]
    omega
  refine ⟨fun w hw => L.asks w (List.mem_of_mem_tail hw), ?_, L.jobs, ?_, L.back, ?_, ?_, L.opened, L.known, L.heard⟩
  · intro k id d m n ht
    rcases List.mem_append.mp ht with ht | ht
    · exact L.tasks k id d m n ht
    · cases List.mem_singleton.mp ht
      exact ⟨c, hc, rfl, ha.id.symm, ha.data.symm, ha.metadata.symm⟩
  · intro f hf
    exact L.sents f (by simpa [Peer.after] using hf)
  · intro j d hd hk
    have := L.single j d hd hk
    have h2 := hq d.id
    simp only [inFlight, Peer.after] at this ⊢
    omega
  · intro j d hd hk
    have := L.forget j d hd hk
    have h2 := hq d.id
    simp only [Peer.after, List.append_nil] at this ⊢
    omega

/-- A frame for a request-response call is an answer to it, and the call waits for it. -/
theorem frame_for {e : End} {hs : Handlers H} {p q : Node H} {wp wq : List Frame} {f : Frame}
    (L : Link e hs p q wp wq) (hl : Local e p) (hlq : Local (other e) q) (hb : p.calls.length ≤ 2 ^ 30)
    (hfm : f ∈ wq) (hf : isRequest f = false) {j : Nat} {c : WasmCalls.Call} (hc : p.calls[j]? = some c) (hk : c.kind = .rr)
    (hid : c.id = f.streamID) :
    ∃ r o, f = answerFrame c.id r ∧ Answered (other e) hs q.made c r ∧ p.obj j = some o ∧ results o p.peer.log = [] ∧
      getStream p.peer.st f.streamID = some o ∧ p.peer.st.objs[o]? = some .mono := by
  have hpos : 0 < answers c.id wq := List.countP_pos_iff.mpr ⟨f, hfm, by simp [hf, hid]⟩
  have hs1 := L.single j c hc hk
  simp only [inFlight] at hs1
  cases ho : p.obj j with
  | none => rw [ho] at hs1; simp at hs1; omega
  | some o =>
    rw [ho] at hs1
    simp only [Option.isSome_some, if_true, toldCall, ho] at hs1
    have hz : results o p.peer.log = [] := List.eq_nil_of_length_eq_zero (by omega)
    have hg := L.opened j c o hc hk ho hz
    rw [hid] at hg
    rcases L.back f hfm hf with ⟨d, h1, h2, h3⟩ | ⟨d, h1, _, h2⟩
    · cases call_unique hl hb hc h1 (h2.trans hid.symm)
      obtain ⟨r, h4, h5⟩ := h3 hk
      exact ⟨r, o, h4, h5, rfl, hz, hg, hl.mono j c o hc hk ho⟩
    · exact absurd (hid.trans h2.symm) (ids_disjoint hl hlq (List.mem_of_getElem? hc) h1)

/-- `p` takes up another frame, `q` sent it. -/
theorem link_frame {e : End} {hs : Handlers H} {p q : Node H} {wp wq : List Frame} {f : Frame} {p' : WasmDispatch.Peer H}
    (L : Link e hs p q wp wq) (hl : Local e p) (hlq : Local (other e) q) (hb : p.calls.length ≤ 2 ^ 30)
    (hh : wq.head? = some f) (hf : isRequest f = false)
    (h : (getStream p.peer.st f.streamID = none ∧ p' = p.peer) ∨
      ∃ i o, getStream p.peer.st f.streamID = some i ∧ dispatch p.peer.st (some i) f = .ok o ∧ p' = p.peer.after o) :
    Link e hs (p.absorb p') q wp wq.tail := by
  have hfm : f ∈ wq := List.mem_of_mem_head? hh
  have hnr : ∀ v, f ≠ .request v := by rintro v rfl; cases hf
  -- a request-response call the frame is for
  have hfor : ∀ (j : Nat) (c : WasmCalls.Call), p.calls[j]? = some c → c.kind = .rr → c.id = f.streamID →
      ∃ r o, f = answerFrame c.id r ∧ Answered (other e) hs q.made c r ∧ p.obj j = some o ∧ results o p.peer.log = [] ∧
        getStream p.peer.st f.streamID = some o ∧ p.peer.st.objs[o]? = some .mono :=
    fun j c => frame_for L hl hlq hb hfm hf
  have hans : ∀ id, id ≠ f.streamID → answers id wq.tail = answers id wq := by
    intro id hne
    rw [answers_tail hh]
    have : (f.streamID == id) = false := by rw [beq_eq_false_iff_ne]; exact fun h => hne h.symm
    simp [this]
  have hansf : answers f.streamID wq = answers f.streamID wq.tail + 1 := by
    rw [answers_tail hh]; simp [hf]
  rcases h with ⟨hnone, rfl⟩ | ⟨i, o, hg, hdisp, rfl⟩
  · -- nobody knows the stream
    have hne : ∀ (j : Nat) (c : WasmCalls.Call), p.calls[j]? = some c → c.kind = .rr → c.id ≠ f.streamID := by
      intro j c hc hk hid
      obtain ⟨r, o, _, _, _, _, h6, _⟩ := hfor j c hc hk hid
      rw [hnone] at h6; cases h6
    have hab : p.absorb p.peer = p := by simp [Node.absorb, Node.news]
    rw [hab]
    refine ⟨L.asks, L.tasks, L.jobs, L.sents, fun g hg => L.back g (List.mem_of_mem_tail hg), ?_, L.forget, L.opened, L.known, L.heard⟩
    intro j c hc hk
    have := L.single j c hc hk
    simp only [inFlight, hans c.id (hne j c hc hk)] at this ⊢
    exact this
  · obtain ⟨h1, h2, h3, h4⟩ := dispatch_shape hnr hdisp
    -- what a stream that is not the one found hears
    have hquiet : ∀ x, x ≠ i → results x o.evs = [] := by
      intro x hx
      have hx' : ¬ i = x := fun h => hx h.symm
      refine results_none fun ev hev => ?_
      rcases h4 ev hev with ⟨d, m, rfl⟩ | rfl | ⟨m, rfl⟩ <;> simp [signal, hx']
    have hother : ∀ (j : Nat) (c : WasmCalls.Call) (x : Nat), p.calls[j]? = some c → p.obj j = some x → c.id ≠ f.streamID →
        results x (p.peer.log ++ o.evs) = results x p.peer.log := by
      intro j c x hc hx hne
      have : x ≠ i := by
        rintro rfl
        exact hne (hl.entries.lookup hg j c hc hx)
      rw [results_append, hquiet x this, List.append_nil]
    have hself : ∀ (j : Nat) (c : WasmCalls.Call), p.calls[j]? = some c → c.kind = .rr → c.id = f.streamID →
        ∃ r, Answered (other e) hs q.made c r ∧ p.obj j = some i ∧ results i p.peer.log = [] ∧
          results i (p.peer.log ++ o.evs) = [r] := by
      intro j c hc hk hid
      obtain ⟨r, x, h5, h6, h7, h8, h9, h10⟩ := hfor j c hc hk hid
      rw [hg] at h9; cases h9
      refine ⟨r, h6, h7, h8, ?_⟩
      rw [results_append, h8, List.nil_append]
      rw [h5] at hdisp
      cases r with
      | value d m =>
        simp only [answerFrame, dispatch, deliverIf, if_true, deliver, h10, Obj.hasSink, Res.ok_bind, Res.pure_eq] at hdisp
        cases hdisp
        simp [results, signal, resultOf]
      | failure m =>
        simp only [answerFrame, dispatch, if_true, deliver, h10, Obj.hasSink, Res.ok_bind, Res.pure_eq] at hdisp
        cases hdisp
        simp [results, signal, resultOf]
    have htold : ∀ (j : Nat) (c : WasmCalls.Call), p.calls[j]? = some c → c.id ≠ f.streamID →
        toldCall (p.absorb (p.peer.after o)) j = toldCall p j := by
      intro j c hc hne
      simp only [toldCall, Node.absorb]
      cases hx : p.obj j with
      | none => rfl
      | some x => exact hother j c x hc hx hne
    refine ⟨L.asks, L.tasks, L.jobs, L.sents, fun g hg => L.back g (List.mem_of_mem_tail hg), ?_, L.forget, ?_, ?_, ?_⟩
    · intro j c hc hk
      have hs1 := L.single j c hc hk
      by_cases hid : c.id = f.streamID
      · obtain ⟨r, h5, h6, h7, h8⟩ := hself j c hc hk hid
        have e1 : toldCall (p.absorb (p.peer.after o)) j = [r] := by
          simp only [toldCall, Node.absorb, h6]; exact h8
        have e2 : toldCall p j = [] := by simp only [toldCall, h6]; exact h7
        have e3 : (p.absorb (p.peer.after o)).obj j = p.obj j := rfl
        rw [e1, e3]; rw [e2] at hs1
        simp only [inFlight, hid, hansf, List.length_cons, List.length_nil] at hs1 ⊢
        omega
      · rw [htold j c hc hid]
        simp only [inFlight, hans c.id hid] at hs1 ⊢
        exact hs1
    · intro j c x hc hk hx hr
      have hx : p.obj j = some x := hx
      have hr : results x (p.peer.log ++ o.evs) = [] := hr
      by_cases hid : c.id = f.streamID
      · obtain ⟨r, _, h6, _, h8⟩ := hself j c hc hk hid
        rw [h6] at hx; cases hx
        rw [h8] at hr; cases hr
      · rw [hother j c x hc hx hid] at hr
        have := L.opened j c x hc hk hx hr
        show getStream o.st c.id = some x
        rcases h2 with h2 | h2 <;> rw [h2]
        · exact this
        · rw [getStream_remove _ hid]; exact this
    · show Entries _ o.st
      rcases h2 with h2 | h2 <;> rw [h2]
      · exact L.known
      · exact L.known.removed _
    · intro j c hc hk r hr
      by_cases hid : c.id = f.streamID
      · obtain ⟨r', h5, h6, h7, h8⟩ := hself j c hc hk hid
        have e1 : toldCall (p.absorb (p.peer.after o)) j = [r'] := by
          simp only [toldCall, Node.absorb, h6]; exact h8
        rw [e1] at hr
        cases List.mem_singleton.mp hr
        exact h5
      · rw [htold j c hc hid] at hr
        exact L.heard j c hc hk r hr

theorem link_frame_far {e : End} {hs : Handlers H} {p q : Node H} {wp wq : List Frame} {f : Frame} {q' : WasmDispatch.Peer H}
    (L : Link e hs p q wp wq) (hh : wp.head? = some f) (hf : isRequest f = false)
    (h : (getStream q.peer.st f.streamID = none ∧ q' = q.peer) ∨
      ∃ i o, getStream q.peer.st f.streamID = some i ∧ dispatch q.peer.st (some i) f = .ok o ∧ q' = q.peer.after o) :
    Link e hs p (q.absorb q') wp.tail wq ∧ (q.news q').filterMap sentOf = [] := by
  have hnr : ∀ v, f ≠ .request v := by rintro v rfl; cases hf
  have hreq : ∀ id, requests id wp.tail = requests id wp := by
    intro id; rw [requests_tail hh]; simp [hf]
  have build : ∀ (ts : List Task) (evs : List (Ev (H × Ctx))), q'.tasks = q.peer.tasks ++ ts → q'.log = q.peer.log ++ evs →
      (∀ t ∈ ts, ∃ i n, t = .demand i n) → (∀ ev ∈ evs, jobOf ev = none ∧ sentOf ev = none ∧ ∀ id, isRefusal id ev = false) →
      Link e hs p (q.absorb q') wp.tail wq ∧ (q.news q').filterMap sentOf = [] := by
    intro ts evs h1 h2 h3 h4
    have hnews : q.news q' = evs := by simp [Node.news, h2]
    have hjobs : (q.absorb q').jobs = q.jobs := by
      have : evs.filterMap jobOf = [] := List.filterMap_eq_nil_iff.mpr fun ev hev => (h4 ev hev).1
      simp [Node.absorb, hnews, this]
    have hqd : ∀ id, queued id q'.tasks = queued id q.peer.tasks := by
      intro id
      rw [h1, queued_append]
      have : queued id ts = 0 := List.countP_eq_zero.mpr fun t ht => by
        obtain ⟨i, n, rfl⟩ := h3 t ht; simp [isTask]
      omega
    have href : ∀ id, refusals id q'.log = refusals id q.peer.log := by
      intro id
      rw [h2, refusals_append]
      have : refusals id evs = 0 := List.countP_eq_zero.mpr fun ev hev => by simp [(h4 ev hev).2.2 id]
      omega
    refine ⟨⟨fun w hw => L.asks w (List.mem_of_mem_tail hw), ?_, ?_, ?_, L.back, ?_, ?_, L.opened, L.known, L.heard⟩, ?_⟩
    · intro k id d m n ht
      have ht : Task.request k id d m n ∈ q'.tasks := ht
      rw [h1] at ht
      rcases List.mem_append.mp ht with ht | ht
      · exact L.tasks k id d m n ht
      · obtain ⟨i, n, h⟩ := h3 _ ht; cases h
    · rw [hjobs]; exact L.jobs
    · intro g hg
      have hg : Ev.sent g ∈ q'.log := hg
      rw [h2] at hg
      rcases List.mem_append.mp hg with hg | hg
      · exact L.sents g hg
      · have := (h4 _ hg).2.1; cases this
    · intro j c hc hk
      have := L.single j c hc hk
      simp only [inFlight, hreq, hjobs] at this ⊢
      show requests c.id wp + queued c.id q'.tasks + handlers c.id q.jobs + answers c.id wq + _ = _
      rw [hqd]; exact this
    · intro j c hc hk
      have := L.forget j c hc hk
      rw [hjobs, hreq]
      show requests c.id wp + queued c.id q'.tasks + handlers c.id q.jobs + refusals c.id q'.log = 1
      rw [hqd, href]; exact this
    · rw [hnews]
      exact List.filterMap_eq_nil_iff.mpr fun ev hev => (h4 ev hev).2.1
  rcases h with ⟨_, rfl⟩ | ⟨i, o, hg, hdisp, rfl⟩
  · exact build [] [] (by simp) (by simp) (fun t ht => absurd ht List.not_mem_nil) (fun ev hev => absurd hev List.not_mem_nil)
  · obtain ⟨_, _, h3, h4⟩ := dispatch_shape hnr hdisp
    refine build o.tasks o.evs rfl rfl (fun t ht => ⟨i, h3 t ht⟩) fun ev hev => ?_
    rcases h4 ev hev with ⟨d, m, rfl⟩ | rfl | ⟨m, rfl⟩ <;> exact ⟨rfl, rfl, fun _ => rfl⟩

/-! ### A request is handled -/

theorem shown_passed (e : End) (k : Kind) (md : Bytes) : passed e k md = shown e k md := by
  cases e <;> cases k <;> rfl

/-- What the handling of a request comes to, for the lists that are counted. -/
inductive Ran (e : End) (hs : Handlers H) (k : Kind) (id : UInt32) (d m : Bytes) (p p' : WasmDispatch.Peer H) : Prop
  | refused (msg : Bytes) : (∀ op : UInt32, opIndex m = some op.toNat → hs k op = none) → p'.st = p.st → p'.tasks = p.tasks →
      p'.log = p.log ++ [.sent (errorFrame id msg)] → msg = refusal m → Ran e hs k id d m p p'
  | run (op : UInt32) (h : H) (c : Ctx) (ts : List Task) : opIndex m = some op.toNat → hs k op = some h →
      (p'.st = p.st ∨ p'.st = (p.register (.resp false false) c id).st) → p'.tasks = p.tasks ++ ts →
      (∀ t ∈ ts, ∃ i n, t = .attach i n) → (∃ c', p'.log = p.log ++ [.invoked k (h, c') id d (passed e k m)]) →
      Ran e hs k id d m p p'

theorem ran {e : End} {hs : Handlers H} {p p' : WasmDispatch.Peer H} {k : Kind} {id : UInt32} {d m : Bytes} {n : UInt32}
    (h : p.handleRequest e hs k id d m n = .ok p') : Ran e hs k id d m p p' := by
  obtain ⟨p2, h1, h2⟩ := handled e hs p k id d m n
  cases h1.symm.trans h
  cases h2 with
  | short hl => exact .refused _ (fun op ho => by rw [index_short hl] at ho; cases ho) rfl (by simp [Peer.after]) rfl (by simp [refusal, hl])
  | unknown op ho hn =>
    refine .refused _ (fun op' ho' => ?_) rfl (by simp [Peer.after]) rfl (by
      have : ¬ m.length < 8 := fun hl => by rw [index_short hl] at ho; cases ho
      simp [refusal, this])
    rw [ho] at ho'
    have : op = op' := UInt32.toNat_inj.mp (Option.some.inj ho')
    rw [← this]; exact hn
  | run op parent g ho hp hg =>
    obtain ⟨ts, h3, h4, h5⟩ := accept_tasks e p k g id d m n parent
    cases hkept : kept e k (p.handlerCtx e k id parent) with
    | none =>
      refine .run op g .nil ts ho hg ?_ h3 (fun t ht => ⟨_, _, (h4 t ht).choose_spec⟩) ⟨_, h5⟩
      left; simp [Peer.accept, hkept, Peer.after]
    | some c =>
      refine .run op g c ts ho hg ?_ h3 (fun t ht => ⟨_, _, (h4 t ht).choose_spec⟩) ⟨_, h5⟩
      right; simp [Peer.accept, hkept, Peer.after]

/-- The calls of the end that handles a request of the other. -/
theorem link_ran {e e' : End} {hs hs' : Handlers H} {p q : Node H} {wp wq : List Frame} {k : Kind} {id : UInt32} {d m : Bytes}
    {p1 p' : WasmDispatch.Peer H} (L : Link e hs p q wp wq) (hst : p1.st = p.peer.st) (hlog : p1.log = p.peer.log)
    (hid : ∃ c ∈ q.calls, c.id = id) (h : Ran e' hs' k id d m p1 p') :
    Link e hs (p.absorb p') q (wp ++ (p.news p').filterMap sentOf) wq := by
  cases h with
  | refused msg _ h1 _ h3 =>
    rw [hlog] at h3
    have hn : p.news p' = [.sent (errorFrame id msg)] := by simp [Node.news, h3]
    refine link_calm L rfl rfl ?_ ?_ ?_ ?_
    · intro o
      show results o p'.log = _
      rw [h3, results_append]
      have : results o [(.sent (errorFrame id msg) : Ev (H × Ctx))] = [] := rfl
      rw [this, List.append_nil]
    · intro i j hg; show getStream p'.st i = _; rw [h1, hst]; exact hg
    · intro P _ hP; show Entries P p'.st; rw [h1, hst]; exact hP
    · rw [hn]
      intro f hf
      cases List.mem_singleton.mp hf; rfl
  | run op g c ts _ _ h1 _ _ h3 =>
    obtain ⟨c', h3⟩ := h3
    rw [hlog] at h3
    have hn : p.news p' = [.invoked k (g, c') id d (passed e' k m)] := by simp [Node.news, h3]
    have hreg : (p1.register (.resp false false) c id).st =
        registerStream { p.peer.st with objs := p.peer.st.objs ++ [.resp false false] } id p.peer.st.objs.length := by
      simp only [Peer.register, hst]
    refine link_calm L rfl rfl ?_ ?_ ?_ ?_
    · intro o
      show results o p'.log = _
      rw [h3, results_append]
      have : results o [(.invoked k (g, c') id d (passed e' k m) : Ev (H × Ctx))] = [] := rfl
      rw [this, List.append_nil]
    · intro i j hg
      show getStream p'.st i = _
      rcases h1 with h1 | h1 <;> rw [h1]
      · rw [hst]; exact hg
      · rw [hreg]; exact get_register_some (st := { p.peer.st with objs := p.peer.st.objs ++ [.resp false false] }) hg
    · intro P hq hP
      show Entries P p'.st
      rcases h1 with h1 | h1 <;> rw [h1]
      · rw [hst]; exact hP
      · rw [hreg]; exact Entries.registered (entries_objs hP _) (hq _ _ hid)
    · rw [hn]
      intro f hf
      exact absurd hf List.not_mem_nil

/-- The calls of the end whose request is handled. -/
theorem link_ran_far {e : End} {hs : Handlers H} {p q : Node H} {wp wq : List Frame} {k : Kind} {id : UInt32} {d m : Bytes}
    {n : UInt32} {i : Nat} {q' : WasmDispatch.Peer H} (L : Link e hs p q wp wq) (hl : Local e p) (hb : p.calls.length ≤ 2 ^ 30)
    (ht : q.peer.tasks[i]? = some (.request k id d m n))
    (h : Ran (other e) hs k id d m { q.peer with tasks := q.peer.tasks.eraseIdx i } q') :
    Link e hs p (q.absorb q') wp (wq ++ (q.news q').filterMap sentOf) := by
  obtain ⟨c, hc, rfl, rfl, rfl, rfl⟩ := L.tasks _ _ _ _ _ (List.mem_of_getElem? ht)
  obtain ⟨j, hj⟩ := List.mem_iff_getElem?.mp hc
  have hqe : ∀ x, queued x q.peer.tasks = queued x (q.peer.tasks.eraseIdx i) + (c.id == x).toNat := by
    intro x; exact queued_erase ht
  cases h with
  | refused msg hu h1 h2 h3 hmsg =>
    have h2 : q'.tasks = q.peer.tasks.eraseIdx i := h2
    have h3 : q'.log = q.peer.log ++ [.sent (errorFrame c.id msg)] := h3
    have hn : q.news q' = [.sent (errorFrame c.id msg)] := by simp [Node.news, h3]
    have hout : (q.news q').filterMap sentOf = [errorFrame c.id msg] := by rw [hn]; rfl
    have hjobs : (q.absorb q').jobs = q.jobs := by simp [Node.absorb, hn, jobOf]
    have hans : ∀ x, answers x [errorFrame c.id msg] = (c.id == x).toNat := by
      intro x
      by_cases hv : c.id = x
      · simp [answers, errorFrame, isRequest, Frame.streamID, hv]
      · have hv' := beq_eq_false_iff_ne.mpr hv
        simp [answers, errorFrame, isRequest, Frame.streamID, hv', hv]
    rw [hout]
    refine ⟨L.asks, ?_, by rw [hjobs]; exact L.jobs, ?_, ?_, ?_, ?_, L.opened, L.known, L.heard⟩
    · intro k' id' d' m' n' ht'
      have ht' : Task.request k' id' d' m' n' ∈ q'.tasks := ht'
      rw [h2] at ht'
      exact L.tasks k' id' d' m' n' (List.mem_of_mem_eraseIdx ht')
    · intro g hg
      have hg : Ev.sent g ∈ q'.log := hg
      rw [h3] at hg
      rcases List.mem_append.mp hg with hg | hg
      · exact L.sents g hg
      · cases List.mem_singleton.mp hg
        exact ⟨c, hc, rfl, hu⟩
    · intro g hg hq
      rcases List.mem_append.mp hg with hg | hg
      · exact L.back g hg hq
      · cases List.mem_singleton.mp hg
        exact .inl ⟨c, hc, rfl, fun _ => ⟨.failure msg, rfl, .refused msg hu hmsg⟩⟩
    · intro j' c' hc' hk'
      have := L.single j' c' hc' hk'
      have e1 := hqe c'.id
      have e2 := hans c'.id
      simp only [inFlight, hjobs, answers_append] at this ⊢
      have e3 : (q.absorb q').peer.tasks = q.peer.tasks.eraseIdx i := h2
      rw [e3]; omega
    · intro j' c' hc' hk'
      have := L.forget j' c' hc' hk'
      have e1 := hqe c'.id
      have e4 : refusals c'.id [(.sent (errorFrame c.id msg) : Ev (H × Ctx))] = (c.id == c'.id).toNat := by
        by_cases hv : c.id = c'.id
        · simp [refusals, isRefusal, errorFrame, Frame.streamID, hv]
        · have hv' := beq_eq_false_iff_ne.mpr hv
          simp [refusals, isRefusal, errorFrame, Frame.streamID, hv', hv]
      have e3 : (q.absorb q').peer.tasks = q.peer.tasks.eraseIdx i := h2
      have e5 : (q.absorb q').peer.log = q.peer.log ++ [.sent (errorFrame c.id msg)] := h3
      rw [hjobs, e3, e5, refusals_append]; omega
  | run op g cx ts ho hg h1 h2 hts h3 =>
    obtain ⟨c', h3⟩ := h3
    have h2 : q'.tasks = q.peer.tasks.eraseIdx i ++ ts := h2
    have h3 : q'.log = q.peer.log ++ [.invoked c.kind (g, c') c.id c.data (passed (other e) c.kind c.metadata)] := h3
    have hn : q.news q' = [.invoked c.kind (g, c') c.id c.data (passed (other e) c.kind c.metadata)] := by simp [Node.news, h3]
    have hout : (q.news q').filterMap sentOf = [] := by rw [hn]; rfl
    have hjobs : (q.absorb q').jobs = q.jobs ++ [⟨c.kind, g, c.id, c.data, passed (other e) c.kind c.metadata⟩] := by
      simp [Node.absorb, hn, jobOf]
    have hserves : Serves (other e) hs c ⟨c.kind, g, c.id, c.data, passed (other e) c.kind c.metadata⟩ :=
      ⟨rfl, rfl, rfl, shown_passed _ _ _, op, ho, hg⟩
    have hhs : ∀ x, handlers x [(⟨c.kind, g, c.id, c.data, passed (other e) c.kind c.metadata⟩ : WasmCalls.Job H)] = (c.id == x).toNat := by
      intro x
      by_cases hv : c.id = x
      · simp [handlers, hv]
      · have hv' := beq_eq_false_iff_ne.mpr hv
        simp [handlers, hv', hv]
    have hqd : ∀ x, queued x q'.tasks = queued x (q.peer.tasks.eraseIdx i) := by
      intro x
      rw [h2, queued_append]
      have : queued x ts = 0 := List.countP_eq_zero.mpr fun t ht => by
        obtain ⟨i, n, rfl⟩ := hts t ht; simp [isTask]
      omega
    rw [hout, List.append_nil]
    refine ⟨L.asks, ?_, ?_, ?_, L.back, ?_, ?_, L.opened, L.known, L.heard⟩
    · intro k' id' d' m' n' ht'
      have ht' : Task.request k' id' d' m' n' ∈ q'.tasks := ht'
      rw [h2] at ht'
      rcases List.mem_append.mp ht' with ht' | ht'
      · exact L.tasks k' id' d' m' n' (List.mem_of_mem_eraseIdx ht')
      · obtain ⟨i, n, h⟩ := hts _ ht'; cases h
    · intro x hx
      rw [hjobs] at hx
      rcases List.mem_append.mp hx with hx | hx
      · exact L.jobs x hx
      · cases List.mem_singleton.mp hx
        exact ⟨c, hc, hserves⟩
    · intro f hf
      have hf : Ev.sent f ∈ q'.log := hf
      rw [h3] at hf
      rcases List.mem_append.mp hf with hf | hf
      · exact L.sents f hf
      · cases List.mem_singleton.mp hf
    · intro j' d' hd' hk'
      have := L.single j' d' hd' hk'
      have e1 := hqe d'.id
      have e2 := hhs d'.id
      have e3 : queued d'.id (q.absorb q').peer.tasks = queued d'.id (q.peer.tasks.eraseIdx i) := hqd d'.id
      simp only [inFlight, hjobs, handlers_append, e3] at this ⊢
      omega
    · intro j' d' hd' hk'
      have := L.forget j' d' hd' hk'
      have e1 := hqe d'.id
      have e2 := hhs d'.id
      have e3 : queued d'.id (q.absorb q').peer.tasks = queued d'.id (q.peer.tasks.eraseIdx i) := hqd d'.id
      have e5 : refusals d'.id (q.absorb q').peer.log = refusals d'.id q.peer.log := by
        show refusals d'.id q'.log = _
        rw [h3, refusals_append]; rfl
      rw [hjobs, handlers_append, e3, e5]; omega

/-! ### Demand and subscriptions -/

/-- The dispatcher does something that is not about calls. -/
structure Mute (p p' : WasmDispatch.Peer H) : Prop where
  st : ∃ os, p'.st = { p.st with objs := os }
  tasks : p'.tasks = p.tasks ∨ ∃ (i : Nat) (t : Task), p.tasks[i]? = some t ∧ (∀ k id d m n, t ≠ .request k id d m n) ∧ p'.tasks = p.tasks.eraseIdx i
  log : ∃ evs, p'.log = p.log ++ evs ∧ ∀ ev ∈ evs, ∃ i n, ev = .requested i n

theorem mute_tasks {p p' : WasmDispatch.Peer H} (h : Mute p p') : (∀ id, queued id p'.tasks = queued id p.tasks) ∧
    ∀ t ∈ p'.tasks, t ∈ p.tasks := by
  rcases h.tasks with h | ⟨i, t, h1, h2, h3⟩
  · rw [h]; exact ⟨fun _ => rfl, fun _ h => h⟩
  · rw [h3]
    refine ⟨fun id => ?_, fun _ h => List.mem_of_mem_eraseIdx h⟩
    rw [queued_erase (id := id) h1]
    cases t with
    | request k id d m n => exact absurd rfl (h2 k id d m n)
    | attach i n => rfl
    | demand i n => rfl

theorem link_mute {e : End} {hs : Handlers H} {p q : Node H} {wp wq : List Frame} {p' : WasmDispatch.Peer H}
    (L : Link e hs p q wp wq) (h : Mute p.peer p') :
    Link e hs (p.absorb p') q (wp ++ (p.news p').filterMap sentOf) wq := by
  obtain ⟨os, hst⟩ := h.st
  obtain ⟨evs, hlog, hev⟩ := h.log
  have hn : p.news p' = evs := by simp [Node.news, hlog]
  refine link_calm L rfl rfl ?_ ?_ ?_ ?_
  · intro o
    show results o p'.log = _
    have h0 : results o evs = [] := results_none fun ev hm => by
      obtain ⟨i, n, rfl⟩ := hev ev hm; rfl
    rw [hlog, results_append, h0, List.append_nil]
  · intro i j hg; show getStream p'.st i = _; rw [hst]; exact hg
  · intro P _ hP; show Entries P p'.st; rw [hst]; exact entries_objs hP _
  · intro f hf
    rw [hn] at hf
    obtain ⟨ev, h1, h2⟩ := List.mem_filterMap.mp hf
    obtain ⟨i, n, rfl⟩ := hev ev h1; cases h2

theorem link_mute_far {e : End} {hs : Handlers H} {p q : Node H} {wp wq : List Frame} {q' : WasmDispatch.Peer H}
    (L : Link e hs p q wp wq) (h : Mute q.peer q') :
    Link e hs p (q.absorb q') wp (wq ++ (q.news q').filterMap sentOf) := by
  obtain ⟨evs, hlog, hev⟩ := h.log
  obtain ⟨hq1, hq2⟩ := mute_tasks h
  have hn : q.news q' = evs := by simp [Node.news, hlog]
  have hout : (q.news q').filterMap sentOf = [] := by
    rw [hn]
    refine List.filterMap_eq_nil_iff.mpr fun ev hm => ?_
    obtain ⟨i, n, rfl⟩ := hev ev hm; rfl
  have hjobs : (q.absorb q').jobs = q.jobs := by
    have : evs.filterMap jobOf = [] := List.filterMap_eq_nil_iff.mpr fun ev hm => by
      obtain ⟨i, n, rfl⟩ := hev ev hm; rfl
    simp [Node.absorb, hn, this]
  have href : ∀ id, refusals id q'.log = refusals id q.peer.log := by
    intro id
    rw [hlog, refusals_append]
    have : refusals id evs = 0 := List.countP_eq_zero.mpr fun ev hm => by
      obtain ⟨i, n, rfl⟩ := hev ev hm; simp [isRefusal]
    omega
  rw [hout, List.append_nil]
  refine ⟨L.asks, ?_, by rw [hjobs]; exact L.jobs, ?_, L.back, ?_, ?_, L.opened, L.known, L.heard⟩
  · intro k id d m n ht
    exact L.tasks k id d m n (hq2 _ ht)
  · intro g hg
    have hg : Ev.sent g ∈ q'.log := hg
    rw [hlog] at hg
    rcases List.mem_append.mp hg with hg | hg
    · exact L.sents g hg
    · obtain ⟨i, n, h⟩ := hev _ hg; cases h
  · intro j c hc hk
    have := L.single j c hc hk
    have e1 : queued c.id (q.absorb q').peer.tasks = queued c.id q.peer.tasks := hq1 c.id
    simp only [inFlight, hjobs, e1] at this ⊢
    exact this
  · intro j c hc hk
    have := L.forget j c hc hk
    have e1 : queued c.id (q.absorb q').peer.tasks = queued c.id q.peer.tasks := hq1 c.id
    have e2 : refusals c.id (q.absorb q').peer.log = refusals c.id q.peer.log := href c.id
    rw [hjobs, e1, e2]; exact this

/-- What a piece of work comes to. -/
theorem task_cases {e : End} {hs : Handlers H} {p p' : WasmDispatch.Peer H} {i : Nat} {live : Bool}
    (h : p.step e hs (.task i live) = some (.ok p')) :
    (∃ k id d m n, p.tasks[i]? = some (.request k id d m n) ∧ Ran e hs k id d m { p with tasks := p.tasks.eraseIdx i } p') ∨
      Mute p p' := by
  simp only [Peer.step] at h
  split at h
  · cases h
  · rename_i t ht
    have h := Option.some.inj h
    cases t with
    | request k id d m n => exact .inl ⟨k, id, d, m, n, ht, ran h⟩
    | attach j n =>
      right
      simp only [Peer.runTask, Handler.runTask] at h
      split at h
      · cases h
        exact ⟨⟨_, rfl⟩, .inr ⟨i, _, ht, (fun _ _ _ _ _ h => nomatch h), by simp [Peer.after]⟩, _, rfl, by simp⟩
      · cases h
    | demand j n =>
      right
      simp only [Peer.runTask, Handler.runTask] at h
      split at h
      · cases h
      · split at h
        · cases h
          exact ⟨⟨_, rfl⟩, .inr ⟨i, _, ht, (fun _ _ _ _ _ h => nomatch h), by simp [Peer.after]⟩, _, rfl, by simp⟩
        · cases h

/-! ## Every run -/

theorem good_init (hs : End → Handlers H) : Good hs (WasmCalls.Sys.init : WasmCalls.Sys H) := by
  constructor
  · intro e
    refine ⟨rfl, ?_, ?_, ?_, Iota.Props.WasmCaller.sound_init, fun _ _ => rfl, ?_⟩
    · intro j c hc; simp [WasmCalls.Sys.init, Node.init] at hc
    · intro j o ho; simp [WasmCalls.Sys.init, Node.init] at ho
    · intro j c o hc; simp [WasmCalls.Sys.init, Node.init] at hc
    · exact ⟨fun x hx => by simp [WasmCalls.Sys.init, Node.init, Peer.init, State.init] at hx,
        fun x hx => by simp [WasmCalls.Sys.init, Node.init, Peer.init, State.init] at hx⟩
  · intro e
    refine ⟨?_, ?_, ?_, ?_, ?_, ?_, ?_, ?_, ?_, ?_⟩
    · intro v hv; exact absurd hv List.not_mem_nil
    · intro k id d m n ht; exact absurd ht List.not_mem_nil
    · intro x hx; exact absurd hx List.not_mem_nil
    · intro f hf; exact absurd hf List.not_mem_nil
    · intro f hf; exact absurd hf List.not_mem_nil
    · intro j c hc; simp [WasmCalls.Sys.init, Node.init] at hc
    · intro j c hc; simp [WasmCalls.Sys.init, Node.init] at hc
    · intro j c o hc; simp [WasmCalls.Sys.init, Node.init] at hc
    · exact ⟨fun x hx => by simp [WasmCalls.Sys.init, Node.init, Peer.init, State.init] at hx,
        fun x hx => by simp [WasmCalls.Sys.init, Node.init, Peer.init, State.init] at hx⟩
    · intro j c hc; simp [WasmCalls.Sys.init, Node.init] at hc

theorem put_node {y : WasmCalls.Sys H} {e : End} {n : Node H} {out : List Frame} {r : Bool} : (y.put e n out r).node e = n := by
  simp [WasmCalls.Sys.put]

theorem put_other {y : WasmCalls.Sys H} {e : End} {n : Node H} {out : List Frame} {r : Bool} :
    (y.put e n out r).node (other e) = y.node (other e) := by
  simp [WasmCalls.Sys.put, other_ne]

theorem call_calls {e : End} {n n' : Node H} {k : Kind} {d m : Bytes} {ctx : Ctx} {out : List Frame}
    (h : n.call e k d m ctx = some (n', out)) : ∃ c, c.kind = k ∧ n'.calls = n.calls ++ [c] := by
  unfold Node.call at h
  split at h
  · cases h
  · cases h; exact ⟨_, rfl, rfl⟩

theorem subscribe_calls {e : End} {hs : Handlers H} {n n' : Node H} {j : Nat} {out : List Frame}
    (h : n.subscribe e hs j = some (n', out)) : n'.calls = n.calls := by
  obtain ⟨c, o, _, _, rfl, _⟩ := subscribe_shape h
  rfl

theorem answer_calls {n n' : Node H} {i : Nat} {r : Result} {out : List Frame} (h : n.answer i r = some (n', out)) :
    n'.calls = n.calls ∧ n'.peer = n.peer ∧ n'.obj = n.obj ∧ n'.counter = n.counter := by
  unfold Node.answer at h
  split at h
  · cases h
  · split at h
    · cases h; exact ⟨rfl, rfl, rfl, rfl⟩
    · cases h

/-- The calls of an end only grow. -/
theorem calls_grow {hs : End → Handlers H} {y y' : WasmCalls.Sys H} {a : WasmCalls.Act} (h : y.step hs a = some y') (t : End) :
    ∃ l, (y'.node t).calls = (y.node t).calls ++ l := by
  have key : ∀ (e : End) (n : Node H) (out : List Frame) (r : Bool), (∃ l, n.calls = (y.node e).calls ++ l) →
      ∃ l, ((y.put e n out r).node t).calls = (y.node t).calls ++ l := by
    intro e n out r hn
    rcases eq_or_other e t with rfl | rfl
    · rw [put_node]; exact hn
    · rw [put_other]; exact ⟨[], by simp⟩
  have does : ∀ (e : End) (a : WasmDispatch.Act) (r : Bool), y.does hs e a r = some y' →
      ∃ l, (y'.node t).calls = (y.node t).calls ++ l := by
    intro e a r h
    unfold WasmCalls.Sys.does at h
    split at h
    · cases h; exact key _ _ _ _ ⟨[], by simp [Node.absorb]⟩
    · cases h
  cases a with
  | call e k d m ctx =>
    simp only [WasmCalls.Sys.step, Option.map_eq_some_iff] at h
    obtain ⟨⟨n, out⟩, h1, rfl⟩ := h
    obtain ⟨c, _, hc⟩ := call_calls h1
    exact key _ _ _ _ ⟨[c], hc⟩
  | subscribe e j =>
    simp only [WasmCalls.Sys.step, Option.map_eq_some_iff] at h
    obtain ⟨⟨n, out⟩, h1, rfl⟩ := h
    exact key _ _ _ _ ⟨[], by rw [subscribe_calls h1, List.append_nil]⟩
  | start e j n =>
    simp only [WasmCalls.Sys.step, Option.bind_eq_some_iff] at h
    obtain ⟨c, h1, h2⟩ := h
    split at h2
    · cases h2; exact key _ _ _ _ ⟨[], by simp⟩
    · cases h2
  | own e j f =>
    simp only [WasmCalls.Sys.step, Option.bind_eq_some_iff] at h
    obtain ⟨c, h1, h2⟩ := h
    split at h2
    · cases h2; exact key _ _ _ _ ⟨[], by simp⟩
    · cases h2
  | recv e data =>
    simp only [WasmCalls.Sys.step, Option.bind_eq_some_iff] at h
    obtain ⟨f, h1, h2⟩ := h
    split at h2
    · exact does _ _ _ h2
    · cases h2
  | task e i live => exact does _ _ _ h
  | startIn e i live => exact does e (.startIn i live) false h
  | openSink e i => exact does e (.openSink i) false h
  | answer e i r =>
    simp only [WasmCalls.Sys.step, Option.map_eq_some_iff] at h
    obtain ⟨⟨n, out⟩, h1, rfl⟩ := h
    exact key _ _ _ _ ⟨[], by rw [(answer_calls h1).1, List.append_nil]⟩
  | emit e i f =>
    simp only [WasmCalls.Sys.step, Option.bind_eq_some_iff] at h
    obtain ⟨c, h1, h2⟩ := h
    split at h2
    · cases h2; exact key _ _ _ _ ⟨[], by simp⟩
    · cases h2

theorem bounded_before {hs : End → Handlers H} {y y' : WasmCalls.Sys H} {a : WasmCalls.Act} (h : y.step hs a = some y')
    (hb : Bounded y') : Bounded y := by
  intro t
  obtain ⟨l, hl⟩ := calls_grow h t
  have := hb t
  rw [hl, List.length_append] at this
  omega

theorem good_step {hs : End → Handlers H} {y y' : WasmCalls.Sys H} {a : WasmCalls.Act} (hg : Good hs y) (hb' : Bounded y')
    (h : y.step hs a = some y') : Good hs y' := by
  have hb := bounded_before h hb'
  have far : ∀ e, Link (other e) (hs e) (y.node (other e)) (y.node e) (y.wire (other e)) (y.wire e) := by
    intro e
    have := hg.link (other e)
    rwa [other_other] at this
  have lfar : ∀ e, Local (other (other e)) (y.node e) := by
    intro e; rw [other_other]; exact hg.loc e
  have wire0 : ∀ e, y.wire e = y.wire e ++ [] := fun e => (List.append_nil _).symm
  -- the dispatcher does something that is not about calls
  have mute : ∀ (e : End) (p : WasmDispatch.Peer H) (a : WasmDispatch.Act), Inner a → (y.node e).peer.step e (hs e) a = some (.ok p) →
      Mute (y.node e).peer p →
      Good hs (y.put e ((y.node e).absorb p) (((y.node e).news p).filterMap sentOf) false) := by
    intro e p a ha hs1 hm
    exact good_put hg e _ _ false (local_does (hg.loc e) ha hs1) (link_mute (hg.link e) hm) (link_mute_far (far e) hm)
  cases a with
  | call e k d m ctx =>
    simp only [WasmCalls.Sys.step, Option.map_eq_some_iff] at h
    obtain ⟨⟨n, out⟩, h1, rfl⟩ := h
    have hbn := hb' e
    rw [put_node] at hbn
    have hl' := local_call (hg.loc e) hbn h1
    exact good_put hg e n out false hl' (link_call (hg.link e) (hg.loc e) hl' (hg.loc _) hbn h1) (link_call_far (far e) h1)
  | subscribe e j =>
    simp only [WasmCalls.Sys.step, Option.map_eq_some_iff] at h
    obtain ⟨⟨n, out⟩, h1, rfl⟩ := h
    exact good_put hg e n out false (local_subscribe (hg.loc e) h1)
      (link_subscribe (hg.link e) (hg.loc e) (hg.loc _) (hb e) h1) (link_subscribe_far (far e) h1)
  | start e j n =>
    simp only [WasmCalls.Sys.step, Option.bind_eq_some_iff] at h
    obtain ⟨c, h1, h2⟩ := h
    split at h2
    · rename_i hk
      cases h2
      have ha := requestFrame_asks c n (decide (c.kind = .rs))
      exact good_put hg e _ _ false (hg.loc e) (link_own (hg.link e) (hg.loc e) (hb e) h1 hk (.inr ⟨_, rfl, ha⟩))
        (link_own_far (far e) (hg.loc _) (lfar e) (List.mem_of_getElem? h1) hk ha.id)
    · cases h2
  | own e j f =>
    simp only [WasmCalls.Sys.step, Option.bind_eq_some_iff] at h
    obtain ⟨c, h1, h2⟩ := h
    split at h2
    · rename_i hk
      cases h2
      exact good_put hg e _ _ false (hg.loc e) (link_own (hg.link e) (hg.loc e) (hb e) h1 hk.1 (.inl hk.2.2))
        (link_own_far (far e) (hg.loc _) (lfar e) (List.mem_of_getElem? h1) hk.1 hk.2.1)
    · cases h2
  | recv e data =>
    simp only [WasmCalls.Sys.step, Option.bind_eq_some_iff] at h
    obtain ⟨f, h1, h2⟩ := h
    split at h2
    · rename_i hd
      unfold WasmCalls.Sys.does at h2
      split at h2
      · rename_i p hp
        cases h2
        have hloc := local_does (hg.loc e) (a := .recv data) trivial hp
        cases hf : isRequest f with
        | true =>
          cases f with
          | request v =>
            obtain ⟨c, hc, ha⟩ := (far e).asks v (List.mem_of_mem_head? h1)
            have hpe := recv_request hd ha hp
            subst hpe
            have hn : (y.node e).news ((y.node e).peer.after ⟨(y.node e).peer.st,
                [.request c.kind v.streamID v.data v.metadata v.initialN], []⟩) = [] := news_after _ _ rfl _
            have hab : (y.node e).absorb ((y.node e).peer.after ⟨(y.node e).peer.st,
                [.request c.kind v.streamID v.data v.metadata v.initialN], []⟩) =
                { y.node e with peer := (y.node e).peer.after ⟨(y.node e).peer.st,
                  [.request c.kind v.streamID v.data v.metadata v.initialN], []⟩ } := by
              simp only [Node.absorb, hn, List.filterMap_nil, List.append_nil]
            refine good_put hg e _ _ true hloc ?_ ?_
            · rw [hab, hn, if_pos rfl, List.filterMap_nil, List.append_nil]
              exact link_ask _ (hg.link e) h1
            · rw [hab, hn, if_pos rfl, List.filterMap_nil, List.append_nil]
              exact link_ask_far (far e) hc ha h1
          | _ => cases hf
        | false =>
          have hcase := recv_other hd hf hp
          obtain ⟨h3, h4⟩ := link_frame_far (far e) h1 hf hcase
          refine good_put hg e _ _ true hloc ?_ ?_
          · rw [h4, if_pos rfl, List.append_nil]
            exact link_frame (hg.link e) (hg.loc e) (hg.loc _) (hb e) h1 hf hcase
          · rw [h4, if_pos rfl, List.append_nil]
            exact h3
      · cases h2
    · cases h2
  | task e i live =>
    simp only [WasmCalls.Sys.step, WasmCalls.Sys.does] at h
    split at h
    · rename_i p hp
      cases h
      rcases task_cases hp with ⟨k, id, d, m, n, ht, hr⟩ | hm
      · have hid : ∃ c ∈ (y.node (other e)).calls, c.id = id := by
          obtain ⟨c, h1, _, h2, _⟩ := (far e).tasks _ _ _ _ _ (List.mem_of_getElem? ht)
          exact ⟨c, h1, h2⟩
        refine good_put hg e _ _ false (local_does (hg.loc e) (a := .task i live) trivial hp) ?_ ?_
        · exact link_ran (p1 := { (y.node e).peer with tasks := (y.node e).peer.tasks.eraseIdx i }) (hg.link e) rfl rfl hid hr
        · have hr' : Ran (other (other e)) (hs e) k id d m { (y.node e).peer with tasks := (y.node e).peer.tasks.eraseIdx i } p := by
            rw [other_other]; exact hr
          exact link_ran_far (far e) (hg.loc _) (hb _) ht hr'
      · exact mute e p (.task i live) trivial hp hm
    · cases h
  | startIn e i live =>
    simp only [WasmCalls.Sys.step, WasmCalls.Sys.does] at h
    split at h
    · rename_i p hp
      cases h
      refine mute e p (.startIn i live) trivial hp ?_
      cases hp
      exact ⟨⟨_, rfl⟩, .inl rfl, [], by simp, by simp⟩
    · cases h
  | openSink e i =>
    simp only [WasmCalls.Sys.step, WasmCalls.Sys.does] at h
    split at h
    · rename_i p hp
      cases h
      refine mute e p (.openSink i) trivial hp ?_
      cases hp
      exact ⟨⟨_, rfl⟩, .inl rfl, [], by simp, by simp⟩
    · cases h
  | answer e i r =>
    simp only [WasmCalls.Sys.step, Option.map_eq_some_iff] at h
    obtain ⟨⟨n, out⟩, h1, rfl⟩ := h
    obtain ⟨hc, hp, ho, hctr⟩ := answer_calls h1
    have hl := hg.loc e
    refine good_put hg e n out false ?_ ?_ (link_answer_far (far e) (hg.loc _) (hb _) h1)
    · exact ⟨by rw [hctr, hc]; exact hl.counter, by rw [hc]; exact hl.ids, by rw [ho, hc, hp]; exact hl.objs,
        by rw [ho, hc, hp]; exact hl.mono, by rw [hp]; exact hl.sound, by rw [hp]; exact hl.untold,
        by rw [ho, hc, hp]; exact hl.entries⟩
    · refine link_calm (hg.link e) hc ho (fun o => by rw [hp]) (fun _ _ h => by rw [hp]; exact h) (fun _ _ h => by rw [hp]; exact h) ?_
      unfold Node.answer at h1
      split at h1
      · cases h1
      · split at h1
        · cases h1
          intro f hf
          cases List.mem_singleton.mp hf
          exact answerFrame_not _ _
        · cases h1
  | emit e i f =>
    simp only [WasmCalls.Sys.step, Option.bind_eq_some_iff] at h
    obtain ⟨x, h1, h2⟩ := h
    split at h2
    · rename_i hk
      cases h2
      exact good_put hg e _ _ false (hg.loc e)
        (link_calm (hg.link e) rfl rfl (fun _ => rfl) (fun _ _ h => h) (fun _ _ h => h) (by simpa using hk.2.2))
        (link_emit_far (far e) (hg.loc _) (hb _) (List.mem_of_getElem? h1) hk.1 hk.2.1)
    · cases h2

theorem good_reach {hs : End → Handlers H} {y : WasmCalls.Sys H} (h : Reach hs y) (hb : Bounded y) : Good hs y := by
  induction h with
  | init => exact good_init hs
  | step a _ hs1 ih => exact good_step (ih (bounded_before hs1 hb)) hb hs1

/-! ## Results (C144) -/

/-- **C144** (part) A result that a request-response call was told was produced by the handler the call names, for the data and metadata of
the call (or there is no such handler); and there is at most one.

Here and below an end makes up to `2^30` calls, after which ids would be used again, and a result is subscribed to at most once,
as a second subscription sends the request again. -/
theorem calls_get_own_results {hs : End → Handlers H} {y : WasmCalls.Sys H} (h : Reach hs y) (hb : Bounded y) (e : End)
    {j : Nat} {c : WasmCalls.Call} (hc : (y.node e).calls[j]? = some c) (hk : c.kind = .rr) :
    (∀ r ∈ toldCall (y.node e) j, Answered (other e) (hs (other e)) (y.node (other e)).made c r) ∧
      (toldCall (y.node e) j).length ≤ 1 := by
  have L := (good_reach h hb).link e
  refine ⟨L.heard j c hc hk, ?_⟩
  have := L.single j c hc hk
  split at this <;> omega

/-- **C144** (part) Once nothing of it is under way, a request-response call that was subscribed to was told exactly one result. -/
theorem calls_get_results {hs : End → Handlers H} {y : WasmCalls.Sys H} (h : Reach hs y) (hb : Bounded y) (e : End)
    {j : Nat} {c : WasmCalls.Call} (hc : (y.node e).calls[j]? = some c) (hk : c.kind = .rr) (ho : (y.node e).obj j ≠ none)
    (hz : inFlight (y.node (other e)) (y.wire e) (y.wire (other e)) c = 0) : ∃ r, toldCall (y.node e) j = [r] := by
  have := ((good_reach h hb).link e).single j c hc hk
  rw [hz, if_pos (Option.isSome_iff_ne_none.mpr ho)] at this
  exact List.length_eq_one_iff.mp (by omega)

/-- **C144** (part) A handler is only started for a call of the other end, the one whose id it was given, and it is the one the call names.
For a fire and forget call it is started at most once; exactly once if there is one and the request was handled. -/
theorem handlers_run_for_calls {hs : End → Handlers H} {y : WasmCalls.Sys H} (h : Reach hs y) (hb : Bounded y) (e : End) :
    (∀ x ∈ (y.node (other e)).jobs, ∃ c ∈ (y.node e).calls, Serves (other e) (hs (other e)) c x) ∧
    ∀ (j : Nat) (c : WasmCalls.Call), (y.node e).calls[j]? = some c → c.kind = .fnf →
      handlers c.id (y.node (other e)).jobs ≤ 1 ∧
      (¬Unknown (hs (other e)) c → requests c.id (y.wire e) = 0 → queued c.id (y.node (other e)).peer.tasks = 0 →
        handlers c.id (y.node (other e)).jobs = 1) ∧
      (Unknown (hs (other e)) c → handlers c.id (y.node (other e)).jobs = 0) := by
  have hg := good_reach h hb
  have L := hg.link e
  refine ⟨L.jobs, fun j c hc hk => ?_⟩
  have hf := L.forget j c hc hk
  refine ⟨by omega, fun hu hr hq => ?_, fun hu => ?_⟩
  · have : refusals c.id (y.node (other e)).peer.log = 0 := by
      refine List.countP_eq_zero.mpr fun ev hm hev => hu ?_
      cases ev with
      | sent f =>
        simp only [isRefusal, beq_iff_eq] at hev
        obtain ⟨d, h1, h2, h3⟩ := L.sents f hm
        rwa [call_unique (hg.loc e) (hb e) hc h1 (h2.trans hev)] at h3
      | _ => simp [isRefusal] at hev
    omega
  · refine List.countP_eq_zero.mpr fun x hx hid => ?_
    obtain ⟨d, h1, h2⟩ := L.jobs x hx
    have : d = c := call_unique (hg.loc e) (hb e) hc h1 (h2.id.symm.trans (beq_iff_eq.mp hid))
    subst this
    obtain ⟨op, h3, h4⟩ := h2.handler
    rw [hu op h3] at h4; cases h4

/-! ### Crashes -/

/-- What holds besides if only request-response and fire and forget are used. -/
structure Plain (n : Node H) : Prop where
  tasks : ∀ t ∈ n.peer.tasks, ∃ k id d m r, t = .request k id d m r
  fnf : ∀ (j : Nat) (c : WasmCalls.Call), n.calls[j]? = some c → c.kind = .fnf → n.obj j = none

/-- What becomes of a frame that is not a request. -/
theorem frame_lands {e : End} {hs : Handlers H} {p q : Node H} {wp wq : List Frame} {f : Frame}
    (L : Link e hs p q wp wq) (hl : Local e p) (hlq : Local (other e) q) (hb : p.calls.length ≤ 2 ^ 30)
    (hfm : f ∈ wq) (hf : isRequest f = false) (hp : Plain p)
    (hsp : ∀ c ∈ p.calls, c.kind = .rr ∨ c.kind = .fnf) (hsq : ∀ c ∈ q.calls, c.kind = .rr ∨ c.kind = .fnf) :
    getStream p.peer.st f.streamID = none ∨
      ∃ (i : Nat) (o : Out (H × Ctx)), getStream p.peer.st f.streamID = some i ∧ dispatch p.peer.st (some i) f = .ok o ∧
        o.tasks = [] := by
  rcases L.back f hfm hf with ⟨c, h1, h2, _⟩ | ⟨c, h1, h2, _⟩
  · obtain ⟨j, hj⟩ := List.mem_iff_getElem?.mp h1
    rcases hsp c h1 with hk | hk
    · obtain ⟨r, o, h3, _, _, _, h4, h5⟩ := frame_for L hl hlq hb hfm hf hj hk h2
      right
      refine ⟨o, ?_⟩
      rw [h4, h3]
      cases r with
      | value d m => exact ⟨_, rfl, by simp only [answerFrame, dispatch, deliverIf, if_true, deliver, h5, Obj.hasSink, Res.ok_bind, Res.pure_eq]; rfl, rfl⟩
      | failure m => exact ⟨_, rfl, by simp only [answerFrame, dispatch, if_true, deliver, h5, Obj.hasSink, Res.ok_bind, Res.pure_eq]; rfl, rfl⟩
    · left
      cases hg : getStream p.peer.st f.streamID with
      | none => rfl
      | some i =>
        exfalso
        rcases L.known.lookup hg with ⟨j', c', h3, h4, h5⟩ | ⟨c', h3, h4⟩
        · have := index_unique hl hb h3 hj (h5.trans h2.symm)
          subst this
          rw [hp.fnf _ c hj hk] at h4; cases h4
        · exact ids_disjoint hl hlq h1 h3 (h2.trans h4.symm)
  · rcases hsq c h1 with hk | hk <;> simp [many, hk] at h2

theorem plain_step {hs : End → Handlers H} {y y' : WasmCalls.Sys H} {a : WasmCalls.Act} (hg : Good hs y) (hb : Bounded y)
    (hs' : Simple y') (hp : ∀ e, Plain (y.node e)) (h : y.step hs a = some y') : ∀ t, Plain (y'.node t) := by
  have hs1 : Simple y := by
    intro e c hc
    obtain ⟨l, hl⟩ := calls_grow h e
    exact hs' e c (by rw [hl]; exact List.mem_append_left _ hc)
  have key : ∀ (e : End) (n : Node H) (out : List Frame) (r : Bool), Plain n → ∀ t, Plain ((y.put e n out r).node t) := by
    intro e n out r hn t
    rcases eq_or_other e t with rfl | rfl
    · rw [put_node]; exact hn
    · rw [put_other]; exact hp _
  have far : ∀ e, Link (other e) (hs e) (y.node (other e)) (y.node e) (y.wire (other e)) (y.wire e) := by
    intro e
    have := hg.link (other e)
    rwa [other_other] at this
  have does : ∀ (e : End) (p : WasmDispatch.Peer H) (out : List Frame) (r : Bool),
      (∀ t ∈ p.tasks, ∃ k id d m r, t = .request k id d m r) →
      ∀ t, Plain ((y.put e ((y.node e).absorb p) out r).node t) :=
    fun e p out r ht => key e _ out r ⟨ht, (hp e).fnf⟩
  cases a with
  | call e k d m ctx =>
    simp only [WasmCalls.Sys.step, Option.map_eq_some_iff] at h
    obtain ⟨⟨n, out⟩, h1, rfl⟩ := h
    refine key _ _ _ _ ?_
    have hl := hg.loc e
    unfold Node.call at h1
    split at h1
    · cases h1
    · cases h1
      refine ⟨(hp e).tasks, fun j c hc hk => ?_⟩
      rcases getElem?_snoc hc with hc | ⟨rfl, _⟩
      · exact (hp e).fnf j c hc.2 hk
      · cases ho : (y.node e).obj (y.node e).calls.length with
        | none => rfl
        | some o => exact absurd (hl.objs _ _ ho).1 (Nat.lt_irrefl _)
  | subscribe e j =>
    simp only [WasmCalls.Sys.step, Option.map_eq_some_iff] at h
    obtain ⟨⟨n, out⟩, h1, rfl⟩ := h
    refine key _ _ _ _ ?_
    have hfnf : ∀ c, (y.node e).calls[j]? = some c → c.kind ≠ .fnf := by
      intro c hc hk
      unfold Node.subscribe at h1
      split at h1
      · rename_i c' hc' _
        rw [hc] at hc'; cases hc'
        simp only [openAct, hk] at h1
        cases h1
      · cases h1
    obtain ⟨c, o, h2, h3, rfl, _, _⟩ := subscribe_shape h1
    refine ⟨(hp e).tasks, fun i d hd hk => ?_⟩
    by_cases hij : i = j
    · subst hij; exact absurd hk (hfnf d hd)
    · simp only [if_neg hij]; exact (hp e).fnf i d hd hk
  | start e j n =>
    simp only [WasmCalls.Sys.step, Option.bind_eq_some_iff] at h
    obtain ⟨c, h1, h2⟩ := h
    split at h2
    · cases h2; exact key _ _ _ _ (hp e)
    · cases h2
  | own e j f =>
    simp only [WasmCalls.Sys.step, Option.bind_eq_some_iff] at h
    obtain ⟨c, h1, h2⟩ := h
    split at h2
    · cases h2; exact key _ _ _ _ (hp e)
    · cases h2
  | recv e data =>
    simp only [WasmCalls.Sys.step, Option.bind_eq_some_iff] at h
    obtain ⟨f, h1, h2⟩ := h
    split at h2
    · rename_i hd
      unfold WasmCalls.Sys.does at h2
      split at h2
      · rename_i p hpp
        cases h2
        refine does e p _ _ ?_
        cases hf : isRequest f with
        | true =>
          cases f with
          | request v =>
            obtain ⟨c, hc, ha⟩ := (far e).asks v (List.mem_of_mem_head? h1)
            have := recv_request hd ha hpp
            subst this
            intro t ht
            rcases List.mem_append.mp ht with ht | ht
            · exact (hp e).tasks t ht
            · exact ⟨_, _, _, _, _, List.mem_singleton.mp ht⟩
          | _ => cases hf
        | false =>
          have hlands := frame_lands (hg.link e) (hg.loc e) (hg.loc _) (hb e) (List.mem_of_mem_head? h1) hf (hp e) (hs1 e) (hs1 _)
          rcases recv_other hd hf hpp with ⟨_, rfl⟩ | ⟨i, o, h3, h4, rfl⟩
          · exact (hp e).tasks
          · rcases hlands with h5 | ⟨i', o', h5, h6, h7⟩
            · rw [h3] at h5; cases h5
            · rw [h3] at h5; cases h5
              rw [h4] at h6; cases h6
              intro t ht
              have ht : t ∈ (y.node e).peer.tasks ++ o.tasks := ht
              rw [h7, List.append_nil] at ht
              exact (hp e).tasks t ht
      · cases h2
    · cases h2
  | task e i live =>
    simp only [WasmCalls.Sys.step, WasmCalls.Sys.does] at h
    split at h
    · rename_i p hpp
      cases h
      refine does e p _ _ ?_
      simp only [Peer.step] at hpp
      split at hpp
      · cases hpp
      · rename_i t ht
        have hpp := Option.some.inj hpp
        obtain ⟨k, id, d, m, r, rfl⟩ := (hp e).tasks t (List.mem_of_getElem? ht)
        obtain ⟨c, hc, rfl, _⟩ := (far e).tasks _ _ _ _ _ (List.mem_of_getElem? ht)
        have hk := hs1 _ c hc
        have herase : ∀ t ∈ (y.node e).peer.tasks.eraseIdx i, ∃ k id d m r, t = .request k id d m r :=
          fun t ht => (hp e).tasks t (List.mem_of_mem_eraseIdx ht)
        obtain ⟨p2, h1, h2⟩ := handled e (hs e) { (y.node e).peer with tasks := (y.node e).peer.tasks.eraseIdx i } c.kind id d m r
        cases h1.symm.trans hpp
        cases h2 with
        | short hl => simpa [Peer.after] using herase
        | unknown op ho hn => simpa [Peer.after] using herase
        | run op parent g ho hpar hgg =>
          have : ∀ j n, rest c.kind j n = [] := by rcases hk with hk | hk <;> simp [rest, hk]
          intro t ht
          unfold Peer.accept at ht
          split at ht
          · simp only [Peer.after, List.append_nil] at ht; exact herase t ht
          · simp only [Peer.after, this, List.append_nil] at ht; exact herase t ht
    · cases h
  | startIn e i live =>
    simp only [WasmCalls.Sys.step, WasmCalls.Sys.does] at h
    split at h
    · rename_i p hpp
      cases h
      cases hpp
      exact does e _ _ _ (hp e).tasks
    · cases h
  | openSink e i =>
    simp only [WasmCalls.Sys.step, WasmCalls.Sys.does] at h
    split at h
    · rename_i p hpp
      cases h
      cases hpp
      exact does e _ _ _ (hp e).tasks
    · cases h
  | answer e i r =>
    simp only [WasmCalls.Sys.step, Option.map_eq_some_iff] at h
    obtain ⟨⟨n, out⟩, h1, rfl⟩ := h
    obtain ⟨hc, hpe, ho, _⟩ := answer_calls h1
    exact key _ _ _ _ ⟨by rw [hpe]; exact (hp e).tasks, by rw [hc, ho]; exact (hp e).fnf⟩
  | emit e i f =>
    simp only [WasmCalls.Sys.step, Option.bind_eq_some_iff] at h
    obtain ⟨x, h1, h2⟩ := h
    split at h2
    · cases h2; exact key _ _ _ _ (hp e)
    · cases h2

theorem plain_reach {hs : End → Handlers H} {y : WasmCalls.Sys H} (h : Reach hs y) (hb : Bounded y) (hsim : Simple y) :
    ∀ e, Plain (y.node e) := by
  induction h with
  | init =>
    intro e
    exact ⟨fun t ht => absurd ht List.not_mem_nil, fun j c hc => by simp [WasmCalls.Sys.init, Node.init] at hc⟩
  | @step y y' a hr hs1 ih =>
    have hb0 := bounded_before hs1 hb
    have hsim0 : Simple y := by
      intro e c hc
      obtain ⟨l, hl⟩ := calls_grow hs1 e
      exact hsim e c (by rw [hl]; exact List.mem_append_left _ hc)
    exact plain_step (good_reach hr hb0) hb0 hsim (ih hb0 hsim0) hs1

/-- **C144** (part) With request-response and fire and forget only, neither end crashes on a frame of the other or while
handling a request. With streams it can: `cancelled_stream_crashes_refuted`. -/
theorem simple_calls_never_crash {hs : End → Handlers H} {y : WasmCalls.Sys H} (h : Reach hs y) (hb : Bounded y)
    (hsim : Simple y) (e : End) :
    (∀ f data, (y.wire (other e)).head? = some f → decodeFrame data = .ok f → (y.node e).peer.ready e = true →
      ∃ p, (y.node e).peer.step e (hs e) (.recv data) = some (.ok p)) ∧
    ∀ i live, i < (y.node e).peer.tasks.length → ∃ p, (y.node e).peer.step e (hs e) (.task i live) = some (.ok p) := by
  have hg := good_reach h hb
  have hp := plain_reach h hb hsim
  have L := hg.link e
  constructor
  · intro f data hh hd hr
    have hfm := List.mem_of_mem_head? hh
    simp only [Peer.step, hr, if_true, recv_decoded hd]
    cases hf : isRequest f with
    | true =>
      cases f with
      | request v =>
        have L' := hg.link (other e)
        rw [other_other] at L'
        obtain ⟨c, hc, ha⟩ := L'.asks v hfm
        exact ⟨_, by simp only [afterDecode, ha.whole, dispatch, ha.kind]; rfl⟩
      | _ => cases hf
    | false =>
      have : afterDecode (y.node e).peer f = match getStream (y.node e).peer.st f.streamID with
          | none => Res.ok (y.node e).peer
          | some i => (y.node e).peer.after <$> dispatch (y.node e).peer.st (some i) f := by
        cases f with
        | request v => cases hf
        | _ => rfl
      rw [this]
      rcases frame_lands L (hg.loc e) (hg.loc _) (hb e) hfm hf (hp e) (hsim e) (hsim _) with h1 | ⟨i, o, h1, h2, _⟩
      · rw [h1]; exact ⟨_, rfl⟩
      · rw [h1]; simp only [h2]; exact ⟨_, rfl⟩
  · intro i live hi
    obtain ⟨k, id, d, m, r, ht⟩ := (hp e).tasks _ (List.getElem_mem hi)
    simp only [Peer.step, List.getElem?_eq_getElem hi, ht, Peer.runTask]
    obtain ⟨p2, h1, _⟩ := handled e (hs e) { (y.node e).peer with tasks := (y.node e).peer.tasks.eraseIdx i } k id d m r
    exact ⟨p2, by rw [h1]⟩

/-! ### Cases -/

/-- A run given by its steps. -/
def runActs (hs : End → Handlers H) : WasmCalls.Sys H → List WasmCalls.Act → Option (WasmCalls.Sys H)
  | y, [] => some y
  | y, a :: as => (y.step hs a).bind fun y' => runActs hs y' as

theorem runActs_reach {hs : End → Handlers H} {y y' : WasmCalls.Sys H} {as : List WasmCalls.Act} (hr : Reach hs y)
    (h : runActs hs y as = some y') : Reach hs y' := by
  induction as generalizing y with
  | nil => cases h; exact hr
  | cons a as ih =>
    simp only [runActs, Option.bind_eq_some_iff] at h
    obtain ⟨y1, h1, h2⟩ := h
    exact ih (.step a hr h1) h2

/-- The metadata of a call of an operation. -/
def opMd (op : UInt8) : Bytes := [0, 0, 0, op, 0, 0, 0, 0]

/-- The bytes of a request with the flags METADATA and NEXT. -/
def ask (id kind op d : UInt8) : Bytes := [0, 0, 0, id, kind, 32, 0, 0, 8] ++ opMd op ++ [d]

/-- A host makes three calls: request-response, fire and forget, and request-response of an operation there is not. While
the handler of the first is at work, the guest makes a call. Answers arrive in another order. -/
def several : List WasmCalls.Act :=
  [.call .host .rr [5] (opMd 1) .background, .call .host .fnf [6] (opMd 1) .background, .call .host .rr [7] (opMd 9) .background,
   .subscribe .host 0, .subscribe .host 2, .recv .guest (ask 4 21 1 6), .task .guest 0 true, .recv .guest (ask 2 17 1 5),
   .task .guest 0 true, .call .guest .rr [8] (opMd 0) .background, .subscribe .guest 0, .recv .guest (ask 6 17 9 7),
   .task .guest 0 true, .recv .host (ask 1 17 0 8), .task .host 0 true,
   .recv .host [0, 0, 0, 6, 44, 0, 0, 0, 0, 0, 110, 111, 116, 95, 102, 111, 117, 110, 100], .answer .guest 1 (.value [9] []),
   .answer .host 0 (.failure [3]), .recv .host [0, 0, 0, 2, 40, 96, 9], .recv .guest [0, 0, 0, 1, 44, 0, 0, 0, 0, 0, 3]]

/-- What is so at the end of a run that is computed. -/
theorem run_ends {hs : End → Handlers H} {as : List WasmCalls.Act} {P : WasmCalls.Sys H → Prop} [DecidablePred P]
    (h : ((runActs hs WasmCalls.Sys.init as).any fun y => decide (P y)) = true) : ∃ y, Reach hs y ∧ P y := by
  obtain ⟨y, h1, h2⟩ := (Option.any_eq_true _ _).mp h
  exact ⟨y, runActs_reach .init h1, of_decide_eq_true h2⟩

theorem bounded_iff {y : WasmCalls.Sys H} :
    Bounded y ↔ (y.node .host).calls.length ≤ 2 ^ 30 ∧ (y.node .guest).calls.length ≤ 2 ^ 30 :=
  ⟨fun h => ⟨h _, h _⟩, fun h e => by cases e; exacts [h.1, h.2]⟩

/-- The theorems say something. -/
example : ∃ y : WasmCalls.Sys Nat, Reach (fun _ => hs2) y ∧ Bounded y ∧ Simple y ∧
    (y.node .host).calls.map (·.kind) = [.rr, .fnf, .rr] ∧ (y.node .guest).calls.map (·.kind) = [.rr] ∧
    toldCall (y.node .host) 0 = [.value [9] []] ∧ toldCall (y.node .host) 2 = [.failure [110, 111, 116, 95, 102, 111, 117, 110, 100]] ∧
    toldCall (y.node .guest) 0 = [.failure [3]] ∧
    (∀ c ∈ (y.node .host).calls, c.kind = .rr → inFlight (y.node .guest) (y.wire .host) (y.wire .guest) c = 0) ∧
    (y.node .guest).jobs = [⟨.fnf, 20, 4, [6], []⟩] ∧ (y.node .guest).made = [(⟨.rr, 10, 2, [5], []⟩, .value [9] [])] := by
  have : ∃ y : WasmCalls.Sys Nat, Reach (fun _ => hs2) y ∧
      ((y.node .host).calls.length ≤ 2 ^ 30 ∧ (y.node .guest).calls.length ≤ 2 ^ 30) ∧
      ((∀ c ∈ (y.node .host).calls, c.kind = .rr ∨ c.kind = .fnf) ∧ ∀ c ∈ (y.node .guest).calls, c.kind = .rr ∨ c.kind = .fnf) ∧
      (y.node .host).calls.map (·.kind) = [.rr, .fnf, .rr] ∧ (y.node .guest).calls.map (·.kind) = [.rr] ∧
      toldCall (y.node .host) 0 = [.value [9] []] ∧
      toldCall (y.node .host) 2 = [.failure [110, 111, 116, 95, 102, 111, 117, 110, 100]] ∧
      toldCall (y.node .guest) 0 = [.failure [3]] ∧
      (∀ c ∈ (y.node .host).calls, c.kind = .rr → inFlight (y.node .guest) (y.wire .host) (y.wire .guest) c = 0) ∧
      (y.node .guest).jobs = [⟨.fnf, 20, 4, [6], []⟩] ∧ (y.node .guest).made = [(⟨.rr, 10, 2, [5], []⟩, .value [9] [])] :=
    run_ends (as := several) (by decide +kernel)
  obtain ⟨y, h1, h2, ⟨h3, h4⟩, h5⟩ := this
  exact ⟨y, h1, bounded_iff.mpr h2, fun e => by cases e; exacts [h3, h4], h5⟩

/-- A host asks its guest for a stream and cancels it. -/
def cancelled : List WasmCalls.Act :=
  [.call .host .rs [5] (opMd 1) .background, .subscribe .host 0, .start .host 0 1,
   .recv .guest ([0, 0, 0, 2, 25, 0, 0, 0, 0, 1, 0, 0, 8] ++ opMd 1 ++ [5]), .task .guest 0 true, .task .guest 0 true,
   .own .host 0 (.cancel ⟨2⟩)]

/-- Does it panic? -/
def panics {α : Type} : Option (Res α) → Bool
  | some .panic => true
  | _ => false

/-- **C144** is false with streams: a host that cancels a stream crashes its guest. -/
theorem cancelled_stream_crashes_refuted : ∃ (y : WasmCalls.Sys Nat) (data : Bytes) (v : Cancel), Reach (fun _ => hs2) y ∧ Bounded y ∧
    y.wire .host = [.cancel v] ∧ decodeFrame data = .ok (.cancel v) ∧ (y.node .host).calls.map (·.id) = [v.streamID] ∧
    (y.node .guest).peer.ready .guest = true ∧ (y.node .guest).peer.step .guest hs2 (.recv data) = some .panic := by
  have : ∃ y : WasmCalls.Sys Nat, Reach (fun _ => hs2) y ∧
      ((y.node .host).calls.length ≤ 2 ^ 30 ∧ (y.node .guest).calls.length ≤ 2 ^ 30) ∧
      y.wire .host = [.cancel ⟨2⟩] ∧ (y.node .host).calls.map (·.id) = [2] ∧ (y.node .guest).peer.ready .guest = true ∧
      panics ((y.node .guest).peer.step .guest hs2 (.recv [0, 0, 0, 2, 36, 0])) = true :=
    run_ends (as := cancelled) (by decide +kernel)
  obtain ⟨y, h1, h2, h3, h4, h5, h6⟩ := this
  refine ⟨y, [0, 0, 0, 2, 36, 0], ⟨2⟩, h1, bounded_iff.mpr h2, h3, rfl, h4, h5, ?_⟩
  unfold panics at h6
  split at h6
  · assumption
  · cases h6

end Iota.Props.WasmCalls
