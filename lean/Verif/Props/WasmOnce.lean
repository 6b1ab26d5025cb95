import Verif.Spec.WasmOnce
import Verif.Props.WasmStreams

/-! # Every stream between a WebAssembly host and its guest has one source (C163) -/

namespace Iota.Props.WasmOnce
open Iota.Go Iota.Frames Iota.Registry Iota.WasmDispatch Iota.WasmCalls Iota.Spec.Handler Iota.Spec.WasmDispatch Iota.Spec.WasmCalls
open Iota.Spec.WasmStreams Iota.Spec.WasmOnce
open Iota.Spec.Caller (Sig meaning ends)
open Iota.Handler hiding Act
open Iota.Peers (Result requestFrame answerFrame isRequest)
open Iota.Spec.Polite (requests answers queued isTask)
open Iota.Lemmas.WasmDispatch Iota.Props.Handler Iota.Props.WasmDispatch
open Iota.Props.WasmCalls Iota.Props.WasmStreams
open Iota.Props.Polite (requests_append queued_append queued_erase requests_tail)

variable {H : Type}

/-! ## Where requests are -/

theorem once_told {hs : End → Handlers H} {y : WasmCalls.Sys H} {said : End → List (Said H)} {sent : End → List Nat} (h : Once hs y said sent) :
    Told hs y said := by
  induction h with
  | init => exact .init
  | step a _ h1 _ h2 ih => exact .step a ih h1 h2

theorem requests_none {id : UInt32} {fs : List Frame} (h : ∀ f ∈ fs, isRequest f = true → f.streamID ≠ id) : requests id fs = 0 :=
  List.countP_eq_zero.mpr fun f hf hq => by
    simp only [Bool.and_eq_true, beq_iff_eq] at hq
    exact h f hf hq.1 hq.2

/-- An id that no call has is nowhere. -/
theorem placed_fresh {hs : End → Handlers H} {y : WasmCalls.Sys H} (hg : Good hs y) (e : End) {id : UInt32} (h : ∀ c ∈ (y.node e).calls, c.id ≠ id) :
    placed y e id = 0 := by
  have L := hg.link e
  have h1 : requests id (y.wire e) = 0 := requests_none fun f hf hq he => by
    cases f with
    | request v =>
      obtain ⟨c, hc, ha⟩ := L.asks v hf
      exact h c hc (ha.id.symm.trans he)
    | _ => cases hq
  have h2 : queued id (y.node (other e)).peer.tasks = 0 := List.countP_eq_zero.mpr fun t ht hq => by
    cases t with
    | request k i d m n =>
      obtain ⟨c, hc, _, hi, _⟩ := L.tasks k i d m n ht
      exact h c hc (hi.trans (beq_iff_eq.mp hq))
    | _ => cases hq
  have h3 : handlers id (y.node (other e)).jobs = 0 := List.countP_eq_zero.mpr fun x hx hq => by
    obtain ⟨c, hc, hsv⟩ := L.jobs x hx
    exact h c hc (hsv.id.symm.trans (beq_iff_eq.mp hq))
  have h4 : refusals id (y.node (other e)).peer.log = 0 := List.countP_eq_zero.mpr fun ev hev hq => by
    cases ev with
    | sent f =>
      obtain ⟨c, hc, hi, _⟩ := L.sents f hev
      exact h c hc (hi.trans (beq_iff_eq.mp hq))
    | _ => cases hq
  unfold placed
  omega

/-- An end that sends frames, none of them a request with this id. -/
theorem placed_near {y : WasmCalls.Sys H} {e : End} {n : Node H} {out : List Frame} {r : Bool} {id : UInt32}
    (h : ∀ f ∈ out, isRequest f = true → f.streamID ≠ id) : placed (y.put e n out r) e id = placed y e id := by
  have h1 : requests id (y.wire e ++ out) = requests id (y.wire e) := by
    rw [requests_append, requests_none h]; rfl
  simp only [placed, WasmCalls.Sys.put, if_true, if_neg (other_ne e), h1]

/-- The other end goes on. -/
theorem placed_far {y : WasmCalls.Sys H} {e : End} {n : Node H} {out : List Frame} {r : Bool} {id : UInt32} :
    placed (y.put (other e) n out r) e id = requests id (if r then (y.wire e).tail else y.wire e) + queued id n.peer.tasks + handlers id n.jobs +
      refusals id n.peer.log := by
  simp only [placed, WasmCalls.Sys.put, if_true, if_neg (other_ne e).symm]

/-- The part of the end that handles requests. -/
def share (n : Node H) (id : UInt32) : Nat := queued id n.peer.tasks + handlers id n.jobs + refusals id n.peer.log

theorem placed_share (y : WasmCalls.Sys H) (e : End) (id : UInt32) : placed y e id = requests id (y.wire e) + share (y.node (other e)) id := by
  unfold placed share; omega

theorem share_mute {n : Node H} {p : WasmDispatch.Peer H} (h : Mute n.peer p) (id : UInt32) : share (n.absorb p) id = share n id := by
  obtain ⟨evs, hlog, hev⟩ := h.log
  have h1 : refusals id p.log = refusals id n.peer.log := by
    rw [hlog, refusals_append]
    have : refusals id evs = 0 := List.countP_eq_zero.mpr fun ev hm => by
      obtain ⟨i, n, rfl⟩ := hev ev hm; simp [isRefusal]
    omega
  unfold share
  rw [(mute_out h).2]
  show queued id p.tasks + _ + refusals id p.log = _
  rw [(mute_tasks h).1, h1]

theorem share_ran {e : End} {hs : Handlers H} {n : Node H} {p : WasmDispatch.Peer H} {k : Kind} {i : Nat} {id : UInt32} {d m : Bytes} {q : UInt32}
    (ht : n.peer.tasks[i]? = some (.request k id d m q))
    (h : Ran e hs k id d m { n.peer with tasks := n.peer.tasks.eraseIdx i } p) (x : UInt32) : share (n.absorb p) x = share n x := by
  have hqe : queued x n.peer.tasks = queued x (n.peer.tasks.eraseIdx i) + (id == x).toNat := queued_erase ht
  cases h with
  | refused msg hu h1 h2 h3 =>
    have h2 : p.tasks = n.peer.tasks.eraseIdx i := h2
    have h3 : p.log = n.peer.log ++ [.sent (errorFrame id msg)] := h3
    have hn : n.news p = [.sent (errorFrame id msg)] := by simp [Node.news, h3]
    have hjobs : (n.absorb p).jobs = n.jobs := by simp [Node.absorb, hn, jobOf]
    have e4 : refusals x [(.sent (errorFrame id msg) : Ev (H × Ctx))] = (id == x).toNat := by
      by_cases hv : id = x
      · simp [refusals, isRefusal, errorFrame, Frame.streamID, hv]
      · have hv' := beq_eq_false_iff_ne.mpr hv
        simp [refusals, isRefusal, errorFrame, Frame.streamID, hv', hv]
    unfold share
    rw [hjobs]
    show queued x p.tasks + _ + refusals x p.log = _
    rw [h2, h3, refusals_append, e4]
    omega
  | run op g cx ts ho hg h1 h2 hts h3 =>
    obtain ⟨c', h3⟩ := h3
    have h2 : p.tasks = n.peer.tasks.eraseIdx i ++ ts := h2
    have h3 : p.log = n.peer.log ++ [.invoked k (g, c') id d (passed e k m)] := h3
    have hn : n.news p = [.invoked k (g, c') id d (passed e k m)] := by simp [Node.news, h3]
    have hjobs : (n.absorb p).jobs = n.jobs ++ [⟨k, g, id, d, passed e k m⟩] := by simp [Node.absorb, hn, jobOf]
    have hhs : handlers x [(⟨k, g, id, d, passed e k m⟩ : WasmCalls.Job H)] = (id == x).toNat := by
      by_cases hv : id = x
      · simp [handlers, hv]
      · have hv' := beq_eq_false_iff_ne.mpr hv
        simp [handlers, hv', hv]
    have hts0 : queued x ts = 0 := List.countP_eq_zero.mpr fun t ht => by
      obtain ⟨i, n, rfl⟩ := hts t ht; simp [isTask]
    have hr : refusals x [(.invoked k (g, c') id d (passed e k m) : Ev (H × Ctx))] = 0 := rfl
    unfold share
    rw [hjobs, handlers_append, hhs]
    show queued x p.tasks + _ + refusals x p.log = _
    rw [h2, h3, refusals_append, queued_append, hts0, hr]
    omega

/-- Frames that are not requests come to nothing here. -/
theorem share_frame {n : Node H} {f : Frame} {p : WasmDispatch.Peer H} (hf : isRequest f = false)
    (hcase : (getStream n.peer.st f.streamID = none ∧ p = n.peer) ∨
      ∃ i o, getStream n.peer.st f.streamID = some i ∧ dispatch n.peer.st (some i) f = .ok o ∧ p = n.peer.after o) (x : UInt32) :
    share (n.absorb p) x = share n x ∧ (n.news p).filterMap sentOf = [] := by
  rcases hcase with ⟨_, rfl⟩ | ⟨i, o, hg, hd, rfl⟩
  · simp [share, Node.absorb, Node.news]
  · obtain ⟨h1, h2, h3, h4⟩ := dispatch_shape (fun v he => by rw [he] at hf; cases hf) hd
    have e1 : n.news (n.peer.after o) = o.evs := news_after _ _ rfl _
    have e2 : o.evs.filterMap jobOf = [] := List.filterMap_eq_nil_iff.mpr fun ev hev => by
      rcases h4 ev hev with ⟨d, m, rfl⟩ | rfl | ⟨m, rfl⟩ <;> rfl
    have e3 : o.evs.filterMap sentOf = [] := List.filterMap_eq_nil_iff.mpr fun ev hev => by
      rcases h4 ev hev with ⟨d, m, rfl⟩ | rfl | ⟨m, rfl⟩ <;> rfl
    have e4 : refusals x o.evs = 0 := List.countP_eq_zero.mpr fun ev hev => by
      rcases h4 ev hev with ⟨d, m, rfl⟩ | rfl | ⟨m, rfl⟩ <;> simp [isRefusal]
    have e5 : queued x o.tasks = 0 := List.countP_eq_zero.mpr fun t ht => by
      obtain ⟨n, rfl⟩ := h3 t ht; simp [isTask]
    refine ⟨?_, by rw [e1, e3]⟩
    unfold share
    have e6 : (n.absorb (n.peer.after o)).jobs = n.jobs := by simp [Node.absorb, e1, e2]
    rw [e6]
    show queued x (n.peer.tasks ++ o.tasks) + _ + refusals x (n.peer.log ++ o.evs) = _
    rw [queued_append, refusals_append, e4, e5]
    omega

/-- Where the request of a stream is changes only when it is sent. -/
theorem placed_step {hs : End → Handlers H} {y y' : WasmCalls.Sys H} {a : WasmCalls.Act} (hg : Good hs y) (hb' : Bounded y')
    (h : y.step hs a = some y') (e : End) {j : Nat} {c : WasmCalls.Call} (hc : (y.node e).calls[j]? = some c) (hm : many c.kind = true) :
    placed y' e c.id = placed y e c.id + (startedIn a e).count j := by
  have hb := bounded_before h hb'
  -- frames that are sent, none of them a request for the call
  have near : ∀ (n : Node H) (out : List Frame) (r : Bool), (∀ f ∈ out, isRequest f = true → f.streamID ≠ c.id) →
      placed (y.put e n out r) e c.id = placed y e c.id + 0 := fun n out r hf => placed_near hf
  have far : ∀ (n : Node H) (out : List Frame), share n c.id = share (y.node (other e)) c.id →
      placed (y.put (other e) n out false) e c.id = placed y e c.id + 0 := by
    intro n out hn
    rw [placed_far, placed_share]
    simp only [share] at hn ⊢
    simp only [Bool.false_eq_true, if_false]
    omega
  -- what the dispatcher sends is no request
  have sents : ∀ (n : Node H) (p : WasmDispatch.Peer H) (k : Kind) (i : Nat) (id : UInt32) (d m : Bytes) (t : End),
      Ran t (hs t) k id d m { n.peer with tasks := n.peer.tasks.eraseIdx i } p → ∀ f ∈ (n.news p).filterMap sentOf, isRequest f = false := by
    intro n p k i id d m t hr f hf
    cases hr with
    | refused msg _ _ _ h3 =>
      have h3 : p.log = n.peer.log ++ [.sent (errorFrame id msg)] := h3
      have hn : n.news p = [.sent (errorFrame id msg)] := by simp [Node.news, h3]
      rw [hn] at hf
      cases List.mem_singleton.mp hf; rfl
    | run op g cx ts _ _ _ _ _ h3 =>
      obtain ⟨c', h3⟩ := h3
      have h3 : p.log = n.peer.log ++ [.invoked k (g, c') id d (passed t k m)] := h3
      have hn : n.news p = [.invoked k (g, c') id d (passed t k m)] := by simp [Node.news, h3]
      rw [hn] at hf
      exact absurd hf List.not_mem_nil
  have mutes : ∀ (t : End) (p : WasmDispatch.Peer H), Mute (y.node t).peer p →
      placed (y.put t ((y.node t).absorb p) (((y.node t).news p).filterMap sentOf) false) e c.id = placed y e c.id + 0 := by
    intro t p hmu
    rcases eq_or_other e t with rfl | rfl
    · exact near _ _ _ (by rw [(mute_out hmu).1]; exact fun f hf => absurd hf List.not_mem_nil)
    · exact far _ _ (share_mute hmu _)
  cases a with
  | call t k d m ctx =>
    simp only [WasmCalls.Sys.step, Option.map_eq_some_iff] at h
    obtain ⟨⟨n, out⟩, h1, rfl⟩ := h
    rcases eq_or_other e t with rfl | rfl
    · refine near _ _ _ fun f hf hq he => ?_
      have hl' := local_call (hg.loc t) (by have := hb' t; rwa [put_node] at this) h1
      have hbn : n.calls.length ≤ 2 ^ 30 := by have := hb' t; rwa [put_node] at this
      unfold Node.call at h1
      split at h1
      · cases h1
      · rename_i ctr id b hnx
        cases h1
        split at hf
        · rename_i hk
          cases List.mem_singleton.mp hf
          have h2 : ((y.node t).calls ++ [⟨k, id, d, m, ctx⟩])[(y.node t).calls.length]? = some ⟨k, id, d, m, ctx⟩ := by simp
          have h3 : ((y.node t).calls ++ [(⟨k, id, d, m, ctx⟩ : WasmCalls.Call)])[j]? = some c := by
            rw [List.getElem?_append_left (List.getElem?_eq_some_iff.mp hc).choose]; exact hc
          have := call_unique hl' hbn h3 (List.mem_of_getElem? h2) (by
            rw [← he]; exact (requestFrame_asks' ⟨k, id, d, m, ctx⟩).id.symm)
          rw [← this, hk] at hm; cases hm
        · exact absurd hf List.not_mem_nil
    · refine far _ _ ?_
      unfold Node.call at h1
      split at h1
      · cases h1
      · cases h1; rfl
  | subscribe t i =>
    simp only [WasmCalls.Sys.step, Option.map_eq_some_iff] at h
    obtain ⟨⟨n, out⟩, h1, rfl⟩ := h
    obtain ⟨d, o, h2, h3, h4, _, h5⟩ := subscribe_shape h1
    rcases eq_or_other e t with rfl | rfl
    · refine near _ _ _ fun f hf hq he => ?_
      rcases h5 with ⟨hk, _, rfl⟩ | ⟨_, rfl⟩
      · cases List.mem_singleton.mp hf
        have := call_unique (hg.loc t) (hb t) hc (List.mem_of_getElem? h2) (by
            rw [← he]; exact (requestFrame_asks' d).id.symm)
        rw [← this, hk] at hm; cases hm
      · exact absurd hf List.not_mem_nil
    · refine far _ _ ?_
      subst h4; rfl
  | start t i n =>
    simp only [WasmCalls.Sys.step, Option.bind_eq_some_iff] at h
    obtain ⟨d, h1, h2⟩ := h
    split at h2
    · rename_i hk
      cases h2
      have ha := requestFrame_asks d n (decide (d.kind = .rs))
      rcases eq_or_other e t with rfl | rfl
      · simp only [startedIn, if_true, List.count_singleton]
        by_cases hij : i = j
        · subst hij
          rw [hc] at h1; cases h1
          simp only [placed, WasmCalls.Sys.put, if_true, if_neg (other_ne t), requests_append]
          have : requests c.id [Frame.request { requestFrame c.kind c.id c.data c.metadata with initialN := n, complete := decide (c.kind = .rs) }] = 1 := by
            have hid := ha.id
            simp only [requests, isRequest, Frame.streamID, List.countP_cons, List.countP_nil, Bool.true_and]
            rw [hid]; simp
          rw [this]; simp; omega
        · have hne : d.id ≠ c.id := fun he => hij (index_unique (hg.loc t) (hb t) h1 hc he)
          rw [near _ _ _ (fun f hf hq he => by
            cases List.mem_singleton.mp hf
            exact hne (ha.id.symm.trans he))]
          simp [hij]
      · rw [far _ _ rfl]
        simp [startedIn, (other_ne e).symm]
    · cases h2
  | own t i f =>
    simp only [WasmCalls.Sys.step, Option.bind_eq_some_iff] at h
    obtain ⟨d, h1, h2⟩ := h
    split at h2
    · rename_i hk
      cases h2
      rcases eq_or_other e t with rfl | rfl
      · exact near _ _ _ fun g hgm hq => by cases List.mem_singleton.mp hgm; rw [hk.2.2] at hq; cases hq
      · exact far _ _ rfl
    · cases h2
  | recv t data =>
    simp only [WasmCalls.Sys.step, Option.bind_eq_some_iff] at h
    obtain ⟨f, h1, h2⟩ := h
    split at h2
    · rename_i hd
      unfold WasmCalls.Sys.does at h2
      split at h2
      · rename_i p hp
        cases h2
        cases hf : isRequest f with
        | true =>
          cases f with
          | request v =>
            have hlt : Link (other t) (hs t) (y.node (other t)) (y.node t) (y.wire (other t)) (y.wire t) := by
              have := hg.link (other t)
              rwa [other_other] at this
            obtain ⟨d, hdc, ha⟩ := hlt.asks v (List.mem_of_mem_head? h1)
            have hpe := recv_request hd ha hp
            subst hpe
            have hn : (y.node t).news ((y.node t).peer.after ⟨(y.node t).peer.st,
                [.request d.kind v.streamID v.data v.metadata v.initialN], []⟩) = [] := news_after _ _ rfl _
            rcases eq_or_other e t with rfl | rfl
            · exact near _ _ _ (by rw [hn]; exact fun f hf => absurd hf List.not_mem_nil)
            · rw [placed_far, placed_share]
              rw [other_other] at h1
              rw [if_pos rfl, requests_tail (id := c.id) h1]
              have e6 : ((y.node (other e)).absorb ((y.node (other e)).peer.after ⟨(y.node (other e)).peer.st,
                [.request d.kind v.streamID v.data v.metadata v.initialN], []⟩)).jobs = (y.node (other e)).jobs := by simp [Node.absorb, hn]
              rw [e6]
              show _ + queued c.id ((y.node (other e)).peer.tasks ++ [.request d.kind v.streamID v.data v.metadata v.initialN]) + _ +
                refusals c.id ((y.node (other e)).peer.log ++ []) = _
              have e7 : queued c.id [Task.request d.kind v.streamID v.data v.metadata v.initialN] = (v.streamID == c.id).toNat := by
                by_cases hv : v.streamID = c.id
                · simp [queued, isTask, hv]
                · have hv' := beq_eq_false_iff_ne.mpr hv
                  simp [queued, isTask, hv']
              rw [queued_append, e7, List.append_nil]
              simp only [isRequest, Frame.streamID, Bool.true_and, share, startedIn, List.count_nil]
              omega
          | _ => cases hf
        | false =>
          have hcase := recv_other hd hf hp
          obtain ⟨h3, h4⟩ := share_frame hf hcase c.id
          rcases eq_or_other e t with rfl | rfl
          · exact near _ _ _ (by rw [h4]; exact fun f hf => absurd hf List.not_mem_nil)
          · rw [placed_far, placed_share]
            rw [other_other] at h1
            rw [if_pos rfl, requests_tail (id := c.id) h1, hf]
            simp only [share] at h3 ⊢
            simp only [Bool.false_and, Bool.toNat_false, startedIn, List.count_nil]
            omega
      · cases h2
    · cases h2
  | task t i live =>
    simp only [WasmCalls.Sys.step, WasmCalls.Sys.does] at h
    split at h
    · rename_i p hp
      cases h
      rcases task_cases hp with ⟨k, id, d, m, n, ht, hr⟩ | hmu
      · rcases eq_or_other e t with rfl | rfl
        · refine near _ _ _ fun f hf hq => ?_
          rw [sents _ _ _ _ _ _ _ _ hr f hf] at hq; cases hq
        · exact far _ _ (share_ran ht hr _)
      · exact mutes t p hmu
    · cases h
  | startIn t i live =>
    simp only [WasmCalls.Sys.step, WasmCalls.Sys.does] at h
    split at h
    · rename_i p hp
      cases h
      refine mutes t p ?_
      cases hp
      exact ⟨⟨_, rfl⟩, .inl rfl, [], by simp, by simp⟩
    · cases h
  | openSink t i =>
    simp only [WasmCalls.Sys.step, WasmCalls.Sys.does] at h
    split at h
    · rename_i p hp
      cases h
      refine mutes t p ?_
      cases hp
      exact ⟨⟨_, rfl⟩, .inl rfl, [], by simp, by simp⟩
    · cases h
  | answer t i r =>
    simp only [WasmCalls.Sys.step, Option.map_eq_some_iff] at h
    obtain ⟨⟨n, out⟩, h1, rfl⟩ := h
    unfold Node.answer at h1
    split at h1
    · cases h1
    · rename_i x hx
      split at h1
      · rename_i hxk
        cases h1
        rcases eq_or_other e t with rfl | rfl
        · exact near _ _ _ fun g hgm hq => by
            cases List.mem_singleton.mp hgm; rw [answerFrame_not] at hq; cases hq
        · refine far _ _ ?_
          have hne : (x.id == c.id) = false := by
            refine beq_eq_false_iff_ne.mpr fun he => ?_
            obtain ⟨d, h2, h3⟩ := (hg.link e).jobs x (List.mem_of_getElem? hx)
            have := call_unique (hg.loc e) (hb e) hc h2 (h3.id.symm.trans he)
            subst this
            rw [← h3.kind, hxk] at hm; cases hm
          have := handlers_erase (id := c.id) hx
          rw [hne] at this
          simp only [share]
          simp only [Bool.toNat_false, Nat.add_zero] at this
          rw [this]
      · cases h1
  | emit t i f =>
    simp only [WasmCalls.Sys.step, Option.bind_eq_some_iff] at h
    obtain ⟨x, h1, h2⟩ := h
    split at h2
    · rename_i hk
      cases h2
      rcases eq_or_other e t with rfl | rfl
      · exact near _ _ _ fun g hgm hq => by cases List.mem_singleton.mp hgm; rw [hk.2.2] at hq; cases hq
      · exact far _ _ rfl
    · cases h2

/-- Only a call adds to the calls of an end. -/
theorem calls_kept {hs : End → Handlers H} {y y' : WasmCalls.Sys H} {a : WasmCalls.Act} (h : y.step hs a = some y') (t : End)
    (hn : ∀ k d m ctx, a ≠ .call t k d m ctx) : (y'.node t).calls = (y.node t).calls := by
  have key : ∀ (e : End) (n : Node H) (out : List Frame) (r : Bool), n.calls = (y.node e).calls →
      ((y.put e n out r).node t).calls = (y.node t).calls := by
    intro e n out r hn
    rcases eq_or_other e t with rfl | rfl
    · rw [put_node]; exact hn
    · rw [put_other]
  have does : ∀ (e : End) (a : WasmDispatch.Act) (r : Bool), y.does hs e a r = some y' → (y'.node t).calls = (y.node t).calls := by
    intro e a r h
    unfold WasmCalls.Sys.does at h
    split at h
    · cases h; exact key _ _ _ _ rfl
    · cases h
  cases a with
  | call e k d m ctx =>
    simp only [WasmCalls.Sys.step, Option.map_eq_some_iff] at h
    obtain ⟨⟨n, out⟩, h1, rfl⟩ := h
    rcases eq_or_other e t with rfl | rfl
    · exact absurd rfl (hn k d m ctx)
    · rw [put_other]
  | subscribe e j =>
    simp only [WasmCalls.Sys.step, Option.map_eq_some_iff] at h
    obtain ⟨⟨n, out⟩, h1, rfl⟩ := h
    exact key _ _ _ _ (subscribe_calls h1)
  | start e j n =>
    simp only [WasmCalls.Sys.step, Option.bind_eq_some_iff] at h
    obtain ⟨c, h1, h2⟩ := h
    split at h2
    · cases h2; exact key _ _ _ _ rfl
    · cases h2
  | own e j f =>
    simp only [WasmCalls.Sys.step, Option.bind_eq_some_iff] at h
    obtain ⟨c, h1, h2⟩ := h
    split at h2
    · cases h2; exact key _ _ _ _ rfl
    · cases h2
  | recv e data =>
    simp only [WasmCalls.Sys.step, Option.bind_eq_some_iff] at h
    obtain ⟨f, h1, h2⟩ := h
    split at h2
    · exact does _ _ _ h2
    · cases h2
  | task e i live => exact does _ _ _ h
  | startIn e i live => exact does e (.startIn i live) false h
  | openSink e i => exact does e (.openSink i) false h
  | answer e i r =>
    simp only [WasmCalls.Sys.step, Option.map_eq_some_iff] at h
    obtain ⟨⟨n, out⟩, h1, rfl⟩ := h
    exact key _ _ _ _ (answer_calls h1).1
  | emit e i f =>
    simp only [WasmCalls.Sys.step, Option.bind_eq_some_iff] at h
    obtain ⟨c, h1, h2⟩ := h
    split at h2
    · cases h2; exact key _ _ _ _ rfl
    · cases h2

/-- The request of a new stream is nowhere. -/
theorem placed_new {hs : End → Handlers H} {y y' : WasmCalls.Sys H} {a : WasmCalls.Act} (hg : Good hs y) (hg' : Good hs y') (hb' : Bounded y')
    (h : y.step hs a = some y') (e : End) {j : Nat} {c : WasmCalls.Call} (hj : ¬j < (y.node e).calls.length)
    (hc : (y'.node e).calls[j]? = some c) (hm : many c.kind = true) : placed y' e c.id = 0 := by
  by_cases ha : ∀ k d m ctx, a ≠ .call e k d m ctx
  · rw [calls_kept h e ha] at hc
    exact absurd (List.getElem?_eq_some_iff.mp hc).choose hj
  · have : ∃ k d m ctx, a = .call e k d m ctx := Classical.byContradiction fun hn => ha fun k d m ctx he => hn ⟨k, d, m, ctx, he⟩
    obtain ⟨k, d, m, ctx, rfl⟩ := this
    have hbe := hb' e
    have hle := hg'.loc e
    simp only [WasmCalls.Sys.step, Option.map_eq_some_iff] at h
    obtain ⟨⟨n, out⟩, h1, rfl⟩ := h
    rw [put_node] at hc hbe hle
    have h0 : placed y e c.id = 0 := by
      refine placed_fresh hg e fun d' hd' he => ?_
      obtain ⟨i, hi⟩ := List.mem_iff_getElem?.mp hd'
      obtain ⟨c', _, h2⟩ := call_calls h1
      have hil := (List.getElem?_eq_some_iff.mp hi).choose
      have hi' : n.calls[i]? = some d' := by rw [h2, List.getElem?_append_left hil]; exact hi
      have := index_unique hle hbe hi' hc he
      omega
    rw [placed_near, h0]
    intro f hf
    unfold Node.call at h1
    split at h1
    · cases h1
    · cases h1
      split at hf
      · rename_i hk
        have hjl : j = (y.node e).calls.length := by
          have := (List.getElem?_eq_some_iff.mp hc).choose
          simp at this; omega
        subst hjl
        simp at hc
        subst hc
        rw [hk] at hm; cases hm
      · exact absurd hf List.not_mem_nil

/-- Requests that are sent are those of calls. -/
theorem started_calls {hs : End → Handlers H} {y y' : WasmCalls.Sys H} {a : WasmCalls.Act} (h : y.step hs a = some y') (e : End) :
    ∀ i ∈ startedIn a e, i < (y.node e).calls.length := by
  intro i hi
  cases a with
  | start t k n =>
    simp only [startedIn] at hi
    split at hi
    · rename_i ht
      subst ht
      cases List.mem_singleton.mp hi
      simp only [WasmCalls.Sys.step, Option.bind_eq_some_iff] at h
      obtain ⟨d, h4, _⟩ := h
      exact (List.getElem?_eq_some_iff.mp h4).choose
    · exact absurd hi List.not_mem_nil
  | _ => exact absurd hi List.not_mem_nil

theorem sent_calls {hs : End → Handlers H} {y : WasmCalls.Sys H} {said : End → List (Said H)} {sent : End → List Nat} (h : Once hs y said sent)
    (e : End) : ∀ i ∈ sent e, i < (y.node e).calls.length := by
  induction h with
  | init => intro i hi; exact absurd hi List.not_mem_nil
  | step a _ _ _ h3 ih =>
    obtain ⟨l, hl⟩ := calls_grow h3 e
    intro i hi
    rw [hl, List.length_append]
    rcases List.mem_append.mp hi with hi | hi
    · have := ih i hi; omega
    · have := started_calls h3 e i hi; omega

/-- The request of a stream that was sent is in exactly one place; one that was not sent is nowhere. -/
theorem once_placed {hs : End → Handlers H} {y : WasmCalls.Sys H} {said : End → List (Said H)} {sent : End → List Nat} (h : Once hs y said sent)
    (hb : Bounded y) (e : End) {j : Nat} {c : WasmCalls.Call} (hc : (y.node e).calls[j]? = some c) (hm : many c.kind = true) :
    placed y e c.id = (sent e).count j ∧ (sent e).count j ≤ 1 := by
  induction h generalizing j c with
  | init => exact absurd hc (by simp [WasmCalls.Sys.init, Node.init])
  | @step y y' said sent a h1 h2 hfresh h3 ih =>
    have hb1 := bounded_before h3 hb
    have hr := told_reach (once_told h1)
    have hg := good_reach hr hb1
    have hg' := good_reach (.step a hr h3) hb
    obtain ⟨l, hl⟩ := calls_grow h3 e
    have hcount : (startedIn a e).count j ≤ 1 := by
      cases a with
      | start t k n =>
        simp only [startedIn]
        split
        · rw [List.count_singleton]; split <;> omega
        · simp
      | _ => simp [startedIn]
    rw [List.count_append]
    by_cases hj : j < (y.node e).calls.length
    · have hc1 : (y.node e).calls[j]? = some c := by
        rw [hl, List.getElem?_append_left hj] at hc; exact hc
      obtain ⟨i1, i2⟩ := ih hb1 hc1 hm
      refine ⟨?_, ?_⟩
      · rw [placed_step hg hb h3 e hc1 hm, i1]
      · by_cases hm' : j ∈ startedIn a e
        · have := List.count_eq_zero.mpr (hfresh e j hm')
          omega
        · have := List.count_eq_zero.mpr hm'
          omega
    · have z1 : (sent e).count j = 0 := List.count_eq_zero.mpr fun hi => hj (sent_calls h1 e j hi)
      have z2 : (startedIn a e).count j = 0 := List.count_eq_zero.mpr fun hi => hj (started_calls h3 e j hi)
      refine ⟨?_, by omega⟩
      rw [z1, z2]
      exact placed_new hg hg' hb h3 e hj hc hm

/-! ## Who says something -/

/-- How often the request with this id was refused, by what was said. -/
def refusedSaid (id : UInt32) (said : List (Said H)) : Nat := said.countP fun s => s.1.isNone && s.2.streamID == id

/-- What was said is said by handlers that are there, and refusals are counted. -/
structure Heard (n : Node H) (said : List (Said H)) : Prop where
  jobs : ∀ x f, (some x, f) ∈ said → many x.kind = true → x ∈ n.jobs
  ids : ∀ x f, (some x, f) ∈ said → f.streamID = x.id
  refused : ∀ id, refusedSaid id said = refusals id n.peer.log

theorem heard_same {n n' : Node H} {said : List (Said H)} (h : Heard n said) (hj : ∀ x ∈ n.jobs, many x.kind = true → x ∈ n'.jobs)
    (hr : ∀ id, refusals id n'.peer.log = refusals id n.peer.log) : Heard n' (said ++ []) := by
  rw [List.append_nil]
  exact ⟨fun x f hx hm => hj x (h.jobs x f hx hm) hm, h.ids, fun id => (h.refused id).trans (hr id).symm⟩

/-- A handler that is there says something. -/
theorem heard_job {n n' : Node H} {said : List (Said H)} (h : Heard n said) {x : WasmCalls.Job H} {f : Frame}
    (hx : many x.kind = true → x ∈ n'.jobs) (hf : f.streamID = x.id) (hj : ∀ x ∈ n.jobs, many x.kind = true → x ∈ n'.jobs)
    (hr : n'.peer.log = n.peer.log) : Heard n' (said ++ [(some x, f)]) := by
  refine ⟨fun z g hz hm => ?_, fun z g hz => ?_, fun id => ?_⟩
  · rcases List.mem_append.mp hz with hz | hz
    · exact hj z (h.jobs z g hz hm) hm
    · cases List.mem_singleton.mp hz; exact hx hm
  · rcases List.mem_append.mp hz with hz | hz
    · exact h.ids z g hz
    · cases List.mem_singleton.mp hz; exact hf
  · have := h.refused id
    unfold refusedSaid at this ⊢
    rw [List.countP_append, this, hr]
    simp

theorem heard_mute {n : Node H} {said : List (Said H)} {p : WasmDispatch.Peer H} (h : Heard n said) (hm : Mute n.peer p) :
    Heard (n.absorb p) (said ++ []) := by
  obtain ⟨evs, hlog, hev⟩ := hm.log
  refine heard_same h (fun x hx _ => List.mem_append_left _ hx) fun id => ?_
  show refusals id p.log = _
  rw [hlog, refusals_append]
  have : refusals id evs = 0 := List.countP_eq_zero.mpr fun ev hm => by
    obtain ⟨i, n, rfl⟩ := hev ev hm; simp [isRefusal]
  omega

theorem heard_step {hs : End → Handlers H} {y y' : WasmCalls.Sys H} {said : List (Said H)} {a : WasmCalls.Act} (hg : Good hs y)
    (h : y.step hs a = some y') (t : End) (hh : Heard (y.node t) said) : Heard (y'.node t) (said ++ saysIn y y' a t) := by
  have idle : ∀ (e : End) (n : Node H) (out : List Frame) (r : Bool), (e = t → Heard n (said ++ [])) →
      Heard ((y.put e n out r).node t) (said ++ []) := by
    intro e n out r hn
    rcases eq_or_other e t with rfl | rfl
    · rw [put_node]; exact hn rfl
    · rw [put_other]; exact heard_same hh (fun _ hx _ => hx) fun _ => rfl
  cases a with
  | call e k d m ctx =>
    simp only [WasmCalls.Sys.step, Option.map_eq_some_iff] at h
    obtain ⟨⟨n, out⟩, h1, rfl⟩ := h
    refine idle _ _ _ _ ?_
    rintro rfl
    unfold Node.call at h1
    split at h1
    · cases h1
    · cases h1; exact heard_same hh (fun _ hx _ => hx) fun _ => rfl
  | subscribe e j =>
    simp only [WasmCalls.Sys.step, Option.map_eq_some_iff] at h
    obtain ⟨⟨n, out⟩, h1, rfl⟩ := h
    refine idle _ _ _ _ ?_
    rintro rfl
    obtain ⟨d, o, h2, h3, h4, _, h5⟩ := subscribe_shape h1
    subst h4
    exact heard_same hh (fun _ hx _ => hx) fun _ => rfl
  | start e j n =>
    simp only [WasmCalls.Sys.step, Option.bind_eq_some_iff] at h
    obtain ⟨c, h1, h2⟩ := h
    split at h2
    · cases h2; refine idle _ _ _ _ ?_; rintro rfl; exact heard_same hh (fun _ hx _ => hx) fun _ => rfl
    · cases h2
  | own e j f =>
    simp only [WasmCalls.Sys.step, Option.bind_eq_some_iff] at h
    obtain ⟨c, h1, h2⟩ := h
    split at h2
    · cases h2; refine idle _ _ _ _ ?_; rintro rfl; exact heard_same hh (fun _ hx _ => hx) fun _ => rfl
    · cases h2
  | recv e data =>
    simp only [WasmCalls.Sys.step, Option.bind_eq_some_iff] at h
    obtain ⟨f, h1, h2⟩ := h
    split at h2
    · rename_i hd
      unfold WasmCalls.Sys.does at h2
      split at h2
      · rename_i p hp
        cases h2
        refine idle _ _ _ _ ?_
        rintro rfl
        refine heard_same hh (fun x hx _ => List.mem_append_left _ hx) fun id => ?_
        show refusals id p.log = _
        cases hf : isRequest f with
        | true =>
          cases f with
          | request v =>
            have hlt : Link (other e) (hs e) (y.node (other e)) (y.node e) (y.wire (other e)) (y.wire e) := by
              have := hg.link (other e)
              rwa [other_other] at this
            obtain ⟨d, hdc, ha⟩ := hlt.asks v (List.mem_of_mem_head? h1)
            have hpe := recv_request hd ha hp
            subst hpe
            show refusals id ((y.node e).peer.log ++ []) = _
            rw [List.append_nil]
          | _ => cases hf
        | false =>
          rcases recv_other hd hf hp with ⟨_, rfl⟩ | ⟨i, o, hg, hd, rfl⟩
          · rfl
          · obtain ⟨_, _, _, h4⟩ := dispatch_shape (fun v he => by rw [he] at hf; cases hf) hd
            have e4 : refusals id o.evs = 0 := List.countP_eq_zero.mpr fun ev hev => by
              rcases h4 ev hev with ⟨d, m, rfl⟩ | rfl | ⟨m, rfl⟩ <;> simp [isRefusal]
            show refusals id ((y.node e).peer.log ++ o.evs) = _
            rw [refusals_append, e4]; rfl
      · cases h2
    · cases h2
  | task e i live =>
    simp only [WasmCalls.Sys.step, WasmCalls.Sys.does] at h
    split at h
    · rename_i p hp
      cases h
      simp only [saysIn]
      by_cases ht : t = e
      · subst ht
        rw [if_pos rfl, put_node]
        show Heard _ (said ++ (((y.node t).news p).filterMap sentOf).map fun f => (none, f))
        rcases task_cases hp with ⟨k, id, d, m, n, ht, hr⟩ | hmu
        · cases hr with
          | refused msg _ _ _ h3 =>
            have h3 : p.log = (y.node t).peer.log ++ [.sent (errorFrame id msg)] := h3
            have hn : (y.node t).news p = [.sent (errorFrame id msg)] := by simp [Node.news, h3]
            have hs1 : ((y.node t).news p).filterMap sentOf = [errorFrame id msg] := by rw [hn]; rfl
            rw [hs1]
            refine ⟨fun x f hx hm => ?_, fun x f hx => ?_, fun v => ?_⟩
            · rcases List.mem_append.mp hx with hx | hx
              · exact List.mem_append_left _ (hh.jobs x f hx hm)
              · cases List.mem_singleton.mp hx
            · rcases List.mem_append.mp hx with hx | hx
              · exact hh.ids x f hx
              · cases List.mem_singleton.mp hx
            · show _ = refusals v p.log
              rw [h3, refusals_append, ← hh.refused v]
              simp [refusedSaid, refusals, isRefusal]
          | run op g cx ts _ _ _ _ _ h3 =>
            obtain ⟨c', h3⟩ := h3
            have h3 : p.log = (y.node t).peer.log ++ [.invoked k (g, c') id d (passed t k m)] := h3
            have hn : (y.node t).news p = [.invoked k (g, c') id d (passed t k m)] := by simp [Node.news, h3]
            have hs1 : ((y.node t).news p).filterMap sentOf = [] := by rw [hn]; rfl
            rw [hs1]
            refine heard_same hh (fun x hx _ => List.mem_append_left _ hx) fun v => ?_
            show refusals v p.log = _
            rw [h3, refusals_append]; rfl
        · rw [(mute_out hmu).1]
          exact heard_mute hh hmu
      · rw [if_neg ht]
        exact idle _ _ _ _ fun he => absurd he.symm ht
    · cases h
  | startIn e i live =>
    simp only [WasmCalls.Sys.step, WasmCalls.Sys.does] at h
    split at h
    · rename_i p hp
      cases h
      refine idle _ _ _ _ ?_
      rintro rfl
      refine heard_mute hh ?_
      cases hp
      exact ⟨⟨_, rfl⟩, .inl rfl, [], by simp, by simp⟩
    · cases h
  | openSink e i =>
    simp only [WasmCalls.Sys.step, WasmCalls.Sys.does] at h
    split at h
    · rename_i p hp
      cases h
      refine idle _ _ _ _ ?_
      rintro rfl
      refine heard_mute hh ?_
      cases hp
      exact ⟨⟨_, rfl⟩, .inl rfl, [], by simp, by simp⟩
    · cases h
  | answer e i r =>
    simp only [WasmCalls.Sys.step, Option.map_eq_some_iff] at h
    obtain ⟨⟨n, out⟩, h1, rfl⟩ := h
    unfold Node.answer at h1
    split at h1
    · cases h1
    · rename_i x hx
      split at h1
      · rename_i hxk
        cases h1
        simp only [saysIn]
        by_cases ht : t = e
        · subst ht
          rw [if_pos rfl, put_node, hx]
          refine heard_job hh (fun hm => ?_) (answerFrame_id _ _) (fun z hz hm => ?_) rfl
          · rw [hxk] at hm; cases hm
          · obtain ⟨l, hl⟩ := List.mem_iff_getElem?.mp hz
            refine List.mem_iff_getElem?.mpr ?_
            have hli : l ≠ i := by
              rintro rfl
              rw [hx] at hl; cases hl
              rw [hxk] at hm; cases hm
            by_cases hlt : l < i
            · exact ⟨l, by show ((y.node t).jobs.eraseIdx i)[l]? = _; rw [List.getElem?_eraseIdx, if_pos hlt, hl]⟩
            · exact ⟨l - 1, by
                show ((y.node t).jobs.eraseIdx i)[l - 1]? = _
                rw [List.getElem?_eraseIdx, if_neg (by omega), show l - 1 + 1 = l by omega, hl]⟩
        · rw [if_neg ht]
          exact idle _ _ _ _ fun he => absurd he.symm ht
      · cases h1
  | emit e i f =>
    simp only [WasmCalls.Sys.step, Option.bind_eq_some_iff] at h
    obtain ⟨x, h1, h2⟩ := h
    split at h2
    · rename_i hk
      cases h2
      simp only [saysIn]
      by_cases ht : t = e
      · subst ht
        rw [if_pos rfl, put_node, h1]
        exact heard_job hh (fun _ => List.mem_of_getElem? h1) hk.2.1 (fun _ hz _ => hz) rfl
      · rw [if_neg ht]
        exact idle _ _ _ _ fun he => absurd he.symm ht
    · cases h2

theorem heard_told {hs : End → Handlers H} {y : WasmCalls.Sys H} {said : End → List (Said H)} (h : Told hs y said) (hb : Bounded y) (t : End) :
    Heard (y.node t) (said t) := by
  induction h with
  | init => exact ⟨fun _ _ hx => absurd hx List.not_mem_nil, fun _ _ hx => absurd hx List.not_mem_nil, fun _ => rfl⟩
  | step a h1 h2 h3 ih =>
    have hb1 := bounded_before h3 hb
    exact heard_step (good_reach (told_reach h1) hb1) h3 t (ih hb1)

/-! ## C163 -/

theorem only_one {α : Type} {p : α → Bool} {l : List α} (h : l.countP p ≤ 1) {x z : α} (hx : x ∈ l) (hz : z ∈ l) (px : p x = true)
    (pz : p z = true) : x = z := by
  induction l with
  | nil => exact absurd hx List.not_mem_nil
  | cons a l ih =>
    rw [List.countP_cons] at h
    rcases List.mem_cons.mp hx with hx' | hx' <;> rcases List.mem_cons.mp hz with hz' | hz'
    · rw [hx', hz']
    · subst hx'
      rw [if_pos px] at h
      exact absurd (List.countP_pos_iff.mpr ⟨z, hz', pz⟩) (by omega)
    · subst hz'
      rw [if_pos pz] at h
      exact absurd (List.countP_pos_iff.mpr ⟨x, hx', px⟩) (by omega)
    · exact ih (by omega) hx' hz'

/-- Refusals are for calls there is no handler for, and handlers are for calls there is one for. -/
theorem unknown_handlers {hs : End → Handlers H} {y : WasmCalls.Sys H} (hg : Good hs y) (hb : Bounded y) (e : End) {j : Nat} {c : WasmCalls.Call}
    (hc : (y.node e).calls[j]? = some c) :
    (Unknown (hs (other e)) c → handlers c.id (y.node (other e)).jobs = 0) ∧
    (¬Unknown (hs (other e)) c → refusals c.id (y.node (other e)).peer.log = 0) := by
  have L := hg.link e
  constructor
  · intro hu
    refine List.countP_eq_zero.mpr fun x hx hq => ?_
    obtain ⟨d, hd, hsv⟩ := L.jobs x hx
    cases call_unique (hg.loc e) (hb e) hc hd (hsv.id.symm.trans (beq_iff_eq.mp hq))
    obtain ⟨op, h1, h2⟩ := hsv.handler
    rw [hu op h1] at h2; cases h2
  · intro hu
    refine List.countP_eq_zero.mpr fun ev hev hq => ?_
    cases ev with
    | sent f =>
      obtain ⟨d, hd, hi, h1⟩ := L.sents f hev
      cases call_unique (hg.loc e) (hb e) hc hd (hi.trans (beq_iff_eq.mp hq))
      exact hu h1
    | _ => cases hq

/-- **C163** When the proxy of a stream or channel sends its request once, at most one handler is started for the call, and once the
request was handled, exactly one is if there is one. Everything that is said for the call is said by this one handler, or the call
was refused and nothing but one error, that says why, is said. -/
theorem stream_served_once {hs : End → Handlers H} {y : WasmCalls.Sys H} {said : End → List (Said H)} {sent : End → List Nat}
    (h : Once hs y said sent) (hb : Bounded y) (e : End) (j : Nat) (c : WasmCalls.Call) (hc : (y.node e).calls[j]? = some c)
    (hm : many c.kind = true) :
    handlers c.id (y.node (other e)).jobs ≤ 1 ∧
    (j ∈ sent e → Handled y e c.id → ¬Unknown (hs (other e)) c → handlers c.id (y.node (other e)).jobs = 1) ∧
    (Unknown (hs (other e)) c → handlers c.id (y.node (other e)).jobs = 0) ∧
    (j ∈ sent e → Handled y e c.id → Unknown (hs (other e)) c → saidUnder c.id (said (other e)) = [errorFrame c.id (refusal c.metadata)]) ∧
    (saidUnder c.id (said (other e)) = [] ∨
      (∃ x, Serves (other e) (hs (other e)) c x ∧ ∀ s ∈ said (other e), s.2.streamID = c.id → s.1 = some x) ∨
      Unknown (hs (other e)) c ∧ saidUnder c.id (said (other e)) = [errorFrame c.id (refusal c.metadata)]) := by
  have ht := once_told h
  have hg := good_reach (told_reach ht) hb
  have hh := heard_told ht hb (other e)
  obtain ⟨h1, h2⟩ := once_placed h hb e hc hm
  obtain ⟨u1, u2⟩ := unknown_handlers hg hb e hc
  have hsrc : ∀ s ∈ said (other e), s.2.streamID = c.id → Source (other e) (hs (other e)) c s := by
    intro s hs' hid
    obtain ⟨d, h1, h2, h3⟩ := source ht hb e s hs'
    cases call_unique (hg.loc e) (hb e) hc h1 (h2.trans hid)
    exact h3
  unfold placed at h1
  -- what is said for a call there is no handler for
  have hun : Unknown (hs (other e)) c → (saidUnder c.id (said (other e))).length = refusals c.id (y.node (other e)).peer.log ∧
      ∀ f ∈ saidUnder c.id (said (other e)), f = errorFrame c.id (refusal c.metadata) := by
    intro hu
    have hall : ∀ s ∈ said (other e), s.2.streamID = c.id → s.1 = none ∧ s.2 = errorFrame c.id (refusal c.metadata) := by
      intro s hs' hid
      cases hsrc s hs' hid with
      | handler x f hsv =>
        obtain ⟨op, h3, h4⟩ := hsv.handler
        rw [hu op h3] at h4; cases h4
      | refused msg _ hmsg => exact ⟨rfl, by rw [hmsg]⟩
    constructor
    · rw [← hh.refused c.id]
      unfold saidUnder under refusedSaid
      rw [← List.countP_eq_length_filter, List.countP_map]
      refine List.countP_congr fun s hs' => ?_
      simp only [Function.comp, decide_eq_true_eq, Bool.and_eq_true, beq_iff_eq]
      constructor
      · intro hid; exact ⟨by rw [(hall s hs' hid).1]; rfl, hid⟩
      · exact fun hid => hid.2
    · intro f hf
      obtain ⟨hf1, hf2⟩ := List.mem_filter.mp hf
      obtain ⟨s, hs', rfl⟩ := List.mem_map.mp hf1
      exact (hall s hs' (decide_eq_true_eq.mp hf2)).2
  have one : Unknown (hs (other e)) c → (saidUnder c.id (said (other e))).length = 1 → saidUnder c.id (said (other e)) = [errorFrame c.id (refusal c.metadata)] := by
    intro hu hl
    obtain ⟨f, hf⟩ := List.length_eq_one_iff.mp hl
    rw [hf, (hun hu).2 f (by rw [hf]; exact List.mem_singleton.mpr rfl)]
  refine ⟨by omega, ?_, u1, ?_, ?_⟩
  · intro hsent ⟨a1, a2⟩ hu
    have := u2 hu
    have := List.count_pos_iff.mpr hsent
    omega
  · intro hsent ⟨a1, a2⟩ hu
    have := u1 hu
    have := List.count_pos_iff.mpr hsent
    exact one hu (by rw [(hun hu).1]; omega)
  · by_cases hu : Unknown (hs (other e)) c
    · have := (hun hu).1
      by_cases hl : (saidUnder c.id (said (other e))).length = 0
      · exact .inl (List.length_eq_zero_iff.mp hl)
      · exact .inr (.inr ⟨hu, one hu (by omega)⟩)
    · by_cases hn : saidUnder c.id (said (other e)) = []
      · exact .inl hn
      · refine .inr (.inl ?_)
        obtain ⟨f, hf⟩ := List.exists_mem_of_ne_nil _ hn
        obtain ⟨hf1, hf2⟩ := List.mem_filter.mp hf
        obtain ⟨s, hs', rfl⟩ := List.mem_map.mp hf1
        have hid := decide_eq_true_eq.mp hf2
        have hjob : ∀ s ∈ said (other e), s.2.streamID = c.id → ∃ x, s.1 = some x ∧ Serves (other e) (hs (other e)) c x ∧ x ∈ (y.node (other e)).jobs := by
          intro s hs' hid
          obtain ⟨o, f⟩ := s
          cases hsrc _ hs' hid with
          | handler x f hsv => exact ⟨x, rfl, hsv, hh.jobs x f hs' (by rw [hsv.kind]; exact hm)⟩
          | refused msg hu' => exact absurd hu' hu
        obtain ⟨x, _, hx, hxj⟩ := hjob s hs' hid
        refine ⟨x, hx, fun s' hs' hid' => ?_⟩
        obtain ⟨x', h3, hx', hxj'⟩ := hjob s' hs' hid'
        rw [h3, only_one (p := fun z : WasmCalls.Job H => z.id == c.id) (by unfold handlers at h1; omega) hxj' hxj (by simp [hx'.id]) (by simp [hx.id])]

/-- **C163** (part) A stream or channel that there is no handler for fails with one error, that says why, and ends; until then its subscriber is told nothing. -/
theorem refused_stream {hs : End → Handlers H} {y : WasmCalls.Sys H} {said : End → List (Said H)} {sent : End → List Nat}
    (h : Once hs y said sent) (hb : Bounded y) (e : End) (j : Nat) (c : WasmCalls.Call) (o : Nat) (hc : (y.node e).calls[j]? = some c)
    (hm : many c.kind = true) (ho : (y.node e).obj j = some o) (hu : Unknown (hs (other e)) c) :
    (signals o (y.node e).peer.log = [] ∨ signals o (y.node e).peer.log = [.error (refusal c.metadata), .complete]) ∧
    (j ∈ sent e → Handled y e c.id → (∀ f ∈ y.wire (other e), f.streamID ≠ c.id) →
      signals o (y.node e).peer.log = [.error (refusal c.metadata), .complete]) := by
  have ht := once_told h
  obtain ⟨h0, _, _, h1, h2⟩ := stream_served_once h hb e j c hc hm
  have tidy1 : ∀ f, Tidy [f] := by
    intro f pre g post he _ k hk
    cases pre with
    | nil => cases he; exact absurd hk List.not_mem_nil
    | cons p pre => cases pre <;> cases he
  have hcase : saidUnder c.id (said (other e)) = [] ∨ saidUnder c.id (said (other e)) = [errorFrame c.id (refusal c.metadata)] := by
    rcases h2 with h2 | ⟨x, hx, _⟩ | ⟨_, h2⟩
    · exact .inl h2
    · obtain ⟨op, h3, h4⟩ := hx.handler
      rw [hu op h3] at h4; cases h4
    · exact .inr h2
  have tidy : Tidy (saidUnder c.id (said (other e))) := by
    rcases hcase with h3 | h3
    · rw [h3]; intro pre f post he; cases pre <;> cases he
    · rw [h3]; exact tidy1 _
  obtain ⟨took, h4, h5, _⟩ := (flows_told ht hb e).heard j c o hc ho tidy
  rw [signals_told, h5]
  constructor
  · rcases hcase with h3 | h3
    · rw [h3] at h4
      cases took with
      | nil => exact .inl rfl
      | cons f l => cases h4
    · rw [h3] at h4
      cases took with
      | nil => exact .inl rfl
      | cons f l =>
        cases l with
        | nil =>
          rw [← (List.cons.inj h4).1]
          exact .inr rfl
        | cons g l => cases h4
  · intro hs1 hs2 hw
    have h3 := h1 hs1 hs2 hu
    rw [under_none hw, List.append_nil, h3] at h4
    rw [← h4]
    rfl

/-! ### A case -/

/-- A run given by its steps. -/
def runOnce (hs : End → Handlers H) : WasmCalls.Sys H → (End → List (Said H)) → (End → List Nat) → List WasmCalls.Act →
    Option (WasmCalls.Sys H × (End → List (Said H)) × (End → List Nat))
  | y, said, sent, [] => some (y, said, sent)
  | y, said, sent, a :: as =>
    if ∀ e ∈ [End.host, End.guest], ∀ j ∈ startedIn a e, j ∉ sent e ∧ ((y.node e).obj j).isSome = true then
      (y.step hs a).bind fun y' => runOnce hs y' (fun t => said t ++ saysIn y y' a t) (fun t => sent t ++ startedIn a t) as
    else none

theorem runOnce_once {hs : End → Handlers H} {y y' : WasmCalls.Sys H} {said said' : End → List (Said H)} {sent sent' : End → List Nat}
    {as : List WasmCalls.Act} (ht : Once hs y said sent) (h : runOnce hs y said sent as = some (y', said', sent')) : Once hs y' said' sent' := by
  induction as generalizing y said sent with
  | nil => cases h; exact ht
  | cons a as ih =>
    unfold runOnce at h
    split at h
    · rename_i hc
      obtain ⟨y1, h1, h2⟩ := Option.bind_eq_some_iff.mp h
      have hall : ∀ e, ∀ j ∈ startedIn a e, j ∉ sent e ∧ ((y.node e).obj j).isSome = true := fun e => by
        cases e
        · exact hc _ (by simp)
        · exact hc _ (by simp)
      refine ih (.step a ht ?_ (fun e j hj => (hall e j hj).1) h1) h2
      cases a with
      | start e j n => exact (hall e j (by simp [startedIn])).2
      | _ => trivial
    · cases h

/-- A host asks its guest for a stream, and for one of an operation that there is not. -/
def oneRefused : List WasmCalls.Act :=
  [.call .host .rs [5] (opMd 1) .background, .call .host .rs [6] (opMd 9) .background, .subscribe .host 1, .subscribe .host 0,
   .start .host 1 2, .start .host 0 7,
   .recv .guest ([0, 0, 0, 4, 25, 0, 0, 0, 0, 2, 0, 0, 8] ++ opMd 9 ++ [6]), .task .guest 0 true,
   .recv .guest ([0, 0, 0, 2, 25, 0, 0, 0, 0, 7, 0, 0, 8] ++ opMd 1 ++ [5]), .task .guest 0 true, .task .guest 0 true,
   .emit .guest 0 (frameFor 2 (.next [2] [])), .emit .guest 0 (frameFor 2 (.next [3] [])),
   .recv .host [0, 0, 0, 4, 44, 0, 0, 0, 0, 0, 110, 111, 116, 95, 102, 111, 117, 110, 100], .recv .host [0, 0, 0, 2, 40, 32, 2]]

/-- What is so at the end of such a run. -/
theorem once_ends {hs : End → Handlers H} {as : List WasmCalls.Act}
    {P : WasmCalls.Sys H × (End → List (Said H)) × (End → List Nat) → Prop} [DecidablePred P]
    (h : ((runOnce hs WasmCalls.Sys.init (fun _ => []) (fun _ => []) as).any fun y => decide (P y)) = true) :
    ∃ y said sent, Once hs y said sent ∧ P (y, said, sent) := by
  obtain ⟨⟨y, said, sent⟩, h1, h2⟩ := (Option.any_eq_true _ _).mp h
  exact ⟨y, said, sent, runOnce_once .init h1, of_decide_eq_true h2⟩

/-- One handler runs, and it sends both elements; the other stream is told that it failed. -/
example : ∃ y said sent, Once (fun _ => hs2) y said sent ∧ Bounded y ∧ sent .host = [1, 0] ∧
    (y.node .host).calls = [⟨.rs, 2, [5], opMd 1, .background⟩, ⟨.rs, 4, [6], opMd 9, .background⟩] ∧
    (y.node .guest).jobs = [⟨.rs, 30, 2, [5], opMd 1⟩] ∧ Handled y .host 2 ∧ Handled y .host 4 ∧
    said .guest = [(none, errorFrame 4 (lit "not_found")), (some ⟨.rs, 30, 2, [5], opMd 1⟩, frameFor 2 (.next [2] [])),
      (some ⟨.rs, 30, 2, [5], opMd 1⟩, frameFor 2 (.next [3] []))] ∧
    (y.node .host).obj 0 = some 1 ∧ (y.node .host).obj 1 = some 0 ∧
    signals 0 (y.node .host).peer.log = [.error (lit "not_found"), .complete] ∧ signals 1 (y.node .host).peer.log = [.next [2] []] := by
  have : ∃ (y : WasmCalls.Sys Nat) (said : End → List (Said Nat)) (sent : End → List Nat), Once (fun _ => hs2) y said sent ∧
      ((y.node .host).calls.length ≤ 2 ^ 30 ∧ (y.node .guest).calls.length ≤ 2 ^ 30) ∧ sent .host = [1, 0] ∧
      (y.node .host).calls = [⟨.rs, 2, [5], opMd 1, .background⟩, ⟨.rs, 4, [6], opMd 9, .background⟩] ∧
      (y.node .guest).jobs = [⟨.rs, 30, 2, [5], opMd 1⟩] ∧
      (requests 2 (y.wire .host) = 0 ∧ queued 2 (y.node .guest).peer.tasks = 0) ∧
      (requests 4 (y.wire .host) = 0 ∧ queued 4 (y.node .guest).peer.tasks = 0) ∧
      said .guest = [(none, errorFrame 4 (lit "not_found")), (some ⟨.rs, 30, 2, [5], opMd 1⟩, frameFor 2 (.next [2] [])),
        (some ⟨.rs, 30, 2, [5], opMd 1⟩, frameFor 2 (.next [3] []))] ∧
      (y.node .host).obj 0 = some 1 ∧ (y.node .host).obj 1 = some 0 ∧
      signals 0 (y.node .host).peer.log = [.error (lit "not_found"), .complete] ∧ signals 1 (y.node .host).peer.log = [.next [2] []] :=
    once_ends (P := fun p => ((p.1.node .host).calls.length ≤ 2 ^ 30 ∧ (p.1.node .guest).calls.length ≤ 2 ^ 30) ∧ p.2.2 .host = [1, 0] ∧
      (p.1.node .host).calls = [⟨.rs, 2, [5], opMd 1, .background⟩, ⟨.rs, 4, [6], opMd 9, .background⟩] ∧
      (p.1.node .guest).jobs = [⟨.rs, 30, 2, [5], opMd 1⟩] ∧
      (requests 2 (p.1.wire .host) = 0 ∧ queued 2 (p.1.node .guest).peer.tasks = 0) ∧
      (requests 4 (p.1.wire .host) = 0 ∧ queued 4 (p.1.node .guest).peer.tasks = 0) ∧
      p.2.1 .guest = [(none, errorFrame 4 (lit "not_found")), (some ⟨.rs, 30, 2, [5], opMd 1⟩, frameFor 2 (.next [2] [])),
        (some ⟨.rs, 30, 2, [5], opMd 1⟩, frameFor 2 (.next [3] []))] ∧
      (p.1.node .host).obj 0 = some 1 ∧ (p.1.node .host).obj 1 = some 0 ∧
      signals 0 (p.1.node .host).peer.log = [.error (lit "not_found"), .complete] ∧ signals 1 (p.1.node .host).peer.log = [.next [2] []])
      (as := oneRefused) (by decide +kernel)
  obtain ⟨y, said, sent, h1, h2, h3⟩ := this
  exact ⟨y, said, sent, h1, bounded_iff.mpr h2, h3⟩

/-- That requests are sent once is needed: a request that is sent twice starts two handlers. -/
example : ∃ y : WasmCalls.Sys Nat, Reach (fun _ => hs2) y ∧ (y.node .host).calls.map (·.id) = [2] ∧
    handlers 2 (y.node .guest).jobs = 2 :=
  run_ends (as := [.call .host .rs [5] (opMd 1) .background, .subscribe .host 0, .start .host 0 2, .start .host 0 7,
   .recv .guest ([0, 0, 0, 2, 25, 0, 0, 0, 0, 2, 0, 0, 8] ++ opMd 1 ++ [5]), .task .guest 0 true, .task .guest 0 true,
   .recv .guest ([0, 0, 0, 2, 25, 0, 0, 0, 0, 7, 0, 0, 8] ++ opMd 1 ++ [5]), .task .guest 0 true]) (by decide +kernel)

end Iota.Props.WasmOnce
