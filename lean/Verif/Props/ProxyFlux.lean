import Verif.Model.ProxyFlux
import Verif.Props.Handler

/-! # Demand of remote streams (C43, C63) -/

namespace Iota.Props.ProxyFlux
open Iota.Go Iota.Frames Iota.ProxyFlux Iota.Registry Iota.Props.Handler
open Iota.Handler hiding State

/-! ## C43 -/

/-- Specification: the local demand, request by request, as long as the remote side has not completed. -/
def localDemand : List Op → List Int
  | [] => []
  | .request n :: ops => n :: localDemand ops
  | .cancel :: ops => localDemand ops
  | .complete :: _ => []

/-- The demand a frame tells the peer about. -/
def told : Frame → Option Nat
  | .request v => some v.initialN.toNat
  | .requestN v => some v.n.toNat
  | _ => none

/-- The request frame comes first among the frames about demand, and only once; all are for one stream. -/
def RequestFirst (id : UInt32) : List Frame → Prop
  | [] => True
  | .request v :: fs => v.streamID = id ∧ ∀ f ∈ fs, ∃ n, f = .requestN ⟨id, n⟩
  | _ :: _ => False

def isCancel : Frame → Bool
  | .cancel _ => true
  | _ => false

theorem toU32_toNat {n : Int} (h0 : 0 ≤ n) (h1 : n < 2 ^ 32) : ((toU32 n).toNat : Int) = n := by
  unfold toU32
  rw [UInt32.toNat_ofNat']
  omega

/-- What a proxy that sent its request does further on. -/
theorem later_frames (s : State) (hf : s.first = false) (ops : List Op) :
    ∃ fs, (s.run ops).sent = s.sent ++ fs ∧ (∀ f ∈ fs, f = .cancel ⟨s.request.streamID⟩ ∨
        ∃ n, f = .requestN ⟨s.request.streamID, n⟩) ∧
      fs.filterMap told = (if s.complete then [] else localDemand ops).map fun n => (toU32 n).toNat := by
  induction ops generalizing s with
  | nil => exact ⟨[], by simp [State.run], by simp, by split <;> rfl⟩
  | cons op ops ih =>
    cases op with
    | request n =>
      cases hc : s.complete with
      | true =>
        have e : s.step (.request n) = s := by simp [State.step, State.doRequest, hc]
        obtain ⟨fs, h1, h2, h3⟩ := ih s hf
        refine ⟨fs, ?_, h2, ?_⟩
        · simp only [State.run, List.foldl_cons, e]; exact h1
        · rw [h3, hc]; rfl
      | false =>
        have e : s.step (.request n) =
            { s with sent := s.sent ++ [.requestN ⟨s.request.streamID, toU32 n⟩] } := by
          simp [State.step, State.doRequest, hc, hf]
        obtain ⟨fs, h1, h2, h3⟩ := ih (s.step (.request n)) (by rw [e]; exact hf)
        refine ⟨.requestN ⟨s.request.streamID, toU32 n⟩ :: fs, ?_, ?_, ?_⟩
        · show ((s.step (.request n)).run ops).sent = _
          rw [h1, e]; simp
        · intro f hf'
          rcases List.mem_cons.mp hf' with rfl | hf'
          · exact .inr ⟨_, rfl⟩
          · have := h2 f hf'; rw [e] at this; exact this
        · rw [e] at h3
          simp only [hc] at h3
          simp only [List.filterMap_cons, told, h3, localDemand]
          simp
    | cancel =>
      obtain ⟨fs, h1, h2, h3⟩ := ih (s.step .cancel) hf
      refine ⟨.cancel ⟨s.request.streamID⟩ :: fs, ?_, ?_, ?_⟩
      · show ((s.step .cancel).run ops).sent = _
        rw [h1]; simp [State.step]
      · intro f hf'
        rcases List.mem_cons.mp hf' with rfl | hf'
        · exact .inl rfl
        · exact h2 f hf'
      · exact h3
    | complete =>
      obtain ⟨fs, h1, h2, h3⟩ := ih (s.step .complete) hf
      refine ⟨fs, h1, h2, ?_⟩
      have : (s.step .complete).complete = true := rfl
      rw [h3, this]
      cases s.complete <;> rfl

/-- **C43** For demands below `2^32`, the peer is told exactly the local demand, request by request, until
it completed; apart from cancellation, the request frame is sent first and once, all frames are for the stream
of the call. Demands of `2^32` and more, and cancelling before any demand, are treated below. -/
theorem remote_demand_partial (v : RequestPayload) (ops : List Op)
    (hn : ∀ n, .request n ∈ ops → 0 ≤ n ∧ n < 2 ^ 32) :
    ((((State.new v).run ops).sent.filterMap told).map fun n : Nat => (n : Int)) = localDemand ops ∧
      RequestFirst v.streamID (((State.new v).run ops).sent.filter fun f => !isCancel f) ∧
      ∀ w, .request w ∈ ((State.new v).run ops).sent → w = { v with initialN := w.initialN } := by
  have hmap : ∀ l : List Op, (∀ n, .request n ∈ l → 0 ≤ n ∧ n < 2 ^ 32) →
      ((localDemand l).map fun n => (toU32 n).toNat).map (fun n : Nat => (n : Int)) = localDemand l := by
    intro l hl
    induction l with
    | nil => rfl
    | cons o l ih =>
      cases o with
      | request n =>
        have := hl n (by simp)
        simp only [localDemand, List.map_cons, toU32_toNat this.1 this.2,
          ih (fun m hm => hl m (List.mem_cons_of_mem _ hm))]
      | cancel => exact ih (fun m hm => hl m (List.mem_cons_of_mem _ hm))
      | complete => rfl
  suffices ∀ (ops : List Op) (s : State), s.first = true → (∀ f ∈ s.sent, isCancel f = true) → s.request = v →
      ((s.run ops).sent.filterMap told) =
        (if s.complete then [] else localDemand ops).map (fun n => (toU32 n).toNat) ∧
      RequestFirst v.streamID ((s.run ops).sent.filter fun f => !isCancel f) ∧
      ∀ w, .request w ∈ (s.run ops).sent → w = { v with initialN := w.initialN } by
    obtain ⟨h1, h2, h3⟩ := this ops (State.new v) rfl (by simp [State.new]) rfl
    refine ⟨?_, h2, h3⟩
    rw [h1]; exact hmap ops hn
  clear hn ops
  intro ops
  induction ops with
  | nil =>
    intro s hf hc hv
    have h1 : s.sent.filterMap told = [] := by
      rw [List.filterMap_eq_nil_iff]
      intro f h
      have := hc f h
      cases f <;> first | rfl | cases this
    have h2 : (s.sent.filter fun f => !isCancel f) = [] := by
      rw [List.filter_eq_nil_iff]; intro f h; simp [hc f h]
    refine ⟨?_, ?_, ?_⟩
    · simp only [State.run, List.foldl_nil, h1]; split <;> rfl
    · simp only [State.run, List.foldl_nil, h2]; trivial
    · intro w hw
      have := hc _ hw
      cases this
  | cons op ops ih =>
    intro s hf hc hv
    cases op with
    | cancel =>
      have := ih (s.step .cancel) hf (by
        intro f h
        rcases List.mem_append.mp h with h | h
        · exact hc f h
        · rw [List.mem_singleton] at h; rw [h]; rfl) hv
      exact this
    | complete =>
      have := ih (s.step .complete) hf hc hv
      have e : (s.step .complete).complete = true := rfl
      rw [e] at this
      refine ⟨?_, this.2⟩
      show ((s.step .complete).run ops).sent.filterMap told = _
      rw [this.1]
      cases s.complete <;> rfl
    | request n =>
      cases hcm : s.complete with
      | true =>
        have e : s.step (.request n) = s := by simp [State.step, State.doRequest, hcm]
        have := ih s hf hc hv
        simp only [State.run, List.foldl_cons, e]
        rw [hcm] at this
        exact this
      | false =>
        have e : s.step (.request n) = { s with
            request := { s.request with initialN := toU32 n }
            first := false
            sent := s.sent ++ [.request { s.request with initialN := toU32 n }] } := by
          simp [State.step, State.doRequest, hcm, hf]
        obtain ⟨fs, h1, h2, h3⟩ := later_frames (s.step (.request n)) (by rw [e]) ops
        have hs : s.sent.filterMap told = [] := by
          rw [List.filterMap_eq_nil_iff]
          intro f h
          have := hc f h
          cases f <;> first | rfl | cases this
        have hs2 : (s.sent.filter fun f => !isCancel f) = [] := by
          rw [List.filter_eq_nil_iff]; intro f h; simp [hc f h]
        have hsent : (s.run (.request n :: ops)).sent =
            s.sent ++ .request { v with initialN := toU32 n } :: fs := by
          show ((s.step (.request n)).run ops).sent = _
          rw [h1, e, hv]; simp
        rw [e] at h2 h3
        simp only [hv, hcm] at h2 h3
        rw [hsent]
        refine ⟨?_, ?_, ?_⟩
        · rw [List.filterMap_append, hs]
          simp only [List.nil_append, List.filterMap_cons, told, h3, localDemand]
          simp
        · rw [List.filter_append, hs2]
          simp only [List.nil_append, List.filter_cons, isCancel, Bool.not_false, if_true]
          refine ⟨rfl, ?_⟩
          intro f hf'
          obtain ⟨h4, h5⟩ := List.mem_filter.mp hf'
          rcases h2 f h4 with rfl | ⟨m, rfl⟩
          · cases h5
          · exact ⟨m, rfl⟩
        · intro w hw
          rcases List.mem_append.mp hw with hw | hw
          · have := hc _ hw
            cases this
          · rcases List.mem_cons.mp hw with hw | hw
            · cases hw; rfl
            · rcases h2 _ hw with h | ⟨m, h⟩ <;> cases h

/-- A life with two requests, a cancellation, another request, and one after completion. -/
example : ((State.new ⟨6, 1, [], [7], false, false, 0⟩).run
      [.request 5, .request 2147483647, .cancel, .request 3, .complete, .request 9]).sent =
    [.request ⟨6, 1, [], [7], false, false, 5⟩, .requestN ⟨1, 2147483647⟩, .cancel ⟨1⟩, .requestN ⟨1, 3⟩] ∧
    localDemand [.request 5, .request 2147483647, .cancel, .request 3, .complete, .request 9] =
      [5, 2147483647, 3] := by decide

/-- **C43** is false for large demands: asking for `2^32 + 1` elements asks the peer for one, asking for `2^32`
asks for none. -/
theorem large_demand_refuted :
    ((State.new ⟨6, 1, [], [7], false, false, 0⟩).run [.request (2 ^ 32 + 1)]).sent.filterMap told = [1] ∧
      ((State.new ⟨6, 1, [], [7], false, false, 0⟩).run [.request (2 ^ 32)]).sent.filterMap told = [0] := by
  decide

/-- **C43** is false when the subscriber cancels before it asked for anything: CANCEL is sent first, for a
stream the peer does not know (so the peer ends the connection, see `unknown_stream_ends_connection_refuted`),
and a request made after that starts the stream. -/
theorem request_first_refuted :
    ((State.new ⟨6, 1, [], [7], false, false, 0⟩).run [.cancel, .request 1]).sent =
      [.cancel ⟨1⟩, .request ⟨6, 1, [], [7], false, false, 1⟩] ∧
    handleFrame (H := Nat) Handler.State.init (.cancel ⟨1⟩) = .err notFound := ⟨by decide, rfl⟩

/-! ## C63: demand arriving at the responder -/

/-- **C63** Demand told to a responder after it registered the stream, and attached it to the flux of the
handler, reaches that flux: one goroutine with this demand is started, and it delivers it. -/
theorem demand_reaches_flux_partial {H : Type} (reg : Reg H) (st : Handler.State) (v : RequestN) (i : Nat)
    (sink : Bool) (hg : getStream st v.streamID = some i) (ho : st.objs[i]? = some (.resp true sink)) :
    ∃ o, handleFrame (H := H) st (.requestN v) = .ok o ∧ o.tasks = [.demand i v.n] ∧ o.st = st ∧
      ∀ st' : Handler.State, st'.objs[i]? = st.objs[i]? → ∀ live, ∃ o',
        runTask reg live st' (.demand i v.n) = .ok o' ∧ o'.evs = [.requested i v.n] := by
  refine ⟨⟨st, [.demand i v.n], []⟩, ?_, rfl, rfl, ?_⟩
  · have ht : (Frame.requestN v).type = tRequestN := rfl
    have hs : (Frame.requestN v).streamID = v.streamID := rfl
    rw [handleFrame, ht, if_pos (by decide), hs, hg]
    simp [dispatch, ho, Obj.isDoRequest]
  · intro st' he live
    rw [ho] at he
    exact ⟨⟨st', [], [.requested i v.n]⟩, by simp [runTask, he, Obj.hasSub], rfl⟩

/-- A state meeting the hypotheses. -/
example : ∃ c : Conn Nat, Conn.run reg4 Conn.init [.recv (req 6 2 0), .task 0 true, .task 0 true] = .ok c ∧
    getStream c.st 2 = some 0 ∧ c.st.objs[0]? = some (.resp true false) := ⟨_, rfl, by decide, by decide⟩

/-- **C63** is false: REQUEST_N that arrives before the goroutine handling the request has registered the
stream is dropped. The peer told the responder a demand of 3 + 5, the flux of the handler gets 3. -/
theorem early_demand_lost_refuted : ∃ c : Conn Nat,
    Conn.run reg4 Conn.init [.recv (req 6 2 0), .recv (.requestN ⟨2, 5⟩), .task 0 true, .task 0 true] = .ok c ∧
      c.tasks = [] ∧ (c.log.filterMap fun e => match e with
        | .requested _ n => some n
        | _ => none) = [3] := ⟨_, rfl, by decide, by decide⟩

end Iota.Props.ProxyFlux
