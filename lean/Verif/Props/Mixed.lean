import Verif.Lemmas.MixedRust
import Verif.Lemmas.MixedGo
import Verif.Props.RustFrames

/-! # Calls between an end in Go and an end in Rust (C151, C152) -/

namespace Iota.Props.Mixed
open Iota.Go Iota.Frames Iota.Registry Iota.Rust Iota.Mixed Iota.Spec.Mixed Iota.Lemmas.MixedRust Iota.Lemmas.MixedGo
open Iota.WasmDispatch (End)
open Iota.WasmCalls (Node)
open Iota.Handler (errorFrame)
open Iota.Peers (Result requestFrame answerFrame isRequest)
open Iota.Spec.Handler (opIndex)
open Iota.Spec.Interop (Same)
open Iota.Spec.WasmCalls (shown results toldCall handlers refusals refusal)
open Iota.Spec.RustSocket (isResult drawn yields answer answerOne answerNone outcome arrived text)
open Iota.Spec.RustPair (asked runFor)
open Iota.Spec.Polite (requests answers queued)
open Iota.Props.Frames (Legal dropRequestFollows received frame_roundtrip_partial)
open Iota.Props.RustFrames (same_bytes same_reading_partial received_same same_trans)
open Iota.Props.RustPair (isReq reqFor reqFor_iff recvs recvs_append mem_recvs arrived_eq run_append run_split run_out step_out drawn_append unique)
open Iota.Props.WasmCalls (Asks Local index_unique call_unique)
open Iota.Lemmas.RustSocket (firstId next_id)

variable {H : Type}

/-! ## Frames over the wire -/

/-- What both codecs agree on. -/
def key : Frame → Frame
  | .request v => .request { v with follows := false, complete := false, initialN := 0 }
  | f => f

theorem key_same {f g : Frame} (h : Same f g) : key f = key g := by
  cases f <;> cases g <;> simp only [Same, reduceCtorEq] at h <;> first | (rw [h]) | skip
  obtain ⟨h1, h2, h3, h4, _⟩ := h
  simp [key, h1, h2, h3, h4]

theorem key_drop (f : Frame) : key (dropRequestFollows f) = key f := by cases f <;> rfl

theorem key_request {v : RequestPayload} {f : Frame} (h : key f = key (.request v)) :
    ∃ w, f = .request w ∧ w.frameType = v.frameType ∧ w.streamID = v.streamID ∧ w.metadata = v.metadata ∧ w.data = v.data := by
  cases f with
  | request w =>
    simp only [key, Frame.request.injEq, RequestPayload.mk.injEq] at h
    exact ⟨w, rfl, h.1, h.2.1, h.2.2.1, h.2.2.2.1⟩
  | _ => simp [key] at h

theorem key_other {f g : Frame} (h : key f = key g) (hf : isReq g = false) : f = g := by
  cases f <;> cases g <;> simp_all [key, isReq]

theorem goBytes_eq {f : Frame} (hl : Legal f) : goBytes f = Rust.encode f ∧ decodeFrame (Rust.encode f) = .ok (received f) := by
  obtain ⟨_, h⟩ := same_bytes f hl (List.replicate f.size 0) (by simp)
  have e : f.encode (List.replicate f.size 0) = .ok (Rust.encode f) := by rw [h]; simp
  obtain ⟨w, h1, h2⟩ := frame_roundtrip_partial f hl (List.replicate f.size 0) (by simp)
  rw [e] at h1
  cases h1
  exact ⟨by simp only [goBytes, e], h2⟩

/-- What a Rust end makes of a frame. -/
theorem key_taken {f g : Frame} (hl : Legal f) (h : Rust.decode (goBytes f) = .ok g) : key g = key f := by
  obtain ⟨h1, h2⟩ := goBytes_eq hl
  rw [h1] at h
  have h3 := (same_reading_partial (Rust.encode f)).1 _ h2
  cases hu : Rust.isUtf8 (Iota.Props.RustFrames.text (received f)) with
  | false =>
    obtain ⟨e, he⟩ := h3.2 hu
    rw [h] at he; cases he
  | true =>
    obtain ⟨g', h4, h5⟩ := h3.1 hu
    rw [h] at h4
    cases h4
    rw [← key_drop f]
    exact (key_same (same_trans (received_same f hl) h5)).symm

/-- Can the Rust end decode it? -/
def legible (f : Frame) : Bool :=
  match Rust.decode (goBytes f) with
  | .err _ => false
  | _ => true

/-- What the Rust end can decode. -/
theorem decodes {f : Frame} (hl : Legal f) :
    ((∀ v, f = .error v → Rust.isUtf8 v.data = true) → ∃ g, Rust.decode (goBytes f) = .ok g) ∧
    ∀ v, f = .error v → Rust.isUtf8 v.data = false → ∃ x, Rust.decode (goBytes f) = .err x := by
  obtain ⟨h1, h2⟩ := goBytes_eq hl
  have h3 := (same_reading_partial (Rust.encode f)).1 _ h2
  have hnil : Rust.isUtf8 [] = true := by
    unfold Rust.isUtf8
    exact ByteArray.validateUTF8_eq_true_iff.mpr ⟨[], rfl⟩
  rw [h1]
  refine ⟨fun hu => ?_, fun v hv hu => h3.2 (by rw [hv]; exact hu)⟩
  obtain ⟨g, h4, _⟩ := h3.1 (by
    cases f with
    | error v => exact hu v rfl
    | _ => exact hnil)
  exact ⟨g, h4⟩

theorem not_legible {f : Frame} {x : String} (hl : Legal f) (h : Rust.decode (goBytes f) = .err x) :
    ∃ v, f = .error v ∧ Rust.isUtf8 v.data = false := by
  refine Classical.byContradiction fun hn => ?_
  obtain ⟨g, hg⟩ := (decodes hl).1 (fun v hv => by
    cases hu : Rust.isUtf8 v.data with
    | true => rfl
    | false => exact absurd ⟨v, hv, hu⟩ hn)
  rw [h] at hg; cases hg

theorem legible_of {f g : Frame} (h : Rust.decode (goBytes f) = .ok g) : legible f = true := by simp only [legible, h]
theorem illegible_of {f : Frame} {x : String} (h : Rust.decode (goBytes f) = .err x) : legible f = false := by simp only [legible, h]

/-- What a Rust guest answers to bytes that it cannot decode. -/
def zero : Frame := .error ⟨0, 0, Rust.lit "Could not decode frame data"⟩

theorem zero_legal : Legal zero := by unfold zero; decide +kernel

theorem reqFor_key (id : UInt32) (f : Frame) : reqFor id (key f) = reqFor id f := by cases f <;> rfl
theorem isResult_key (id : UInt32) (f : Frame) : isResult id (key f) = isResult id f := by cases f <;> rfl
theorem isResult_received (id : UInt32) (f : Frame) : isResult id (received f) = isResult id f := by cases f <;> rfl
theorem reqFor_received (id : UInt32) (f : Frame) : reqFor id (received f) = reqFor id f := by cases f <;> rfl

theorem requests_eq (id : UInt32) (l : List Frame) : requests id l = l.countP (reqFor id) := by
  unfold requests
  congr 1

theorem countP_key {q : Frame → Bool} (hq : ∀ f, q (key f) = q f) {l l' : List Frame} (h : l.map key = l'.map key) : l.countP q = l'.countP q := by
  have e : ∀ l : List Frame, (l.map key).countP q = l.countP q := by
    intro l
    rw [List.countP_map]
    congr 1; funext f; exact hq f
  rw [← e l, ← e l', h]

theorem mem_key {l l' : List Frame} (h : l.map key = l'.map key) {f : Frame} (hf : f ∈ l) : ∃ g ∈ l', key g = key f := by
  have : key f ∈ l'.map key := by rw [← h]; exact List.mem_map_of_mem hf
  obtain ⟨g, h1, h2⟩ := List.mem_map.mp this
  exact ⟨g, h1, h2⟩

/-! ## What holds in all runs -/

/-- What the Go end has taken. -/
def got (m : Mixed H) : List Frame := (m.rust.out.take m.goRead).map received

/-- Both ends, and what is between them. -/
structure Inv (e : End) (hs : WasmDispatch.Handlers H) (m : Mixed H) (R : List SockAct) : Prop where
  run : (Sock.init (decide (e = .host))).run R = some (.ok m.rust)
  good : Good e hs m.go m.sent (got m)
  heard : (recvs R).map key = ((m.sent.take m.rustRead).filter legible).map key
  goLe : m.goRead ≤ m.rust.out.length
  rustLe : m.rustRead ≤ m.sent.length
  refused : ∀ f ∈ m.refused, e = .host ∧ f = zero
  refusedLe : m.refusedRead ≤ m.refused.length

section
variable {e : End} {hs : WasmDispatch.Handlers H} {m : Mixed H} {R : List SockAct}

theorem Inv.mem_sent (i : Inv e hs m R) {f : Frame} (h : SockAct.recv f ∈ R) : ∃ g ∈ m.sent, key g = key f := by
  obtain ⟨g, h1, h2⟩ := mem_key i.heard (mem_recvs.mpr h)
  exact ⟨g, List.mem_of_mem_take (List.mem_filter.mp h1).1, h2⟩

/-- The kind of a request for a single result. -/
theorem kind_type {t : FrameType} {k : Kind} (h : Iota.Handler.kindOf t = some k) (hk : k = .rr ∨ k = .fnf) :
    t = if k = .fnf then tRequestFNF else tRequestResponse := by
  unfold Iota.Handler.kindOf at h
  repeat' (split at h)
  all_goals first | (cases h; done) | skip
  all_goals cases h
  · rename_i h; simpa using h
  · rename_i h; simpa using h
  · rcases hk with hk | hk <;> cases hk
  · rcases hk with hk | hk <;> cases hk

theorem Inv.request_sent (i : Inv e hs m R) (hg : Single e m R) {v : RequestPayload} (h : Frame.request v ∈ m.sent) :
    ∃ c ∈ m.go.calls, Asks c v ∧ (c.kind = .rr ∨ c.kind = .fnf) ∧ v.frameType = if c.kind = .fnf then tRequestFNF else tRequestResponse := by
  obtain ⟨c, h1, h2⟩ := i.good.calls.asks v h
  exact ⟨c, h1, h2, hg.go c h1, kind_type h2.kind (hg.go c h1)⟩

theorem Inv.meek (i : Inv e hs m R) (hg : Single e m R) : Meek R := by
  refine ⟨fun x md d h => (hg.rust x md d h).imp id And.left, fun f hf => ?_⟩
  obtain ⟨g, h1, h2⟩ := i.mem_sent hf
  cases f with
  | request v =>
    obtain ⟨w, rfl, h3, _⟩ := key_request h2
    obtain ⟨c, _, _, _, h4⟩ := i.request_sent hg h1
    simp only [Lemmas.MixedRust.meek, ← h3, h4]
    split <;> rfl
  | payload v => rfl
  | error v => rfl
  | requestN v =>
    cases key_other h2 rfl
    rcases i.good.work.shape _ h1 rfl with ⟨y, _, h⟩ | ⟨w, msg, _, h, _⟩
    · cases hy : y.2 <;> rw [hy] at h <;> cases h
    · cases h
  | cancel v =>
    cases key_other h2 rfl
    rcases i.good.work.shape _ h1 rfl with ⟨y, _, h⟩ | ⟨w, msg, _, h, _⟩
    · cases hy : y.2 <;> rw [hy] at h <;> cases h
    · cases h

theorem Inv.plain (i : Inv e hs m R) (hg : Single e m R) : Plain m.rust := (plain_init _).run R (i.meek hg) i.run

theorem first_next (g : Bool) : (Sock.init g).next.toNat = firstId g := by cases g <;> rfl

theorem Inv.reqs (i : Inv e hs m R) (hg : Single e m R) : m.rust.out.filter isReq = reqsFrom (Sock.init (decide (e = .host))).next R := by
  rw [reqs_eq R (plain_init _) (i.meek hg) i.run]; rfl

theorem first_small {g : Bool} (hf : Few m R) : (Sock.init g).next.toNat + 2 * drawn R < 2 ^ 31 := by
  have := hf.rust
  rw [first_next]
  cases g <;> simp only [firstId] <;> simp <;> omega

/-- The Rust end sends at most one request under an id. -/
theorem Inv.once_out (i : Inv e hs m R) (hg : Single e m R) (hf : Few m R) (id : UInt32) : m.rust.out.countP (reqFor id) ≤ 1 := by
  rw [← countP_req, i.reqs hg]
  refine reqsFrom_once R _ ?_ id
  have := first_small (g := decide (e = .host)) hf
  omega

/-- The Go end sends at most one request under an id. -/
theorem Inv.once_sent (i : Inv e hs m R) (id : UInt32) : m.sent.countP (reqFor id) ≤ 1 := by
  rw [← requests_eq]
  by_cases h : requests id m.sent = 0
  · omega
  · obtain ⟨f, h1, h2⟩ := List.countP_pos_iff.mp (Nat.pos_of_ne_zero h)
    cases f with
    | request v =>
      obtain ⟨c, h3, h4⟩ := i.good.calls.asks v h1
      obtain ⟨j, hj⟩ := List.mem_iff_getElem?.mp h3
      have := i.good.calls.count j c hj
      have hid : c.id = id := by
        simp only [Bool.and_eq_true, beq_iff_eq] at h2
        rw [← h4.id]; exact h2.2
      rw [hid] at this
      rw [this]; split <;> omega
    | _ => cases h2

theorem Inv.once_heard (i : Inv e hs m R) (id : UInt32) : (recvs R).countP (reqFor id) ≤ 1 := by
  rw [countP_key (reqFor_key id) i.heard]
  exact Nat.le_trans (List.filter_sublist.trans (List.take_sublist _ _)).countP_le (i.once_sent id)

/-- Ids of calls are small. -/
theorem Inv.call_small (i : Inv e hs m R) {c : WasmCalls.Call} (hc : c ∈ m.go.calls) : c.id.toNat < 2 ^ 31 := by
  obtain ⟨j, hj⟩ := List.mem_iff_getElem?.mp hc
  rw [i.good.calls.loc.ids j c hj]
  cases WasmCalls.sideOf e <;> exact Nat.mod_lt _ (by decide)

theorem Inv.req_small (i : Inv e hs m R) (hg : Single e m R) (hf : Few m R) {f : Frame} (h : f ∈ m.rust.out) (hq : isReq f = true) :
    f.streamID.toNat < 2 ^ 31 := by
  have h1 : f ∈ m.rust.out.filter isReq := List.mem_filter.mpr ⟨h, hq⟩
  have h2 := first_small (g := decide (e = .host)) hf
  rw [i.reqs hg] at h1
  have := (reqsFrom_ids R _ (by omega) f h1).2.2
  omega

theorem Inv.req_type (i : Inv e hs m R) (hg : Single e m R) {v : RequestPayload} (h : Frame.request v ∈ m.rust.out) :
    ∃ as x md d bs s1, R = as ++ SockAct.call x md d :: bs ∧ (Sock.init (decide (e = .host))).run as = some (.ok s1) ∧
      (x = .rr ∨ (x = .fnf ∧ e = .host)) ∧ .request v = reqOf x s1.next md d := by
  obtain ⟨as, x, md, d, bs, s1, h1, h2, h3⟩ := req_call R (plain_init _) (i.meek hg) i.run _ h rfl (by simp [Sock.init])
  exact ⟨as, x, md, d, bs, s1, h1, h2, hg.rust x md d (by rw [h1]; simp), h3⟩

theorem Inv.welcome (i : Inv e hs m R) (hg : Single e m R) {v : RequestPayload} (h : Frame.request v ∈ m.rust.out) :
    ∃ w, received (.request v) = .request w ∧ Welcome e w := by
  obtain ⟨as, x, md, d, bs, s1, _, _, hx, h3⟩ := i.req_type hg h
  simp only [reqOf, newRequest, Frame.request.injEq] at h3
  refine ⟨_, rfl, rfl, ?_⟩
  show Iota.Handler.kindOf v.frameType = _ ∨ Iota.Handler.kindOf v.frameType = _ ∧ _
  rw [h3]
  rcases hx with rfl | ⟨rfl, hx⟩
  · exact .inl rfl
  · exact .inr ⟨rfl, hx⟩

/-- A result of the Rust end is for a call of the Go end. -/
theorem Inv.result_call (i : Inv e hs m R) (hg : Single e m R) {f : Frame} (h : f ∈ m.rust.out) {id : UInt32} (hr : isResult id f = true) :
    ∃ c ∈ m.go.calls, c.id = id := by
  have : (recvs R).countP (reqFor id) ≠ 0 := by
    intro h0
    have := unasked i.run (i.meek hg) h0
    have h1 : f ∈ m.rust.out.filter (isResult id) := List.mem_filter.mpr ⟨h, hr⟩
    rw [this] at h1; exact absurd h1 List.not_mem_nil
  obtain ⟨g, h1, h2⟩ := List.countP_pos_iff.mp (Nat.pos_of_ne_zero this)
  obtain ⟨hq, hid⟩ := reqFor_iff.mp h2
  cases g with
  | request v =>
    obtain ⟨g', h3, h4⟩ := i.mem_sent (mem_recvs.mp h1)
    obtain ⟨w, rfl, _, h5, _⟩ := key_request h4
    obtain ⟨c, h6, h7, _⟩ := i.request_sent hg h3
    exact ⟨c, h6, by rw [← h7.id, h5]; exact hid⟩
  | _ => cases hq

/-- What the Rust end sends can be read. -/
theorem Inv.legal_out (i : Inv e hs m R) (hg : Single e m R) (hf : Few m R) (hsm : Small m) {f : Frame} (h : f ∈ m.rust.out) : Legal f := by
  have hm := (i.plain hg).out f h
  have hfit := hsm.2 f h
  cases f with
  | request v =>
    have h1 := i.req_small hg hf h rfl
    simp only [Lemmas.MixedRust.meek, Bool.or_eq_true, decide_eq_true_eq] at hm
    refine ⟨h1, hfit.1, hfit.2, ?_⟩
    rcases hm with hm | hm <;> rw [hm] <;> decide
  | payload v =>
    obtain ⟨c, h1, h2⟩ := i.result_call hg h (id := v.streamID) (by simp [isResult])
    refine ⟨?_, hfit.1, hfit.2⟩
    rw [← h2]; exact i.call_small h1
  | error v =>
    obtain ⟨c, h1, h2⟩ := i.result_call hg h (id := v.streamID) (by simp [isResult])
    refine ⟨?_, hfit⟩
    rw [← h2]; exact i.call_small h1
  | requestN v => cases hm
  | cancel v => cases hm

theorem Inv.got_out (_ : Inv e hs m R) {v : RequestPayload} (h : Frame.request v ∈ got m) :
    ∃ w, Frame.request w ∈ m.rust.out ∧ w.frameType = v.frameType ∧ w.streamID = v.streamID ∧ w.metadata = v.metadata ∧ w.data = v.data := by
  obtain ⟨f, h1, h2⟩ := List.mem_map.mp h
  have h1 := List.mem_of_mem_take h1
  cases f with
  | request w =>
    simp only [received, Frame.request.injEq] at h2
    subst h2
    exact ⟨w, h1, rfl, rfl, rfl, rfl⟩
  | _ => cases h2

theorem Inv.got_small (i : Inv e hs m R) (hg : Single e m R) (hf : Few m R) {v : RequestPayload} (h : Frame.request v ∈ got m) :
    v.streamID.toNat < 2 ^ 31 := by
  obtain ⟨w, h1, _, h2, _⟩ := i.got_out h
  rw [← h2]; exact i.req_small hg hf h1 rfl

/-- What the Go end sends can be read. -/
theorem Inv.legal_sent (i : Inv e hs m R) (hg : Single e m R) (hf : Few m R) (hsm : Small m) {f : Frame} (h : f ∈ m.sent) : Legal f := by
  have hfit := hsm.1 f h
  cases hq : isRequest f with
  | true =>
    cases f with
    | request v =>
      obtain ⟨c, h1, h2, h3, h4⟩ := i.request_sent hg h
      refine ⟨by rw [h2.id]; exact i.call_small h1, hfit.1, hfit.2, ?_⟩
      rw [h4]; split <;> decide
    | _ => cases hq
  | false =>
    rcases i.good.work.shape f h hq with ⟨y, h1, h2⟩ | ⟨v, msg, h1, h2, _⟩
    · obtain ⟨_, v, h3, h4⟩ := i.good.work.made y h1
      have := i.got_small hg hf h3
      rw [← h4.id] at this
      rw [h2] at hfit ⊢
      cases hy : y.2 with
      | value d md => rw [hy] at hfit; exact ⟨this, hfit.1, hfit.2⟩
      | failure x => rw [hy] at hfit; exact ⟨this, hfit⟩
    · have := i.got_small hg hf h1
      rw [h2] at hfit ⊢
      exact ⟨this, hfit⟩

/-- Where a request was taken. -/
theorem Inv.taken (i : Inv e hs m R) {v : RequestPayload} (h : SockAct.recv (.request v) ∈ R) :
    ∃ before rest s1, R = before ++ .recv (.request v) :: rest ∧ (Sock.init (decide (e = .host))).run before = some (.ok s1) := by
  obtain ⟨as, bs, rfl⟩ := List.append_of_mem h
  obtain ⟨s1, h1, _⟩ := run_split as _ i.run
  exact ⟨as, bs, s1, rfl, h1⟩

theorem answer_le {t : FrameType} (ht : t = tRequestResponse ∨ t = tRequestFNF) (sid : UInt32) (ys : List Yield) : (answer t sid ys).length ≤ 1 := by
  rcases ht with rfl | rfl
  · rw [answer, if_neg (by decide), if_pos rfl]
    unfold answerOne; split <;> simp
  · rw [answer, if_pos rfl]
    unfold answerNone; split <;> simp

/-- The Rust end sends at most one result under an id. -/
theorem Inv.once_result (i : Inv e hs m R) (hg : Single e m R) (id : UInt32) : (m.rust.out.filter (isResult id)).length ≤ 1 := by
  by_cases h0 : (recvs R).countP (reqFor id) = 0
  · rw [unasked i.run (i.meek hg) h0]; simp
  · obtain ⟨g, h1, h2⟩ := List.countP_pos_iff.mp (Nat.pos_of_ne_zero h0)
    obtain ⟨hq, hid⟩ := reqFor_iff.mp h2
    cases g with
    | request v =>
      have h1 := mem_recvs.mp h1
      obtain ⟨as, bs, s1, h3, h4⟩ := i.taken h1
      have hid : v.streamID = id := hid
      subst hid
      have hmk := (i.meek hg).frames _ h1
      have hr := i.run
      have hmm := i.meek hg
      have ho := i.once_heard v.streamID
      rw [h3] at hr hmm ho
      rw [(answered h4 hr hmm ho).1]
      simp only [Lemmas.MixedRust.meek, Bool.or_eq_true, decide_eq_true_eq] at hmk
      exact answer_le hmk _ _
    | _ => cases hq

theorem take_none {α : Type} {q : α → Bool} {l : List α} (h : (l.filter q).length ≤ 1) {n : Nat} {x : α} (hx : l[n]? = some x) (hq : q x = true) :
    (l.take n).filter q = [] := by
  have hlt := (List.getElem?_eq_some_iff.mp hx).1
  have e : l = l.take n ++ x :: l.drop (n + 1) := by
    have h2 := (List.getElem?_eq_some_iff.mp hx).2
    rw [← h2, List.getElem_cons_drop, List.take_append_drop]
  rw [e, List.filter_append, List.filter_cons_of_pos hq, List.length_append, List.length_cons] at h
  exact List.eq_nil_of_length_eq_zero (by omega)

theorem filter_received (id : UInt32) (l : List Frame) : (l.map received).filter (isResult id) = (l.filter (isResult id)).map received := by
  rw [List.filter_map]
  congr 1
  congr 1
  funext f
  exact isResult_received id f

/-- No result without a request. -/
theorem Inv.quiet (i : Inv e hs m R) (hg : Single e m R) (id : UInt32) (h : requests id m.sent = 0) : (got m).filter (isResult id) = [] := by
  have h0 : (recvs R).countP (reqFor id) = 0 := by
    rw [countP_key (reqFor_key id) i.heard]
    rw [requests_eq] at h
    exact Nat.le_zero.mp (h ▸ (List.filter_sublist.trans (List.take_sublist _ _)).countP_le)
  have h1 := unasked i.run (i.meek hg) h0
  rw [got, filter_received]
  obtain ⟨n, hn⟩ := Iota.Props.RustPair.filter_take (isResult id) m.goRead m.rust.out
  rw [hn, h1]; simp

end

/-! ## Every step -/

theorem refusal_readable (md : Bytes) : Rust.isUtf8 (Iota.Spec.WasmCalls.refusal md) = true := by
  unfold Iota.Spec.WasmCalls.refusal
  split
  · unfold Rust.isUtf8
    exact ByteArray.validateUTF8_eq_true_iff.mpr ⟨"Invalid metadata".toList, by decide +kernel⟩
  · unfold Rust.isUtf8
    exact ByteArray.validateUTF8_eq_true_iff.mpr ⟨"not_found".toList, by decide +kernel⟩

theorem goStep_calls {e : End} {hs : WasmDispatch.Handlers H} {n n' : Node H} {a : GoAct} {out : List Frame} (h : goStep e hs n a = some (n', out)) :
    ∃ l, n'.calls = n.calls ++ l := by
  have does : ∀ b, goDoes e hs n b = some (n', out) → ∃ l, n'.calls = n.calls ++ l := by
    intro b hb
    obtain ⟨p, _, rfl, _⟩ := goDoes_eq hb
    exact ⟨[], by simp [WasmCalls.Node.absorb]⟩
  cases a with
  | call k d md ctx =>
    obtain ⟨c, _, h1⟩ := Iota.Props.WasmCalls.call_calls h
    exact ⟨[c], h1⟩
  | subscribe j => exact ⟨[], by simp [Iota.Props.WasmCalls.subscribe_calls h]⟩
  | start j x =>
    simp only [goStep, Option.bind_eq_some_iff] at h
    obtain ⟨c, _, h⟩ := h
    split at h
    · cases h; exact ⟨[], by simp⟩
    · cases h
  | own j f =>
    simp only [goStep, Option.bind_eq_some_iff] at h
    obtain ⟨c, _, h⟩ := h
    split at h
    · cases h; exact ⟨[], by simp⟩
    · cases h
  | task i live => exact does _ h
  | startIn i live => exact does (.startIn i live) h
  | openSink i => exact does (.openSink i) h
  | answer i r => exact ⟨[], by simp [(Iota.Props.WasmCalls.answer_calls h).1]⟩
  | emit i f =>
    simp only [goStep, Option.bind_eq_some_iff] at h
    obtain ⟨c, _, h⟩ := h
    split at h
    · cases h; exact ⟨[], by simp⟩
    · cases h

theorem goStep_made {e : End} {hs : WasmDispatch.Handlers H} {n n' : Node H} {a : GoAct} {out : List Frame} (h : goStep e hs n a = some (n', out)) :
    ∃ l, n'.made = n.made ++ l := by
  have does : ∀ b, goDoes e hs n b = some (n', out) → ∃ l, n'.made = n.made ++ l := by
    intro b hb
    obtain ⟨p, _, rfl, _⟩ := goDoes_eq hb
    exact ⟨[], by simp [WasmCalls.Node.absorb]⟩
  cases a with
  | call k d md ctx =>
    simp only [goStep, WasmCalls.Node.call] at h
    split at h
    · cases h
    · cases h; exact ⟨[], by simp⟩
  | subscribe j =>
    obtain ⟨c, o, _, _, rfl, _⟩ := Iota.Props.WasmCalls.subscribe_shape h
    exact ⟨[], by simp⟩
  | start j x =>
    simp only [goStep, Option.bind_eq_some_iff] at h
    obtain ⟨c, _, h⟩ := h
    split at h
    · cases h; exact ⟨[], by simp⟩
    · cases h
  | own j f =>
    simp only [goStep, Option.bind_eq_some_iff] at h
    obtain ⟨c, _, h⟩ := h
    split at h
    · cases h; exact ⟨[], by simp⟩
    · cases h
  | task i live => exact does _ h
  | startIn i live => exact does (.startIn i live) h
  | openSink i => exact does (.openSink i) h
  | answer i r =>
    obtain ⟨x, _, _, rfl, _⟩ := answer_shape h
    exact ⟨_, rfl⟩
  | emit i f =>
    simp only [goStep, Option.bind_eq_some_iff] at h
    obtain ⟨c, _, h⟩ := h
    split at h
    · cases h; exact ⟨[], by simp⟩
    · cases h

/-- The kinds of steps. -/
theorem step_cases {e : End} {hs : WasmDispatch.Handlers H} {m m' : Mixed H} {a : Iota.Mixed.Act} (h : m.step e hs a = some m') :
    (∃ b s, m.rustSees a = some b ∧ m.rust.step b = some (.ok s) ∧
      m' = { m with rust := s, rustRead := if Iota.Mixed.isRecv b then m.rustRead + 1 else m.rustRead }) ∨
    (∃ f x, a = .toRust ∧ m.rustSees a = none ∧ m.sent[m.rustRead]? = some f ∧ Rust.decode (goBytes f) = .err x ∧
      m' = { m with rustRead := m.rustRead + 1, refused := m.refused ++ [complaint e (goBytes f) x] }) ∨
    (∃ n out, m.rustSees a = none ∧ m.goSees e hs a = some (n, out) ∧
      m' = { m with go := n, sent := m.sent ++ out, goRead := if isToGo a then m.goRead + 1 else m.goRead, refusedRead := if isToGoRefused a then m.refusedRead + 1 else m.refusedRead }) := by
  unfold Mixed.step at h
  split at h
  · rename_i b hb
    split at h
    · rename_i s hs'
      cases h; exact .inl ⟨b, s, hb, hs', rfl⟩
    · cases h
  · rename_i hb
    split at h
    · rename_i r hr
      cases h
      cases a with
      | toRust =>
        simp only [Mixed.refuses] at hr
        split at hr
        · cases hr
        · rename_i f hf
          split at hr
          · rename_i x hx
            cases hr; exact .inr (.inl ⟨f, x, rfl, hb, hf, hx, rfl⟩)
          · cases hr
      | _ => cases hr
    · split at h
      · rename_i n out hg
        cases h; exact .inr (.inr ⟨n, out, hb, hg, rfl⟩)
      · cases h

theorem step_grows {e : End} {hs : WasmDispatch.Handlers H} {m m' : Mixed H} {a : Iota.Mixed.Act} (h : m.step e hs a = some m') :
    (∃ l, m'.go.calls = m.go.calls ++ l) ∧ (∃ l, m'.sent = m.sent ++ l) ∧ (∃ l, m'.rust.out = m.rust.out ++ l) ∧
      ∃ l, m'.go.made = m.go.made ++ l := by
  rcases step_cases h with ⟨b, s, _, h1, rfl⟩ | ⟨f, x, _, _, _, _, rfl⟩ | ⟨n, out, _, h1, rfl⟩
  · exact ⟨⟨[], by simp⟩, ⟨[], by simp⟩, step_out h1, ⟨[], by simp⟩⟩
  · exact ⟨⟨[], by simp⟩, ⟨[], by simp⟩, ⟨[], by simp⟩, ⟨[], by simp⟩⟩
  · have : (∃ l, n.calls = m.go.calls ++ l) ∧ ∃ l, n.made = m.go.made ++ l := by
      cases a with
      | go a => exact ⟨goStep_calls h1, goStep_made h1⟩
      | toGo =>
        simp only [Mixed.goSees] at h1
        split at h1
        · cases h1
        · obtain ⟨p, _, rfl, _⟩ := goDoes_eq h1
          exact ⟨⟨[], by simp [WasmCalls.Node.absorb]⟩, ⟨[], by simp [WasmCalls.Node.absorb]⟩⟩
      | toGoRefused =>
        simp only [Mixed.goSees] at h1
        split at h1
        · cases h1
        · obtain ⟨p, _, rfl, _⟩ := goDoes_eq h1
          exact ⟨⟨[], by simp [WasmCalls.Node.absorb]⟩, ⟨[], by simp [WasmCalls.Node.absorb]⟩⟩
      | rust a => cases h1
      | toRust => cases h1
    exact ⟨this.1, ⟨out, rfl⟩, ⟨[], by simp⟩, this.2⟩

theorem single_before {e : End} {hs : WasmDispatch.Handlers H} {m m' : Mixed H} {a : Iota.Mixed.Act} {R l : List SockAct} (h : m.step e hs a = some m')
    (hg : Single e m' (R ++ l)) : Single e m R := by
  obtain ⟨⟨l1, h1⟩, _, _, l2, h2⟩ := step_grows h
  exact ⟨fun c hc => hg.go c (by rw [h1]; exact List.mem_append_left _ hc), fun x md d hx => hg.rust x md d (List.mem_append_left _ hx),
    fun he j x hx => hg.text he j x (by rw [h2]; exact List.mem_append_left _ hx)⟩

theorem few_before {e : End} {hs : WasmDispatch.Handlers H} {m m' : Mixed H} {a : Iota.Mixed.Act} {R l : List SockAct} (h : m.step e hs a = some m')
    (hf : Few m' (R ++ l)) : Few m R := by
  obtain ⟨⟨l1, h1⟩, _⟩ := step_grows h
  refine ⟨?_, ?_⟩
  · have := hf.go; rw [h1, List.length_append] at this; omega
  · have := hf.rust; rw [drawn_append] at this; omega

theorem small_before {e : End} {hs : WasmDispatch.Handlers H} {m m' : Mixed H} {a : Iota.Mixed.Act} (h : m.step e hs a = some m')
    (hsm : Small m') : Small m := by
  obtain ⟨_, ⟨l1, h1⟩, ⟨l2, h2⟩, _⟩ := step_grows h
  exact ⟨fun f hf => hsm.1 f (by rw [h1]; exact List.mem_append_left _ hf), fun f hf => hsm.2 f (by rw [h2]; exact List.mem_append_left _ hf)⟩

/-- The Go host ignores what its Rust guest answers to bytes that it cannot decode. -/
theorem Inv.ignored {e : End} {hs : WasmDispatch.Handlers H} {m : Mixed H} {R : List SockAct} (i : Inv e hs m R) (hf : Few m R) (he : e = .host) {n : Node H}
    {out : List Frame} (h : goDoes e hs m.go (.recv (Rust.encode zero)) = some (n, out)) : n = m.go ∧ out = [] := by
  obtain ⟨p, hp, rfl, rfl⟩ := goDoes_eq h
  have hd : decodeFrame (Rust.encode zero) = .ok zero := (goBytes_eq zero_legal).2
  rcases Iota.Props.WasmCalls.recv_other hd rfl hp with ⟨_, rfl⟩ | ⟨o, x, h1, _⟩
  · simp [WasmCalls.Node.absorb, WasmCalls.Node.news]
  · obtain ⟨j, c, h2, _, h3, _⟩ := i.good.calls.entries.lookup h1
    have h4 := i.good.calls.loc.ids j c h2
    have hlt := (List.getElem?_eq_some_iff.mp h2).1
    have := hf.go
    rw [h3, he] at h4
    have h5 : (2 * (j + 1)) % 2 ^ 31 = 0 := h4.symm
    omega

/-- Only what handlers gave for errors may be illegible. -/
theorem Inv.refusal_host {e : End} {hs : WasmDispatch.Handlers H} {m : Mixed H} {R : List SockAct} (i : Inv e hs m R) (hg : Single e m R) (hf : Few m R)
    (hsm : Small m) {f : Frame} {x : String} (hfm : f ∈ m.sent) (hx : Rust.decode (goBytes f) = .err x) : e = .host := by
  obtain ⟨v, rfl, hv⟩ := not_legible (i.legal_sent hg hf hsm hfm) hx
  rcases i.good.work.shape _ hfm rfl with ⟨y, y1, y2⟩ | ⟨w, msg, _, h2, _, h3⟩
  · cases hy : y.2 with
    | value d md => rw [hy] at y2; cases y2
    | failure msg =>
      rw [hy] at y2
      simp only [answerFrame, errorFrame, Frame.error.injEq] at y2
      subst y2
      cases e with
      | host => rfl
      | guest =>
        have := hg.text rfl y.1 msg (by rw [← hy]; exact y1)
        rw [this] at hv; cases hv
  · simp only [errorFrame, Frame.error.injEq] at h2
    subst h2
    rw [h3] at hv
    have := refusal_readable w.metadata
    rw [show (Error.data ⟨w.streamID, 0, Iota.Spec.WasmCalls.refusal w.metadata⟩) = Iota.Spec.WasmCalls.refusal w.metadata from rfl, this] at hv
    cases hv

theorem Inv.step {e : End} {hs : WasmDispatch.Handlers H} {m m' : Mixed H} {a : Iota.Mixed.Act} {R : List SockAct} (i : Inv e hs m R)
    (h : m.step e hs a = some m') (hg' : Single e m' (R ++ (m.rustSees a).toList)) (hf' : Few m' (R ++ (m.rustSees a).toList)) (hsm' : Small m') :
    Inv e hs m' (R ++ (m.rustSees a).toList) := by
  have hg := single_before h hg'
  have hf := few_before h hf'
  have hsm := small_before h hsm'
  rcases step_cases h with ⟨b, s, hb, h1, rfl⟩ | ⟨f, x, rfl, hb, hfs, hx, rfl⟩ | ⟨n, out, hb, h1, rfl⟩
  · rw [hb, Option.toList_some]
    obtain ⟨l, hl⟩ := step_out h1
    have hgot : (s.out.take m.goRead).map received = got m := by
      rw [hl, List.take_append_of_le_length i.goLe]; rfl
    refine ⟨?_, ?_, ?_, ?_, ?_, i.refused, i.refusedLe⟩
    · rw [run_append _ i.run]; simp [Sock.run, h1]
    · show Good e hs m.go m.sent ((s.out.take m.goRead).map received)
      rw [hgot]; exact i.good
    · show (recvs (R ++ [b])).map key = ((m.sent.take (if Iota.Mixed.isRecv b then m.rustRead + 1 else m.rustRead)).filter legible).map key
      rw [recvs_append, List.map_append, i.heard]
      cases hrb : Iota.Mixed.isRecv b with
      | false =>
        have : recvs [b] = [] := by cases b <;> first | rfl | cases hrb
        simp [this]
      | true =>
        cases a with
        | rust c =>
          simp only [Mixed.rustSees] at hb
          split at hb
          · cases hb
          · cases hb; rename_i hc; exact absurd hrb hc
        | toRust =>
          simp only [Mixed.rustSees] at hb
          split at hb
          · cases hb
          · rename_i f hfs
            split at hb
            · rename_i g hd
              cases hb
              have hk := key_taken (i.legal_sent hg hf hsm (List.mem_of_getElem? hfs)) hd
              rw [if_pos rfl, List.take_succ, hfs, List.filter_append, List.map_append]
              simp [recvs, hk, legible_of hd]
            · cases hb
        | go c => cases hb
        | toGo => cases hb
        | toGoRefused => cases hb
    · show m.goRead ≤ s.out.length
      rw [hl, List.length_append]; have := i.goLe; omega
    · show (if Iota.Mixed.isRecv b then m.rustRead + 1 else m.rustRead) ≤ m.sent.length
      have := i.rustLe
      split
      · rename_i hrb
        cases a with
        | rust c =>
          simp only [Mixed.rustSees] at hb
          split at hb
          · cases hb
          · cases hb; rename_i hc; exact absurd hrb hc
        | toRust =>
          simp only [Mixed.rustSees] at hb
          split at hb
          · cases hb
          · rename_i f hfs
            exact (List.getElem?_eq_some_iff.mp hfs).1
        | go c => cases hb
        | toGo => cases hb
        | toGoRefused => cases hb
      · exact this
  · rw [hb, Option.toList_none, List.append_nil]
    refine ⟨i.run, i.good, ?_, i.goLe, (List.getElem?_eq_some_iff.mp hfs).1, fun g hgm => ?_, ?_⟩
    · show (recvs R).map key = ((m.sent.take (m.rustRead + 1)).filter legible).map key
      rw [List.take_succ, hfs, List.filter_append, i.heard]
      simp [illegible_of hx]
    · have he := i.refusal_host hg hf hsm (List.mem_of_getElem? hfs) hx
      rcases List.mem_append.mp hgm with hgm | hgm
      · exact i.refused g hgm
      · refine ⟨he, ?_⟩
        rw [List.mem_singleton.mp hgm, he]; rfl
    · show m.refusedRead ≤ (m.refused ++ [_]).length
      rw [List.length_append]; have := i.refusedLe; omega
  · rw [hb, Option.toList_none, List.append_nil]
    have base : ∀ r q, r ≤ m.rust.out.length → q ≤ m.refused.length → Good e hs n (m.sent ++ out) ((m.rust.out.take r).map received) →
        Inv e hs { m with go := n, sent := m.sent ++ out, goRead := r, refusedRead := q } R := by
      intro r q hr hq hgood
      refine ⟨i.run, hgood, ?_, hr, ?_, i.refused, hq⟩
      · show (recvs R).map key = (((m.sent ++ out).take m.rustRead).filter legible).map key
        rw [List.take_append_of_le_length i.rustLe]; exact i.heard
      · show m.rustRead ≤ (m.sent ++ out).length
        rw [List.length_append]; have := i.rustLe; omega
    cases a with
    | go a =>
      refine base _ _ i.goLe i.refusedLe ?_
      refine i.good.step h1 hg'.go ?_ (i.quiet hg)
      have := hf'.go
      show n.calls.length ≤ 2 ^ 30
      have : n.calls.length + 2 ≤ 2 ^ 30 := this
      omega
    | toGo =>
      simp only [Mixed.goSees] at h1
      split at h1
      · cases h1
      · rename_i f hfo
        have hlt := (List.getElem?_eq_some_iff.mp hfo).1
        have hmem := List.mem_of_getElem? hfo
        refine base (m.goRead + 1) _ hlt i.refusedLe ?_
        have hd := (goBytes_eq (i.legal_out hg hf hsm hmem)).2
        have hm := (i.plain hg).out f hmem
        have e1 : (m.rust.out.take (m.goRead + 1)).map received = got m ++ [received f] := by
          rw [List.take_succ, hfo, List.map_append]; rfl
        rw [e1]
        refine (i.good.recv h1 hd ?_).1
        have old : ∀ id, isResult id f = true → (got m).filter (isResult id) = [] := by
          intro id hid
          rw [got, filter_received, take_none (i.once_result hg id) hfo hid]; rfl
        cases f with
        | request v =>
          obtain ⟨w, h2, h3⟩ := i.welcome hg hmem
          exact .inl ⟨w, h2, h3⟩
        | payload v => exact .inr ⟨.inl ⟨v, rfl⟩, old v.streamID (by simp [isResult])⟩
        | error v => exact .inr ⟨.inr ⟨v, rfl⟩, old v.streamID (by simp [isResult])⟩
        | requestN v => cases hm
        | cancel v => cases hm
    | toGoRefused =>
      simp only [Mixed.goSees] at h1
      split at h1
      · cases h1
      · rename_i f hfo
        have hlt := (List.getElem?_eq_some_iff.mp hfo).1
        obtain ⟨he, rfl⟩ := i.refused f (List.mem_of_getElem? hfo)
        obtain ⟨rfl, rfl⟩ := i.ignored hf he h1
        refine base m.goRead (m.refusedRead + 1) i.goLe hlt ?_
        rw [List.append_nil]; exact i.good
    | rust a => cases h1
    | toRust => cases h1

theorem inv {e : End} {hs : WasmDispatch.Handlers H} {m : Mixed H} {R : List SockAct} (h : Runs e hs m R) :
    Single e m R → Few m R → Small m → Inv e hs m R := by
  induction h with
  | init =>
    intro _ _ _
    exact ⟨rfl, good_init e hs, rfl, Nat.le_refl _, Nat.le_refl _, fun f hf => absurd hf List.not_mem_nil, Nat.le_refl _⟩
  | step a _ hst ih =>
    intro hg hf hsm
    exact (ih (single_before hst hg) (few_before hst hf) (small_before hst hsm)).step hst hg hf hsm

/-- Every earlier moment of the Rust end was reached. -/
theorem before {e : End} {hs : WasmDispatch.Handlers H} {m : Mixed H} {R : List SockAct} (h : Runs e hs m R) :
    ∀ as bs, R = as ++ bs → Single e m R → Few m R → Small m → ∃ m1, Runs e hs m1 as ∧ Single e m1 as ∧ Few m1 as ∧ Small m1 := by
  induction h with
  | init =>
    intro as bs hR hg hf hsm
    have : as = [] := (List.append_eq_nil_iff.mp hR.symm).1
    subst this
    exact ⟨_, .init, hg, hf, hsm⟩
  | step a hr hst ih =>
    intro as bs hR hg hf hsm
    have h1 := single_before hst hg
    have h2 := few_before hst hf
    have h3 := small_before hst hsm
    rcases List.eq_nil_or_concat bs with rfl | ⟨bs', b, rfl⟩
    · rw [List.append_nil] at hR
      rw [← hR]
      exact ⟨_, .step a hr hst, hg, hf, hsm⟩
    · rename_i m0 m0' R0
      cases hx : m0.rustSees a with
      | none =>
        rw [hx, Option.toList_none, List.append_nil] at hR
        exact ih as _ hR h1 h2 h3
      | some b' =>
        rw [hx, Option.toList_some, List.concat_eq_append, ← List.append_assoc] at hR
        exact ih as bs' (List.append_inj_left' hR rfl) h1 h2 h3

/-! ## Calls of the Go end -/

section
variable {e : End} {hs : WasmDispatch.Handlers H} {m : Mixed H} {R : List SockAct}

/-- The request of a Go call that the Rust end took. -/
theorem Inv.taken_call (i : Inv e hs m R) (hg : Single e m R) (hf : Few m R) {j : Nat} {c : WasmCalls.Call} (hc : m.go.calls[j]? = some c)
    {v : RequestPayload} (hv : SockAct.recv (.request v) ∈ R) (hid : v.streamID = c.id) :
    v.metadata = c.metadata ∧ v.data = c.data ∧ (v.frameType = if c.kind = .fnf then tRequestFNF else tRequestResponse) ∧
      (c.kind = .fnf ∨ (m.go.obj j).isSome = true) := by
  obtain ⟨g, h1, h2⟩ := i.mem_sent hv
  obtain ⟨w, rfl, w1, w2, w3, w4⟩ := key_request h2
  obtain ⟨d, d1, d2, _, d4⟩ := i.request_sent hg h1
  have hb : m.go.calls.length ≤ 2 ^ 30 := by have := hf.go; omega
  have : d = c := call_unique i.good.calls.loc hb hc d1 (by rw [← d2.id, w2, hid])
  subst this
  refine ⟨by rw [← w3, d2.metadata], by rw [← w4, d2.data], by rw [← w1]; exact d4, ?_⟩
  have hn := i.good.calls.count j d hc
  have hpos : 0 < requests d.id m.sent := List.countP_pos_iff.mpr ⟨_, h1, by simp [isRequest, Frame.streamID, d2.id]⟩
  rw [hn] at hpos
  by_cases hx : d.kind = .fnf ∨ (m.go.obj j).isSome = true
  · exact hx
  · rw [if_neg hx] at hpos; omega

theorem asks_runFor (id : UInt32) (f : Frame) : (asks f).any (runFor id) = reqFor id f := by
  cases f with
  | request v =>
    simp only [asks, reqFor, isReq, Frame.streamID, Bool.true_and]
    split <;> simp [runFor] <;> rfl
  | _ => rfl

theorem filterMap_filter (id : UInt32) (l : List Frame) : (l.filterMap asks).filter (runFor id) = (l.filter (reqFor id)).filterMap asks := by
  induction l with
  | nil => rfl
  | cons f l ih =>
    have hf := asks_runFor id f
    cases ha : asks f with
    | none =>
      rw [ha] at hf
      simp only [List.filterMap_cons, ha, List.filter_cons, ← hf, Option.any_none, Bool.false_eq_true, if_false]
      exact ih
    | some x =>
      rw [ha, Option.any_some] at hf
      simp only [List.filterMap_cons, ha, List.filter_cons, ← hf]
      split
      · simp only [List.filterMap_cons, ha, ih]
      · exact ih

/-- The request of a Go call, once it was sent, is taken when all was. -/
theorem Inv.heard_call (i : Inv e hs m R) (hg : Single e m R) (hf : Few m R) (hsm : Small m) (hread : m.rustRead = m.sent.length) {j : Nat} {c : WasmCalls.Call}
    (hc : m.go.calls[j]? = some c) (hsub : c.kind = .fnf ∨ (m.go.obj j).isSome = true) :
    ∃ v, SockAct.recv (.request v) ∈ R ∧ v.streamID = c.id := by
  have h1 := i.good.calls.count j c hc
  rw [if_pos hsub, requests_eq] at h1
  have h2 := countP_key (reqFor_key c.id) i.heard
  have h5 : (m.sent.filter legible).countP (reqFor c.id) = m.sent.countP (reqFor c.id) := by
    rw [List.countP_filter]
    refine List.countP_congr fun f hfm => ?_
    simp only [Bool.and_eq_true, and_iff_left_iff_imp]
    intro hq
    obtain ⟨g, hd⟩ := (decodes (i.legal_sent hg hf hsm hfm)).1 (fun v hv => by rw [hv] at hq; cases hq)
    exact legible_of hd
  rw [hread, List.take_length, h5, h1] at h2
  obtain ⟨f, h3, h4⟩ := List.countP_pos_iff.mp (show 0 < (recvs R).countP (reqFor c.id) by omega)
  obtain ⟨hq, hid⟩ := reqFor_iff.mp h4
  cases f with
  | request v => exact ⟨v, mem_recvs.mp h3, hid⟩
  | _ => cases hq

/-- **C151, requests of Go.** A fire-and-forget or request-response call made in Go runs at most one handler at the Rust
end, with the bytes the caller gave; exactly one once all frames were taken, if its result was subscribed to (fire and forget
needs no subscription). Handlers run for no other reason. -/
theorem go_requests_handled (h : Runs e hs m R) (hg : Single e m R) (hf : Few m R) (hsm : Small m) :
    (∀ (j : Nat) (c : WasmCalls.Call), m.go.calls[j]? = some c →
      (m.rust.runs.filter (runFor c.id) = [] ∨ m.rust.runs.filter (runFor c.id) = [asked (methodOf c.kind) c.id c.metadata c.data]) ∧
      (m.rustRead = m.sent.length → (c.kind = .fnf ∨ (m.go.obj j).isSome = true) →
        m.rust.runs.filter (runFor c.id) = [asked (methodOf c.kind) c.id c.metadata c.data])) ∧
    ∀ x ∈ m.rust.runs, ∃ c ∈ m.go.calls, runFor c.id x = true := by
  have i := inv h hg hf hsm
  have hruns : m.rust.runs = (recvs R).filterMap asks := by
    rw [runs_eq R (plain_init _) (i.meek hg) i.run]; rfl
  rw [hruns]
  refine ⟨fun j c hc => ?_, fun x hx => ?_⟩
  · rw [filterMap_filter]
    have hall : ∀ f ∈ (recvs R).filter (reqFor c.id), asks f = some (asked (methodOf c.kind) c.id c.metadata c.data) := by
      intro f hf'
      obtain ⟨h1, h2⟩ := List.mem_filter.mp hf'
      obtain ⟨hq, hid⟩ := reqFor_iff.mp h2
      cases f with
      | request v =>
        obtain ⟨t1, t2, t3, _⟩ := i.taken_call hg hf hc (mem_recvs.mp h1) hid
        have hid : v.streamID = c.id := hid
        simp only [asks, t1, t2, t3, hid]
        rcases hg.go c (List.mem_of_getElem? hc) with hk | hk
        · rw [hk]; rfl
        · rw [hk]; rfl
      | _ => cases hq
    have hle := i.once_heard c.id
    rw [List.countP_eq_length_filter] at hle
    have hone : (recvs R).filter (reqFor c.id) ≠ [] →
        ((recvs R).filter (reqFor c.id)).filterMap asks = [asked (methodOf c.kind) c.id c.metadata c.data] := by
      intro hne
      match hl : (recvs R).filter (reqFor c.id), hne with
      | [f], _ => rw [hl] at hall; simp [hall f (by simp)]
      | f :: g :: r, _ => rw [hl] at hle; simp at hle
    refine ⟨?_, fun hread hsub => ?_⟩
    · by_cases hne : (recvs R).filter (reqFor c.id) = []
      · exact .inl (by rw [hne]; rfl)
      · exact .inr (hone hne)
    · obtain ⟨v, h1, h2⟩ := i.heard_call hg hf hsm hread hc hsub
      refine hone fun hnil => ?_
      have : Frame.request v ∈ (recvs R).filter (reqFor c.id) := List.mem_filter.mpr ⟨mem_recvs.mpr h1, reqFor_iff.mpr ⟨rfl, h2⟩⟩
      rw [hnil] at this; exact absurd this List.not_mem_nil
  · obtain ⟨f, h1, h2⟩ := List.mem_filterMap.mp hx
    cases f with
    | request v =>
      obtain ⟨g, h3, h4⟩ := i.mem_sent (mem_recvs.mp h1)
      obtain ⟨w, rfl, _, w2, _⟩ := key_request h4
      obtain ⟨c, c1, c2, _⟩ := i.request_sent hg h3
      refine ⟨c, c1, ?_⟩
      have hid : v.streamID = c.id := by rw [← w2, c2.id]
      have := asks_runFor c.id (.request v)
      rw [h2, Option.any_some] at this
      rw [this]; exact reqFor_iff.mpr ⟨rfl, hid⟩
    | _ => cases h2

theorem told_answer (sid : UInt32) (ys : List Yield) : ((answerOne sid ys).map received).filterMap resOf = (ys.head?.bind toldGo).toList := by
  match ys with
  | [] => rfl
  | .ok md d :: ys => rfl
  | .err x :: ys => rfl
  | .done :: ys => rfl

theorem answerOne_le (sid : UInt32) (ys : List Yield) : (answerOne sid ys).length ≤ 1 := by unfold answerOne; split <;> simp

/-- **C151, results for Go.** What the caller of a request-response operation in Go is told is what the handler that the
Rust end ran for this very call has yielded, or nothing yet; all of it once all frames were taken; and nothing at all before
the request was taken. -/
theorem go_callers_told (h : Runs e hs m R) (hg : Single e m R) (hf : Few m R) (hsm : Small m) (j : Nat) (c : WasmCalls.Call)
    (hc : m.go.calls[j]? = some c) (hk : c.kind = .rr) :
    (∀ t rest, Taken (decide (e = .host)) R c t rest →
      (toldCall m.go j = [] ∨ toldCall m.go j = ((yields t rest).head?.bind toldGo).toList) ∧
      (m.goRead = m.rust.out.length → toldCall m.go j = ((yields t rest).head?.bind toldGo).toList)) ∧
    ((∀ v, SockAct.recv (.request v) ∈ R → v.streamID ≠ c.id) → toldCall m.go j = []) := by
  have i := inv h hg hf hsm
  have htold : ∀ o, m.go.obj j = some o → toldCall m.go j = (((m.rust.out.take m.goRead).filter (isResult c.id)).map received).filterMap resOf := by
    intro o ho
    rw [← filter_received]
    simp only [toldCall, ho]
    exact (i.good.told j c o hc ho hk).1
  refine ⟨?_, fun hno => ?_⟩
  · rintro t rest ⟨bef, v, s, hR, hid, hrun, rfl⟩
    have hmem : SockAct.recv (.request v) ∈ R := by rw [hR]; simp
    obtain ⟨_, _, t3, t4⟩ := i.taken_call hg hf hc hmem hid
    rw [hk] at t3 t4
    obtain ⟨o, ho⟩ := Option.isSome_iff_exists.mp (t4.resolve_left (by simp))
    rw [htold o ho]
    have hr := i.run
    have hmm := i.meek hg
    have hoh := i.once_heard v.streamID
    rw [hR] at hr hmm hoh
    have ha := (answered hrun hr hmm hoh).1
    rw [t3, answer, if_neg (by decide), if_pos (by decide), hid] at ha
    obtain ⟨n, hn⟩ := Iota.Props.RustPair.filter_take (isResult c.id) m.goRead m.rust.out
    refine ⟨?_, fun hread => ?_⟩
    · rw [hn, ha]
      have hle := answerOne_le c.id (yields s.tasks.length rest)
      cases n with
      | zero => exact .inl rfl
      | succ n =>
        rw [List.take_of_length_le (by omega), told_answer]
        exact .inr rfl
    · rw [hread, List.take_length, ha, told_answer]
  · cases ho : m.go.obj j with
    | none => simp [toldCall, ho]
    | some o =>
      have h0 : (recvs R).countP (reqFor c.id) = 0 := List.countP_eq_zero.mpr fun f hfm hq => by
        obtain ⟨hq, hid⟩ := reqFor_iff.mp hq
        cases f with
        | request v => exact hno v (mem_recvs.mp hfm) hid
        | _ => cases hq
      obtain ⟨n, hn⟩ := Iota.Props.RustPair.filter_take (isResult c.id) m.goRead m.rust.out
      rw [htold o ho, hn, unasked i.run (i.meek hg) h0]
      simp

/-- **C151, results arrive at Go callers.** Once all frames were taken and the work is done, a caller in Go who subscribed
was told exactly one result. -/
theorem go_calls_settle (h : Runs e hs m R) (hg : Single e m R) (hf : Few m R) (hsm : Small m) (hset : Settled m) (j : Nat) (c : WasmCalls.Call)
    (hc : m.go.calls[j]? = some c) (hk : c.kind = .rr) (ho : (m.go.obj j).isSome = true) : ∃ r, toldCall m.go j = [r] := by
  have i := inv h hg hf hsm
  obtain ⟨v, h1, hid⟩ := i.heard_call hg hf hsm hset.rustRead hc (.inr ho)
  obtain ⟨bef, rest, s1, hR, hrun⟩ := i.taken h1
  rw [((go_callers_told h hg hf hsm j c hc hk).1 s1.tasks.length rest ⟨bef, v, s1, hR, hid, hrun, rfl⟩).2 hset.goRead]
  have t3 := (i.taken_call hg hf hc h1 hid).2.2.1
  rw [hk] at t3
  have hr := i.run
  have hmm := i.meek hg
  have hoh := i.once_heard v.streamID
  rw [hR] at hr hmm hoh
  obtain ⟨_, k, s2, _, hk1, hk2, hk3⟩ := answered hrun hr hmm hoh
  have hk1 := hk1 t3
  subst hk1
  have hlt := Nat.lt_of_lt_of_le (List.getElem?_eq_some_iff.mp hk2).1 (Iota.Props.RustPair.run_length rest hk3)
  have hend := Iota.Props.RustPair.run_ends rest hk2 (fun k hk => by cases hk; rfl) hk3
    (by rw [List.getElem?_eq_getElem hlt, hset.rust _ (List.getElem_mem hlt)])
  cases hy : yields s1.tasks.length rest with
  | nil => rw [hy] at hend; cases hend
  | cons y ys =>
    have := (Iota.Props.RustPair.ends_one (hy ▸ hend)).1
    cases y with
    | ok md d => exact ⟨_, rfl⟩
    | err x => exact ⟨_, rfl⟩
    | done => simp [Iota.Spec.RustPair.toldOne] at this

/-! ## Calls of the Rust end -/

/-- The request of a call of the Rust end. -/
theorem Inv.call_out (i : Inv e hs m R) (hg : Single e m R) {as bs : List SockAct} {x : Method} {md d : Bytes} {s1 : Sock}
    (hR : R = as ++ .call x md d :: bs) (h1 : (Sock.init (decide (e = .host))).run as = some (.ok s1)) : reqOf x s1.next md d ∈ m.rust.out := by
  have hr := i.run
  rw [hR, run_append _ h1] at hr
  obtain ⟨s2, h2, h3⟩ := Iota.Lemmas.RustSocket.run_cons hr
  simp only [Sock.step, Option.some.injEq, Res.ok.injEq] at h2
  obtain ⟨l, hl⟩ := run_out bs h3
  have hx : x = .rr ∨ x = .fnf := (hg.rust x md d (by rw [hR]; simp)).imp id And.left
  rw [hl, ← h2, call_sends s1 hx]
  simp

/-- The only request under the id of a call. -/
theorem Inv.got_call (i : Inv e hs m R) (hg : Single e m R) (hf : Few m R) {as bs : List SockAct} {x : Method} {md d : Bytes} {s1 : Sock}
    (hR : R = as ++ .call x md d :: bs) (h1 : (Sock.init (decide (e = .host))).run as = some (.ok s1)) {v : RequestPayload}
    (hv : Frame.request v ∈ got m) (hid : v.streamID = s1.next) :
    Iota.Handler.kindOf v.frameType = some (Spec.Mixed.kindOf x) ∧ v.metadata = md ∧ v.data = d := by
  obtain ⟨w, w1, w2, w3, w4, w5⟩ := i.got_out hv
  have hu := unique (i.once_out hg hf s1.next) w1 (i.call_out hg hR h1) (reqFor_iff.mpr ⟨rfl, w3.trans hid⟩) (reqFor_iff.mpr ⟨rfl, rfl⟩)
  simp only [reqOf, newRequest, Frame.request.injEq] at hu
  rw [← w2, ← w4, ← w5, hu]
  refine ⟨?_, rfl, rfl⟩
  rcases hg.rust x md d (by rw [hR]; simp) with rfl | ⟨rfl, _⟩ <;> rfl

theorem Inv.serves (i : Inv e hs m R) (hg : Single e m R) (hf : Few m R) {as bs : List SockAct} {x : Method} {md d : Bytes} {s1 : Sock}
    (hR : R = as ++ .call x md d :: bs) (h1 : (Sock.init (decide (e = .host))).run as = some (.ok s1)) {v : RequestPayload}
    (hv : Frame.request v ∈ got m) {j : WasmCalls.Job H} (hs' : ServesReq e hs v j) (hid : j.id = s1.next) : Serves e hs x s1.next md d j := by
  obtain ⟨h2, h3, h4⟩ := i.got_call hg hf hR h1 hv (hs'.id ▸ hid)
  have hk : j.kind = Spec.Mixed.kindOf x := Option.some.inj (hs'.kind.symm.trans h2)
  exact ⟨hk, hid, by rw [hs'.data, h4], by rw [hs'.metadata, h3, hk], by rw [← hk, ← h3]; exact hs'.handler⟩

theorem Inv.unknown (i : Inv e hs m R) (hg : Single e m R) (hf : Few m R) {as bs : List SockAct} {x : Method} {md d : Bytes} {s1 : Sock}
    (hR : R = as ++ .call x md d :: bs) (h1 : (Sock.init (decide (e = .host))).run as = some (.ok s1)) {v : RequestPayload}
    (hv : Frame.request v ∈ got m) (hu : UnknownReq hs v) (hid : v.streamID = s1.next) : Unknown hs x md := by
  obtain ⟨h2, h3, _⟩ := i.got_call hg hf hR h1 hv hid
  intro op ho
  exact hu _ h2 op (by rw [h3]; exact ho)

theorem Inv.requests_got (i : Inv e hs m R) (hg : Single e m R) (hf : Few m R) (id : UInt32) : requests id (got m) ≤ 1 := by
  rw [requests_eq, got, List.countP_map]
  have : (reqFor id ∘ received) = reqFor id := by funext f; exact reqFor_received id f
  rw [this]
  exact Nat.le_trans (List.take_sublist _ _).countP_le (i.once_out hg hf id)

/-- **C151, requests of Rust.** A call made in Rust starts at most one handler at the Go end, the one the metadata names,
with the bytes the caller gave; exactly one once the request was taken up, if there is such a handler. Handlers start for no
other reason. -/
theorem rust_requests_handled (h : Runs e hs m R) (hg : Single e m R) (hf : Few m R) (hsm : Small m) :
    (∀ (as bs : List SockAct) (x : Method) (md d : Bytes) (s1 : Sock), R = as ++ .call x md d :: bs →
      (Sock.init (decide (e = .host))).run as = some (.ok s1) →
      handlers s1.next m.go.jobs + handlers s1.next (m.go.made.map Prod.fst) ≤ 1 ∧
      (∀ j, j ∈ m.go.jobs ∨ (∃ r, (j, r) ∈ m.go.made) → j.id = s1.next → Serves e hs x s1.next md d j) ∧
      (m.goRead = m.rust.out.length → m.go.peer.tasks = [] → ¬ Unknown hs x md →
        handlers s1.next m.go.jobs + handlers s1.next (m.go.made.map Prod.fst) = 1)) ∧
    ∀ j, j ∈ m.go.jobs ∨ (∃ r, (j, r) ∈ m.go.made) → ∃ as bs x md d s1, R = as ++ .call x md d :: bs ∧
      (Sock.init (decide (e = .host))).run as = some (.ok s1) ∧ Serves e hs x s1.next md d j := by
  have i := inv h hg hf hsm
  have hw := i.good.work
  have hgv : ∀ id, handlers id (m.go.made.map Prod.fst) = given id m.go.made := by
    intro id
    rw [handlers, List.countP_map]; rfl
  have hsrc : ∀ j, j ∈ m.go.jobs ∨ (∃ r, (j, r) ∈ m.go.made) → ∃ v, Frame.request v ∈ got m ∧ ServesReq e hs v j := by
    rintro j (hj | ⟨r, hj⟩)
    · exact hw.jobs j hj
    · exact (hw.made _ hj).2
  refine ⟨fun as bs x md d s1 hR h1 => ⟨?_, ?_, ?_⟩, fun j hj => ?_⟩
  · have := hw.flow s1.next
    have hle := i.requests_got hg hf s1.next
    rw [hgv]; omega
  · intro j hj hid
    obtain ⟨v, h2, h3⟩ := hsrc j hj
    exact i.serves hg hf hR h1 h2 h3 hid
  · intro hread htask hknown
    have hfl := hw.flow s1.next
    have hle := i.requests_got hg hf s1.next
    have hpos : 0 < requests s1.next (got m) := by
      rw [requests_eq]
      refine List.countP_pos_iff.mpr ⟨received (reqOf x s1.next md d), List.mem_map_of_mem ?_, ?_⟩
      · rw [hread, List.take_length]; exact i.call_out hg hR h1
      · rw [reqFor_received]; exact reqFor_iff.mpr ⟨rfl, rfl⟩
    have hq : queued s1.next m.go.peer.tasks = 0 := by rw [htask]; rfl
    rw [hgv]
    by_cases hr : refusals s1.next m.go.peer.log = 0
    · omega
    · exfalso
      have hback := hw.back s1.next
      have hg0 : given s1.next m.go.made = 0 := by omega
      obtain ⟨f, f1, f2⟩ := List.countP_pos_iff.mp (show 0 < answers s1.next m.sent by omega)
      simp only [Bool.and_eq_true, Bool.not_eq_true', beq_iff_eq] at f2
      rcases hw.shape f f1 f2.1 with ⟨y, y1, y2⟩ | ⟨v, msg, v1, v2, v3, _⟩
      · have := List.countP_eq_zero.mp hg0 y y1
        rw [y2, Iota.Props.WasmCalls.answerFrame_id] at f2
        exact this (by simpa using f2.2)
      · rw [v2] at f2
        exact hknown (i.unknown hg hf hR h1 v1 v3 f2.2)
  · obtain ⟨v, h2, h3⟩ := hsrc j hj
    obtain ⟨w, w1, w2, w3, w4, w5⟩ := i.got_out h2
    obtain ⟨as, x, md, d, bs, s1, h4, h5, _, h6⟩ := i.req_type hg w1
    refine ⟨as, bs, x, md, d, s1, h4, h5, i.serves hg hf h4 h5 h2 h3 ?_⟩
    simp only [reqOf, newRequest, Frame.request.injEq] at h6
    rw [h3.id, ← w3, h6]

/-- Requests do not matter to who waits for a result. -/
theorem outcome_results (sid : UInt32) (l : List Frame) (h : ∀ f ∈ l, Lemmas.MixedRust.meek f = true ∧ f.streamID = sid) :
    outcome true l = outcome true (l.filter (isResult sid)) := by
  induction l with
  | nil => rfl
  | cons f l ih =>
    have ih := ih fun g hg => h g (List.mem_cons_of_mem _ hg)
    obtain ⟨h1, h2⟩ := h f List.mem_cons_self
    cases f with
    | request v =>
      rw [List.filter_cons_of_neg (by simp [isResult])]
      rw [← ih]
      simp [outcome, Spec.RustSocket.meaning]
    | payload v =>
      have : isResult sid (.payload v) = true := by simpa [isResult, Frame.streamID] using h2
      rw [List.filter_cons_of_pos this]
      simp only [outcome, ih]
    | error v =>
      have : isResult sid (.error v) = true := by simpa [isResult, Frame.streamID] using h2
      rw [List.filter_cons_of_pos this]
      simp only [outcome, ih]
    | requestN v => cases h1
    | cancel v => cases h1

theorem isResult_not {sid : UInt32} {f : Frame} (h : isResult sid f = true) : isRequest f = false ∧ f.streamID = sid := by
  cases f <;> simp_all [isResult, isRequest, Frame.streamID]

/-- At most one result for a call of the Rust end is sent. -/
theorem Inv.once_answer (i : Inv e hs m R) (hg : Single e m R) (hf : Few m R) (id : UInt32) : m.sent.countP (isResult id) ≤ 1 := by
  have h1 := i.good.work.flow id
  have h2 := i.good.work.back id
  have h3 := i.requests_got hg hf id
  have h4 : m.sent.countP (isResult id) ≤ answers id m.sent := by
    refine List.countP_mono_left fun f _ hf => ?_
    obtain ⟨h5, h6⟩ := isResult_not hf
    simp [h5, h6]
  omega

/-- The results a Rust end has taken were sent. -/
theorem Inv.result_sent (i : Inv e hs m R) {f : Frame} (h : f ∈ recvs R) {id : UInt32} (hr : isResult id f = true) : f ∈ m.sent := by
  obtain ⟨g, h1, h2⟩ := i.mem_sent (mem_recvs.mp h)
  rw [← key_other h2 (by cases f <;> first | rfl | cases hr)]
  exact h1

theorem filter_arrived (id : UInt32) (l : List SockAct) : (arrived id l).filter (isResult id) = (recvs l).filter (isResult id) := by
  rw [arrived_eq, List.filter_filter]
  congr 1; funext f
  by_cases hf : isResult id f = true
  · simp [hf, (isResult_not hf).2]
  · simp [hf]

/-- No result for a call arrives before the call. -/
theorem no_early_result (h : Runs e hs m R) (hg : Single e m R) (hf : Few m R) (hsm : Small m) {as bs : List SockAct}
    (hR : R = as ++ bs) {s1 : Sock} (h1 : (Sock.init (decide (e = .host))).run as = some (.ok s1)) :
    (recvs as).filter (isResult s1.next) = [] := by
  obtain ⟨m1, r1, r2, r3, r4⟩ := before h as bs hR hg hf hsm
  have i := inv r1 r2 r3 r4
  have hm1 : m1.rust = s1 := by
    have := i.run.symm.trans h1
    cases this; rfl
  refine List.filter_eq_nil_iff.mpr fun f hfm hfr => ?_
  have h3 := i.result_sent hfm hfr
  obtain ⟨hq, hid⟩ := isResult_not hfr
  have : ∃ v, Frame.request v ∈ got m1 ∧ v.streamID = s1.next := by
    rcases i.good.work.shape f h3 hq with ⟨y, y1, y2⟩ | ⟨v, msg, v1, v2, _⟩
    · obtain ⟨_, v, v1, v2⟩ := i.good.work.made y y1
      rw [y2, Iota.Props.WasmCalls.answerFrame_id, v2.id] at hid
      exact ⟨v, v1, hid⟩
    · rw [v2] at hid
      exact ⟨v, v1, hid⟩
  obtain ⟨v, v1, v2⟩ := this
  obtain ⟨w, w1, _, w3, _⟩ := i.got_out v1
  have hmem : Frame.request w ∈ m1.rust.out.filter isReq := List.mem_filter.mpr ⟨w1, rfl⟩
  rw [i.reqs r2] at hmem
  have hsm1 := first_small (g := decide (e = .host)) r3
  have hlt := (reqsFrom_ids as _ (by omega) _ hmem).2.2
  have hnx := next_id _ as s1 h1
  have hv : (Frame.request w).streamID = s1.next := w3.trans v2
  rw [hv, hnx, first_next] at hlt
  rw [first_next] at hsm1
  rw [UInt32.toNat_ofNat'] at hlt
  omega

/-- What a caller in Rust is told is what the first result for its call says. -/
theorem rust_outcome (h : Runs e hs m R) (hg : Single e m R) (hf : Few m R) (hsm : Small m) (as bs : List SockAct) (md d : Bytes)
    (hR : R = as ++ .call .rr md d :: bs) (s1 : Sock) (h1 : (Sock.init (decide (e = .host))).run as = some (.ok s1)) (k : Sink)
    (hk : m.rust.sinks[s1.sinks.length]? = some k) (hl : k.live = true) :
    (k.got, k.closed) = outcome true ((recvs R).filter (isResult s1.next)) := by
  have i := inv h hg hf hsm
  have hr := i.run
  rw [hR, run_append _ h1] at hr
  have hmeek := i.meek hg
  have hdr := hf.rust
  rw [hR, drawn_append] at hdr
  simp only [drawn] at hdr
  have hout := Iota.Props.RustSocket.caller_outcome_partial (decide (e = .host)) as bs .rr (by simp) md d s1 m.rust h1 hr (by omega)
    (fun x hx => by
      cases hc : Spec.RustSocket.opensChannel s1.next x with
      | false => rfl
      | true =>
        have hx : x ∈ R := by rw [hR]; simp [hx]
        cases x with
        | recv f =>
          have hmf := hmeek.frames f hx
          cases f with
          | request v =>
            simp only [Lemmas.MixedRust.meek, Bool.or_eq_true, decide_eq_true_eq] at hmf
            simp only [Spec.RustSocket.opensChannel, Bool.and_eq_true, bne_iff_ne] at hc
            rcases hmf with hmf | hmf
            · exact absurd hmf hc.1.2
            · exact absurd hmf hc.1.1.2
          | _ => cases hc
        | _ => cases hc) k hk hl
  rw [show decide (Method.rr = Method.rr) = true from rfl, outcome_results s1.next, filter_arrived] at hout
  case h =>
    intro f hfm
    rw [arrived_eq, List.mem_filter] at hfm
    refine ⟨hmeek.frames f (by rw [hR]; simp [mem_recvs.mp hfm.1]), by simpa using hfm.2⟩
  have hrec : (recvs R).filter (isResult s1.next) = (recvs bs).filter (isResult s1.next) := by
    rw [hR, recvs_append, List.filter_append, no_early_result h hg hf hsm hR h1, List.nil_append]
    rfl
  rw [← hrec] at hout
  exact hout

/-- **C151, results for Rust.** What the caller of a request-response operation in Rust is told is nothing, or the one
result of the one handler that ran at the Go end for this call, or the refusal of an operation that is not there; and it is
not nothing once all frames were taken and the work is done, unless this handler failed with an error that is not UTF-8. -/
theorem rust_callers_told (h : Runs e hs m R) (hg : Single e m R) (hf : Few m R) (hsm : Small m) (as bs : List SockAct) (md d : Bytes)
    (hR : R = as ++ .call .rr md d :: bs) (s1 : Sock) (h1 : (Sock.init (decide (e = .host))).run as = some (.ok s1)) (k : Sink)
    (hk : m.rust.sinks[s1.sinks.length]? = some k) (hl : k.live = true) :
    ((k.got = [] ∧ k.closed = false) ∨ ∃ r, k.got = [toldRust r] ∧ k.closed = true ∧
      ((∃ j, (j, r) ∈ m.go.made ∧ Serves e hs .rr s1.next md d j) ∨ (Unknown hs .rr md ∧ r = .failure (refusal md)))) ∧
    (Settled m → k.closed = true ∨ ∃ j x, (j, Result.failure x) ∈ m.go.made ∧ Serves e hs .rr s1.next md d j ∧ Rust.isUtf8 x = false) := by
  have i := inv h hg hf hsm
  have hout := rust_outcome h hg hf hsm as bs md d hR s1 h1 k hk hl
  have hcount := countP_key (isResult_key s1.next) i.heard
  have hone : ((recvs R).filter (isResult s1.next)).length ≤ 1 := by
    rw [← List.countP_eq_length_filter, hcount]
    exact Nat.le_trans (List.filter_sublist.trans (List.take_sublist _ _)).countP_le (i.once_answer hg hf s1.next)
  -- what a result says
  have hres : ∀ f ∈ (recvs R).filter (isResult s1.next), ∃ r, outcome true [f] = ([toldRust r], true) ∧
      ((∃ j, (j, r) ∈ m.go.made ∧ Serves e hs .rr s1.next md d j) ∨ (Unknown hs .rr md ∧ r = .failure (refusal md))) := by
    intro f hfm
    obtain ⟨f1, f2⟩ := List.mem_filter.mp hfm
    obtain ⟨hq, hid⟩ := isResult_not f2
    rcases i.good.work.shape f (i.result_sent f1 f2) hq with ⟨y, y1, y2⟩ | ⟨v, msg, v1, v2, v3, v4⟩
    · obtain ⟨_, v, v1, v2⟩ := i.good.work.made y y1
      have hyid : y.1.id = s1.next := by rw [y2, Iota.Props.WasmCalls.answerFrame_id] at hid; exact hid
      refine ⟨y.2, ?_, .inl ⟨y.1, y1, i.serves hg hf hR h1 v1 v2 hyid⟩⟩
      rw [y2]
      cases y.2 <;> simp [answerFrame, outcome, Spec.RustSocket.meaning, toldRust]
    · rw [v2] at hid
      refine ⟨.failure msg, ?_, .inr ⟨i.unknown hg hf hR h1 v1 v3 hid, by rw [v4, (i.got_call hg hf hR h1 v1 hid).2.1]⟩⟩
      rw [v2]
      simp [errorFrame, outcome, Spec.RustSocket.meaning, toldRust]
  refine ⟨?_, fun hset => ?_⟩
  · match hl : (recvs R).filter (isResult s1.next) with
    | [] =>
      rw [hl] at hout
      simp only [outcome, Prod.mk.injEq] at hout
      exact .inl hout
    | [f] =>
      obtain ⟨r, r1, r2⟩ := hres f (by rw [hl]; simp)
      rw [hl, r1] at hout
      simp only [Prod.mk.injEq] at hout
      exact .inr ⟨r, hout.1, hout.2, r2⟩
    | f :: g :: l => rw [hl] at hone; simp at hone
  · have hfl := i.good.work.flow s1.next
    have hback := i.good.work.back s1.next
    have hpos : 0 < requests s1.next (got m) := by
      rw [requests_eq]
      refine List.countP_pos_iff.mpr ⟨received (reqOf .rr s1.next md d), List.mem_map_of_mem ?_, ?_⟩
      · rw [hset.goRead, List.take_length]; exact i.call_out hg hR h1
      · rw [reqFor_received]; exact reqFor_iff.mpr ⟨rfl, rfl⟩
    have hq : queued s1.next m.go.peer.tasks = 0 := by rw [hset.tasks]; rfl
    have hj : handlers s1.next m.go.jobs = 0 := List.countP_eq_zero.mpr fun x hx hxi => by
      obtain ⟨v, v1, v2⟩ := i.good.work.jobs x hx
      exact hset.jobs x hx (i.serves hg hf hR h1 v1 v2 (by simpa using hxi)).kind
    obtain ⟨f, f1, f2⟩ := List.countP_pos_iff.mp (show 0 < answers s1.next m.sent by omega)
    simp only [Bool.and_eq_true, Bool.not_eq_true', beq_iff_eq] at f2
    have hfr : isResult s1.next f = true := by
      rcases i.good.work.shape f f1 f2.1 with ⟨y, _, y2⟩ | ⟨v, msg, _, v2, _⟩
      · rw [y2] at f2 ⊢
        cases hy : y.2 <;> rw [hy] at f2 <;> simpa [answerFrame, isResult, Frame.streamID] using f2.2
      · rw [v2] at f2 ⊢
        simpa [errorFrame, isResult, Frame.streamID] using f2.2
    by_cases hbad : ∃ j x, (j, Result.failure x) ∈ m.go.made ∧ Serves e hs .rr s1.next md d j ∧ Rust.isUtf8 x = false
    · exact .inr hbad
    left
    have hleg : legible f = true := by
      obtain ⟨g, hd⟩ := (decodes (i.legal_sent hg hf hsm f1)).1 (fun v hv => by
        cases hu : Rust.isUtf8 v.data with
        | true => rfl
        | false =>
          refine absurd ?_ hbad
          rcases i.good.work.shape f f1 f2.1 with ⟨y, y1, y2⟩ | ⟨w, msg, _, v2, _, v4⟩
          · obtain ⟨_, w, w1, w2⟩ := i.good.work.made y y1
            have hyid : y.1.id = s1.next := by rw [y2, Iota.Props.WasmCalls.answerFrame_id] at f2; exact f2.2
            cases hy : y.2 with
            | value d md => rw [hy, hv] at y2; cases y2
            | failure msg =>
              rw [hy, hv] at y2
              simp only [answerFrame, errorFrame, Frame.error.injEq] at y2
              subst y2
              exact ⟨y.1, msg, by rw [← hy]; exact y1, i.serves hg hf hR h1 w1 w2 hyid, hu⟩
          · rw [hv] at v2
            simp only [errorFrame, Frame.error.injEq] at v2
            subst v2
            have := refusal_readable w.metadata
            rw [← v4] at this
            exact absurd (this.symm.trans hu) (by decide))
      exact legible_of hd
    rw [hset.rustRead, List.take_length] at hcount
    have hp : 0 < (recvs R).countP (isResult s1.next) := by rw [hcount]; exact List.countP_pos_iff.mpr ⟨f, List.mem_filter.mpr ⟨f1, hleg⟩, hfr⟩
    rw [List.countP_eq_length_filter] at hp
    match hl : (recvs R).filter (isResult s1.next) with
    | [] => rw [hl] at hp; simp at hp
    | [g] =>
      obtain ⟨r, r1, _⟩ := hres g (by rw [hl]; simp)
      rw [hl, r1] at hout
      simp only [Prod.mk.injEq] at hout
      exact hout.2
    | g :: g' :: l => rw [hl] at hone; simp at hone

/-- Only one handler gives a result for a call of the Rust end. -/
theorem Inv.one_result (i : Inv e hs m R) (hg : Single e m R) (hf : Few m R) {x y : WasmCalls.Job H × Result} (hx : x ∈ m.go.made) (hy : y ∈ m.go.made)
    (h : x.1.id = y.1.id) : x = y := by
  have h1 := i.good.work.flow y.1.id
  have h2 := i.requests_got hg hf y.1.id
  have h3 : (m.go.made.filter fun z => z.1.id == y.1.id).length ≤ 1 := by
    rw [← List.countP_eq_length_filter]
    exact Nat.le_trans (show given y.1.id m.go.made ≤ _ by omega) h2
  have hx' : x ∈ m.go.made.filter fun z => z.1.id == y.1.id := List.mem_filter.mpr ⟨hx, by simp [h]⟩
  have hy' : y ∈ m.go.made.filter fun z => z.1.id == y.1.id := List.mem_filter.mpr ⟨hy, by simp⟩
  match hl : m.go.made.filter fun z => z.1.id == y.1.id with
  | [] => rw [hl] at hx'; exact absurd hx' List.not_mem_nil
  | [z] =>
    rw [hl] at hx' hy'
    rw [List.mem_singleton.mp hx', List.mem_singleton.mp hy']
  | a :: b :: l => rw [hl] at h3; simp at h3

/-- **C178** When the handler at the Go end for a call made in Rust fails with an error in UTF-8, and all is done, the caller was told this error.
Missing: errors that are not UTF-8. -/
theorem readable_error_told_partial (h : Runs e hs m R) (hg : Single e m R) (hf : Few m R) (hsm : Small m) (as bs : List SockAct) (md d : Bytes)
    (hR : R = as ++ .call .rr md d :: bs) (s1 : Sock) (h1 : (Sock.init (decide (e = .host))).run as = some (.ok s1)) (k : Sink)
    (hk : m.rust.sinks[s1.sinks.length]? = some k) (hl : k.live = true) (j : WasmCalls.Job H) (x : Bytes)
    (hj : (j, Result.failure x) ∈ m.go.made) (hsv : Serves e hs .rr s1.next md d j) (hx : Rust.isUtf8 x = true) (hset : Settled m) :
    k.got = [toldRust (.failure x)] ∧ k.closed = true := by
  have i := inv h hg hf hsm
  obtain ⟨t1, t2⟩ := rust_callers_told h hg hf hsm as bs md d hR s1 h1 k hk hl
  have hc : k.closed = true := by
    rcases t2 hset with hc | ⟨j', x', y1, y2, y3⟩
    · exact hc
    · have := i.one_result hg hf y1 hj (y2.id.trans hsv.id.symm)
      simp only [Prod.mk.injEq, Result.failure.injEq] at this
      rw [this.2, hx] at y3; cases y3
  rcases t1 with ⟨_, hn⟩ | ⟨r, r1, _, ⟨j', y1, y2⟩ | ⟨hu, _⟩⟩
  · rw [hc] at hn; cases hn
  · have := i.one_result hg hf y1 hj (y2.id.trans hsv.id.symm)
    simp only [Prod.mk.injEq] at this
    rw [r1, this.2]; exact ⟨rfl, hc⟩
  · obtain ⟨op, o1, o2⟩ := hsv.handler
    rw [hu op o1] at o2; cases o2

/-- **C178, refuted.** When the handler at the Go host for a call made in Rust fails with an error that is not UTF-8, the caller is told nothing,
whatever happens then: it waits for ever. -/
theorem unreadable_error_never_told_refuted (h : Runs e hs m R) (hg : Single e m R) (hf : Few m R) (hsm : Small m) (as bs : List SockAct) (md d : Bytes)
    (hR : R = as ++ .call .rr md d :: bs) (s1 : Sock) (h1 : (Sock.init (decide (e = .host))).run as = some (.ok s1)) (k : Sink)
    (hk : m.rust.sinks[s1.sinks.length]? = some k) (hl : k.live = true) (j : WasmCalls.Job H) (x : Bytes)
    (hj : (j, Result.failure x) ∈ m.go.made) (hsv : Serves e hs .rr s1.next md d j) (hx : Rust.isUtf8 x = false) :
    k.got = [] ∧ k.closed = false := by
  have i := inv h hg hf hsm
  have hout := rust_outcome h hg hf hsm as bs md d hR s1 h1 k hk hl
  have hnil : (recvs R).filter (isResult s1.next) = [] := by
    refine List.filter_eq_nil_iff.mpr fun f hfm hfr => ?_
    obtain ⟨g, g1, g2⟩ := mem_key i.heard hfm
    have hgf : g = f := key_other g2 (by cases f <;> first | rfl | cases hfr)
    subst hgf
    obtain ⟨g1, g3⟩ := List.mem_filter.mp g1
    have g1 := List.mem_of_mem_take g1
    obtain ⟨hq, hid⟩ := isResult_not hfr
    rcases i.good.work.shape g g1 hq with ⟨y, y1, y2⟩ | ⟨v, msg, v1, v2, v3, _⟩
    · have hyid : y.1.id = s1.next := by rw [y2, Iota.Props.WasmCalls.answerFrame_id] at hid; exact hid
      have hyj := i.one_result hg hf y1 hj (hyid.trans hsv.id.symm)
      rw [hyj] at y2
      obtain ⟨z, hz⟩ := (decodes (i.legal_sent hg hf hsm g1)).2 ⟨j.id, 0, x⟩ y2 hx
      rw [illegible_of hz] at g3; cases g3
    · rw [v2] at hid
      obtain ⟨op, o1, o2⟩ := hsv.handler
      rw [i.unknown hg hf hR h1 v1 v3 hid op o1] at o2; cases o2
  rw [hnil] at hout
  simp only [outcome, Prod.mk.injEq] at hout
  exact hout

/-! ## No crash -/

theorem deliver_ok {st : Handler.State} {o : Nat} (h : st.objs[o]? = some .mono) (ev : Handler.Ev (H × WasmDispatch.Ctx)) : Handler.deliver st o ev = .ok [ev] := by
  simp [Handler.deliver, h, Handler.Obj.hasSink]

/-- **C151, no crash.** Whatever the Rust end sends, taking it does not crash the Go end, and neither does the work that
comes of it. -/
theorem go_never_crashes (h : Runs e hs m R) (hg : Single e m R) (hf : Few m R) (hsm : Small m) :
    (∀ f, m.rust.out[m.goRead]? = some f → m.go.peer.ready e = true →
      ∃ p, m.go.peer.step e hs (.recv (Rust.encode f)) = some (.ok p)) ∧
    (∀ f, m.refused[m.refusedRead]? = some f → m.go.peer.ready e = true →
      ∃ p, m.go.peer.step e hs (.recv (Rust.encode f)) = some (.ok p)) ∧
    ∀ i live, i < m.go.peer.tasks.length → ∃ p, m.go.peer.step e hs (.task i live) = some (.ok p) := by
  have i := inv h hg hf hsm
  refine ⟨fun f hfo hready => ?_, fun f hfo hready => ?_, fun t live ht => ?_⟩
  · have hmem := List.mem_of_getElem? hfo
    have hd := (goBytes_eq (i.legal_out hg hf hsm hmem)).2
    have hmeek := (i.plain hg).out f hmem
    simp only [WasmDispatch.Peer.step, hready, if_true]
    rw [Iota.Lemmas.WasmDispatch.recv_decoded hd]
    cases f with
    | request v =>
      obtain ⟨w, h2, h3⟩ := i.welcome hg hmem
      rw [h2]
      obtain ⟨k, hk⟩ : ∃ k, Iota.Handler.kindOf w.frameType = some k := by
        rcases h3.2 with h | ⟨h, _⟩ <;> exact ⟨_, h⟩
      simp only [Iota.Lemmas.WasmDispatch.afterDecode, h3.1, Handler.dispatch, hk]
      exact ⟨_, rfl⟩
    | payload v =>
      simp only [received, Iota.Lemmas.WasmDispatch.afterDecode]
      cases hgs : Handler.getStream m.go.peer.st (Frame.payload v).streamID with
      | none => exact ⟨_, rfl⟩
      | some o =>
        dsimp only
        obtain ⟨j, c, h1, h2, _, h4⟩ := i.good.calls.entries.lookup hgs
        have ho := i.good.calls.loc.mono j c o h1 h4 h2
        simp only [Handler.dispatch, Handler.deliverIf, deliver_ok ho]
        cases hn : v.next <;> cases hc : v.complete <;> exact ⟨_, rfl⟩
    | error v =>
      simp only [received, Iota.Lemmas.WasmDispatch.afterDecode]
      cases hgs : Handler.getStream m.go.peer.st (Frame.error v).streamID with
      | none => exact ⟨_, rfl⟩
      | some o =>
        dsimp only
        obtain ⟨j, c, h1, h2, _, h4⟩ := i.good.calls.entries.lookup hgs
        have ho := i.good.calls.loc.mono j c o h1 h4 h2
        simp only [Handler.dispatch, Handler.deliverIf, deliver_ok ho]
        exact ⟨_, rfl⟩
    | requestN v => cases hmeek
    | cancel v => cases hmeek
  · obtain ⟨_, rfl⟩ := i.refused f (List.mem_of_getElem? hfo)
    have hd := (goBytes_eq zero_legal).2
    simp only [WasmDispatch.Peer.step, hready, if_true]
    rw [Iota.Lemmas.WasmDispatch.recv_decoded hd]
    simp only [received, zero, Iota.Lemmas.WasmDispatch.afterDecode]
    cases hgs : Handler.getStream m.go.peer.st (Frame.error ⟨0, 0, Rust.lit "Could not decode frame data"⟩).streamID with
    | none => exact ⟨_, rfl⟩
    | some o =>
      dsimp only
      obtain ⟨j, c, h1, h2, _, h4⟩ := i.good.calls.entries.lookup hgs
      have ho := i.good.calls.loc.mono j c o h1 h4 h2
      simp only [Handler.dispatch, Handler.deliverIf, deliver_ok ho]
      exact ⟨_, rfl⟩
  · obtain ⟨k, v, x, h1, _⟩ := i.good.work.tasks _ (List.getElem_mem ht)
    simp only [WasmDispatch.Peer.step, List.getElem?_eq_getElem ht, h1, WasmDispatch.Peer.runTask]
    obtain ⟨p2, h2, _⟩ := Iota.Props.WasmDispatch.handled e hs { m.go.peer with tasks := m.go.peer.tasks.eraseIdx t } k v.streamID v.data v.metadata x
    exact ⟨p2, by rw [h2]⟩

end

/-! ### Cases -/

open Iota.Props.WasmCalls (opMd panics)
open Iota.Props.WasmDispatch (hs2)

/-- A run given by its steps. -/
def play (e : End) (hs : WasmDispatch.Handlers H) : Mixed H → List SockAct → List Iota.Mixed.Act → Option (Mixed H × List SockAct)
  | m, R, [] => some (m, R)
  | m, R, a :: l =>
    match m.step e hs a with
    | some m' => play e hs m' (R ++ (m.rustSees a).toList) l
    | none => none

theorem play_runs {e : End} {hs : WasmDispatch.Handlers H} (l : List Iota.Mixed.Act) : ∀ {m : Mixed H} {R : List SockAct} {r : Mixed H × List SockAct},
    Runs e hs m R → play e hs m R l = some r → Runs e hs r.1 r.2 := by
  induction l with
  | nil => intro m R r h hp; cases hp; exact h
  | cons a l ih =>
    intro m R r h hp
    simp only [play] at hp
    split at hp
    · rename_i m' h1
      exact ih (.step a h h1) hp
    · cases hp

theorem play_ends {e : End} {hs : WasmDispatch.Handlers H} {l : List Iota.Mixed.Act} (P : Mixed H → List SockAct → Prop)
    (q : Mixed H → List SockAct → Bool) (hq : ∀ m R, q m R = true → P m R)
    (h : ((play e hs (Mixed.init e) [] l).any fun r => q r.1 r.2) = true) : ∃ m R, Runs e hs m R ∧ P m R := by
  obtain ⟨r, h1, h2⟩ := (Option.any_eq_true _ _).mp h
  exact ⟨r.1, r.2, play_runs l .init h1, hq _ _ h2⟩

/-- Is it a call for a single result or none? -/
def lone (e : End) : SockAct → Bool
  | .call x _ _ => decide (x = .rr ∨ (x = .fnf ∧ e = .host))
  | _ => true

/-- Can the Rust end read it? -/
def readable (y : WasmCalls.Job H × Result) : Bool :=
  match y.2 with
  | .failure x => Rust.isUtf8 x
  | _ => true

theorem single_of {e : End} {m : Mixed H} {R : List SockAct} (h1 : ∀ c ∈ m.go.calls, c.kind = .rr ∨ c.kind = .fnf)
    (h2 : ∀ a ∈ R, lone e a = true) (h3 : (decide (e = .host) || m.go.made.all readable) = true) : Single e m R := by
  refine ⟨h1, fun x md d h => by simpa [lone] using h2 _ h, fun he j x hx => ?_⟩
  simp only [he, Bool.or_eq_true, decide_eq_true_eq, List.all_eq_true] at h3
  rcases h3 with h3 | h3
  · cases h3
  · exact h3 _ hx

/-- Does it fit? -/
def fits : Frame → Bool
  | .payload v => decide (v.metadata.length < 2 ^ 24 ∧ v.metadata.length + v.data.length + 9 < 2 ^ 32)
  | .error v => decide (v.data.length + 10 < 2 ^ 32)
  | .request v => decide (v.metadata.length < 2 ^ 24 ∧ v.metadata.length + v.data.length + 13 < 2 ^ 32)
  | _ => true

theorem small_of {m : Mixed H} (h : ∀ f ∈ m.sent ++ m.rust.out, fits f = true) : Small m := by
  have : ∀ f ∈ m.sent ++ m.rust.out, Fits f := by
    intro f hf
    have := h f hf
    cases f <;> simpa [fits, Fits] using this
  exact ⟨fun f hf => this f (List.mem_append_left _ hf), fun f hf => this f (List.mem_append_right _ hf)⟩

/-- Does the run have what the theorems take for granted? -/
def fine (e : End) (m : Mixed H) (R : List SockAct) : Bool :=
  decide (∀ c ∈ m.go.calls, c.kind = .rr ∨ c.kind = .fnf) && R.all (lone e) && decide (m.go.calls.length + 2 ≤ 2 ^ 30) &&
    decide (Spec.RustSocket.drawn R + 2 ≤ 2 ^ 30) && (m.sent ++ m.rust.out).all fits && (decide (e = .host) || m.go.made.all readable)

theorem fine_all {e : End} {m : Mixed H} {R : List SockAct} (h : fine e m R = true) : Single e m R ∧ Few m R ∧ Small m := by
  unfold fine at h
  obtain ⟨h, h6⟩ := Bool.and_eq_true_iff.mp h
  simp only [Bool.and_eq_true, decide_eq_true_eq, List.all_eq_true] at h
  obtain ⟨⟨⟨⟨h1, h2⟩, h3⟩, h4⟩, h5⟩ := h
  exact ⟨single_of h1 h2 h6, ⟨h3, h4⟩, small_of h5⟩

/-- Is all work done? -/
def idle (m : Mixed H) : Bool :=
  decide (m.goRead = m.rust.out.length) && decide (m.rustRead = m.sent.length) && decide (∀ t ∈ m.rust.tasks, t = none) &&
    decide (m.go.peer.tasks.length = 0) && decide (∀ j ∈ m.go.jobs, j.kind ≠ .rr) && decide (m.refusedRead = m.refused.length)

theorem idle_settled {m : Mixed H} (h : idle m = true) : Settled m := by
  simp only [idle, Bool.and_eq_true, decide_eq_true_eq] at h
  obtain ⟨⟨⟨⟨⟨h1, h2⟩, h3⟩, h4⟩, h5⟩, h6⟩ := h
  exact ⟨h1, h6, h2, h3, List.eq_nil_of_length_eq_zero h4, h5⟩

/-- A Go host and its Rust guest call each other under the same ids, 2, 4 and 6. -/
def demo : List Iota.Mixed.Act := [
  .go (.call .rr [5] (opMd 1) .background), .go (.call .fnf [6] (opMd 1) .background), .go (.call .rr [7] (opMd 1) .background),
  .rust (.call .rr (opMd 0) [8]), .rust (.call .fnf (opMd 1) [9]), .rust (.call .rr (opMd 9) [10]), .go (.subscribe 2), .go (.subscribe 0),
  .toGo, .toGo, .toGo, .go (.task 2 true), .toRust, .toRust, .toRust, .rust (.task 2 (.ok [1] [2])), .go (.task 0 true), .go (.task 0 true),
  .go (.answer 0 (.value [11] [12])), .toRust, .toRust, .rust (.task 0 (.err [3])), .rust (.task 1 (.err [4])), .toGo, .toGo, .toGo]

example : ∃ (m : Mixed Nat) (R : List SockAct), Runs .host hs2 m R ∧ (Single .host m R ∧ Few m R ∧ Small m) ∧ Settled m ∧
    m.go.calls.map (·.id) = [2, 4, 6] ∧ toldCall m.go 0 = [.value [2] [1]] ∧ toldCall m.go 2 = [.failure [4]] ∧
    m.rust.runs = [.fnf 4 (opMd 1) [6], .rr 6 (opMd 1) [7], .rr 2 (opMd 1) [5]] ∧
    m.go.made = [(⟨.rr, 10, 2, [8], opMd 0⟩, .value [11] [12])] ∧ m.go.jobs = [⟨.fnf, 20, 4, [9], opMd 1⟩] ∧
    m.rust.sinks.map (fun k => (k.live, k.got, k.closed)) =
      [(true, [.ok [12] [11]], true), (true, [.err 0 (Iota.Handler.lit "not_found")], true)] :=
  play_ends (l := demo) _ (fun m R => fine .host m R && idle m && decide (m.go.calls.map (·.id) = [2, 4, 6] ∧
      toldCall m.go 0 = [.value [2] [1]] ∧ toldCall m.go 2 = [.failure [4]] ∧
      m.rust.runs = [.fnf 4 (opMd 1) [6], .rr 6 (opMd 1) [7], .rr 2 (opMd 1) [5]] ∧
      m.go.made = [(⟨.rr, 10, 2, [8], opMd 0⟩, .value [11] [12])] ∧ m.go.jobs = [⟨.fnf, 20, 4, [9], opMd 1⟩] ∧
      m.rust.sinks.map (fun k => (k.live, k.got, k.closed)) =
        [(true, [.ok [12] [11]], true), (true, [.err 0 (Iota.Handler.lit "not_found")], true)]))
    (fun m R h => by
      simp only [Bool.and_eq_true, decide_eq_true_eq] at h
      exact ⟨fine_all h.1.1, idle_settled h.1.2, h.2⟩)
    (by decide +kernel)

/-- The same the other way round: a Go guest in a Rust host; all use the id 1. -/
def demoGuest : List Iota.Mixed.Act := [
  .go (.call .rr [5] (opMd 1) .background), .rust (.call .rr (opMd 0) [8]), .go (.subscribe 0), .toRust, .toGo, .go (.task 0 true),
  .rust (.task 0 (.ok [1] [2])), .toGo, .go (.answer 0 (.failure [120])), .toRust]

example : ∃ (m : Mixed Nat) (R : List SockAct), Runs .guest hs2 m R ∧ (Single .guest m R ∧ Few m R ∧ Small m) ∧ Settled m ∧
    m.go.calls.map (·.id) = [1] ∧ toldCall m.go 0 = [.value [2] [1]] ∧ m.rust.runs = [.rr 1 (opMd 1) [5]] ∧
    m.go.made.map (fun y => (y.1.id, y.2)) = [(1, .failure [120])] ∧
    m.rust.sinks.map (fun k => (k.live, k.got, k.closed)) = [(true, [.err 0 [120]], true)] :=
  play_ends (l := demoGuest) _ (fun m R => fine .guest m R && idle m && decide (m.go.calls.map (·.id) = [1] ∧
      toldCall m.go 0 = [.value [2] [1]] ∧ m.rust.runs = [.rr 1 (opMd 1) [5]] ∧
      m.go.made.map (fun y => (y.1.id, y.2)) = [(1, .failure [120])] ∧
      m.rust.sinks.map (fun k => (k.live, k.got, k.closed)) = [(true, [.err 0 [120]], true)]))
    (fun m R h => by
      simp only [Bool.and_eq_true, decide_eq_true_eq] at h
      exact ⟨fine_all h.1.1, idle_settled h.1.2, h.2⟩)
    (by decide +kernel)

/-! ## Other calls -/

/-- Does the next frame crash the Go end? -/
def crashes (e : End) (hs : WasmDispatch.Handlers H) (m : Mixed H) : Bool :=
  m.go.peer.ready e && m.rust.out[m.goRead]?.any fun f => panics (m.go.peer.step e hs (.recv (Rust.encode f)))

theorem crashes_panic {e : End} {hs : WasmDispatch.Handlers H} {m : Mixed H} (h : crashes e hs m = true) :
    ∃ f, m.rust.out[m.goRead]? = some f ∧ m.go.peer.step e hs (.recv (Rust.encode f)) = some .panic := by
  simp only [crashes, Bool.and_eq_true] at h
  obtain ⟨f, h1, h2⟩ := (Option.any_eq_true _ _).mp h.2
  refine ⟨f, h1, ?_⟩
  unfold panics at h2
  split at h2
  · assumption
  · cases h2

/-- Few and small, whatever the kinds of the calls. -/
def tame (m : Mixed H) (R : List SockAct) : Bool :=
  decide (m.go.calls.length + 2 ≤ 2 ^ 30) && decide (Spec.RustSocket.drawn R + 2 ≤ 2 ^ 30) && (m.sent ++ m.rust.out).all fits

theorem tame_all {m : Mixed H} {R : List SockAct} (h : tame m R = true) : Few m R ∧ Small m := by
  simp only [tame, Bool.and_eq_true, decide_eq_true_eq, List.all_eq_true] at h
  exact ⟨⟨h.1.1, h.1.2⟩, small_of h.2⟩

/-- The calls of the Rust end. -/
def callsOf (R : List SockAct) : List Method := R.filterMap fun a => match a with | .call x _ _ => some x | _ => none

/-- **C152, partial**: with calls for single results, no end is disturbed by calls of the same number of the other end: no
frame of the Rust end crashes the Go end, and a caller at either end is told at most one result. Missing: streams, channels and
fire and forget calls of a Go guest, for which it is false. -/
theorem calls_keep_apart_partial {e : End} {hs : WasmDispatch.Handlers H} {m : Mixed H} {R : List SockAct} (h : Runs e hs m R) (hg : Single e m R)
    (hf : Few m R) (hsm : Small m) :
    (∀ f, m.rust.out[m.goRead]? = some f → m.go.peer.ready e = true →
      ∃ p, m.go.peer.step e hs (.recv (Rust.encode f)) = some (.ok p)) ∧
    (∀ (j : Nat) (c : WasmCalls.Call), m.go.calls[j]? = some c → c.kind = .rr → (toldCall m.go j).length ≤ 1) ∧
    ∀ (as bs : List SockAct) (md d : Bytes) (s1 : Sock) (k : Sink), R = as ++ .call .rr md d :: bs →
      (Sock.init (decide (e = .host))).run as = some (.ok s1) → m.rust.sinks[s1.sinks.length]? = some k → k.live = true → k.got.length ≤ 1 := by
  refine ⟨(go_never_crashes h hg hf hsm).1, fun j c hc hk => ?_, fun as bs md d s1 k hR h1 hk hl => ?_⟩
  · obtain ⟨t1, t2⟩ := go_callers_told h hg hf hsm j c hc hk
    by_cases hx : ∃ v, SockAct.recv (.request v) ∈ R ∧ v.streamID = c.id
    · obtain ⟨v, v1, v2⟩ := hx
      obtain ⟨bef, rest, s1, hR, hrun⟩ := (inv h hg hf hsm).taken v1
      rcases (t1 s1.tasks.length rest ⟨bef, v, s1, hR, v2, hrun, rfl⟩).1 with h3 | h3 <;> rw [h3]
      · exact Nat.zero_le _
      · cases ((yields s1.tasks.length rest).head?.bind toldGo) <;> simp
    · rw [t2 fun v hv hid => hx ⟨v, hv, hid⟩]; exact Nat.zero_le _
  · rcases (rust_callers_told h hg hf hsm as bs md d hR s1 h1 k hk hl).1 with ⟨h3, _⟩ | ⟨r, h3, _⟩ <;> rw [h3] <;> simp

/-- **C152** is false. A Rust guest asks its Go host for a stream; the host asks the guest for a result, which comes; it is
taken for a frame of the stream, and the host crashes. -/
theorem stream_and_call_crash_refuted : ∃ (m : Mixed Nat) (R : List SockAct), Runs .host hs2 m R ∧ (Few m R ∧ Small m) ∧
    m.go.calls.map (·.kind) = [.rr] ∧ callsOf R = [.rs] ∧ m.rust.runs = [.rr 2 (opMd 1) [5]] ∧
    ∃ f, m.rust.out[m.goRead]? = some f ∧ m.go.peer.step .host hs2 (.recv (Rust.encode f)) = some .panic :=
  play_ends (l := [.rust (.call .rs (opMd 0) [8]), .toGo, .go (.task 0 true), .go (.call .rr [5] (opMd 1) .background), .go (.subscribe 0),
      .toRust, .rust (.task 0 (.ok [1] [2]))]) _
    (fun m R => tame m R && decide (m.go.calls.map (·.kind) = [.rr] ∧ callsOf R = [.rs] ∧ m.rust.runs = [.rr 2 (opMd 1) [5]]) &&
      crashes .host hs2 m)
    (fun m R h => by
      simp only [Bool.and_eq_true, decide_eq_true_eq] at h
      exact ⟨tame_all h.1.1, h.1.2.1, h.1.2.2.1, h.1.2.2.2, crashes_panic h.2⟩)
    (by decide +kernel)

/-- **C152** is false. A Rust host makes a fire and forget call; later its Go guest asks the host for a result, which
comes, and the guest crashes. -/
theorem forgotten_call_crashes_refuted : ∃ (m : Mixed Nat) (R : List SockAct), Runs .guest hs2 m R ∧ (Few m R ∧ Small m) ∧
    m.go.calls.map (·.kind) = [.rr] ∧ callsOf R = [.fnf] ∧ m.rust.runs = [.rr 1 (opMd 1) [5]] ∧
    ∃ f, m.rust.out[m.goRead]? = some f ∧ m.go.peer.step .guest hs2 (.recv (Rust.encode f)) = some .panic :=
  play_ends (l := [.rust (.call .fnf (opMd 0) [8]), .toGo, .go (.task 0 true), .go (.call .rr [5] (opMd 1) .background), .go (.subscribe 0),
      .toRust, .rust (.task 0 (.ok [1] [2]))]) _
    (fun m R => tame m R && decide (m.go.calls.map (·.kind) = [.rr] ∧ callsOf R = [.fnf] ∧ m.rust.runs = [.rr 1 (opMd 1) [5]]) &&
      crashes .guest hs2 m)
    (fun m R h => by
      simp only [Bool.and_eq_true, decide_eq_true_eq] at h
      exact ⟨tame_all h.1.1, h.1.2.1, h.1.2.2.1, h.1.2.2.2, crashes_panic h.2⟩)
    (by decide +kernel)

/-- **C152** is false. A Rust guest asks its Go host for a result. The host asks the guest for a stream and cancels it: the
guest is told that its own call was cancelled, and the result that the host sends is dropped. -/
theorem cancelled_stream_ends_call_refuted : ∃ (m : Mixed Nat) (R : List SockAct), Runs .host hs2 m R ∧ (Few m R ∧ Small m) ∧
    m.go.calls.map (·.kind) = [.rs] ∧ callsOf R = [.rr] ∧ m.go.made.map (fun y => (y.1.id, y.2)) = [(2, .value [11] [])] ∧
    m.rustRead = m.sent.length ∧
    m.rust.sinks.map (fun k => (k.live, k.got, k.closed)) = [(true, [.err canceled (Iota.Rust.lit "Request cancelled")], true)] :=
  play_ends (l := [.rust (.call .rr (opMd 0) [8]), .go (.call .rs [5] (opMd 1) .background), .go (.subscribe 0), .go (.start 0 1),
      .go (.own 0 (.cancel ⟨2⟩)), .toRust, .toRust, .toGo, .go (.task 0 true), .go (.answer 0 (.value [11] [])), .toRust]) _
    (fun m R => tame m R && decide (m.go.calls.map (·.kind) = [.rs] ∧ callsOf R = [.rr] ∧
      m.go.made.map (fun y => (y.1.id, y.2)) = [(2, .value [11] [])] ∧ m.rustRead = m.sent.length ∧
      m.rust.sinks.map (fun k => (k.live, k.got, k.closed)) = [(true, [.err canceled (Iota.Rust.lit "Request cancelled")], true)]))
    (fun m R h => by
      simp only [Bool.and_eq_true, decide_eq_true_eq] at h
      exact ⟨tame_all h.1, h.2⟩)
    (by decide +kernel)

/-! ## Errors that are not UTF-8 -/

/-- A Rust guest asks its Go host for two results. The handler for the first fails with an error that is not UTF-8: everything is done, and the
first caller was told nothing; the second call, which fails with an error in UTF-8, and one of the host under the same id, are not disturbed. -/
def demoUnread : List Iota.Mixed.Act := [
  .rust (.call .rr (opMd 0) [8]), .rust (.call .rr (opMd 0) [9]), .go (.call .rr [5] (opMd 1) .background), .go (.subscribe 0), .toGo, .toGo,
  .go (.task 0 true), .go (.task 0 true), .go (.answer 0 (.failure [255])), .toRust, .toRust, .toGoRefused, .go (.answer 0 (.failure [104])),
  .toRust, .rust (.task 0 (.ok [1] [2])), .toGo]

example : ∃ (m : Mixed Nat) (R : List SockAct), Runs .host hs2 m R ∧ (Single .host m R ∧ Few m R ∧ Small m) ∧ Settled m ∧
    m.go.made.map (fun y => (y.1.id, y.2)) = [(2, .failure [255]), (4, .failure [104])] ∧ toldCall m.go 0 = [.value [2] [1]] ∧
    m.rust.sinks.map (fun k => (k.live, k.got, k.closed)) = [(true, [], false), (true, [.err 0 [104]], true)] :=
  play_ends (l := demoUnread) _ (fun m R => fine .host m R && idle m && decide (
      m.go.made.map (fun y => (y.1.id, y.2)) = [(2, .failure [255]), (4, .failure [104])] ∧ toldCall m.go 0 = [.value [2] [1]] ∧
      m.rust.sinks.map (fun k => (k.live, k.got, k.closed)) = [(true, [], false), (true, [.err 0 [104]], true)]))
    (fun m R h => by
      simp only [Bool.and_eq_true, decide_eq_true_eq] at h
      exact ⟨fine_all h.1.1, idle_settled h.1.2, h.2⟩)
    (by decide +kernel)

/-- **C178** is false. A Go guest and its Rust host ask each other for a result, under the same id. The handler in the guest fails with an error
that is not UTF-8. The caller in the guest is told the complaint of the host about this frame, and then the value its own handler gave; the caller
in the host is told nothing. -/
theorem unreadable_error_fails_call_refuted : ∃ (m : Mixed Nat) (R : List SockAct), Runs .guest hs2 m R ∧ (Few m R ∧ Small m ∧ Settled m) ∧
    m.go.calls.map (·.kind) = [.rr] ∧ callsOf R = [.rr] ∧ m.go.made.map (fun y => (y.1.id, y.2)) = [(1, .failure [255])] ∧
    yields 0 R = [.ok [1] [2]] ∧ m.rust.runs = [.rr 1 (opMd 1) [5]] ∧ toldCall m.go 0 = [.failure (Iota.Rust.lit "Could not read string bytes"), .value [2] [1]] ∧
    m.rust.sinks.map (fun k => (k.live, k.got, k.closed)) = [(true, [], false)] :=
  play_ends (l := [.go (.call .rr [5] (opMd 1) .background), .rust (.call .rr (opMd 0) [8]), .go (.subscribe 0), .toRust, .toGo, .go (.task 0 true),
      .go (.answer 0 (.failure [255])), .toRust, .toGoRefused, .rust (.task 0 (.ok [1] [2])), .toGo]) _
    (fun m R => tame m R && idle m && decide (m.go.calls.map (·.kind) = [.rr] ∧ callsOf R = [.rr] ∧
      m.go.made.map (fun y => (y.1.id, y.2)) = [(1, .failure [255])] ∧
      yields 0 R = [.ok [1] [2]] ∧ m.rust.runs = [.rr 1 (opMd 1) [5]] ∧ toldCall m.go 0 = [.failure (Iota.Rust.lit "Could not read string bytes"), .value [2] [1]] ∧
      m.rust.sinks.map (fun k => (k.live, k.got, k.closed)) = [(true, [], false)]))
    (fun m R h => by
      simp only [Bool.and_eq_true, decide_eq_true_eq] at h
      exact ⟨⟨(tame_all h.1.1).1, (tame_all h.1.1).2, idle_settled h.1.2⟩, h.2⟩)
    (by decide +kernel)

end Iota.Props.Mixed
