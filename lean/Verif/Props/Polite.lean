import Verif.Spec.Polite
import Verif.Props.Peers
import Verif.Props.Caller

/-! # Connections stay up (C134) and calls are answered (C135) -/

namespace Iota.Props.Polite
open Iota.Go Iota.Frames Iota.Registry Iota.Handler Iota.Peers Iota.Spec.Handler Iota.Spec.Polite
open Iota.Props.Handler Iota.Props.Peers
open Iota.StreamId (Side)
open Iota.Props.StreamId (idOf idOf_inj)
open Iota.Props.Caller (get_register_none get_register_some)

/-- The frames a request-response request is answered with. -/
def Answer : Frame → Prop
  | .payload v => v.next = true ∧ v.complete = true
  | .error _ => True
  | _ => False

/-- What holds of the calls of `p`, answered by `q`; `wp` and `wq` are the frames they sent. -/
structure Fair (reg : Reg Unit) (subs : List Nat) (p q : Peer) (wp wq : List Frame) : Prop where
  kinds : ∀ c ∈ p.calls, c.kind = .rr ∨ (c.kind = .fnf ∧ Known reg c.frame.metadata)
  mono : ∀ c ∈ p.calls, p.st.objs[c.obj]? = some .mono
  tasks : ∀ t ∈ q.tasks, ∃ k id d m n, t = .request k id d m n
  back : ∀ f ∈ wq, isRequest f = false →
    Answer f ∧ ∃ c ∈ p.calls, c.kind = .rr ∧ c.frame.streamID = f.streamID
  balance : ∀ (j : Nat) (c : Peers.Call), p.calls[j]? = some c →
    requests c.frame.streamID wp + queued c.frame.streamID q.tasks + handlers c.frame.streamID q.jobs +
      answers c.frame.streamID wq + results c.obj p.log = subs.count j
  bound : ∀ j ∈ subs, j < p.calls.length
  once : subs.Nodup
  quiet : ∀ c ∈ p.calls, c.kind = .fnf → results c.obj p.log = 0
  opened : ∀ (j : Nat) (c : Peers.Call), p.calls[j]? = some c → c.kind = .rr → j ∈ subs → results c.obj p.log = 0 →
    getStream p.st c.frame.streamID = some c.obj
  entries : Entries (fun id _ => (∃ (j : Nat) (c : Peers.Call), p.calls[j]? = some c ∧ c.kind = .rr ∧ j ∈ subs ∧
    c.frame.streamID = id) ∨ ∃ c ∈ q.calls, c.frame.streamID = id) p.st

/-- Both directions. -/
def Both (regs : Side → Reg Unit) (subs : Side → List Nat) (y : Sys) : Prop :=
  ∀ s, Fair (regs (other s)) (subs s) (y.peer s) (y.peer (other s)) (y.wire s) (y.wire (other s))

theorem both_put {regs : Side → Reg Unit} {subs : Side → List Nat} {y : Sys} (s : Side) (p' : Peer)
    (out : List Frame) (r : Bool)
    (h1 : Fair (regs (other s)) (subs s) p' (y.peer (other s)) (y.wire s ++ out)
      (if r then (y.wire (other s)).tail else y.wire (other s)))
    (h2 : Fair (regs s) (subs (other s)) (y.peer (other s)) p'
      (if r then (y.wire (other s)).tail else y.wire (other s)) (y.wire s ++ out)) :
    Both regs subs (y.put s p' out r) := by
  intro t
  rcases eq_or_other s t with rfl | rfl
  · simp only [Sys.put, if_true, if_neg (other_ne t)]
    exact h1
  · simp only [Sys.put, other_other, if_true, if_neg (other_ne s)]
    exact h2

/-! ## Counting -/

theorem requests_append (id : UInt32) (a b : List Frame) : requests id (a ++ b) = requests id a + requests id b :=
  List.countP_append

theorem answers_append (id : UInt32) (a b : List Frame) : answers id (a ++ b) = answers id a + answers id b :=
  List.countP_append

theorem queued_append (id : UInt32) (a b : List Task) : queued id (a ++ b) = queued id a + queued id b :=
  List.countP_append

theorem handlers_append (id : UInt32) (a b : List Job) : handlers id (a ++ b) = handlers id a + handlers id b :=
  List.countP_append

theorem results_append (o : Nat) (a b : List Rec) : results o (a ++ b) = results o a + results o b :=
  List.countP_append

theorem countP_one {α : Type} (P : α → Bool) (a : α) : [a].countP P = (P a).toNat := by
  rw [List.countP_cons, List.countP_nil]; cases P a <;> rfl

theorem queued_erase {id : UInt32} {ts : List Task} {i : Nat} {t : Task} (h : ts[i]? = some t) :
    queued id ts = queued id (ts.eraseIdx i) + (isTask id t).toNat := by
  rw [queued, (eraseIdx_perm h).countP_eq, List.countP_cons]; cases isTask id t <;> rfl

theorem handlers_erase {id : UInt32} {js : List Job} {i : Nat} {j : Job} (h : js[i]? = some j) :
    handlers id js = handlers id (js.eraseIdx i) + (j.id == id).toNat := by
  rw [handlers, (eraseIdx_perm h).countP_eq, List.countP_cons]; cases j.id == id <;> rfl

theorem requests_tail {id : UInt32} {w : List Frame} {f : Frame} (h : w.head? = some f) :
    requests id w = requests id w.tail + (isRequest f && f.streamID == id).toNat := by
  cases w with
  | nil => cases h
  | cons g w => cases h; rw [requests, List.countP_cons]; cases isRequest f && f.streamID == id <;> rfl

theorem answers_tail {id : UInt32} {w : List Frame} {f : Frame} (h : w.head? = some f) :
    answers id w = answers id w.tail + (!isRequest f && f.streamID == id).toNat := by
  cases w with
  | nil => cases h
  | cons g w => cases h; rw [answers, List.countP_cons]; cases !isRequest f && f.streamID == id <;> rfl

theorem index_unique {s : Side} {p : Peer} (h : Local s p) (hb : p.calls.length ≤ 2 ^ 30) {i j : Nat} {c d : Peers.Call}
    (hi : p.calls[i]? = some c) (hj : p.calls[j]? = some d) (he : c.frame.streamID = d.frame.streamID) : i = j := by
  have h1 := h.ids i c hi
  have h2 := h.ids j d hj
  rw [he, h2] at h1
  obtain ⟨li, _⟩ := List.getElem?_eq_some_iff.mp hi
  obtain ⟨lj, _⟩ := List.getElem?_eq_some_iff.mp hj
  have := idOf_inj (side := s) (by omega) (by omega) (by omega) (by omega) h1
  omega

/-! ## Steps -/

/-- A new call: nothing is known of its id yet. -/
theorem fair_call {s : Side} {reg reg' : Reg Unit} {subs subs' : List Nat} {p q p' : Peer} {wp wq : List Frame}
    {k : Kind} {d m : Bytes} (hf : Fair reg subs p q wp wq) (hr : Fair reg' subs' q p wq wp)
    (hl : Local s p) (hj : Joint q p) (hw : ∀ f ∈ wp, Origin p q f)
    (hl' : Local s p') (hb : p'.calls.length ≤ 2 ^ 30)
    (hk : k = .rr ∨ (k = .fnf ∧ Known reg m)) (h : p.call s k d m = some p') :
    Fair reg subs p' q (wp ++ []) wq ∧ Fair reg' subs' q p' wq (wp ++ []) := by
  rw [List.append_nil]
  unfold Peer.call at h
  split at h
  · cases h
  · rename_i ctr id b hn
    cases h
    have hnew : (p.calls ++ [⟨k, requestFrame k id d m, p.st.objs.length⟩])[p.calls.length]? =
        some ⟨k, requestFrame k id d m, p.st.objs.length⟩ := by simp
    have hold : ∀ {j : Nat} {c : Peers.Call}, p.calls[j]? = some c →
        (p.calls ++ [⟨k, requestFrame k id d m, p.st.objs.length⟩])[j]? = some c := by
      intro j c hc
      obtain ⟨hlt, _⟩ := List.getElem?_eq_some_iff.mp hc
      rw [List.getElem?_append_left hlt]; exact hc
    have hfresh : ∀ c ∈ p.calls, c.frame.streamID ≠ id := by
      intro c hc he
      obtain ⟨j, hj'⟩ := List.mem_iff_getElem?.mp hc
      have := index_unique hl' hb (hold hj') hnew (by rw [frame_id]; exact he)
      obtain ⟨hlt, _⟩ := List.getElem?_eq_some_iff.mp hj'
      omega
    constructor
    · refine ⟨?_, ?_, hf.tasks, ?_, ?_, ?_, hf.once, ?_, ?_, ?_⟩
      · intro c hc
        rcases List.mem_append.mp hc with hc | hc
        · exact hf.kinds c hc
        · rw [List.mem_singleton] at hc; subst hc
          rcases hk with rfl | ⟨rfl, hk⟩
          · exact .inl rfl
          · exact .inr ⟨rfl, hk⟩
      · intro c hc
        rcases List.mem_append.mp hc with hc | hc
        · rw [List.getElem?_append_left (hl.objs c hc)]; exact hf.mono c hc
        · rw [List.mem_singleton] at hc; subst hc
          show (p.st.objs ++ [streamOf k])[p.st.objs.length]? = some .mono
          rw [List.getElem?_append_right (Nat.le_refl _), Nat.sub_self]
          rcases hk with rfl | ⟨rfl, _⟩ <;> rfl
      · intro f hm hq
        obtain ⟨h1, c, h2, h3⟩ := hf.back f hm hq
        exact ⟨h1, c, List.mem_append_left _ h2, h3⟩
      · intro j c hc
        rcases getElem?_snoc hc with ⟨_, hc⟩ | ⟨rfl, rfl⟩
        · exact hf.balance j c hc
        · have c0 : subs.count p.calls.length = 0 :=
            List.count_eq_zero.mpr fun hm => Nat.lt_irrefl _ (hf.bound _ hm)
          have e1 : requests id wp = 0 := by
            refine List.countP_eq_zero.mpr fun f hm => ?_
            simp only [Bool.and_eq_true, beq_iff_eq, not_and]
            intro hq he
            rcases hw f hm with ⟨v, k', rfl, _, c, h1, h2⟩ | ⟨h1, _⟩
            · exact hfresh c h1 (h2.2.1.trans he)
            · rw [h1] at hq; cases hq
          have e2 : queued id q.tasks = 0 := by
            refine List.countP_eq_zero.mpr fun t hm => ?_
            obtain ⟨k', i', d', m', n', rfl⟩ := hf.tasks t hm
            obtain ⟨c, h1, h2⟩ := hj.tasks _ _ _ _ _ hm
            simp only [isTask, beq_iff_eq]
            intro he
            exact hfresh c h1 (h2.2.1.trans he)
          have e3 : handlers id q.jobs = 0 := by
            refine List.countP_eq_zero.mpr fun t hm => ?_
            obtain ⟨c, h1, h2⟩ := hj.jobs _ hm
            simp only [beq_iff_eq]
            intro he
            exact hfresh c h1 (h2.2.1.trans he)
          have e4 : answers id wq = 0 := by
            refine List.countP_eq_zero.mpr fun f hm => ?_
            simp only [Bool.and_eq_true, Bool.not_eq_true', beq_iff_eq, not_and]
            intro hq he
            obtain ⟨_, c, h1, _, h2⟩ := hf.back f hm hq
            exact hfresh c h1 (h2.trans he)
          have e5 : results p.st.objs.length p.log = 0 := by
            refine List.countP_eq_zero.mpr fun r hm => ?_
            cases r with
            | delivered i r =>
              simp only [isResult, beq_iff_eq]
              intro he
              exact Nat.lt_irrefl _ (he ▸ hl.logged i r hm)
            | produced => simp [isResult]
          simp only [frame_id, e1, e2, e3, e4, e5, c0]
      · intro j hm
        have := hf.bound j hm
        simp only [List.length_append, List.length_cons, List.length_nil]; omega
      · intro c hc hkf
        rcases List.mem_append.mp hc with hc | hc
        · exact hf.quiet c hc hkf
        · rw [List.mem_singleton] at hc; subst hc
          refine List.countP_eq_zero.mpr fun r hm => ?_
          cases r with
          | delivered i r =>
            simp only [isResult, beq_iff_eq]
            intro he
            exact Nat.lt_irrefl _ (he ▸ hl.logged i r hm)
          | produced => simp [isResult]
      · intro j c hc hkr hm hz
        rcases getElem?_snoc hc with ⟨_, hc⟩ | ⟨rfl, rfl⟩
        · exact hf.opened j c hc hkr hm hz
        · exact absurd (hf.bound _ hm) (Nat.lt_irrefl _)
      · have key : ∀ id' (i : Nat), ((∃ (j : Nat) (c : Peers.Call), p.calls[j]? = some c ∧ c.kind = .rr ∧ j ∈ subs ∧
            c.frame.streamID = id') ∨ ∃ c ∈ q.calls, c.frame.streamID = id') →
            ((∃ (j : Nat) (c : Peers.Call), (p.calls ++ [⟨k, requestFrame k id d m, p.st.objs.length⟩])[j]? = some c ∧
              c.kind = .rr ∧ j ∈ subs ∧ c.frame.streamID = id') ∨ ∃ c ∈ q.calls, c.frame.streamID = id') := by
          rintro id' i (⟨j, c, h1, h2⟩ | h)
          · exact .inl ⟨j, c, hold h1, h2⟩
          · exact .inr h
        have := hf.entries.mono key
        exact ⟨this.1, this.2⟩
    · refine ⟨hr.kinds, hr.mono, hr.tasks, hr.back, hr.balance, hr.bound, hr.once, hr.quiet, hr.opened, ?_⟩
      refine hr.entries.mono ?_
      rintro id' i (h | ⟨c, h1, h2⟩)
      · exact .inl h
      · exact .inr ⟨c, List.mem_append_left _ h1, h2⟩

/-- A result is subscribed to. -/
theorem fair_subscribe {s : Side} {reg reg' : Reg Unit} {subs subs' : List Nat} {p q : Peer} {wp wq : List Frame}
    {j : Nat} {c : Peers.Call} (hf : Fair reg subs p q wp wq) (hr : Fair reg' subs' q p wq wp)
    (hl : Local s p) (hlq : Local (other s) q) (hb : p.calls.length ≤ 2 ^ 30)
    (hc : p.calls[j]? = some c) (hn : j ∉ subs) :
    Fair reg (subs ++ [j]) (p.subscribe c).1 q (wp ++ (p.subscribe c).2) wq ∧
      Fair reg' subs' q (p.subscribe c).1 wq (wp ++ (p.subscribe c).2) := by
  have hcm := List.mem_of_getElem? hc
  have hlt : j < p.calls.length := (List.getElem?_eq_some_iff.mp hc).1
  -- counting
  have hbal : ∀ (i : Nat) (e : Peers.Call), p.calls[i]? = some e →
      requests e.frame.streamID (wp ++ [.request c.frame]) + queued e.frame.streamID q.tasks +
        handlers e.frame.streamID q.jobs + answers e.frame.streamID wq + results e.obj p.log =
        (subs ++ [j]).count i := by
    intro i e he
    have hb1 := hf.balance i e he
    rw [requests_append, List.count_append]
    have : requests e.frame.streamID [.request c.frame] = [j].count i := by
      by_cases hij : i = j
      · subst hij
        cases hc.symm.trans he
        simp [requests, isRequest, Frame.streamID]
      · have hne : c.frame.streamID ≠ e.frame.streamID := fun h => hij (index_unique hl hb he hc h.symm)
        have hne2 : j ≠ i := fun h => hij h.symm
        simp [requests, isRequest, Frame.streamID, hne, hne2]
    omega
  have hbound : ∀ i ∈ subs ++ [j], i < p.calls.length := by
    intro i hi
    rcases List.mem_append.mp hi with hi | hi
    · exact hf.bound i hi
    · rw [List.mem_singleton] at hi; subst hi; exact hlt
  have honce : (subs ++ [j]).Nodup := by
    refine List.nodup_append.mpr ⟨hf.once, by simp, ?_⟩
    intro a ha b hb' he
    rw [List.mem_singleton] at hb'; subst hb'; subst he; exact hn ha
  have hback : ∀ f ∈ wp ++ [Frame.request c.frame], isRequest f = false →
      Answer f ∧ ∃ c ∈ q.calls, c.kind = .rr ∧ c.frame.streamID = f.streamID := by
    intro f hm hq
    rcases List.mem_append.mp hm with hm | hm
    · exact hr.back f hm hq
    · rw [List.mem_singleton] at hm; subst hm; cases hq
  have hbal' : ∀ (i : Nat) (e : Peers.Call), q.calls[i]? = some e →
      requests e.frame.streamID wq + queued e.frame.streamID p.tasks + handlers e.frame.streamID p.jobs +
        answers e.frame.streamID (wp ++ [.request c.frame]) + results e.obj q.log = subs'.count i := by
    intro i e he
    rw [answers_append]
    have : answers e.frame.streamID [.request c.frame] = 0 := by simp [answers, isRequest]
    rw [this]
    exact hr.balance i e he
  have hmono : ∀ id (i : Nat), ((∃ (i : Nat) (e : Peers.Call), p.calls[i]? = some e ∧ e.kind = .rr ∧ i ∈ subs ∧
      e.frame.streamID = id) ∨ ∃ e ∈ q.calls, e.frame.streamID = id) →
      ((∃ (i : Nat) (e : Peers.Call), p.calls[i]? = some e ∧ e.kind = .rr ∧ i ∈ subs ++ [j] ∧
      e.frame.streamID = id) ∨ ∃ e ∈ q.calls, e.frame.streamID = id) := by
    rintro id i (⟨i, e, h1, h2, h3, h4⟩ | h)
    · exact .inl ⟨i, e, h1, h2, List.mem_append_left _ h3, h4⟩
    · exact .inr h
  rcases hf.kinds c hcm with hk | ⟨hk, _⟩
  · -- request-response
    simp only [Peer.subscribe, hk]
    have hobjs := registerStream_objs p.st c.frame.streamID c.obj
    have hnone : getStream p.st c.frame.streamID = none := by
      cases hg : getStream p.st c.frame.streamID with
      | none => rfl
      | some i =>
        rcases hf.entries.lookup hg with ⟨i, e, h1, h2, h3, h4⟩ | ⟨e, h1, h2⟩
        · cases index_unique hl hb h1 hc h4
          exact absurd h3 hn
        · exact absurd h2.symm (ids_disjoint hl hlq hcm h1)
    constructor
    · refine ⟨hf.kinds, ?_, hf.tasks, hf.back, hbal, hbound, honce, hf.quiet, ?_, ?_⟩
      · intro e he; show (registerStream p.st c.frame.streamID c.obj).objs[e.obj]? = _
        rw [hobjs]; exact hf.mono e he
      · intro i e he hek hi hz
        show getStream (registerStream p.st c.frame.streamID c.obj) e.frame.streamID = some e.obj
        rcases List.mem_append.mp hi with hi | hi
        · exact get_register_some (hf.opened i e he hek hi hz)
        · rw [List.mem_singleton] at hi; subst hi
          cases hc.symm.trans he
          exact get_register_none _ hnone
      · refine Entries.registered (hf.entries.mono hmono) ?_
        exact .inl ⟨j, c, hc, hk, by simp, rfl⟩
    · exact ⟨hr.kinds, hr.mono, hr.tasks, hback, hbal', hr.bound, hr.once, hr.quiet, hr.opened, hr.entries⟩
  · -- fire and forget
    simp only [Peer.subscribe, hk]
    constructor
    · refine ⟨hf.kinds, hf.mono, hf.tasks, hf.back, hbal, hbound, honce, hf.quiet, ?_, hf.entries.mono hmono⟩
      intro i e he hek hi hz
      rcases List.mem_append.mp hi with hi | hi
      · exact hf.opened i e he hek hi hz
      · rw [List.mem_singleton] at hi; subst hi
        cases hc.symm.trans he
        rw [hk] at hek; cases hek
    · exact ⟨hr.kinds, hr.mono, hr.tasks, hback, hbal', hr.bound, hr.once, hr.quiet, hr.opened, hr.entries⟩

/-- The next frame can be handled, whatever it is. -/
theorem head_handled {s : Side} {reg reg' : Reg Unit} {subs subs' : List Nat} {p q : Peer} {wp wq : List Frame}
    {f : Frame} (hf : Fair reg subs p q wp wq) (hl : Local s p) (hb : p.calls.length ≤ 2 ^ 30)
    (hw : ∀ f ∈ wq, Origin q p f) (hh : wq.head? = some f) :
    (∃ v k, f = .request v ∧ kindOf v.frameType = some k ∧ handleFrame (H := Unit) p.st f =
      .ok ⟨p.st, [.request k v.streamID v.data v.metadata v.initialN], []⟩) ∨
    (∃ (j : Nat) (c : Peers.Call) (r : Result) (o : Out Unit), p.calls[j]? = some c ∧ c.kind = .rr ∧
      c.frame.streamID = f.streamID ∧ isRequest f = false ∧ results c.obj p.log = 0 ∧
      handleFrame (H := Unit) p.st f = .ok o ∧ o.st = removeStream p.st f.streamID ∧ o.tasks = [] ∧
      o.evs.filterMap recOf = [.delivered c.obj r]) := by
  have hm : f ∈ wq := List.mem_of_mem_head? hh
  cases hq : isRequest f with
  | true =>
    left
    rcases hw f hm with ⟨v, k, rfl, h1, _⟩ | ⟨h1, _⟩
    · exact ⟨v, k, rfl, h1, request_frame_starts_task _ _ _ (by rw [kindOf_some h1]; cases k <;> rfl)⟩
    · rw [h1] at hq; cases hq
  | false =>
    right
    obtain ⟨ha, c, hc, hk, he⟩ := hf.back f hm hq
    obtain ⟨j, hj⟩ := List.mem_iff_getElem?.mp hc
    have hbal := hf.balance j c hj
    have hpos : 0 < answers c.frame.streamID wq := by
      refine List.countP_pos_iff.mpr ⟨f, hm, ?_⟩
      simp [hq, he]
    have hle : subs.count j ≤ 1 := List.nodup_iff_count.mp hf.once j
    have hmem : j ∈ subs := List.count_pos_iff.mp (by omega)
    have hz : results c.obj p.log = 0 := by omega
    have hg := hf.opened j c hj hk hmem hz
    rw [he] at hg
    have ho := hf.mono c hc
    cases f with
    | payload v =>
      obtain ⟨h1, h2⟩ := ha
      have hg : getStream p.st v.streamID = some c.obj := hg
      refine ⟨j, c, .value v.data v.metadata,
        ⟨removeStream p.st v.streamID, [], [.next c.obj v.data v.metadata, .complete c.obj]⟩,
        hj, hk, he, rfl, hz, ?_, rfl, rfl, rfl⟩
      simp only [handleFrame, Frame.type, Frame.streamID, hg]
      rw [if_pos (by decide)]
      simp only [dispatch, deliverIf, h1, h2, if_true, deliver, ho, Obj.hasSink, Res.ok_bind, Res.pure_eq]
      rfl
    | error v =>
      have hg : getStream p.st v.streamID = some c.obj := hg
      refine ⟨j, c, .failure v.data,
        ⟨removeStream p.st v.streamID, [], [.error c.obj v.data, .complete c.obj]⟩,
        hj, hk, he, rfl, hz, ?_, rfl, rfl, rfl⟩
      simp only [handleFrame, Frame.type, Frame.streamID, hg]
      rw [if_pos (by decide)]
      simp only [dispatch, if_true, deliver, ho, Obj.hasSink, Res.ok_bind, Res.pure_eq]
      rfl
    | request v => cases hq
    | requestN v => exact ha.elim
    | cancel v => exact ha.elim

/-- A frame is read. -/
theorem fair_recv {s : Side} {reg reg' : Reg Unit} {subs subs' : List Nat} {p q p' : Peer} {wp wq : List Frame}
    {f : Frame} (hf : Fair reg subs p q wp wq) (hr : Fair reg' subs' q p wq wp)
    (hl : Local s p) (hb : p.calls.length ≤ 2 ^ 30) (hw : ∀ f ∈ wq, Origin q p f) (hh : wq.head? = some f)
    (h : p.recv f = some p') :
    Fair reg subs p' q (wp ++ []) wq.tail ∧ Fair reg' subs' q p' wq.tail (wp ++ []) := by
  rw [List.append_nil]
  have htail : ∀ g ∈ wq.tail, g ∈ wq := fun g hg => List.mem_of_mem_tail hg
  unfold Peer.recv at h
  rcases head_handled (reg' := reg) (subs' := subs) hf hl hb hw hh with
    ⟨v, k, rfl, hk, ho⟩ | ⟨j, c, r, o, hj, hk, he, hq, hz, ho, hst, hts, hev⟩
  · rw [ho] at h
    cases h
    simp only [List.filterMap_nil, List.append_nil]
    constructor
    · refine ⟨hf.kinds, hf.mono, hf.tasks, fun g hg => hf.back g (htail g hg), ?_, hf.bound, hf.once, hf.quiet,
        hf.opened, hf.entries⟩
      intro i e hi
      have h1 := hf.balance i e hi
      rw [answers_tail hh] at h1
      simpa [isRequest] using h1
    · refine ⟨hr.kinds, hr.mono, ?_, hr.back, ?_, hr.bound, hr.once, hr.quiet, hr.opened, hr.entries⟩
      · intro t ht
        rcases List.mem_append.mp ht with ht | ht
        · exact hr.tasks t ht
        · rw [List.mem_singleton] at ht; exact ⟨_, _, _, _, _, ht⟩
      · intro i e hi
        have h1 := hr.balance i e hi
        rw [requests_tail hh] at h1
        rw [queued_append]
        have : queued e.frame.streamID [.request k v.streamID v.data v.metadata v.initialN] =
            (isRequest (.request v) && (Frame.request v).streamID == e.frame.streamID).toNat := by
          rw [queued, countP_one]; rfl
        rw [this]; dsimp only at h1 ⊢; omega
  · rw [ho] at h
    cases h
    simp only [hst, hts, hev, List.append_nil]
    have hcm := List.mem_of_getElem? hj
    have hobjs : (removeStream p.st f.streamID).objs = p.st.objs := by unfold removeStream; split <;> rfl
    constructor
    · refine ⟨hf.kinds, ?_, hf.tasks, fun g hg => hf.back g (htail g hg), ?_, hf.bound, hf.once, ?_, ?_, ?_⟩
      · intro e hm; simp only [hobjs]; exact hf.mono e hm
      · intro i e hi
        have h1 := hf.balance i e hi
        rw [answers_tail hh] at h1
        rw [results_append]
        have : results e.obj [.delivered c.obj r] =
            (!isRequest f && f.streamID == e.frame.streamID).toNat := by
          by_cases hij : i = j
          · subst hij
            cases hj.symm.trans hi
            simp [results, isResult, hq, he]
          · have h2 : c.obj ≠ e.obj := fun h => hij (hl.distinct j i c e hj hi h).symm
            have h3 : f.streamID ≠ e.frame.streamID := fun h => hij (index_unique hl hb hi hj (h.symm.trans he.symm))
            have h4 : (f.streamID == e.frame.streamID) = false := by simpa using h3
            simp [results, isResult, h2, h4]
        rw [this]; omega
      · intro e hm hek
        rw [results_append, hf.quiet e hm hek]
        have h2 : c.obj ≠ e.obj := by
          intro h
          obtain ⟨i, hi⟩ := List.mem_iff_getElem?.mp hm
          cases hl.distinct j i c e hj hi h
          cases hj.symm.trans hi
          rw [hk] at hek; cases hek
        simp [results, isResult, h2]
      · intro i e hi hek hm hz'
        rw [results_append] at hz'
        have hne : e.frame.streamID ≠ f.streamID := by
          intro h
          cases index_unique hl hb hi hj (h.trans he.symm)
          cases hj.symm.trans hi
          simp [results, isResult] at hz'
        simp only [getStream_remove _ hne]
        exact hf.opened i e hi hek hm (by omega)
      · exact hf.entries.removed _
    · refine ⟨hr.kinds, hr.mono, hr.tasks, hr.back, ?_, hr.bound, hr.once, hr.quiet, hr.opened, hr.entries⟩
      intro i e hi
      have h1 := hr.balance i e hi
      rw [requests_tail hh] at h1
      simpa [hq] using h1

/-- What a request that is handled leads to. -/
theorem handle_cases (reg : Reg Unit) (hs : Small reg) (live : Bool) (st : State) (k : Kind)
    (hk : k = .rr ∨ k = .fnf) (id : UInt32) (d m : Bytes) (n : UInt32) :
    (∃ msg, runTask reg live st (.request k id d m n) = .ok ⟨st, [], [.sent (errorFrame id msg)]⟩ ∧
      react reg.handlers k id d m = .refuse id) ∨
    (runTask reg live st (.request k id d m n) = .ok (accept st k () id d m n) ∧
      react reg.handlers k id d m = .run k () id d) := by
  show (∃ msg, handleRequest reg st k id d m n = _ ∧ _) ∨ (handleRequest reg st k id d m n = _ ∧ _)
  unfold handleRequest react
  split
  · rename_i h
    exact .inl ⟨_, rfl, by rw [index_short h]⟩
  · rename_i h
    obtain ⟨op, h1, h2⟩ := index_long h
    rw [h1, h2]
    simp only [Res.ok_bind, getHandler_eq reg k (hs k)]
    split
    · rename_i h3; exact .inl ⟨_, rfl, by simp only [h3]⟩
    · rename_i h3; exact .inr ⟨rfl, by simp only [h3]⟩

theorem known_runs {reg : Reg Unit} {id : UInt32} {d m : Bytes} (h : Known reg m) :
    react reg.handlers .fnf id d m ≠ .refuse id := by
  obtain ⟨i, h1, h2⟩ := h
  unfold react
  rw [h1]
  simp only [List.getElem?_eq_getElem h2]
  exact fun h => nomatch h

/-- A goroutine runs. -/
theorem fair_run {s : Side} {reg reg' : Reg Unit} {subs subs' : List Nat} {p q p' : Peer} {wp wq out : List Frame}
    {live : Bool} {i : Nat} (hs : Small reg') (hf : Fair reg subs p q wp wq) (hr : Fair reg' subs' q p wq wp)
    (hl : Local s p) (hlq : Local (other s) q) (hj : Joint p q)
    (hbq : q.calls.length ≤ 2 ^ 30) (h : p.run reg' live i = some (p', out)) :
    Fair reg subs p' q (wp ++ out) wq ∧ Fair reg' subs' q p' wq (wp ++ out) := by
  unfold Peer.run at h
  split at h
  · cases h
  · rename_i t ht
    have htm := List.mem_of_getElem? ht
    obtain ⟨k, id, d, m, n, rfl⟩ := hr.tasks t htm
    obtain ⟨c, hc, hck, hcid, hcd, hcm⟩ := hj.tasks _ _ _ _ _ htm
    have hkind : k = .rr ∨ k = .fnf := by
      rcases hr.kinds c hc with h1 | ⟨h1, _⟩ <;> rw [hck] at h1
      · exact .inl h1
      · exact .inr h1
    obtain ⟨jc, hjc⟩ := List.mem_iff_getElem?.mp hc
    rcases handle_cases reg' hs live p.st k hkind id d m n with ⟨msg, h1, h2⟩ | ⟨h1, h2⟩
    · rw [h1] at h
      cases h
      have hrr : k = .rr := by
        rcases hr.kinds c hc with h3 | ⟨h3, h4⟩ <;> rw [hck] at h3
        · exact h3
        · subst h3; rw [hcm] at h4; exact absurd h2 (known_runs h4)
      subst hrr
      simp only [List.filterMap_cons, List.filterMap_nil, jobOf, producedOf, errorFrame, sentOf, List.append_nil]
      constructor
      · refine ⟨hf.kinds, hf.mono, hf.tasks, hf.back, ?_, hf.bound, hf.once, ?_, ?_, hf.entries⟩
        · intro a e ha
          rw [requests_append, results_append]
          simpa [requests, isRequest, results, isResult] using hf.balance a e ha
        · intro e he hek
          rw [results_append, hf.quiet e he hek]; rfl
        · intro a e ha hek hm hz
          rw [results_append] at hz
          exact hf.opened a e ha hek hm (by omega)
      · refine ⟨hr.kinds, hr.mono, ?_, ?_, ?_, hr.bound, hr.once, hr.quiet, hr.opened, hr.entries⟩
        · intro t ht; exact hr.tasks t (List.mem_of_mem_eraseIdx ht)
        · intro f hm hq
          rcases List.mem_append.mp hm with hm | hm
          · exact hr.back f hm hq
          · rw [List.mem_singleton] at hm; subst hm
            exact ⟨trivial, c, hc, hck, hcid⟩
        · intro a e ha
          have hb1 := hr.balance a e ha
          rw [queued_erase ht] at hb1
          rw [answers_append]
          have : answers e.frame.streamID [.error ⟨id, 0, msg⟩] =
              (isTask e.frame.streamID (.request .rr id d m n)).toNat := by
            simp only [answers, List.countP_cons, List.countP_nil, isTask, isRequest, Frame.streamID, Bool.not_false,
              Bool.true_and]
            cases id == e.frame.streamID <;> rfl
          rw [this]; try dsimp only at hb1 ⊢
          omega
    · rw [h1] at h
      cases h
      have hjobs : (accept p.st k () id d m n).evs = [.invoked k () id d (passedMetadata k m)] := by
        rcases hkind with rfl | rfl <;> rfl
      have htasks : (accept p.st k () id d m n).tasks = [] := by rcases hkind with rfl | rfl <;> rfl
      have hown : ∀ e ∈ p.calls, e.frame.streamID ≠ id := fun e he h3 =>
        ids_disjoint hl hlq he hc (h3.trans hcid.symm)
      have hobjs : ∀ a : Nat, p.st.objs[a]? = some .mono →
          (accept p.st k () id d m n).st.objs[a]? = some .mono := by
        intro a ha
        rcases hkind with rfl | rfl
        · exact ha
        · simp only [accept, registerStream_objs]
          rw [List.getElem?_append_left (List.getElem?_eq_some_iff.mp ha).1]; exact ha
      have hget : ∀ {i : UInt32} {a : Nat}, getStream p.st i = some a →
          getStream (accept p.st k () id d m n).st i = some a := by
        intro i a ha
        rcases hkind with rfl | rfl
        · exact ha
        · exact get_register_some ha
      simp only [hjobs, htasks, List.filterMap_cons, List.filterMap_nil, jobOf, producedOf, sentOf, List.append_nil]
      constructor
      · refine ⟨hf.kinds, ?_, hf.tasks, hf.back, hf.balance, hf.bound, hf.once, hf.quiet, ?_, ?_⟩
        · intro e he; exact hobjs _ (hf.mono e he)
        · intro a e ha hek hm hz; exact hget (hf.opened a e ha hek hm hz)
        · rcases hkind with rfl | rfl
          · exact hf.entries
          · refine Entries.registered ⟨hf.entries.1, hf.entries.2⟩ ?_
            exact .inr ⟨c, hc, hcid⟩
      · refine ⟨hr.kinds, hr.mono, ?_, hr.back, ?_, hr.bound, hr.once, hr.quiet, hr.opened, hr.entries⟩
        · intro t ht; exact hr.tasks t (List.mem_of_mem_eraseIdx ht)
        · intro a e ha
          have hb1 := hr.balance a e ha
          rw [queued_erase ht] at hb1
          rw [handlers_append]
          have : handlers e.frame.streamID [⟨k, id, d, m⟩] =
              (isTask e.frame.streamID (.request k id d m n)).toNat := by
            simp only [handlers, List.countP_cons, List.countP_nil, isTask]
            cases id == e.frame.streamID <;> rfl
          simp only [contents]
          rw [this]; try dsimp only at hb1 ⊢
          omega

/-- A handler answers. -/
theorem fair_answer {reg reg' : Reg Unit} {subs subs' : List Nat} {p q p' : Peer} {wp wq out : List Frame}
    {i : Nat} {r : Result} (hf : Fair reg subs p q wp wq) (hr : Fair reg' subs' q p wq wp)
    (hj : Joint p q) (h : p.answer i r = some (p', out)) :
    Fair reg subs p' q (wp ++ out) wq ∧ Fair reg' subs' q p' wq (wp ++ out) := by
  unfold Peer.answer at h
  split at h
  · cases h
  · rename_i job hjob
    split at h
    · rename_i hk
      cases h
      obtain ⟨c, hc, hck, hcid, _⟩ := hj.jobs job (List.mem_of_getElem? hjob)
      have hnr : isRequest (answerFrame job.id r) = false := by cases r <;> rfl
      have hid : (answerFrame job.id r).streamID = job.id := by cases r <;> rfl
      constructor
      · refine ⟨hf.kinds, hf.mono, hf.tasks, hf.back, ?_, hf.bound, hf.once, ?_, ?_, hf.entries⟩
        · intro a e ha
          rw [requests_append, results_append]
          simpa [requests, hnr, results, isResult] using hf.balance a e ha
        · intro e he hek
          rw [results_append, hf.quiet e he hek]; rfl
        · intro a e ha hek hm hz
          rw [results_append] at hz
          exact hf.opened a e ha hek hm (by omega)
      · refine ⟨hr.kinds, hr.mono, hr.tasks, ?_, ?_, hr.bound, hr.once, hr.quiet, hr.opened, hr.entries⟩
        · intro f hm hq
          rcases List.mem_append.mp hm with hm | hm
          · exact hr.back f hm hq
          · rw [List.mem_singleton] at hm; subst hm
            refine ⟨?_, c, hc, hck.trans hk, hcid.trans hid.symm⟩
            cases r
            · exact ⟨rfl, rfl⟩
            · trivial
        · intro a e ha
          have hb1 := hr.balance a e ha
          rw [handlers_erase hjob] at hb1
          rw [answers_append]
          have : answers e.frame.streamID [answerFrame job.id r] = (job.id == e.frame.streamID).toNat := by
            simp only [answers, List.countP_cons, List.countP_nil, hnr, hid, Bool.not_false, Bool.true_and]
            cases job.id == e.frame.streamID <;> rfl
          rw [this]; try dsimp only at hb1 ⊢
          omega
    · cases h

theorem polite_reach {regs : Side → Reg Unit} {subs : Side → List Nat} {y : Sys} (h : Polite regs subs y) :
    Reach y := by
  induction h with
  | init => exact .init
  | step a _ _ hs ih => exact .step a ih hs

theorem step_both {regs : Side → Reg Unit} (hsm : ∀ s, Small (regs s)) {subs : Side → List Nat} {y y' : Sys}
    {a : Peers.Act} (hg : Good y) (hb : Bounded y) (hb' : Bounded y') (hg' : Good y') (hy : Both regs subs y)
    (ha : Allowed regs subs a) (h : y.step a = some y') : Both regs (note subs a) y' := by
  have back : ∀ s, Fair (regs s) (subs (other s)) (y.peer (other s)) (y.peer s) (y.wire (other s)) (y.wire s) := by
    intro s
    have := hy (other s)
    rwa [other_other] at this
  have jback : ∀ s, Joint (y.peer (other s)) (y.peer s) := by
    intro s
    have := hg.joint (other s)
    rwa [other_other] at this
  have wback : ∀ s, ∀ f ∈ y.wire (other s), Origin (y.peer (other s)) (y.peer s) f := by
    intro s
    have := hg.wire (other s)
    rwa [other_other] at this
  cases a with
  | call s k d m =>
    simp only [Sys.step, Option.map_eq_some_iff] at h
    obtain ⟨p, h1, rfl⟩ := h
    have hb1 := hb' s
    have hl1 := hg'.loc s
    simp only [Sys.put, if_true] at hb1 hl1
    obtain ⟨e1, e2⟩ := fair_call (hy s) (back s) (hg.loc s) (jback s) (hg.wire s) hl1 hb1 ha h1
    exact both_put s p [] false e1 e2
  | subscribe s j =>
    simp only [Sys.step, Option.map_eq_some_iff] at h
    obtain ⟨c, h1, rfl⟩ := h
    obtain ⟨e1, e2⟩ := fair_subscribe (hy s) (back s) (hg.loc s) (hg.loc (other s)) (hb s) h1 ha
    refine both_put s _ _ false ?_ ?_
    · simp only [note, if_true]; exact e1
    · simp only [note, if_neg (other_ne s)]; exact e2
  | start s j n =>
    simp only [Sys.step, Option.bind_eq_some_iff] at h
    obtain ⟨c, h1, h⟩ := h
    rcases (hy s).kinds c (List.mem_of_getElem? h1) with hk | ⟨hk, _⟩ <;> simp [hk] at h
  | own s j f =>
    simp only [Sys.step, Option.bind_eq_some_iff] at h
    obtain ⟨c, h1, h⟩ := h
    rcases (hy s).kinds c (List.mem_of_getElem? h1) with hk | ⟨hk, _⟩ <;> simp [hk] at h
  | recv s =>
    simp only [Sys.step, Option.bind_eq_some_iff, Option.map_eq_some_iff] at h
    obtain ⟨f, h1, p, h2, rfl⟩ := h
    obtain ⟨e1, e2⟩ := fair_recv (hy s) (back s) (hg.loc s) (hb s) (wback s) h1 h2
    exact both_put s p [] true e1 e2
  | run s reg live i =>
    simp only [Sys.step, Option.map_eq_some_iff] at h
    obtain ⟨⟨p, out⟩, h1, rfl⟩ := h
    have ha : reg = regs s := ha
    subst ha
    obtain ⟨e1, e2⟩ := fair_run (hsm s) (hy s) (back s) (hg.loc s) (hg.loc (other s)) (hg.joint s) (hb (other s)) h1
    exact both_put s p out false e1 e2
  | answer s i r =>
    simp only [Sys.step, Option.map_eq_some_iff] at h
    obtain ⟨⟨p, out⟩, h1, rfl⟩ := h
    obtain ⟨e1, e2⟩ := fair_answer (hy s) (back s) (hg.joint s) h1
    exact both_put s p out false e1 e2
  | emit s i f =>
    simp only [Sys.step, Option.bind_eq_some_iff] at h
    obtain ⟨j, h1, h⟩ := h
    obtain ⟨c, hc, hck, _⟩ := (hg.joint s).jobs j (List.mem_of_getElem? h1)
    rcases (back s).kinds c hc with hk | ⟨hk, _⟩ <;> rw [hck] at hk <;> simp [hk] at h

theorem polite_both {regs : Side → Reg Unit} (hsm : ∀ s, Small (regs s)) {subs : Side → List Nat} {y : Sys}
    (h : Polite regs subs y) (hb : Bounded y) : Both regs subs y := by
  induction h with
  | init =>
    intro s
    refine ⟨?_, ?_, ?_, ?_, ?_, ?_, ?_, ?_, ?_, ?_, ?_⟩ <;> simp [Sys.init, Peer.init, State.init]
  | step a hp ha hs ih =>
    have hb0 : Bounded _ := fun s => Nat.le_trans (calls_grow hs s) (hb s)
    have hr := polite_reach hp
    exact step_both hsm (reach_good hr hb0) hb0 hb (reach_good (.step a hr hs) hb) (ih hb0) ha hs

/-! ## C134: the connection stays up -/

/-- **C134** While two peers make simple calls — request-response calls of anything, fire-and-forget calls of
operations the other has, results subscribed to once — every frame is handled: `HandleFrame` neither fails,
which would end the connection, nor crashes. -/
theorem simple_calls_keep_connection_partial {regs : Side → Reg Unit} (hsm : ∀ s, Small (regs s))
    {subs : Side → List Nat} {y : Sys} (h : Polite regs subs y) (hb : Bounded y) (s : Side) (f : Frame)
    (hf : (y.wire (other s)).head? = some f) : ∃ o, handleFrame (H := Unit) (y.peer s).st f = .ok o := by
  have hg := reach_good (polite_reach h) hb
  have hw := hg.wire (other s)
  rw [other_other] at hw
  rcases head_handled (reg' := regs s) (subs' := subs s) (polite_both hsm h hb s) (hg.loc s) (hb s) hw hf with
    ⟨_, _, _, _, h1⟩ | ⟨_, _, _, o, _, _, _, _, _, h1, _⟩
  · exact ⟨_, h1⟩
  · exact ⟨o, h1⟩

/-! ## C135: every call is answered -/

/-- **C135** While two peers make simple calls, the caller of a request-response operation is told at most
one result, and none before it subscribed. Once nothing is under way any more — no frame on either wire, no
request waiting and no handler at work on it — it has been told exactly one. -/
theorem calls_answered_once_partial {regs : Side → Reg Unit} (hsm : ∀ s, Small (regs s))
    {subs : Side → List Nat} {y : Sys} (h : Polite regs subs y) (hb : Bounded y) (s : Side) (j : Nat)
    (c : Peers.Call) (hc : (y.peer s).calls[j]? = some c) :
    results c.obj (y.peer s).log ≤ (if j ∈ subs s then 1 else 0) ∧
    (j ∈ subs s → c.kind = .rr → y.wire s = [] → y.wire (other s) = [] → (y.peer (other s)).tasks = [] →
      (∀ w ∈ (y.peer (other s)).jobs, w.id ≠ c.frame.streamID) → results c.obj (y.peer s).log = 1) := by
  have hf := polite_both hsm h hb s
  have h1 := hf.balance j c hc
  have hle : (subs s).count j ≤ 1 := List.nodup_iff_count.mp hf.once j
  constructor
  · split
    · omega
    · rename_i hn
      rw [List.count_eq_zero.mpr hn] at h1; omega
  · intro hm hk h2 h3 h4 h5
    have h6 : 0 < (subs s).count j := List.count_pos_iff.mpr hm
    rw [h2, h3, h4] at h1
    have h7 : handlers c.frame.streamID (y.peer (other s)).jobs = 0 :=
      List.countP_eq_zero.mpr fun w hw => by simpa using h5 w hw
    simp only [requests, answers, queued, List.countP_nil] at h1
    omega

/-- **C135** A fire-and-forget call of an operation the other peer has starts its handler at most once, and
exactly once when the request has arrived and is not waiting any more. -/
theorem fire_and_forget_runs_once_partial {regs : Side → Reg Unit} (hsm : ∀ s, Small (regs s))
    {subs : Side → List Nat} {y : Sys} (h : Polite regs subs y) (hb : Bounded y) (s : Side) (j : Nat)
    (c : Peers.Call) (hc : (y.peer s).calls[j]? = some c) (hk : c.kind = .fnf) :
    handlers c.frame.streamID (y.peer (other s)).jobs ≤ (if j ∈ subs s then 1 else 0) ∧
    (j ∈ subs s → y.wire s = [] → (y.peer (other s)).tasks = [] →
      handlers c.frame.streamID (y.peer (other s)).jobs = 1) := by
  have hf := polite_both hsm h hb s
  have hg := reach_good (polite_reach h) hb
  have h1 := hf.balance j c hc
  have hle : (subs s).count j ≤ 1 := List.nodup_iff_count.mp hf.once j
  have hcm := List.mem_of_getElem? hc
  constructor
  · split
    · omega
    · rename_i hn
      rw [List.count_eq_zero.mpr hn] at h1; omega
  · intro hm h2 h4
    have h6 : 0 < (subs s).count j := List.count_pos_iff.mpr hm
    rw [h2, h4, hf.quiet c hcm hk] at h1
    have h7 : answers c.frame.streamID (y.wire (other s)) = 0 := by
      refine List.countP_eq_zero.mpr fun f hm => ?_
      simp only [Bool.and_eq_true, Bool.not_eq_true', beq_iff_eq, not_and]
      intro hq he
      obtain ⟨_, e, h8, h9, h10⟩ := hf.back f hm hq
      have := ids_unique (hg.loc s) (hb s) h8 hcm (h10.trans he)
      subst this
      rw [hk] at h9; cases h9
    simp only [requests, queued, List.countP_nil] at h1
    omega

/-! ## What ends a connection -/

/-- The streams a peer has registered belong to calls of its own that are not fire and forget, or to calls of
the other peer. -/
def Tables (p q : Peer) : Prop :=
  Entries (fun id _ => (∃ c ∈ p.calls, c.kind ≠ .fnf ∧ c.frame.streamID = id) ∨ ∃ c ∈ q.calls, c.frame.streamID = id)
    p.st

theorem Tables.later {p q p' q' : Peer} (h : Tables p q) (hp : ∀ c ∈ p.calls, c ∈ p'.calls)
    (hq : ∀ c ∈ q.calls, c ∈ q'.calls) (hg : p'.st.guest = p.st.guest) (hh : p'.st.host = p.st.host) :
    Tables p' q' := by
  have key := Entries.mono h (Q := fun id _ => (∃ c ∈ p'.calls, c.kind ≠ .fnf ∧ c.frame.streamID = id) ∨
    ∃ c ∈ q'.calls, c.frame.streamID = id) (by
      rintro id _ (⟨c, h1, h2⟩ | ⟨c, h1, h2⟩)
      · exact .inl ⟨c, hp c h1, h2⟩
      · exact .inr ⟨c, hq c h1, h2⟩)
  exact ⟨hg ▸ key.1, hh ▸ key.2⟩

theorem tables_put {y : Sys} (hy : ∀ s, Tables (y.peer s) (y.peer (other s))) (s : Side) (p' : Peer)
    (out : List Frame) (r : Bool) (hc : ∀ c ∈ (y.peer s).calls, c ∈ p'.calls)
    (h1 : Tables p' (y.peer (other s))) :
    ∀ t, Tables ((y.put s p' out r).peer t) ((y.put s p' out r).peer (other t)) := by
  intro t
  rcases eq_or_other s t with rfl | rfl
  · simp only [Sys.put, if_true, if_neg (other_ne t)]
    exact h1
  · simp only [Sys.put, other_other, if_true, if_neg (other_ne s)]
    have := hy (other s)
    rw [other_other] at this
    exact this.later (fun _ h => h) hc rfl rfl

theorem step_tables {y y' : Sys} {a : Peers.Act} (hg : Good y) (hy : ∀ s, Tables (y.peer s) (y.peer (other s)))
    (h : y.step a = some y') : ∀ s, Tables (y'.peer s) (y'.peer (other s)) := by
  cases a with
  | call s k d m =>
    simp only [Sys.step, Option.map_eq_some_iff] at h
    obtain ⟨p, h1, rfl⟩ := h
    unfold Peer.call at h1
    split at h1 <;> cases h1
    exact tables_put hy s _ _ _ (fun e he => List.mem_append_left _ he)
      ((hy s).later (fun e he => List.mem_append_left _ he) (fun _ h => h) rfl rfl)
  | subscribe s j =>
    simp only [Sys.step, Option.map_eq_some_iff] at h
    obtain ⟨c, h1, rfl⟩ := h
    have hcm := List.mem_of_getElem? h1
    have hreg : c.kind ≠ .fnf →
        Tables { y.peer s with st := registerStream (y.peer s).st c.frame.streamID c.obj } (y.peer (other s)) :=
      fun hk => Entries.registered (hy s) (.inl ⟨c, hcm, hk, rfl⟩)
    unfold Peer.subscribe
    cases hk : c.kind with
    | fnf => exact tables_put hy s _ _ _ (fun _ h => h) (hy s)
    | rr => exact tables_put hy s _ _ _ (fun _ h => h) (hreg (by rw [hk]; decide))
    | rs => exact tables_put hy s _ _ _ (fun _ h => h) (hreg (by rw [hk]; decide))
    | rc => exact tables_put hy s _ _ _ (fun _ h => h) (hreg (by rw [hk]; decide))
  | start s j n =>
    simp only [Sys.step, Option.bind_eq_some_iff] at h
    obtain ⟨c, h1, h⟩ := h
    split at h <;> cases h
    exact tables_put hy s _ _ _ (fun _ h => h) (hy s)
  | own s j f =>
    simp only [Sys.step, Option.bind_eq_some_iff] at h
    obtain ⟨c, h1, h⟩ := h
    split at h <;> cases h
    exact tables_put hy s _ _ _ (fun _ h => h) (hy s)
  | recv s =>
    simp only [Sys.step, Option.bind_eq_some_iff, Option.map_eq_some_iff] at h
    obtain ⟨f, h1, p, h2, rfl⟩ := h
    unfold Peer.recv at h2
    split at h2
    · cases h2
    · cases h2; exact tables_put hy s _ _ _ (fun _ h => h) (hy s)
    · rename_i o ho
      cases h2
      refine tables_put hy s _ _ _ (fun _ h => h) ?_
      rcases request_or f with ⟨v, rfl⟩ | hq
      · have := (handle_request ho).1
        show Entries _ o.st
        rw [this]; exact hy s
      · show Entries _ o.st
        rcases handle_other hq ho with ⟨_, rfl⟩ | ⟨i, _, hd⟩
        · exact hy s
        · rcases (dispatch_shape hq hd).2.1 with h | h <;> rw [h]
          · exact hy s
          · exact Entries.removed (hy s) _
  | run s reg live i =>
    simp only [Sys.step, Option.map_eq_some_iff] at h
    obtain ⟨⟨p, out⟩, h1, rfl⟩ := h
    unfold Peer.run at h1
    split at h1
    · cases h1
    · rename_i t ht
      split at h1
      · cases h1
      · cases h1
      · rename_i o ho
        cases h1
        refine tables_put hy s _ _ _ (fun _ h => h) ?_
        show Entries _ o.st
        cases t with
        | request k id d m n =>
          obtain ⟨c, hc, hcm⟩ := (hg.joint s).tasks _ _ _ _ _ (List.mem_of_getElem? ht)
          have hnew : ∀ x : List Obj, Entries (fun id _ =>
              (∃ c ∈ (y.peer s).calls, c.kind ≠ .fnf ∧ c.frame.streamID = id) ∨
                ∃ c ∈ (y.peer (other s)).calls, c.frame.streamID = id)
              (registerStream { (y.peer s).st with objs := x } id (y.peer s).st.objs.length) :=
            fun x => Entries.registered (st := { (y.peer s).st with objs := x }) ⟨(hy s).1, (hy s).2⟩
              (.inr ⟨c, hc, hcm.2.1⟩)
          simp only [runTask, handleRequest] at ho
          split at ho
          · cases ho; exact hy s
          · cases hu : getU32 m with
            | err e => rw [hu] at ho; cases ho
            | panic => rw [hu] at ho; cases ho
            | ok op =>
              rw [hu] at ho
              simp only [Res.ok_bind] at ho
              split at ho <;> cases ho
              · exact hy s
              · cases k
                · exact hy s
                · exact hnew _
                · exact hnew _
                · exact hnew _
        | attach i n =>
          simp only [runTask] at ho
          split at ho <;> cases ho
          exact ⟨(hy s).1, (hy s).2⟩
        | demand i n =>
          simp only [runTask] at ho
          split at ho
          · cases ho
          · split at ho <;> cases ho
            exact hy s
  | answer s i r =>
    simp only [Sys.step, Option.map_eq_some_iff] at h
    obtain ⟨⟨p, out⟩, h1, rfl⟩ := h
    unfold Peer.answer at h1
    split at h1
    · cases h1
    · split at h1 <;> cases h1
      exact tables_put hy s _ _ _ (fun _ h => h) (hy s)
  | emit s i f =>
    simp only [Sys.step, Option.bind_eq_some_iff] at h
    obtain ⟨j, h1, h⟩ := h
    split at h <;> cases h
    exact tables_put hy s _ _ _ (fun _ h => h) (hy s)

theorem reach_tables {y : Sys} (h : Reach y) (hb : Bounded y) : ∀ s, Tables (y.peer s) (y.peer (other s)) := by
  induction h with
  | init => intro s; exact ⟨by simp [Sys.init, Peer.init, State.init], by simp [Sys.init, Peer.init, State.init]⟩
  | step a hr hs ih =>
    have hb0 : Bounded _ := fun s => Nat.le_trans (calls_grow hs s) (hb s)
    exact step_tables (reach_good hr hb0) (ih hb0) hs

/-- **C134** is false with other calls: whatever two peers did before, when one of them makes a
fire-and-forget call of an operation the other does not have, the other answers with an ERROR frame (nobody
waits for it), and that frame ends the connection of the caller with all its calls. -/
theorem refused_fire_and_forget_ends_connection_refuted {y : Sys} (h : Reach y) (hb : Bounded y) (s : Side)
    (c : Peers.Call) (hc : c ∈ (y.peer s).calls) (hk : c.kind = .fnf) (reg : Reg Unit) (hs : Small reg)
    (hu : ¬ Known reg c.frame.metadata) :
    (∀ st live n, ∃ msg, runTask reg live st
      (.request .fnf c.frame.streamID c.frame.data c.frame.metadata n) =
        .ok ⟨st, [], [.sent (errorFrame c.frame.streamID msg)]⟩) ∧
    ∀ msg, handleFrame (H := Unit) (y.peer s).st (errorFrame c.frame.streamID msg) = .err notFound := by
  constructor
  · intro st live n
    rcases handle_cases reg hs live st .fnf (.inr rfl) c.frame.streamID c.frame.data c.frame.metadata n with
      ⟨msg, h1, _⟩ | ⟨_, h2⟩
    · exact ⟨msg, h1⟩
    · exfalso
      apply hu
      unfold react at h2
      split at h2
      · cases h2
      · rename_i i hi
        split at h2
        · cases h2
        · rename_i u hr
          exact ⟨i, hi, (List.getElem?_eq_some_iff.mp hr).1⟩
  · intro msg
    have hg := reach_good h hb
    have hn : getStream (y.peer s).st c.frame.streamID = none := by
      cases hx : getStream (y.peer s).st c.frame.streamID with
      | none => rfl
      | some i =>
        rcases Entries.lookup (reach_tables h hb s) hx with ⟨e, h1, h2, h3⟩ | ⟨e, h1, h2⟩
        · have := ids_unique (hg.loc s) (hb s) h1 hc h3
          subst this; exact absurd hk h2
        · exact absurd h2.symm (ids_disjoint (hg.loc s) (hg.loc (other s)) hc h1)
    simp only [handleFrame, errorFrame, Frame.type, Frame.streamID, hn]
    rfl

/-- **C135** is false when a result is subscribed to twice: the request is sent twice, the handler runs twice
and the stream of the call is given two results. -/
theorem second_subscription_sends_again_refuted : ∃ (acts : List Peers.Act) (y : Sys) (c : Peers.Call),
    runActs Sys.init acts = some y ∧ Bounded y ∧ (y.peer .client).calls = [c] ∧ c.kind = .rr ∧
      results c.obj (y.peer .client).log = 2 ∧ (y.peer .server).log.length = 2 :=
  ⟨[.call .client .rr [1] md0, .subscribe .client 0, .subscribe .client 0, .recv .server, .recv .server,
    .run .server reg1 true 0, .run .server reg1 true 0, .answer .server 0 (.value [20] []),
    .answer .server 0 (.value [21] []), .recv .client, .recv .client], _, _, rfl,
    by intro s; cases s <;> decide, rfl, rfl, rfl, rfl⟩

/-! ### Cases -/

/-- One request-response and one fire-and-forget handler. -/
def reg2 : Reg Unit := exportOp reg1 .fnf ⟨[1], [2]⟩ ()

/-- Runs given by their steps. -/
theorem runActs_polite {regs : Side → Reg Unit} {subs : Side → List Nat} {y y' : Sys} {as : List Peers.Act}
    (hp : Polite regs subs y) (h : runActs y as = some y')
    (ha : ∀ (n : Nat) (a : Peers.Act), as[n]? = some a → Allowed regs ((as.take n).foldl note subs) a) :
    Polite regs (as.foldl note subs) y' := by
  induction as generalizing y subs with
  | nil => cases h; exact hp
  | cons a as ih =>
    simp only [runActs, Option.bind_eq_some_iff] at h
    obtain ⟨y1, h1, h2⟩ := h
    exact ih (.step a hp (ha 0 a rfl) h1) h2 fun n b hn => ha (n + 1) b hn

/-- Two calls of each kind, one of them refused, in both directions. -/
def simple : List Peers.Act :=
  [.call .client .rr [1] md0, .call .client .fnf [2] md0, .call .server .rr [3] [], .subscribe .client 0,
   .subscribe .client 1, .subscribe .server 0, .recv .server, .recv .server, .recv .client,
   .run .server reg2 true 1, .run .client reg2 true 0, .run .server reg2 true 0,
   .answer .server 1 (.value [20] []), .recv .client, .recv .server]

example : ∃ y subs, Polite (fun _ => reg2) subs y ∧ Bounded y ∧ subs .client = [0, 1] ∧
    y.wire .client = [] ∧ y.wire .server = [] ∧ (y.peer .server).tasks = [] ∧
    results 0 (y.peer .client).log = 1 ∧ handlers 3 (y.peer .server).jobs = 1 := by
  refine ⟨_, _, runActs_polite (as := simple) .init rfl ?_, by intro s; cases s <;> decide, rfl, rfl, rfl, rfl, rfl, rfl⟩
  intro n a hn
  match n, hn with
  | 0, hn => cases hn; exact .inl rfl
  | 1, hn => cases hn; exact .inr ⟨rfl, 0, rfl, by decide⟩
  | 2, hn => cases hn; exact .inl rfl
  | 3, hn => cases hn; exact List.not_mem_nil
  | 4, hn => cases hn; show 1 ∉ [0]; decide
  | 5, hn => cases hn; exact List.not_mem_nil
  | 6, hn => cases hn; trivial
  | 7, hn => cases hn; trivial
  | 8, hn => cases hn; trivial
  | 9, hn => cases hn; rfl
  | 10, hn => cases hn; rfl
  | 11, hn => cases hn; rfl
  | 12, hn => cases hn; trivial
  | 13, hn => cases hn; trivial
  | 14, hn => cases hn; trivial
  | n + 15, hn => cases hn

/-- A connection with a request-response call under way when a fire-and-forget call is refused: the
hypotheses of the negative theorem, and what is lost. -/
example : ∃ y, runActs Sys.init [.call .client .rr [1] md0, .subscribe .client 0, .call .client .fnf [2] md0,
      .subscribe .client 1, .recv .server, .recv .server, .run .server reg1 true 1] = some y ∧ Bounded y ∧
    (y.peer .client).calls.map (·.kind) = [.rr, .fnf] ∧ ¬ Known reg1 md0 ∧
    (∃ f, (y.wire .server).head? = some f ∧ handleFrame (H := Unit) (y.peer .client).st f = .err notFound) ∧
    results 0 (y.peer .client).log = 0 := by
  refine ⟨_, rfl, by intro s; cases s <;> decide, rfl, ?_, ⟨_, rfl, rfl⟩, rfl⟩
  rintro ⟨i, _, h⟩
  exact absurd h (Nat.not_lt_zero i)

end Iota.Props.Polite
