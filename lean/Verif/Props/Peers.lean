import Verif.Model.Peers
import Verif.Props.Handler
import Verif.Props.StreamId

/-! # Responses reach their own callers (C42) -/

namespace Iota.Props.Peers
open Iota.Go Iota.Frames Iota.Registry Iota.Handler Iota.Peers Iota.Props.Handler
open Iota.StreamId (Side)
open Iota.Props.StreamId (idOf idOf_inj finish_id finish_server_none)

/-! ## Invariant -/

/-- A request carries what a call asked for. -/
def Matches (c : Call) (k : Kind) (id : UInt32) (data metadata : Bytes) : Prop :=
  c.kind = k ∧ c.frame.streamID = id ∧ c.frame.data = data ∧ c.frame.metadata = metadata

/-- The result a frame carries. -/
def Carries : Frame → Result → Prop
  | .payload f, r => r = .value f.data f.metadata
  | .error f, r => r = .failure f.data
  | _, _ => False

/-- Where a frame sent by `p` to `q` comes from. -/
def Origin (p q : Peer) (f : Frame) : Prop :=
  (∃ v k, f = .request v ∧ kindOf v.frameType = some k ∧
      ∃ c ∈ p.calls, Matches c k v.streamID v.data v.metadata) ∨
  (isRequest f = false ∧
    ((∃ c ∈ p.calls, c.kind ≠ .rr ∧ c.frame.streamID = f.streamID) ∨
     (∃ c ∈ q.calls, c.kind ≠ .rr ∧ c.frame.streamID = f.streamID) ∨
     (∃ c ∈ q.calls, c.frame.streamID = f.streamID ∧
       ∀ r, Carries f r → .produced c.frame.streamID c.frame.data c.frame.metadata r ∈ p.log)))

/-- What holds of one peer on its own. -/
structure Local (s : Side) (p : Peer) : Prop where
  counter : p.counter.toNat = p.calls.length
  ids : ∀ (j : Nat) (c : Call), p.calls[j]? = some c → c.frame.streamID.toNat = idOf s (j + 1)
  objs : ∀ c ∈ p.calls, c.obj < p.st.objs.length
  distinct : ∀ (i j : Nat) (c d : Call), p.calls[i]? = some c → p.calls[j]? = some d → c.obj = d.obj → i = j
  frames : ∀ c ∈ p.calls, kindOf c.frame.frameType = some c.kind
  logged : ∀ i r, .delivered i r ∈ p.log → i < p.st.objs.length
  entries : Entries (fun id i => i < p.st.objs.length ∧ ∀ c ∈ p.calls, c.obj = i → c.frame.streamID = id) p.st

/-- What holds of a peer with respect to the other. -/
structure Joint (p q : Peer) : Prop where
  tasks : ∀ k id d m n, .request k id d m n ∈ p.tasks → ∃ c ∈ q.calls, Matches c k id d m
  jobs : ∀ j ∈ p.jobs, ∃ c ∈ q.calls, Matches c j.kind j.id j.data j.metadata
  log : ∀ i r, .delivered i r ∈ p.log → ∀ c ∈ p.calls, c.obj = i → c.kind = .rr →
    .produced c.frame.streamID c.frame.data c.frame.metadata r ∈ q.log

structure Good (y : Sys) : Prop where
  loc : ∀ s, Local s (y.peer s)
  joint : ∀ s, Joint (y.peer s) (y.peer (other s))
  wire : ∀ s, ∀ f ∈ y.wire s, Origin (y.peer s) (y.peer (other s)) f

/-- Neither peer made more than `2^30` calls. -/
def Bounded (y : Sys) : Prop := ∀ s, (y.peer s).calls.length ≤ 2 ^ 30

theorem other_ne (s : Side) : other s ≠ s := by cases s <;> decide
theorem other_other (s : Side) : other (other s) = s := by cases s <;> rfl
theorem eq_or_other (s t : Side) : t = s ∨ t = other s := by cases s <;> cases t <;> decide

/-! ## Ids -/

theorem ids_unique {s : Side} {p : Peer} (h : Local s p) (hb : p.calls.length ≤ 2 ^ 30) {c d : Call}
    (hc : c ∈ p.calls) (hd : d ∈ p.calls) (he : c.frame.streamID = d.frame.streamID) : c = d := by
  obtain ⟨i, hi⟩ := List.mem_iff_getElem?.mp hc
  obtain ⟨j, hj⟩ := List.mem_iff_getElem?.mp hd
  have h1 := h.ids i c hi
  have h2 := h.ids j d hj
  rw [he, h2] at h1
  obtain ⟨li, _⟩ := List.getElem?_eq_some_iff.mp hi
  obtain ⟨lj, _⟩ := List.getElem?_eq_some_iff.mp hj
  have := idOf_inj (by omega) (by omega) (by omega) (by omega) h1
  have : i = j := by omega
  subst this
  rw [hi] at hj; cases hj; rfl

theorem ids_disjoint {s : Side} {p q : Peer} (hp : Local s p) (hq : Local (other s) q) {c d : Call}
    (hc : c ∈ p.calls) (hd : d ∈ q.calls) : c.frame.streamID ≠ d.frame.streamID := by
  intro he
  obtain ⟨i, hi⟩ := List.mem_iff_getElem?.mp hc
  obtain ⟨j, hj⟩ := List.mem_iff_getElem?.mp hd
  have h1 := hp.ids i c hi
  have h2 := hq.ids j d hj
  rw [he, h2] at h1
  cases s <;> simp only [other, idOf] at h1 <;> omega

theorem next_id {s : Side} {p : Peer} (h : p.counter.toNat = p.calls.length) (hb : p.calls.length + 1 ≤ 2 ^ 30)
    {c : UInt64} {id : UInt32} {b : Bool} (hn : StreamId.next s p.counter = some (c, id, b)) :
    c.toNat = p.calls.length + 1 ∧ id.toNat = idOf s (p.calls.length + 1) := by
  have hc : (p.counter + 1).toNat = p.calls.length + 1 := by
    rw [UInt64.toNat_add, h]
    have : (1 : UInt64).toNat = 1 := rfl
    rw [this]; omega
  unfold StreamId.next at hn
  cases hf : StreamId.finish s (p.counter + 1) with
  | some r =>
    rw [hf] at hn
    simp only [Option.some.injEq, Prod.mk.injEq] at hn
    obtain ⟨rfl, h2⟩ := hn
    have := finish_id hf
    rw [hc] at this
    rw [h2] at this
    exact ⟨hc, this⟩
  | none =>
    exfalso
    cases s with
    | server =>
      have := finish_server_none.mp hf
      rw [hc] at this; omega
    | client => exact Iota.Props.StreamId.finish_client_some _ hf

/-! ## Monotonicity -/

/-- `p'` is a later state of `p`. -/
structure Later (p p' : Peer) : Prop where
  calls : ∀ c ∈ p.calls, c ∈ p'.calls
  log : ∀ r ∈ p.log, r ∈ p'.log

theorem Later.rfl {p : Peer} : Later p p := ⟨fun _ h => h, fun _ h => h⟩

theorem Origin.later {p p' q q' : Peer} (hp : Later p p') (hq : Later q q') {f : Frame} (h : Origin p q f) :
    Origin p' q' f := by
  rcases h with ⟨v, k, h1, h2, c, h3, h4⟩ | ⟨h1, h2⟩
  · exact .inl ⟨v, k, h1, h2, c, hp.calls c h3, h4⟩
  · refine .inr ⟨h1, ?_⟩
    rcases h2 with ⟨c, h2, h3⟩ | ⟨c, h2, h3⟩ | ⟨c, h2, h3, h4⟩
    · exact .inl ⟨c, hp.calls c h2, h3⟩
    · exact .inr (.inl ⟨c, hq.calls c h2, h3⟩)
    · exact .inr (.inr ⟨c, hq.calls c h2, h3, fun r hr => hp.log _ (h4 r hr)⟩)

/-- The other peer goes on. -/
theorem Joint.later {p q q' : Peer} (hq : Later q q') (h : Joint p q) : Joint p q' := by
  refine ⟨?_, ?_, ?_⟩
  · intro k id d m n ht
    obtain ⟨c, h1, h2⟩ := h.tasks k id d m n ht
    exact ⟨c, hq.calls c h1, h2⟩
  · intro j hj
    obtain ⟨c, h1, h2⟩ := h.jobs j hj
    exact ⟨c, hq.calls c h1, h2⟩
  · intro i r hr c hc h1 h2
    exact hq.log _ (h.log i r hr c hc h1 h2)

/-- A step of side `s` that keeps the local and joint parts keeps everything. -/
theorem good_put {y : Sys} (hg : Good y) (s : Side) (p' : Peer) (out : List Frame) (r : Bool)
    (hl : Later (y.peer s) p') (hloc : Local s p') (hj : Joint p' (y.peer (other s)))
    (ho : ∀ f ∈ out, Origin p' (y.peer (other s)) f) : Good (y.put s p' out r) := by
  refine ⟨?_, ?_, ?_⟩
  · intro t
    simp only [Sys.put]
    split
    · rename_i h; subst h; exact hloc
    · exact hg.loc t
  · intro t
    simp only [Sys.put]
    rcases eq_or_other s t with rfl | rfl
    · rw [if_pos rfl, if_neg (other_ne t)]; exact hj
    · rw [if_neg (other_ne s), other_other, if_pos rfl]
      have := hg.joint (other s)
      rw [other_other] at this
      exact this.later hl
  · intro t f hf
    simp only [Sys.put] at hf ⊢
    rcases eq_or_other s t with rfl | rfl
    · rw [if_pos rfl] at hf
      rw [if_pos rfl, if_neg (other_ne t)]
      rcases List.mem_append.mp hf with hf | hf
      · exact (hg.wire t f hf).later hl .rfl
      · exact ho f hf
    · rw [if_neg (other_ne s)] at hf
      rw [if_neg (other_ne s), other_other, if_pos rfl]
      have hf : f ∈ y.wire (other s) := by
        cases r
        · exact hf
        · exact List.mem_of_mem_tail hf
      have := hg.wire (other s) f hf
      rw [other_other] at this
      exact this.later .rfl hl

/-! ## Steps -/

theorem getElem?_snoc {α : Type} {l : List α} {a b : α} {j : Nat} (h : (l ++ [a])[j]? = some b) :
    (j < l.length ∧ l[j]? = some b) ∨ (j = l.length ∧ b = a) := by
  by_cases hj : j < l.length
  · rw [List.getElem?_append_left hj] at h; exact .inl ⟨hj, h⟩
  · rw [List.getElem?_append_right (by omega)] at h
    cases hd : j - l.length with
    | zero =>
      rw [hd] at h
      simp only [List.getElem?_cons_zero, Option.some.injEq] at h
      exact .inr ⟨by omega, h.symm⟩
    | succ n => rw [hd] at h; simp at h

theorem frame_id (k : Kind) (id : UInt32) (d m : Bytes) : (requestFrame k id d m).streamID = id := by
  cases k <;> rfl

theorem frame_kind (k : Kind) (id : UInt32) (d m : Bytes) : kindOf (requestFrame k id d m).frameType = some k := by
  cases k <;> rfl

theorem later_put {p p' : Peer} (h1 : p'.calls = p.calls) (h2 : p'.log = p.log) : Later p p' :=
  ⟨fun _ h => h1 ▸ h, fun _ h => h2 ▸ h⟩

theorem call_good {y : Sys} (hg : Good y) {s : Side} {k : Kind} {d m : Bytes} {p' : Peer}
    (hb : p'.calls.length ≤ 2 ^ 30) (h : (y.peer s).call s k d m = some p') : Good (y.put s p' [] false) := by
  have hl := hg.loc s
  have hj := hg.joint s
  unfold Peer.call at h
  split at h
  · cases h
  · rename_i c id b hn
    cases h
    simp only [List.length_append, List.length_cons, List.length_nil] at hb
    obtain ⟨h1, h2⟩ := next_id hl.counter hb hn
    refine good_put hg s _ [] false ⟨fun c hc => List.mem_append_left _ hc, fun _ h => h⟩ ?_ ?_ (by simp)
    · refine ⟨?_, ?_, ?_, ?_, ?_, ?_, ?_⟩
      · simp only [List.length_append, List.length_cons, List.length_nil]; exact h1
      · intro j c hc
        rcases getElem?_snoc hc with ⟨_, hc⟩ | ⟨rfl, rfl⟩
        · exact hl.ids j c hc
        · simp only [frame_id]; exact h2
      · intro c hc
        simp only [List.length_append, List.length_cons, List.length_nil]
        rcases List.mem_append.mp hc with hc | hc
        · exact Nat.lt_succ_of_lt (hl.objs c hc)
        · rw [List.mem_singleton] at hc; subst hc; simp only; omega
      · intro i j c e hc he heq
        rcases getElem?_snoc hc with ⟨li, hc⟩ | ⟨rfl, rfl⟩ <;> rcases getElem?_snoc he with ⟨lj, he⟩ | ⟨rfl, rfl⟩
        · exact hl.distinct i j c e hc he heq
        · have := hl.objs c (List.mem_of_getElem? hc)
          simp only at heq; omega
        · have := hl.objs e (List.mem_of_getElem? he)
          simp only at heq; omega
        · rfl
      · intro c hc
        rcases List.mem_append.mp hc with hc | hc
        · exact hl.frames c hc
        · rw [List.mem_singleton] at hc; subst hc; exact frame_kind k id d m
      · intro i r hr
        simp only [List.length_append, List.length_cons, List.length_nil]
        exact Nat.lt_succ_of_lt (hl.logged i r hr)
      · have key : ∀ id' i, (i < (y.peer s).st.objs.length ∧
            ∀ c ∈ (y.peer s).calls, c.obj = i → c.frame.streamID = id') →
            (i < ((y.peer s).st.objs ++ [streamOf k]).length ∧
              ∀ c ∈ (y.peer s).calls ++ [⟨k, requestFrame k id d m, (y.peer s).st.objs.length⟩],
                c.obj = i → c.frame.streamID = id') := by
          intro id' i ⟨h3, h4⟩
          refine ⟨by simp only [List.length_append, List.length_cons, List.length_nil]; omega, ?_⟩
          intro c hc hi
          rcases List.mem_append.mp hc with hc | hc
          · exact h4 c hc hi
          · rw [List.mem_singleton] at hc; subst hc; simp only at hi; omega
        exact ⟨fun e he => key _ _ (hl.entries.1 e he), fun e he => key _ _ (hl.entries.2 e he)⟩
    · refine ⟨hj.tasks, hj.jobs, ?_⟩
      intro i r hr c hc hi hk
      rcases List.mem_append.mp hc with hc | hc
      · exact hj.log i r hr c hc hi hk
      · rw [List.mem_singleton] at hc; subst hc
        have := hl.logged i r hr
        simp only at hi; omega

/-- Registering the stream of a call. -/
theorem register_local {s : Side} {p : Peer} (hl : Local s p) {c : Call} (hc : c ∈ p.calls) :
    Local s { p with st := registerStream p.st c.frame.streamID c.obj } := by
  have ho := registerStream_objs p.st c.frame.streamID c.obj
  refine ⟨hl.counter, hl.ids, ?_, hl.distinct, hl.frames, ?_, ?_⟩
  · intro e he; simp only [ho]; exact hl.objs e he
  · intro i r hr; simp only [ho]; exact hl.logged i r hr
  · simp only [ho]
    refine Entries.registered hl.entries ⟨hl.objs c hc, ?_⟩
    intro e he heq
    obtain ⟨i, hi⟩ := List.mem_iff_getElem?.mp hc
    obtain ⟨j, hj⟩ := List.mem_iff_getElem?.mp he
    have := hl.distinct j i e c hj hi heq
    subst this
    rw [hi] at hj; cases hj; rfl

theorem request_origin {s : Side} {p q : Peer} (hl : Local s p) {c : Call} (hc : c ∈ p.calls) (n : UInt32) :
    Origin p q (.request { c.frame with initialN := n }) :=
  .inl ⟨_, c.kind, rfl, hl.frames c hc, c, hc, rfl, rfl, rfl, rfl⟩

theorem subscribe_good {y : Sys} (hg : Good y) (s : Side) {c : Call} (hc : c ∈ (y.peer s).calls) :
    Good (y.put s ((y.peer s).subscribe c).1 ((y.peer s).subscribe c).2 false) := by
  have hl := hg.loc s
  have hj := hg.joint s
  have hf : ∀ (p : Peer), p.calls = (y.peer s).calls → p.log = (y.peer s).log →
      ∀ f ∈ [Frame.request c.frame], Origin p (y.peer (other s)) f := by
    intro p h1 h2 f hf
    rw [List.mem_singleton] at hf; subst hf
    exact (request_origin (q := y.peer (other s)) hl hc c.frame.initialN).later (later_put h1 h2) .rfl
  unfold Peer.subscribe
  split
  · exact good_put hg s _ _ false (later_put rfl rfl) (register_local hl hc) ⟨hj.tasks, hj.jobs, hj.log⟩
      (hf _ rfl rfl)
  · exact good_put hg s _ _ false .rfl hl hj (hf _ rfl rfl)
  · exact good_put hg s _ _ false (later_put rfl rfl) (register_local hl hc) ⟨hj.tasks, hj.jobs, hj.log⟩
      (by simp)
  · exact good_put hg s _ _ false (later_put rfl rfl) (register_local hl hc) ⟨hj.tasks, hj.jobs, hj.log⟩
      (by simp)

theorem mem_recOf {es : List (Ev Unit)} {i : Nat} {r : Result} (h : .delivered i r ∈ es.filterMap recOf) :
    (∃ d m, .next i d m ∈ es ∧ r = .value d m) ∨ ∃ m, .error i m ∈ es ∧ r = .failure m := by
  obtain ⟨e, he, h1⟩ := List.mem_filterMap.mp h
  cases e with
  | next j d m => cases h1; exact .inl ⟨d, m, he, rfl⟩
  | error j m => cases h1; exact .inr ⟨m, he, rfl⟩
  | _ => cases h1

/-- What a frame delivers is what it carries. -/
theorem dispatch_carries {st : State} {i : Nat} {f : Frame} {o : Out Unit} (hf : ∀ v, f ≠ .request v)
    (h : dispatch st (some i) f = .ok o) {j : Nat} {r : Result} (hm : .delivered j r ∈ o.evs.filterMap recOf) :
    j = i ∧ Carries f r := by
  have hm := mem_recOf hm
  cases f with
  | request v => exact absurd rfl (hf v)
  | requestN v =>
    simp only [dispatch] at h
    split at h
    · cases h
    · split at h <;> cases h
      rcases hm with ⟨_, _, h, _⟩ | ⟨_, h, _⟩ <;> cases h
  | cancel v =>
    simp only [dispatch] at h
    cases hd : deliver (H := Unit) st i (.complete i) with
    | ok e =>
      rw [hd] at h; cases h; cases deliver_ev hd
      simp at hm
    | err e => rw [hd] at h; cases h
    | panic => rw [hd] at h; cases h
  | payload v =>
    simp only [dispatch] at h
    cases hd : deliverIf (H := Unit) v.next st i (.next i v.data v.metadata) with
    | ok e =>
      rw [hd] at h; simp only [Res.ok_bind] at h
      have he : e = [] ∨ e = [.next i v.data v.metadata] := by
        unfold deliverIf at hd; split at hd
        · exact .inr (deliver_ev hd)
        · cases hd; exact .inl rfl
      cases hd' : deliverIf (H := Unit) v.complete st i (.complete i) with
      | ok e' =>
        rw [hd'] at h; cases h
        have he' : e' = [] ∨ e' = [.complete i] := by
          unfold deliverIf at hd'; split at hd'
          · exact .inr (deliver_ev hd')
          · cases hd'; exact .inl rfl
        rcases he with rfl | rfl <;> rcases he' with rfl | rfl <;> simp at hm
        · obtain ⟨d, m, h1, h2⟩ := hm; simp_all [Carries]
        · obtain ⟨d, m, h1, h2⟩ := hm; simp_all [Carries]
      | err e' => rw [hd'] at h; cases h
      | panic => rw [hd'] at h; cases h
    | err e => rw [hd] at h; cases h
    | panic => rw [hd] at h; cases h
  | error v =>
    simp only [dispatch] at h
    cases hd : deliver (H := Unit) st i (.error i v.data) with
    | ok e =>
      rw [hd] at h; simp only [Res.ok_bind] at h
      cases hd' : deliver (H := Unit) st i (.complete i) with
      | ok e' =>
        rw [hd'] at h; cases h; cases deliver_ev hd; cases deliver_ev hd'
        simp at hm
        obtain ⟨m, h1, h2⟩ := hm
        simp_all [Carries]
      | err e' => rw [hd'] at h; cases h
      | panic => rw [hd'] at h; cases h
    | err e => rw [hd] at h; cases h
    | panic => rw [hd] at h; cases h

theorem request_or (f : Frame) : (∃ v, f = .request v) ∨ ∀ v, f ≠ .request v := by
  cases f with
  | request v => exact .inl ⟨v, rfl⟩
  | _ => exact .inr (fun v h => nomatch h)

theorem recv_good {y : Sys} (hg : Good y) (hb : Bounded y) {s : Side} {f : Frame} {p' : Peer}
    (hf : f ∈ y.wire (other s)) (h : (y.peer s).recv f = some p') : Good (y.put s p' [] true) := by
  have hl := hg.loc s
  have hj := hg.joint s
  have hor := hg.wire (other s) f hf
  rw [other_other] at hor
  unfold Peer.recv at h
  split at h
  · cases h
  · cases h
    exact good_put hg s _ [] true .rfl hl hj (by simp)
  · rename_i o ho
    cases h
    rcases request_or f with ⟨v, rfl⟩ | hq
    · obtain ⟨h1, h2, h3⟩ := handle_request ho
      refine good_put hg s _ [] true ⟨fun _ h => h, fun _ h => List.mem_append_left _ h⟩ ?_ ?_ (by simp)
      · rw [h1, h2]
        simp only [List.filterMap_nil, List.append_nil]
        exact ⟨hl.counter, hl.ids, hl.objs, hl.distinct, hl.frames, hl.logged, hl.entries⟩
      · rw [h1, h2, h3]
        simp only [List.filterMap_nil, List.append_nil]
        refine ⟨?_, hj.jobs, hj.log⟩
        intro k id d m n ht
        rcases List.mem_append.mp ht with ht | ht
        · exact hj.tasks k id d m n ht
        · rcases hor with ⟨v', k', e1, e2, c, e3, e4⟩ | ⟨e1, _⟩
          · cases e1
            rw [e2] at ht
            simp only [Option.map_some, Option.toList_some, List.mem_singleton, Task.request.injEq] at ht
            obtain ⟨rfl, rfl, rfl, rfl, rfl⟩ := ht
            exact ⟨c, e3, e4⟩
          · cases e1
    · have hown := frame_acts_on_own_stream (y.peer s).st f hq o ho
      have hent : Entries (fun id i => i < (y.peer s).st.objs.length ∧
          ∀ c ∈ (y.peer s).calls, c.obj = i → c.frame.streamID = id) o.st := by
        rcases handle_other hq ho with ⟨_, rfl⟩ | ⟨i, _, hd⟩
        · exact hl.entries
        · rcases (dispatch_shape hq hd).2.1 with h | h <;> rw [h]
          · exact hl.entries
          · exact hl.entries.removed _
      have hdel : ∀ j r, .delivered j r ∈ o.evs.filterMap recOf →
          getStream (y.peer s).st f.streamID = some j ∧ Carries f r := by
        intro j r hm
        rcases handle_other hq ho with ⟨_, rfl⟩ | ⟨i, hi, hd⟩
        · simp at hm
        · obtain ⟨rfl, h2⟩ := dispatch_carries hq hd hm
          exact ⟨hi, h2⟩
      refine good_put hg s _ [] true ⟨fun _ h => h, fun _ h => List.mem_append_left _ h⟩ ?_ ?_ (by simp)
      · refine ⟨hl.counter, hl.ids, ?_, hl.distinct, hl.frames, ?_, ?_⟩
        · simp only [hown.2.1]; exact hl.objs
        · intro i r hr
          simp only [hown.2.1]
          rcases List.mem_append.mp hr with hr | hr
          · exact hl.logged i r hr
          · exact (hl.entries.lookup (hdel i r hr).1).1
        · simp only [hown.2.1]; exact hent
      · refine ⟨?_, hj.jobs, ?_⟩
        · intro k id d m n ht
          rcases List.mem_append.mp ht with ht | ht
          · exact hj.tasks k id d m n ht
          · obtain ⟨i, n', h1, _⟩ := hown.2.2.2 _ ht
            cases h1
        · intro i r hr c hc hi hk
          rcases List.mem_append.mp hr with hr | hr
          · exact hj.log i r hr c hc hi hk
          · obtain ⟨h1, h2⟩ := hdel i r hr
            have hid := (hl.entries.lookup h1).2 c hc hi
            rcases hor with ⟨v', k', e1, _⟩ | ⟨_, e2⟩
            · exact absurd e1 (hq v')
            · rcases e2 with ⟨c', e2, e3, e4⟩ | ⟨c', e2, e3, e4⟩ | ⟨c', e2, e3, e4⟩
              · exact absurd (hid.trans e4.symm) (ids_disjoint hl (hg.loc (other s)) hc e2)
              · have := ids_unique hl (hb s) hc e2 (hid.trans e4.symm)
                subst this; exact absurd hk e3
              · have := ids_unique hl (hb s) hc e2 (hid.trans e3.symm)
                subst this; exact e4 r h2

/-- Streams a peer makes for requests belong to no call. -/
theorem new_resp_local {s : Side} {p : Peer} (hl : Local s p) (o : Obj) (id : UInt32) (ts : List Task)
    (js : List Job) (lg : List Rec) (hlg : ∀ i r, .delivered i r ∈ lg → .delivered i r ∈ p.log) :
    Local s { p with
      st := registerStream { p.st with objs := p.st.objs ++ [o] } id p.st.objs.length
      tasks := ts, jobs := js, log := lg } := by
  have ho := registerStream_objs { p.st with objs := p.st.objs ++ [o] } id p.st.objs.length
  have hlen : (p.st.objs ++ [o]).length = p.st.objs.length + 1 := by simp
  refine ⟨hl.counter, hl.ids, ?_, hl.distinct, hl.frames, ?_, ?_⟩
  · intro c hc; simp only [ho, hlen]; exact Nat.lt_succ_of_lt (hl.objs c hc)
  · intro i r hr; simp only [ho, hlen]; exact Nat.lt_succ_of_lt (hl.logged i r (hlg i r hr))
  · simp only [ho, hlen]
    refine Entries.registered ?_ ⟨by omega, ?_⟩
    · have key : ∀ id' i, (i < p.st.objs.length ∧ ∀ c ∈ p.calls, c.obj = i → c.frame.streamID = id') →
          (i < p.st.objs.length + 1 ∧ ∀ c ∈ p.calls, c.obj = i → c.frame.streamID = id') :=
        fun _ _ h => ⟨Nat.lt_succ_of_lt h.1, h.2⟩
      exact ⟨fun e he => key _ _ (hl.entries.1 e he), fun e he => key _ _ (hl.entries.2 e he)⟩
    · intro c hc hi
      have := hl.objs c hc
      omega

theorem same_local {s : Side} {p : Peer} (hl : Local s p) (st : State) (hn : st.objs.length = p.st.objs.length)
    (hg : st.guest = p.st.guest) (hh : st.host = p.st.host) (ts : List Task)
    (js : List Job) (lg : List Rec) (hlg : ∀ i r, .delivered i r ∈ lg → .delivered i r ∈ p.log) :
    Local s { p with st := st, tasks := ts, jobs := js, log := lg } := by
  refine ⟨hl.counter, hl.ids, ?_, hl.distinct, hl.frames, ?_, ?_⟩
  · intro c hc; simp only [hn]; exact hl.objs c hc
  · intro i r hr; simp only [hn]; exact hl.logged i r (hlg i r hr)
  · simp only [hn]
    refine ⟨?_, ?_⟩
    · simp only [hg]; exact hl.entries.1
    · simp only [hh]; exact hl.entries.2

theorem run_good {y : Sys} (hg : Good y) {s : Side} {reg : Reg Unit} {live : Bool} {i : Nat} {p' : Peer}
    {out : List Frame} (h : (y.peer s).run reg live i = some (p', out)) : Good (y.put s p' out false) := by
  have hl := hg.loc s
  have hj := hg.joint s
  unfold Peer.run at h
  split at h
  · cases h
  · rename_i t ht
    have htm := List.mem_of_getElem? ht
    split at h
    · cases h
    · cases h
    · rename_i o ho
      have herase : ∀ k id d m n, .request k id d m n ∈ (y.peer s).tasks.eraseIdx i →
          ∃ c ∈ (y.peer (other s)).calls, Matches c k id d m :=
        fun k id d m n hm => hj.tasks k id d m n (List.mem_of_mem_eraseIdx hm)
      cases t with
      | attach j n =>
        simp only [runTask] at ho
        split at ho <;> cases ho
        cases h
        simp only [contents, List.filterMap_cons, List.filterMap_nil, jobOf, producedOf, sentOf, List.append_nil]
        refine good_put hg s _ [] false (later_put rfl rfl) ?_ ⟨herase, hj.jobs, hj.log⟩ (by simp)
        refine same_local hl _ ?_ ?_ ?_ _ _ _ ?_
        · simp only [List.length_modify]
        · rfl
        · rfl
        · exact fun _ _ h => h
      | demand j n =>
        simp only [runTask] at ho
        split at ho
        · cases ho
        split at ho <;> cases ho
        cases h
        simp only [contents, List.filterMap_cons, List.filterMap_nil, jobOf, producedOf, sentOf, List.append_nil]
        refine good_put hg s _ [] false (later_put rfl rfl) ?_ ⟨herase, hj.jobs, hj.log⟩ (by simp)
        exact same_local hl _ rfl rfl rfl _ _ _ (fun _ _ h => h)
      | request k id d m n =>
        obtain ⟨c, hc, hm⟩ := hj.tasks k id d m n htm
        have refused : ∀ (e : Bytes),
            o = ⟨(y.peer s).st, [], [.sent (errorFrame id e)]⟩ → Good (y.put s p' out false) := by
          intro e he
          subst he
          cases h
          simp only [contents, List.filterMap_cons, List.filterMap_nil, jobOf, producedOf, sentOf,
            List.append_nil, errorFrame]
          refine good_put hg s _ _ false ⟨fun _ h => h, fun _ h => List.mem_append_left _ h⟩ ?_
            ⟨herase, hj.jobs, ?_⟩ ?_
          · refine same_local hl _ rfl rfl rfl _ _ _ ?_
            intro i r hr
            rcases List.mem_append.mp hr with hr | hr
            · exact hr
            · rw [List.mem_singleton] at hr; cases hr
          · intro i r hr
            rcases List.mem_append.mp hr with hr | hr
            · exact hj.log i r hr
            · rw [List.mem_singleton] at hr; cases hr
          · intro f hf
            rw [List.mem_singleton] at hf; subst hf
            refine .inr ⟨rfl, .inr (.inr ⟨c, hc, hm.2.1, ?_⟩)⟩
            intro r hr
            have hr : r = .failure e := hr
            subst hr
            rw [hm.2.1, hm.2.2.1, hm.2.2.2]
            exact List.mem_append_right _ (by simp)
        simp only [runTask, handleRequest] at ho
        split at ho
        · cases ho; exact refused _ rfl
        · rename_i hlen
          obtain ⟨op, h3, _⟩ := index_long hlen
          rw [h3] at ho
          simp only [Res.ok_bind] at ho
          split at ho
          · cases ho; exact refused _ rfl
          · cases ho
            have hjobs : ∀ j ∈ (y.peer s).jobs ++ [⟨k, id, d, m⟩],
                ∃ c ∈ (y.peer (other s)).calls, Matches c j.kind j.id j.data j.metadata := by
              intro j hj'
              rcases List.mem_append.mp hj' with h | h
              · exact hj.jobs j h
              · rw [List.mem_singleton] at h; subst h; exact ⟨c, hc, hm⟩
            have htasks : ∀ (l : List Task), (∀ t ∈ l, ∃ a b, t = .attach a b) → ∀ k id d m n,
                .request k id d m n ∈ (y.peer s).tasks.eraseIdx i ++ l →
                ∃ c ∈ (y.peer (other s)).calls, Matches c k id d m := by
              intro l hl k id d m n h
              rcases List.mem_append.mp h with h | h
              · exact herase k id d m n h
              · obtain ⟨a, b, h⟩ := hl _ h; cases h
            cases k <;> cases h <;>
              simp only [accept, contents, List.filterMap_cons, List.filterMap_nil, jobOf, producedOf, sentOf,
                List.append_nil]
            · exact good_put hg s _ _ false (later_put rfl rfl) (same_local hl _ rfl rfl rfl _ _ _ (fun _ _ h => h))
                ⟨herase, hjobs, hj.log⟩ (by simp)
            · exact good_put hg s _ _ false (later_put rfl rfl) (new_resp_local hl _ _ _ _ _ (fun _ _ h => h))
                ⟨herase, hjobs, hj.log⟩ (by simp)
            · exact good_put hg s _ _ false (later_put rfl rfl) (new_resp_local hl _ _ _ _ _ (fun _ _ h => h))
                ⟨htasks _ (by simp), hjobs, hj.log⟩ (by simp)
            · exact good_put hg s _ _ false (later_put rfl rfl) (new_resp_local hl _ _ _ _ _ (fun _ _ h => h))
                ⟨htasks _ (by simp), hjobs, hj.log⟩ (by simp)

theorem answer_good {y : Sys} (hg : Good y) {s : Side} {i : Nat} {r : Result} {p' : Peer}
    {out : List Frame} (h : (y.peer s).answer i r = some (p', out)) : Good (y.put s p' out false) := by
  have hl := hg.loc s
  have hj := hg.joint s
  unfold Peer.answer at h
  split at h
  · cases h
  · rename_i j hji
    split at h
    · cases h
      obtain ⟨c, hc, hm⟩ := hj.jobs j (List.mem_of_getElem? hji)
      refine good_put hg s _ _ false ⟨fun _ h => h, fun _ h => List.mem_append_left _ h⟩ ?_ ⟨hj.tasks, ?_, ?_⟩ ?_
      · refine same_local hl _ rfl rfl rfl _ _ _ ?_
        intro i r hr
        rcases List.mem_append.mp hr with hr | hr
        · exact hr
        · rw [List.mem_singleton] at hr; cases hr
      · intro j' h'; exact hj.jobs j' (List.mem_of_mem_eraseIdx h')
      · intro i r hr
        rcases List.mem_append.mp hr with hr | hr
        · exact hj.log i r hr
        · rw [List.mem_singleton] at hr; cases hr
      · intro f hf
        rw [List.mem_singleton] at hf; subst hf
        have hid : (answerFrame j.id r).streamID = j.id := by cases r <;> rfl
        refine .inr ⟨by cases r <;> rfl, .inr (.inr ⟨c, hc, by rw [hid]; exact hm.2.1, ?_⟩)⟩
        intro r' hr'
        have : r' = r := by cases r <;> exact hr'
        subst this
        rw [hm.2.1, hm.2.2.1, hm.2.2.2]
        exact List.mem_append_right _ (by simp)
    · cases h

theorem step_good {y y' : Sys} {a : Peers.Act} (hg : Good y) (hb : Bounded y) (hb' : Bounded y')
    (h : y.step a = some y') : Good y' := by
  cases a with
  | call s k d m =>
    simp only [Sys.step, Option.map_eq_some_iff] at h
    obtain ⟨p, h1, rfl⟩ := h
    have := hb' s
    simp only [Sys.put, if_true] at this
    exact call_good hg this h1
  | subscribe s j =>
    simp only [Sys.step, Option.map_eq_some_iff] at h
    obtain ⟨c, h1, rfl⟩ := h
    exact subscribe_good hg s (List.mem_of_getElem? h1)
  | start s j n =>
    simp only [Sys.step, Option.bind_eq_some_iff] at h
    obtain ⟨c, h1, h⟩ := h
    split at h <;> cases h
    refine good_put hg s _ _ false .rfl (hg.loc s) (hg.joint s) ?_
    intro f hf
    rw [List.mem_singleton] at hf; subst hf
    exact request_origin (hg.loc s) (List.mem_of_getElem? h1) n
  | own s j f =>
    simp only [Sys.step, Option.bind_eq_some_iff] at h
    obtain ⟨c, h1, h⟩ := h
    split at h
    · rename_i hc
      cases h
      refine good_put hg s _ _ false .rfl (hg.loc s) (hg.joint s) ?_
      intro f' hf
      rw [List.mem_singleton] at hf; subst hf
      refine .inr ⟨hc.2.2, .inl ⟨c, List.mem_of_getElem? h1, ?_, hc.2.1.symm⟩⟩
      rcases hc.1 with h | h <;> rw [h] <;> decide
    · cases h
  | recv s =>
    simp only [Sys.step, Option.bind_eq_some_iff, Option.map_eq_some_iff] at h
    obtain ⟨f, h1, p, h2, rfl⟩ := h
    exact recv_good hg hb (List.mem_of_mem_head? h1) h2
  | run s reg live i =>
    simp only [Sys.step, Option.map_eq_some_iff] at h
    obtain ⟨⟨p, out⟩, h1, rfl⟩ := h
    exact run_good hg h1
  | answer s i r =>
    simp only [Sys.step, Option.map_eq_some_iff] at h
    obtain ⟨⟨p, out⟩, h1, rfl⟩ := h
    exact answer_good hg h1
  | emit s i f =>
    simp only [Sys.step, Option.bind_eq_some_iff] at h
    obtain ⟨j, h1, h⟩ := h
    split at h
    · rename_i hc
      cases h
      refine good_put hg s _ _ false .rfl (hg.loc s) (hg.joint s) ?_
      intro f' hf
      rw [List.mem_singleton] at hf; subst hf
      obtain ⟨c, h3, h4⟩ := (hg.joint s).jobs j (List.mem_of_getElem? h1)
      refine .inr ⟨hc.2.2, .inr (.inl ⟨c, h3, ?_, h4.2.1.trans hc.2.1.symm⟩)⟩
      rw [h4.1]
      rcases hc.1 with h | h <;> rw [h] <;> decide
    · cases h

theorem calls_grow {y y' : Sys} {a : Peers.Act} (h : y.step a = some y') (s : Side) :
    (y.peer s).calls.length ≤ (y'.peer s).calls.length := by
  have put : ∀ (t : Side) (p : Peer) (out : List Frame) (r : Bool),
      (y.peer t).calls.length ≤ p.calls.length → (y.peer s).calls.length ≤ ((y.put t p out r).peer s).calls.length := by
    intro t p out r hle
    simp only [Sys.put]
    split
    · rename_i h; subst h; exact hle
    · exact Nat.le_refl _
  cases a with
  | call t k d m =>
    simp only [Sys.step, Option.map_eq_some_iff] at h
    obtain ⟨p, h1, rfl⟩ := h
    apply put
    unfold Peer.call at h1
    split at h1 <;> cases h1
    simp
  | subscribe t j =>
    simp only [Sys.step, Option.map_eq_some_iff] at h
    obtain ⟨c, h1, rfl⟩ := h
    apply put
    unfold Peer.subscribe; split <;> exact Nat.le_refl _
  | start t j n =>
    simp only [Sys.step, Option.bind_eq_some_iff] at h
    obtain ⟨c, h1, h⟩ := h
    split at h <;> cases h
    exact put _ _ _ _ (Nat.le_refl _)
  | own t j f =>
    simp only [Sys.step, Option.bind_eq_some_iff] at h
    obtain ⟨c, h1, h⟩ := h
    split at h <;> cases h
    exact put _ _ _ _ (Nat.le_refl _)
  | recv t =>
    simp only [Sys.step, Option.bind_eq_some_iff, Option.map_eq_some_iff] at h
    obtain ⟨f, h1, p, h2, rfl⟩ := h
    apply put
    unfold Peer.recv at h2
    split at h2 <;> cases h2 <;> exact Nat.le_refl _
  | run t reg live i =>
    simp only [Sys.step, Option.map_eq_some_iff] at h
    obtain ⟨⟨p, out⟩, h1, rfl⟩ := h
    apply put
    unfold Peer.run at h1
    split at h1
    · cases h1
    · split at h1 <;> cases h1 <;> exact Nat.le_refl _
  | answer t i r =>
    simp only [Sys.step, Option.map_eq_some_iff] at h
    obtain ⟨⟨p, out⟩, h1, rfl⟩ := h
    apply put
    unfold Peer.answer at h1
    split at h1
    · cases h1
    · split at h1 <;> cases h1; exact Nat.le_refl _
  | emit t i f =>
    simp only [Sys.step, Option.bind_eq_some_iff] at h
    obtain ⟨j, h1, h⟩ := h
    split at h <;> cases h
    exact put _ _ _ _ (Nat.le_refl _)

theorem reach_good {y : Sys} (h : Reach y) (hb : Bounded y) : Good y := by
  induction h with
  | init =>
    have hl : ∀ s, Local s Peer.init := fun s =>
      ⟨rfl, by simp [Peer.init], by simp [Peer.init], by simp [Peer.init], by simp [Peer.init], by simp [Peer.init],
        by simp [Peer.init, State.init], by simp [Peer.init, State.init]⟩
    exact ⟨hl, fun s => ⟨by simp [Sys.init, Peer.init], by simp [Sys.init, Peer.init], by simp [Sys.init, Peer.init]⟩,
      by simp [Sys.init]⟩
  | step a _ hs ih =>
    have hb0 : Bounded _ := fun s => Nat.le_trans (calls_grow hs s) (hb s)
    exact step_good (ih hb0) hb0 hb hs

/-! ## C42 -/

/-- **C42** In every run of two peers, with any number of calls of all kinds in both directions and any
interleaving, whatever is delivered to the stream of a request-response call was produced by the other peer
for a request with the id, data and metadata of that very call — provided neither peer made more than `2^30`
calls (later ids are used again, see C08). -/
theorem responses_reach_own_callers_partial {y : Sys} (h : Reach y) (hb : Bounded y) (s : Side) (c : Peers.Call)
    (hc : c ∈ (y.peer s).calls) (hk : c.kind = .rr) (r : Result) (hd : .delivered c.obj r ∈ (y.peer s).log) :
    .produced c.frame.streamID c.frame.data c.frame.metadata r ∈ (y.peer (other s)).log :=
  ((reach_good h hb).joint s).log c.obj r hd c hc rfl hk

/-- **C42** No two calls of a connection share an id or a stream, so a result produced for the id of one call
is a result for that call and no other. -/
theorem calls_distinct {y : Sys} (h : Reach y) (hb : Bounded y) (s t : Side) (c d : Peers.Call)
    (hc : c ∈ (y.peer s).calls) (hd : d ∈ (y.peer t).calls) (he : c.frame.streamID = d.frame.streamID) :
    s = t ∧ c = d := by
  have hg := reach_good h hb
  rcases eq_or_other s t with rfl | rfl
  · exact ⟨rfl, ids_unique (hg.loc t) (hb t) hc hd he⟩
  · exact absurd he (ids_disjoint (hg.loc s) (hg.loc (other s)) hc hd)

/-! ### Cases -/

/-- A run given by its steps. -/
def runActs (y : Sys) : List Peers.Act → Option Sys
  | [] => some y
  | a :: as => (y.step a).bind fun y => runActs y as

theorem runActs_reach {y y' : Sys} {as : List Peers.Act} (hr : Reach y) (h : runActs y as = some y') : Reach y' := by
  induction as generalizing y with
  | nil => cases h; exact hr
  | cons a as ih =>
    simp only [runActs, Option.bind_eq_some_iff] at h
    obtain ⟨y1, h1, h2⟩ := h
    exact ih (.step a hr h1) h2

/-- One request-response handler. -/
def reg1 : Reg Unit := exportOp Reg.init .rr ⟨[1], [1]⟩ ()

/-- Metadata of a call to the handler at index 0. -/
def md0 : Bytes := [0, 0, 0, 0, 0, 0, 0, 0]

/-- Two concurrent calls of the client and one of the server (refused); the client's are answered in reverse
order. -/
def demo : List Peers.Act :=
  [.call .client .rr [1] md0, .call .client .rr [2] md0, .call .server .rr [3] [], .subscribe .client 0,
   .subscribe .client 1, .subscribe .server 0, .recv .server, .recv .server, .recv .client,
   .run .server reg1 true 1, .run .client reg1 true 0, .run .server reg1 true 0,
   .answer .server 0 (.value [20] []), .answer .server 0 (.failure [10]), .recv .client, .recv .client, .recv .server]

example : ∃ y, runActs Sys.init demo = some y ∧ Bounded y ∧
    (y.peer .client).calls.map (·.obj) = [0, 1] ∧
    (y.peer .client).log = [.produced 2 [3] [] (.failure (lit "Invalid metadata")),
      .delivered 1 (.value [20] []), .delivered 0 (.failure [10])] ∧
    (y.peer .server).log = [.produced 3 [2] md0 (.value [20] []), .produced 1 [1] md0 (.failure [10]),
      .delivered 0 (.failure (lit "Invalid metadata"))] :=
  ⟨_, rfl, by intro s; cases s <;> decide, by decide, rfl, rfl⟩

/-! ### Ids used again -/

/-- A client with `n` calls made and nothing else done. -/
structure Idle (n : Nat) (cs : List Peers.Call) (p : Peer) : Prop where
  eq : p = ⟨⟨List.replicate n .mono, ⟨[], 0⟩, ⟨[], 0⟩⟩, [], UInt64.ofNat n, cs, [], []⟩
  len : cs.length = n

/-- A state given by its four parts. -/
def sys (c v : Peer) (cw vw : List Frame) : Sys :=
  { peer := fun s => match s with | .client => c | .server => v
    wire := fun s => match s with | .client => cw | .server => vw }

theorem put_client (c v p : Peer) (cw vw out : List Frame) (r : Bool) :
    (sys c v cw vw).put .client p out r = sys p v (cw ++ out) (if r then vw.tail else vw) := by
  unfold Sys.put sys
  congr 1 <;> funext t <;> cases t <;> rfl

theorem put_server (c v p : Peer) (cw vw out : List Frame) (r : Bool) :
    (sys c v cw vw).put .server p out r = sys c p (if r then cw.tail else cw) (vw ++ out) := by
  unfold Sys.put sys
  congr 1 <;> funext t <;> cases t <;> rfl

theorem next_client {n : Nat} (hn : n < 2 ^ 40) :
    ∃ id b, StreamId.next .client (UInt64.ofNat n) = some (UInt64.ofNat (n + 1), id, b) ∧
      id.toNat = idOf .client (n + 1) := by
  have hc : UInt64.ofNat n + 1 = UInt64.ofNat (n + 1) := by
    apply UInt64.toNat_inj.mp
    rw [UInt64.toNat_add, UInt64.toNat_ofNat', UInt64.toNat_ofNat']
    have : (1 : UInt64).toNat = 1 := rfl
    rw [this]; omega
  have ht : (UInt64.ofNat (n + 1)).toNat = n + 1 := by rw [UInt64.toNat_ofNat']; omega
  unfold StreamId.next
  rw [hc]
  cases hf : StreamId.finish .client (UInt64.ofNat (n + 1)) with
  | none => exact absurd hf (Iota.Props.StreamId.finish_client_some _)
  | some r =>
    have := finish_id hf
    rw [ht] at this
    exact ⟨r.1, r.2, rfl, this⟩

/-- The client may make any number of calls; the first asks for something else than the others. -/
theorem many_calls (n : Nat) (hn : n < 2 ^ 40) : ∃ cs c0 c, Reach (sys c Peer.init [] []) ∧
    Idle (n + 1) (c0 :: cs) c ∧ c0 = ⟨.rr, requestFrame .rr 1 [1] md0, 0⟩ := by
  induction n with
  | zero =>
    refine ⟨[], _, _, ?_, ⟨rfl, rfl⟩, rfl⟩
    have : runActs Sys.init [.call .client .rr [1] md0] =
        some (Sys.init.put .client ⟨⟨[.mono], ⟨[], 0⟩, ⟨[], 0⟩⟩, [], 1,
          [⟨.rr, requestFrame .rr 1 [1] md0, 0⟩], [], []⟩ [] false) := rfl
    have hi : Sys.init = sys Peer.init Peer.init [] [] := by
      unfold Sys.init sys; congr 1 <;> funext t <;> cases t <;> rfl
    have h2 := runActs_reach .init this
    rw [hi, put_client] at h2
    exact h2
  | succ n ih =>
    obtain ⟨cs, c0, c, hr, hi, h0⟩ := ih (by omega)
    obtain ⟨id, b, h1, h2⟩ := next_client (n := n + 1) (by omega)
    refine ⟨cs ++ [⟨.rr, requestFrame .rr id [2] md0, n + 1⟩], c0, _, ?_, ⟨rfl, ?_⟩, h0⟩
    · refine .step (.call .client .rr [2] md0) hr ?_
      simp only [Sys.step, Option.map_eq_some_iff]
      refine ⟨⟨⟨List.replicate (n + 2) .mono, ⟨[], 0⟩, ⟨[], 0⟩⟩, [], UInt64.ofNat (n + 2),
        c0 :: (cs ++ [⟨.rr, requestFrame .rr id [2] md0, n + 1⟩]), [], []⟩, ?_, ?_⟩
      · show Peer.call c .client .rr [2] md0 = _
        rw [hi.eq]
        simp only [Peer.call, h1, List.length_replicate]
        rw [show streamOf .rr = .mono from rfl, ← List.replicate_succ']
        rfl
      · rw [put_client]; rfl
    · have := hi.len
      simp only [List.length_cons, List.length_append, List.length_nil] at this ⊢
      omega

/-- **C42** is false beyond `2^30` calls: the id of the first call is used again for another one, and while
the first is waiting for its answer, it gets the answer produced for the other call. -/
theorem responses_misrouted_refuted : ∃ (y : Sys) (c : Peers.Call) (r : Result), Reach y ∧
    c ∈ (y.peer .client).calls ∧ c.kind = .rr ∧ .delivered c.obj r ∈ (y.peer .client).log ∧
    .produced c.frame.streamID c.frame.data c.frame.metadata r ∉ (y.peer .server).log := by
  obtain ⟨cs, c0, c, hr, hi, h0⟩ := many_calls (2 ^ 30 - 1) (by omega)
  obtain ⟨id, b, h1, h2⟩ := next_client (n := 2 ^ 30) (by omega)
  have hid : id = 1 := by
    apply UInt32.toNat_inj.mp
    rw [h2]
    have : idOf .client (2 ^ 30 + 1) = 1 := by decide
    rw [this]; rfl
  subst hid
  have hlen := hi.len
  have e30 : 2 ^ 30 - 1 + 1 = 2 ^ 30 := by omega
  have hceq := hi.eq
  rw [e30] at hceq hlen
  generalize hN : (2 ^ 30 : Nat) = N at h1 hceq hlen
  have hpos : 0 < N := by omega
  clear hN e30 hi h2
  -- the last call
  have s1 : Reach (sys ⟨⟨List.replicate (N + 1) .mono, ⟨[], 0⟩, ⟨[], 0⟩⟩, [], UInt64.ofNat (N + 1),
      (c0 :: cs) ++ [⟨.rr, requestFrame .rr 1 [2] md0, N⟩], [], []⟩ Peer.init [] []) := by
    refine .step (.call .client .rr [2] md0) hr ?_
    simp only [Sys.step, Option.map_eq_some_iff]
    refine ⟨_, ?_, put_client _ _ _ _ _ _ _⟩
    show Peer.call c .client .rr [2] md0 = _
    rw [hceq]
    simp only [Peer.call, h1]
    simp [List.replicate_succ', streamOf]
  have hfirst : ((c0 :: cs) ++ [⟨.rr, requestFrame .rr 1 [2] md0, N⟩])[0]? = some c0 := by simp
  have hlast : ((c0 :: cs) ++ [⟨.rr, requestFrame .rr 1 [2] md0, N⟩])[N]? =
      some ⟨.rr, requestFrame .rr 1 [2] md0, N⟩ := by
    rw [List.getElem?_append_right (by omega), hlen]; simp
  generalize (c0 :: cs) ++ [⟨.rr, requestFrame .rr 1 [2] md0, N⟩] = calls at s1 hfirst hlast
  generalize UInt64.ofNat (N + 1) = ctr at s1
  subst h0
  have hobj : (List.replicate (N + 1) Obj.mono)[0]? = some .mono := by simp
  generalize List.replicate (N + 1) Obj.mono = objs at s1 hobj
  -- both subscribe
  have s2 : Reach (sys ⟨⟨objs, ⟨[(1, 0)], 1⟩, ⟨[], 0⟩⟩, [], ctr, calls, [], []⟩ Peer.init
      [.request (requestFrame .rr 1 [1] md0)] []) := Reach.step (.subscribe .client 0) s1 (by
    simp only [Sys.step, Option.map_eq_some_iff]
    exact ⟨_, hfirst, put_client _ _ _ _ _ _ _⟩)
  have s3 : Reach (sys ⟨⟨objs, ⟨[(1, 0), (1, N)], 1⟩, ⟨[], 0⟩⟩, [], ctr, calls, [], []⟩ Peer.init
      [.request (requestFrame .rr 1 [1] md0), .request (requestFrame .rr 1 [2] md0)] []) :=
    Reach.step (.subscribe .client N) s2 (by
    simp only [Sys.step, Option.map_eq_some_iff]
    refine ⟨_, hlast, (put_client _ _ _ _ _ _ _).trans ?_⟩
    have hsub : Peer.subscribe ⟨⟨objs, ⟨[(1, 0)], 1⟩, ⟨[], 0⟩⟩, [], ctr, calls, [], []⟩
        ⟨.rr, requestFrame .rr 1 [2] md0, N⟩ = (⟨⟨objs, ⟨[(1, 0), (1, N)], 1⟩, ⟨[], 0⟩⟩, [], ctr, calls, [], []⟩,
          [.request (requestFrame .rr 1 [2] md0)]) := by
      simp [Peer.subscribe, requestFrame, registerStream, Iota.Spec.Lookup.Sticky.add]
    simp only [sys, hsub]
    rfl)
  generalize hcl : (⟨⟨objs, ⟨[(1, 0), (1, N)], 1⟩, ⟨[], 0⟩⟩, [], ctr, calls, [], []⟩ : Peer) = client at s3
  -- the server reads both requests, handles and answers the second
  have s4 : Reach (sys client ⟨State.init, [.request .rr 1 [1] md0 1], 0, [], [], []⟩
      [.request (requestFrame .rr 1 [2] md0)] []) := Reach.step (.recv .server) s3 (by
    simp only [Sys.step, Option.bind_eq_some_iff, Option.map_eq_some_iff]
    exact ⟨_, rfl, _, rfl, put_server _ _ _ _ _ _ _⟩)
  have s5 : Reach (sys client ⟨State.init, [.request .rr 1 [1] md0 1, .request .rr 1 [2] md0 1], 0, [], [], []⟩
      [] []) := Reach.step (.recv .server) s4 (by
    simp only [Sys.step, Option.bind_eq_some_iff, Option.map_eq_some_iff]
    exact ⟨_, rfl, _, rfl, put_server _ _ _ _ _ _ _⟩)
  have s6 : Reach (sys client ⟨State.init, [.request .rr 1 [1] md0 1], 0, [], [⟨.rr, 1, [2], md0⟩], []⟩ [] []) :=
    Reach.step (.run .server reg1 true 1) s5 (by
    simp only [Sys.step, Option.map_eq_some_iff]
    exact ⟨_, rfl, put_server _ _ _ _ _ _ _⟩)
  have s7 : Reach (sys client ⟨State.init, [.request .rr 1 [1] md0 1], 0, [], [],
      [.produced 1 [2] md0 (.value [20] [])]⟩ [] [answerFrame 1 (.value [20] [])]) :=
    Reach.step (.answer .server 0 (.value [20] [])) s6 (by
    simp only [Sys.step, Option.map_eq_some_iff]
    exact ⟨_, rfl, put_server _ _ _ _ _ _ _⟩)
  -- the client reads the answer
  have hrecv : Peer.recv ⟨⟨objs, ⟨[(1, 0), (1, N)], 1⟩, ⟨[], 0⟩⟩, [], ctr, calls, [], []⟩
      (answerFrame 1 (.value [20] [])) =
      some ⟨removeStream ⟨objs, ⟨[(1, 0), (1, N)], 1⟩, ⟨[], 0⟩⟩ 1, [], ctr, calls, [],
        [.delivered 0 (.value [20] [])]⟩ := by
    have hg : getStream ⟨objs, ⟨[(1, 0), (1, N)], 1⟩, ⟨[], 0⟩⟩ 1 = some 0 := rfl
    simp only [Peer.recv, handleFrame, answerFrame, Frame.type, Frame.streamID, hg]
    rw [if_pos (by decide)]
    simp only [dispatch, deliverIf, deliver, hobj, Obj.hasSink, if_true, Res.ok_bind, Res.pure_eq]
    rfl
  subst hcl
  have s8 := Reach.step (.recv .client) s7 (by
    simp only [Sys.step, Option.bind_eq_some_iff, Option.map_eq_some_iff]
    exact ⟨_, rfl, _, hrecv, put_client _ _ _ _ _ _ _⟩)
  refine ⟨_, _, .value [20] [], s8, List.mem_of_getElem? hfirst, rfl, List.mem_singleton.mpr rfl, ?_⟩
  show Rec.produced 1 [1] md0 (.value [20] []) ∉ [Rec.produced 1 [2] md0 (.value [20] [])]
  decide

end Iota.Props.Peers
