import Verif.Props.Streamed
import Verif.Props.Leak

/-!
# Channels (C138, C140)

The input of a channel on its way to the handler: the counterpart of `Verif/Props/Streamed.lean` for the frames a
caller sends after its request. Then what is left of a channel when one of its two directions has ended.
-/

namespace Iota.Props.Channel
open Go Iota.Frames Iota.Registry Iota.Handler Iota.Spec.Lookup Iota.Props.Handler Iota.Spec.Caller Iota.Props.Caller Iota.Serve
open Iota.Props.Streamed
open Iota.Spec.Flux (Seen seenOf deliverMap Grammar wanted calls)
open Iota.Props.Flux (neverFails)

variable {H V E : Type}

/-! ## The stream of a request -/

/-- The stream at `i` is found under the id, and under no other. -/
structure Held (id : UInt32) (i : Nat) (st : State) : Prop where
  found : getStream st id = some i
  alone : Alone id i st

theorem Held.register {id : UInt32} {i : Nat} {st : State} (h : Held id i st) (id' : UInt32) (o : Obj) :
    Held id i (registerStream { st with objs := st.objs ++ [o] } id' st.objs.length) :=
  ⟨get_register_some (st := { st with objs := st.objs ++ [o] }) h.found, h.alone.register _ _⟩

theorem Held.modify {id : UInt32} {i : Nat} {st : State} (h : Held id i st) (j : Nat) (g : Obj → Obj) :
    Held id i { st with objs := st.objs.modify j g } := ⟨h.found, h.alone.modify _ _⟩

theorem Held.remove {id id' : UInt32} {i : Nat} {st : State} (h : Held id i st) (hne : id ≠ id') :
    Held id i (removeStream st id') := ⟨(getStream_remove st hne).trans h.found, h.alone.remove _⟩

theorem delivered {st : State} {i : Nat} {e : Ev H} {l : List (Ev H)} (h : Handler.deliver st i e = .ok l) : l = [e] := by
  unfold Handler.deliver at h
  split at h
  · cases h
  · split at h <;> cases h
    rfl

/-- A frame for the stream that is an answer, if it is handled at all, tells the stream what it means. -/
theorem answer_told {id : UInt32} {i : Nat} {st : State} (h : Held id i st) {f : Frame} (hid : f.streamID = id)
    (ha : answers f = true) {o : Out H} (ho : handleFrame st f = .ok o) :
    told i o.evs = meaning f ∧ o.tasks = [] ∧ (ends f = false → o.st = st) ∧ Alone id i o.st := by
  have ht : f.type ≥ tRequestN := by
    cases f with
    | request v => cases ha
    | _ => simp only [Frame.type]; decide
  unfold handleFrame at ho
  rw [if_pos ht, hid, h.found] at ho
  cases f with
  | request v => cases ha
  | requestN v => cases ha
  | cancel v =>
    simp only [dispatch] at ho
    cases hd : Handler.deliver (H := H) st i (.complete i) with
    | err e => rw [hd] at ho; cases ho
    | panic => rw [hd] at ho; cases ho
    | ok l =>
      rw [hd] at ho; cases ho
      rw [delivered hd]
      exact ⟨by simp [told, sigOf, meaning], rfl, (fun he => by cases he), h.alone.remove _⟩
  | error v =>
    simp only [dispatch] at ho
    cases hd : Handler.deliver (H := H) st i (.error i v.data) with
    | err e => rw [hd] at ho; cases ho
    | panic => rw [hd] at ho; cases ho
    | ok l =>
      rw [hd] at ho
      cases hd' : Handler.deliver (H := H) st i (.complete i) with
      | err e => rw [hd'] at ho; cases ho
      | panic => rw [hd'] at ho; cases ho
      | ok l' =>
        rw [hd'] at ho; cases ho
        rw [delivered hd, delivered hd']
        exact ⟨by simp [told, sigOf, meaning], rfl, (fun he => by cases he), h.alone.remove _⟩
  | payload v =>
    simp only [dispatch] at ho
    cases hd : deliverIf (H := H) v.next st i (.next i v.data v.metadata) with
    | err e => rw [hd] at ho; cases ho
    | panic => rw [hd] at ho; cases ho
    | ok l =>
      rw [hd] at ho
      cases hd' : deliverIf (H := H) v.complete st i (.complete i) with
      | err e => rw [hd'] at ho; cases ho
      | panic => rw [hd'] at ho; cases ho
      | ok l' =>
        rw [hd'] at ho; cases ho
        have e1 : told i l = if v.next then [.next v.data v.metadata] else [] := by
          unfold deliverIf at hd
          split at hd
          · rename_i hn; rw [delivered hd]; simp [told, sigOf, hn]
          · rename_i hn; cases hd; simp [told, hn]
        have e2 : told i l' = if v.complete then [.complete] else [] := by
          unfold deliverIf at hd'
          split at hd'
          · rename_i hn; rw [delivered hd']; simp [told, sigOf, hn]
          · rename_i hn; cases hd'; simp [told, hn]
        refine ⟨?_, rfl, ?_, ?_⟩
        · rw [meaning, ← e1, ← e2]
          simp [told, List.filterMap_append]
        · intro he
          have he : v.complete = false := he
          simp [he]
        · dsimp only
          split
          · exact h.alone.remove _
          · exact h.alone

/-- A step that is not the end of the stream keeps it, and tells it what the frame means, if it is one. -/
theorem held_step {reg : Reg H} {id : UInt32} {i : Nat} {c c' : Conn H} {a : Act} (ho : Held id i c.st)
    (hne : ∀ f, a = .recv f → f.streamID = id → ends f = false) (h : c.step reg a = .ok c') :
    Held id i c'.st ∧ told i c'.log = told i c.log ++ (answered id [a]).flatMap meaning := by
  by_cases hq : answered id [a] = []
  · obtain ⟨h1, h2⟩ := quiet_step ho.alone hq h
    refine ⟨⟨?_, h1⟩, by rw [h2, hq]; simp⟩
    cases a with
    | recv f =>
      simp only [Conn.step] at h
      cases hd : handleFrame (H := H) c.st f with
      | err e => rw [hd] at h; cases h
      | panic => rw [hd] at h; cases h
      | ok o =>
        rw [hd] at h; cases h
        simp only [Conn.after]
        by_cases hf : ∃ v, f = .request v
        · obtain ⟨v, rfl⟩ := hf
          rw [(handle_request hd).1]; exact ho.found
        · have hf : ∀ v, f ≠ .request v := fun v hv => hf ⟨v, hv⟩
          rcases handle_other hf hd with ⟨_, rfl⟩ | ⟨j, hj, hd⟩
          · exact ho.found
          · by_cases hid : f.streamID = id
            · cases f with
              | request v => exact absurd rfl (hf v)
              | requestN v =>
                simp only [dispatch] at hd
                split at hd
                · cases hd
                · split at hd <;> cases hd
                  exact ho.found
              | _ => simp [answered, arrived, hid, answers] at hq
            · obtain ⟨_, h2, _, _⟩ := dispatch_shape hf hd
              rcases h2 with h2 | h2 <;> rw [h2]
              · exact ho.found
              · exact (ho.remove (Ne.symm hid)).found
    | task j live =>
      simp only [Conn.step] at h
      split at h
      · cases h; exact ho.found
      · rename_i t ht
        cases hd : runTask reg live c.st t with
        | err e => rw [hd] at h; cases h
        | panic => rw [hd] at h; cases h
        | ok o =>
          rw [hd] at h; cases h
          simp only [Conn.after]
          cases t with
          | request k id' data md n =>
            simp only [runTask, handleRequest] at hd
            split at hd
            · cases hd; exact ho.found
            · rename_i hl
              obtain ⟨op, h3, _⟩ := index_long hl
              rw [h3] at hd
              simp only [Res.ok_bind] at hd
              split at hd
              · cases hd; exact ho.found
              · cases hd; cases k
                · exact ho.found
                · exact (ho.register _ _).found
                · exact (ho.register _ _).found
                · exact (ho.register _ _).found
          | attach j n =>
            simp only [runTask] at hd
            split at hd <;> cases hd
            exact ho.found
          | demand j n =>
            simp only [runTask] at hd
            split at hd
            · cases hd
            · split at hd <;> cases hd; exact ho.found
    | openMono id' => cases h; exact (ho.register _ _).found
    | openFlux id' b => cases h; exact (ho.register _ _).found
    | startIn j b => cases h; exact ho.found
    | openSink j => cases h; exact ho.found
  · cases hx : answered id [a] with
    | nil => exact absurd hx hq
    | cons f r =>
      obtain ⟨p, q, hpq, _, e3, hid, hf⟩ := split_last (xs := []) hx
      have he : a = .recv f ∧ q = [] := by
        cases p with
        | nil => simpa using hpq
        | cons y p => simp at hpq
      obtain ⟨rfl, rfl⟩ := he
      cases e3
      simp only [Conn.step] at h
      cases hd : handleFrame (H := H) c.st f with
      | err e => rw [hd] at h; cases h
      | panic => rw [hd] at h; cases h
      | ok o =>
        rw [hd] at h; cases h
        obtain ⟨h1, _, h3, _⟩ := answer_told ho hid hf hd
        refine ⟨by simp only [Conn.after]; rw [h3 (hne f rfl hid)]; exact ho, ?_⟩
        have h1 : o.evs.filterMap (sigOf i) = meaning f := h1
        rw [show answered id [] = [] from rfl, List.flatMap_cons, List.flatMap_nil, List.append_nil, ← h1]
        simp [Conn.after, told, List.filterMap_append]

theorem held_run {reg : Reg H} {id : UInt32} {i : Nat} {as : List Act} {c c' : Conn H} (ho : Held id i c.st)
    (hne : ∀ f ∈ answered id as, ends f = false) (h : Conn.run reg c as = .ok c') :
    Held id i c'.st ∧ told i c'.log = told i c.log ++ (answered id as).flatMap meaning := by
  induction as generalizing c with
  | nil => cases h; exact ⟨ho, by simp [answered, arrived]⟩
  | cons a as ih =>
    simp only [Conn.run] at h
    cases hs : c.step reg a with
    | err e => rw [hs] at h; cases h
    | panic => rw [hs] at h; cases h
    | ok c1 =>
      rw [hs] at h
      rw [answered_cons] at hne ⊢
      have h1 := held_step ho (fun f hf hid => by
        cases he : ends f with
        | false => rfl
        | true =>
          have := hne f (by subst hf; simp [answered, arrived, hid, ends_answers he])
          rw [he] at this; exact this) hs
      have h2 := ih h1.1 (fun f hf => hne f (List.mem_append_right _ hf)) h
      exact ⟨h2.1, by rw [h2.2, h1.2, List.flatMap_append, List.append_assoc]⟩

/-- What a stream has been told when the frames for it end with the first that ends it. -/
theorem held_whole {reg : Reg H} {id : UInt32} {i : Nat} {as : List Act} {c c' : Conn H} (ho : Held id i c.st)
    (h : Conn.run reg c as = .ok c') {xs t : List Frame} (hs : answered id as = xs ++ t)
    (hx : ∀ f ∈ xs, ends f = false) (ht : t = [] ∨ ∃ l, t = [l]) :
    told i c'.log = told i c.log ++ (xs ++ t).flatMap meaning := by
  rcases ht with rfl | ⟨l, rfl⟩
  · rw [List.append_nil] at hs ⊢
    rw [← hs] at hx ⊢
    exact (held_run ho hx h).2
  · obtain ⟨a1, a2, rfl, e1, e2, hid, hl⟩ := split_last hs
    obtain ⟨m, r1, r2⟩ := run_app h
    obtain ⟨hm, tm⟩ := held_run ho (by rw [e1]; exact hx) r1
    simp only [Conn.run] at r2
    cases hsr : m.step reg (.recv l) with
    | err e => rw [hsr] at r2; cases r2
    | panic => rw [hsr] at r2; cases r2
    | ok m' =>
      rw [hsr] at r2
      simp only [Conn.step] at hsr
      cases hd : handleFrame (H := H) m.st l with
      | err e => rw [hd] at hsr; cases hsr
      | panic => rw [hd] at hsr; cases hsr
      | ok o =>
        rw [hd] at hsr; cases hsr
        obtain ⟨h1, _, _, h4⟩ := answer_told hm hid hl hd
        rw [quiet_run (i := i) (c := m.after o) h4 e2 r2]
        have h1 : o.evs.filterMap (sigOf i) = meaning l := h1
        rw [e1] at tm
        have e : told i (m.after o).log = told i m.log ++ meaning l := by
          rw [← h1]; simp [Conn.after, told, List.filterMap_append]
        rw [e, tm]
        simp

/-- A goroutine that runs the handler of a stream or channel registers a new stream under the id of the request. -/
theorem served {reg : Reg H} {k : Kind} {id : UInt32} {data md data' md' : Bytes} {n : UInt32} {g : H} {j : Nat} {live : Bool}
    {c1 c2 : Conn H} (hw : Wf' c1.st) (hn : getStream c1.st id = none)
    (ht : c1.tasks[j]? = some (.request k id data md n)) (hk : k ≠ .rr) (h : c1.step reg (.task j live) = .ok c2)
    (hi : c2.log = c1.log ++ [.invoked k g id data' md']) :
    Held id c1.st.objs.length c2.st ∧ told c1.st.objs.length c2.log = told c1.st.objs.length c1.log ∧
      c2.st.objs = c1.st.objs ++ [.resp false false] ∧
      c2.tasks = c1.tasks.eraseIdx j ++ (if k = .fnf then [] else [.attach c1.st.objs.length n]) := by
  simp only [Conn.step, ht] at h
  cases hd : runTask reg live c1.st (.request k id data md n) with
  | err e => rw [hd] at h; cases h
  | panic => rw [hd] at h; cases h
  | ok o =>
    rw [hd] at h; cases h
    simp only [Conn.after] at hi ⊢
    have hi : o.evs = [.invoked k g id data' md'] := List.append_cancel_left hi
    have key : Held id c1.st.objs.length (registerStream { c1.st with objs := c1.st.objs ++ [.resp false false] } id c1.st.objs.length) := by
      refine ⟨get_register_none (st := { c1.st with objs := c1.st.objs ++ [.resp false false] }) _ hn, ?_, ?_⟩
      · rw [registerStream_objs]; simp
      · refine Entries.registered ?_ fun _ => rfl
        have := Entries.mono (Q := fun id' j => j = c1.st.objs.length → id' = id) hw fun id' j hj e => by omega
        exact entries_objs this _
    have ht : told c1.st.objs.length (c1.log ++ o.evs) = told c1.st.objs.length c1.log := by
      simp [told, List.filterMap_append, hi, sigOf]
    simp only [runTask, handleRequest] at hd
    split at hd
    · cases hd; simp at hi
    · rename_i hl
      obtain ⟨op, h3, _⟩ := index_long hl
      rw [h3] at hd
      simp only [Res.ok_bind] at hd
      split at hd
      · cases hd; simp at hi
      · cases hd
        cases k with
        | rr => exact absurd rfl hk
        | fnf => exact ⟨key, ht, registerStream_objs .., rfl⟩
        | rs => exact ⟨key, ht, registerStream_objs .., rfl⟩
        | rc => exact ⟨key, ht, registerStream_objs .., rfl⟩

/-! ## C138 -/

/-- What the sink of an input is given for something the subscriber on the other side saw: errors travel as their text. -/
def given (msg : E → Bytes) : Seen E Pay → Flux.Call Pay Bytes
  | .next p => .next p
  | .complete => .complete
  | .error e => .error (msg e)

/-- The end that follows every error makes no difference. -/
theorem given_calls {W : Type} (tx : Pay → Except Bytes W) (msg : E → Bytes) {l : List (Seen E Pay)} (h : Grammar l) :
    deliverMap tx (l.flatMap (callsOf msg)) = deliverMap tx (l.map (given msg)) := by
  obtain ⟨vs, t, rfl, ht⟩ := h
  induction vs with
  | nil => rcases ht with rfl | rfl | ⟨e, rfl⟩ <;> rfl
  | cons v vs ih =>
    rw [List.map_cons, List.cons_append, List.flatMap_cons, List.map_cons]
    simp only [callsOf, List.cons_append, List.nil_append, given, deliverMap]
    rw [ih]

/-- **C138** (part) The input of a channel from end to end. On the calling side the input is subscribed to as subscriber
`i`; its source and any number of goroutines act as they like. The frames of the connection go over the wire in any
order that keeps those of the channel in theirs, mixed with any other frames, flushed or not, cut into reads at will. On
the responding side, any execution in which the goroutine of a channel request runs its handler while nothing is
registered under the id, and in which the first `k` frames that come out of the decoder have been handled without error
or panic, those of the input after that goroutine. The flux given to the handler is subscribed to once and not
cancelled. Then the callbacks of that subscriber have seen a beginning of what the source of the input told its
subscriber up to its first end, values as `flux.Map` transforms them on both sides and errors as their text; and all of
it if all frames have been handled.

Missing: input that arrives before the handler has subscribed to it; `early_input_refuted`. Transforms that fail are
left out as in C136. -/
theorem channel_input_partial {W : Type} (msg : E → Bytes) (id : UInt32)
    -- the calling side
    (cfg : Flux.Cfg V E Pay) (xs : List V) (as : List (Flux.Action V E)) (s : Flux.State V E Pay)
    (hr : Flux.run cfg (Flux.init xs) as = some s) (i : Nat) (b : Flux.Subscriber E)
    (hb : s.subs[i]? = some b) (hserve : b.h = serve) (hnf : neverFails cfg.tx (calls i s.log) = true)
    -- the wire
    (sends : List (Frame × Bool)) (hl : ∀ p ∈ sends, Iota.Props.Frames.Legal p.1 ∧ p.1.size < 2 ^ 24)
    (hsent : (sends.map Prod.fst).filter (isAnswer id) = sent msg id i s.log)
    (w : Framing.Writer)
    (hw : Framing.runOps Iota.Props.Framing.newWriter (sends.flatMap (fun p => Framing.sendOps p.1 p.2) ++ [.flush]) = .ok w)
    (evs : List Framing.Ev) (hev : ∀ e ∈ evs, e.stalls ≤ 100) (final : Framing.IoErr) (n k : Nat) (hn : sends.length < n)
    -- the responding side
    (reg : Reg H) (before after : List Act) (j : Nat) (live : Bool) (c1 c2 c : Conn H) (data md data' md' : Bytes)
    (n0 : UInt32) (g : H)
    (h1 : Conn.run reg Conn.init before = .ok c1) (free : getStream c1.st id = none)
    (ht : c1.tasks[j]? = some (.request .rc id data md n0)) (hs : c1.step reg (.task j live) = .ok c2)
    (hi : c2.log = c1.log ++ [.invoked .rc g id data' md']) (h2 : Conn.run reg c2 after = .ok c)
    (hrecv : recvs (before ++ after) =
      ((Framing.recvAll n (Framing.newDecoder ⟨w.sent, evs, false, final⟩)).1.map Prod.fst).take k)
    (early : (recvs before).filter (isAnswer id) = [])
    -- the flux given to the handler
    (cfg' : Flux.Cfg Pay Bytes W) (xs' : List Pay) (as' : List (Flux.Action Pay Bytes)) (s' : Flux.State Pay Bytes W)
    (hr' : Flux.run cfg' (Flux.init xs') as' = some s') (b' : Flux.Subscriber Bytes) (hb' : s'.subs[0]? = some b')
    (hnf' : neverFails cfg'.tx (calls 0 s'.log) = true)
    (hfed : calls 0 s'.log = c.log.filterMap (fed c1.st.objs.length)) :
    (∃ m, Spec.Flux.seen 0 s'.log =
      (deliverMap cfg'.tx ((deliverMap cfg.tx (calls i s.log)).take m |>.map (given msg))).filter (wanted b'.h)) ∧
    (sends.length ≤ k →
      Spec.Flux.seen 0 s'.log = (deliverMap cfg'.tx ((deliverMap cfg.tx (calls i s.log)).map (given msg))).filter (wanted b'.h)) := by
  have hseen : Spec.Flux.seen i s.log = deliverMap cfg.tx (calls i s.log) := by
    rw [(Iota.Props.Flux.map_flux_partial cfg xs as s hr i b hb hnf).1, hserve]
    apply List.filter_eq_self.mpr
    intro y _; cases y <;> rfl
  have hgram : Grammar (deliverMap cfg.tx (calls i s.log)) := grammar_deliverMap _ _
  obtain ⟨w', e1, _, e2⟩ := Iota.Props.Framing.framing_roundtrip sends hl
  rw [hw] at e1; cases e1
  have hR := (e2 evs final n hev hn).1
  rw [hR] at hrecv
  have hin : answered id after = ((sends.map fun p => Iota.Props.Frames.received p.1).take k).filter (isAnswer id) := by
    rw [← hrecv, recvs_append, List.filter_append, early, List.nil_append, answered_recvs]
  have hall : (sends.map fun p => Iota.Props.Frames.received p.1).filter (isAnswer id) =
      (deliverMap cfg.tx (calls i s.log)).map (frameOf msg id) := by
    rw [← hseen, ← sent_seen, ← hsent, ← filter_received id (sends.map Prod.fst), List.map_map]; rfl
  obtain ⟨hheld, htold, _, _⟩ := served (wf_run wf_init h1) free ht (by decide) hs hi
  rw [untold_run (c := Conn.init) wf_init (fun _ _ => rfl) h1 _ (Nat.le_refl _)] at htold
  have key : ∀ l : List (Seen E Pay), Grammar l → answered id after = l.map (frameOf msg id) →
      Spec.Flux.seen 0 s'.log = (deliverMap cfg'.tx (l.map (given msg))).filter (wanted b'.h) := by
    intro l hg hs
    rw [(Iota.Props.Flux.map_flux_partial cfg' xs' as' s' hr' 0 b' hb' hnf').1, hfed, fed_told]
    have hg' := hg
    obtain ⟨vs, t, hl, ht⟩ := hg
    have := held_whole hheld h2 (xs := (vs.map Seen.next).map (frameOf msg id)) (t := t.map (frameOf msg id))
      (by rw [hs, hl, List.map_append])
      (by intro f hf; rw [List.map_map] at hf; obtain ⟨v, _, rfl⟩ := List.mem_map.mp hf; rfl)
      (by rcases ht with rfl | rfl | ⟨e, rfl⟩
          · exact .inl rfl
          · exact .inr ⟨_, rfl⟩
          · exact .inr ⟨_, rfl⟩)
    rw [this, htold, List.nil_append, ← List.map_append, ← hl, meaning_calls, given_calls cfg'.tx msg hg']
  constructor
  · obtain ⟨m, hm⟩ := filter_take (isAnswer id) (sends.map fun p => Iota.Props.Frames.received p.1) k
    exact ⟨m, key _ (grammar_take hgram m) (by rw [hin, hm, hall, List.map_take])⟩
  · intro hk
    refine key _ hgram ?_
    rw [hin, List.take_of_length_le (by simpa using hk), hall]

/-- What the caller of a channel sends: the request, its input, more demand for the output in between. -/
def sentIn : List (Frame × Bool) :=
  [(req 7 3 0, true), (.payload ⟨3, [], [7], false, false, true⟩, false), (.requestN ⟨3, 4⟩, true),
   (.payload ⟨3, [1], [8], false, false, true⟩, false), (.payload ⟨3, [], [], false, true, false⟩, true)]

/-- What the responder does after the goroutine of the request has called the handler. -/
def handledIn : List Act := [.openSink 0, .task 0 true, .recv (.payload ⟨3, [], [7], false, false, true⟩), .recv (.requestN ⟨3, 4⟩),
  .recv (.payload ⟨3, [1], [8], false, false, true⟩), .task 0 true, .recv (.payload ⟨3, [], [], false, true, false⟩)]

/-- The flux given to the handler: subscribed to, and its sink called. -/
def fedIn : List (Flux.Action Pay Bytes) :=
  [.subscribe 0 Iota.Props.Flux.all, .onSubscribe 0 0 true true, .ret 0, .signal 1 0 (.next ([7], [])), .ret 1,
   .signal 1 0 (.next ([8], [1])), .ret 1, .signal 1 0 .complete, .ret 1, .ret 1]

/-- The hypotheses of `channel_input_partial` are met. -/
example : ∃ s w c1 c2 c s', Flux.run (Iota.Props.Flux.plain true .user) (Flux.init []) emits = some s ∧
    (s.subs[0]?.map (·.h) = some serve) ∧ neverFails (V := Pay) (E := Bytes) (W := Pay) .ok (calls 0 s.log) = true ∧
    (sentIn.map Prod.fst).filter (isAnswer 3) = sent id 3 0 s.log ∧
    Framing.runOps Iota.Props.Framing.newWriter (sentIn.flatMap (fun p => Framing.sendOps p.1 p.2) ++ [.flush]) = .ok w ∧
    Conn.run reg4 Conn.init [.recv (req 7 3 0)] = .ok c1 ∧ getStream c1.st 3 = none ∧
    (∃ d m, c1.tasks[0]? = some (.request .rc 3 d m 3)) ∧ c1.step reg4 (.task 0 true) = .ok c2 ∧
    (∃ g d m, c2.log = c1.log ++ [.invoked .rc g 3 d m]) ∧ Conn.run reg4 c2 handledIn = .ok c ∧
    recvs ([.recv (req 7 3 0)] ++ handledIn) =
      ((Framing.recvAll 9 (Framing.newDecoder ⟨w.sent, [], false, .eof⟩)).1.map Prod.fst).take 5 ∧
    (recvs [.recv (req 7 3 0)]).filter (isAnswer 3) = [] ∧
    Flux.run (Iota.Props.Flux.plain true .user) (Flux.init []) fedIn = some s' ∧
    calls 0 s'.log = c.log.filterMap (fed c1.st.objs.length) ∧
    Spec.Flux.seen 0 s'.log = [.next ([7], []), .next ([8], [1]), .complete] := by
  obtain ⟨w, h1, _, h2⟩ := Iota.Props.Framing.framing_roundtrip sentIn (by decide)
  refine ⟨_, w, _, _, _, _, rfl, rfl, by decide, by decide, h1, rfl, rfl, ⟨_, _, rfl⟩, rfl, ⟨_, _, _, rfl⟩, rfl, ?_, rfl, rfl,
    by decide, by decide⟩
  rw [(h2 [] .eof 9 (by simp) (by decide)).1]
  rfl

/-- **C138** fails for input that comes early, as that of a flux that has its end at once does. On every connection and
for every channel request under an id that is not in use: when a frame of the input that means something arrives before the goroutine of
the request has run, the connection ends, and when it arrives after that but before the handler has subscribed to its
input, the process panics. -/
theorem early_input_refuted (reg : Reg H) (c : Conn H) (hw : Wf' c.st) (v : RequestPayload)
    (hk : v.frameType = tRequestChannel) (hn : getStream c.st v.streamID = none) (f : Frame)
    (hid : f.streamID = v.streamID) (hf : meaning f ≠ []) :
    Conn.run reg c [.recv (.request v), .recv f] = .err notFound ∧
    ∀ c2 g data md, Conn.run reg c [.recv (.request v), .task c.tasks.length true] = .ok c2 →
      c2.log = c.log ++ [.invoked .rc g v.streamID data md] → c2.step reg (.recv f) = .panic := by
  have ha : answers f = true := by
    cases ha : answers f with
    | true => rfl
    | false => exact absurd (meaning_silent ha) hf
  have ht : f.type ≥ tRequestN ∧ f.type ≠ tRequestN := by
    cases f with
    | request v => cases ha
    | requestN v => cases ha
    | _ => simp only [Frame.type]; decide
  have hr : c.step reg (.recv (.request v)) =
      .ok ⟨c.st, c.tasks ++ [.request .rc v.streamID v.data v.metadata v.initialN], c.log⟩ := by
    have t : ¬ (Frame.request v).type ≥ tRequestN := by simp only [Frame.type, hk]; decide
    have k : kindOf v.frameType = some .rc := by rw [hk]; decide
    simp only [Conn.step, handleFrame, if_neg t, dispatch, k]
    simp [Conn.after]
  constructor
  · simp only [Conn.run, hr, Res.ok_bind]
    simp [Conn.step, handleFrame, ht.1, ht.2, hid, hn]
  · intro c2 g data md h2 hi
    simp only [Conn.run, hr, Res.ok_bind] at h2
    have hc : (⟨c.st, c.tasks ++ [.request .rc v.streamID v.data v.metadata v.initialN], c.log⟩ : Conn H).step reg
        (.task c.tasks.length true) = .ok c2 := by
      cases hs : (⟨c.st, c.tasks ++ [.request .rc v.streamID v.data v.metadata v.initialN], c.log⟩ : Conn H).step reg
        (.task c.tasks.length true) with
      | err e => rw [hs] at h2; cases h2
      | panic => rw [hs] at h2; cases h2
      | ok c3 => rw [hs] at h2; cases h2; rfl
    have hgt : (c.tasks ++ [Task.request .rc v.streamID v.data v.metadata v.initialN])[c.tasks.length]? =
        some (.request .rc v.streamID v.data v.metadata v.initialN) := by simp
    obtain ⟨hh, _, hobj, _⟩ := served (c1 := ⟨c.st, c.tasks ++ [.request .rc v.streamID v.data v.metadata v.initialN], c.log⟩)
      hw hn hgt (by decide) hc hi
    have hob : c2.st.objs[c.st.objs.length]? = some (.resp false false) := by rw [hobj]; simp
    have hd : ∀ e : Ev H, Handler.deliver c2.st c.st.objs.length e = .panic := by
      intro e; unfold Handler.deliver; rw [hob]; rfl
    simp only [Conn.step, handleFrame, if_pos ht.1, hid, hh.found]
    cases f with
    | request v => cases ha
    | requestN v => cases ha
    | cancel v => simp [dispatch, hd]
    | error v => simp [dispatch, hd]
    | payload v =>
      cases hn : v.next with
      | true => simp [dispatch, deliverIf, hd, hn]
      | false =>
        cases hc : v.complete with
        | true => simp [dispatch, deliverIf, hd, hn, hc]
        | false => exact absurd (by simp [meaning, hn, hc]) hf

/-- A connection, a request and a handler to which it applies; the input fails at once. -/
example : ∃ c2 : Conn Nat, Conn.run reg4 Conn.init [.recv (req 7 3 0), .task 0 true] = .ok c2 ∧
    (∃ g d m, c2.log = [.invoked .rc g 3 d m]) ∧ meaning (.error ⟨3, 0, [6]⟩) ≠ [] := ⟨_, rfl, ⟨_, _, _, rfl⟩, by decide⟩

end Iota.Props.Channel
