import Verif.Spec.Net
import Verif.Props.Framing
import Verif.Props.PoliteFinish

/-! # Calls over a connection of bytes (C147) -/

namespace Iota.Props.Net
open Iota.Go Iota.Frames Iota.Registry Iota.Peers Iota.Net Iota.Framing Iota.Spec.Polite Iota.Spec.Net Iota.Spec.Framing
open Iota.Handler (Task kindOf handleFrame runTask handleRequest)
open Iota.Props.Frames (Legal received)
open Iota.Props.Framing Iota.Props.Peers Iota.Props.Polite Iota.Props.PoliteFinish
open Iota.Lemmas.Framing (WF rest Ready newDecoder_wf newDecoder_rest)
open Iota.StreamId (Side)

/-! ## One direction -/

/-- What a direction of the connection carries: the frames waiting to be handled and those in the bytes under way. -/
structure Dir (l : Link) (w : List Frame) : Prop where
  holds : ∃ fs gs, w = fs ++ gs ∧ l.queue = fs.map received ∧ rest l.scanner ++ l.underway = stream (gs.map image) ∧
    ∀ g ∈ gs, Legal g ∧ g.size < 2 ^ 24
  flushed : l.writer.pending = []
  carried : l.carried ≤ l.writer.sent.length
  wf : WF l.scanner
  noErr : l.scanner.err = none
  apart : l.scanner.rd.together = false

theorem dir_init : Dir Link.init [] := by
  refine ⟨⟨[], [], rfl, rfl, ?_, by simp⟩, rfl, Nat.le_refl _, ?_, rfl, rfl⟩
  · show rest (newDecoder _) ++ _ = _
    rw [newDecoder_rest]; rfl
  · exact newDecoder_wf _ (by simp)

/-- One `Send`. -/
theorem send_one {w : Writer} {f : Frame} (hp : w.pending = []) (hl : Legal f) (hs : f.size < 2 ^ 24) :
    runOps w (sendOps f true) = .ok ⟨[], w.sent ++ packet (image f)⟩ := by
  have e1 : (Op.len f).run w = .ok (w.write (beBytes 3 (image f).length)) := by
    simp [Op.run, lengthField_eq hl hs]
  have e2 : ∀ w : Writer, (Op.body f).run w = .ok (w.write (image f)) := by
    intro w; simp [Op.run, frameBytes_eq hl]
  have e3 : total ((w.write (beBytes 3 (image f).length)).write (image f)) = w.sent ++ packet (image f) := by
    rw [total_write, total_write, packet, List.append_assoc, total, hp, List.append_nil]
  simp only [sendOps, if_true, runOps, e1, Res.ok_bind, e2]
  simp only [Op.run, Res.ok_bind, Writer.flush]
  rw [← e3]; rfl

theorem runOps_append (w : Writer) (a b : List Op) : runOps w (a ++ b) = (runOps w a).bind fun w' => runOps w' b := by
  induction a generalizing w with
  | nil => rfl
  | cons o a ih =>
    simp only [List.cons_append, runOps]
    cases o.run w with
    | ok w' => exact ih w'
    | err m => rfl
    | panic => rfl

theorem send_all (fs : List Frame) : ∀ {w : Writer}, w.pending = [] → (∀ f ∈ fs, Legal f ∧ f.size < 2 ^ 24) →
    runOps w (fs.flatMap fun f => sendOps f true) = .ok ⟨[], w.sent ++ stream (fs.map image)⟩ := by
  induction fs with
  | nil => intro w hp _; cases w; cases hp; simp [runOps, stream]
  | cons f fs ih =>
    intro w hp hl
    obtain ⟨h1, h2⟩ := hl f (by simp)
    rw [List.flatMap_cons, runOps_append, send_one hp h1 h2]
    show runOps _ _ = _
    rw [ih rfl (fun g hg => hl g (by simp [hg]))]
    simp [stream, List.append_assoc]

theorem dir_send {l : Link} {w fs : List Frame} (h : Dir l w) (hl : ∀ f ∈ fs, Legal f ∧ f.size < 2 ^ 24) :
    ∃ l', l.send fs = some l' ∧ Dir l' (w ++ fs) ∧ l'.queue = l.queue ∧
      l'.underway = l.underway ++ stream (fs.map image) := by
  have h1 := send_all fs h.flushed hl
  have hu : ∀ t : Bytes, (l.writer.sent ++ t).drop l.carried = l.underway ++ t := by
    intro t
    rw [List.drop_append_of_le_length h.carried]; rfl
  refine ⟨{ l with writer := ⟨[], l.writer.sent ++ stream (fs.map image)⟩ }, by simp only [Link.send, h1], ⟨?_, rfl, ?_, h.wf, h.noErr, h.apart⟩,
    rfl, hu _⟩
  · obtain ⟨as, gs, e1, e2, e3, e4⟩ := h.holds
    refine ⟨as, gs ++ fs, by rw [e1, List.append_assoc], e2, ?_, ?_⟩
    · show rest l.scanner ++ (l.writer.sent ++ _).drop l.carried = _
      rw [hu, ← List.append_assoc, e3, List.map_append, stream_append]
    · intro g hg
      rcases List.mem_append.mp hg with hg | hg
      · exact e4 g hg
      · exact hl g hg
  · simp only [List.length_append]; have := h.carried; omega

/-- A frame that is too large for the length field crashes the process. -/
theorem send_fits (fs : List Frame) : ∀ {w w' : Writer}, (∀ f ∈ fs, f.size < 2 ^ 32) →
    runOps w (fs.flatMap fun f => sendOps f true) = .ok w' → ∀ f ∈ fs, f.size < 2 ^ 24 := by
  induction fs with
  | nil => intro w w' _ _ f hf; exact absurd hf List.not_mem_nil
  | cons f fs ih =>
    intro w w' hl h
    rw [List.flatMap_cons, runOps_append] at h
    cases h1 : runOps w (sendOps f true) with
    | ok w1 =>
      rw [h1] at h
      have h2 := ih (fun g hg => hl g (by simp [hg])) h
      intro g hg
      rcases List.mem_cons.mp hg with rfl | hg
      · apply Classical.byContradiction
        intro hn
        have := oversize_panics g (by omega) (hl g (by simp)) w
        simp only [sendOps, if_true, runOps, this] at h1
        cases h1
      · exact h2 g hg
    | err m => rw [h1] at h; cases h
    | panic => rw [h1] at h; cases h

theorem dir_carry {l l' : Link} {w : List Frame} {k : Nat} (h : Dir l w) (hc : l.carry k = some l') :
    Dir l' w ∧ l'.queue = l.queue ∧ l'.underway.length + k = l.underway.length ∧ 0 < k := by
  unfold Link.carry at hc
  split at hc
  · rename_i hk
    cases hc
    have hle : l.carried + k ≤ l.writer.sent.length := by
      have := hk.2; simp only [Link.underway, List.length_drop] at this; have := h.carried; omega
    refine ⟨⟨?_, h.flushed, hle, ⟨h.wf.le, h.wf.stop, h.wf.pos, h.wf.max, h.wf.stalls⟩, h.noErr, h.apart⟩, rfl, ?_, hk.1⟩
    · obtain ⟨as, gs, e1, e2, e3, e4⟩ := h.holds
      refine ⟨as, gs, e1, e2, ?_, e4⟩
      rw [← e3]
      show (l.scanner.window ++ (l.scanner.rd.rem ++ l.underway.take k)) ++ l.writer.sent.drop (l.carried + k) = _
      rw [← List.drop_drop]
      show (l.scanner.window ++ (l.scanner.rd.rem ++ l.underway.take k)) ++ l.underway.drop k = _
      simp only [List.append_assoc, List.take_append_drop, rest]
    · show (l.writer.sent.drop (l.carried + k)).length + k = (l.writer.sent.drop l.carried).length
      simp only [List.length_drop]; omega
  · cases hc

theorem about_wf {l : Link} {w : List Frame} {evs : List Framing.Ev} (h : Dir l w)
    (he : evs.all (fun e => decide (e.stalls ≤ maxEmptyReads)) = true) : WF (l.about evs) :=
  ⟨h.wf.le, h.wf.stop, h.wf.pos, h.wf.max, fun e hm => by simpa using List.all_eq_true.mp he e hm⟩

/-- A `Read` takes the next frame. -/
theorem dir_read {l l' : Link} {w : List Frame} {evs : List Framing.Ev} (h : Dir l w) (hr : l.read evs = some l') :
    Dir l' w ∧ l'.queue.length = l.queue.length + 1 ∧ l'.underway = l.underway := by
  unfold Link.read at hr
  split at hr
  · rename_i he
    have hwf := about_wf h he
    have hrest : rest (l.about evs) = rest l.scanner := rfl
    obtain ⟨fs, gs, e1, e2, e3, e4⟩ := h.holds
    cases gs with
    | nil =>
      exfalso
      have hz : rest (l.about evs) = [] := by
        rw [hrest]; exact (List.append_eq_nil_iff.mp e3).1
      obtain ⟨s', hs⟩ := readRaw_unfinished hwf h.noErr (by rw [hz]; exact nil_not_ready)
      simp only [readFrame, hs] at hr
      cases hr
    | cons g gs =>
      obtain ⟨hl, hsz⟩ := e4 g (by simp)
      have hil := image_length hl
      have hge := image_ge g
      have hsend : Sendable (image g) := ⟨by omega, by omega⟩
      rw [List.map_cons, stream] at e3
      by_cases hlen : (packet (image g)).length ≤ (rest l.scanner).length
      · obtain ⟨r, hr1⟩ : ∃ r, rest l.scanner = packet (image g) ++ r := by
          refine ⟨(rest l.scanner).drop (packet (image g)).length, ?_⟩
          have : (rest l.scanner).take (packet (image g)).length = packet (image g) := by
            have := congrArg (List.take (packet (image g)).length) e3
            rwa [List.take_append_of_le_length hlen, List.take_left' rfl] at this
          conv => lhs; rw [← List.take_append_drop (packet (image g)).length (rest l.scanner), this]
        rcases readRaw_packet hwf h.noErr (hrest.trans hr1) hsend hge with
          ⟨v, s', hrr, hd, _, hrs, wf', he', ht', _⟩ | ⟨ht, _⟩
        · have hrf : readFrame (l.about evs) = (.ok (received g, v), s') := by
            simp only [readFrame, hrr, hd, decode_image hl]
          simp only [hrf] at hr
          cases hr
          refine ⟨⟨⟨fs ++ [g], gs, by rw [e1]; simp, by simp [e2], ?_, fun x hx => e4 x (by simp [hx])⟩, h.flushed,
            h.carried, wf', he', ht'.trans h.apart⟩, by simp, rfl⟩
          show rest s' ++ l.underway = _
          rw [hrs]
          rw [hr1, List.append_assoc] at e3
          exact List.append_cancel_left e3
        · have : l.scanner.rd.together = true := ht
          rw [h.apart] at this; cases this
      · exfalso
        have hun : Unfinished (rest (l.about evs)) := by
          refine ⟨image g, (packet (image g)).drop (rest l.scanner).length, hsend, ?_, ?_⟩
          · intro hnil
            have := congrArg List.length hnil
            simp only [List.length_drop, List.length_nil] at this
            omega
          · rw [hrest]
            have : (packet (image g)).take (rest l.scanner).length = rest l.scanner := by
              have := congrArg (List.take (rest l.scanner).length) e3
              rw [List.take_left' rfl, List.take_append_of_le_length (by omega)] at this
              exact this.symm
            conv => lhs; lhs; rw [← this]
            exact List.take_append_drop _ _
        obtain ⟨s', hs⟩ := readRaw_unfinished hwf h.noErr (unfinished_not_ready hun)
        simp only [readFrame, hs] at hr
        cases hr
  · cases hr

/-- When the network has carried everything, the next frame can be read. -/
theorem dir_readable {l : Link} {w : List Frame} (h : Dir l w) (hu : l.underway = []) (hq : l.queue.length < w.length) :
    ∃ l', l.read [] = some l' := by
  obtain ⟨fs, gs, e1, e2, e3, e4⟩ := h.holds
  cases gs with
  | nil => exfalso; rw [e1, e2] at hq; simp at hq
  | cons g gs =>
    obtain ⟨hl, hsz⟩ := e4 g (by simp)
    have hil := image_length hl
    have hge := image_ge g
    rw [hu, List.append_nil, List.map_cons, stream] at e3
    rcases readRaw_packet (about_wf (evs := []) h rfl) h.noErr e3 ⟨by omega, by omega⟩ hge with
      ⟨v, s', hrr, hd, _⟩ | ⟨ht, _⟩
    · have hrf : readFrame (l.about []) = (.ok (received g, v), s') := by
        simp only [readFrame, hrr, hd, decode_image hl]
      exact ⟨{ l with scanner := s', queue := l.queue ++ [received g] }, by
        simp only [Link.read, List.all_nil, if_true, hrf]⟩
    · have : l.scanner.rd.together = true := ht
      rw [h.apart] at this; cases this

/-! ## The peers -/

/-- Requests for one answer ask for one. -/
def One (v : RequestPayload) : Prop := v.frameType = tRequestStream ∨ v.frameType = tRequestChannel ∨ v.initialN = 1

/-- What holds of requests. -/
structure Ones (y : Sys) : Prop where
  calls : ∀ s, ∀ c ∈ (y.peer s).calls, One c.frame
  wire : ∀ s, ∀ v, Frame.request v ∈ y.wire s → One v

theorem ones_put {y : Sys} (h : Ones y) (s : Side) (p : Peer) (out : List Frame) (r : Bool)
    (hc : ∀ c ∈ p.calls, One c.frame) (ho : ∀ v, Frame.request v ∈ out → One v) : Ones (y.put s p out r) := by
  constructor
  · intro t c hcc
    rcases eq_or_other s t with rfl | rfl
    · simp only [Sys.put, if_true] at hcc; exact hc c hcc
    · simp only [Sys.put, if_neg (other_ne s)] at hcc; exact h.calls _ c hcc
  · intro t v hv
    rcases eq_or_other s t with rfl | rfl
    · simp only [Sys.put, if_true] at hv
      rcases List.mem_append.mp hv with hv | hv
      · exact h.wire _ v hv
      · exact ho v hv
    · simp only [Sys.put, if_neg (other_ne s)] at hv
      split at hv
      · exact h.wire _ v (List.mem_of_mem_tail hv)
      · exact h.wire _ v hv

theorem recv_calls {p p' : Peer} {f : Frame} (h : p.recv f = some p') : p'.calls = p.calls := by
  unfold Peer.recv at h
  split at h
  · cases h
  · cases h; rfl
  · cases h; rfl

theorem lit_short : (Handler.lit "Invalid metadata").length ≤ 64 ∧ (Handler.lit "not_found").length ≤ 64 := by decide +kernel

/-- The frames a goroutine sends refuse a request. -/
theorem sent_short {reg : Reg Unit} {live : Bool} {st : Handler.State} {t : Task} {o : Handler.Out Unit}
    (h : runTask reg live st t = .ok o) : ∀ f ∈ o.evs.filterMap sentOf, isRequest f = false ∧ bodyLen f ≤ 64 := by
  have none : ∀ e : List (Handler.Ev Unit), e.filterMap sentOf = [] → ∀ f ∈ e.filterMap sentOf, isRequest f = false ∧ bodyLen f ≤ 64 :=
    fun e he f hf => by rw [he] at hf; exact absurd hf List.not_mem_nil
  cases t with
  | request k id d m n =>
    have h : handleRequest reg st k id d m n = .ok o := h
    unfold handleRequest at h
    split at h
    · cases h
      intro f hf
      cases List.mem_singleton.mp hf
      exact ⟨rfl, lit_short.1⟩
    · cases hg : getU32 m with
      | ok op =>
        rw [hg, Res.ok_bind] at h
        split at h
        · cases h
          intro f hf
          cases List.mem_singleton.mp hf
          exact ⟨rfl, lit_short.2⟩
        · cases h
          exact none _ (by cases k <;> rfl)
      | err e => rw [hg] at h; cases h
      | panic => rw [hg] at h; cases h
  | attach i n =>
    simp only [runTask] at h
    split at h
    · cases h; exact none _ rfl
    · cases h
  | demand i n =>
    simp only [runTask] at h
    split at h
    · cases h
    · split at h
      · cases h; exact none _ rfl
      · cases h

theorem run_out {p p' : Peer} {reg : Reg Unit} {live : Bool} {i : Nat} {out : List Frame}
    (h : p.run reg live i = some (p', out)) :
    p'.calls = p.calls ∧ ∀ f ∈ out, isRequest f = false ∧ bodyLen f ≤ 64 := by
  unfold Peer.run at h
  split at h
  · cases h
  · split at h
    · cases h
    · cases h
    · rename_i o ho
      cases h
      exact ⟨rfl, sent_short ho⟩

theorem answer_out {p p' : Peer} {i : Nat} {r : Result} {out : List Frame} (h : p.answer i r = some (p', out)) :
    p'.calls = p.calls ∧ ∃ id, out = [answerFrame id r] := by
  unfold Peer.answer at h
  split at h
  · cases h
  · split at h
    · cases h; exact ⟨rfl, _, rfl⟩
    · cases h

theorem ones_step {y y' : Sys} {a : Peers.Act} (h : Ones y) (hg : Good y) (hs : y.step a = some y') : Ones y' := by
  have no : ∀ v, Frame.request v ∈ ([] : List Frame) → One v := fun v hv => absurd hv List.not_mem_nil
  have other : ∀ {out : List Frame}, (∀ f ∈ out, isRequest f = false) → ∀ v, Frame.request v ∈ out → One v :=
    fun ho v hv => absurd (ho _ hv) (by simp [isRequest])
  cases a with
  | call s k d m =>
    simp only [Sys.step, Option.map_eq_some_iff] at hs
    obtain ⟨p, h1, rfl⟩ := hs
    refine ones_put h s p [] false ?_ no
    unfold Peer.call at h1
    split at h1
    · cases h1
    · cases h1
      intro c hc
      rcases List.mem_append.mp hc with hc | hc
      · exact h.calls s c hc
      · cases List.mem_singleton.mp hc
        cases k
        · exact .inr (.inr rfl)
        · exact .inr (.inr rfl)
        · exact .inl rfl
        · exact .inr (.inl rfl)
  | subscribe s j =>
    simp only [Sys.step, Option.map_eq_some_iff] at hs
    obtain ⟨c, h1, rfl⟩ := hs
    have hc := h.calls s c (List.mem_of_getElem? h1)
    unfold Peer.subscribe
    split
    · refine ones_put h s _ _ false (h.calls s) fun v hv => ?_
      cases List.mem_singleton.mp hv; exact hc
    · refine ones_put h s _ _ false (h.calls s) fun v hv => ?_
      cases List.mem_singleton.mp hv; exact hc
    · exact ones_put h s _ _ false (h.calls s) no
    · exact ones_put h s _ _ false (h.calls s) no
  | start s j n =>
    simp only [Sys.step, Option.bind_eq_some_iff] at hs
    obtain ⟨c, h1, hs⟩ := hs
    split at hs
    · rename_i hk
      cases hs
      refine ones_put h s _ _ false (h.calls s) fun v hv => ?_
      cases List.mem_singleton.mp hv
      have hkf := (hg.loc s).frames c (List.mem_of_getElem? h1)
      rcases hk with hk | hk <;> rw [hk] at hkf <;> have hf := Iota.Props.Handler.kindOf_some hkf
      · exact .inl hf
      · exact .inr (.inl hf)
    · cases hs
  | own s j f =>
    simp only [Sys.step, Option.bind_eq_some_iff] at hs
    obtain ⟨c, h1, hs⟩ := hs
    split at hs
    · rename_i hk
      cases hs
      refine ones_put h s _ _ false (h.calls s) (other fun g hg => ?_)
      cases List.mem_singleton.mp hg; exact hk.2.2
    · cases hs
  | recv s =>
    simp only [Sys.step, Option.bind_eq_some_iff, Option.map_eq_some_iff] at hs
    obtain ⟨f, h1, p, h2, rfl⟩ := hs
    exact ones_put h s _ _ true (by rw [recv_calls h2]; exact h.calls s) no
  | run s reg live i =>
    simp only [Sys.step, Option.map_eq_some_iff] at hs
    obtain ⟨⟨p, out⟩, h1, rfl⟩ := hs
    obtain ⟨h2, h3⟩ := run_out h1
    exact ones_put h s _ _ false (by rw [h2]; exact h.calls s) (other fun f hf => (h3 f hf).1)
  | answer s i r =>
    simp only [Sys.step, Option.map_eq_some_iff] at hs
    obtain ⟨⟨p, out⟩, h1, rfl⟩ := hs
    obtain ⟨h2, id, rfl⟩ := answer_out h1
    refine ones_put h s _ _ false (by rw [h2]; exact h.calls s) (other fun f hf => ?_)
    cases List.mem_singleton.mp hf; cases r <;> rfl
  | emit s i f =>
    simp only [Sys.step, Option.bind_eq_some_iff] at hs
    obtain ⟨c, h1, hs⟩ := hs
    split at hs
    · rename_i hk
      cases hs
      refine ones_put h s _ _ false (h.calls s) (other fun g hg => ?_)
      cases List.mem_singleton.mp hg; exact hk.2.2
    · cases hs

theorem ones_reach {y : Sys} (h : Reach y) (hb : Bounded y) : Ones y := by
  induction h with
  | init => exact ⟨fun s c hc => absurd hc List.not_mem_nil, fun s v hv => absurd hv List.not_mem_nil⟩
  | step a hr hs ih =>
    have hb0 : Bounded _ := fun s => Nat.le_trans (calls_grow hs s) (hb s)
    exact ones_step (ih hb0) (reach_good hr hb0) hs

/-- Decoding changes nothing about a frame that matters to who handles it. -/
theorem handle_received {st : Handler.State} {f : Frame}
    (h : ∀ v, f = .request v → One v ∧ ∃ k, kindOf v.frameType = some k) :
    handleFrame (H := Unit) st (received f) = handleFrame st f := by
  cases f with
  | request v =>
    obtain ⟨h1, k, h2⟩ := h v rfl
    have hn : (if v.frameType.toNat = 6 ∨ v.frameType.toNat = 7 then v.initialN else 1) = v.initialN := by
      split
      · rfl
      · rename_i hne
        rcases h1 with h1 | h1 | h1
        · exact absurd (.inl (by rw [h1]; rfl)) hne
        · exact absurd (.inr (by rw [h1]; rfl)) hne
        · exact h1.symm
    simp only [received, hn]
    rfl
  | _ => rfl

/-- The frames on a wire are such. -/
theorem wire_plain {y : Sys} (hy : Reach y) (hb : Bounded y) {s : Side} {f : Frame} (hf : f ∈ y.wire s) :
    ∀ v, f = .request v → One v ∧ ∃ k, kindOf v.frameType = some k := by
  intro v hv
  subst hv
  refine ⟨(ones_reach hy hb).wire _ v hf, ?_⟩
  rcases (reach_good hy hb).wire _ _ hf with ⟨v', k, h2, h3, _⟩ | ⟨h2, _⟩
  · cases h2; exact ⟨k, h3⟩
  · cases h2

/-! ## Steps of the peers on their own -/

/-- What is sent is added to what is under way. -/
def join (y y1 : Sys) : Sys := ⟨y1.peer, fun s => y.wire s ++ y1.wire s⟩

theorem put_alone (y : Sys) (s : Side) (p : Peer) (out : List Frame) :
    y.put s p out false = join y (Sys.put ⟨y.peer, fun _ => []⟩ s p out false) := by
  simp only [Sys.put, join, Sys.mk.injEq, true_and]
  funext t
  split <;> simp

theorem step_alone {y : Sys} {a : Peers.Act} (ha : isRecv a = false) :
    y.step a = (Sys.step ⟨y.peer, fun _ => []⟩ a).map (join y) := by
  cases a with
  | call s k d m =>
    simp only [Sys.step]
    cases Peer.call (y.peer s) s k d m
    · rfl
    · exact congrArg some (put_alone _ _ _ _)
  | subscribe s j =>
    simp only [Sys.step]
    cases (y.peer s).calls[j]?
    · rfl
    · exact congrArg some (put_alone _ _ _ _)
  | start s j n =>
    simp only [Sys.step]
    cases (y.peer s).calls[j]? with
    | none => rfl
    | some c =>
      simp only [Option.bind_some]
      split
      · exact congrArg some (put_alone _ _ _ _)
      · rfl
  | own s j f =>
    simp only [Sys.step]
    cases (y.peer s).calls[j]? with
    | none => rfl
    | some c =>
      simp only [Option.bind_some]
      split
      · exact congrArg some (put_alone _ _ _ _)
      · rfl
  | recv s => cases ha
  | run s reg live i =>
    simp only [Sys.step]
    cases (y.peer s).run reg live i
    · rfl
    · exact congrArg some (put_alone _ _ _ _)
  | answer s i r =>
    simp only [Sys.step]
    cases (y.peer s).answer i r
    · rfl
    · exact congrArg some (put_alone _ _ _ _)
  | emit s i f =>
    simp only [Sys.step]
    cases (y.peer s).jobs[i]? with
    | none => rfl
    | some c =>
      simp only [Option.bind_some]
      split
      · exact congrArg some (put_alone _ _ _ _)
      · rfl

/-! ## The connection does what queues of frames do -/

/-- The peers are the same, and the connection carries the frames. -/
structure Sim (n : Net) (y : Sys) : Prop where
  peer : n.peer = y.peer
  dir : ∀ s, Dir (n.link s) (y.wire s)

theorem sim_init : Sim Net.init Sys.init := ⟨rfl, fun _ => dir_init⟩

theorem id_small {s : Side} {p : Peer} (h : Local s p) {c : Peers.Call} (hc : c ∈ p.calls) : c.frame.streamID.toNat < 2 ^ 31 := by
  obtain ⟨j, hj⟩ := List.mem_iff_getElem?.mp hc
  rw [h.ids j c hj]
  cases s <;> exact Nat.mod_lt _ (by decide)

/-- Frames that were sent can be encoded. -/
theorem sent_legal {y : Sys} (hg : Good y) {s : Side} {f : Frame} (hf : f ∈ y.wire s) (hb : bodyLen f + 32 < 2 ^ 32) :
    (f.size < 2 ^ 32 ∧ bodyLen f ≤ f.size ∧ f.size ≤ bodyLen f + 13) ∧ (f.size < 2 ^ 24 → Legal f) := by
  have hid : f.streamID.toNat < 2 ^ 31 := by
    rcases hg.wire s f hf with ⟨v, k, rfl, _, c, hc, hm⟩ | ⟨_, h⟩
    · have := id_small (hg.loc s) hc
      rw [hm.2.1] at this; exact this
    · rcases h with ⟨c, hc, _, h⟩ | ⟨c, hc, _, h⟩ | ⟨c, hc, h, _⟩
      · rw [← h]; exact id_small (hg.loc s) hc
      · rw [← h]; exact id_small (hg.loc _) hc
      · rw [← h]; exact id_small (hg.loc _) hc
  cases f with
  | cancel v => exact ⟨by simp [Frame.size, bodyLen, headerLen], fun _ => hid⟩
  | requestN v => exact ⟨by simp [Frame.size, bodyLen, headerLen], fun _ => hid⟩
  | error v =>
    simp only [bodyLen] at hb
    have : Frame.size (.error v) = v.data.length + 10 := by
      simp only [Frame.size, u32len, headerLen]; omega
    exact ⟨by rw [this]; simp only [bodyLen]; omega, fun _ => ⟨hid, by omega⟩⟩
  | payload v =>
    simp only [bodyLen] at hb
    have h1 : u32len v.metadata.length = v.metadata.length := by simp only [u32len]; omega
    have : Frame.size (.payload v) = v.metadata.length + v.data.length + 6 + (if v.metadata.length > 0 then 3 else 0) := by
      simp only [Frame.size, Payload.size, h1]
      simp only [u32len, headerLen]
      split <;> omega
    refine ⟨by rw [this]; simp only [bodyLen]; split <;> omega, fun hs => ⟨hid, ?_, ?_⟩⟩
    · rw [this] at hs; omega
    · omega
  | request v =>
    simp only [bodyLen] at hb
    have h1 : u32len v.metadata.length = v.metadata.length := by simp only [u32len]; omega
    have : Frame.size (.request v) = v.metadata.length + v.data.length + 6 + (if hasInitialN v.frameType then 4 else 0) +
        (if v.metadata.length > 0 then 3 else 0) := by
      simp only [Frame.size, RequestPayload.size, h1]
      simp only [u32len, headerLen]
      split <;> split <;> omega
    refine ⟨by rw [this]; simp only [bodyLen]; split <;> split <;> omega, fun hs => ⟨hid, ?_, ?_, ?_⟩⟩
    · rw [this] at hs; omega
    · omega
    · rcases hg.wire s _ hf with ⟨v', k, h2, h3, _⟩ | ⟨h2, _⟩
      · cases h2
        have h4 := Iota.Props.Handler.kindOf_some h3
        cases k <;> (simp only at h4; rw [h4]; decide)
      · cases h2

/-- A frame takes at most this many bytes. -/
theorem stream_short (fs : List Frame) (h : ∀ f ∈ fs, Legal f ∧ f.size < 2 ^ 24) :
    (stream (fs.map image)).length ≤ (2 ^ 24 + 2) * fs.length := by
  induction fs with
  | nil => simp [stream]
  | cons f fs ih =>
    have h1 := ih fun g hg => h g (by simp [hg])
    obtain ⟨hl, hs⟩ := h f (by simp)
    have h2 := image_length hl
    have h3 : (packet (image f)).length = 3 + (image f).length := by simp [packet]
    simp only [List.map_cons, stream, List.length_append, List.length_cons]
    omega

/-- A peer does something. -/
theorem sim_peer {n n' : Net} {y : Sys} {b : Peers.Act} (hy : Reach y) (hsim : Sim n y) (hb : Few n')
    (hs : Sane n (.peer b)) (h : n.step (.peer b) = some n') :
    ∃ y1, y.step b = some (join y y1) ∧ Sim n' (join y y1) ∧ ∀ s, (n'.link s).queue = (n.link s).queue ∧
      (n'.link s).underway.length ≤ (n.link s).underway.length + (2 ^ 24 + 2) * (y1.wire s).length := by
  simp only [Net.step] at h
  split at h
  · cases h
  · rename_i hr
    simp only [Bool.not_eq_true] at hr
    simp only [Net.act] at h
    split at h
    · cases h
    · rename_i y1 hy1
      split at h
      · rename_i c v hc hv
        cases h
        have hal : (⟨y.peer, fun _ => []⟩ : Sys) = n.alone := by rw [← hsim.peer]; rfl
        have hst : y.step b = some (join y y1) := by rw [step_alone hr, hal, hy1]; rfl
        have hre : Reach (join y y1) := .step b hy hst
        have hbd : Bounded (join y y1) := fun t => hb t
        have hg := reach_good hre hbd
        have hsends : ∀ s, n.sends (.peer b) s = y1.wire s := by intro s; simp only [Net.sends, hy1]
        have key : ∀ (s : Side) (l : Link), (n.link s).send (y1.wire s) = some l → Dir l (y.wire s ++ y1.wire s) ∧
            l.queue = (n.link s).queue ∧
            l.underway.length ≤ (n.link s).underway.length + (2 ^ 24 + 2) * (y1.wire s).length := by
          intro s l hl
          have hbody : ∀ f ∈ y1.wire s, bodyLen f + 32 < 2 ^ 32 := fun f hf => hs s f (by rw [hsends]; exact hf)
          have hmem : ∀ f ∈ y1.wire s, f ∈ (join y y1).wire s := fun f hf => List.mem_append_right _ hf
          have hfit : ∀ f ∈ y1.wire s, f.size < 2 ^ 24 := by
            unfold Link.send at hl
            split at hl
            · rename_i w hw
              exact send_fits _ (fun f hf => (sent_legal hg (hmem f hf) (hbody f hf)).1.1) hw
            · cases hl
          have hall : ∀ f ∈ y1.wire s, Legal f ∧ f.size < 2 ^ 24 :=
            fun f hf => ⟨(sent_legal hg (hmem f hf) (hbody f hf)).2 (hfit f hf), hfit f hf⟩
          obtain ⟨l', h1, h2, h3, h4⟩ := dir_send (hsim.dir s) hall
          rw [h1] at hl; cases hl
          refine ⟨h2, h3, ?_⟩
          rw [h4, List.length_append]
          have := stream_short _ hall
          omega
        refine ⟨y1, hst, ⟨rfl, fun t => ?_⟩, fun t => ?_⟩
        · cases t
          · exact (key _ _ hv).1
          · exact (key _ _ hc).1
        · cases t
          · exact (key _ _ hv).2
          · exact (key _ _ hc).2
      · cases h

/-- A frame is handled. -/
theorem sim_handle {n n' : Net} {y : Sys} {s : Side} (hy : Reach y) (hsim : Sim n y) (hb : Few n')
    (h : n.step (.handle s) = some n') :
    ∃ y', y.step (.recv s) = some y' ∧ Sim n' y' ∧ ∀ t, (n'.link t).underway = (n.link t).underway ∧
      (y'.wire t).length + (n.link t).queue.length = (y.wire t).length + (n'.link t).queue.length := by
  simp only [Net.step, Net.handle] at h
  split at h
  · cases h
  · rename_i g gs hq
    simp only [Option.map_eq_some_iff] at h
    obtain ⟨p, h1, rfl⟩ := h
    obtain ⟨fs, ws, e1, e2, e3, e4⟩ := (hsim.dir (other s)).holds
    cases fs with
    | nil => rw [hq] at e2; cases e2
    | cons f fs =>
      rw [hq, List.map_cons, List.cons.injEq] at e2
      obtain ⟨rfl, rfl⟩ := e2
      have hb0 : Bounded y := by
        intro t
        have := hb t
        rw [← hsim.peer]
        rcases eq_or_other s t with rfl | rfl
        · simp only [if_true] at this; rwa [recv_calls h1] at this
        · simp only [if_neg (other_ne s)] at this; exact this
      have hmem : f ∈ y.wire (other s) := by rw [e1]; simp
      have hf : (y.peer s).recv f = some p := by
        rw [← h1, hsim.peer]
        simp only [Peer.recv, handle_received (wire_plain hy hb0 hmem)]
      have hst : y.step (.recv s) = some (y.put s p [] true) := by
        simp only [Sys.step, e1, List.cons_append, List.head?_cons, Option.bind_some, hf, Option.map_some]
      refine ⟨_, hst, ⟨?_, fun t => ?_⟩, fun t => ?_⟩
      · simp only [Sys.put, ← hsim.peer]
      · rcases eq_or_other s t with rfl | rfl
        · simp only [Sys.put, Net.set, if_neg (Ne.symm (other_ne t)), if_true, List.append_nil]
          exact hsim.dir t
        · simp only [Sys.put, Net.set, if_true, if_neg (other_ne s)]
          have hd := hsim.dir (other s)
          exact ⟨⟨fs, ws, by rw [e1]; rfl, rfl, e3, e4⟩, hd.flushed, hd.carried, hd.wf, hd.noErr, hd.apart⟩
      · rcases eq_or_other s t with rfl | rfl
        · simp only [Sys.put, Net.set, if_neg (Ne.symm (other_ne t)), if_true, List.append_nil, and_self]
        · simp only [Sys.put, Net.set, if_true, if_neg (other_ne s), hq, e1]
          refine ⟨rfl, ?_⟩
          simp; omega

/-- The network does something. -/
theorem sim_set {n : Net} {y : Sys} {s : Side} {l : Link} (hsim : Sim n y) (h : Dir l (y.wire s)) : Sim (n.set s l) y := by
  refine ⟨hsim.peer, fun t => ?_⟩
  simp only [Net.set]
  split
  · rename_i ht; subst ht; exact h
  · exact hsim.dir t

/-- A step of the connection is a step of the peers with queues of frames, or nothing they see. -/
theorem sim_step {n n' : Net} {y : Sys} {a : Net.Act} (hy : Reach y) (hsim : Sim n y) (hb : Few n')
    (hs : Sane n a) (h : n.step a = some n') :
    ∃ y', Sim n' y' ∧ ((seenAs a = none ∧ y' = y) ∨ ∃ b, seenAs a = some b ∧ y.step b = some y') := by
  cases a with
  | carry s k =>
    simp only [Net.step, Option.map_eq_some_iff] at h
    obtain ⟨l, h1, rfl⟩ := h
    exact ⟨y, sim_set hsim (dir_carry (hsim.dir s) h1).1, .inl ⟨rfl, rfl⟩⟩
  | read s evs =>
    simp only [Net.step, Option.map_eq_some_iff] at h
    obtain ⟨l, h1, rfl⟩ := h
    exact ⟨y, sim_set hsim (dir_read (hsim.dir s) h1).1, .inl ⟨rfl, rfl⟩⟩
  | handle s =>
    obtain ⟨y', h1, h2, _⟩ := sim_handle hy hsim hb h
    exact ⟨y', h2, .inr ⟨_, rfl, h1⟩⟩
  | peer b =>
    obtain ⟨y1, h1, h2, _⟩ := sim_peer hy hsim hb hs h
    exact ⟨_, h2, .inr ⟨_, rfl, h1⟩⟩

theorem net_grow {n n' : Net} {a : Net.Act} (h : n.step a = some n') (t : Side) :
    (n.peer t).calls.length ≤ (n'.peer t).calls.length := by
  cases a with
  | carry s k =>
    simp only [Net.step, Option.map_eq_some_iff] at h
    obtain ⟨l, h1, rfl⟩ := h
    exact Nat.le_refl _
  | read s evs =>
    simp only [Net.step, Option.map_eq_some_iff] at h
    obtain ⟨l, h1, rfl⟩ := h
    exact Nat.le_refl _
  | handle s =>
    simp only [Net.step, Net.handle] at h
    split at h
    · cases h
    · simp only [Option.map_eq_some_iff] at h
      obtain ⟨p, h1, rfl⟩ := h
      dsimp only
      split
      · rename_i ht; subst ht; rw [recv_calls h1]; exact Nat.le_refl _
      · exact Nat.le_refl _
  | peer b =>
    simp only [Net.step] at h
    split at h
    · cases h
    · simp only [Net.act] at h
      split at h
      · cases h
      · rename_i y1 hy1
        split at h
        · cases h
          exact calls_grow hy1 t
        · cases h

theorem runs_sim {n : Net} (h : Runs n) : Few n → ∃ y, Reach y ∧ Sim n y := by
  induction h with
  | init => exact fun _ => ⟨_, .init, sim_init⟩
  | step a _ hs hst ih =>
    intro hb
    obtain ⟨y, h1, h2⟩ := ih fun s => Nat.le_trans (net_grow hst s) (hb s)
    obtain ⟨y', h3, ⟨_, rfl⟩ | ⟨b, _, h4⟩⟩ := sim_step h1 h2 hb hs hst
    · exact ⟨_, h1, h3⟩
    · exact ⟨y', .step b h1 h4, h3⟩

theorem polite_sim {regs : Side → Reg Unit} {subs : Side → List Nat} {n : Net} (h : PoliteRuns regs subs n) :
    Few n → ∃ y, Polite regs subs y ∧ Sim n y := by
  induction h with
  | init => exact fun _ => ⟨_, .init, sim_init⟩
  | step a _ hs ha hst ih =>
    intro hb
    obtain ⟨y, h1, h2⟩ := ih fun s => Nat.le_trans (net_grow hst s) (hb s)
    obtain ⟨y', h3, ⟨h5, rfl⟩ | ⟨b, h5, h4⟩⟩ := sim_step (polite_reach h1) h2 hb hs hst
    · refine ⟨_, ?_, h3⟩
      simp only [noteAct, h5]; exact h1
    · refine ⟨y', ?_, h3⟩
      simp only [noteAct, h5]
      exact .step b h1 (ha b h5) h4

theorem few_bounded {n : Net} {y : Sys} (h : Sim n y) (hb : Few n) : Bounded y := fun s => by rw [← h.peer]; exact hb s

/-! ## Going on -/

theorem goes_calls {regs : Side → Reg Unit} {n n' : Net} {a : Net.Act} (ha : GoesOn regs a) (h : n.step a = some n') (t : Side) :
    (n'.peer t).calls = (n.peer t).calls := by
  cases a with
  | carry s k =>
    simp only [Net.step, Option.map_eq_some_iff] at h
    obtain ⟨l, h1, rfl⟩ := h
    rfl
  | read s evs =>
    simp only [Net.step, Option.map_eq_some_iff] at h
    obtain ⟨l, h1, rfl⟩ := h
    rfl
  | handle s =>
    simp only [Net.step, Net.handle] at h
    split at h
    · cases h
    · simp only [Option.map_eq_some_iff] at h
      obtain ⟨p, h1, rfl⟩ := h
      dsimp only
      split
      · rename_i ht; subst ht; exact recv_calls h1
      · rfl
  | peer b =>
    simp only [Net.step] at h
    split at h
    · cases h
    · rename_i hr
      simp only [Net.act] at h
      split at h
      · cases h
      · rename_i y1 hy1
        split at h
        · cases h
          have ha : Goes regs b := ha
          have put : ∀ (s : Side) (p : Peer) (out : List Frame), p.calls = (n.peer s).calls →
              ((n.alone.put s p out false).peer t).calls = (n.peer t).calls := by
            intro s p out hc
            simp only [Sys.put]
            split
            · rename_i ht; subst ht; exact hc
            · rfl
          cases b with
          | recv s => exact absurd rfl hr
          | run s reg live i =>
            simp only [Sys.step, Option.map_eq_some_iff] at hy1
            obtain ⟨⟨p, out⟩, h1, rfl⟩ := hy1
            exact put s p out (run_out h1).1
          | answer s i r =>
            simp only [Sys.step, Option.map_eq_some_iff] at hy1
            obtain ⟨⟨p, out⟩, h1, rfl⟩ := hy1
            exact put s p out (answer_out h1).1
          | _ => exact absurd ha (by simp [Goes])
        · cases h

/-- A step sends at most one frame. -/
theorem goes_one {regs : Side → Reg Unit} (hsm : ∀ s, Handler.Small (regs s)) {subs : Side → List Nat} {y y1 : Sys} {b : Peers.Act}
    (hp : Polite regs subs y) (hb : Bounded y) (ha : Goes regs b) (hr : isRecv b = false)
    (h : y.step b = some (join y y1)) : (y1.wire .client).length + (y1.wire .server).length ≤ 1 := by
  have key : ∀ (s : Side) (p : Peer) (out : List Frame), join y y1 = y.put s p out false → out.length ≤ 1 →
      (y1.wire .client).length + (y1.wire .server).length ≤ 1 := by
    intro s p out he hl
    have h1 := congrArg (fun z : Sys => (z.wire .client).length) he
    have h2 := congrArg (fun z : Sys => (z.wire .server).length) he
    cases s <;> simp only [join, Sys.put, List.length_append, reduceCtorEq, if_true, if_false, Bool.false_eq_true, other] at h1 h2 <;> omega
  cases b with
  | recv s => cases hr
  | run s reg live i =>
    have ha : reg = regs s := ha
    subst ha
    have hi : i < (y.peer s).tasks.length := by
      apply Classical.byContradiction
      intro hi
      simp only [Sys.step, Peer.run, List.getElem?_eq_none (Nat.le_of_not_lt hi), Option.map_none] at h
      cases h
    obtain ⟨p, out, h1, _, _, h2⟩ := run_simple hsm hp hb live hi
    rw [h1] at h
    refine key s p out (Option.some.inj h).symm ?_
    rcases h2 with ⟨_, f, rfl, _⟩ | ⟨rfl, _⟩ <;> simp
  | answer s i r =>
    obtain ⟨x, p, f, _, _, h1, _⟩ := answer_simple h
    exact key s p [f] h1 (by simp)
  | _ => exact absurd ha (by simp [Goes])

/-- Bytes to carry and frames to read. -/
def haul (n : Net) (y : Sys) (s : Side) : Nat := (n.link s).underway.length + ((y.wire s).length - (n.link s).queue.length)

/-- How much there is to do. -/
def load (n : Net) (y : Sys) : Nat := (2 ^ 24 + 4) * work y + haul n y .client + haul n y .server

theorem queue_le {l : Link} {w : List Frame} (h : Dir l w) : l.queue.length ≤ w.length := by
  obtain ⟨fs, gs, e1, e2, _⟩ := h.holds
  rw [e1, e2]; simp

theorem net_goes {regs : Side → Reg Unit} (hsm : ∀ s, Handler.Small (regs s)) {subs : Side → List Nat} {n n' : Net} {y : Sys}
    {a : Net.Act} (hp : Polite regs subs y) (hsim : Sim n y) (hb : Few n) (ha : GoesOn regs a) (hs : Sane n a)
    (h : n.step a = some n') :
    ∃ y', Polite regs subs y' ∧ Sim n' y' ∧ Few n' ∧ load n' y' < load n y := by
  have hb' : Few n' := fun t => by rw [goes_calls ha h]; exact hb t
  have hbd := few_bounded hsim hb
  cases a with
  | carry s k =>
    simp only [Net.step, Option.map_eq_some_iff] at h
    obtain ⟨l, h1, rfl⟩ := h
    obtain ⟨h2, h3, h4, h5⟩ := dir_carry (hsim.dir s) h1
    refine ⟨y, hp, sim_set hsim h2, hb', ?_⟩
    cases s <;> simp [load, haul, Net.set, h3] <;> omega
  | read s evs =>
    simp only [Net.step, Option.map_eq_some_iff] at h
    obtain ⟨l, h1, rfl⟩ := h
    obtain ⟨h2, h3, h4⟩ := dir_read (hsim.dir s) h1
    refine ⟨y, hp, sim_set hsim h2, hb', ?_⟩
    have := queue_le h2
    cases s <;> simp [load, haul, Net.set, h3, h4] <;> omega
  | handle s =>
    obtain ⟨y', h1, h2, h3⟩ := sim_handle (polite_reach hp) hsim hb' h
    have hw := (goes_down hsm hp hbd (a := .recv s) trivial h1).1
    refine ⟨y', goes_polite hp (a := .recv s) trivial h1, h2, hb', ?_⟩
    obtain ⟨a1, a2⟩ := h3 .client
    obtain ⟨b1, b2⟩ := h3 .server
    have q1 := queue_le (hsim.dir .client)
    have q2 := queue_le (hsim.dir .server)
    have q3 := queue_le (h2.dir .client)
    have q4 := queue_le (h2.dir .server)
    simp only [load, haul, a1, b1]
    omega
  | peer b =>
    obtain ⟨y1, h1, h2, h3⟩ := sim_peer (polite_reach hp) hsim hb' hs h
    have hr : isRecv b = false := by
      cases hr : isRecv b
      · rfl
      · simp only [Net.step, hr, if_true] at h; cases h
    have hw := (goes_down hsm hp hbd ha h1).1
    have hone := goes_one hsm hp hbd ha hr h1
    refine ⟨_, goes_polite hp ha h1, h2, hb', ?_⟩
    obtain ⟨a1, a2⟩ := h3 .client
    obtain ⟨b1, b2⟩ := h3 .server
    have q1 := queue_le (hsim.dir .client)
    have q2 := queue_le (hsim.dir .server)
    have e1 : ((join y y1).wire .client).length = (y.wire .client).length + (y1.wire .client).length := by simp [join]
    have e2 : ((join y y1).wire .server).length = (y.wire .server).length + (y1.wire .server).length := by simp [join]
    simp only [load, haul, a1, b1, e1, e2]
    omega

/-- A peer that can do something and sends little can do it. -/
theorem peer_can {n : Net} {y y' : Sys} {b : Peers.Act} (hy : Reach y) (hsim : Sim n y) (hb : Bounded y')
    (hr : isRecv b = false) (h : y.step b = some y') (hl : ∀ s, ∀ f ∈ n.sends (.peer b) s, bodyLen f ≤ 64) :
    Sane n (.peer b) ∧ ∃ n', n.step (.peer b) = some n' := by
  have hal : (⟨y.peer, fun _ => []⟩ : Sys) = n.alone := by rw [← hsim.peer]; rfl
  refine ⟨fun s f hf => by have := hl s f hf; omega, ?_⟩
  have h1 := h
  rw [step_alone hr, hal, Option.map_eq_some_iff] at h1
  obtain ⟨y1, hy1, rfl⟩ := h1
  have hg := reach_good (.step b hy h) hb
  have hsends : ∀ s, n.sends (.peer b) s = y1.wire s := by intro s; simp only [Net.sends, hy1]
  have key : ∀ s : Side, ∃ l, (n.link s).send (y1.wire s) = some l := by
    intro s
    have hall : ∀ f ∈ y1.wire s, Legal f ∧ f.size < 2 ^ 24 := by
      intro f hf
      have hs := hl s f (by rw [hsends]; exact hf)
      obtain ⟨⟨_, _, h3⟩, h4⟩ := sent_legal hg (s := s) (f := f) (List.mem_append_right _ hf) (by omega)
      exact ⟨h4 (by omega), by omega⟩
    obtain ⟨l, h2, _⟩ := dir_send (hsim.dir s) hall
    exact ⟨l, h2⟩
  obtain ⟨lc, h2⟩ := key .client
  obtain ⟨ls, h3⟩ := key .server
  exact ⟨⟨y1.peer, fun t => if t = .client then lc else ls⟩, by simp only [Net.step, hr, Bool.false_eq_true, if_false, Net.act, hy1, h2, h3]⟩

/-- Something can be done, or nothing is under way. -/
theorem net_can {regs : Side → Reg Unit} (hsm : ∀ s, Handler.Small (regs s)) {subs : Side → List Nat} {n : Net} {y : Sys}
    (hp : Polite regs subs y) (hsim : Sim n y) (hb : Few n) :
    Idle y ∨ ∃ a n', GoesOn regs a ∧ Sane n a ∧ n.step a = some n' := by
  have hbd := few_bounded hsim hb
  have quiet : ∀ a, (∀ b, a ≠ .peer b) → Sane n a := by
    intro a ha s f hf
    cases a with
    | peer b => exact absurd rfl (ha b)
    | _ => exact absurd hf List.not_mem_nil
  by_cases h1 : ∃ s, (n.link s).underway ≠ []
  · obtain ⟨s, hne⟩ := h1
    have hpos := List.length_pos_iff.mpr hne
    refine .inr ⟨.carry s (n.link s).underway.length, n.set s { n.link s with
      carried := (n.link s).carried + (n.link s).underway.length
      scanner := { (n.link s).scanner with rd := { (n.link s).scanner.rd with
        rem := (n.link s).scanner.rd.rem ++ (n.link s).underway.take (n.link s).underway.length } } },
      trivial, quiet _ (fun b hb => by cases hb), ?_⟩
    simp only [Net.step, Link.carry, if_pos (And.intro hpos (Nat.le_refl _)), Option.map_some]
  · have hu : ∀ s, (n.link s).underway = [] := fun s => Classical.byContradiction fun hne => h1 ⟨s, hne⟩
    by_cases h2 : ∃ s, (n.link s).queue.length < (y.wire s).length
    · obtain ⟨s, hlt⟩ := h2
      obtain ⟨l, hl⟩ := dir_readable (hsim.dir s) (hu s) hlt
      exact .inr ⟨.read s [], n.set s l, trivial, quiet _ (fun b hb => by cases hb), by simp only [Net.step, hl, Option.map_some]⟩
    · by_cases h3 : ∃ s, y.wire s ≠ []
      · obtain ⟨s, hne⟩ := h3
        obtain ⟨fs, gs, e1, e2, _⟩ := (hsim.dir s).holds
        have hlen : ¬ (n.link s).queue.length < (y.wire s).length := fun h => h2 ⟨s, h⟩
        cases fs with
        | nil =>
          exfalso
          rw [e2, List.map_nil, List.length_nil] at hlen
          exact hlen (List.length_pos_iff.mpr hne)
        | cons f fs =>
          have hmem : f ∈ y.wire (other (other s)) := by rw [other_other, e1]; simp
          obtain ⟨o, ho⟩ := simple_calls_keep_connection_partial hsm hp hbd (other s) f (by rw [other_other, e1]; rfl)
          have hq : (n.link (other (other s))).queue = received f :: fs.map received := by rw [other_other, e2]; rfl
          have hh : (n.peer (other s)).recv (received f) = (y.peer (other s)).recv f := by
            rw [hsim.peer]
            simp only [Peer.recv, handle_received (wire_plain (polite_reach hp) hbd hmem)]
          obtain ⟨p, hp1⟩ : ∃ p, (y.peer (other s)).recv f = some p := by
            simp only [Peer.recv, ho]; exact ⟨_, rfl⟩
          refine .inr ⟨.handle (other s), { (n.set (other (other s)) { n.link (other (other s)) with queue := fs.map received }) with
              peer := fun t => if t = other s then p else n.peer t }, trivial, quiet _ (fun b hb => by cases hb), ?_⟩
          simp only [Net.step, Net.handle, hq, hh, hp1, Option.map_some]
      · have hw : ∀ s, y.wire s = [] := fun s => Classical.byContradiction fun hne => h3 ⟨s, hne⟩
        rcases goes_on hsm hp hbd with hi | ⟨b, y', hga, hst⟩
        · exact .inl hi
        · have hb' : ∀ {b y'}, Goes regs b → y.step b = some y' → Bounded y' := fun hga hst t => by
            rw [(goes_down hsm hp hbd hga hst).2 t]; exact hbd t
          cases b with
          | recv s => simp only [Sys.step, hw, List.head?_nil, Option.bind_none] at hst; cases hst
          | run s reg live i =>
            obtain ⟨h4, n', h5⟩ := peer_can (polite_reach hp) hsim (hb' hga hst) rfl hst (by
              intro t f hf
              simp only [Net.sends, Sys.step] at hf
              cases hrun : (n.alone.peer s).run reg live i with
              | none => rw [hrun] at hf; exact absurd hf List.not_mem_nil
              | some q =>
                obtain ⟨p, out⟩ := q
                rw [hrun] at hf
                simp only [Option.map_some, Sys.put, Net.alone] at hf
                split at hf
                · rw [List.nil_append] at hf; exact ((run_out hrun).2 f hf).2
                · exact absurd hf (by simp))
            exact .inr ⟨.peer (.run s reg live i), n', hga, h4, h5⟩
          | answer s i r =>
            obtain ⟨x, _, _, h6, h7, _⟩ := answer_simple hst
            have hst' := answer_step h6 h7 (.failure [])
            obtain ⟨h4, n', h5⟩ := peer_can (polite_reach hp) hsim (hb' (b := .answer s i (.failure [])) trivial hst') rfl hst' (by
              intro t f hf
              simp only [Net.sends, Sys.step] at hf
              cases hrun : (n.alone.peer s).answer i (.failure []) with
              | none => rw [hrun] at hf; exact absurd hf List.not_mem_nil
              | some q =>
                obtain ⟨p, out⟩ := q
                rw [hrun] at hf
                obtain ⟨id, hout⟩ := (answer_out hrun).2
                simp only [Option.map_some, Sys.put, Net.alone] at hf
                split at hf
                · rw [List.nil_append, hout] at hf; cases List.mem_singleton.mp hf; exact Nat.zero_le _
                · exact absurd hf (by simp))
            exact .inr ⟨.peer (.answer s i (.failure [])), n', trivial, h4, h5⟩
          | _ => exact absurd hga (by simp [Goes])

theorem done_alone {subs : Side → List Nat} {n : Net} {y : Sys} (hsim : Sim n y) {s : Side} {j : Nat} {c : Peers.Call}
    (h : Done subs y s j c) : Done subs n.alone s j c := by
  have e : n.alone.peer = y.peer := hsim.peer
  simp only [Done, e]
  exact h

theorem onward_sim {regs : Side → Reg Unit} (hsm : ∀ s, Handler.Small (regs s)) {subs : Side → List Nat} {n n' : Net} {k : Nat}
    (h : Onward regs n k n') : ∀ {y : Sys}, Polite regs subs y → Sim n y → Few n →
      ∃ y', Polite regs subs y' ∧ Sim n' y' ∧ Few n' ∧ k + load n' y' ≤ load n y := by
  induction h with
  | stay => exact fun hp hs hb => ⟨_, hp, hs, hb, by omega⟩
  | step a _ ha hsn hst ih =>
    intro y hp hs hb
    obtain ⟨y1, h1, h2, h3, h4⟩ := ih hp hs hb
    obtain ⟨y2, h5, h6, h7, h8⟩ := net_goes hsm h1 h2 h3 ha hsn hst
    exact ⟨y2, h5, h6, h7, by omega⟩

theorem onward_first {regs : Side → Reg Unit} {n n1 n' : Net} {a : Net.Act} {k : Nat} (ha : GoesOn regs a) (hs : Sane n a)
    (hst : n.step a = some n1) (h : Onward regs n1 k n') : Onward regs n (k + 1) n' := by
  induction h with
  | stay => exact .step a (.stay n) ha hs hst
  | step b _ hb hsb hstb ih => exact .step b ih hb hsb hstb

/-! ## Results (C147) -/

/-- **C147** (part) Over a connection of bytes, cut and delayed in any way, and whatever two peers do with it, a result
told to the caller of a request-response operation is one the other peer produced for that call.

Missing: more than `2^30` calls, interleaved `Send`s and handlers that keep a frame after the next `Read`. -/
theorem tcp_results_own_partial {n : Net} (h : Runs n) (hb : Few n) (s : Side) (c : Peers.Call) (hc : c ∈ (n.peer s).calls)
    (hk : c.kind = .rr) (r : Result) (hd : .delivered c.obj r ∈ (n.peer s).log) :
    .produced c.frame.streamID c.frame.data c.frame.metadata r ∈ (n.peer (other s)).log := by
  obtain ⟨y, h1, h2⟩ := runs_sim h hb
  rw [h2.peer] at hc hd ⊢
  exact responses_reach_own_callers_partial h1 (few_bounded h2 hb) s c hc hk r hd

/-- **C147** (part) While two peers make simple calls over it, every frame that was read is handled without an error, so
the connection stays up. -/
theorem tcp_frames_handled_partial {regs : Side → Reg Unit} (hsm : ∀ s, Handler.Small (regs s)) {subs : Side → List Nat}
    {n : Net} (h : PoliteRuns regs subs n) (hb : Few n) (s : Side) (f : Frame)
    (hf : (n.link (other s)).queue.head? = some f) : ∃ o, handleFrame (H := Unit) (n.peer s).st f = .ok o := by
  obtain ⟨y, h1, h2⟩ := polite_sim h hb
  have hbd := few_bounded h2 hb
  obtain ⟨fs, gs, e1, e2, _⟩ := (h2.dir (other s)).holds
  cases fs with
  | nil => rw [e2] at hf; cases hf
  | cons g fs =>
    rw [e2] at hf
    cases hf
    rw [h2.peer, handle_received (wire_plain (polite_reach h1) hbd (s := other s) (by rw [e1]; simp))]
    exact simple_calls_keep_connection_partial hsm h1 hbd s g (by rw [e1]; rfl)

/-- **C147** (part) A caller is told at most one result, and none before it subscribed. -/
theorem tcp_calls_once_partial {regs : Side → Reg Unit} (hsm : ∀ s, Handler.Small (regs s)) {subs : Side → List Nat}
    {n : Net} (h : PoliteRuns regs subs n) (hb : Few n) (s : Side) (j : Nat) (c : Peers.Call)
    (hc : (n.peer s).calls[j]? = some c) : results c.obj (n.peer s).log ≤ (if j ∈ subs s then 1 else 0) := by
  obtain ⟨y, h1, h2⟩ := polite_sim h hb
  rw [h2.peer] at hc ⊢
  exact (calls_answered_once_partial hsm h1 (few_bounded h2 hb) s j c hc).1

/-- **C147** (part) Whatever the peers and the network do about the simple calls under way, in whatever order, there is
an end of it. When nothing more can be done, every call is done with. -/
theorem tcp_calls_finish_partial {regs : Side → Reg Unit} (hsm : ∀ s, Handler.Small (regs s)) {subs : Side → List Nat}
    {n : Net} (h : PoliteRuns regs subs n) (hb : Few n) :
    ∃ m, ∀ k n', Onward regs n k n' →
      k ≤ m ∧
      ((∀ a, GoesOn regs a → Sane n' a → n'.step a = none) →
        ∀ (s : Side) (j : Nat) (c : Peers.Call), (n'.peer s).calls[j]? = some c → Done subs n'.alone s j c) := by
  obtain ⟨y, h1, h2⟩ := polite_sim h hb
  refine ⟨load n y, fun k n' ho => ?_⟩
  obtain ⟨y', h3, h4, h5, h6⟩ := onward_sim hsm ho h1 h2 hb
  refine ⟨by omega, fun hn s j c hc => ?_⟩
  rcases net_can hsm h3 h4 h5 with hi | ⟨a, n2, ha, hs, hst⟩
  · rw [h4.peer] at hc
    exact done_alone h4 (idle_done hsm h3 (few_bounded h4 h5) hi s hc)
  · rw [hn a ha hs] at hst; cases hst

/-- **C147** (part) From wherever they are, they can go on, without new calls, until every call is done with. -/
theorem tcp_calls_can_finish_partial {regs : Side → Reg Unit} (hsm : ∀ s, Handler.Small (regs s)) {subs : Side → List Nat}
    {n : Net} (h : PoliteRuns regs subs n) (hb : Few n) :
    ∃ k n', Onward regs n k n' ∧ (∀ s, (n'.peer s).calls = (n.peer s).calls) ∧
      ∀ (s : Side) (j : Nat) (c : Peers.Call), (n'.peer s).calls[j]? = some c → Done subs n'.alone s j c := by
  obtain ⟨y, h1, h2⟩ := polite_sim h hb
  clear h
  generalize hm : load n y = m
  induction m using Nat.strongRecOn generalizing n y with
  | ind m ih =>
    rcases net_can hsm h1 h2 hb with hi | ⟨a, n1, ha, hs, hst⟩
    · refine ⟨0, n, .stay n, fun _ => rfl, fun s j c hc => ?_⟩
      rw [h2.peer] at hc
      exact done_alone h2 (idle_done hsm h1 (few_bounded h2 hb) hi s hc)
    · obtain ⟨y1, h3, h4, h5, h6⟩ := net_goes hsm h1 h2 hb ha hs hst
      obtain ⟨k, n', h7, h8, h9⟩ := ih _ (by omega) h5 y1 h3 h4 rfl
      exact ⟨k + 1, n', onward_first ha hs hst h7, fun s => (h8 s).trans (goes_calls ha hst s), h9⟩

/-! ## A run -/

/-- The frames of a step are small. -/
def saneB (n : Net) (a : Net.Act) : Bool :=
  [Side.client, Side.server].all fun s => (n.sends a s).all fun f => decide (bodyLen f + 32 < 2 ^ 32)

theorem saneB_sane {n : Net} {a : Net.Act} (h : saneB n a = true) : Sane n a := by
  intro s f hf
  have h1 := List.all_eq_true.mp h s (by cases s <;> simp)
  exact of_decide_eq_true (List.all_eq_true.mp h1 f hf)

/-- Runs given by their steps. -/
def runNet (n : Net) : List Net.Act → Option Net
  | [] => some n
  | a :: as => if saneB n a then (n.step a).bind fun n' => runNet n' as else none

theorem runNet_polite {regs : Side → Reg Unit} {as : List Net.Act} : ∀ {subs : Side → List Nat} {n n' : Net},
    PoliteRuns regs subs n → runNet n as = some n' →
    (∀ (i : Nat) (a : Net.Act), as[i]? = some a → ∀ b, seenAs a = some b → Allowed regs ((as.take i).foldl noteAct subs) b) →
    PoliteRuns regs (as.foldl noteAct subs) n' := by
  induction as with
  | nil => intro subs n n' hp h _; cases h; exact hp
  | cons a as ih =>
    intro subs n n' hp h ha
    unfold runNet at h
    split at h
    · rename_i hs
      simp only [Option.bind_eq_some_iff] at h
      obtain ⟨n1, h1, h2⟩ := h
      exact ih (.step a hp (saneB_sane hs) (ha 0 a rfl) h1) h2 fun i b hi => ha (i + 1) b hi
    · cases h

/-- A call, its request carried in two pieces, and its answer. -/
def simpleNet : List Net.Act :=
  [.peer (.call .client .rr [1] md0), .peer (.subscribe .client 0), .carry .client 2, .carry .client 19,
   .read .client [], .handle .server, .peer (.run .server reg2 true 0), .peer (.answer .server 0 (.value [20] [])),
   .carry .server 10, .read .server [], .handle .client]

theorem simpleNet_allowed (i : Nat) (a : Net.Act) (h : simpleNet[i]? = some a) (b : Peers.Act) (hb : seenAs a = some b) :
    Allowed (fun _ => reg2) ((simpleNet.take i).foldl noteAct fun _ => []) b := by
  match i, h with
  | 0, h => cases h; cases hb; exact .inl rfl
  | 1, h => cases h; cases hb; exact List.not_mem_nil
  | 2, h => cases h; cases hb
  | 3, h => cases h; cases hb
  | 4, h => cases h; cases hb
  | 5, h => cases h; cases hb; trivial
  | 6, h => cases h; cases hb; rfl
  | 7, h => cases h; cases hb; trivial
  | 8, h => cases h; cases hb
  | 9, h => cases h; cases hb
  | 10, h => cases h; cases hb; trivial
  | i + 11, h => cases h

theorem simpleNet_runs : (runNet Net.init simpleNet).isSome = true := by decide +kernel

theorem simpleNet_starts : (runNet Net.init (simpleNet.take 3)).isSome = true := by decide +kernel

/-- The theorems say something: a call is made, carried in pieces and answered. -/
example : ∃ n subs, PoliteRuns (fun _ => reg2) subs n ∧ Few n ∧ subs .client = [0] ∧
    results 0 (n.peer .client).log = 1 ∧ (n.link .client).writer.sent.length = 21 := by
  refine ⟨(runNet Net.init simpleNet).get simpleNet_runs, _, runNet_polite .init (Option.some_get simpleNet_runs).symm simpleNet_allowed, ?_, rfl, ?_, ?_⟩
  · intro s; cases s <;> decide +kernel
  · decide +kernel
  · decide +kernel

/-- And when the first bytes of the request have been carried, there is something to do. -/
example : ∃ n subs, PoliteRuns (fun _ => reg2) subs n ∧ Few n ∧ subs .client = [0] ∧
    (n.link .client).underway.length = 19 ∧ (n.link .client).queue.length = 0 := by
  refine ⟨(runNet Net.init (simpleNet.take 3)).get simpleNet_starts, _,
    runNet_polite .init (Option.some_get simpleNet_starts).symm fun i a h b hb => ?_, ?_, rfl, ?_, ?_⟩
  · have hi : i < 3 := by
      apply Classical.byContradiction
      intro hi
      rw [List.getElem?_eq_none (by simp only [List.length_take]; omega)] at h
      cases h
    have := simpleNet_allowed i a (by rw [List.getElem?_take_of_lt hi] at h; exact h) b hb
    rwa [List.take_take, Nat.min_eq_left (by omega)]
  · intro s; cases s <;> decide +kernel
  · decide +kernel
  · decide +kernel

end Iota.Props.Net
