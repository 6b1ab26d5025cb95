import Verif.Spec.MixedFinish
import Verif.Props.Mixed
import Verif.Props.RustFinish
import Verif.Props.WasmFinish

/-! # Calls between an end in Go and an end in Rust finish (C177) -/

namespace Iota.Props.MixedFinish
open Iota.Go Iota.Frames Iota.Registry Iota.Rust Iota.Mixed Iota.Spec.Mixed Iota.Spec.MixedFinish Iota.Lemmas.MixedGo
open Iota.WasmDispatch (End Peer)
open Iota.WasmCalls (Node jobOf sentOf)
open Iota.Handler (errorFrame)
open Iota.Peers (Result requestFrame answerFrame isRequest)
open Iota.Spec.RustFinish (frameWork sockWork wireWork taskWork)
open Iota.Spec.RustSocket (drawn yields)
open Iota.Props.Frames (Legal received)
open Iota.Props.RustPair (isReq recvs run_append drawn_append)
open Iota.Props.RustFinish (Alive takes Took Moved moves task_step drop_next)
open Iota.Props.Mixed

variable {H : Type}

/-! ## The Rust end does not crash -/

theorem alive_step {s s' : Sock} {b : SockAct} (h : Alive s) (hd : ∀ i, b ≠ .drop i) (hs : s.step b = some (.ok s')) : Alive s' := by
  cases b with
  | recv f =>
    obtain ⟨s1, h1, h2⟩ := takes h f
    simp only [Sock.step, h1] at hs
    cases hs; exact h2.alive
  | call x md d =>
    simp only [Sock.step] at hs; cases hs
    exact (Iota.Props.RustFinish.call_facts h x md d).1
  | drop i => exact absurd rfl (hd i)
  | task t y =>
    obtain ⟨k, h1, h2⟩ := task_step hs
    have := (moves h1 h2).sinks
    intro q hq
    rw [this] at hq
    exact h q hq

theorem alive_run (R : List SockAct) : ∀ {s s' : Sock}, Alive s → Undropped R → s.run R = some (.ok s') → Alive s' := by
  induction R with
  | nil => intro s s' h _ hr; cases hr; exact h
  | cons b R ih =>
    intro s s' h hd hr
    obtain ⟨s1, h1, h2⟩ := Iota.Lemmas.RustSocket.run_cons hr
    exact ih (alive_step h (fun i he => hd i (by simp [he])) h1) (fun i hi => hd i (List.mem_cons_of_mem _ hi)) h2

section
variable {e : End} {hs : WasmDispatch.Handlers H} {m m' : Mixed H} {R : List SockAct}

theorem Inv.alive (i : Inv e hs m R) (hd : Undropped R) : Alive m.rust :=
  alive_run R (by intro k hk; simp [Sock.init] at hk) hd i.run

/-- **C177, no crash.** The Rust end does not crash, whatever is done there next, if nobody has dropped a result that it waits for. -/
theorem rust_end_never_crashes (h : Runs e hs m R) (hg : Single e m R) (hf : Few m R) (hsm : Small m) (hd : Undropped R) (b : SockAct) :
    m.rust.step b ≠ some .panic ∧ ∀ x, m.rust.step b ≠ some (.err x) := by
  have ha := Inv.alive (inv h hg hf hsm) hd
  cases b with
  | recv f =>
    obtain ⟨s', t1, _⟩ := takes ha f
    simp [Sock.step, t1]
  | call m md d => simp [Sock.step]
  | drop i => simp [Sock.step]
  | task t y =>
    simp only [Sock.step]
    split
    · rename_i k _
      cases m.rust.runTask t y k <;> simp
    · simp

/-! ## What the Go end does -/

theorem refusal_short (md : Bytes) : (Iota.Spec.WasmCalls.refusal md).length ≤ 16 := by
  unfold Iota.Spec.WasmCalls.refusal
  split <;> decide +kernel

/-- The Go end takes a frame up: nothing is sent and no handler starts; a request is work to do. -/
theorem go_recv {n n' : Node H} {out : List Frame} {data : Bytes} {f : Frame}
    (h : goDoes e hs n (.recv data) = some (n', out)) (hd : decodeFrame data = .ok f)
    (hf : (∃ v, f = .request v ∧ Welcome e v) ∨ (∃ v, f = .payload v) ∨ ∃ v, f = .error v) :
    out = [] ∧ n'.calls = n.calls ∧ n'.jobs = n.jobs ∧ n'.made = n.made ∧
      n'.peer.tasks.length = n.peer.tasks.length + (if isRequest f then 1 else 0) := by
  obtain ⟨p, hp, rfl, rfl⟩ := goDoes_eq h
  rcases hf with ⟨v, rfl, hv⟩ | hf
  · obtain ⟨k, hk⟩ : ∃ k, Iota.Handler.kindOf v.frameType = some k := by
      rcases hv.2 with h | ⟨h, _⟩ <;> exact ⟨_, h⟩
    have hp' : p = n.peer.after ⟨n.peer.st, [.request k v.streamID v.data v.metadata v.initialN], []⟩ := by
      simp only [Peer.step] at hp
      split at hp
      · have hp := Option.some.inj hp
        rw [Iota.Lemmas.WasmDispatch.recv_decoded hd] at hp
        simp only [Iota.Lemmas.WasmDispatch.afterDecode, hv.1, Handler.dispatch, hk] at hp
        cases hp; rfl
      · cases hp
    have hn : n.news p = [] := by rw [hp']; exact Iota.Props.WasmCalls.news_after n n.peer rfl _
    refine ⟨by rw [hn]; rfl, rfl, by simp [Node.absorb, hn], rfl, ?_⟩
    show p.tasks.length = _
    rw [hp']; simp [Peer.after, isRequest]
  · have hnq : isRequest f = false := by rcases hf with ⟨v, rfl⟩ | ⟨v, rfl⟩ <;> rfl
    have hnr : ∀ v, f ≠ .request v := by rintro v rfl; cases hnq
    have key : ∀ evs : List (Handler.Ev (H × WasmDispatch.Ctx)), n.news p = evs → (∀ ev ∈ evs, jobOf ev = none ∧ sentOf ev = none) → p.tasks = n.peer.tasks →
        (n.news p).filterMap sentOf = [] ∧ (n.absorb p).calls = n.calls ∧ (n.absorb p).jobs = n.jobs ∧ (n.absorb p).made = n.made ∧
          (n.absorb p).peer.tasks.length = n.peer.tasks.length + (if isRequest f then 1 else 0) := by
      intro evs hn h3 ht
      have e1 : evs.filterMap jobOf = [] := List.filterMap_eq_nil_iff.mpr fun ev hev => (h3 ev hev).1
      have e2 : evs.filterMap sentOf = [] := List.filterMap_eq_nil_iff.mpr fun ev hev => (h3 ev hev).2
      refine ⟨by rw [hn, e2], rfl, by simp [Node.absorb, hn, e1], rfl, ?_⟩
      show p.tasks.length = _
      rw [ht, hnq]; rfl
    rcases Iota.Props.WasmCalls.recv_other hd hnq hp with ⟨_, rfl⟩ | ⟨i, o, _, hdisp, rfl⟩
    · exact key [] (by simp [Node.news]) (fun ev hev => absurd hev List.not_mem_nil) rfl
    · obtain ⟨_, _, _, h4⟩ := Iota.Props.Handler.dispatch_shape hnr hdisp
      obtain ⟨h5, _⟩ := dispatch_meek hf hdisp
      exact key o.evs (by simp [Node.news, Peer.after])
        (fun ev hev => by rcases h4 ev hev with ⟨d, m, rfl⟩ | rfl | ⟨m, rfl⟩ <;> exact ⟨rfl, rfl⟩) (by simp [Peer.after, h5])

/-- The Go end handles a request: it is refused, or a handler starts. -/
theorem go_task {n n' : Node H} {out sent got : List Frame} {t : Nat} {live : Bool} (w : Work e hs n sent got)
    (h : goDoes e hs n (.task t live) = some (n', out)) :
    n'.calls = n.calls ∧ n'.made = n.made ∧ n'.peer.tasks.length + 1 = n.peer.tasks.length ∧
      ((n'.jobs = n.jobs ∧ ∃ id md, out = [errorFrame id (Iota.Spec.WasmCalls.refusal md)]) ∨ (out = [] ∧ ∃ x, n'.jobs = n.jobs ++ [x])) := by
  obtain ⟨p, hp, rfl, rfl⟩ := goDoes_eq h
  obtain ⟨k, id, d, md, x, ht, hr, _, hno⟩ := w.served hp
  have hlt := (List.getElem?_eq_some_iff.mp ht).1
  refine ⟨rfl, rfl, ?_⟩
  show p.tasks.length + 1 = _ ∧ _
  cases hr with
  | refused msg hu h1 h2 h3 h4 =>
    have h2 : p.tasks = n.peer.tasks.eraseIdx t := h2
    have h3 : p.log = n.peer.log ++ [.sent (errorFrame id msg)] := h3
    have hn : n.news p = [.sent (errorFrame id msg)] := by simp [Node.news, h3]
    refine ⟨by rw [h2, List.length_eraseIdx_of_lt hlt]; omega, .inl ⟨by simp [Node.absorb, hn, jobOf], id, md, by rw [hn, ← h4]; rfl⟩⟩
  | run op g cx ts ho hg h1 h2 hts h3 =>
    obtain ⟨c', h3⟩ := h3
    have hts0 : ts = [] := by
      cases ts with
      | nil => rfl
      | cons a l =>
        obtain ⟨i, n, h5⟩ := hts a List.mem_cons_self
        exact absurd h5 (hno a (by rw [h2]; simp) i n)
    subst hts0
    have h2 : p.tasks = n.peer.tasks.eraseIdx t := by rw [h2]; simp
    have hn : n.news p = [.invoked k (g, c') id d (Iota.WasmDispatch.passed e k md)] := by simp [Node.news, h3]
    refine ⟨by rw [h2, List.length_eraseIdx_of_lt hlt]; omega, .inr ⟨by rw [hn]; rfl, _, by simp only [Node.absorb, hn]; rfl⟩⟩

/-! ## There is an end of it -/

theorem frameWork_key (f : Frame) : frameWork (key f) = frameWork f := by cases f <;> rfl

theorem goWire_le {l : List Frame} (h : ∀ f ∈ l, isReq f = false) : goWireWork l ≤ wireWork l := by
  induction l with
  | nil => exact Nat.le_refl _
  | cons f l ih =>
    have h1 := ih fun g hg => h g (List.mem_cons_of_mem _ hg)
    have h2 := h f List.mem_cons_self
    have h3 : goFrameWork f ≤ frameWork f := by
      cases f <;> simp [isReq] at h2 <;> simp [goFrameWork, isRequest, frameWork]
    simp only [goWireWork, wireWork, List.map_cons, List.sum_cons] at h1 ⊢
    omega

theorem no_requests {s s' : Sock} {l : List Frame} (h : s'.out.filter isReq = s.out.filter isReq) (hl : s'.out = s.out ++ l) :
    ∀ f ∈ l, isReq f = false := by
  rw [hl, List.filter_append] at h
  have h1 : l.filter isReq = [] := by simpa using h
  intro f hf
  simpa using (List.filter_eq_nil_iff.mp h1) f hf

theorem wire_drop {l r : List Frame} {n : Nat} (h : n ≤ l.length) : wireWork ((l ++ r).drop n) = wireWork (l.drop n) + wireWork r := by
  rw [List.drop_append_of_le_length h]; simp [wireWork]

theorem goWire_drop {l r : List Frame} {n : Nat} (h : n ≤ l.length) : goWireWork ((l ++ r).drop n) = goWireWork (l.drop n) + goWireWork r := by
  rw [List.drop_append_of_le_length h]; simp [goWireWork]

theorem goes_down (h : Runs e hs m R) (hg : Single e m R) (hf : Few m R) (hsm : Small m) (hd : Undropped R) {a : Iota.Mixed.Act} (ha : Goes a)
    (hst : m.step e hs a = some m') : work m' + 1 ≤ work m := by
  have i := inv h hg hf hsm
  have hpl := i.plain hg
  rcases step_cases hst with ⟨b, s, hb, h1, rfl⟩ | ⟨f, x, rfl, hb, hfs, hx, rfl⟩ | ⟨n, out, hb, h1, rfl⟩
  · cases a with
    | toRust =>
      simp only [Mixed.rustSees] at hb
      split at hb
      · cases hb
      · rename_i f hfs
        split at hb
        · rename_i g hdec
          cases hb
          have hk := key_taken (i.legal_sent hg hf hsm (List.mem_of_getElem? hfs)) hdec
          have hw : frameWork g = frameWork f := by rw [← frameWork_key g, hk, frameWork_key]
          obtain ⟨s1, t1, t2⟩ := takes (Inv.alive i hd) g
          have h1' := h1
          simp only [Sock.step, t1] at h1'
          cases h1'
          obtain ⟨l, o1, o2, _⟩ := t2.work
          have o3 := goWire_le (no_requests (Iota.Lemmas.MixedRust.other_sends hpl (fun _ _ _ he => by cases he) h1).1 o1)
          simp only [work, Iota.Mixed.isRecv, if_true]
          rw [o1, goWire_drop i.goLe, drop_next hfs]
          simp only [wireWork, List.map_cons, List.sum_cons, List.length_cons] at o2 o3 ⊢
          omega
        · cases hb
    | rust b =>
      cases b with
      | task t y =>
        simp only [Mixed.rustSees, Iota.Mixed.isRecv] at hb
        cases hb
        obtain ⟨k, k1, k2⟩ := task_step h1
        obtain ⟨l, o1, o2, _⟩ := (moves k1 k2).work
        have o3 := goWire_le (no_requests (Iota.Lemmas.MixedRust.other_sends hpl (fun _ _ _ he => by cases he) h1).1 o1)
        have hgv : Iota.Spec.RustFinish.gives m.rust (.task t y) = false := by
          have := hpl.tasks k (List.mem_of_getElem? k1)
          simp only [Iota.Spec.RustFinish.gives, k1]
          cases k <;> simp [Iota.Lemmas.MixedRust.small] at this <;> rfl
        rw [hgv] at o2
        simp only [work, Iota.Mixed.isRecv, Bool.false_eq_true, if_false]
        rw [o1, goWire_drop i.goLe]
        simp only [Bool.false_eq_true, if_false] at o2
        omega
      | _ => exact absurd ha (by simp [Goes])
    | go a => cases hb
    | toGo => cases hb
    | toGoRefused => cases hb
  · have hfw : 1 ≤ frameWork f := by
      cases f <;> simp only [frameWork] <;> (repeat' split) <;> first | omega | exact Nat.le_refl _
    simp only [work]
    rw [drop_next hfs, List.drop_append_of_le_length i.refusedLe]
    simp only [wireWork, List.map_cons, List.sum_cons, List.length_cons, List.length_append, List.length_nil]
    omega
  · cases a with
    | toGo =>
      simp only [Mixed.goSees] at h1
      split at h1
      · cases h1
      · rename_i f hfo
        have hmem := List.mem_of_getElem? hfo
        have hdec := (goBytes_eq (i.legal_out hg hf hsm hmem)).2
        have hm := hpl.out f hmem
        obtain ⟨rfl, _, h3, _, h4⟩ := go_recv h1 hdec (by
          cases f with
          | request v => obtain ⟨w, h3, h4⟩ := i.welcome hg hmem; exact .inl ⟨w, h3, h4⟩
          | payload v => exact .inr (.inl ⟨v, rfl⟩)
          | error v => exact .inr (.inr ⟨v, rfl⟩)
          | requestN v => cases hm
          | cancel v => cases hm)
        have hq : isRequest (received f) = isRequest f := by cases f <;> rfl
        rw [hq] at h4
        simp only [work, isToGo, isToGoRefused, Bool.false_eq_true, if_false, if_true, List.append_nil, goWork, h3, h4]
        rw [drop_next hfo]
        simp only [goWireWork, List.map_cons, List.sum_cons, goFrameWork]
        cases isRequest f <;> simp <;> omega
    | toGoRefused =>
      simp only [Mixed.goSees] at h1
      split at h1
      · cases h1
      · rename_i f hfo
        obtain ⟨he, rfl⟩ := i.refused f (List.mem_of_getElem? hfo)
        obtain ⟨rfl, rfl⟩ := i.ignored hf he h1
        simp only [work, isToGo, isToGoRefused, Bool.false_eq_true, if_false, if_true, List.append_nil]
        rw [drop_next hfo, List.length_cons]
        omega
    | go a =>
      cases a with
      | task t live =>
        obtain ⟨_, _, h3, h4⟩ := go_task i.good.work h1
        simp only [work, isToGo, isToGoRefused, Bool.false_eq_true, if_false]
        rw [wire_drop i.rustLe, List.drop_append_of_le_length i.rustLe, List.length_append]
        rcases h4 with ⟨h4, id, md, rfl⟩ | ⟨rfl, x, h4⟩
        · have : wireWork [errorFrame id (Iota.Spec.WasmCalls.refusal md)] = 1 := rfl
          simp only [goWork, h4, this, List.length_cons, List.length_nil]; omega
        · have : wireWork [] = 0 := rfl
          have hx : List.countP (fun j : WasmCalls.Job H => decide (j.kind = .rr)) [x] ≤ 1 := List.countP_le_length
          simp only [goWork, h4, this, List.countP_append, List.length_nil]; omega
      | answer t r =>
        obtain ⟨x, g1, g2, rfl, rfl⟩ := answer_shape h1
        simp only [work, isToGo, isToGoRefused, Bool.false_eq_true, if_false]
        rw [wire_drop i.rustLe, List.drop_append_of_le_length i.rustLe, List.length_append]
        have hw : wireWork [answerFrame x.id r] = 1 := by cases r <;> rfl
        have := Iota.Props.WasmFinish.countP_erase (p := fun j : WasmCalls.Job H => decide (j.kind = .rr)) g1 (by simp [g2])
        simp only [goWork, hw, this, List.length_cons, List.length_nil]; omega
      | _ => exact absurd ha (by simp [Goes])
    | rust a => cases h1
    | toRust => cases h1

/-- No calls are made on the way. -/
theorem goes_same {a : Iota.Mixed.Act} (hg : Single e m R) (hf : Few m R) (hd : Undropped R) (ha : Goes a) (hst : m.step e hs a = some m')
    (htx : e = .guest → Readable m') : Single e m' (R ++ (m.rustSees a).toList) ∧ Few m' (R ++ (m.rustSees a).toList) ∧ Undropped (R ++ (m.rustSees a).toList) := by
  have quiet : ∀ b, m.rustSees a = some b → (∀ x md d, b ≠ .call x md d) ∧ ∀ i, b ≠ .drop i := by
    intro b hb
    cases a with
    | toRust =>
      simp only [Mixed.rustSees] at hb
      split at hb
      · cases hb
      · split at hb
        · cases hb; exact ⟨fun _ _ _ he => by (cases he), fun _ he => by (cases he)⟩
        · cases hb
    | rust b =>
      cases b with
      | task t y => simp only [Mixed.rustSees, Iota.Mixed.isRecv] at hb; cases hb; exact ⟨fun _ _ _ he => by (cases he), fun _ he => by (cases he)⟩
      | _ => exact absurd ha (by simp [Goes])
    | go a => cases hb
    | toGo => cases hb
    | toGoRefused => cases hb
  have hc : m'.go.calls = m.go.calls := by
    rcases step_cases hst with ⟨b, s, hb, h1, rfl⟩ | ⟨f, x, rfl, hb, hfs, hx, rfl⟩ | ⟨n, out, hb, h1, rfl⟩
    · rfl
    · rfl
    · cases a with
      | toGoRefused =>
        simp only [Mixed.goSees] at h1
        split at h1
        · cases h1
        · obtain ⟨p, _, rfl, _⟩ := goDoes_eq h1; rfl
      | toGo =>
        simp only [Mixed.goSees] at h1
        split at h1
        · cases h1
        · obtain ⟨p, _, rfl, _⟩ := goDoes_eq h1; rfl
      | go a =>
        cases a with
        | task t live => obtain ⟨p, _, rfl, _⟩ := goDoes_eq h1; rfl
        | answer t r => obtain ⟨x, _, _, rfl, _⟩ := answer_shape h1; rfl
        | _ => exact absurd ha (by simp [Goes])
      | rust a => cases h1
      | toRust => cases h1
  refine ⟨⟨fun c hcm => hg.go c (by rw [← hc]; exact hcm), fun x md d hx => ?_, htx⟩, ⟨by rw [hc]; exact hf.go, ?_⟩, fun t ht => ?_⟩
  · rcases List.mem_append.mp hx with hx | hx
    · exact hg.rust x md d hx
    · exact absurd rfl ((quiet _ (by simpa using hx)).1 x md d)
  · rw [drawn_append]
    have : drawn (m.rustSees a).toList = 0 := by
      cases hb : m.rustSees a with
      | none => rfl
      | some b =>
        have := (quiet b hb).1
        cases b with
        | call x md d => exact absurd rfl (this x md d)
        | _ => rfl
    have := hf.rust
    omega
  · rcases List.mem_append.mp ht with ht | ht
    · exact hd t ht
    · exact absurd rfl ((quiet _ (by simpa using ht)).2 t)

theorem small_onward {n : Nat} {R' : List SockAct} (ho : Onward e hs n m R m' R') : Small m' → Small m := by
  induction ho with
  | refl => exact id
  | step a _ h1 _ ih => exact fun h => small_before h1 (ih h)

theorem text_before {a : Iota.Mixed.Act} (h : m.step e hs a = some m') (ht : Readable m') : Readable m := by
  obtain ⟨_, _, _, l, hl⟩ := step_grows h
  exact fun j x hx => ht j x (by rw [hl]; exact List.mem_append_left _ hx)

theorem text_onward {n : Nat} {R' : List SockAct} (ho : Onward e hs n m R m' R') : Readable m' → Readable m := by
  induction ho with
  | refl => exact id
  | step a _ h1 _ ih => exact fun h => text_before h1 (ih h)

theorem onward {n : Nat} {R' : List SockAct} (ho : Onward e hs n m R m' R') : Runs e hs m R → Single e m R → Few m R → Undropped R → Small m' → (e = .guest → Readable m') →
    Runs e hs m' R' ∧ Single e m' R' ∧ Few m' R' ∧ Undropped R' ∧ work m' + n ≤ work m := by
  induction ho with
  | refl => exact fun h hg hf hd _ _ => ⟨h, hg, hf, hd, Nat.le_refl _⟩
  | @step n m m1 m' R R' a ha h1 ho ih =>
    intro h hg hf hd hsm htx
    have hsm1 := small_onward ho hsm
    obtain ⟨g1, g2, g3⟩ := goes_same hg hf hd ha h1 (fun he => text_onward ho (htx he))
    obtain ⟨r1, r2, r3, r4, r5⟩ := ih (.step a h h1) g1 g2 g3 hsm htx
    have := goes_down h hg hf (small_before h1 hsm1) hd ha h1
    exact ⟨r1, r2, r3, r4, by omega⟩

/-! ## Something can be done -/

/-- Taking up a single request or its result sends nothing. -/
theorem meek_silent {s s' : Sock} {g : Frame} (h : Iota.Lemmas.MixedRust.Plain s) (hg : Iota.Lemmas.MixedRust.meek g = true)
    (hst : s.step (.recv g) = some (.ok s')) : s'.out = s.out := by
  have rm : ∀ (u : Sock) (sid : UInt32), (u.remove sid).out = u.out := fun u sid => (Iota.Props.RustResponder.remove_tasks u sid).2
  simp only [Sock.step, Option.some.injEq] at hst
  cases g with
  | request v =>
    simp only [Iota.Lemmas.MixedRust.meek, Bool.or_eq_true, decide_eq_true_eq] at hg
    simp only [Sock.processOnce] at hst
    by_cases h1 : v.frameType = tRequestFNF
    · rw [if_pos h1] at hst; cases hst; rfl
    · rw [if_neg h1, if_pos (hg.resolve_right h1)] at hst; cases hst; rfl
  | payload v =>
    simp only [Sock.processOnce, Sock.onPayload] at hst
    cases hst
    split
    · rfl
    · split
      · rfl
      · rename_i k hk
        have := h.sinks k (List.mem_of_getElem? hk)
        split
        · rw [rm]; split <;> rfl
        · rename_i hne; exact absurd this hne
  | error v =>
    simp only [Sock.processOnce, Sock.onError] at hst
    split at hst
    · cases hst; rfl
    · split at hst
      · cases hst; rfl
      · split at hst
        · cases hst; rw [rm]; rfl
        · cases hst
  | requestN v => cases hg
  | cancel v => cases hg

theorem meek_sent (i : Inv e hs m R) (hg : Single e m R) {f g : Frame} (hf : f ∈ m.sent) (hk : key g = key f) : Iota.Lemmas.MixedRust.meek g = true := by
  cases f with
  | request v =>
    obtain ⟨w, rfl, h3, _⟩ := key_request hk
    obtain ⟨c, _, _, _, h4⟩ := i.request_sent hg hf
    simp only [Iota.Lemmas.MixedRust.meek, h3, h4]
    split <;> rfl
  | payload v => cases key_other hk rfl; rfl
  | error v => cases key_other hk rfl; rfl
  | requestN v =>
    rcases i.good.work.shape _ hf rfl with ⟨y, _, h⟩ | ⟨w, msg, _, h, _⟩
    · cases hy : y.2 <;> rw [hy] at h <;> cases h
    · cases h
  | cancel v =>
    rcases i.good.work.shape _ hf rfl with ⟨y, _, h⟩ | ⟨w, msg, _, h, _⟩
    · cases hy : y.2 <;> rw [hy] at h <;> cases h
    · cases h

theorem goes_on (h : Runs e hs m R) (hg : Single e m R) (hf : Few m R) (hsm : Small m) (hd : Undropped R) (hns : ¬ Settled m) :
    ∃ a m', Goes a ∧ m.step e hs a = some m' ∧ Small m' ∧ (e = .guest → Readable m') := by
  have i := inv h hg hf hsm
  have hnc := go_never_crashes h hg hf hsm
  have hr := hg.text
  by_cases ht : m.go.peer.tasks = []
  · have hready : m.go.peer.ready e = true := by
      unfold Peer.ready
      split
      · rfl
      · rw [ht]; rfl
    by_cases hgr : m.goRead < m.rust.out.length
    · obtain ⟨f, hfo⟩ : ∃ f, m.rust.out[m.goRead]? = some f := ⟨_, List.getElem?_eq_getElem hgr⟩
      obtain ⟨p, hp⟩ := hnc.1 f hfo hready
      have hdo : goDoes e hs m.go (.recv (Rust.encode f)) = some (m.go.absorb p, (m.go.news p).filterMap sentOf) := by
        simp only [goDoes, hp]
      have hmem := List.mem_of_getElem? hfo
      have hdec := (goBytes_eq (i.legal_out hg hf hsm hmem)).2
      have hm := (i.plain hg).out f hmem
      obtain ⟨h2, _, _, h3, _⟩ := go_recv hdo hdec (by
        cases f with
        | request v => obtain ⟨w, h3, h4⟩ := i.welcome hg hmem; exact .inl ⟨w, h3, h4⟩
        | payload v => exact .inr (.inl ⟨v, rfl⟩)
        | error v => exact .inr (.inr ⟨v, rfl⟩)
        | requestN v => cases hm
        | cancel v => cases hm)
      refine ⟨.toGo, { m with go := m.go.absorb p, sent := m.sent ++ (m.go.news p).filterMap sentOf, goRead := m.goRead + 1 }, trivial, ?_, ?_, ?_⟩
      · simp only [Mixed.step, Mixed.rustSees, Mixed.refuses, Mixed.goSees, hfo, hdo, isToGo, isToGoRefused, Bool.false_eq_true, if_false, if_true]
      · rw [h2, List.append_nil]; exact hsm
      · intro he j x hx; exact hr he j x (h3 ▸ hx)
    · by_cases hrr : m.rustRead < m.sent.length
      · obtain ⟨f, hfs⟩ : ∃ f, m.sent[m.rustRead]? = some f := ⟨_, List.getElem?_eq_getElem hrr⟩
        have hlg := i.legal_sent hg hf hsm (List.mem_of_getElem? hfs)
        by_cases hbad : ∃ x, Rust.decode (goBytes f) = .err x
        · obtain ⟨x, hx⟩ := hbad
          refine ⟨.toRust, { m with rustRead := m.rustRead + 1, refused := m.refused ++ [complaint e (goBytes f) x] }, trivial, ?_, hsm, hr⟩
          simp only [Mixed.step, Mixed.rustSees, Mixed.refuses, hfs, hx]
        obtain ⟨g, hdec⟩ := (decodes hlg).1 (fun v hv => by
          cases hu : Rust.isUtf8 v.data with
          | true => rfl
          | false => exact absurd ((decodes hlg).2 v hv hu) hbad)
        obtain ⟨s1, t1, t2⟩ := takes (Inv.alive i hd) g
        have hst : m.rust.step (.recv g) = some (.ok s1) := by simp only [Sock.step, t1]
        refine ⟨.toRust, { m with rust := s1, rustRead := m.rustRead + 1 }, trivial, ?_, ⟨hsm.1, fun x hx => ?_⟩, hr⟩
        · simp only [Mixed.step, Mixed.rustSees, hfs, hdec, hst, Iota.Mixed.isRecv, if_true]
        · have hk := key_taken (i.legal_sent hg hf hsm (List.mem_of_getElem? hfs)) hdec
          have hmk := meek_sent i hg (List.mem_of_getElem? hfs) hk
          rw [meek_silent (i.plain hg) hmk hst] at hx
          exact hsm.2 x hx
      · by_cases hrt : ∃ k, some k ∈ m.rust.tasks
        · obtain ⟨k, hk⟩ := hrt
          obtain ⟨t, htk⟩ := List.mem_iff_getElem?.mp hk
          have hsml := (i.plain hg).tasks k hk
          have fit : ∀ sid, Fits (newPayload sid [] [] (Rust.flagNext ||| Rust.flagComplete)) := by
            intro sid; simp [Fits, newPayload]
          cases k with
          | rr sid =>
            have hst : m.rust.step (.task t (.ok [] [])) = some (.ok ({ m.rust with tasks := m.rust.tasks.set t none }.send
                (newPayload sid [] [] (Rust.flagNext ||| Rust.flagComplete)))) := by
              simp only [Sock.step, htk, Sock.runTask, Option.map_some]
            refine ⟨.rust (.task t (.ok [] [])), { m with rust := Sock.send { m.rust with tasks := m.rust.tasks.set t none } (newPayload sid [] [] (Rust.flagNext ||| Rust.flagComplete)) }, trivial, by simp only [Mixed.step, Mixed.rustSees, Iota.Mixed.isRecv, Bool.false_eq_true, if_false, hst], ⟨hsm.1, fun x hx => ?_⟩, hr⟩
            rcases List.mem_append.mp hx with hx | hx
            · exact hsm.2 x hx
            · cases List.mem_singleton.mp hx; exact fit sid
          | fnf sid =>
            have hst : m.rust.step (.task t (.ok [] [])) = some (.ok { m.rust with tasks := m.rust.tasks.set t none }) := by
              simp only [Sock.step, htk, Sock.runTask, Option.map_some]
            exact ⟨.rust (.task t (.ok [] [])), { m with rust := { m.rust with tasks := m.rust.tasks.set t none } }, trivial, by simp only [Mixed.step, Mixed.rustSees, Iota.Mixed.isRecv, Bool.false_eq_true, if_false, hst], hsm, hr⟩
          | _ => cases hsml
        · by_cases hj : ∃ x ∈ m.go.jobs, x.kind = .rr
          · obtain ⟨x, hx, hk⟩ := hj
            obtain ⟨t, htj⟩ := List.mem_iff_getElem?.mp hx
            have hans : m.go.answer t (.value [] []) = some ({ m.go with jobs := m.go.jobs.eraseIdx t, made := m.go.made ++ [(x, .value [] [])] },
                [answerFrame x.id (.value [] [])]) := by
              simp only [Node.answer, htj, hk, if_true]
            refine ⟨.go (.answer t (.value [] [])), { m with go := { m.go with jobs := m.go.jobs.eraseIdx t, made := m.go.made ++ [(x, .value [] [])] }, sent := m.sent ++ [answerFrame x.id (.value [] [])] }, trivial, by simp only [Mixed.step, Mixed.rustSees, Mixed.refuses, Mixed.goSees, goStep, hans, isToGo, isToGoRefused, Bool.false_eq_true, if_false], ⟨fun f hfm => ?_, hsm.2⟩, fun he j y hy => ?_⟩
            · rcases List.mem_append.mp hfm with hfm | hfm
              · exact hsm.1 f hfm
              · cases List.mem_singleton.mp hfm; simp [Fits, answerFrame]
            · rcases List.mem_append.mp hy with hy | hy
              · exact hr he j y hy
              · simp at hy
          · by_cases hrf : m.refusedRead < m.refused.length
            · obtain ⟨f, hfo⟩ : ∃ f, m.refused[m.refusedRead]? = some f := ⟨_, List.getElem?_eq_getElem hrf⟩
              obtain ⟨p, hp⟩ := hnc.2.1 f hfo hready
              have hdo : goDoes e hs m.go (.recv (Rust.encode f)) = some (m.go.absorb p, (m.go.news p).filterMap sentOf) := by
                simp only [goDoes, hp]
              obtain ⟨he, rfl⟩ := i.refused f (List.mem_of_getElem? hfo)
              obtain ⟨e1, e2⟩ := i.ignored hf he hdo
              rw [e1, e2] at hdo
              refine ⟨.toGoRefused, { m with sent := m.sent ++ [], refusedRead := m.refusedRead + 1 }, trivial, ?_, by rw [List.append_nil]; exact hsm, hr⟩
              simp only [Mixed.step, Mixed.rustSees, Mixed.refuses, Mixed.goSees, hfo, hdo, isToGo, isToGoRefused, Bool.false_eq_true, if_false, if_true]
            refine absurd ⟨?_, ?_, ?_, ?_, ht, fun x hx hk => hj ⟨x, hx, hk⟩⟩ hns
            · have := i.goLe; omega
            · have := i.refusedLe; omega
            · have := i.rustLe; omega
            · intro t htm
              cases t with
              | none => rfl
              | some k => exact absurd ⟨k, htm⟩ hrt
  · obtain ⟨p, hp⟩ := hnc.2.2 0 true (List.length_pos_iff.mpr ht)
    have hdo : goDoes e hs m.go (.task 0 true) = some (m.go.absorb p, (m.go.news p).filterMap sentOf) := by
      simp only [goDoes, hp]
    obtain ⟨_, h3, _, h4⟩ := go_task i.good.work hdo
    refine ⟨.go (.task 0 true), { m with go := m.go.absorb p, sent := m.sent ++ (m.go.news p).filterMap sentOf }, trivial, ?_, ⟨fun f hfm => ?_, hsm.2⟩, ?_⟩
    · simp only [Mixed.step, Mixed.rustSees, Mixed.refuses, Mixed.goSees, goStep, hdo, isToGo, isToGoRefused, Bool.false_eq_true, if_false]
    · rcases List.mem_append.mp hfm with hfm | hfm
      · exact hsm.1 f hfm
      · rcases h4 with ⟨_, id, md, h5⟩ | ⟨h5, _⟩
        · rw [h5] at hfm
          cases List.mem_singleton.mp hfm
          have := refusal_short md
          show (Iota.Spec.WasmCalls.refusal md).length + 10 < 2 ^ 32
          omega
        · rw [h5] at hfm; exact absurd hfm List.not_mem_nil
    · intro he j x hx; exact hr he j x (h3 ▸ hx)

/-! ## When nothing is left to do -/

theorem answered (h : Runs e hs m R) (hg : Single e m R) (hf : Few m R) (hsm : Small m) (hd : Undropped R) (hset : Settled m) : Answered e hs m R := by
  have i := inv h hg hf hsm
  refine ⟨fun j c hc hk => ?_, fun j c hc hk ho => ?_, fun as bs x md d s1 hR h1 hu => ?_, fun as bs md d s1 hR h1 => ?_⟩
  · exact ((go_requests_handled h hg hf hsm).1 j c hc).2 hset.rustRead hk
  · obtain ⟨r, hr⟩ := go_calls_settle h hg hf hsm hset j c hc hk ho
    obtain ⟨v, h1, hid⟩ := i.heard_call hg hf hsm hset.rustRead hc (.inr ho)
    obtain ⟨bef, rest, s1, hR, hrun⟩ := i.taken h1
    have ht : Taken (decide (e = .host)) R c s1.tasks.length rest := ⟨bef, v, s1, hR, hid, hrun, rfl⟩
    have h2 := ((go_callers_told h hg hf hsm j c hc hk).1 _ _ ht).2 hset.goRead
    rw [hr] at h2
    refine ⟨r, hr, s1.tasks.length, rest, ?_⟩
    cases hy : (yields s1.tasks.length rest).head? with
    | none => rw [hy] at h2; cases h2
    | some y =>
      rw [hy] at h2
      refine ⟨y, ht, rfl, ?_⟩
      cases hz : toldGo y with
      | none => simp [hz] at h2
      | some z => simp [hz] at h2; rw [h2]
  · exact ((rust_requests_handled h hg hf hsm).1 as bs x md d s1 hR h1).2.2 hset.goRead hset.tasks hu
  · have hall := i.run
    rw [hR, run_append _ h1] at hall
    obtain ⟨s2, q1, q2⟩ := Iota.Lemmas.RustSocket.run_cons hall
    have hlen : s1.sinks.length < m.rust.sinks.length := by
      refine Nat.lt_of_lt_of_le ?_ (Iota.Props.RustFinish.sinks_run _ q2)
      simp only [Sock.step, Option.some.injEq, Res.ok.injEq] at q1
      subst q1
      show _ < ((s1.draw.remove s1.next).sinks ++ _).length
      rw [List.length_append, Iota.Lemmas.RustSocket.remove_sinks_length]; simp [Sock.draw]
    have hk : m.rust.sinks[s1.sinks.length]? = some (m.rust.sinks[s1.sinks.length]) := List.getElem?_eq_getElem hlen
    have hl := Inv.alive i hd _ (List.mem_of_getElem? hk)
    obtain ⟨k1, k2⟩ := rust_callers_told h hg hf hsm as bs md d hR s1 h1 _ hk hl
    refine ⟨_, hk, ?_⟩
    rcases k1 with ⟨k3, k4⟩ | ⟨r, k3, k4, k5⟩
    · rcases k2 hset with hc | hb
      · rw [hc] at k4; cases k4
      · exact .inr ⟨k4, k3, hb⟩
    · exact .inl ⟨k4, r, k3, k5⟩

/-! ## The theorems -/

/-- **C177** Whatever is done about the calls under way, in whatever order, there is an end of it, after no more steps than `work` says, which
only depends on where the ends are. When nothing more can be done, every call is done with. -/
theorem mixed_calls_finish_partial {n : Nat} {R' : List SockAct} (h : Runs e hs m R) (hg : Single e m R) (hf : Few m R) (hd : Undropped R)
    (ho : Onward e hs n m R m' R') (hsm : Small m') (htx : e = .guest → Readable m') :
    n ≤ work m ∧ ((∀ a, Goes a → m'.step e hs a = none) → Settled m' ∧ Answered e hs m' R') := by
  obtain ⟨o1, o2, o3, o4, o5⟩ := onward ho h hg hf hd hsm htx
  refine ⟨by omega, fun hno => ?_⟩
  have hs' : Settled m' := Classical.byContradiction fun hns => by
    obtain ⟨a, m2, c1, c2, _⟩ := goes_on o1 o2 o3 hsm o4 hns
    rw [hno a c1] at c2
    cases c2
  exact ⟨hs', answered o1 o2 o3 hsm o4 hs'⟩

/-- **C177** From wherever the ends are, they can go on, without new calls, until every call is done with. -/
theorem mixed_calls_can_finish_partial (h : Runs e hs m R) (hg : Single e m R) (hf : Few m R) (hsm : Small m) (hd : Undropped R) :
    ∃ n m' R', Onward e hs n m R m' R' ∧ n ≤ work m ∧ Settled m' ∧ Answered e hs m' R' := by
  generalize hw : work m = w
  induction w using Nat.strongRecOn generalizing m R with
  | ind w ih =>
    by_cases hs' : Settled m
    · exact ⟨0, m, R, .refl m R, Nat.zero_le _, hs', answered h hg hf hsm hd hs'⟩
    · obtain ⟨a, m1, c1, c2, c3, c4⟩ := goes_on h hg hf hsm hd hs'
      have hdown := goes_down h hg hf hsm hd c1 c2
      obtain ⟨g1, g2, g3⟩ := goes_same hg hf hd c1 c2 c4
      obtain ⟨n, m', R', i1, i2, i3, i4⟩ := ih (work m1) (by omega) (.step a h c2) g1 g2 c3 g3 rfl
      exact ⟨n + 1, m', R', .step a c1 c2 i1, by omega, i3, i4⟩

end

/-! ### Cases -/

open Iota.Props.WasmDispatch (hs2)

/-- Is nothing dropped? -/
def kept (R : List SockAct) : Bool := R.all fun a => match a with | .drop _ => false | _ => true

theorem kept_all {R : List SockAct} (h : kept R = true) : Undropped R := by
  simp only [kept, List.all_eq_true] at h
  exact fun i hi => (by have := h _ hi; cases this)

/-- Three calls of a Go host and three of its Rust guest are under way: 22 steps at most. -/
example : ∃ (m : Mixed Nat) (R : List SockAct), Runs .host hs2 m R ∧ (Single .host m R ∧ Few m R ∧ Small m) ∧ Undropped R ∧
    ¬ Settled m ∧ work m = 22 ∧ m.go.calls.length = 3 ∧ m.rust.sinks.length = 2 :=
  play_ends (l := demo.take 12) _ (fun m R => fine .host m R && kept R && decide (m.goRead = 3 ∧ m.rustRead = 0 ∧ m.sent.length = 4 ∧ work m = 22 ∧
      m.go.calls.length = 3 ∧ m.rust.sinks.length = 2))
    (fun m R h => by
      simp only [Bool.and_eq_true, decide_eq_true_eq] at h
      exact ⟨fine_all h.1.1, kept_all h.1.2, fun hs => by have := hs.rustRead; omega, h.2.2.2.2⟩)
    (by decide +kernel)

theorem play_on {e : End} {hs : WasmDispatch.Handlers H} (l : List Iota.Mixed.Act) : ∀ {m : Mixed H} {R : List SockAct} {r : Mixed H × List SockAct},
    (∀ a ∈ l, Goes a) → play e hs m R l = some r → Onward e hs l.length m R r.1 r.2 := by
  induction l with
  | nil => intro m R r _ h; cases h; exact .refl _ _
  | cons a l ih =>
    intro m R r ha h
    simp only [play] at h
    split at h
    · rename_i m1 h1
      exact .step a (ha a List.mem_cons_self) h1 (ih (fun b hb => ha b (List.mem_cons_of_mem _ hb)) h)
    · cases h

/-- Going on from there until all is done: the other 14 steps of the same run. -/
example : ∃ (m m' : Mixed Nat) (R R' : List SockAct), Runs .host hs2 m R ∧ Onward .host hs2 14 m R m' R' ∧ Small m' ∧ Settled m' := by
  obtain ⟨m, R, h1, m', R', h2, h3⟩ : ∃ (m : Mixed Nat) (R : List SockAct), Runs .host hs2 m R ∧
      ∃ m' R', play .host hs2 m R (demo.drop 12) = some (m', R') ∧ (fine .host m' R' && kept R' && idle m') = true :=
    play_ends (l := demo.take 12) _ (fun m R => (play .host hs2 m R (demo.drop 12)).any fun r => fine .host r.1 r.2 && kept r.2 && idle r.1)
      (fun m R h => by
        cases hp : play .host hs2 m R (demo.drop 12) with
        | none => rw [hp] at h; cases h
        | some r => rw [hp] at h; exact ⟨r.1, r.2, rfl, h⟩)
      (by decide +kernel)
  simp only [Bool.and_eq_true] at h3
  refine ⟨m, m', R, R', h1, play_on (demo.drop 12) (fun a ha => ?_) h2, (fine_all h3.1.1).2.2, idle_settled h3.2⟩
  simp only [demo, List.drop_succ_cons, List.drop_zero, List.mem_cons, List.not_mem_nil, or_false] at ha
  rcases ha with rfl | rfl | rfl | rfl | rfl | rfl | rfl | rfl | rfl | rfl | rfl | rfl | rfl | rfl <;> trivial

/-- Two calls of a Rust guest and one of its Go host are under way, 14 steps at most. The handler of the first fails with an error that is not
UTF-8: after 12 steps all is done. -/
example : ∃ (m m' : Mixed Nat) (R R' : List SockAct), Runs .host hs2 m R ∧ work m = 14 ∧ Onward .host hs2 12 m R m' R' ∧ Small m' ∧ Settled m' ∧
    m'.rust.sinks.map (fun k => (k.got, k.closed)) = [([], false), ([.err 0 [104]], true)] := by
  obtain ⟨m, R, h1, m', R', h2, hw, h3, h4⟩ : ∃ (m : Mixed Nat) (R : List SockAct), Runs .host hs2 m R ∧
      ∃ m' R', play .host hs2 m R (demoUnread.drop 4) = some (m', R') ∧ work m = 14 ∧ (fine .host m' R' && idle m') = true ∧
        m'.rust.sinks.map (fun k => (k.got, k.closed)) = [([], false), ([.err 0 [104]], true)] :=
    play_ends (l := demoUnread.take 4) _ (fun m R => (play .host hs2 m R (demoUnread.drop 4)).any fun r => decide (work m = 14) &&
        (fine .host r.1 r.2 && idle r.1) && decide (r.1.rust.sinks.map (fun k => (k.got, k.closed)) = [([], false), ([.err 0 [104]], true)]))
      (fun m R h => by
        cases hp : play .host hs2 m R (demoUnread.drop 4) with
        | none => rw [hp] at h; cases h
        | some r =>
          rw [hp, Option.any_some, Bool.and_eq_true, Bool.and_eq_true, decide_eq_true_eq, decide_eq_true_eq] at h
          exact ⟨r.1, r.2, rfl, h.1.1, h.1.2, h.2⟩)
      (by decide +kernel)
  simp only [Bool.and_eq_true] at h3
  refine ⟨m, m', R, R', h1, hw, play_on (demoUnread.drop 4) (fun a ha => ?_) h2, (fine_all h3.1).2.2, idle_settled h3.2, h4⟩
  simp only [demoUnread, List.drop_succ_cons, List.drop_zero, List.mem_cons, List.not_mem_nil, or_false] at ha
  rcases ha with rfl | rfl | rfl | rfl | rfl | rfl | rfl | rfl | rfl | rfl | rfl | rfl <;> trivial

end Iota.Props.MixedFinish
