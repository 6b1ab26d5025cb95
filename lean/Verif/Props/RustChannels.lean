import Verif.Lemmas.RustChannels

/-!
# C180: channels between a host and a guest written in Rust
-/

namespace Iota.Props.RustChannels
open Iota.Go Iota.Frames Iota.Rust Iota.Spec.RustSocket Iota.Spec.RustPair Iota.Spec.RustChannels Iota.Lemmas.RustSocket
open Iota.Props.RustResponder Iota.Props.RustPair Iota.Lemmas.RustChannels
open Iota.Props.RustChannel (Avoids feeds_call avoids_later)
open Iota.Props.RustSocket (WF)

/-! ## The ids of a call -/

section
variable {p : Pair} {H : Bool → List SockAct} {e : Bool} {as bs : List SockAct} {m : Method} {md d : Bytes} {s1 : Sock}

/-- When the call was made, nothing was sent under its id. -/
theorem unused (c : Made p H e as bs m md d s1) : ∀ g ∈ s1.out, g.streamID ≠ s1.next := by
  obtain ⟨p1, H1, g1, g2, _, rfl⟩ := c.then_
  intro g hg he
  have hk := ((inv g1 g2 e).outIds g hg).1
  have ho : RustPair.own e g.streamID := by rw [he]; exact (inv g1 g2 e).par
  have := hk ho
  rw [he] at this
  omega

theorem unasked (c : Made p H e as bs m md d s1) : ∀ v, SockAct.recv (.request v) ∈ H e → v.streamID ≠ s1.next := by
  intro v hv hs
  have hr := (Runs.each c.runs e).2.1
  have hm : Frame.request v ∈ (p.sock (!e)).out := List.mem_of_mem_take (i := p.read e) (by rw [← hr]; exact mem_recvs.mpr hv)
  have := (inv c.runs c.few (!e)).reqs _ hm rfl
  rw [show (Frame.request v).streamID = s1.next from hs] at this
  exact not_both c.own this

/-- The other end draws no such id. -/
theorem avoids_foreign {next sid : UInt32} (h : next.toNat % 2 ≠ sid.toNat % 2) (n : Nat) : Avoids next sid n := by
  intro i _ he
  apply h
  rw [← he, UInt32.toNat_add, UInt32.toNat_ofNat']
  have := next.toNat_lt
  omega

/-- At most one request is sent under the id. -/
theorem asked_once (c : Made p H e as bs m md d s1) (n : Nat) : ((p.sock e).out.take n).countP (reqFor s1.next) ≤ 1 := by
  have := (inv c.runs c.few e).once s1.next
  have hle : ((p.sock e).out.take n).countP (reqFor s1.next) ≤ (p.sock e).out.countP (reqFor s1.next) := (List.take_sublist _ _).countP_le
  omega

/-- The handler of the call is run at most once. -/
theorem runs_once (c : Made p H e as bs m md d s1) : (p.sock (!e)).runs.countP (runFor s1.next) ≤ 1 := by
  have h1 := (inv c.runs c.few (!e)).ran s1.next
  simp only [Bool.not_not] at h1
  have := asked_once c (p.read (!e))
  omega

theorem dem (c : Made p H e as bs m md d s1) : Dem (p.sock (!e)) :=
  Dem.run (H (!e)) ⟨fun _ => by simp [Sock.init], fun v hv => by simp [Sock.init] at hv⟩ (Runs.each c.runs (!e)).1

end

/-! ## What the input sends -/

section
variable {p : Pair} {H : Bool → List SockAct} {e : Bool} {as bs : List SockAct} {md d : Bytes} {s1 : Sock}

theorem mem_wishes {sid n : UInt32} {as : List SockAct} (h : n ∈ wishes sid as) :
    ∃ v, SockAct.recv (.requestN v) ∈ as ∧ v.streamID = sid ∧ v.n = n := by
  induction as with
  | nil => cases h
  | cons a as ih =>
    cases a with
    | recv f =>
      simp only [wishes, List.mem_append] at h
      rcases h with h | h
      · cases f with
        | requestN v =>
          simp only [wish] at h
          split at h
          · rename_i e
            exact ⟨v, by simp, e, (List.mem_singleton.mp h).symm⟩
          · cases h
        | _ => cases h
      · obtain ⟨v, h1, h2⟩ := ih h
        exact ⟨v, List.mem_cons_of_mem _ h1, h2⟩
    | _ =>
      obtain ⟨v, h1, h2⟩ := ih h
      exact ⟨v, List.mem_cons_of_mem _ h1, h2⟩

theorem wishes_length (sid : UInt32) (as : List SockAct) : (wishes sid as).length = (recvs as).countP (demandFor sid) := by
  induction as with
  | nil => rfl
  | cons a as ih =>
    cases a with
    | recv f =>
      rw [show recvs (.recv f :: as) = f :: recvs as from rfl, List.countP_cons, wishes, List.length_append, ih]
      cases f with
      | requestN v => by_cases e : v.streamID = sid <;> simp [wish, demandFor, isDemand, Frame.streamID, e, Nat.add_comm]
      | _ => simp [wish, demandFor, isDemand]
    | _ => exact ih

theorem recv_out (c : Made p H e as bs .rc md d s1) {f : Frame} (hf : SockAct.recv f ∈ bs) : f ∈ (p.sock (!e)).out := by
  have hr := (Runs.each c.runs e).2.1
  refine List.mem_of_mem_take (i := p.read e) ?_
  rw [← hr, c.split, mem_recvs]
  exact List.mem_append_right _ (List.mem_cons_of_mem _ hf)

theorem request_out (s : Sock) (md d : Bytes) : (s.request .rc md d).out = s.out := by
  obtain ⟨l, ho, hl⟩ := (called s .rc md d).out
  rcases hl with ⟨_, rfl⟩ | ⟨v, _, _, _, hx⟩
  · rw [ho, List.append_nil]
  · exact absurd rfl hx

/-- What a channel call sent, and was asked for. -/
theorem sends (c : Made p H e as bs .rc md d s1) :
    feedAhead s1.next (some (true, 1)) (wishes s1.next bs) (yields s1.tasks.length bs) =
      some ((p.sock e).out.filter (under s1.next)) ∧ (wishes s1.next bs).length ≤ 1 := by
  have hcounts := c.counts
  have hF := feeds_call c.before (by omega) (by rw [c.early]; intro f hf; cases hf) md d
  have hFed : Fed (s1.request .rc md d) s1.next s1.tasks.length s1.queues.length (some (true, 1)) [] :=
    ⟨hF.at_, hF.queue, hF.other, hF.chans, fun _ => (hF.open_ _ rfl).1⟩
  have ho := request_out s1 md d
  have hu := unused c
  have hE : Early (s1.request .rc md d) s1.next (some (true, 1)) [] := by
    refine ⟨rfl, .inr (.inl rfl), fun _ g hg => ?_⟩
    rw [ho] at hg
    simp [reqFor, hu g hg]
  have hw : (wishes s1.next bs).length ≤ 1 := by
    have h1 : (wishes s1.next bs).length ≤ (recvs (H e)).countP (demandFor s1.next) := by
      rw [wishes_length, c.split, recvs_append, List.countP_append]
      show _ ≤ _ + (recvs bs).countP _
      omega
    rw [(Runs.each c.runs e).2.1] at h1
    have h2 : ((p.sock (!e)).out.take (p.read e)).countP (demandFor s1.next) ≤ (p.sock (!e)).out.countP (demandFor s1.next) :=
      (List.take_sublist _ _).countP_le
    have h3 := (dem c).count s1.next
    have h4 := runs_once c
    omega
  have hrun : (s1.request .rc md d).run bs = some (.ok (p.sock e)) := by
    have := c.after
    simpa [Sock.run, Sock.step] using this
  obtain ⟨fs, f1, f2⟩ := fed_run bs (b := true) hFed (fun _ => hE) (by rw [call_next]; exact avoids_later _ _ (by omega))
    (fun v hv => unasked c v (by rw [c.split]; exact List.mem_append_right _ (List.mem_cons_of_mem _ hv))) (by simpa using hw)
    (by
      intro n hn
      obtain ⟨v, v1, _, rfl⟩ := mem_wishes hn
      rw [(dem c).all v (recv_out c v1)]
      decide)
    (by
      rintro as1 v as2 s2 rfl hv hr2
      obtain ⟨p1, H1, g1, g2, g3⟩ := Runs.before c.runs e (as ++ .call .rc md d :: (as1 ++ [.recv (.requestN v)])) as2
        (by rw [c.split]; simp)
      have hf1 := Few.prefix c.few g3
      have hin : Frame.requestN v ∈ (p1.sock (!e)).out := by
        refine List.mem_of_mem_take (i := p1.read e) ?_
        rw [← (Runs.each g1 e).2.1, g2, mem_recvs]
        simp
      obtain ⟨g, hg, hg1, hg2⟩ := (inv g1 hf1 (!e)).demands _ hin rfl
      rw [Bool.not_not] at hg
      have hr1 := (Runs.each g1 e).1
      rw [g2, run_append _ c.before] at hr1
      have hr1' : (s1.request .rc md d).run (as1 ++ [.recv (.requestN v)]) = some (.ok (p1.sock e)) := by
        simpa [Sock.run, Sock.step] using hr1
      rw [run_append _ hr2] at hr1'
      obtain ⟨s3, h3, h4⟩ := run_cons hr1'
      simp only [Sock.run, Option.some.injEq, Res.ok.injEq] at h4
      subst h4
      simp only [Sock.step, Option.some.injEq] at h3
      obtain ⟨l, hl, hl'⟩ := (processed h3).out
      rw [hl, List.mem_append] at hg
      rcases hg with hg | hg
      · exact ⟨g, hg, reqFor_iff.mpr ⟨opens_req hg1, by rw [hg2]; exact hv⟩⟩
      · have := (hl' g hg).2.1
        cases g <;> simp_all [opens, isRequesting])
    hrun
  refine ⟨?_, hw⟩
  rw [f2, ho, under_other hu, List.nil_append]
  simpa using f1

/-- What a channel call sent is what its input gave. -/
theorem sends_given (c : Made p H e as bs .rc md d s1) :
    (p.sock e).out.filter (under s1.next) = fed s1.next true (given (yields s1.tasks.length bs)) := by
  obtain ⟨h1, h2⟩ := sends c
  exact ahead_given _ _ h2 _ _ h1

theorem yields_split {t : Nat} (bs : List SockAct) : ∀ {ys : List Yield} {y w : Yield}, yields t bs = y :: w :: ys →
    ∃ b1 b2, bs = b1 ++ .task t w :: b2 ∧ yields t b1 = [y] := by
  have one : ∀ (bs : List SockAct) {ys : List Yield} {w : Yield}, yields t bs = w :: ys →
      ∃ b1 b2, bs = b1 ++ .task t w :: b2 ∧ yields t b1 = [] := by
    intro bs
    induction bs with
    | nil => intro ys w h; cases h
    | cons a bs ih =>
      intro ys w h
      by_cases ha : ∃ y, a = .task t y
      · obtain ⟨y, rfl⟩ := ha
        simp only [yields, if_pos, List.cons.injEq] at h
        obtain ⟨rfl, rfl⟩ := h
        exact ⟨[], bs, rfl, rfl⟩
      · rw [yields_other bs (fun y hy => ha ⟨y, hy⟩)] at h
        obtain ⟨b1, b2, rfl, h2⟩ := ih h
        exact ⟨a :: b1, b2, rfl, by rw [yields_other b1 (fun y hy => ha ⟨y, hy⟩)]; exact h2⟩
  induction bs with
  | nil => intro ys y w h; cases h
  | cons a bs ih =>
    intro ys y w h
    by_cases ha : ∃ y, a = .task t y
    · obtain ⟨y', rfl⟩ := ha
      simp only [yields, if_pos, List.cons.injEq] at h
      obtain ⟨rfl, h⟩ := h
      obtain ⟨b1, b2, rfl, h2⟩ := one bs h
      exact ⟨.task t y' :: b1, b2, rfl, by simp [yields, h2]⟩
    · rw [yields_other bs (fun y hy => ha ⟨y, hy⟩)] at h
      obtain ⟨b1, b2, rfl, h2⟩ := ih h
      exact ⟨a :: b1, b2, rfl, by rw [yields_other b1 (fun y hy => ha ⟨y, hy⟩)]; exact h2⟩

theorem fed_later (sid : UInt32) (ys : List Yield) : ∀ f ∈ fed sid false ys, isReq f = false := by
  induction ys with
  | nil => intro f hf; cases hf
  | cons y ys ih =>
    intro f hf
    cases y with
    | ok md d =>
      simp only [fed, Bool.false_eq_true, if_false, List.mem_cons] at hf
      rcases hf with rfl | hf
      · rfl
      · exact ih f hf
    | err e =>
      simp only [fed, List.mem_cons] at hf
      rcases hf with rfl | hf
      · rfl
      · exact ih f hf
    | done =>
      simp only [fed, List.mem_singleton] at hf
      subst hf
      rfl

/-- If a request was sent, the first thing that the input gave was an element. -/
theorem first_given (c : Made p H e as bs .rc md d s1) {f : Frame} (hf : f ∈ (p.sock e).out) (hr : isReq f = true)
    (hs : f.streamID = s1.next) :
    ∃ md' d' ys, given (yields s1.tasks.length bs) = .ok md' d' :: ys ∧
      f = newRequest tRequestChannel s1.next md' d' Rust.flagNext requestMax := by
  have hm : f ∈ (p.sock e).out.filter (under s1.next) := by
    refine List.mem_filter.mpr ⟨hf, ?_⟩
    cases f <;> simp_all [under, isReq, isCancel]
  rw [sends_given c] at hm
  cases hg : given (yields s1.tasks.length bs) with
  | nil => rw [hg] at hm; cases hm
  | cons y ys =>
    rw [hg] at hm
    cases y with
    | ok md' d' =>
      refine ⟨md', d', ys, rfl, ?_⟩
      simp only [fed, if_true, List.mem_cons] at hm
      rcases hm with hm | hm
      · exact hm
      · rw [fed_later _ _ f hm] at hr; cases hr
    | done =>
      simp only [fed, List.mem_singleton] at hm
      rw [hm] at hr
      cases hr
    | err x =>
      exfalso
      cases hy : yields s1.tasks.length bs with
      | nil => rw [hy] at hg; cases hg
      | cons y1 r =>
        cases r with
        | nil =>
          rw [hy] at hg
          simp only [given, List.take_succ_cons, List.take_zero, List.drop_succ_cons, List.drop_nil, List.append_nil,
            List.cons.injEq] at hg
          obtain ⟨_, rfl⟩ := hg
          simp only [fed, List.mem_singleton] at hm
          rw [hm] at hr
          cases hr
        | cons w r =>
          have hy1 : y1 = .err x := by
            rw [hy] at hg
            simp only [given, List.take_succ_cons, List.take_zero, List.cons_append, List.cons.injEq] at hg
            exact hg.1
          subst hy1
          obtain ⟨b1, b2, rfl, hb1⟩ := yields_split bs hy
          obtain ⟨p1, H1, g1, g2, g3⟩ := Runs.before c.runs e (as ++ .call .rc md d :: (b1 ++ [.task s1.tasks.length w])) b2
            (by rw [c.split]; simp)
          have c1 : Made p1 H1 e as (b1 ++ [.task s1.tasks.length w]) .rc md d s1 := ⟨g1, Few.prefix c.few g3, g2, c.before⟩
          have hy2 : ∀ b1 : List SockAct, yields s1.tasks.length (b1 ++ [.task s1.tasks.length w]) = yields s1.tasks.length b1 ++ [w] := by
            intro b1
            induction b1 with
            | nil => simp [yields]
            | cons a b1 ih =>
              cases a with
              | task t y => by_cases e : t = s1.tasks.length <;> simp [yields, e, ih]
              | _ => simpa [yields] using ih
          have hys : yields s1.tasks.length (b1 ++ [.task s1.tasks.length w]) = [.err x, w] := by rw [hy2, hb1]; rfl
          have hg1 := sends_given c1
          obtain ⟨hs1, _⟩ := sends c1
          rw [hys] at hg1 hs1
          cases hw : wishes s1.next (b1 ++ [.task s1.tasks.length w]) with
          | nil =>
            rw [hw] at hs1
            simp only [feedAhead] at hs1
            revert hs1
            simp
          | cons n ns =>
            obtain ⟨v, v1, v2, _⟩ := mem_wishes (show n ∈ wishes s1.next (b1 ++ [.task s1.tasks.length w]) by rw [hw]; simp)
            obtain ⟨g, h1, h2, h3⟩ := (inv c1.runs c1.few (!e)).demands _ (recv_out c1 v1) rfl
            rw [Bool.not_not] at h1
            have h3 : g.streamID = s1.next := by rw [h3]; exact v2
            have hgm : g ∈ (p1.sock e).out.filter (under s1.next) := by
              refine List.mem_filter.mpr ⟨h1, ?_⟩
              cases g <;> simp_all [under, opens, isCancel]
            rw [hg1] at hgm
            simp only [given, List.take_succ_cons, List.take_zero, List.drop_succ_cons, List.drop_nil, List.append_nil, fed,
              List.mem_singleton, List.drop_zero] at hgm
            rw [hgm] at h2
            cases h2

/-! ## Nothing is cancelled -/

/-- A caller that still waits did not cancel its call. -/
theorem caller_keeps (c : Made p H e as bs .rc md d s1) (hl : ∀ k, (p.sock e).sinks[s1.sinks.length]? = some k → k.live = true) :
    (p.sock e).out.filter (cancelFor s1.next) = [] := by
  have hcounts := c.counts
  have hrun : (s1.request .rc md d).run bs = some (.ok (p.sock e)) := by
    have := c.after
    simpa [Sock.run, Sock.step] using this
  rw [run_cancels bs (s := s1.request .rc md d) (i := s1.sinks.length) ?_ (by rw [call_next]; exact avoids_later _ _ (by omega)) c.quiet hrun hl,
    request_out, filter_none]
  · intro g hg
    simp [cancelFor, unused c g hg]
  · intro x hx he
    have hx : x ∈ mapInsert s1.handlers s1.next s1.sinks.length := hx
    simp only [mapInsert, List.mem_append, List.mem_singleton] at hx
    rcases hx with hx | rfl
    · exact absurd he (by simpa using (mem_remove.mp hx).2)
    · rfl

/-- The frames of the call. -/
theorem frames_given (c : Made p H e as bs .rc md d s1) (hl : ∀ k, (p.sock e).sinks[s1.sinks.length]? = some k → k.live = true) :
    ((p.sock e).out.filter fun f => decide (f.streamID = s1.next)) = fed s1.next true (given (yields s1.tasks.length bs)) := by
  rw [← sends_given c]
  refine List.filter_congr fun f hf => ?_
  have h0 := caller_keeps c hl
  rw [List.filter_eq_nil_iff] at h0
  have := h0 f hf
  by_cases hs : f.streamID = s1.next <;> simp_all [under, cancelFor]

theorem parity_other (c : Made p H e as bs .rc md d s1) : (Sock.init (!e)).next.toNat % 2 ≠ s1.next.toNat % 2 := by
  have := c.own
  cases e <;> simp [RustPair.own] at this <;> simp [Sock.init, this]

theorem run_parity {s s' : Sock} {as : List SockAct} {sid : UInt32} (h : s.run as = some (.ok s')) (hp : s.next.toNat % 2 ≠ sid.toNat % 2) :
    s'.next.toNat % 2 ≠ sid.toNat % 2 := by
  have := run_next as h
  rw [this, UInt32.toNat_add, UInt32.toNat_ofNat']
  have := s.next.toNat_lt
  omega

/-- Before its request arrives, the other end cancels nothing under the id of a call. -/
theorem early_cancels (c : Made p H e as bs .rc md d s1) {cs : List SockAct} {s2 : Sock}
    (hr : (Sock.init (!e)).run cs = some (.ok s2)) (hn : ∀ x ∈ cs, opensChannel s1.next x = false) :
    s2.out.filter (cancelFor s1.next) = [] := by
  rw [run_cancels cs (i := s2.sinks.length) (fun x hx => by simp [Sock.init] at hx) (avoids_foreign (parity_other c) _) hn hr
    (fun k hk => by simp at hk)]
  rfl

/-- The request of the call arrives only once. -/
theorem arrives_once (c : Made p H e as bs .rc md d s1) {as' bs' : List SockAct} {v : RequestPayload}
    (hH : H (!e) = as' ++ .recv (.request v) :: bs') (hv : v.streamID = s1.next) :
    ∀ f, f ∈ recvs as' ∨ f ∈ recvs bs' → reqFor s1.next f = false := by
  have h0 := asked_once c (p.read (!e))
  have hr := (Runs.each c.runs (!e)).2.1
  simp only [Bool.not_not] at hr
  rw [← hr, hH, recvs_append, List.countP_append] at h0
  rw [show recvs (.recv (.request v) :: bs') = .request v :: recvs bs' from rfl, List.countP_cons,
    if_pos (reqFor_iff.mpr ⟨rfl, show (Frame.request v).streamID = s1.next from hv⟩)] at h0
  have h1 : (recvs as').countP (reqFor s1.next) = 0 := by omega
  have h2 : (recvs bs').countP (reqFor s1.next) = 0 := by omega
  rw [List.countP_eq_zero] at h1 h2
  rintro f (hf | hf)
  · simpa using h1 f hf
  · simpa using h2 f hf

theorem opens_reqFor {sid : UInt32} {x : SockAct} {cs : List SockAct} (hx : x ∈ cs) (h : ∀ f ∈ recvs cs, reqFor sid f = false) :
    opensChannel sid x = false := by
  cases x with
  | recv f =>
    cases f with
    | request v =>
      have := h _ (mem_recvs.mpr hx)
      by_cases e : v.streamID = sid
      · rw [reqFor_iff.mpr ⟨rfl, show (Frame.request v).streamID = sid from e⟩] at this; cases this
      · simp [opensChannel, e]
    | _ => rfl
  | _ => rfl

theorem arrived_request (c : Made p H e as bs .rc md d s1) {as' bs' : List SockAct} {v : RequestPayload}
    (hH : H (!e) = as' ++ .recv (.request v) :: bs') : Frame.request v ∈ (p.sock e).out := by
  have hr := (Runs.each c.runs (!e)).2.1
  simp only [Bool.not_not] at hr
  refine List.mem_of_mem_take (i := p.read (!e)) ?_
  rw [← hr, hH, recvs_append]
  exact List.mem_append_right _ List.mem_cons_self

/-- The request of a channel call. -/
theorem request_given (c : Made p H e as bs .rc md d s1) {as' bs' : List SockAct} {v : RequestPayload}
    (hH : H (!e) = as' ++ .recv (.request v) :: bs') (hv : v.streamID = s1.next) :
    v.frameType = tRequestChannel ∧ ∃ ys, given (yields s1.tasks.length bs) = .ok v.metadata v.data :: ys := by
  obtain ⟨md', d', ys, h1, h2⟩ := first_given c (arrived_request c hH) rfl hv
  simp only [newRequest, Frame.request.injEq] at h2
  subst h2
  exact ⟨rfl, ys, h1⟩

/-- When the request arrives. -/
theorem request_step {s2 s3 : Sock} {v : RequestPayload} (hv : v.frameType = tRequestChannel)
    (h : s2.step (.recv (.request v)) = some (.ok s3)) :
    s3 = (s2.register v.streamID .rc [.ok v.metadata v.data]).spawn (.rcStart v.streamID s2.sinks.length) := by
  have h1 : ¬ tRequestChannel = tRequestFNF := by decide
  have h2 : ¬ tRequestChannel = tRequestResponse := by decide
  have h3 : ¬ tRequestChannel = tRequestStream := by decide
  simp only [Sock.step, Sock.processOnce, hv, if_neg h1, if_neg h2, if_neg h3, Option.some.injEq, Res.ok.injEq] at h
  exact h.symm

/-- A handler that still waits for its input did not cancel the channel. -/
theorem handler_keeps (c : Made p H e as bs .rc md d s1) {as' bs' : List SockAct} {v : RequestPayload} {s2 : Sock}
    (hH : H (!e) = as' ++ .recv (.request v) :: bs') (hv : v.streamID = s1.next) (h2 : (Sock.init (!e)).run as' = some (.ok s2))
    (hl : ∀ k, (p.sock (!e)).sinks[s2.sinks.length]? = some k → k.live = true) :
    (p.sock (!e)).out.filter (cancelFor s1.next) = [] := by
  have honce := arrives_once c hH hv
  have hr := (Runs.each c.runs (!e)).1
  rw [hH, run_append _ h2] at hr
  obtain ⟨s3, h3, h4⟩ := run_cons hr
  have h5 := request_step (request_given c hH hv).1 h3
  have hnext : s3.next = s2.next := by
    simp only [Sock.step, Option.some.injEq] at h3
    exact processOnce_next h3
  rw [run_cancels bs' (i := s2.sinks.length) ?_ (by rw [hnext]; exact avoids_foreign (run_parity h2 (parity_other c)) _)
    (fun x hx => opens_reqFor hx fun f hf => honce f (.inr hf)) h4 hl]
  · have ho : s3.out = s2.out := by rw [h5]; exact (register_facts s2 v.streamID .rc [.ok v.metadata v.data]).1
    rw [ho]
    exact early_cancels c h2 fun x hx => opens_reqFor hx fun f hf => honce f (.inl hf)
  · intro x hx he
    rw [h5] at hx
    have hx : x ∈ mapInsert s2.handlers v.streamID s2.sinks.length := hx
    simp only [mapInsert, List.mem_append, List.mem_singleton] at hx
    rcases hx with hx | rfl
    · exact absurd (he.trans hv.symm) (by simpa using (mem_remove.mp hx).2)
    · rfl

/-! ## What frames mean -/

/-- Without `CANCEL`, only results count. -/
theorem outcome_results (sid : UInt32) (l : List Frame) (h : ∀ f ∈ l, f.streamID = sid ∧ isCancel f = false) :
    outcome false l = outcome false (l.filter (isResult sid)) := by
  induction l with
  | nil => rfl
  | cons f l ih =>
    obtain ⟨h1, h2⟩ := h f (by simp)
    have ih := ih fun g hg => h g (List.mem_cons_of_mem _ hg)
    cases f with
    | payload v => rw [List.filter_cons_of_pos (by simpa [isResult, Frame.streamID] using h1)]; simp only [outcome, ih]
    | error v => rw [List.filter_cons_of_pos (by simpa [isResult, Frame.streamID] using h1)]; simp only [outcome, ih]
    | cancel v => cases h2
    | request v => rw [List.filter_cons_of_neg (by simp [isResult])]; simp [outcome, meaning, ih]
    | requestN v => rw [List.filter_cons_of_neg (by simp [isResult])]; simp [outcome, meaning, ih]

theorem failure_meaning (sid : UInt32) : meaning false (appError sid (lit "REQUEST_CHANNEL failed")) =
    ([.err 513 "REQUEST_CHANNEL failed".toUTF8.toList], true) := by
  have : ¬ "REQUEST_CHANNEL failed".toUTF8.toList = [] := by decide +kernel
  simp only [meaning, appError, lit, text, if_neg this]
  rfl

theorem outcome_input (sid : UInt32) (ys : List Yield) : outcome false (fed sid false ys) = toldInput ys := by
  induction ys with
  | nil => rfl
  | cons y ys ih =>
    cases y with
    | ok md d =>
      have hm : meaning false (nextFrame sid md d) = ([.ok md d], false) := by
        simp [nextFrame, newPayload, meaning]; decide
      simp only [fed, Bool.false_eq_true, if_false, outcome, hm, ih, toldInput]
      rfl
    | err x => simp only [fed, outcome, failure_meaning, if_true, toldInput]
    | done => rfl

theorem outcome_input_take (sid : UInt32) (ys : List Yield) : ∀ n, ∃ n', outcome false ((fed sid false ys).take n) = toldInput (ys.take n') := by
  induction ys with
  | nil => intro n; exact ⟨0, by simp [fed, outcome, toldInput]⟩
  | cons y ys ih =>
    intro n
    cases n with
    | zero => exact ⟨0, rfl⟩
    | succ n =>
      cases y with
      | ok md d =>
        obtain ⟨n', h⟩ := ih n
        refine ⟨n' + 1, ?_⟩
        have hm : meaning false (nextFrame sid md d) = ([.ok md d], false) := by
          simp [nextFrame, newPayload, meaning]; decide
        simp only [fed, Bool.false_eq_true, if_false, List.take_succ_cons, outcome, hm, h, toldInput]
        rfl
      | err x => exact ⟨1, by simp only [fed, List.take_succ_cons, outcome, failure_meaning, if_true, toldInput, List.take_zero]⟩
      | done => exact ⟨1, by simp [fed]; rfl⟩

end

/-! ## C180 -/

/-- **C180, output (partial)** Full statement: the caller of a channel operation is told what the handler that the other
end ran for it has yielded. Proved as long as the caller keeps what it waits for and the handler keeps its input: the
caller is told a beginning of it at any time, all of it once every frame was processed, and nothing before the request was
processed. Missing: handlers that drop their input (`rust_channel_input_dropped_refuted`). -/
theorem rust_channel_output_partial {p : Pair} {H : Bool → List SockAct} (h : Runs p H) (hf : Few H) (e : Bool) (as bs : List SockAct)
    (md d : Bytes) (hH : H e = as ++ .call .rc md d :: bs) (s1 : Sock) (h1 : (Sock.init e).run as = some (.ok s1)) (k : Sink)
    (hk : (p.sock e).sinks[s1.sinks.length]? = some k) (hl : k.live = true) :
    (∀ as' bs' v s2, H (!e) = as' ++ .recv (.request v) :: bs' → v.streamID = s1.next → (Sock.init (!e)).run as' = some (.ok s2) →
      (∀ k', (p.sock (!e)).sinks[s2.sinks.length]? = some k' → k'.live = true) →
      (∃ n, (k.got, k.closed) = toldMany ((yields s2.tasks.length bs').tail.take n)) ∧
      (p.read e = (p.sock (!e)).out.length → (k.got, k.closed) = toldMany (yields s2.tasks.length bs').tail)) ∧
    ((∀ v, SockAct.recv (.request v) ∈ H (!e) → v.streamID ≠ s1.next) → k.got = [] ∧ k.closed = false) := by
  have c : Made p H e as bs .rc md d s1 := ⟨h, hf, hH, h1⟩
  have ht := c.told (by simp) k hk hl
  have hff : (decide (Method.rc = Method.rr)) = false := rfl
  rw [hff] at ht
  have key : (p.sock (!e)).out.filter (cancelFor s1.next) = [] →
      (k.got, k.closed) = outcome false (((p.sock (!e)).out.take (p.read e)).filter (isResult s1.next)) := by
    intro h0
    rw [List.filter_eq_nil_iff] at h0
    rw [ht, outcome_results s1.next]
    · rw [List.filter_filter]
      congr 2
      funext f
      cases f <;> simp [isResult, Frame.streamID] <;> (try exact fun he => decide_eq_true he)
    · intro f hf
      obtain ⟨hf, hs⟩ := List.mem_filter.mp hf
      have hs : f.streamID = s1.next := by simpa using hs
      refine ⟨hs, ?_⟩
      have := h0 f (List.mem_of_mem_take hf)
      simpa [cancelFor, hs] using this
  refine ⟨fun as' bs' v s2 hH' hv h2 hl' => ?_, fun hno => ?_⟩
  · have hkey := key (handler_keeps c hH' hv h2 hl')
    have ha := c.answers hH' hv h2
    rw [(request_given c hH' hv).1] at ha
    have ha : (p.sock (!e)).out.filter (isResult s1.next) = answerMany s1.next (yields s2.tasks.length bs').tail := ha
    constructor
    · obtain ⟨n, hn⟩ := filter_take (isResult s1.next) (p.read e) (p.sock (!e)).out
      obtain ⟨n', hn'⟩ := outcome_many_take s1.next (yields s2.tasks.length bs').tail n
      exact ⟨n', by rw [hkey, hn, ha, hn']⟩
    · intro hr
      rw [hkey, hr, List.take_length, ha, outcome_many]
  · have hkey := key (early_cancels c (Runs.each h (!e)).1 fun x hx => opens_reqFor hx fun f hf' => by
      cases f with
      | request v =>
        have := hno v (mem_recvs.mp hf')
        simp only [reqFor, isReq, Frame.streamID, Bool.true_and]
        exact decide_eq_false this
      | _ => rfl)
    obtain ⟨n, hn⟩ := filter_take (isResult s1.next) (p.read e) (p.sock (!e)).out
    rw [hn, c.nothing hno] at hkey
    simp only [List.take_nil, outcome, Prod.mk.injEq] at hkey
    exact hkey

/-- **C180, input (partial)** Full statement: the handler that the other end runs for a channel operation is told what the
input of the caller has given. Proved as long as the handler keeps its input and the caller keeps what it waits for: the
handler is told the first element and a beginning of what follows at any time, all of it once every frame was processed.
Missing: callers that drop what they wait for (`rust_channel_output_dropped_refuted`). -/
theorem rust_channel_input_partial {p : Pair} {H : Bool → List SockAct} (h : Runs p H) (hf : Few H) (e : Bool) (as bs : List SockAct)
    (md d : Bytes) (hH : H e = as ++ .call .rc md d :: bs) (s1 : Sock) (h1 : (Sock.init e).run as = some (.ok s1))
    (hl : ∀ k, (p.sock e).sinks[s1.sinks.length]? = some k → k.live = true) (as' bs' : List SockAct) (v : RequestPayload) (s2 : Sock)
    (hH' : H (!e) = as' ++ .recv (.request v) :: bs') (hv : v.streamID = s1.next) (h2 : (Sock.init (!e)).run as' = some (.ok s2)) (k : Sink)
    (hk : (p.sock (!e)).sinks[s2.sinks.length]? = some k) (hl' : k.live = true) :
    (∃ n, (k.got, k.closed) = toldInput ((given (yields s1.tasks.length bs)).take (n + 1))) ∧
    (p.read (!e) = (p.sock e).out.length → (k.got, k.closed) = toldInput (given (yields s1.tasks.length bs))) := by
  have c : Made p H e as bs .rc md d s1 := ⟨h, hf, hH, h1⟩
  obtain ⟨hvt, ys, hys⟩ := request_given c hH' hv
  have honce := arrives_once c hH' hv
  have hr := Runs.each h (!e)
  simp only [Bool.not_not] at hr
  have hrun := hr.1
  rw [hH', run_append _ h2] at hrun
  obtain ⟨s3, h3, h4⟩ := run_cons hrun
  have h5 := request_step hvt h3
  have hpar := run_parity h2 (parity_other c)
  have hwf : ∀ x ∈ s2.handlers, x.2 < s2.sinks.length := WF.run as' (by intro x hx; simp [Sock.init] at hx) h2
  have hobs : Obs s3 s1.next s2.sinks.length .rc [.ok v.metadata v.data] true := by
    have hreg := register_new (sid := v.streamID) (w := .rc) (f := [.ok v.metadata v.data]) hwf (.inr (by rw [hv]; exact Ne.symm hpar))
    rw [hv] at hreg
    rw [h5, hv]
    exact hreg.congr rfl rfl rfl
  have hnext : s3.next.toNat + 2 * drawn bs' < 2 ^ 32 := by
    have hn3 : s3.next = s2.next := by
      simp only [Sock.step, Option.some.injEq] at h3
      exact processOnce_next h3
    have hd := hf (!e)
    have hn2 := next_id (!e) as' s2 h2
    rw [hH', drawn_append] at hd
    have hd0 : drawn (.recv (.request v) :: bs') = drawn bs' := rfl
    rw [hd0] at hd
    have : s2.next.toNat = firstId (!e) + 2 * drawn as' := by
      rw [hn2]
      cases e <;> simp [firstId] <;> omega
    rw [hn3, this]
    cases e <;> simp [firstId] <;> omega
  have hend := run_obs bs' hobs hnext (fun x hx => opens_reqFor hx fun f hf => honce f (.inr hf)) h4
  obtain ⟨k', k1, _, k3, k4⟩ := hend.sink
  rw [hk] at k1
  cases k1
  have k3 := k3 hl'
  simp only [if_true, Bool.true_and, Bool.not_not] at k3 k4
  have hsingle : isSingle Wait.rc = false := rfl
  rw [hsingle] at k3 k4
  -- the frames after the request
  have hall : ∀ n, (((p.sock e).out.take n).filter fun f => decide (f.streamID = s1.next)) =
      arrived s1.next as' ++ .request v :: arrived s1.next bs' → arrived s1.next as' = [] ∧
        ∃ n', arrived s1.next bs' = (fed s1.next false ys).take n' := by
    intro n hn
    obtain ⟨n', hn'⟩ := filter_take (fun f => decide (f.streamID = s1.next)) n (p.sock e).out
    rw [hn', frames_given c hl, hys] at hn
    simp only [fed, if_true] at hn
    cases n' with
    | zero => simp at hn
    | succ n' =>
      rw [List.take_succ_cons] at hn
      cases ha : arrived s1.next as' with
      | nil => rw [ha] at hn; simp only [List.nil_append, List.cons.injEq] at hn; exact ⟨rfl, n', hn.2.symm⟩
      | cons f fs =>
        rw [ha] at hn
        simp only [List.cons_append, List.cons.injEq] at hn
        have hm : Frame.request v ∈ (fed s1.next false ys).take n' := by rw [hn.2]; simp
        have := fed_later _ _ _ (List.mem_of_mem_take hm)
        cases this
  have harr : (((p.sock e).out.take (p.read (!e))).filter fun f => decide (f.streamID = s1.next)) =
      arrived s1.next as' ++ .request v :: arrived s1.next bs' := by
    rw [← hr.2.1, ← arrived_eq, hH', arrived_eq, recvs_append, List.filter_append, ← arrived_eq, ← arrived_eq]
    simp [arrived, Frame.streamID, hv]
  obtain ⟨ha0, n, hn⟩ := hall _ harr
  rw [hys]
  constructor
  · obtain ⟨n', hn'⟩ := outcome_input_take s1.next ys n
    refine ⟨n', ?_⟩
    rw [k3, k4, hn, hn']
    simp [toldInput]
  · intro hread
    rw [ha0, List.nil_append, hread, List.take_length, frames_given c hl, hys] at harr
    simp only [fed, if_true, List.cons.injEq] at harr
    rw [k3, k4, ← harr.2, outcome_input]
    simp [toldInput]

/-! ## Handlers -/

/-- Only the handler of the channel with input `i` runs, or will run, for `sid`. -/
structure Only (s : Sock) (sid : UInt32) (i : Nat) : Prop where
  tasks : ∀ k, some k ∈ s.tasks → starting sid (some k) = true → k = .rcStart sid i
  runs : ∀ x ∈ s.runs, runFor sid x = true → x = .rc sid i

theorem Only.step {s s' : Sock} {a : SockAct} {sid : UInt32} {i : Nat} (h : Only s sid i)
    (ha : ∀ f, a = .recv f → reqFor sid f = false) (hs : s.step a = some (.ok s')) : Only s' sid i := by
  rcases stepped hs with ⟨m, md, d, rfl, hc⟩ | ⟨f, rfl, hp⟩ | ⟨t, y, k, rfl, hk, hw⟩ | ⟨j, rfl, _, _, h3, h4, _⟩
  · obtain ⟨l, hl, hl'⟩ := hc.tasks
    refine ⟨fun k hk hst => ?_, by rw [hc.runs]; exact h.runs⟩
    rw [hl, List.mem_append] at hk
    rcases hk with hk | hk
    · exact h.tasks k hk hst
    · rcases hl' with ⟨_, rfl⟩ | ⟨_, q, rfl⟩
      · cases hk
      · simp only [List.mem_singleton, Option.some.injEq] at hk
        subst hk
        cases hst
  · obtain ⟨l, r, hl, hr, hl', _, hcount⟩ := hp.tasks
    have h0 := hcount sid
    have hno : ¬ (isReq f = true ∧ f.streamID = sid) := by
      intro hx
      have := reqFor_iff.mpr hx
      rw [ha f rfl] at this
      cases this
    rw [if_neg hno] at h0
    have h1 : r.countP (runFor sid) = 0 := by omega
    have h2 : l.countP (starting sid) = 0 := by omega
    rw [List.countP_eq_zero] at h1 h2
    refine ⟨fun k hk hst => ?_, fun x hx hxs => ?_⟩
    · rw [hl, List.mem_append] at hk
      rcases hk with hk | hk
      · exact h.tasks k hk hst
      · exact absurd hst (h2 _ hk)
    · rw [hr, List.mem_append] at hx
      rcases hx with hx | hx
      · exact h.runs x hx hxs
      · exact absurd hxs (h1 _ hx)
  · simp only [Sock.step, hk] at hs
    cases hx : s.runTask t y k with
    | none => rw [hx] at hs; cases hs
    | some s3 =>
      rw [hx] at hs
      cases hs
      obtain ⟨l, st, r, _, hl, hr, _, _, _, hcount⟩ := hw.did
      have hst := (hcount sid).2.2
      have hrc := (hcount sid).2.1
      refine ⟨fun k' hk' hs' => ?_, fun x hxm hxs => ?_⟩
      · rw [hl] at hk'
        rcases List.mem_or_eq_of_mem_set hk' with hk' | hk'
        · exact h.tasks k' hk' hs'
        · rw [← hk', hs'] at hst; cases hst
      · rw [hr, List.mem_append] at hxm
        rcases hxm with hxm | hxm
        · exact h.runs x hxm hxs
        · by_cases hsk : starting sid (some k) = true
          · have := h.tasks k (List.mem_of_getElem? hk) hsk
            subst this
            simp only [Sock.runTask, Option.some.injEq] at hx
            subst hx
            have : r = [.rc sid i] := by
              have := hr
              simpa [Sock.send] using this.symm
            rw [this] at hxm
            exact List.mem_singleton.mp hxm
          · rw [if_neg hsk, List.countP_eq_zero] at hrc
            exact absurd hxs (hrc x hxm)
  · exact ⟨by rw [h3]; exact h.tasks, by rw [h4]; exact h.runs⟩

theorem Only.run (as : List SockAct) : ∀ {s s' : Sock} {sid : UInt32} {i : Nat}, Only s sid i →
    (∀ f ∈ recvs as, reqFor sid f = false) → s.run as = some (.ok s') → Only s' sid i := by
  induction as with
  | nil => intro s s' sid i h _ hr; simp only [Sock.run] at hr; cases hr; exact h
  | cons a as ih =>
    intro s s' sid i h ha hr
    obtain ⟨s1, h1, h2⟩ := run_cons hr
    refine ih (h.step (fun f hf => ha f ?_) h1) (fun f hf => ha f ?_) h2
    · subst hf; exact List.mem_cons_self
    · rw [mem_recvs] at hf ⊢
      exact List.mem_cons_of_mem _ hf

/-- **C180, handlers.** For a channel operation the other end runs at most one handler, a channel handler whose input is
the channel made when the request arrived. It has run one once every frame is processed and no task is left, if the first
thing that the input gave was an element; if it was not, none runs. -/
theorem rust_channel_runs {p : Pair} {H : Bool → List SockAct} (h : Runs p H) (hf : Few H) (e : Bool) (as bs : List SockAct)
    (md d : Bytes) (hH : H e = as ++ .call .rc md d :: bs) (s1 : Sock) (h1 : (Sock.init e).run as = some (.ok s1)) :
    (∀ as' bs' v s2, H (!e) = as' ++ .recv (.request v) :: bs' → v.streamID = s1.next → (Sock.init (!e)).run as' = some (.ok s2) →
      (p.sock (!e)).runs.filter (runFor s1.next) = [] ∨
      (p.sock (!e)).runs.filter (runFor s1.next) = [.rc s1.next s2.sinks.length]) ∧
    ((∃ md' d' ys, yields s1.tasks.length bs = .ok md' d' :: ys) → p.read (!e) = (p.sock e).out.length →
      (∀ t ∈ (p.sock (!e)).tasks, t = none) → ((p.sock (!e)).runs.filter (runFor s1.next)).length = 1) ∧
    ((∀ md' d' ys, yields s1.tasks.length bs ≠ .ok md' d' :: ys) → (p.sock (!e)).runs.filter (runFor s1.next) = []) := by
  have c : Made p H e as bs .rc md d s1 := ⟨h, hf, hH, h1⟩
  have hone := runs_once c
  have hran := (inv h hf (!e)).ran s1.next
  simp only [Bool.not_not] at hran
  refine ⟨fun as' bs' v s2 hH' hv h2 => ?_, fun hfirst hread htasks => ?_, fun hnone => ?_⟩
  · have honce := arrives_once c hH' hv
    have hr := (Runs.each h (!e)).1
    rw [hH', run_append _ h2] at hr
    obtain ⟨s3, h3, h4⟩ := run_cons hr
    have h5 := request_step (request_given c hH' hv).1 h3
    have hnew : Only (Sock.init (!e)) s1.next s2.sinks.length :=
      ⟨fun k hk => by simp [Sock.init] at hk, fun x hx => by simp [Sock.init] at hx⟩
    have hO2 := Only.run as' hnew (fun f hf => honce f (.inl hf)) h2
    have hfacts := register_facts s2 v.streamID .rc [.ok v.metadata v.data]
    have hO3 : Only s3 s1.next s2.sinks.length := by
      rw [h5]
      refine ⟨fun k hk hst => ?_, fun x hx => hO2.runs x (by rw [← hfacts.2.2.1]; exact hx)⟩
      simp only [Sock.spawn, List.mem_append, List.mem_singleton, Option.some.injEq] at hk
      rcases hk with hk | rfl
      · exact hO2.tasks k (by rw [← hfacts.2.1]; exact hk) hst
      · rw [hv]
    have hO := Only.run bs' hO3 (fun f hf => honce f (.inr hf)) h4
    have hall : ∀ x ∈ (p.sock (!e)).runs.filter (runFor s1.next), x = .rc s1.next s2.sinks.length := fun x hx =>
      hO.runs x (List.mem_filter.mp hx).1 (List.mem_filter.mp hx).2
    rw [List.countP_eq_length_filter] at hone
    match hl : (p.sock (!e)).runs.filter (runFor s1.next) with
    | [] => exact .inl rfl
    | [x] => exact .inr (by rw [hall x (by rw [hl]; simp)])
    | _ :: _ :: _ => rw [hl] at hone; simp at hone
  · obtain ⟨md', d', ys, hy⟩ := hfirst
    have hg := sends_given c
    rw [hy] at hg
    have hm : newRequest tRequestChannel s1.next md' d' Rust.flagNext requestMax ∈ (p.sock e).out.filter (under s1.next) := by
      rw [hg]
      simp [given, fed]
    have hm := (List.mem_filter.mp hm).1
    have hpos : 0 < (p.sock e).out.countP (reqFor s1.next) :=
      List.countP_pos_iff.mpr ⟨_, hm, reqFor_iff.mpr ⟨rfl, rfl⟩⟩
    have ht0 : (p.sock (!e)).tasks.countP (starting s1.next) = 0 := by
      rw [List.countP_eq_zero]
      intro t htm hs
      rw [htasks t htm] at hs
      simp [starting] at hs
    rw [ht0, hread, List.take_length] at hran
    rw [← List.countP_eq_length_filter]
    omega
  · have h0 : (p.sock e).out.countP (reqFor s1.next) = 0 := by
      rw [List.countP_eq_zero]
      intro f hfm hfr
      obtain ⟨hr, hs⟩ := reqFor_iff.mp hfr
      obtain ⟨md', d', ys, hg, _⟩ := first_given c hfm hr hs
      cases hy : yields s1.tasks.length bs with
      | nil => rw [hy] at hg; cases hg
      | cons y ys' =>
        rw [hy] at hg
        simp only [given, List.take_succ_cons, List.take_zero, List.cons_append, List.cons.injEq] at hg
        rw [hg.1] at hy
        exact hnone _ _ _ hy
    have hle : ((p.sock e).out.take (p.read (!e))).countP (reqFor s1.next) ≤ (p.sock e).out.countP (reqFor s1.next) :=
      (List.take_sublist _ _).countP_le
    have : (p.sock (!e)).runs.countP (runFor s1.next) = 0 := by omega
    rw [List.countP_eq_length_filter] at this
    exact List.eq_nil_of_length_eq_zero this

/-- A channel of the host with three elements, to which the guest answers with two. -/
def chat : List PairAct := [
  .own false (.call .rc [0] [7]), .own false (.task 0 (.ok [1] [1])), .take true, .own true (.task 0 .done), .take false,
  .own false (.task 0 .done), .own false (.task 0 (.ok [2] [2])), .own true (.task 0 (.ok [] [8])), .own false (.task 0 (.ok [3] [3])),
  .own false (.task 0 .done), .take true, .take true, .take true, .own true (.task 0 (.ok [] [9])), .own true (.task 0 .done), .take false,
  .take false, .take false]

theorem chat_ok : (play Pair.init (fun _ => []) chat).isSome = true := by decide +kernel

example : ∃ p H, Runs p H ∧ Few H ∧ Settled p ∧ H false = [] ++ .call .rc [0] [7] :: (H false).tail ∧
    H true = [] ++ .recv (.request ⟨tRequestChannel, 1, [1], [1], false, false, 0x7fffffff⟩) :: (H true).tail ∧
    (p.sock false).sinks.map (fun k => (k.live, k.got, k.closed)) = [(true, [.ok [] [8], .ok [] [9]], true)] ∧
    (p.sock true).sinks.map (fun k => (k.live, k.got, k.closed)) = [(true, [.ok [1] [1], .ok [2] [2], .ok [3] [3]], true)] ∧
    given (yields 0 (H false).tail) = [.ok [1] [1], .ok [2] [2], .ok [3] [3], .done] ∧
    (p.sock true).runs = [.rc 1 0] :=
  ⟨((play Pair.init (fun _ => []) chat).get chat_ok).1, ((play Pair.init (fun _ => []) chat).get chat_ok).2,
    play_runs chat .init (by simp), by unfold Few; decide +kernel, by unfold Settled; decide +kernel, by decide +kernel, by decide +kernel,
    by decide +kernel, by decide +kernel, by decide +kernel, by decide +kernel⟩

/-- The caller drops what it waits for; then the handler yields. -/
def deaf : List PairAct := [
  .own false (.call .rc [0] [7]), .own false (.task 0 (.ok [1] [1])), .take true, .own true (.task 0 .done), .take false,
  .own false (.drop 0), .own true (.task 0 (.ok [] [8])), .take false, .take true, .own false (.task 0 .done),
  .own false (.task 0 (.ok [2] [2])), .own false (.task 0 .done), .take true, .take true]

theorem deaf_ok : (play Pair.init (fun _ => []) deaf).isSome = true := by decide +kernel

/-- **C180 is false of the code** for callers that drop what they wait for: the handler is told that its input has ended
after the first element, though the caller's input gave another one afterwards. -/
theorem rust_channel_output_dropped_refuted : ∃ p H, Runs p H ∧ Few H ∧ H false = [] ++ .call .rc [0] [7] :: (H false).tail ∧
    (∀ e, p.read e = (p.sock (!e)).out.length) ∧
    given (yields 0 (H false).tail) = [.ok [1] [1], .ok [2] [2], .done] ∧ (p.sock true).runs = [.rc 1 0] ∧
    (p.sock true).sinks.map (fun k => (k.live, k.got, k.closed)) = [(true, [.ok [1] [1]], true)] :=
  ⟨((play Pair.init (fun _ => []) deaf).get deaf_ok).1, ((play Pair.init (fun _ => []) deaf).get deaf_ok).2,
    play_runs deaf .init (by simp), by unfold Few; decide +kernel, by decide +kernel, by decide +kernel, by decide +kernel, by decide +kernel,
    by decide +kernel⟩

/-- The handler drops its input, and yields two elements. -/
def bored : List PairAct := [
  .own false (.call .rc [0] [7]), .own false (.task 0 (.ok [1] [1])), .take true, .own true (.task 0 .done), .take false,
  .own true (.drop 0), .own false (.task 0 .done), .own false (.task 0 (.ok [2] [2])), .take true, .take false,
  .own true (.task 0 (.ok [] [8])), .own true (.task 0 (.ok [] [9])), .own true (.task 0 .done), .take false, .take false, .take false]

theorem bored_ok : (play Pair.init (fun _ => []) bored).isSome = true := by decide +kernel

/-- **C180 is false of the code** for handlers that drop their input: the caller is told that the channel has ended,
without any of the two elements that the handler yields. -/
theorem rust_channel_input_dropped_refuted : ∃ p H, Runs p H ∧ Few H ∧ H false = [] ++ .call .rc [0] [7] :: (H false).tail ∧
    (∀ e, p.read e = (p.sock (!e)).out.length) ∧
    (yields 0 (H true)).tail = [.ok [] [8], .ok [] [9], .done] ∧ (p.sock true).runs = [.rc 1 0] ∧
    (p.sock false).sinks.map (fun k => (k.live, k.got, k.closed)) = [(true, [], true)] :=
  ⟨((play Pair.init (fun _ => []) bored).get bored_ok).1, ((play Pair.init (fun _ => []) bored).get bored_ok).2,
    play_runs bored .init (by simp), by unfold Few; decide +kernel, by decide +kernel, by decide +kernel, by decide +kernel, by decide +kernel,
    by decide +kernel⟩

end Iota.Props.RustChannels
