import Verif.Props.WasmCalls
import Verif.Props.Frames

/-! # Calls between a WebAssembly host and its guest finish (C145) -/

namespace Iota.Props.WasmFinish
open Iota.Go Iota.Frames Iota.Registry Iota.WasmDispatch Iota.WasmCalls Iota.Spec.Handler Iota.Spec.WasmDispatch Iota.Spec.WasmCalls
open Iota.Handler hiding Act
open Iota.Peers (Result requestFrame answerFrame isRequest)
open Iota.Spec.Polite (requests answers queued isTask)
open Iota.Lemmas.WasmDispatch Iota.Props.Handler Iota.Props.WasmDispatch Iota.Props.WasmCalls
open Iota.Props.StreamId (idOf)

variable {H : Type}

/-! ## Steps with simple calls -/

/-- A frame is taken up: nothing is sent and no handler starts; a request is work to do. -/
theorem recv_simple {hs : End → Handlers H} {y y' : WasmCalls.Sys H} {e : End} {data : Bytes} (hg : Good hs y) (hb : Bounded y)
    (hsim : Simple y) (hp : ∀ e, Plain (y.node e)) (h : y.step hs (.recv e data) = some y') :
    ∃ f p, (y.wire (other e)).head? = some f ∧ y' = y.put e { y.node e with peer := p } [] true ∧
      ((isRequest f = true ∧ p.tasks.length = (y.node e).peer.tasks.length + 1) ∨
        (isRequest f = false ∧ p.tasks = (y.node e).peer.tasks)) := by
  have far : Link (other e) (hs e) (y.node (other e)) (y.node e) (y.wire (other e)) (y.wire e) := by
    have := hg.link (other e)
    rwa [other_other] at this
  simp only [WasmCalls.Sys.step, Option.bind_eq_some_iff] at h
  obtain ⟨f, h1, h2⟩ := h
  split at h2
  · rename_i hd
    unfold WasmCalls.Sys.does at h2
    split at h2
    · rename_i p hpp
      cases h2
      cases hf : isRequest f with
      | true =>
        cases f with
        | request v =>
          obtain ⟨c, hc, ha⟩ := far.asks v (List.mem_of_mem_head? h1)
          have := recv_request hd ha hpp
          subst this
          have hn : (y.node e).news ((y.node e).peer.after ⟨(y.node e).peer.st,
              [.request c.kind v.streamID v.data v.metadata v.initialN], []⟩) = [] := news_after _ _ rfl _
          refine ⟨_, (y.node e).peer.after ⟨(y.node e).peer.st,
              [.request c.kind v.streamID v.data v.metadata v.initialN], []⟩, h1, ?_, .inl ⟨rfl, by simp [Peer.after]⟩⟩
          simp only [Node.absorb, hn, List.filterMap_nil, List.append_nil]
        | _ => cases hf
      | false =>
        have hcase := recv_other hd hf hpp
        obtain ⟨_, h4⟩ := link_frame_far far h1 hf hcase
        have hlands := frame_lands (hg.link e) (hg.loc e) (hg.loc _) (hb e) (List.mem_of_mem_head? h1) hf (hp e) (hsim e) (hsim _)
        have hj : ((y.node e).news p).filterMap jobOf = [] ∧ p.tasks = (y.node e).peer.tasks := by
          rcases hcase with ⟨_, rfl⟩ | ⟨i, o, h5, h6, rfl⟩
          · exact ⟨by simp [Node.news], rfl⟩
          · obtain ⟨_, _, _, h8⟩ := dispatch_shape (fun v hv => by subst hv; cases hf) h6
            refine ⟨?_, ?_⟩
            · have : (y.node e).news ((y.node e).peer.after o) = o.evs := by simp [Node.news, Peer.after]
              rw [this]
              refine List.filterMap_eq_nil_iff.mpr fun ev hev => ?_
              rcases h8 ev hev with ⟨d, m, rfl⟩ | rfl | ⟨m, rfl⟩ <;> rfl
            · rcases hlands with h9 | ⟨i', o', h9, h10, h11⟩
              · rw [h5] at h9; cases h9
              · rw [h5] at h9; cases h9
                rw [h6] at h10; cases h10
                simp [Peer.after, h11]
        refine ⟨f, p, h1, ?_, .inr ⟨hf, hj.2⟩⟩
        rw [h4]
        simp only [Node.absorb, hj.1, List.append_nil]
    · cases h2
  · cases h2

/-- A request is handled: it is refused, or a handler starts. -/
theorem task_simple {hs : End → Handlers H} {y y' : WasmCalls.Sys H} {e : End} {i : Nat} {live : Bool} (hg : Good hs y)
    (hsim : Simple y) (hp : ∀ e, Plain (y.node e)) (h : y.step hs (.task e i live) = some y') :
    i < (y.node e).peer.tasks.length ∧ ∃ p, p.tasks = (y.node e).peer.tasks.eraseIdx i ∧
      ((∃ id msg, msg.length ≤ 16 ∧ y' = y.put e { y.node e with peer := p } [errorFrame id msg] false) ∨
        ∃ x, y' = y.put e { y.node e with peer := p, jobs := (y.node e).jobs ++ [x] } [] false) := by
  have far : Link (other e) (hs e) (y.node (other e)) (y.node e) (y.wire (other e)) (y.wire e) := by
    have := hg.link (other e)
    rwa [other_other] at this
  simp only [WasmCalls.Sys.step, WasmCalls.Sys.does] at h
  split at h
  · rename_i p hpp
    cases h
    simp only [Peer.step] at hpp
    split at hpp
    · cases hpp
    · rename_i t ht
      refine ⟨(List.getElem?_eq_some_iff.mp ht).1, p, ?_⟩
      have hpp := Option.some.inj hpp
      obtain ⟨k, id, d, m, r, rfl⟩ := (hp e).tasks t (List.mem_of_getElem? ht)
      obtain ⟨c, hc, rfl, _⟩ := far.tasks _ _ _ _ _ (List.mem_of_getElem? ht)
      have hk := hsim _ c hc
      obtain ⟨p2, h1, h2⟩ := handled e (hs e) { (y.node e).peer with tasks := (y.node e).peer.tasks.eraseIdx i } c.kind id d m r
      cases h1.symm.trans hpp
      have refused : ∀ msg : Bytes, msg.length ≤ 16 → ∀ q : WasmDispatch.Peer H,
          q.tasks = (y.node e).peer.tasks.eraseIdx i → q.log = (y.node e).peer.log ++ [.sent (errorFrame id msg)] →
          q.tasks = (y.node e).peer.tasks.eraseIdx i ∧
          ((∃ id msg, msg.length ≤ 16 ∧
            y.put e ((y.node e).absorb q) (((y.node e).news q).filterMap sentOf) false =
              y.put e { y.node e with peer := q } [errorFrame id msg] false) ∨
          ∃ x, y.put e ((y.node e).absorb q) (((y.node e).news q).filterMap sentOf) false =
            y.put e { y.node e with peer := q, jobs := (y.node e).jobs ++ [x] } [] false) := by
        intro msg hm q h3 h4
        refine ⟨h3, .inl ⟨id, msg, hm, ?_⟩⟩
        have hn : (y.node e).news q = [.sent (errorFrame id msg)] := by simp [Node.news, h4]
        have h5 : ((y.node e).news q).filterMap jobOf = [] := by rw [hn]; rfl
        have h6 : ((y.node e).news q).filterMap sentOf = [errorFrame id msg] := by rw [hn]; rfl
        rw [h6]
        simp only [Node.absorb, h5, List.append_nil]
      cases h2 with
      | short hl => exact refused (lit "Invalid metadata") (by decide +kernel) _ (by simp [Peer.after]) rfl
      | unknown op ho hn => exact refused (lit "not_found") (by decide +kernel) _ (by simp [Peer.after]) rfl
      | run op parent g ho hpar hgg =>
        have hrest : ∀ j n, rest c.kind j n = [] := by rcases hk with hk | hk <;> simp [rest, hk]
        obtain ⟨_, _, _, hlog⟩ := accept_tasks e { (y.node e).peer with tasks := (y.node e).peer.tasks.eraseIdx i } c.kind g id d m r parent
        refine ⟨?_, .inr ⟨⟨c.kind, g, id, d, passed e c.kind m⟩, ?_⟩⟩
        · unfold Peer.accept
          split
          · simp [Peer.after]
          · simp [Peer.after, hrest, Peer.register]
        · have hn : (y.node e).news (Peer.accept e { (y.node e).peer with tasks := (y.node e).peer.tasks.eraseIdx i } c.kind g id d m r parent) =
              [.invoked c.kind (g, Peer.handlerCtx e { (y.node e).peer with tasks := (y.node e).peer.tasks.eraseIdx i } c.kind id parent) id d (passed e c.kind m)] := by
            simp [Node.news, hlog]
          simp only [Node.absorb, hn]
          rfl
  · cases h

/-- A handler resolves. -/
theorem answer_simple {hs : End → Handlers H} {y y' : WasmCalls.Sys H} {e : End} {i : Nat} {r : Result}
    (h : y.step hs (.answer e i r) = some y') :
    ∃ x, (y.node e).jobs[i]? = some x ∧ x.kind = .rr ∧
      y' = y.put e { y.node e with jobs := (y.node e).jobs.eraseIdx i, made := (y.node e).made ++ [(x, r)] } [answerFrame x.id r] false := by
  simp only [WasmCalls.Sys.step, Option.map_eq_some_iff] at h
  obtain ⟨⟨n, out⟩, h1, rfl⟩ := h
  unfold Node.answer at h1
  split at h1
  · cases h1
  · rename_i x hx
    split at h1
    · rename_i hk
      cases h1
      exact ⟨x, hx, hk, rfl⟩
    · cases h1

/-! ## Work -/

/-- How many steps a frame is worth. -/
def weight (f : Frame) : Nat := if isRequest f then 4 else 1

def wireWork (l : List Frame) : Nat := (l.map weight).sum

/-- How many steps the requests and handlers of an end are worth. -/
def nodeWork (n : Node H) : Nat := 3 * n.peer.tasks.length + 2 * n.jobs.countP (fun j => j.kind = .rr)

/-- How much is to be done. -/
def work (y : WasmCalls.Sys H) : Nat :=
  nodeWork (y.node .host) + nodeWork (y.node .guest) + wireWork (y.wire .host) + wireWork (y.wire .guest)

theorem work_at (y : WasmCalls.Sys H) (e : End) :
    work y = nodeWork (y.node e) + nodeWork (y.node (other e)) + wireWork (y.wire e) + wireWork (y.wire (other e)) := by
  cases e <;> simp only [work, other] <;> omega

theorem work_put (y : WasmCalls.Sys H) (e : End) (n : Node H) (out : List Frame) (r : Bool) :
    work (y.put e n out r) = nodeWork n + nodeWork (y.node (other e)) + (wireWork (y.wire e) + wireWork out) +
      wireWork (if r then (y.wire (other e)).tail else y.wire (other e)) := by
  rw [work_at _ e]
  simp [WasmCalls.Sys.put, other_ne, wireWork]

theorem wireWork_head {l : List Frame} {f : Frame} (h : l.head? = some f) : wireWork l = weight f + wireWork l.tail := by
  cases l with
  | nil => cases h
  | cons a l => cases h; simp [wireWork]

theorem countP_erase {α : Type} {p : α → Bool} : ∀ {l : List α} {i : Nat} {x : α}, l[i]? = some x → p x = true →
    l.countP p = (l.eraseIdx i).countP p + 1
  | [], i, x, h, _ => by simp at h
  | a :: l, 0, x, h, hp => by
    simp only [List.getElem?_cons_zero, Option.some.injEq] at h
    subst h
    simp [hp]
  | a :: l, i + 1, x, h, hp => by
    simp only [List.getElem?_cons_succ] at h
    simp only [List.eraseIdx_cons_succ, List.countP_cons, countP_erase h hp]
    omega

theorem goes_down {hs : End → Handlers H} {y y' : WasmCalls.Sys H} {a : WasmCalls.Act} (hg : Good hs y) (hb : Bounded y)
    (hsim : Simple y) (hp : ∀ e, Plain (y.node e)) (ha : Goes a) (h : y.step hs a = some y') : work y' < work y := by
  cases a with
  | recv e data =>
    obtain ⟨f, p, h1, rfl, h2⟩ := recv_simple hg hb hsim hp h
    rw [work_put, work_at y e, if_pos rfl, wireWork_head h1]
    have : wireWork [] = 0 := rfl
    rcases h2 with ⟨hf, ht⟩ | ⟨hf, ht⟩
    · simp only [nodeWork, ht, weight, hf, if_true, this]; omega
    · have hw : weight f = 1 := by simp [weight, hf]
      simp only [nodeWork, ht, hw, this]; omega
  | task e i live =>
    obtain ⟨hi, p, ht, h2⟩ := task_simple hg hsim hp h
    have hl : p.tasks.length + 1 = (y.node e).peer.tasks.length := by
      rw [ht, List.length_eraseIdx_of_lt hi]; omega
    rcases h2 with ⟨id, msg, _, rfl⟩ | ⟨x, rfl⟩
    · have hw : wireWork [errorFrame id msg] = 1 := rfl
      rw [work_put, work_at y e, hw]
      simp only [nodeWork]; simp; omega
    · have hw : wireWork [] = 0 := rfl
      rw [work_put, work_at y e, hw]
      have hx : List.countP (fun j : WasmCalls.Job H => decide (j.kind = .rr)) [x] ≤ 1 := List.countP_le_length
      simp only [nodeWork, List.countP_append]; simp at hx ⊢; omega
  | answer e i r =>
    obtain ⟨x, h1, hk, rfl⟩ := answer_simple h
    have hw : wireWork [answerFrame x.id r] = 1 := by simp [wireWork, weight, answerFrame_not]
    rw [work_put, work_at y e, hw]
    have := countP_erase (p := fun j : WasmCalls.Job H => decide (j.kind = .rr)) h1 (by simp [hk])
    simp only [nodeWork, this]; simp; omega
  | _ => exact absurd ha (by simp [Goes])

/-! ## Frames have bytes -/

/-- Where a frame comes from. -/
def From (n : Node H) (f : Frame) : Prop :=
  (∃ c ∈ n.calls, f = .request (requestFrame c.kind c.id c.data c.metadata)) ∨ (∃ x r, (x, r) ∈ n.made ∧ f = answerFrame x.id r) ∨
    ∃ id msg, msg.length ≤ 16 ∧ f = errorFrame id msg

theorem from_more {n n' : Node H} {f : Frame} (h : From n f) (hc : ∀ c ∈ n.calls, c ∈ n'.calls) (hm : ∀ x ∈ n.made, x ∈ n'.made) :
    From n' f := by
  rcases h with ⟨c, h1, h2⟩ | ⟨x, r, h1, h2⟩ | h
  · exact .inl ⟨c, hc c h1, h2⟩
  · exact .inr (.inl ⟨x, r, hm _ h1, h2⟩)
  · exact .inr (.inr h)

theorem from_put {y : WasmCalls.Sys H} (hw : ∀ e, ∀ f ∈ y.wire e, From (y.node e) f) (e : End) (n : Node H) (out : List Frame) (r : Bool)
    (hc : ∀ c ∈ (y.node e).calls, c ∈ n.calls) (hm : ∀ x ∈ (y.node e).made, x ∈ n.made) (ho : ∀ f ∈ out, From n f) :
    ∀ t, ∀ f ∈ (y.put e n out r).wire t, From ((y.put e n out r).node t) f := by
  intro t f hf
  rcases eq_or_other e t with rfl | rfl
  · rw [put_node]
    simp only [WasmCalls.Sys.put, if_true] at hf
    rcases List.mem_append.mp hf with hf | hf
    · exact from_more (hw _ f hf) hc hm
    · exact ho f hf
  · rw [put_other]
    simp only [WasmCalls.Sys.put, if_neg (other_ne e)] at hf
    refine hw _ f ?_
    split at hf
    · exact List.mem_of_mem_tail hf
    · exact hf

theorem from_step {hs : End → Handlers H} {y y' : WasmCalls.Sys H} {a : WasmCalls.Act} (hg : Good hs y) (hb : Bounded y)
    (hsim : Simple y) (hp : ∀ e, Plain (y.node e)) (hw : ∀ e, ∀ f ∈ y.wire e, From (y.node e) f)
    (h : y.step hs a = some y') : ∀ t, ∀ f ∈ y'.wire t, From (y'.node t) f := by
  have notmany : ∀ (e : End) (c : WasmCalls.Call), c ∈ (y.node e).calls → many c.kind = true → False := by
    intro e c hc hm
    rcases hsim e c hc with hk | hk <;> simp [many, hk] at hm
  have no : ∀ n : Node H, ∀ f ∈ ([] : List Frame), From n f := fun _ f hf => absurd hf List.not_mem_nil
  have mute : ∀ (e : End) (p : WasmDispatch.Peer H), p.log = (y.node e).peer.log →
      ∀ t, ∀ f ∈ (y.put e ((y.node e).absorb p) (((y.node e).news p).filterMap sentOf) false).wire t,
        From ((y.put e ((y.node e).absorb p) (((y.node e).news p).filterMap sentOf) false).node t) f := by
    intro e p hl
    have : (y.node e).news p = [] := by simp [Node.news, hl]
    refine from_put hw _ _ _ _ (fun _ h => h) (fun _ h => h) ?_
    rw [this]; exact no _
  cases a with
  | call e k d m ctx =>
    simp only [WasmCalls.Sys.step, Option.map_eq_some_iff] at h
    obtain ⟨⟨n, out⟩, h1, rfl⟩ := h
    unfold Node.call at h1
    split at h1
    · cases h1
    · rename_i c id b hn
      cases h1
      refine from_put hw _ _ _ _ (fun c h => List.mem_append_left _ h) (fun _ h => h) ?_
      intro f hf
      split at hf
      · cases List.mem_singleton.mp hf
        exact .inl ⟨⟨k, id, d, m, ctx⟩, by simp, rfl⟩
      · exact absurd hf List.not_mem_nil
  | subscribe e j =>
    simp only [WasmCalls.Sys.step, Option.map_eq_some_iff] at h
    obtain ⟨⟨n, out⟩, h1, rfl⟩ := h
    obtain ⟨c, o, h2, _, rfl, _, h3⟩ := subscribe_shape h1
    refine from_put hw _ _ _ _ (fun _ h => h) (fun _ h => h) ?_
    rcases h3 with ⟨_, _, rfl⟩ | ⟨_, rfl⟩
    · intro f hf
      cases List.mem_singleton.mp hf
      exact .inl ⟨c, List.mem_of_getElem? h2, rfl⟩
    · exact no _
  | start e j n =>
    simp only [WasmCalls.Sys.step, Option.bind_eq_some_iff] at h
    obtain ⟨c, h1, h2⟩ := h
    split at h2
    · rename_i hk; exact absurd hk (fun hk => notmany e c (List.mem_of_getElem? h1) hk)
    · cases h2
  | own e j f =>
    simp only [WasmCalls.Sys.step, Option.bind_eq_some_iff] at h
    obtain ⟨c, h1, h2⟩ := h
    split at h2
    · rename_i hk; exact absurd hk.1 (fun hk => notmany e c (List.mem_of_getElem? h1) hk)
    · cases h2
  | recv e data =>
    obtain ⟨f, p, _, rfl, _⟩ := recv_simple hg hb hsim hp h
    exact from_put hw _ _ _ _ (fun _ h => h) (fun _ h => h) (no _)
  | task e i live =>
    obtain ⟨_, p, _, ⟨id, msg, hm, rfl⟩ | ⟨x, rfl⟩⟩ := task_simple hg hsim hp h
    · refine from_put hw _ _ _ _ (fun _ h => h) (fun _ h => h) fun f hf => ?_
      exact .inr (.inr ⟨id, msg, hm, List.mem_singleton.mp hf⟩)
    · exact from_put hw _ _ _ _ (fun _ h => h) (fun _ h => h) (no _)
  | startIn e i live =>
    simp only [WasmCalls.Sys.step, WasmCalls.Sys.does] at h
    split at h
    · rename_i p hpp
      cases h
      cases hpp
      exact mute e _ rfl
    · cases h
  | openSink e i =>
    simp only [WasmCalls.Sys.step, WasmCalls.Sys.does] at h
    split at h
    · rename_i p hpp
      cases h
      cases hpp
      exact mute e _ rfl
    · cases h
  | answer e i r =>
    obtain ⟨x, _, _, rfl⟩ := answer_simple h
    refine from_put hw _ _ _ _ (fun _ h => h) (fun _ h => List.mem_append_left _ h) fun f hf => ?_
    exact .inr (.inl ⟨x, r, by simp, List.mem_singleton.mp hf⟩)
  | emit e i f =>
    simp only [WasmCalls.Sys.step, Option.bind_eq_some_iff] at h
    obtain ⟨x, h1, h2⟩ := h
    split at h2
    · rename_i hk
      have L := hg.link (other e)
      rw [other_other] at L
      obtain ⟨c, hc, hs1⟩ := L.jobs x (List.mem_of_getElem? h1)
      exact absurd hk.1 (fun hk => notmany _ c hc (hs1.kind ▸ hk))
    · cases h2

theorem simple_before {hs : End → Handlers H} {y y' : WasmCalls.Sys H} {a : WasmCalls.Act} (h : y.step hs a = some y')
    (hs' : Simple y') : Simple y := by
  intro e c hc
  obtain ⟨l, hl⟩ := calls_grow h e
  exact hs' e c (by rw [hl]; exact List.mem_append_left _ hc)

theorem from_reach {hs : End → Handlers H} {y : WasmCalls.Sys H} (h : Reach hs y) (hb : Bounded y) (hsim : Simple y) :
    ∀ e, ∀ f ∈ y.wire e, From (y.node e) f := by
  induction h with
  | init => intro e f hf; exact absurd hf List.not_mem_nil
  | @step y y' a hr hs1 ih =>
    have hb0 := bounded_before hs1 hb
    have hsim0 := simple_before hs1 hsim
    exact from_step (good_reach hr hb0) hb0 hsim0 (plain_reach hr hb0 hsim0) (ih hb0 hsim0) hs1

theorem id_lt {e : End} {n : Node H} (h : Local e n) {c : WasmCalls.Call} (hc : c ∈ n.calls) : c.id.toNat < 2 ^ 31 := by
  obtain ⟨j, hj⟩ := List.mem_iff_getElem?.mp hc
  rw [h.ids j c hj]
  cases sideOf e <;> exact Nat.mod_lt _ (by decide)

/-- Every frame under way can be read from some bytes, the ones its encoder writes. -/
theorem has_bytes {hs : End → Handlers H} {y : WasmCalls.Sys H} (hg : Good hs y) (hsim : Simple y) (hsm : Small y) {e : End} {f : Frame}
    (hf : f ∈ y.wire e) (hw : From (y.node e) f) : ∃ data, decodeFrame data = .ok f := by
  have hid : f.streamID.toNat < 2 ^ 31 := by
    rcases hw with ⟨c, hc, rfl⟩ | hw
    · have : (Frame.request (requestFrame c.kind c.id c.data c.metadata)).streamID = c.id := by
        cases c with
        | mk k id d m ctx => cases k <;> rfl
      rw [this]; exact id_lt (hg.loc e) hc
    · have hnr : isRequest f = false := by
        rcases hw with ⟨x, r, _, rfl⟩ | ⟨id, msg, _, rfl⟩
        · exact answerFrame_not _ _
        · rfl
      have L := hg.link (other e)
      rw [other_other] at L
      rcases L.back f hf hnr with ⟨c, h1, h2, _⟩ | ⟨c, h1, _, h2⟩
      · rw [← h2]; exact id_lt (hg.loc _) h1
      · rw [← h2]; exact id_lt (hg.loc _) h1
  have key : ∀ f : Frame, Iota.Props.Frames.Legal f → (∀ g, f = .request g → g.follows = false ∧ (g.frameType ≠ tRequestChannel → g.complete = true) ∧
      (g.frameType ≠ tRequestChannel → g.frameType ≠ tRequestStream → g.initialN = 1)) → ∃ data, decodeFrame data = .ok f := by
    intro f hl hr
    obtain ⟨w, _, h⟩ := Iota.Props.Frames.frame_roundtrip_exact f hl (List.replicate f.size 0) (by simp) hr
    exact ⟨w, h⟩
  rcases hw with ⟨c, hc, rfl⟩ | ⟨x, r, hx, rfl⟩ | ⟨id, msg, hm, rfl⟩
  · obtain ⟨h1, h2⟩ := hsm.calls e c hc
    have hk := hsim e c hc
    cases c with
    | mk k id d m ctx =>
      rcases hk with hk | hk <;> dsimp only at hk <;> subst hk
      · exact key _ ⟨hid, h1, h2, (show 4 ≤ tRequestResponse.toNat by decide), (show tRequestResponse.toNat ≤ 7 by decide)⟩ fun g hg => by cases hg; exact ⟨rfl, fun _ => rfl, fun _ _ => rfl⟩
      · exact key _ ⟨hid, h1, h2, (show 4 ≤ tRequestFNF.toNat by decide), (show tRequestFNF.toNat ≤ 7 by decide)⟩ fun g hg => by cases hg; exact ⟨rfl, fun _ => rfl, fun _ _ => rfl⟩
  · have := hsm.made e x r hx
    cases r with
    | value d m => exact key _ ⟨hid, this.1, this.2⟩ fun g hg => by cases hg
    | failure m => exact key _ ⟨hid, this⟩ fun g hg => by cases hg
  · exact key _ ⟨hid, by show List.length msg + 10 < 2 ^ 32; omega⟩ fun g hg => by cases hg

/-! ## Something can be done -/

/-- Nothing is under way. -/
def Idle (y : WasmCalls.Sys H) : Prop :=
  ∀ e, y.wire e = [] ∧ (y.node e).peer.tasks = [] ∧ ∀ x ∈ (y.node e).jobs, x.kind ≠ .rr

theorem small_put {y : WasmCalls.Sys H} (h : Small y) (e : End) (n : Node H) (out : List Frame) (r : Bool)
    (hc : n.calls = (y.node e).calls) (hm : ∀ x r, (x, r) ∈ n.made → (x, r) ∈ (y.node e).made ∨ FitsResult r) :
    Small (y.put e n out r) := by
  constructor
  · intro t c hcc
    rcases eq_or_other e t with rfl | rfl
    · rw [put_node, hc] at hcc; exact h.calls _ c hcc
    · rw [put_other] at hcc; exact h.calls _ c hcc
  · intro t x r hx
    rcases eq_or_other e t with rfl | rfl
    · rw [put_node] at hx
      rcases hm x r hx with hx | hx
      · exact h.made _ x r hx
      · exact hx
    · rw [put_other] at hx; exact h.made _ x r hx

theorem goes_on {hs : End → Handlers H} {y : WasmCalls.Sys H} (h : Reach hs y) (hb : Bounded y) (hsim : Simple y) (hsm : Small y) :
    Idle y ∨ ∃ a y', Goes a ∧ y.step hs a = some y' ∧ Small y' := by
  have hg := good_reach h hb
  have hp := plain_reach h hb hsim
  have hw := from_reach h hb hsim
  by_cases h1 : ∃ e, (y.node e).peer.tasks ≠ []
  · obtain ⟨e, ht⟩ := h1
    right
    obtain ⟨p, hs1⟩ := (simple_calls_never_crash h hb hsim e).2 0 true (List.length_pos_iff.mpr ht)
    have hst : y.step hs (.task e 0 true) =
        some (y.put e ((y.node e).absorb p) (((y.node e).news p).filterMap sentOf) false) := by
      simp only [WasmCalls.Sys.step, WasmCalls.Sys.does, hs1]
    exact ⟨.task e 0 true, _, trivial, hst, small_put hsm _ _ _ _ rfl fun x r hx => .inl hx⟩
  · have ht : ∀ e, (y.node e).peer.tasks = [] := fun e => Classical.byContradiction fun hne => h1 ⟨e, hne⟩
    by_cases h2 : ∃ e, y.wire e ≠ []
    · obtain ⟨e, hne⟩ := h2
      right
      obtain ⟨f, l, hl⟩ := List.exists_cons_of_ne_nil hne
      have hmem : f ∈ y.wire e := by rw [hl]; exact List.mem_cons_self
      obtain ⟨data, hd⟩ := has_bytes hg hsim hsm hmem (hw e f hmem)
      have hh : (y.wire (other (other e))).head? = some f := by rw [other_other, hl]; rfl
      have hr : (y.node (other e)).peer.ready (other e) = true := by
        unfold Peer.ready
        split
        · rfl
        · rw [ht]; rfl
      obtain ⟨p, hs1⟩ := (simple_calls_never_crash h hb hsim (other e)).1 f data hh hd hr
      have hst : y.step hs (.recv (other e) data) =
          some (y.put (other e) ((y.node (other e)).absorb p) (((y.node (other e)).news p).filterMap sentOf) true) := by
        simp only [WasmCalls.Sys.step, hh, Option.bind_some, hd, if_true, WasmCalls.Sys.does, hs1]
      exact ⟨.recv (other e) data, _, trivial, hst, small_put hsm _ _ _ _ rfl fun x r hx => .inl hx⟩
    · have hwire : ∀ e, y.wire e = [] := fun e => Classical.byContradiction fun hne => h2 ⟨e, hne⟩
      by_cases h3 : ∃ e, ∃ x ∈ (y.node e).jobs, x.kind = .rr
      · obtain ⟨e, x, hx, hk⟩ := h3
        right
        obtain ⟨i, hi⟩ := List.mem_iff_getElem?.mp hx
        have hst : y.step hs (.answer e i (.failure [])) = some (y.put e { y.node e with
            jobs := (y.node e).jobs.eraseIdx i, made := (y.node e).made ++ [(x, .failure [])] } [answerFrame x.id (.failure [])] false) := by
          simp only [WasmCalls.Sys.step, Node.answer, hi, hk, if_true, Option.map_some]
        refine ⟨.answer e i (.failure []), _, trivial, hst, small_put hsm _ _ _ _ rfl fun x r hx => ?_⟩
        rcases List.mem_append.mp hx with hx | hx
        · exact .inl hx
        · cases List.mem_singleton.mp hx
          exact .inr (by show 0 + 10 < 2 ^ 32; decide)
      · exact .inl fun e => ⟨hwire e, ht e, fun x hx hk => h3 ⟨e, x, hx, hk⟩⟩

/-- When nothing is under way, all calls are done with. -/
theorem idle_done {hs : End → Handlers H} {y : WasmCalls.Sys H} (h : Reach hs y) (hb : Bounded y) (hi : Idle y) (e : End)
    {j : Nat} {c : WasmCalls.Call} (hc : (y.node e).calls[j]? = some c) : Done hs y e j c := by
  have hg := good_reach h hb
  obtain ⟨hw, _, _⟩ := hi e
  obtain ⟨hw', ht', hj'⟩ := hi (other e)
  unfold Done
  split
  · rename_i hk
    intro ho
    have hz : inFlight (y.node (other e)) (y.wire e) (y.wire (other e)) c = 0 := by
      have hh : handlers c.id (y.node (other e)).jobs = 0 := by
        refine List.countP_eq_zero.mpr fun x hx hid => ?_
        obtain ⟨d, h1, h2⟩ := (hg.link e).jobs x hx
        have : d = c := call_unique (hg.loc e) (hb e) hc h1 (h2.id.symm.trans (beq_iff_eq.mp hid))
        subst this
        exact hj' x hx (h2.kind.trans hk)
      simp [inFlight, hw, hw', ht', hh, requests, answers, queued]
    obtain ⟨r, hr⟩ := calls_get_results h hb e hc hk ho hz
    exact ⟨r, hr, (calls_get_own_results h hb e hc hk).1 r (by rw [hr]; exact List.mem_singleton.mpr rfl)⟩
  · rename_i hk
    intro hu
    exact ((handlers_run_for_calls h hb e).2 j c hc hk).2.1 hu (by rw [hw]; rfl) (by rw [ht']; rfl)
  · trivial

/-! ## Results (C145) -/

theorem goes_calls {hs : End → Handlers H} {y y' : WasmCalls.Sys H} {a : WasmCalls.Act} (ha : Goes a) (h : y.step hs a = some y') (t : End) :
    (y'.node t).calls = (y.node t).calls := by
  have key : ∀ (e : End) (n : Node H) (out : List Frame) (r : Bool), n.calls = (y.node e).calls →
      ((y.put e n out r).node t).calls = (y.node t).calls := by
    intro e n out r hn
    rcases eq_or_other e t with rfl | rfl
    · rw [put_node]; exact hn
    · rw [put_other]
  cases a with
  | recv e data =>
    simp only [WasmCalls.Sys.step, Option.bind_eq_some_iff] at h
    obtain ⟨f, h1, h2⟩ := h
    split at h2
    · unfold WasmCalls.Sys.does at h2
      split at h2
      · cases h2; exact key _ _ _ _ rfl
      · cases h2
    · cases h2
  | task e i live =>
    simp only [WasmCalls.Sys.step, WasmCalls.Sys.does] at h
    split at h
    · cases h; exact key _ _ _ _ rfl
    · cases h
  | answer e i r =>
    obtain ⟨x, _, _, rfl⟩ := answer_simple h
    exact key _ _ _ _ rfl
  | _ => exact absurd ha (by simp [Goes])

theorem goes_run {hs : End → Handlers H} {as : List WasmCalls.Act} : ∀ {y y' : WasmCalls.Sys H}, Reach hs y → Bounded y → Simple y →
    (∀ a ∈ as, Goes a) → runActs hs y as = some y' → Reach hs y' ∧ Bounded y' ∧ Simple y' ∧ as.length + work y' ≤ work y := by
  induction as with
  | nil => intro y y' h hb hs _ hr; cases hr; exact ⟨h, hb, hs, by simp⟩
  | cons a as ih =>
    intro y y' h hb hsim ha hr
    simp only [runActs, Option.bind_eq_some_iff] at hr
    obtain ⟨y1, h1, h2⟩ := hr
    have hga := ha a List.mem_cons_self
    have hc := goes_calls hga h1
    have hb1 : Bounded y1 := fun e => by rw [hc e]; exact hb e
    have hs1 : Simple y1 := fun e c hcc => hsim e c (by rw [← hc e]; exact hcc)
    have hlt := goes_down (good_reach h hb) hb hsim (plain_reach h hb hsim) hga h1
    obtain ⟨h3, h4, h5, h6⟩ := ih (.step a h h1) hb1 hs1 (fun b hb => ha b (List.mem_cons_of_mem _ hb)) h2
    exact ⟨h3, h4, h5, by simp only [List.length_cons]; omega⟩

/-- **C145** Whatever is done about the calls under way, in whatever order, there is an end of it: no more than a
number of steps that only depends on where the ends are. When nothing more can be done, every call is done with. For up to `2^30` calls of an end,
none of them streams or channels, with data that fits into a frame. -/
theorem calls_finish {hs : End → Handlers H} {y : WasmCalls.Sys H} (h : Reach hs y) (hb : Bounded y) (hsim : Simple y) :
    ∃ n, ∀ as y', (∀ a ∈ as, Goes a) → runActs hs y as = some y' →
      as.length ≤ n ∧
      ((∀ a, Goes a → y'.step hs a = none) → Small y' →
        ∀ (e : End) (j : Nat) (c : WasmCalls.Call), (y'.node e).calls[j]? = some c → Done hs y' e j c) := by
  refine ⟨work y, fun as y' ha hr => ?_⟩
  obtain ⟨h1, h2, h3, h4⟩ := goes_run h hb hsim ha hr
  refine ⟨by omega, fun hn hsm e j c hc => ?_⟩
  rcases goes_on h1 h2 h3 hsm with hi | ⟨a, y2, hga, hst, _⟩
  · exact idle_done h1 h2 hi e hc
  · rw [hn a hga] at hst; cases hst

/-- **C145** From wherever the ends are, they can go on, without new calls, until every call is done with. -/
theorem calls_can_finish {hs : End → Handlers H} {y : WasmCalls.Sys H} (h : Reach hs y) (hb : Bounded y) (hsim : Simple y)
    (hsm : Small y) : ∃ as y', (∀ a ∈ as, Goes a) ∧ runActs hs y as = some y' ∧
      ∀ (e : End) (j : Nat) (c : WasmCalls.Call), (y'.node e).calls[j]? = some c → Done hs y' e j c := by
  generalize hn : work y = n
  induction n using Nat.strongRecOn generalizing y with
  | ind n ih =>
    rcases goes_on h hb hsim hsm with hi | ⟨a, y1, hga, hst, hsm1⟩
    · exact ⟨[], y, by simp, rfl, fun e j c hc => idle_done h hb hi e hc⟩
    · have hlt := goes_down (good_reach h hb) hb hsim (plain_reach h hb hsim) hga hst
      have hc := goes_calls hga hst
      obtain ⟨as, y', h1, h2, h3⟩ := ih (work y1) (by omega) (y := y1) (.step a h hst) (fun e => by rw [hc e]; exact hb e)
        (fun e c hcc => hsim e c (by rw [← hc e]; exact hcc)) hsm1 rfl
      refine ⟨a :: as, y', ?_, ?_, h3⟩
      · intro b hb
        rcases List.mem_cons.mp hb with rfl | hb
        · exact hga
        · exact h1 b hb
      · simp only [runActs, hst, Option.bind_some, h2]

/-- The theorems say something: three calls are under way, in both directions. -/
example : ∃ y : WasmCalls.Sys Nat, Reach (fun _ => hs2) y ∧ Bounded y ∧ Simple y ∧ Small y ∧ work y = 10 ∧
    (y.node .host).calls.length = 3 ∧ (y.node .guest).calls.length = 1 := by
  have : ∃ y : WasmCalls.Sys Nat, Reach (fun _ => hs2) y ∧
      ((y.node .host).calls.length ≤ 2 ^ 30 ∧ (y.node .guest).calls.length ≤ 2 ^ 30) ∧
      ((∀ c ∈ (y.node .host).calls, c.kind = .rr ∨ c.kind = .fnf) ∧ ∀ c ∈ (y.node .guest).calls, c.kind = .rr ∨ c.kind = .fnf) ∧
      ((∀ c ∈ (y.node .host).calls, c.metadata.length < 2 ^ 24 ∧ c.metadata.length + c.data.length + 13 < 2 ^ 32) ∧
        ∀ c ∈ (y.node .guest).calls, c.metadata.length < 2 ^ 24 ∧ c.metadata.length + c.data.length + 13 < 2 ^ 32) ∧
      (y.node .host).made = [] ∧ (y.node .guest).made = [] ∧ work y = 10 ∧
      (y.node .host).calls.length = 3 ∧ (y.node .guest).calls.length = 1 :=
    run_ends (as := several.take 11) (by decide +kernel)
  obtain ⟨y, h1, h2, ⟨h3, h4⟩, ⟨h5, h6⟩, h7, h8, h9⟩ := this
  refine ⟨y, h1, bounded_iff.mpr h2, fun e => by cases e; exacts [h3, h4], ⟨fun e => by cases e; exacts [h5, h6], ?_⟩, h9⟩
  intro e x r hx
  cases e
  · rw [h7] at hx; exact absurd hx List.not_mem_nil
  · rw [h8] at hx; exact absurd hx List.not_mem_nil

end Iota.Props.WasmFinish
