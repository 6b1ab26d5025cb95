import Verif.Props.WasmCaller

/-!
# C89: the demand of a caller across the WebAssembly boundary

A host or guest that serves a stream or channel: what the caller asks for reaches the source.
-/

namespace Iota.Props.WasmServe
open Go Iota.Frames Iota.Registry Iota.WasmDispatch Iota.Spec.Lookup Iota.Spec.Handler Iota.Spec.WasmDispatch Iota.Spec.Caller
open Iota.Handler hiding Act
open Iota.Lemmas.WasmDispatch Iota.Props.Handler Iota.Props.WasmDispatch Iota.Props.Frames Iota.Props.WasmCaller
open Iota.Props.Caller (get_register_none get_register_some)

variable {H : Type}

/-- The stream at `i` serves the id. The initial demand of the request was passed to the source, which is then known, or
is about to be. -/
structure Serves (id : UInt32) (i : Nat) (n : UInt32) (p : Peer H) : Prop where
  found : getStream p.st id = some i
  obj : ∃ a b, p.st.objs[i]? = some (.resp a b) ∧ ((a = true ∧ Ev.requested i n ∈ p.log) ∨ Task.attach i n ∈ p.tasks)

theorem Serves.register {id : UInt32} {i : Nat} {n : UInt32} {p : Peer H} (h : Serves id i n p) (o : Obj) (c : Ctx) (id' : UInt32) :
    Serves id i n (p.register o c id') := by
  obtain ⟨a, b, ho, hr⟩ := h.obj
  refine ⟨get_register_some (st := { p.st with objs := p.st.objs ++ [o] }) h.found, a, b, ?_, hr⟩
  simp only [Peer.register, registerStream_objs]
  rw [List.getElem?_append_left (List.getElem?_eq_some_iff.mp ho).1, ho]

theorem serves_step {e : End} {hs : Handlers H} {id : UInt32} {i : Nat} {n : UInt32} {p p' : Peer H} {x : Act}
    (h : Serves id i n p) (hne : ∀ f, frameOf id x = some f → ends f = false) (hs : p.step e hs x = some (.ok p')) :
    Serves id i n p' := by
  obtain ⟨a, b, ho, hr⟩ := h.obj
  have herase : ∀ (j : Nat) (t : Task), p.tasks[j]? = some t → t ≠ .attach i n → (a = true ∧ Ev.requested i n ∈ p.log) ∨
      Task.attach i n ∈ p.tasks.eraseIdx j := by
    intro j t ht hne
    rcases hr with hr | hr
    · exact .inl hr
    · exact .inr ((mem_eraseIdx_or ht hr).resolve_left (Ne.symm hne))
  cases effect hs with
  | skip data s hd => exact ⟨h.found, a, b, ho, hr⟩
  | ask data v k hd => exact ⟨h.found, a, b, ho, by simpa [Peer.after, or_assoc] using hr⟩
  | frame data f j o hd hf hg hx =>
    obtain ⟨h1, h2, _, _⟩ := dispatch_shape hf hx
    refine ⟨?_, a, b, by simp only [Peer.after, h1]; exact ho, ?_⟩
    · simp only [Peer.after]
      by_cases hid : f.streamID = id
      · have he := hne f (by simp [frameOf, hd, hid])
        cases f with
        | request v => exact absurd rfl (hf v)
        | requestN v =>
          simp only [dispatch] at hx
          split at hx
          · cases hx
          · split at hx <;> cases hx
            exact h.found
        | cancel v => cases he
        | error v => cases he
        | payload v =>
          have : v.complete = false := he
          simp only [dispatch, this, deliverIf] at hx
          cases hy : (if v.next = true then deliver p.st j (.next j v.data v.metadata) else .ok [] : Res (List (Ev (H × Ctx)))) with
          | ok e1 => rw [hy] at hx; cases hx; exact h.found
          | err m => rw [hy] at hx; cases hx
          | panic => rw [hy] at hx; cases hx
      · rcases h2 with h2 | h2 <;> rw [h2]
        · exact h.found
        · exact (getStream_remove p.st (Ne.symm hid)).trans h.found
    · rcases hr with ⟨h1, h2⟩ | hr
      · exact .inl ⟨h1, List.mem_append_left _ h2⟩
      · exact .inr (List.mem_append_left _ hr)
  | answer j live k id' data md n' ev ht _ _ =>
    refine ⟨h.found, a, b, ho, ?_⟩
    rcases herase j _ ht (by simp) with ⟨h1, h2⟩ | hr
    · exact .inl ⟨h1, List.mem_append_left _ h2⟩
    · exact .inr (List.mem_append_left _ hr)
  | serve j live k id' data md n' g c m ht _ _ =>
    have q : Serves id i n ({ p with tasks := p.tasks.eraseIdx j } : Peer H) := ⟨h.found, a, b, ho, herase j _ ht (by simp)⟩
    obtain ⟨q1, a', b', q2, q3⟩ := q.register (.resp false false) c id'
    refine ⟨q1, a', b', q2, ?_⟩
    rcases q3 with ⟨h1, h2⟩ | hr
    · exact .inl ⟨h1, List.mem_append_left _ h2⟩
    · exact .inr (List.mem_append_left _ hr)
  | attach j i' n' ht =>
    by_cases hi : i' = i
    · subst hi
      refine ⟨h.found, true, b, by simp [Peer.after, List.getElem?_modify, ho], ?_⟩
      by_cases hn : n' = n
      · subst hn; exact .inl ⟨rfl, by simp [Peer.after]⟩
      · rcases herase j _ ht (by simp [hn]) with ⟨_, h2⟩ | hr
        · exact .inl ⟨rfl, List.mem_append_left _ h2⟩
        · exact .inr (List.mem_append_left _ hr)
    · refine ⟨h.found, a, b, by simp [Peer.after, List.getElem?_modify, hi, ho], ?_⟩
      rcases herase j _ ht (by simp [hi]) with ⟨h1, h2⟩ | hr
      · exact .inl ⟨h1, List.mem_append_left _ h2⟩
      · exact .inr (List.mem_append_left _ hr)
  | demand j live i' n' o ht _ _ =>
    refine ⟨h.found, a, b, ho, ?_⟩
    rcases herase j _ ht (by simp) with ⟨h1, h2⟩ | hr
    · exact .inl ⟨h1, List.mem_append_left _ h2⟩
    · exact .inr (List.mem_append_left _ hr)
  | openMono id' c => exact h.register _ c id'
  | openFlux id' b c => exact h.register _ c id'
  | startIn j l =>
    refine ⟨h.found, a, b, ?_, hr⟩
    simp only [startIn, List.getElem?_modify, ho]
    split <;> rfl
  | openSink j =>
    by_cases hj : j = i
    · subst hj
      exact ⟨h.found, a, true, by simp [openSink, List.getElem?_modify, ho], hr⟩
    · exact ⟨h.found, a, b, by simp [openSink, List.getElem?_modify, hj, ho], hr⟩

theorem serves_run {e : End} {hs : Handlers H} {id : UInt32} {i : Nat} {n : UInt32} {as : List Act} {p p' : Peer H}
    (h : Serves id i n p) (hne : ∀ f ∈ arrived id as, ends f = false) (hr : p.run e hs as = some (.ok p')) : Serves id i n p' := by
  induction as generalizing p with
  | nil => cases hr; exact h
  | cons a as ih =>
    obtain ⟨p1, h1, h2⟩ := run_cons hr
    refine ih (serves_step h (fun f hf => hne f ?_) h1) (fun f hf => hne f ?_) h2
    · simp [arrived, hf]
    · simp only [arrived, List.mem_filterMap] at hf ⊢
      obtain ⟨b, hb, hf⟩ := hf
      exact ⟨b, List.mem_cons_of_mem _ hb, hf⟩

/-- **C89** (part) A host or guest takes up a request for a stream or channel whose operation it has, on an id that is
free. From then on, until a frame ends the stream: the initial demand of the request has been passed to the source the
handler returned, or will be; and when it has been, every RequestN frame that the end takes up leads to a piece of work
which, whenever it is done next, passes that demand to the source.

Missing: demand that is taken up before the source is known, which crashes a host (`early_demand_refuted`), and handlers
that return a source without subscription. -/
theorem served_demand_partial (e : End) (hs : Handlers H) (p1 : Peer H) (j : Nat) (l : Bool) (k : Kind) (hk : k = .rs ∨ k = .rc) (id : UInt32)
    (data md : Bytes) (n op : UInt32) (g : H) (ht : p1.tasks[j]? = some (.request k id data md n))
    (ho : opIndex md = some op.toNat) (hg : hs k op = some g) (fresh : getStream p1.st id = none) :
    ∃ p2 c m, p1.step e hs (.task j l) = some (.ok p2) ∧ p2.log = p1.log ++ [.invoked k (g, c) id data m] ∧
      ∀ after p, p2.run e hs after = some (.ok p) → (∀ f ∈ arrived id after, ends f = false) →
        (Ev.requested p1.st.objs.length n ∈ p.log ∨ Task.attach p1.st.objs.length n ∈ p.tasks) ∧
        ∀ bytes v, Task.attach p1.st.objs.length n ∉ p.tasks → decodeFrame bytes = .ok (.requestN v) → v.streamID = id →
          p.ready e = true → ∃ p', p.step e hs (.recv bytes) = some (.ok p') ∧ p'.log = p.log ∧
            ∀ live, ∃ p'', p'.step e hs (.task p.tasks.length live) = some (.ok p'') ∧ p''.tasks = p.tasks ∧
              p''.log = p.log ++ [.requested p1.st.objs.length v.n] := by
  have hl : ¬ md.length < 8 := fun hl => by rw [index_short hl] at ho; cases ho
  obtain ⟨x, _, hx⟩ := getU32_drop4 hl
  refine ⟨_, _, _, task_runs ht ho hx.symm hg, accept_log .., ?_⟩
  intro after p hr hne
  have hkept : ∃ c, kept e k (({ p1 with tasks := p1.tasks.eraseIdx j } : Peer H).handlerCtx e k id x) = some c := by
    rcases hk with rfl | rfl <;> cases e <;> exact ⟨_, rfl⟩
  obtain ⟨c, hc⟩ := hkept
  have hsv : Serves id p1.st.objs.length n (({ p1 with tasks := p1.tasks.eraseIdx j } : Peer H).accept e k g id data md n x) := by
    unfold Peer.accept
    rw [hc]
    refine ⟨get_register_none (st := { p1.st with objs := p1.st.objs ++ [.resp false false] }) _ fresh, false, false, ?_, ?_⟩
    · simp [Peer.after, Peer.register, registerStream_objs]
    · right
      rcases hk with rfl | rfl <;> simp [Peer.after, Peer.register, rest]
  obtain ⟨hf, a, b, hob, hor⟩ := serves_run hsv hne hr
  refine ⟨hor.imp (·.2) (fun h => h), ?_⟩
  intro bytes v hna hd hid hready
  obtain ⟨rfl, _⟩ := hor.resolve_right hna
  have e1 : p.recvOne bytes = .ok (p.after ⟨p.st, [.demand p1.st.objs.length v.n], []⟩) := by
    rw [recv_decoded hd]
    simp only [afterDecode, Frame.streamID, hid, hf, dispatch, hob, Obj.isDoRequest]
    rfl
  refine ⟨p.after ⟨p.st, [.demand p1.st.objs.length v.n], []⟩, by simp only [Peer.step, hready, if_true, e1],
    by simp [Peer.after], fun live => ?_⟩
  refine ⟨{ (p.after ⟨p.st, [.demand p1.st.objs.length v.n], []⟩) with tasks := p.tasks }.after
    ⟨p.st, [], [.requested p1.st.objs.length v.n]⟩, ?_, by simp [Peer.after], by simp [Peer.after]⟩
  simp only [Peer.step, Peer.after, List.getElem?_append_right (Nat.le_refl _), Nat.sub_self, List.getElem?_cons_zero,
    Peer.runTask, Handler.runTask, hob, Obj.hasSub, if_true, List.eraseIdx_append_of_length_le (Nat.le_refl _), List.eraseIdx_cons_zero,
    List.append_nil]
  show some (Res.ok (Peer.after _ _)) = _
  simp [Peer.after]

/-- A stream request with initial demand 3 on stream 4, then demand for 5 more. -/
example : ∃ p1 p : Peer Nat, Peer.init.run .host hs2 [.recv (channel 1)] = some (.ok p1) ∧ getStream p1.st 4 = none ∧
    p1.run .host hs2 [.task 0 true, .task 0 true, .recv [0, 0, 0, 4, 32, 0, 0, 0, 0, 5], .task 0 true] = some (.ok p) ∧
    Ev.requested 0 5 ∈ p.log := ⟨_, _, rfl, by decide, rfl, by decide⟩

end Iota.Props.WasmServe
