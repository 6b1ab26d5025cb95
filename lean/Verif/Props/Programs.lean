import Verif.Spec.Programs
import Verif.Props.Net
import Verif.Props.Registry

/-! # Which code answers a call between two programs (C155) -/

namespace Iota.Props.Programs
open Iota.Go Iota.Frames Iota.Registry Iota.Peers Iota.Net Iota.Programs Iota.Spec.Programs
open Iota.Handler (Task runTask handleRequest accept errorFrame)
open Iota.Spec.Handler (opIndex)
open Iota.Spec.Net (Sane Few Runs)
open Iota.StreamId (Side)
open Iota.Props.Peers (Good Bounded reach_good ids_unique Matches other_other)
open Iota.Props.Net (Sim sim_init sim_step net_grow few_bounded saneB saneB_sane)

variable {H : Type}

/-! ## Handlers of requests -/

theorem handlerFor_eq (r : Reg H) (k : Kind) (hl : (r.handlers k).length < 2 ^ 32) (md : Bytes) :
    handlerFor r k md = (opIndex md).bind fun i => (r.handlers k)[i]? := by
  unfold handlerFor
  split
  · rename_i h; rw [Handler.index_short h]; rfl
  · rename_i h
    obtain ⟨op, h1, h2⟩ := Handler.index_long h
    rw [h1, h2]
    exact Handler.getHandler_eq r k hl op

theorem blank_none {r : Reg H} {k : Kind} {op : UInt32} (h : getHandler (blank r) k op = none) : getHandler r k op = none := by
  unfold getHandler at h ⊢
  simp only [blank, List.length_map, List.getElem?_map] at h
  split at h
  · rename_i h1; rw [if_pos h1]
  · rename_i h1
    rw [if_neg h1]
    simpa using h

/-! ## Where results come from -/

/-- The handler of the request, or that it has none. -/
inductive From (d : Duo H) (s : Side) (k : Kind) (data md : Bytes) : Result → Prop
  | gave (h : H) (r : Result) : k = .rr → handlerFor (d.regs s) .rr md = some h → d.gives h data (md.drop 8) r = true → From d s k data md r
  | refused (msg : Bytes) : handlerFor (d.regs s) k md = none → From d s k data md (.failure msg)

/-- What holds of the results a peer has produced. -/
def Traced (d : Duo H) (y : Sys) : Prop :=
  ∀ s id data md r, .produced id data md r ∈ (y.peer s).log →
    ∃ c ∈ (y.peer (other s)).calls, c.frame.streamID = id ∧ From d s c.kind data md r

/-- Steps of two programs. -/
def Keeps (d : Duo H) (y : Sys) : Peers.Act → Prop
  | .run s reg _ _ => reg = blank (d.regs s)
  | .answer s i r => ∀ j, (y.peer s).jobs[i]? = some j → d.may s j r = true
  | _ => True

theorem traced_put {d : Duo H} {y : Sys} (ht : Traced d y) (s : Side) (p : Peer) (out : List Frame) (b : Bool)
    (hc : ∀ c ∈ (y.peer s).calls, c ∈ p.calls)
    (hl : ∀ id data md r, .produced id data md r ∈ p.log → .produced id data md r ∈ (y.peer s).log ∨
      ∃ c ∈ (y.peer (other s)).calls, c.frame.streamID = id ∧ From d s c.kind data md r) : Traced d (y.put s p out b) := by
  have calls : ∀ t, ∀ c ∈ (y.peer t).calls, c ∈ ((y.put s p out b).peer t).calls := by
    intro t c h
    simp only [Sys.put]
    split
    · rename_i e; subst e; exact hc c h
    · exact h
  intro t id data md r h
  simp only [Sys.put] at h
  split at h
  · rename_i e
    subst e
    rcases hl id data md r h with h | ⟨c, h1, h2⟩
    · obtain ⟨c, h1, h2⟩ := ht t id data md r h
      exact ⟨c, calls _ c h1, h2⟩
    · exact ⟨c, calls _ c h1, h2⟩
  · obtain ⟨c, h1, h2⟩ := ht t id data md r h
    exact ⟨c, calls _ c h1, h2⟩

theorem not_produced {es : List (Handler.Ev Unit)} {id : UInt32} {data md : Bytes} {r : Result} : .produced id data md r ∉ es.filterMap recOf := by
  intro h
  rw [List.mem_filterMap] at h
  obtain ⟨e, _, h⟩ := h
  cases e <;> cases h

theorem run_from {d : Duo H} {y : Sys} (hg : Good y) {s : Side} {live : Bool} {i : Nat} {p' : Peer} {out : List Frame}
    (h : (y.peer s).run (blank (d.regs s)) live i = some (p', out)) :
    (∀ c ∈ (y.peer s).calls, c ∈ p'.calls) ∧ ∀ id data md r, .produced id data md r ∈ p'.log → .produced id data md r ∈ (y.peer s).log ∨
      ∃ c ∈ (y.peer (other s)).calls, c.frame.streamID = id ∧ From d s c.kind data md r := by
  unfold Peer.run at h
  split at h
  · cases h
  · rename_i t ht
    split at h
    · cases h
    · cases h
    · rename_i o ho
      have key : ∀ id data md r, .produced id data md r ∈ o.evs.filterMap (producedOf (contents t).1 (contents t).2) →
          ∃ c ∈ (y.peer (other s)).calls, c.frame.streamID = id ∧ From d s c.kind data md r := by
        intro id data md r hp
        cases t with
        | attach j n =>
          simp only [runTask] at ho
          split at ho <;> cases ho
          simp [producedOf] at hp
        | demand j n =>
          simp only [runTask] at ho
          split at ho
          · cases ho
          split at ho <;> cases ho
          simp [producedOf] at hp
        | request k id' dt m n =>
          obtain ⟨c, hc, hm⟩ := (hg.joint s).tasks k id' dt m n (List.mem_of_getElem? ht)
          simp only [runTask, handleRequest] at ho
          split at ho
          · rename_i hlen
            cases ho
            simp [producedOf, errorFrame, contents] at hp
            obtain ⟨rfl, rfl, rfl, rfl⟩ := hp
            exact ⟨c, hc, hm.2.1.symm ▸ rfl, .refused _ (by unfold handlerFor; rw [if_pos hlen])⟩
          · rename_i hlen
            obtain ⟨op, h3, _⟩ := Handler.index_long hlen
            rw [h3] at ho
            simp only [Res.ok_bind] at ho
            split at ho
            · rename_i hn
              cases ho
              simp [producedOf, errorFrame, contents] at hp
              obtain ⟨rfl, rfl, rfl, rfl⟩ := hp
              refine ⟨c, hc, hm.2.1.symm ▸ rfl, .refused _ ?_⟩
              rw [hm.1]
              unfold handlerFor
              rw [if_neg hlen, h3]
              exact blank_none hn
            · cases ho
              cases k <;> simp [accept, producedOf] at hp
      cases h
      refine ⟨fun _ h => h, fun id data md r hp => ?_⟩
      rcases List.mem_append.mp hp with hp | hp
      · exact .inl hp
      · exact .inr (key id data md r hp)

theorem traced_step {d : Duo H} {y y' : Sys} (hg : Good y) (ht : Traced d y) {a : Peers.Act} (hk : Keeps d y a)
    (h : y.step a = some y') : Traced d y' := by
  cases a with
  | call t k dt m =>
    simp only [Sys.step, Option.map_eq_some_iff] at h
    obtain ⟨p, h1, rfl⟩ := h
    unfold Peer.call at h1
    split at h1 <;> cases h1
    exact traced_put ht t _ _ _ (fun c hc => List.mem_append_left _ hc) (fun _ _ _ _ h => .inl h)
  | subscribe t j =>
    simp only [Sys.step, Option.map_eq_some_iff] at h
    obtain ⟨c, h1, rfl⟩ := h
    refine traced_put ht t _ _ _ ?_ ?_ <;> unfold Peer.subscribe <;> split
    all_goals first | exact fun _ h => h | exact fun _ _ _ _ h => .inl h
  | start t j n =>
    simp only [Sys.step, Option.bind_eq_some_iff] at h
    obtain ⟨c, h1, h⟩ := h
    split at h <;> cases h
    exact traced_put ht t _ _ _ (fun _ h => h) (fun _ _ _ _ h => .inl h)
  | own t j f =>
    simp only [Sys.step, Option.bind_eq_some_iff] at h
    obtain ⟨c, h1, h⟩ := h
    split at h <;> cases h
    exact traced_put ht t _ _ _ (fun _ h => h) (fun _ _ _ _ h => .inl h)
  | recv t =>
    simp only [Sys.step, Option.bind_eq_some_iff, Option.map_eq_some_iff] at h
    obtain ⟨f, h1, p, h2, rfl⟩ := h
    unfold Peer.recv at h2
    split at h2 <;> cases h2
    · exact traced_put ht t _ _ _ (fun _ h => h) (fun _ _ _ _ h => .inl h)
    · refine traced_put ht t _ _ _ (fun _ h => h) (fun _ _ _ _ h => ?_)
      rcases List.mem_append.mp h with h | h
      · exact .inl h
      · exact absurd h not_produced
  | run t reg live i =>
    simp only [Sys.step, Option.map_eq_some_iff] at h
    obtain ⟨⟨p, out⟩, h1, rfl⟩ := h
    have hk : reg = blank (d.regs t) := hk
    subst hk
    exact traced_put ht t _ _ _ (run_from hg h1).1 (run_from hg h1).2
  | answer t i r =>
    simp only [Sys.step, Option.map_eq_some_iff] at h
    obtain ⟨⟨p, out⟩, h1, rfl⟩ := h
    unfold Peer.answer at h1
    split at h1
    · cases h1
    · rename_i j hj
      split at h1 <;> cases h1
      rename_i hkind
      obtain ⟨c, hc, hm⟩ := (hg.joint t).jobs j (List.mem_of_getElem? hj)
      refine traced_put ht t _ _ _ (fun _ h => h) (fun _ _ _ _ h => ?_)
      rcases List.mem_append.mp h with h | h
      · exact .inl h
      · rw [List.mem_singleton] at h
        cases h
        have hmay := hk j hj
        unfold Duo.may at hmay
        split at hmay
        · rename_i h' hh
          refine .inr ⟨c, hc, hm.2.1.symm ▸ rfl, .gave h' r (by rw [hm.1]; exact hkind) ?_ hmay⟩
          rw [← hkind]; exact hh
        · cases hmay
  | emit t i f =>
    simp only [Sys.step, Option.bind_eq_some_iff] at h
    obtain ⟨j, h1, h⟩ := h
    split at h <;> cases h
    exact traced_put ht t _ _ _ (fun _ h => h) (fun _ _ _ _ h => .inl h)

theorem does_keeps {d : Duo H} {n : Net} {y : Sys} (hs : Sim n y) {a : Programs.Act} {b : Net.Act} {c : Peers.Act} (h : d.does n a = some b)
    (hc : seenAs b = some c) : Keeps d y c := by
  cases a with
  | net a' =>
    simp only [Duo.does] at h
    split at h
    · cases h
    · rename_i hw
      cases h
      cases b with
      | peer e =>
        cases hc
        cases c <;> first | trivial | exact absurd rfl hw
      | handle s => cases hc; trivial
      | carry => cases hc
      | read => cases hc
  | run s live i => cases h; cases hc; rfl
  | answer s i r =>
    simp only [Duo.does] at h
    split at h <;> cases h
    rename_i hm
    cases hc
    intro j hj
    unfold Duo.mayAt at hm
    rw [hs.peer, hj] at hm
    exact hm

theorem reach_traced {d : Duo H} {n : Net} (h : Spec.Programs.Reach d n) : Few n → ∃ y, Peers.Reach y ∧ Sim n y ∧ Traced d y := by
  induction h with
  | init => exact fun _ => ⟨_, .init, sim_init, fun s _ _ _ _ h => absurd h List.not_mem_nil⟩
  | step a b _ hd hs hst ih =>
    intro hb
    have hb0 : Few _ := fun s => Nat.le_trans (net_grow hst s) (hb s)
    obtain ⟨y, h1, h2, h3⟩ := ih hb0
    obtain ⟨y', h4, ⟨_, rfl⟩ | ⟨c, hc, h5⟩⟩ := sim_step h1 h2 hb hs hst
    · exact ⟨_, h1, h4, h3⟩
    · exact ⟨y', .step c h1 h5, h4, traced_step (reach_good h1 (few_bounded h2 hb0)) h3 (does_keeps h2 hd hc) h5⟩

/-- What a caller is told comes from the handler the metadata of its call names, or there is none. -/
theorem told_from {d : Duo H} {n : Net} (h : Spec.Programs.Reach d n) (hb : Few n) {s : Side} {c : Peers.Call}
    (hc : c ∈ (n.peer s).calls) (hk : c.kind = .rr) {r : Result} (hd : .delivered c.obj r ∈ (n.peer s).log) :
    From d (other s) .rr c.frame.data c.frame.metadata r := by
  obtain ⟨y, h1, h2, h3⟩ := reach_traced h hb
  have hbd := few_bounded h2 hb
  have hg := reach_good h1 hbd
  rw [h2.peer] at hc hd
  obtain ⟨c', e1, e2, e3⟩ := h3 (other s) _ _ _ _ (Peers.responses_reach_own_callers_partial h1 hbd s c hc hk r hd)
  rw [other_other] at e1
  have := ids_unique (hg.loc s) (hbd s) e1 hc e2
  subst this
  rwa [hk] at e3

/-! ## Results (C155) -/

/-- The id an import was given is its place among the imports. -/
theorem import_place {es : List (Registry.Ev H)} {x : Info} {op : UInt32} {k : Kind} (h : (k, x, op) ∈ Registry.ids Reg.init es)
    (hl : ((Registry.run es).imports k).length < 2 ^ 32) : ((Registry.run es).imports k)[op.toNat]? = some x := by
  obtain ⟨_, _, h3, _⟩ := Registry.ids_spec es (Reg.init : Reg H) (fun k i j x h => by simp [Reg.init] at h)
  obtain ⟨i, h4, h5⟩ := h3 _ h
  dsimp only at h4 h5
  have hi := Registry.getElem?_lt h5
  have : op.toNat = i := by
    rw [h4, UInt32.toNat_ofNat']
    have : i < 2 ^ 32 := Nat.lt_trans hi hl
    omega
  rw [this]
  exact h5

/-- **C155** (part) Whatever two programs do over a connection: what the caller of request-response with an index is told was
given by the handler that the other program exported in this place, for the data of the call and its metadata without the
first eight bytes; or it is a failure, if the other program has exported no handler there. -/
theorem call_runs_place {d : Duo H} {es : Side → List (Registry.Ev H)} (he : ∀ s, d.regs s = Registry.run (es s)) (hsm : Small d) {n : Net}
    (h : Spec.Programs.Reach d n) (hb : Few n) (s : Side) (c : Peers.Call) (hc : c ∈ (n.peer s).calls) (hk : c.kind = .rr) (i : Nat)
    (hi : opIndex c.frame.metadata = some i) (r : Result) (hd : .delivered c.obj r ∈ (n.peer s).log) :
    (∃ y code, (Registry.exports (es (other s)) .rr)[i]? = some (y, code) ∧ Gave d c code r) ∨
    ((Registry.exports (es (other s)) .rr)[i]? = none ∧ ∃ msg, r = .failure msg) := by
  have hr := (Registry.run_exports (es (other s)) .rr).1
  have hh := handlerFor_eq (d.regs (other s)) .rr (hsm _ _) c.frame.metadata
  rw [hi, Option.bind_some, he (other s), hr, List.getElem?_map] at hh
  cases told_from h hb hc hk hd with
  | gave code r _ h1 h2 =>
    rw [he (other s), hh] at h1
    simp only [Option.map_eq_some_iff] at h1
    obtain ⟨⟨y, code'⟩, h3, rfl⟩ := h1
    exact .inl ⟨y, _, h3, h2⟩
  | refused msg h1 =>
    rw [he (other s), hh] at h1
    exact .inr ⟨by simpa using h1, msg, rfl⟩

/-- **C155 (partial)** Full statement: a call with the import of a name is answered by the code exported under this name.
Proved if the other program has exported it in the place in which it was imported.

Missing: other orders, see `wrong_operation_refuted`. -/
theorem imported_operation_partial {d : Duo H} {es : Side → List (Registry.Ev H)} (he : ∀ s, d.regs s = Registry.run (es s)) (hsm : Small d)
    {n : Net} (h : Spec.Programs.Reach d n) (hb : Few n) (s : Side) (x : Info) (op : UInt32)
    (hid : (.rr, x, op) ∈ Registry.ids Reg.init (es s)) (hl : ((d.regs s).imports .rr).length < 2 ^ 32)
    (same : ∀ (i : Nat), ((d.regs s).imports .rr)[i]? = some x → ∃ code, (Registry.exports (es (other s)) .rr)[i]? = some (x, code))
    (c : Peers.Call) (hc : c ∈ (n.peer s).calls) (hk : c.kind = .rr) (hi : opIndex c.frame.metadata = some op.toNat)
    (r : Result) (hd : .delivered c.obj r ∈ (n.peer s).log) :
    ∃ code, (x, code) ∈ Registry.exports (es (other s)) .rr ∧ Gave d c code r := by
  rw [he] at hl same
  obtain ⟨code, h1⟩ := same _ (import_place hid hl)
  rcases call_runs_place he hsm h hb s c hc hk _ hi r hd with ⟨y, code', h2, h3⟩ | ⟨h2, _⟩
  · rw [h1] at h2
    cases h2
    exact ⟨code, List.mem_of_getElem? h1, h3⟩
  · rw [h1] at h2; cases h2

/-! ## Runs -/

/-- Runs given by their steps. -/
def runDuo (d : Duo H) (n : Net) : List Programs.Act → Option Net
  | [] => some n
  | a :: as => (d.does n a).bind fun b => if saneB n b then (n.step b).bind fun n' => runDuo d n' as else none

theorem runDuo_reach {d : Duo H} {as : List Programs.Act} : ∀ {n n' : Net}, Spec.Programs.Reach d n → runDuo d n as = some n' →
    Spec.Programs.Reach d n' := by
  induction as with
  | nil => intro n n' hr h; cases h; exact hr
  | cons a as ih =>
    intro n n' hr h
    simp only [runDuo, Option.bind_eq_some_iff] at h
    obtain ⟨b, h1, h⟩ := h
    split at h
    · rename_i hs
      simp only [Option.bind_eq_some_iff] at h
      obtain ⟨n1, h2, h3⟩ := h
      exact ih (.step a b hr h1 (saneB_sane hs) h2) h3
    · cases h

/-- Two operations. -/
def nameA : Info := ⟨[97], [97]⟩
def nameB : Info := ⟨[98], [98]⟩

/-- The client exports two operations, whose handlers answer 1 and 2; the server imports some. -/
def offers (imports : List Info) : Side → List (Registry.Ev Nat)
  | .client => [.exp .rr nameA 1, .exp .rr nameB 2]
  | .server => imports.map fun x => .imp .rr x

/-- The programs. -/
def offering (imports : List Info) : Duo Nat :=
  ⟨fun s => Registry.run (offers imports s), fun h _ _ r => decide (r = .value [UInt8.ofNat h] [])⟩

theorem offering_small (l : List Info) : Small (offering l) := by
  intro s k
  cases s with
  | client =>
    show ((Registry.run (offers [] .client)).handlers k).length < 2 ^ 32
    cases k <;> decide
  | server =>
    have := (Registry.run_exports (offers l .server) k).1
    have e : Registry.exports (offers l .server) k = [] := by
      simp only [offers, Registry.exports, List.filterMap_map]
      rw [List.filterMap_eq_nil_iff]
      intro a _
      rfl
    simp only [offering]
    rw [this, e]
    decide

/-- The server calls an import, and the client answers. -/
def one (op : UInt32) (v : UInt8) : List Programs.Act :=
  [.net (.peer (.call .server .rr [7] (importMd op))), .net (.peer (.subscribe .server 0)), .net (.carry .server 21),
   .net (.read .server []), .net (.handle .client), .run .client true 0, .answer .client 0 (.value [v] []),
   .net (.carry .client 10), .net (.read .client []), .net (.handle .server)]

theorem one_runs : (runDuo (offering [nameB]) Net.init (one 0 1)).isSome = true := by decide +kernel
theorem both_runs : (runDuo (offering [nameA, nameB]) Net.init (one 1 2)).isSome = true := by decide +kernel

/-- **C155 (refuted)** A program imports a single operation and calls it; the other exports it, after another one. The caller is
told what the other operation gave, and the one it has imported gives something else. -/
theorem wrong_operation_refuted : ∃ (d : Duo Nat) (es : Side → List (Registry.Ev Nat)) (n : Net) (x : Info) (op : UInt32)
    (c : Peers.Call) (r : Result),
    (∀ s, d.regs s = Registry.run (es s)) ∧ Small d ∧ Spec.Programs.Reach d n ∧ Few n ∧ (.rr, x, op) ∈ Registry.ids Reg.init (es .server) ∧
    c ∈ (n.peer .server).calls ∧ c.kind = .rr ∧ opIndex c.frame.metadata = some op.toNat ∧ .delivered c.obj r ∈ (n.peer .server).log ∧
    (∃ code, (x, code) ∈ Registry.exports (es .client) .rr) ∧ ∀ code, (x, code) ∈ Registry.exports (es .client) .rr → ¬ Gave d c code r := by
  refine ⟨offering [nameB], offers [nameB], (runDuo (offering [nameB]) Net.init (one 0 1)).get one_runs, nameB, 0,
    ⟨.rr, requestFrame .rr 2 [7] (importMd 0), 0⟩, .value [1] [], fun _ => rfl, offering_small _,
    runDuo_reach .init (Option.some_get one_runs).symm, ?_, ?_, ?_, rfl, ?_, ?_, ?_, ?_⟩
  · intro s; cases s <;> decide +kernel
  · decide +kernel
  · decide +kernel
  · decide +kernel
  · decide +kernel
  · exact ⟨2, by decide +kernel⟩
  · intro code hc
    have e : Registry.exports (offers [nameB] .client) .rr = [(nameA, 1), (nameB, 2)] := by decide +kernel
    rw [e] at hc
    simp [nameA, nameB] at hc
    subst hc
    unfold Gave
    decide +kernel

/-- A case of `imported_operation_partial`: both operations are imported, in the order in which they are exported, and the second
is called. -/
example : ∃ (n : Net) (c : Peers.Call), Spec.Programs.Reach (offering [nameA, nameB]) n ∧ Few n ∧
    (.rr, nameB, 1) ∈ Registry.ids Reg.init (offers [nameA, nameB] .server) ∧
    (∀ (i : Nat), (((offering [nameA, nameB]).regs .server).imports .rr)[i]? = some nameB →
      ∃ code, (Registry.exports (offers [nameA, nameB] .client) .rr)[i]? = some (nameB, code)) ∧
    c ∈ (n.peer .server).calls ∧ opIndex c.frame.metadata = some 1 ∧ .delivered c.obj (.value [2] []) ∈ (n.peer .server).log := by
  refine ⟨(runDuo (offering [nameA, nameB]) Net.init (one 1 2)).get both_runs, ⟨.rr, requestFrame .rr 2 [7] (importMd 1), 0⟩,
    runDuo_reach .init (Option.some_get both_runs).symm, ?_, ?_, ?_, ?_, ?_, ?_⟩
  · intro s; cases s <;> decide +kernel
  · decide +kernel
  · intro i hi
    have e : ((offering [nameA, nameB]).regs .server).imports .rr = [nameA, nameB] := by decide +kernel
    have e2 : Registry.exports (offers [nameA, nameB] .client) .rr = [(nameA, 1), (nameB, 2)] := by decide +kernel
    rw [e] at hi
    rw [e2]
    match i, hi with
    | 0, hi => exact absurd hi (by decide)
    | 1, _ => exact ⟨2, rfl⟩
    | i + 2, hi => cases hi
  · decide +kernel
  · decide +kernel
  · decide +kernel

end Iota.Props.Programs
