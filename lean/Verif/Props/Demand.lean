import Verif.Props.Channel
import Verif.Props.ProxyFlux

/-!
# Demand from end to end (C63, C139) and half of a channel (C140)

What a caller's subscriber asks for is followed to the subscription of the flux that serves the call: no demand is lost,
made up or given to another stream while the stream is open. When one direction of a channel has ended, the demand for
the other one is.
-/

namespace Iota.Props.Demand
open Go Iota.Frames Iota.Registry Iota.Handler Iota.Spec.Lookup Iota.Props.Handler Iota.Spec.Caller Iota.Props.Caller
open Iota.Props.Streamed Iota.Props.Channel

variable {H : Type}

/-! ## Demand of a stream -/

/-- The demand an event passes to the subscription of the stream at `i`. -/
def askedOf (i : Nat) : Ev H → Option UInt32
  | .requested j n => if j = i then some n else none
  | _ => none

/-- The demand that reached the subscription of the stream at `i`, oldest first. -/
def asked (i : Nat) (log : List (Ev H)) : List UInt32 := log.filterMap (askedOf i)

/-- The demand a goroutine is going to pass to the stream at `i`. -/
def dueOf (i : Nat) : Task → Option UInt32
  | .attach j n => if j = i then some n else none
  | .demand j n => if j = i then some n else none
  | _ => none

/-- The demand for the stream at `i` that goroutines are on their way with. -/
def due (i : Nat) (ts : List Task) : List UInt32 := ts.filterMap (dueOf i)

/-- The demand the peer has sent for the stream with the id, among the actions. -/
def toldN (id : UInt32) (as : List Act) : List UInt32 :=
  (recvs as).filterMap fun f => match f with
    | .requestN v => if v.streamID = id then some v.n else none
    | _ => none

/-- Demand for the stream at `i` that a frame brings. -/
def fresh (i : Nat) (st : State) : Act → List UInt32
  | .recv (.requestN v) => if getStream st v.streamID = some i then [v.n] else []
  | _ => []

theorem due_erase (i : Nat) (ts : List Task) (j : Nat) (t : Task) (h : ts[j]? = some t) :
    (due i ts).Perm ((dueOf i t).toList ++ due i (ts.eraseIdx j)) := by
  induction ts generalizing j with
  | nil => cases h
  | cons x ts ih =>
    cases j with
    | zero =>
      cases h
      simp only [due, List.eraseIdx_zero, List.tail_cons, List.filterMap_cons]
      cases dueOf i t <;> exact List.Perm.refl _
    | succ j =>
      have := ih j h
      simp only [due, List.eraseIdx_cons_succ, List.filterMap_cons] at this ⊢
      cases dueOf i x with
      | none => exact this
      | some n => exact (List.Perm.cons n this).trans (List.perm_middle.symm)

/-- The demand for the stream at `i` that arrived, passed on or not. -/
def load (i : Nat) (c : Conn H) : List UInt32 := asked i c.log ++ due i c.tasks

theorem load_after {i : Nat} {c : Conn H} {o : Out H} {x : List UInt32} (h1 : asked i o.evs = []) (h2 : due i o.tasks = x) :
    load i (c.after o) = load i c ++ x := by
  simp only [load, Conn.after, asked, due, List.filterMap_append] at *
  rw [h1, h2, List.append_nil, List.append_assoc]

/-- Demand is conserved: what a frame brings is added, goroutines only pass it on. -/
theorem load_step {reg : Reg H} {i : Nat} {c c' : Conn H} {a : Act} (hi : i < c.st.objs.length)
    (h : c.step reg a = .ok c') : (load i c').Perm (load i c ++ fresh i c.st a) := by
  cases a with
  | recv f =>
    simp only [Conn.step] at h
    cases hd : handleFrame (H := H) c.st f with
    | err e => rw [hd] at h; cases h
    | panic => rw [hd] at h; cases h
    | ok o =>
      rw [hd] at h; cases h
      by_cases hf : ∃ v, f = .request v
      · obtain ⟨v, rfl⟩ := hf
        obtain ⟨_, h2, h3⟩ := handle_request hd
        rw [load_after (x := []) (by rw [h2]; rfl) ?_]
        · exact List.Perm.refl _
        · rw [h3]; cases kindOf v.frameType <;> rfl
      · have hf : ∀ v, f ≠ .request v := fun v hv => hf ⟨v, hv⟩
        rcases handle_other hf hd with ⟨hn, rfl⟩ | ⟨j, hj, hd⟩
        · rw [load_after (x := []) rfl rfl]
          have : fresh i c.st (.recv f) = [] := by
            cases f with
            | requestN v =>
              have hn : getStream c.st v.streamID = none := hn
              simp [fresh, hn]
            | _ => rfl
          rw [this]
        · have hev : asked i o.evs = [] := by
            unfold asked
            rw [List.filterMap_eq_nil_iff]
            intro e he
            rcases (dispatch_shape hf hd).2.2.2 e he with ⟨d, m, rfl⟩ | rfl | ⟨m, rfl⟩ <;> rfl
          cases f with
          | request v => exact absurd rfl (hf v)
          | requestN v =>
            have hj : getStream c.st v.streamID = some j := hj
            rw [load_after (x := fresh i c.st (.recv (.requestN v))) hev ?_]
            simp only [dispatch] at hd
            split at hd
            · cases hd
            · split at hd <;> cases hd
              simp only [fresh, hj, Option.some.injEq, due, List.filterMap_cons, dueOf, List.filterMap_nil]
              by_cases e : j = i <;> simp [e]
          | cancel v =>
            rw [load_after (x := []) hev ?_]
            · exact List.Perm.refl _
            · have := (dispatch_shape hf hd).2.2.1
              simp only [dispatch] at hd
              cases hx : Handler.deliver (H := H) c.st j (.complete j) with
              | ok e => rw [hx] at hd; cases hd; rfl
              | err e => rw [hx] at hd; cases hd
              | panic => rw [hx] at hd; cases hd
          | payload v =>
            rw [load_after (x := []) hev ?_]
            · exact List.Perm.refl _
            · simp only [dispatch] at hd
              cases hx : deliverIf (H := H) v.next c.st j (.next j v.data v.metadata) with
              | err e => rw [hx] at hd; cases hd
              | panic => rw [hx] at hd; cases hd
              | ok e =>
                rw [hx] at hd; simp only [Res.ok_bind] at hd
                cases hx' : deliverIf (H := H) v.complete c.st j (.complete j) with
                | ok e' => rw [hx'] at hd; cases hd; rfl
                | err e' => rw [hx'] at hd; cases hd
                | panic => rw [hx'] at hd; cases hd
          | error v =>
            rw [load_after (x := []) hev ?_]
            · exact List.Perm.refl _
            · simp only [dispatch] at hd
              cases hx : Handler.deliver (H := H) c.st j (.error j v.data) with
              | err e => rw [hx] at hd; cases hd
              | panic => rw [hx] at hd; cases hd
              | ok e =>
                rw [hx] at hd; simp only [Res.ok_bind] at hd
                cases hx' : Handler.deliver (H := H) c.st j (.complete j) with
                | ok e' => rw [hx'] at hd; cases hd; rfl
                | err e' => rw [hx'] at hd; cases hd
                | panic => rw [hx'] at hd; cases hd
  | task j live =>
    rw [show fresh i c.st (.task j live) = [] from rfl, List.append_nil]
    simp only [Conn.step] at h
    split at h
    · cases h; exact List.Perm.refl _
    · rename_i t ht
      cases hd : runTask reg live c.st t with
      | err e => rw [hd] at h; cases h
      | panic => rw [hd] at h; cases h
      | ok o =>
        rw [hd] at h; cases h
        have key : asked i o.evs = (dueOf i t).toList ∧ due i o.tasks = [] := by
          cases t with
          | request k id' data md n =>
            simp only [runTask, handleRequest] at hd
            split at hd
            · cases hd; exact ⟨rfl, rfl⟩
            · rename_i hl
              obtain ⟨op, h3, _⟩ := index_long hl
              rw [h3] at hd
              simp only [Res.ok_bind] at hd
              split at hd
              · cases hd; exact ⟨rfl, rfl⟩
              · cases hd
                have hne : ¬ c.st.objs.length = i := by omega
                cases k <;> refine ⟨rfl, ?_⟩ <;> simp [accept, due, dueOf, hne]
          | attach j n =>
            simp only [runTask] at hd
            split at hd <;> cases hd
            refine ⟨?_, rfl⟩
            simp only [asked, dueOf, List.filterMap_cons, askedOf, List.filterMap_nil]
            by_cases e : j = i <;> simp [e]
          | demand j n =>
            simp only [runTask] at hd
            split at hd
            · cases hd
            · split at hd <;> cases hd
              refine ⟨?_, rfl⟩
              simp only [asked, dueOf, List.filterMap_cons, askedOf, List.filterMap_nil]
              by_cases e : j = i <;> simp [e]
        have e : load i ({ c with tasks := c.tasks.eraseIdx j }.after o) =
            asked i c.log ++ ((dueOf i t).toList ++ due i (c.tasks.eraseIdx j)) := by
          have k1 : o.evs.filterMap (askedOf i) = (dueOf i t).toList := key.1
          have k2 : o.tasks.filterMap (dueOf i) = [] := key.2
          simp [load, Conn.after, asked, due, List.filterMap_append, k1, k2]
        rw [e]
        exact List.Perm.append_left _ (due_erase i c.tasks j t ht).symm
  | openMono id' => cases h; simp [fresh, load]
  | openFlux id' b => cases h; simp [fresh, load]
  | startIn j b => cases h; simp [fresh, load]
  | openSink j => cases h; simp [fresh, load]

theorem toldN_cons (id : UInt32) (a : Act) (as : List Act) : toldN id (a :: as) = toldN id [a] ++ toldN id as := by
  cases a <;> simp [toldN, recvs, List.filterMap_cons]
  split <;> rfl

theorem fresh_held {id : UInt32} {i : Nat} {st : State} (h : Held id i st) (a : Act) : fresh i st a = toldN id [a] := by
  cases a with
  | recv f =>
    cases f with
    | requestN v =>
      simp only [fresh, toldN, recvs, List.filterMap_cons, List.filterMap_nil]
      by_cases e : v.streamID = id
      · rw [e, h.found]; simp
      · rw [if_neg, if_neg e]
        intro hg
        exact e (h.alone.2.lookup hg rfl)
    | _ => rfl
  | _ => rfl

theorem run_one {reg : Reg H} {c c' : Conn H} {a : Act} (h : c.step reg a = .ok c') : Conn.run reg c [a] = .ok c' := by
  simp only [Conn.run, h]; rfl

theorem load_run {reg : Reg H} {id : UInt32} {i : Nat} {as : List Act} {c c' : Conn H} (ho : Held id i c.st)
    (hne : ∀ f ∈ answered id as, ends f = false) (h : Conn.run reg c as = .ok c') :
    (load i c').Perm (load i c ++ toldN id as) := by
  induction as generalizing c with
  | nil => cases h; simp [toldN, recvs]
  | cons a as ih =>
    simp only [Conn.run] at h
    cases hs : c.step reg a with
    | err e => rw [hs] at h; cases h
    | panic => rw [hs] at h; cases h
    | ok c1 =>
      rw [hs] at h
      rw [answered_cons] at hne
      have h1 := held_run (as := [a]) ho (fun f hf => hne f (List.mem_append_left _ hf)) (run_one hs)
      have h2 := ih h1.1 (fun f hf => hne f (List.mem_append_right _ hf)) h
      have h3 := load_step ho.alone.1 hs
      rw [fresh_held ho] at h3
      rw [toldN_cons, ← List.append_assoc]
      exact h2.trans (List.Perm.append_right _ h3)

/-- Nothing is or will be asked of streams that do not exist yet. -/
def Unasked (c : Conn H) : Prop := ∀ i, c.st.objs.length ≤ i → load i c = []

theorem unasked_step {reg : Reg H} {c c' : Conn H} {a : Act} (hw : Wf' c.st) (hu : Unasked c)
    (h : c.step reg a = .ok c') : Unasked c' := by
  intro i hi
  have hg := objs_grow h
  have hc := hu i (by omega)
  cases a with
  | recv f =>
    simp only [Conn.step] at h
    cases hd : handleFrame (H := H) c.st f with
    | err e => rw [hd] at h; cases h
    | panic => rw [hd] at h; cases h
    | ok o =>
      rw [hd] at h; cases h
      suffices hs : asked i o.evs = [] ∧ due i o.tasks = [] by rw [load_after hs.1 hs.2, hc]; rfl
      by_cases hf : ∃ v, f = .request v
      · obtain ⟨v, rfl⟩ := hf
        obtain ⟨_, h2, h3⟩ := handle_request hd
        rw [h2, h3]
        refine ⟨rfl, ?_⟩
        cases kindOf v.frameType <;> rfl
      · have hf : ∀ v, f ≠ .request v := fun v hv => hf ⟨v, hv⟩
        rcases handle_other hf hd with ⟨_, rfl⟩ | ⟨j, hj, hd⟩
        · exact ⟨rfl, rfl⟩
        · obtain ⟨h1, _, h3, h4⟩ := dispatch_shape hf hd
          have hlt := hw.wf _ _ hj
          have hne : ¬ j = i := by
            have : i ≥ c.st.objs.length := by omega
            omega
          unfold asked due
          rw [List.filterMap_eq_nil_iff, List.filterMap_eq_nil_iff]
          constructor
          · intro e he
            rcases h4 e he with ⟨d, m, rfl⟩ | rfl | ⟨m, rfl⟩ <;> rfl
          · intro t ht
            obtain ⟨n, rfl⟩ := h3 t ht
            simp [dueOf, hne]
  | task j live =>
    simp only [Conn.step] at h
    split at h
    · cases h; exact hc
    · rename_i t ht
      cases hd : runTask reg live c.st t with
      | err e => rw [hd] at h; cases h
      | panic => rw [hd] at h; cases h
      | ok o =>
        rw [hd] at h; cases h
        obtain ⟨hc1, hc2⟩ := List.append_eq_nil_iff.mp hc
        have hd0 := due_erase i c.tasks j t ht
        rw [hc2] at hd0
        obtain ⟨e1, e2⟩ := List.append_eq_nil_iff.mp hd0.symm.eq_nil
        suffices hs : asked i o.evs = [] ∧ due i o.tasks = [] by
          rw [load_after hs.1 hs.2, List.append_nil]
          simp only [load]; rw [hc1, e2]; rfl
        have e1 : dueOf i t = none := by
          cases hx : dueOf i t with
          | none => rfl
          | some n => rw [hx] at e1; cases e1
        cases t with
        | request k id' data md n =>
          simp only [runTask, handleRequest] at hd
          split at hd
          · cases hd; exact ⟨rfl, rfl⟩
          · rename_i hl
            obtain ⟨op, h3, _⟩ := index_long hl
            rw [h3] at hd
            simp only [Res.ok_bind] at hd
            split at hd
            · cases hd; exact ⟨rfl, rfl⟩
            · cases hd
              cases k with
              | rr => exact ⟨rfl, rfl⟩
              | fnf => exact ⟨rfl, rfl⟩
              | rs =>
                have hne : ¬ c.st.objs.length = i := by
                  simp [Conn.after, accept, registerStream_objs] at hi; omega
                exact ⟨rfl, by simp [accept, due, dueOf, hne]⟩
              | rc =>
                have hne : ¬ c.st.objs.length = i := by
                  simp [Conn.after, accept, registerStream_objs] at hi; omega
                exact ⟨rfl, by simp [accept, due, dueOf, hne]⟩
        | attach j n =>
          simp only [runTask] at hd
          split at hd <;> cases hd
          simp only [dueOf] at e1
          refine ⟨?_, rfl⟩
          by_cases e : j = i <;> simp [e] at e1 ⊢
          simp [asked, askedOf, e]
        | demand j n =>
          simp only [runTask] at hd
          split at hd
          · cases hd
          · split at hd <;> cases hd
            simp only [dueOf] at e1
            refine ⟨?_, rfl⟩
            by_cases e : j = i <;> simp [e] at e1 ⊢
            simp [asked, askedOf, e]
  | openMono id' => cases h; exact hc
  | openFlux id' b => cases h; exact hc
  | startIn j b => cases h; exact hc
  | openSink j => cases h; exact hc

theorem unasked_run {reg : Reg H} {as : List Act} {c c' : Conn H} (hw : Wf' c.st) (hu : Unasked c)
    (h : Conn.run reg c as = .ok c') : Unasked c' := by
  induction as generalizing c with
  | nil => cases h; exact hu
  | cons a as ih =>
    simp only [Conn.run] at h
    cases hs : c.step reg a with
    | err e => rw [hs] at h; cases h
    | panic => rw [hs] at h; cases h
    | ok c1 => rw [hs] at h; exact ih (wf_step hw hs) (unasked_step hw hu hs) h

/-- The goroutines of requests that have not run were started by request frames. -/
theorem task_origin {reg : Reg H} {as : List Act} {c : Conn H} (h : Conn.run reg Conn.init as = .ok c) {k : Kind}
    {id : UInt32} {data md : Bytes} {n : UInt32} (ht : Task.request k id data md n ∈ c.tasks) :
    ∃ v, Frame.request v ∈ recvs as ∧ kindOf v.frameType = some k ∧ v.streamID = id ∧ v.data = data ∧ v.metadata = md ∧
      v.initialN = n := by
  suffices hs : ∀ (as : List Act) (c0 : Conn H), Conn.run reg c0 as = .ok c → Task.request k id data md n ∈ c0.tasks ∨
      ∃ v, Frame.request v ∈ recvs as ∧ kindOf v.frameType = some k ∧ v.streamID = id ∧ v.data = data ∧ v.metadata = md ∧
        v.initialN = n by
    rcases hs as _ h with h | h
    · cases h
    · exact h
  clear h as
  intro as
  induction as with
  | nil => intro c0 h; cases h; exact .inl ht
  | cons a as ih =>
    intro c0 h
    simp only [Conn.run] at h
    cases hs : c0.step reg a with
    | err e => rw [hs] at h; cases h
    | panic => rw [hs] at h; cases h
    | ok c1 =>
      rw [hs] at h
      rcases ih c1 h with h1 | ⟨v, hv, hr⟩
      · cases a with
        | recv f =>
          simp only [Conn.step] at hs
          cases hd : handleFrame (H := H) c0.st f with
          | err e => rw [hd] at hs; cases hs
          | panic => rw [hd] at hs; cases hs
          | ok o =>
            rw [hd] at hs; cases hs
            rcases List.mem_append.mp h1 with h1 | h1
            · exact .inl h1
            · by_cases hf : ∃ v, f = .request v
              · obtain ⟨v, rfl⟩ := hf
                rw [(handle_request hd).2.2] at h1
                cases hk : kindOf v.frameType with
                | none => rw [hk] at h1; cases h1
                | some k' =>
                  rw [hk] at h1
                  simp only [Option.map_some, Option.toList_some, List.mem_singleton, Task.request.injEq] at h1
                  obtain ⟨rfl, rfl, rfl, rfl, rfl⟩ := h1
                  exact .inr ⟨v, List.mem_cons_self, hk, rfl, rfl, rfl, rfl⟩
              · have hf : ∀ v, f ≠ .request v := fun v hv => hf ⟨v, hv⟩
                rcases handle_other hf hd with ⟨_, rfl⟩ | ⟨j, _, hd⟩
                · cases h1
                · obtain ⟨m, hm⟩ := (dispatch_shape hf hd).2.2.1 _ h1
                  cases hm
        | task j live =>
          simp only [Conn.step] at hs
          split at hs
          · cases hs; exact .inl h1
          · rename_i t htj
            cases hd : runTask reg live c0.st t with
            | err e => rw [hd] at hs; cases hs
            | panic => rw [hd] at hs; cases hs
            | ok o =>
              rw [hd] at hs; cases hs
              rcases List.mem_append.mp h1 with h1 | h1
              · exact .inl (List.mem_of_mem_eraseIdx h1)
              · exfalso
                cases t with
                | request k id' data md n =>
                  simp only [runTask, handleRequest] at hd
                  split at hd
                  · cases hd; cases h1
                  · rename_i hl
                    obtain ⟨op, h3, _⟩ := index_long hl
                    rw [h3] at hd
                    simp only [Res.ok_bind] at hd
                    split at hd
                    · cases hd; cases h1
                    · cases hd; cases k <;> simp [accept] at h1
                | attach j n =>
                  simp only [runTask] at hd
                  split at hd <;> cases hd
                  cases h1
                | demand j n =>
                  simp only [runTask] at hd
                  split at hd
                  · cases hd
                  · split at hd <;> cases hd; cases h1
        | openMono id' => cases hs; exact .inl h1
        | openFlux id' b => cases hs; exact .inl h1
        | startIn j b => cases hs; exact .inl h1
        | openSink j => cases hs; exact .inl h1
      · refine .inr ⟨v, ?_, hr⟩
        cases a <;> simp only [recvs]
        · exact List.mem_cons_of_mem _ hv
        all_goals exact hv

/-! ## C63 -/

/-- **C63** (part) On any connection, let the goroutine of a stream or channel request run its handler while nothing is
registered under the id, and let anything follow in which no frame ends the stream: other calls and requests, frames in
any order, goroutines in any order. The demand that has been passed to the subscription of the flux of the handler,
together with what goroutines are on their way with, is the initial demand and the demand of all REQUEST_N frames under
the id since then, each once.

Missing: REQUEST_N frames that come before the goroutine has registered the stream (`early_demand_lost_refuted`), demand
passed on before the handler has returned (`early_request_n_crashes_refuted`), and demand after a frame that ends the stream
(`half_close_refuted`). -/
theorem demand_kept_partial (reg : Reg H) (before after : List Act) (j : Nat) (live : Bool) (c1 c2 c : Conn H) (k : Kind)
    (hk : k = .rs ∨ k = .rc) (id : UInt32) (data md data' md' : Bytes) (n0 : UInt32) (g : H)
    (h1 : Conn.run reg Conn.init before = .ok c1) (free : getStream c1.st id = none)
    (ht : c1.tasks[j]? = some (.request k id data md n0)) (hs : c1.step reg (.task j live) = .ok c2)
    (hi : c2.log = c1.log ++ [.invoked k g id data' md']) (h2 : Conn.run reg c2 after = .ok c)
    (open' : ∀ f ∈ answered id after, ends f = false) :
    (asked c1.st.objs.length c.log ++ due c1.st.objs.length c.tasks).Perm (n0 :: toldN id after) := by
  have hw := wf_run wf_init h1
  obtain ⟨hheld, _, _, htask⟩ := served hw free ht (by rcases hk with rfl | rfl <;> decide) hs hi
  have hu := unasked_run (c := Conn.init) wf_init (fun _ _ => rfl) h1 _ (Nat.le_refl c1.st.objs.length)
  have hload : load c1.st.objs.length c2 = [n0] := by
    obtain ⟨u1, u2⟩ := List.append_eq_nil_iff.mp hu
    have u3 := due_erase c1.st.objs.length c1.tasks j _ ht
    rw [u2] at u3
    obtain ⟨_, u4⟩ := List.append_eq_nil_iff.mp u3.symm.eq_nil
    have u1 : c1.log.filterMap (askedOf c1.st.objs.length) = [] := u1
    have u4 : (c1.tasks.eraseIdx j).filterMap (dueOf c1.st.objs.length) = [] := u4
    have hf : k ≠ .fnf := by rcases hk with rfl | rfl <;> decide
    rw [if_neg hf] at htask
    simp [load, asked, due, hi, htask, List.filterMap_append, u1, u4, askedOf, dueOf]
  have := load_run hheld open' h2
  rw [hload] at this
  exact this

/-! ## C139 -/

/-- The demand a frame brings for the stream with the id, with the initial demand of a request. -/
def demandOf (id : UInt32) : Frame → Option Nat
  | .request v => if v.streamID = id then some v.initialN.toNat else none
  | .requestN v => if v.streamID = id then some v.n.toNat else none
  | _ => none

theorem demandOf_received (id : UInt32) (f : Frame) (h : ∀ v, f = .request v → v.streamID = id →
    v.frameType.toNat = 6 ∨ v.frameType.toNat = 7) : demandOf id (Iota.Props.Frames.received f) = demandOf id f := by
  cases f with
  | request v =>
    simp only [Iota.Props.Frames.received, demandOf]
    split
    · rename_i e
      rw [if_pos (h v rfl e)]
    · rfl
  | _ => rfl

theorem toldN_demand (id : UInt32) (as : List Act) (h : ∀ v, Frame.request v ∈ recvs as → v.streamID ≠ id) :
    (recvs as).filterMap (demandOf id) = (toldN id as).map UInt32.toNat := by
  unfold toldN
  revert h
  induction recvs as with
  | nil => intro _; rfl
  | cons f fs ih =>
    intro h
    have ih := ih fun v hv => h v (List.mem_cons_of_mem _ hv)
    cases f with
    | request v =>
      have := h v List.mem_cons_self
      simp [demandOf, this, ih]
    | requestN v =>
      by_cases e : v.streamID = id <;> simp [demandOf, e, ih]
    | _ => simpa [demandOf, List.filterMap_cons] using ih

/-- The frame is about demand for the stream with the id. -/
def about (id : UInt32) (f : Frame) : Bool := (demandOf id f).isSome

/-- The frame is a request under the id. -/
def isReq (id : UInt32) : Frame → Bool
  | .request v => v.streamID = id
  | _ => false

theorem filterMap_take {α β : Type} (p : α → Option β) (l : List α) (k : Nat) :
    ∃ m, (l.take k).filterMap p = (l.filterMap p).take m := by
  induction l generalizing k with
  | nil => exact ⟨0, by simp⟩
  | cons x l ih =>
    cases k with
    | zero => exact ⟨0, rfl⟩
    | succ k =>
      obtain ⟨m, hm⟩ := ih k
      rw [List.take_succ_cons, List.filterMap_cons, List.filterMap_cons]
      cases p x with
      | none => exact ⟨m, hm⟩
      | some y => exact ⟨m + 1, by simp [hm]⟩

theorem filterMap_same {α β : Type} {p q : α → Option β} {l : List α} (h : ∀ x ∈ l, p x = q x) : l.filterMap p = l.filterMap q := by
  induction l with
  | nil => rfl
  | cons x l ih =>
    rw [List.filterMap_cons, List.filterMap_cons, h x List.mem_cons_self, ih fun y hy => h y (List.mem_cons_of_mem _ hy)]

theorem filterMap_about (id : UInt32) (l : List Frame) :
    l.filterMap (demandOf id) = (l.filter (about id)).filterMap Iota.Props.ProxyFlux.told := by
  induction l with
  | nil => rfl
  | cons f l ih =>
    rw [List.filterMap_cons, List.filter_cons]
    cases hd : demandOf id f with
    | none => simp [about, hd, ih]
    | some n =>
      have ht : Iota.Props.ProxyFlux.told f = some n := by
        cases f <;> simp only [demandOf] at hd <;> first
          | (cases hd; done)
          | (split at hd
             · cases hd; rfl
             · cases hd)
      simp [about, hd, ih, ht]

theorem count_one {α : Type} {p : α → Bool} {l : List α} {x : α} (h : l.countP p ≤ 1) (hx : x ∈ l) (hp : p x = true) :
    l.filter p = [x] := by
  rw [List.countP_eq_length_filter] at h
  have hm : x ∈ l.filter p := List.mem_filter.mpr ⟨hx, hp⟩
  match hf : l.filter p, h, hm with
  | [], _, hm => cases hm
  | [y], _, hm => rw [List.mem_singleton.mp hm]
  | _ :: _ :: _, h, _ => simp at h

/-- **C139** (part) Demand from end to end. The caller's subscriber asks as it likes, each time for less than `2^32`
elements. The frames go over the wire in any order that keeps those about the demand of the call in theirs, mixed with
any other frames, flushed or not, cut into reads at will. The responder has handled the first `k` of them, in any
execution in which the goroutine of the request has run its handler before the first REQUEST_N frame and no frame has
ended the stream. Then the demand passed to the subscription of the flux that serves the call, together with what
goroutines are on their way with, is a beginning of what the caller's subscriber asked for before the end of the call:
each request once, none made up; and all of it if all frames have been handled.

Missing: what `demand_kept_partial` leaves out, and demands of `2^32` and more (`large_demand_refuted`). -/
theorem demand_end_to_end_partial
    -- the calling side
    (v : RequestPayload) (hv : v.frameType = tRequestStream ∨ v.frameType = tRequestChannel) (ops : List ProxyFlux.Op)
    (hops : ∀ n, .request n ∈ ops → 0 ≤ n ∧ n < 2 ^ 32)
    -- the wire
    (sends : List (Frame × Bool)) (hl : ∀ p ∈ sends, Iota.Props.Frames.Legal p.1 ∧ p.1.size < 2 ^ 24)
    (hsent : (sends.map Prod.fst).filter (about v.streamID) =
      ((ProxyFlux.State.new v).run ops).sent.filter (about v.streamID))
    (w : Framing.Writer)
    (hw : Framing.runOps Iota.Props.Framing.newWriter (sends.flatMap (fun p => Framing.sendOps p.1 p.2) ++ [.flush]) = .ok w)
    (evs : List Framing.Ev) (hev : ∀ e ∈ evs, e.stalls ≤ 100) (final : Framing.IoErr) (n k : Nat) (hn : sends.length < n)
    -- the responding side
    (reg : Reg H) (before after : List Act) (j : Nat) (live : Bool) (c1 c2 c : Conn H) (kind : Kind)
    (hk : kind = .rs ∨ kind = .rc) (data md data' md' : Bytes) (n0 : UInt32) (g : H)
    (h1 : Conn.run reg Conn.init before = .ok c1) (free : getStream c1.st v.streamID = none)
    (ht : c1.tasks[j]? = some (.request kind v.streamID data md n0)) (hs : c1.step reg (.task j live) = .ok c2)
    (hi : c2.log = c1.log ++ [.invoked kind g v.streamID data' md']) (h2 : Conn.run reg c2 after = .ok c)
    (hrecv : recvs (before ++ after) =
      ((Framing.recvAll n (Framing.newDecoder ⟨w.sent, evs, false, final⟩)).1.map Prod.fst).take k)
    (early : toldN v.streamID before = []) (open' : ∀ f ∈ answered v.streamID after, ends f = false) :
    (∃ m, ((asked c1.st.objs.length c.log ++ due c1.st.objs.length c.tasks).map fun n => (n.toNat : Int)).Perm
      ((Iota.Props.ProxyFlux.localDemand ops).take m)) ∧
    (sends.length ≤ k →
      ((asked c1.st.objs.length c.log ++ due c1.st.objs.length c.tasks).map fun n => (n.toNat : Int)).Perm
        (Iota.Props.ProxyFlux.localDemand ops)) := by
  obtain ⟨d1, d2, d3⟩ := Iota.Props.ProxyFlux.remote_demand_partial v ops hops
  obtain ⟨w', e1, _, e2⟩ := Iota.Props.Framing.framing_roundtrip sends hl
  rw [hw] at e1; cases e1
  rw [(e2 evs final n hev hn).1] at hrecv
  have htype : ∀ f ∈ sends.map Prod.fst, ∀ u, f = .request u → u.streamID = v.streamID →
      u.frameType.toNat = 6 ∨ u.frameType.toNat = 7 := by
    intro f hf u hu hid
    subst hu
    have : Frame.request u ∈ (sends.map Prod.fst).filter (about v.streamID) :=
      List.mem_filter.mpr ⟨hf, by simp [about, demandOf, hid]⟩
    rw [hsent] at this
    have := d3 u (List.mem_filter.mp this).1
    have : u.frameType = v.frameType := by rw [this]
    rw [this]
    rcases hv with h | h <;> rw [h] <;> decide
  have hfirst : ∀ f ∈ ((ProxyFlux.State.new v).run ops).sent, (∃ u, f = .request u ∧ u.streamID = v.streamID) ∨
      (∃ m, f = .requestN ⟨v.streamID, m⟩) ∨ Iota.Props.ProxyFlux.isCancel f = true := by
    intro f hf
    cases hc : Iota.Props.ProxyFlux.isCancel f with
    | true => exact .inr (.inr rfl)
    | false =>
      have hm : f ∈ ((ProxyFlux.State.new v).run ops).sent.filter fun f => !Iota.Props.ProxyFlux.isCancel f :=
        List.mem_filter.mpr ⟨hf, by simp [hc]⟩
      cases hx : ((ProxyFlux.State.new v).run ops).sent.filter fun f => !Iota.Props.ProxyFlux.isCancel f with
      | nil => rw [hx] at hm; cases hm
      | cons y ys =>
        rw [hx] at d2 hm
        cases y with
        | request u =>
          rcases List.mem_cons.mp hm with rfl | hm
          · exact .inl ⟨u, rfl, d2.1⟩
          · exact .inr (.inl (d2.2 f hm))
        | _ => exact d2.elim
  -- the demand on the wire
  have hall : ((sends.map fun p => Iota.Props.Frames.received p.1).filterMap (demandOf v.streamID)).map (fun n : Nat => (n : Int)) =
      Iota.Props.ProxyFlux.localDemand ops := by
    have : (sends.map fun p => Iota.Props.Frames.received p.1).filterMap (demandOf v.streamID) =
        (sends.map Prod.fst).filterMap (demandOf v.streamID) := by
      rw [← d1] at *
      clear hrecv hsent hn hl hw e2
      induction sends with
      | nil => rfl
      | cons p l ih =>
        rw [List.map_cons, List.map_cons, List.filterMap_cons, List.filterMap_cons,
          demandOf_received _ _ (htype p.1 (by simp)), ih fun f hf => htype f (List.mem_cons_of_mem _ hf)]
    rw [this, filterMap_about, hsent, ← filterMap_about, ← d1]
    congr 1
    apply filterMap_same
    intro f hf
    rcases hfirst f hf with ⟨u, rfl, e⟩ | ⟨m, rfl⟩ | h
    · simp [demandOf, e, Iota.Props.ProxyFlux.told]
    · simp [demandOf, Iota.Props.ProxyFlux.told]
    · cases f <;> first | rfl | cases h
  -- there is one request
  have hone : (recvs before ++ recvs after).countP (isReq v.streamID) ≤ 1 := by
    rw [← recvs_append, hrecv]
    have c1 : ((sends.map fun p => Iota.Props.Frames.received p.1).take k).countP (isReq v.streamID) ≤
        (sends.map fun p => Iota.Props.Frames.received p.1).countP (isReq v.streamID) :=
      (List.take_sublist _ _).countP_le
    have c2 : (sends.map fun p => Iota.Props.Frames.received p.1).countP (isReq v.streamID) =
        (sends.map Prod.fst).countP (isReq v.streamID) := by
      rw [List.countP_map, List.countP_map]
      apply List.countP_congr
      intro p _
      simp only [Function.comp]
      cases p.1 <;> exact Iff.rfl
    have c3 : (sends.map Prod.fst).countP (isReq v.streamID) =
        ((sends.map Prod.fst).filter (about v.streamID)).countP (isReq v.streamID) := by
      rw [List.countP_filter]
      apply List.countP_congr
      intro f _
      cases f <;> simp [isReq, about, demandOf]
    have c4 := (List.filter_sublist (p := about v.streamID) (l := ((ProxyFlux.State.new v).run ops).sent)).countP_le (p := isReq v.streamID)
    have c5 : ((ProxyFlux.State.new v).run ops).sent.countP (isReq v.streamID) ≤ 1 := by
      have e : ((ProxyFlux.State.new v).run ops).sent.countP (isReq v.streamID) =
          (((ProxyFlux.State.new v).run ops).sent.filter fun f => !Iota.Props.ProxyFlux.isCancel f).countP (isReq v.streamID) := by
        rw [List.countP_filter]
        apply List.countP_congr
        intro f _
        cases f <;> simp [isReq, Iota.Props.ProxyFlux.isCancel]
      rw [e]
      cases hx : ((ProxyFlux.State.new v).run ops).sent.filter fun f => !Iota.Props.ProxyFlux.isCancel f with
      | nil => simp
      | cons f fs =>
        rw [hx] at d2
        cases f with
        | request u =>
          have : fs.countP (isReq v.streamID) = 0 := by
            rw [List.countP_eq_zero]
            intro f hf
            obtain ⟨m, rfl⟩ := d2.2 f hf
            simp [isReq]
          rw [List.countP_cons, this]
          split <;> omega
        | _ => exact d2.elim
    rw [c3, hsent] at c2
    omega
  rw [List.countP_append] at hone
  obtain ⟨u, hu, _, hid, _, _, hun⟩ := task_origin h1 (List.mem_of_getElem? ht)
  have hq : isReq v.streamID (.request u) = true := by simp [isReq, hid]
  have hb : 0 < (recvs before).countP (isReq v.streamID) := List.countP_pos_iff.mpr ⟨_, hu, hq⟩
  have ha : ∀ x, Frame.request x ∈ recvs after → x.streamID ≠ v.streamID := by
    intro x hx he
    have : 0 < (recvs after).countP (isReq v.streamID) := List.countP_pos_iff.mpr ⟨_, hx, by simp [isReq, he]⟩
    omega
  have hbefore : (recvs before).filterMap (demandOf v.streamID) = [n0.toNat] := by
    have e : (recvs before).filterMap (demandOf v.streamID) =
        ((recvs before).filter (isReq v.streamID)).filterMap (demandOf v.streamID) := by
      unfold toldN at early
      rw [List.filterMap_eq_nil_iff] at early
      rw [List.filterMap_filter]
      apply filterMap_same
      intro f hf
      have := early f hf
      cases f with
      | request x => by_cases e : x.streamID = v.streamID <;> simp [demandOf, isReq, e]
      | requestN x =>
        by_cases e : x.streamID = v.streamID
        · simp [e] at this
        · simp [demandOf, isReq, e]
      | _ => rfl
    rw [e, count_one (by omega) hu hq]
    simp [demandOf, hid, hun]
  have hperm := demand_kept_partial reg before after j live c1 c2 c kind hk v.streamID data md data' md' n0 g h1 free ht hs hi h2 open'
  have htold : (n0 :: toldN v.streamID after).map UInt32.toNat = (recvs (before ++ after)).filterMap (demandOf v.streamID) := by
    rw [recvs_append, List.filterMap_append, hbefore, toldN_demand _ _ ha]; rfl
  have key : ((asked c1.st.objs.length c.log ++ due c1.st.objs.length c.tasks).map fun n => (n.toNat : Int)).Perm
      (((recvs (before ++ after)).filterMap (demandOf v.streamID)).map fun n : Nat => (n : Int)) := by
    rw [← htold, List.map_map]
    exact hperm.map _
  rw [hrecv] at key
  constructor
  · obtain ⟨m, hm⟩ := filterMap_take (demandOf v.streamID) (sends.map fun p => Iota.Props.Frames.received p.1) k
    refine ⟨m, ?_⟩
    rw [hm, List.map_take, hall] at key
    exact key
  · intro hk
    rw [List.take_of_length_le (by simpa using hk), hall] at key
    exact key

/-- What a caller sends for three requests of its subscriber, with frames for other streams in between. -/
def sentD : List (Frame × Bool) :=
  [(.request ⟨6, 3, [0, 0, 0, 0, 0, 0, 0, 0], [5], false, false, 3⟩, true), (req 6 5 0, false), (.requestN ⟨3, 4⟩, true),
   (.requestN ⟨5, 9⟩, true), (.requestN ⟨3, 1⟩, true)]

/-- What the responder does before and after the goroutine of the request has called the handler. -/
def handledD : List Act :=
  [.recv (.request ⟨6, 3, [0, 0, 0, 0, 0, 0, 0, 0], [5], false, true, 3⟩), .recv (req 6 5 0)]

def handledD' : List Act := [.task 0 true, .recv (.requestN ⟨3, 4⟩), .task 0 true, .recv (.requestN ⟨5, 9⟩), .recv (.requestN ⟨3, 1⟩),
  .task 3 true]

/-- The hypotheses of `demand_end_to_end_partial` are met. One goroutine has overtaken another, which is on its way. -/
example : ∃ w c1 c2 c, (sentD.map Prod.fst).filter (about 3) =
      ((ProxyFlux.State.new ⟨6, 3, [0, 0, 0, 0, 0, 0, 0, 0], [5], false, false, 0⟩).run
        [.request 3, .request 4, .request 1]).sent.filter (about 3) ∧
    Framing.runOps Iota.Props.Framing.newWriter (sentD.flatMap (fun p => Framing.sendOps p.1 p.2) ++ [.flush]) = .ok w ∧
    Conn.run reg4 Conn.init handledD = .ok c1 ∧ getStream c1.st 3 = none ∧
    (∃ d m, c1.tasks[0]? = some (.request .rs 3 d m 3)) ∧ c1.step reg4 (.task 0 true) = .ok c2 ∧
    (∃ g d m, c2.log = c1.log ++ [.invoked .rs g 3 d m]) ∧ Conn.run reg4 c2 handledD' = .ok c ∧
    recvs (handledD ++ handledD') = ((Framing.recvAll 9 (Framing.newDecoder ⟨w.sent, [], false, .eof⟩)).1.map Prod.fst).take 5 ∧
    toldN 3 handledD = [] ∧ (∀ f ∈ answered 3 handledD', ends f = false) ∧
    asked 0 c.log = [3, 1] ∧ due 0 c.tasks = [4] := by
  obtain ⟨w, h1, _, h2⟩ := Iota.Props.Framing.framing_roundtrip sentD (by decide)
  refine ⟨w, _, _, _, by decide, h1, rfl, rfl, ⟨_, _, rfl⟩, rfl, ⟨_, _, _, rfl⟩, rfl, ?_, by decide, by decide, by decide, by decide⟩
  rw [(h2 [] .eof 9 (by simp) (by decide)).1]
  rfl

/-! ## C140 -/

/-- New entries are for new streams. -/
theorem entries_step {reg : Reg H} {P : UInt32 → Nat → Prop} {c c' : Conn H} {a : Act} (hP : ∀ id, P id c.st.objs.length)
    (he : Entries P c.st) (h : c.step reg a = .ok c') : Entries P c'.st := by
  cases a with
  | recv f =>
    simp only [Conn.step] at h
    cases hd : handleFrame (H := H) c.st f with
    | err e => rw [hd] at h; cases h
    | panic => rw [hd] at h; cases h
    | ok o =>
      rw [hd] at h; cases h
      simp only [Conn.after]
      by_cases hf : ∃ v, f = .request v
      · obtain ⟨v, rfl⟩ := hf
        rw [(handle_request hd).1]; exact he
      · have hf : ∀ v, f ≠ .request v := fun v hv => hf ⟨v, hv⟩
        rcases handle_other hf hd with ⟨_, rfl⟩ | ⟨j, _, hd⟩
        · exact he
        · rcases (dispatch_shape hf hd).2.1 with h2 | h2 <;> rw [h2]
          · exact he
          · exact he.removed _
  | task j live =>
    simp only [Conn.step] at h
    split at h
    · cases h; exact he
    · rename_i t ht
      cases hd : runTask reg live c.st t with
      | err e => rw [hd] at h; cases h
      | panic => rw [hd] at h; cases h
      | ok o =>
        rw [hd] at h; cases h
        simp only [Conn.after]
        cases t with
        | request k id' data md n =>
          simp only [runTask, handleRequest] at hd
          split at hd
          · cases hd; exact he
          · rename_i hl
            obtain ⟨op, h3, _⟩ := index_long hl
            rw [h3] at hd
            simp only [Res.ok_bind] at hd
            split at hd
            · cases hd; exact he
            · cases hd
              cases k
              · exact he
              · exact (entries_objs he _).registered (hP _)
              · exact (entries_objs he _).registered (hP _)
              · exact (entries_objs he _).registered (hP _)
        | attach j n =>
          simp only [runTask] at hd
          split at hd <;> cases hd
          exact entries_objs he _
        | demand j n =>
          simp only [runTask] at hd
          split at hd
          · cases hd
          · split at hd <;> cases hd; exact he
  | openMono id' => cases h; exact (entries_objs he _).registered (hP _)
  | openFlux id' b => cases h; exact (entries_objs he _).registered (hP _)
  | startIn j b => cases h; exact entries_objs he _
  | openSink j => cases h; exact entries_objs he _

/-- The stream at `i` has no entry left. -/
def Forgotten (i : Nat) (st : State) : Prop := i < st.objs.length ∧ Entries (fun _ j => j ≠ i) st

theorem forgotten_run {reg : Reg H} {i : Nat} {as : List Act} {c c' : Conn H} (hf : Forgotten i c.st)
    (h : Conn.run reg c as = .ok c') : (load i c').Perm (load i c) := by
  induction as generalizing c with
  | nil => cases h; exact List.Perm.refl _
  | cons a as ih =>
    simp only [Conn.run] at h
    cases hs : c.step reg a with
    | err e => rw [hs] at h; cases h
    | panic => rw [hs] at h; cases h
    | ok c1 =>
      rw [hs] at h
      obtain ⟨h1, h2⟩ := hf
      have hfresh : fresh i c.st a = [] := by
        cases a with
        | recv f =>
          cases f with
          | requestN v =>
            simp only [fresh]
            rw [if_neg]
            intro hg
            exact h2.lookup hg rfl
          | _ => rfl
        | _ => rfl
      have hl := load_step h1 hs
      rw [hfresh, List.append_nil] at hl
      have hg := objs_grow hs
      exact (ih ⟨by omega, entries_step (by intro _ hh; omega) h2 hs⟩ h).trans hl

/-- The entry of the stream with the id is the only one, and not one of those a table never gives up (C13). -/
def Removable (id : UInt32) (st : State) : Prop :=
  (st.guest.entries ++ st.host.entries).countP (fun e => e.1 = id) ≤ 1 ∧
    ∀ e ∈ st.guest.entries.take st.guest.stuck ++ st.host.entries.take st.host.stuck, e.1 ≠ id

theorem ended_forgotten {reg : Reg H} {id : UInt32} {i : Nat} {c c' : Conn H} {f : Frame} (hh : Held id i c.st)
    (hside : Iota.Props.Leak.Sided c.st) (hr : Removable id c.st) (hid : f.streamID = id) (he : ends f = true)
    (h : c.step reg (.recv f) = .ok c') : Forgotten i c'.st ∧ getStream c'.st id = none ∧ load i c' = load i c := by
  simp only [Conn.step] at h
  cases hd : handleFrame (H := H) c.st f with
  | err e => rw [hd] at h; cases h
  | panic => rw [hd] at h; cases h
  | ok o =>
    rw [hd] at h; cases h
    obtain ⟨_, h2, _, h4⟩ := answer_told hh hid (ends_answers he) hd
    have he' : Iota.Spec.Leak.ends f = true := by cases f <;> first | exact he | cases he
    have hgone := Iota.Props.Leak.ended_gone_partial c.st f o hside he' hd (by rw [hid]; exact hr.1) (by rw [hid]; exact hr.2)
    rw [hid] at hgone
    have hent : Entries (fun id' _ => id' ≠ id) o.st := by
      constructor
      · intro e hm hx; exact hgone ⟨e.2, .inl (by rw [← hx]; exact hm)⟩
      · intro e hm hx; exact hgone ⟨e.2, .inr (by rw [← hx]; exact hm)⟩
    refine ⟨⟨h4.1, ?_, ?_⟩, ?_, ?_⟩
    · intro e hm hx; exact hent.1 e hm (h4.2.1 e hm hx)
    · intro e hm hx; exact hent.2 e hm (h4.2.2 e hm hx)
    · simp only [Conn.after]
      cases hg : getStream o.st id with
      | none => rfl
      | some j => exact absurd rfl (hent.lookup hg)
    · have hf : ∀ v, f ≠ .request v := by rintro v rfl; cases he
      have hev : asked i o.evs = [] := by
        unfold asked
        rw [List.filterMap_eq_nil_iff]
        intro e hm
        rcases handle_other hf hd with ⟨_, rfl⟩ | ⟨j, _, hd⟩
        · cases hm
        · rcases (dispatch_shape hf hd).2.2.2 e hm with ⟨d, m, rfl⟩ | rfl | ⟨m, rfl⟩ <;> rfl
      rw [load_after (x := []) hev (by rw [h2]; rfl), List.append_nil]

/-- **C140** (part) Demand that arrived for one direction of a channel before the other one ended is not lost: however
long the goroutines that carry it take, and whatever happens later, it is passed to the subscription, and nothing else
is. -/
theorem half_close_partial (reg : Reg H) (before during after : List Act) (j : Nat) (live : Bool) (c1 c2 c3 c : Conn H)
    (k : Kind) (hk : k = .rs ∨ k = .rc) (id : UInt32) (data md data' md' : Bytes) (n0 : UInt32) (g : H)
    (h1 : Conn.run reg Conn.init before = .ok c1) (free : getStream c1.st id = none)
    (ht : c1.tasks[j]? = some (.request k id data md n0)) (hs : c1.step reg (.task j live) = .ok c2)
    (hi : c2.log = c1.log ++ [.invoked k g id data' md']) (h2 : Conn.run reg c2 during = .ok c3)
    (open' : ∀ f ∈ answered id during, ends f = false) (hr : Removable id c3.st) (f : Frame) (hid : f.streamID = id)
    (he : ends f = true) (h3 : Conn.run reg c3 (.recv f :: after) = .ok c) :
    (asked c1.st.objs.length c.log ++ due c1.st.objs.length c.tasks).Perm (n0 :: toldN id during) := by
  have hw := wf_run wf_init h1
  have hkept := demand_kept_partial reg before during j live c1 c2 c3 k hk id data md data' md' n0 g h1 free ht hs hi h2 open'
  obtain ⟨hheld, _⟩ := served hw free ht (by rcases hk with rfl | rfl <;> decide) hs hi
  obtain ⟨hheld', _⟩ := held_run hheld open' h2
  have hside : Iota.Props.Leak.Sided c3.st := by
    have s0 : Iota.Props.Leak.Sided (Conn.init (H := H)).st := ⟨by simp [Conn.init, State.init], by simp [Conn.init, State.init]⟩
    exact Iota.Props.Leak.sided_run (Iota.Props.Leak.sided_run (Iota.Props.Leak.sided_run s0 h1) (run_one hs)) h2
  simp only [Conn.run] at h3
  cases hx : c3.step reg (.recv f) with
  | err e => rw [hx] at h3; cases h3
  | panic => rw [hx] at h3; cases h3
  | ok c4 =>
    rw [hx] at h3
    obtain ⟨f1, _, f3⟩ := ended_forgotten hheld' hside hr hid he hx
    have := forgotten_run f1 h3
    rw [f3] at this
    exact this.trans hkept

/-- **C140** fails for demand and cancellation. On every connection and for every stream of it, be it the one that serves
a request or the one of a call: once a frame has ended what comes in on that stream (COMPLETE or ERROR of the input of
a channel, seen by the responder, or of its output, seen by the caller), demand for the other direction is dropped and
cancelling it ends the connection. Whatever happens after that, the subscription of the other direction is asked for
nothing that had not arrived before. The first stream of a table is an exception, as it is never forgotten (C13). -/
theorem half_close_refuted (reg : Reg H) (before : List Act) (c c' : Conn H) (h1 : Conn.run reg Conn.init before = .ok c)
    (id : UInt32) (i : Nat) (hh : Held id i c.st) (hr : Removable id c.st) (f : Frame) (hid : f.streamID = id)
    (he : ends f = true) (h : c.step reg (.recv f) = .ok c') :
    (∀ n, c'.step reg (.recv (.requestN ⟨id, n⟩)) = .ok c') ∧
    c'.step reg (.recv (.cancel ⟨id⟩)) = .err notFound ∧
    ∀ after c'', Conn.run reg c' after = .ok c'' →
      (asked i c''.log ++ due i c''.tasks).Perm (asked i c.log ++ due i c.tasks) := by
  have hside : Iota.Props.Leak.Sided c.st := Iota.Props.Leak.sided_run
    (c := Conn.init) ⟨by simp [Conn.init, State.init], by simp [Conn.init, State.init]⟩ h1
  obtain ⟨f1, f2, f3⟩ := ended_forgotten hh hside hr hid he h
  refine ⟨fun n => ?_, ?_, fun after c'' ha => ?_⟩
  · have t : (Frame.requestN ⟨id, n⟩).type = tRequestN := rfl
    have t' : (Frame.requestN ⟨id, n⟩).streamID = id := rfl
    simp [Conn.step, handleFrame, t, t', f2, Conn.after]
  · have t : (Frame.cancel ⟨id⟩).type ≥ tRequestN ∧ (Frame.cancel ⟨id⟩).type ≠ tRequestN := by simp only [Frame.type]; decide
    have t' : (Frame.cancel ⟨id⟩).streamID = id := rfl
    simp [Conn.step, handleFrame, t.1, t.2, t', f2]
  · have := forgotten_run f1 ha
    rw [f3] at this
    exact this

/-- A responder on which a second channel is served: its caller has asked for three elements and completes its input. -/
example : ∃ c c', Conn.run reg4 Conn.init [.recv (req 6 1 0), .task 0 true, .recv (req 7 3 0), .task 1 true, .openSink 1, .task 1 true,
      .recv (.payload ⟨3, [], [7], false, false, true⟩)] = .ok c ∧
    getStream c.st 3 = some 1 ∧ c.st.objs[1]? = some (.resp true true) ∧
    (c.st.guest.entries ++ c.st.host.entries).countP (fun e => e.1 = 3) ≤ 1 ∧
    (∀ e ∈ c.st.guest.entries.take c.st.guest.stuck ++ c.st.host.entries.take c.st.host.stuck, e.1 ≠ 3) ∧
    c.step reg4 (.recv (.payload ⟨3, [], [], false, true, false⟩)) = .ok c' ∧
    asked 1 c'.log = [3] ∧ due 1 c'.tasks = [] := ⟨_, _, rfl, rfl, rfl, by decide, by decide, rfl, rfl, rfl⟩

end Iota.Props.Demand
