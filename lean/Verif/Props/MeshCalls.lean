import Verif.Spec.MeshCalls
import Verif.Props.WasmFinish
import Verif.Props.Mesh

/-! # Calls between the modules of a mesh are answered by the code they are linked to (C153) -/

namespace Iota.Props.MeshCalls
open Iota.Go Iota.Frames Iota.Registry Iota.WasmDispatch Iota.WasmCalls Iota.Mesh Iota.MeshCalls
open Iota.Spec.Handler (opIndex)
open Iota.Spec.WasmCalls (toldCall results Answered Serves Unknown handlers)
open Iota.Spec.MeshCalls
open Iota.Peers (Result)
open Iota.Handler (Ev)
open Iota.Props.WasmCalls hiding run_ends runActs

variable {H : Type}

/-! ## An instance only grows -/

theorem log_grows {e : End} {hs : Handlers H} {p p' : WasmDispatch.Peer H} {a : WasmDispatch.Act}
    (h : p.step e hs a = some (.ok p')) : ∃ l, p'.log = p.log ++ l := by
  cases Props.WasmCaller.effect h with
  | skip => exact ⟨[], by simp⟩
  | ask => exact ⟨_, rfl⟩
  | frame => exact ⟨_, rfl⟩
  | answer => exact ⟨_, rfl⟩
  | serve => exact ⟨_, rfl⟩
  | attach => exact ⟨_, rfl⟩
  | demand => exact ⟨_, rfl⟩
  | openMono => exact ⟨[], by simp [Peer.register]⟩
  | openFlux => exact ⟨[], by simp [Peer.register]⟩
  | startIn => exact ⟨[], by simp⟩
  | openSink => exact ⟨[], by simp⟩

/-- One end goes on. -/
structure Grow (n n' : Node H) : Prop where
  calls : ∃ l, n'.calls = n.calls ++ l
  obj : ∀ j o, n.obj j = some o → n'.obj j = some o
  log : ∃ l, n'.peer.log = n.peer.log ++ l
  made : ∃ l, n'.made = n.made ++ l

theorem Grow.refl (n : Node H) : Grow n n := ⟨⟨[], by simp⟩, fun _ _ h => h, ⟨[], by simp⟩, ⟨[], by simp⟩⟩

theorem Grow.told {n n' : Node H} (h : Grow n n') {j : Nat} {r : Result} (hr : r ∈ toldCall n j) : r ∈ toldCall n' j := by
  unfold toldCall at hr ⊢
  cases ho : n.obj j with
  | none => rw [ho] at hr; exact absurd hr List.not_mem_nil
  | some o =>
    rw [ho] at hr
    rw [h.obj j o ho]
    obtain ⟨l, hl⟩ := h.log
    simp only [hl, results_append]
    exact List.mem_append_left _ hr

theorem Grow.call {n n' : Node H} (h : Grow n n') {j : Nat} {c : WasmCalls.Call} (hc : n.calls[j]? = some c) : n'.calls[j]? = some c := by
  obtain ⟨l, hl⟩ := h.calls
  rw [hl, List.getElem?_append_left (List.getElem?_eq_some_iff.mp hc).1]; exact hc

/-- Which end answers. -/
def answers : WasmCalls.Act → Option End
  | .answer e _ _ => some e
  | _ => none

theorem grows {hs : End → Handlers H} {y y' : WasmCalls.Sys H} {a : WasmCalls.Act} (h : y.step hs a = some y') (t : End) :
    Grow (y.node t) (y'.node t) ∧ (answers a ≠ some t → (y'.node t).made = (y.node t).made) := by
  have key : ∀ (e : End) (n : Node H) (out : List Frame) (r : Bool), Grow (y.node e) n →
      (answers a ≠ some e → n.made = (y.node e).made) →
      Grow (y.node t) ((y.put e n out r).node t) ∧ (answers a ≠ some t → ((y.put e n out r).node t).made = (y.node t).made) := by
    intro e n out r hn hm
    rcases eq_or_other e t with rfl | rfl
    · rw [put_node]; exact ⟨hn, hm⟩
    · rw [put_other]; exact ⟨.refl _, fun _ => rfl⟩
  have same : ∀ (e : End) (out : List Frame) (r : Bool), Grow (y.node t) ((y.put e (y.node e) out r).node t) ∧
      (answers a ≠ some t → ((y.put e (y.node e) out r).node t).made = (y.node t).made) :=
    fun e out r => key e _ out r (.refl _) fun _ => rfl
  have does : ∀ (e : End) (b : WasmDispatch.Act) (r : Bool), y.does hs e b r = some y' →
      Grow (y.node t) (y'.node t) ∧ (answers a ≠ some t → (y'.node t).made = (y.node t).made) := by
    intro e b r h
    unfold WasmCalls.Sys.does at h
    split at h
    · rename_i p hp
      cases h
      exact key _ _ _ _ ⟨⟨[], by simp [Node.absorb]⟩, fun _ _ h => h, log_grows hp, ⟨[], by simp [Node.absorb]⟩⟩ fun _ => rfl
    · cases h
  cases a with
  | call e k d m ctx =>
    simp only [WasmCalls.Sys.step, Option.map_eq_some_iff] at h
    obtain ⟨⟨n, out⟩, h1, rfl⟩ := h
    obtain ⟨c, _, hc⟩ := call_calls h1
    unfold Node.call at h1
    split at h1
    · cases h1
    · cases h1
      exact key _ _ _ _ ⟨⟨[c], hc⟩, fun _ _ h => h, ⟨[], by simp⟩, ⟨[], by simp⟩⟩ fun _ => rfl
  | subscribe e j =>
    simp only [WasmCalls.Sys.step, Option.map_eq_some_iff] at h
    obtain ⟨⟨n, out⟩, h1, rfl⟩ := h
    have hcalls := subscribe_calls h1
    unfold Node.subscribe at h1
    split at h1
    · rename_i c hc ho
      split at h1
      · cases h1
      · rename_i b hb
        split at h1
        · rename_i p hp
          cases h1
          refine key _ _ _ _ ⟨⟨[], by simp⟩, ?_, log_grows hp, ⟨[], by simp⟩⟩ fun _ => rfl
          intro i o hi
          dsimp only
          rw [if_neg (fun e => by rw [e, ho] at hi; cases hi)]; exact hi
        · cases h1
    · cases h1
  | start e j n =>
    simp only [WasmCalls.Sys.step, Option.bind_eq_some_iff] at h
    obtain ⟨c, h1, h2⟩ := h
    split at h2
    · cases h2; exact same _ _ _
    · cases h2
  | own e j f =>
    simp only [WasmCalls.Sys.step, Option.bind_eq_some_iff] at h
    obtain ⟨c, h1, h2⟩ := h
    split at h2
    · cases h2; exact same _ _ _
    · cases h2
  | recv e data =>
    simp only [WasmCalls.Sys.step, Option.bind_eq_some_iff] at h
    obtain ⟨f, h1, h2⟩ := h
    split at h2
    · exact does _ _ _ h2
    · cases h2
  | task e i live => exact does _ _ _ h
  | startIn e i live => exact does e (.startIn i live) false h
  | openSink e i => exact does e (.openSink i) false h
  | answer e i r =>
    simp only [WasmCalls.Sys.step, Option.map_eq_some_iff] at h
    obtain ⟨⟨n, out⟩, h1, rfl⟩ := h
    unfold Node.answer at h1
    split at h1
    · cases h1
    · split at h1
      · cases h1
        exact key _ _ _ _ ⟨⟨[], by simp⟩, fun _ _ h => h, ⟨[], by simp⟩, ⟨_, rfl⟩⟩ fun he => absurd rfl he
      · cases h1
  | emit e i f =>
    simp only [WasmCalls.Sys.step, Option.bind_eq_some_iff] at h
    obtain ⟨c, h1, h2⟩ := h
    split at h2
    · cases h2; exact same _ _ _
    · cases h2

/-! ## Invariant -/

variable {G : Type}

/-- What holds of a call that was passed on: what it was made for, and what was made of it. -/
structure Kept (m : Mesh) (gs : Nat → Handlers G) (n : Net G) (ρ : Relay G) : Prop where
  from_ : ∃ c ∈ ((n.sys ρ.src).node .guest).calls, Serves .host (hands m gs ρ.src .host) c ρ.job
  toward : ∃ d, ρ.job.handler = .relay d ∧ ρ.dst = d.instance_ ∧ ∃ c, ((n.sys ρ.dst).node .host).calls[ρ.call]? = some c ∧
    c.kind = ρ.job.kind ∧ c.data = ρ.job.data ∧ c.metadata = be32 d.index ++ ρ.job.metadata.drop 4

/-- What holds of a mesh. -/
structure Good (m : Mesh) (gs : Nat → Handlers G) (n : Net G) : Prop where
  reach : ∀ i, WasmCalls.Reach (hands m gs i) (n.sys i)
  kept : ∀ ρ ∈ n.relays, Kept m gs n ρ
  made : ∀ i x r, (x, r) ∈ ((n.sys i).node .host).made →
    ∃ ρ ∈ n.relays, ρ.src = i ∧ ρ.job = x ∧ r ∈ toldCall ((n.sys ρ.dst).node .host) ρ.call
  once : ∀ i id, (onward n i id).length ≤ 1
  apart : ∀ (k l : Nat) (ρ σ : Relay G), n.relays[k]? = some ρ → n.relays[l]? = some σ → ρ.dst = σ.dst → ρ.call = σ.call → k = l

theorem heard_told {n : Node (Hand G)} {j : Nat} {v : Result} (h : heard n j v = true) : v ∈ toldCall n j := by
  unfold heard at h
  unfold toldCall
  cases ho : n.obj j with
  | none => rw [ho] at h; cases h
  | some o =>
    rw [ho] at h
    obtain ⟨ev, hev, hm⟩ := List.any_eq_true.mp h
    simp only [results, List.mem_filterMap]
    split at hm
    · simp only [decide_eq_true_eq] at hm
      obtain ⟨rfl, rfl, rfl⟩ := hm
      exact ⟨_, ⟨_, hev, by simp only [Spec.WasmCalls.signal, if_true]; rfl⟩, rfl⟩
    · simp only [decide_eq_true_eq] at hm
      obtain ⟨rfl, rfl⟩ := hm
      exact ⟨_, ⟨_, hev, by simp only [Spec.WasmCalls.signal, if_true]; rfl⟩, rfl⟩
    · cases hm

theorem told_heard {n : Node (Hand G)} {j : Nat} {v : Result} (h : v ∈ toldCall n j) : heard n j v = true := by
  unfold toldCall at h
  unfold heard
  cases ho : n.obj j with
  | none => rw [ho] at h; exact absurd h List.not_mem_nil
  | some o =>
    rw [ho] at h
    simp only [results, List.mem_filterMap] at h
    obtain ⟨s, ⟨ev, hev, hs⟩, hr⟩ := h
    refine List.any_eq_true.mpr ⟨ev, hev, ?_⟩
    cases ev with
    | next i d m =>
      simp only [Spec.WasmCalls.signal] at hs
      split at hs
      · cases hs; cases hr; simp [*]
      · cases hs
    | error i m =>
      simp only [Spec.WasmCalls.signal] at hs
      split at hs
      · cases hs; cases hr; simp [*]
      · cases hs
    | complete i =>
      simp only [Spec.WasmCalls.signal] at hs
      split at hs
      · cases hs; cases hr
      · cases hs
    | _ => cases hs

theorem at_step {hs : Nat → End → Handlers (Hand G)} {n n' : Net G} {i : Nat} {a : WasmCalls.Act} {rs : List (Relay G)}
    (h : n.at_ hs i a rs = some n') : ∃ y, (n.sys i).step (hs i) a = some y ∧ n' = ⟨assign n.sys i y, rs⟩ := by
  unfold Net.at_ at h
  obtain ⟨y, h1, rfl⟩ := Option.map_eq_some_iff.mp h
  exact ⟨y, h1, rfl⟩

theorem assign_same {K V : Type} [DecidableEq K] (m : K → V) (k : K) (v : V) : assign m k v k = v := by simp [assign]
theorem assign_ne {K V : Type} [DecidableEq K] (m : K → V) {k k' : K} (v : V) (h : k' ≠ k) : assign m k v k' = m k' := by simp [assign, h]

/-- Every end of a mesh only grows. -/
theorem at_grows {hs : Nat → End → Handlers (Hand G)} {n : Net G} {i : Nat} {a : WasmCalls.Act} {y : WasmCalls.Sys (Hand G)}
    (h : (n.sys i).step (hs i) a = some y) (k : Nat) (t : End) : Grow ((n.sys k).node t) ((assign n.sys i y k).node t) := by
  by_cases hk : k = i
  · subst hk; rw [assign_same]; exact (grows h t).1
  · rw [assign_ne _ _ hk]; exact .refl _

theorem step_at [DecidableEq G] {hs : Nat → End → Handlers (Hand G)} {n n' : Net G} {a : MeshCalls.Act} (h : n.step hs a = some n') :
    ∃ i b y, (n.sys i).step (hs i) b = some y ∧ n'.sys = assign n.sys i y := by
  cases a with
  | own i b =>
    simp only [Net.step] at h
    split at h
    · cases h
    · obtain ⟨y, h1, rfl⟩ := at_step h; exact ⟨i, b, y, h1, rfl⟩
  | pass i x ctx =>
    simp only [Net.step] at h
    split at h
    · cases h
    · rename_i j d ht
      unfold Net.forward at h
      split at h
      · rename_i r hr
        split at hr
        · cases hr; obtain ⟨y, h1, rfl⟩ := at_step h; exact ⟨_, _, y, h1, rfl⟩
        · cases hr; cases h
        · cases hr
        · cases hr
      · cases h
  | back r x v =>
    simp only [Net.step] at h
    split at h
    · cases h
    · split at h
      · obtain ⟨y, h1, rfl⟩ := at_step h; exact ⟨_, _, y, h1, rfl⟩
      · cases h

theorem bounded_back [DecidableEq G] {hs : Nat → End → Handlers (Hand G)} {n n' : Net G} {a : MeshCalls.Act} (h : n.step hs a = some n')
    (hb : Spec.MeshCalls.Bounded n') : Spec.MeshCalls.Bounded n := by
  obtain ⟨i, b, y, h1, h2⟩ := step_at h
  intro k
  have := hb k
  rw [h2] at this
  by_cases hk : k = i
  · subst hk; rw [assign_same] at this; exact bounded_before h1 this
  · rwa [assign_ne _ _ hk] at this

/-- What was passed on stays so. -/
theorem kept_more {m : Mesh} {gs : Nat → Handlers G} {n n' : Net G} (hgr : ∀ k t, Grow ((n.sys k).node t) ((n'.sys k).node t))
    {ρ : Relay G} (h : Kept m gs n ρ) : Kept m gs n' ρ := by
  refine ⟨?_, ?_⟩
  · obtain ⟨c, h1, h2⟩ := h.from_
    obtain ⟨l, hl⟩ := (hgr ρ.src .guest).calls
    exact ⟨c, by rw [hl]; exact List.mem_append_left _ h1, h2⟩
  · obtain ⟨d, h1, h2, c, h3, h4⟩ := h.toward
    exact ⟨d, h1, h2, c, (hgr ρ.dst .host).call h3, h4⟩

theorem good_own {m : Mesh} {gs : Nat → Handlers G} {n : Net G} (hg : Good m gs n) {i : Nat} {a : WasmCalls.Act}
    {y : WasmCalls.Sys (Hand G)} (hs : (n.sys i).step (hands m gs i) a = some y)
    (hmade : ∀ x r, (x, r) ∈ (y.node .host).made → (x, r) ∈ ((n.sys i).node .host).made ∨
      ∃ ρ ∈ n.relays, ρ.src = i ∧ ρ.job = x ∧ r ∈ toldCall ((n.sys ρ.dst).node .host) ρ.call) :
    Good m gs ⟨assign n.sys i y, n.relays⟩ := by
  have hgr : ∀ k t, Grow ((n.sys k).node t) ((assign n.sys i y k).node t) := at_grows (hs := fun i => hands m gs i) hs
  refine ⟨?_, fun ρ hρ => kept_more hgr (hg.kept ρ hρ), ?_, hg.once, hg.apart⟩
  · intro k
    show WasmCalls.Reach _ (assign n.sys i y k)
    by_cases hk : k = i
    · subst hk; rw [assign_same]; exact .step a (hg.reach k) hs
    · rw [assign_ne _ _ hk]; exact hg.reach k
  · intro k x r hx
    have hx : (x, r) ∈ ((assign n.sys i y k).node .host).made := hx
    have old : (x, r) ∈ ((n.sys k).node .host).made ∨
        ∃ ρ ∈ n.relays, ρ.src = k ∧ ρ.job = x ∧ r ∈ toldCall ((n.sys ρ.dst).node .host) ρ.call := by
      by_cases hk : k = i
      · subst hk; rw [assign_same] at hx; exact hmade x r hx
      · rw [assign_ne _ _ hk] at hx; exact .inl hx
    have : ∃ ρ ∈ n.relays, ρ.src = k ∧ ρ.job = x ∧ r ∈ toldCall ((n.sys ρ.dst).node .host) ρ.call := by
      rcases old with old | old
      · exact hg.made k x r old
      · exact old
    obtain ⟨ρ, h1, h2, h3, h4⟩ := this
    exact ⟨ρ, h1, h2, h3, (hgr ρ.dst .host).told h4⟩

theorem good_init (m : Mesh) (gs : Nat → Handlers G) : Good m gs (Net.init : Net G) :=
  ⟨fun _ => .init, fun _ h => absurd h List.not_mem_nil, fun _ _ _ h => absurd h List.not_mem_nil, fun _ _ => Nat.zero_le _,
    fun _ _ _ _ h => by cases h⟩

theorem target_some {n : Net G} {i x : Nat} {j : Job (Hand G)} {d : Dest} (h : n.target i x = some (j, d)) :
    ((n.sys i).node .host).jobs[x]? = some j ∧ j.handler = .relay d ∧ n.passed i j = false := by
  unfold Net.target at h
  split at h
  · cases h
  · rename_i j' hj
    split at h
    · cases h
    · rename_i d' hd
      split at h
      · rename_i hc; cases h; exact ⟨hj, hd, hc⟩
      · cases h

theorem forward_some {hs : Nat → End → Handlers (Hand G)} {n n' : Net G} {i : Nat} {j : Job (Hand G)} {d : Dest} {ctx : Ctx}
    (h : n.forward hs i j d ctx = .ok (some n')) : ∃ y, 4 ≤ j.metadata.length ∧
      (n.sys d.instance_).step (hs d.instance_) (.call .host j.kind j.data (be32 d.index ++ j.metadata.drop 4) ctx) = some y ∧
      n' = ⟨assign n.sys d.instance_ y, n.relays ++ [⟨i, j, d.instance_, ((n.sys d.instance_).node .host).calls.length⟩]⟩ := by
  unfold Net.forward at h
  split at h
  · rename_i md hr
    have h := Res.ok.inj h
    obtain ⟨y, h1, h2⟩ := at_step h
    unfold Dest.route at hr
    simp only at hr
    split at hr
    · cases hr
    · cases hr; exact ⟨y, by omega, h1, h2⟩
  · cases h
  · cases h
  · cases h

theorem call_step {hs : End → Handlers H} {y y' : WasmCalls.Sys H} {e : End} {k : Kind} {d m : Bytes} {ctx : Ctx}
    (h : y.step hs (.call e k d m ctx) = some y') :
    ∃ id, (y'.node e).calls = (y.node e).calls ++ [⟨k, id, d, m, ctx⟩] := by
  simp only [WasmCalls.Sys.step, Option.map_eq_some_iff] at h
  obtain ⟨⟨n, out⟩, h1, rfl⟩ := h
  unfold Node.call at h1
  split at h1
  · cases h1
  · cases h1; rw [put_node]; exact ⟨_, rfl⟩

theorem good_step [DecidableEq G] {m : Mesh} {gs : Nat → Handlers G} {n n' : Net G} {a : MeshCalls.Act} (hg : Good m gs n)
    (hb' : Spec.MeshCalls.Bounded n') (h : n.step (hands m gs) a = some n') : Good m gs n' := by
  have hb := bounded_back h hb'
  cases a with
  | own i b =>
    simp only [Net.step] at h
    split at h
    · cases h
    · rename_i hna
      obtain ⟨y, h1, rfl⟩ := at_step h
      refine good_own hg h1 fun x r hx => .inl ?_
      rw [(grows h1 .host).2 ?_] at hx
      · exact hx
      · intro he
        cases b with
        | answer e i r => cases he; exact hna rfl
        | _ => cases he
  | back r x v =>
    simp only [Net.step] at h
    split at h
    · cases h
    · rename_i ρ hρ
      split at h
      · rename_i hc
        obtain ⟨y, h1, rfl⟩ := at_step h
        refine good_own hg h1 fun x' r' hx => ?_
        simp only [WasmCalls.Sys.step, Option.map_eq_some_iff] at h1
        obtain ⟨⟨n1, out⟩, h2, rfl⟩ := h1
        rw [put_node] at hx
        unfold Node.answer at h2
        rw [hc.1] at h2
        simp only at h2
        split at h2
        · cases h2
          rcases List.mem_append.mp hx with hx | hx
          · exact .inl hx
          · cases List.mem_singleton.mp hx
            exact .inr ⟨ρ, List.mem_of_getElem? hρ, rfl, rfl, heard_told hc.2⟩
        · cases h2
      · cases h
  | pass i x ctx =>
    simp only [Net.step] at h
    split at h
    · cases h
    · rename_i j d ht
      split at h
      · rename_i r hr
        subst h
        obtain ⟨hj, hjd, hnp⟩ := target_some ht
        obtain ⟨y, h4, h1, rfl⟩ := forward_some hr
        have hgr : ∀ k t, Grow ((n.sys k).node t) ((assign n.sys d.instance_ y k).node t) := at_grows (hs := fun i => hands m gs i) h1
        have hg1 : Good m gs ⟨assign n.sys d.instance_ y, n.relays⟩ := by
          refine good_own hg h1 fun x r hx => .inl ?_
          rw [(grows h1 .host).2 (fun he => nomatch he)] at hx
          exact hx
        have hlt : ∀ ρ ∈ n.relays, ρ.dst = d.instance_ → ρ.call < ((n.sys d.instance_).node .host).calls.length := by
          intro ρ hρ he
          obtain ⟨_, _, _, c, hc, _⟩ := (hg.kept ρ hρ).toward
          rw [he] at hc
          exact (List.getElem?_eq_some_iff.mp hc).1
        refine ⟨hg1.reach, ?_, ?_, ?_, ?_⟩
        · intro ρ hρ
          rcases List.mem_append.mp hρ with hρ | hρ
          · exact kept_more hgr (hg.kept ρ hρ)
          · cases List.mem_singleton.mp hρ
            refine ⟨?_, d, hjd, rfl, ?_⟩
            · obtain ⟨c, h5, h6⟩ := ((good_reach (hg.reach i) (hb i)).link .guest).jobs j (List.mem_of_getElem? hj)
              obtain ⟨l, hl⟩ := (hgr i .guest).calls
              exact ⟨c, by show c ∈ ((assign n.sys d.instance_ y i).node .guest).calls; rw [hl]; exact List.mem_append_left _ h5, h6⟩
            · obtain ⟨id, hid⟩ := call_step h1
              refine ⟨⟨j.kind, id, j.data, be32 d.index ++ j.metadata.drop 4, ctx⟩, ?_, rfl, rfl, rfl⟩
              · show ((assign n.sys d.instance_ y d.instance_).node .host).calls[_]? = _
                rw [assign_same, hid]
                simp
        · intro k x r hx
          obtain ⟨ρ, h5, h6⟩ := hg1.made k x r hx
          exact ⟨ρ, List.mem_append_left _ h5, h6⟩
        · intro k id
          show (List.filter _ (n.relays ++ [_])).length ≤ 1
          rw [List.filter_append, List.length_append]
          have hold := hg.once k id
          unfold onward at hold
          by_cases hm : i = k ∧ j.id = id
          · have : n.relays.filter (fun ρ => decide (ρ.src = k ∧ ρ.job.id = id)) = [] := by
              refine List.filter_eq_nil_iff.mpr fun ρ hρ he => ?_
              simp only [decide_eq_true_eq] at he
              have hn := List.any_eq_false.mp hnp ρ hρ
              simp [he.1, he.2, hm.1, hm.2] at hn
            rw [this]
            simpa using List.length_filter_le _ [_]
          · have : ([⟨i, j, d.instance_, ((n.sys d.instance_).node .host).calls.length⟩] : List (Relay G)).filter
                (fun ρ => decide (ρ.src = k ∧ ρ.job.id = id)) = [] := by
              simp [hm]
            rw [this]; exact hold
        · intro a b ρ σ ha hb hd hc
          rcases Props.Peers.getElem?_snoc ha with ⟨_, ha⟩ | ⟨ha, rfl⟩
          · rcases Props.Peers.getElem?_snoc hb with ⟨_, hb⟩ | ⟨hb, rfl⟩
            · exact hg.apart a b ρ σ ha hb hd hc
            · have := hlt ρ (List.mem_of_getElem? ha) hd
              dsimp only at hc; omega
          · rcases Props.Peers.getElem?_snoc hb with ⟨_, hb⟩ | ⟨hb, rfl⟩
            · have := hlt σ (List.mem_of_getElem? hb) hd.symm
              dsimp only at hc; omega
            · omega
      · cases h

theorem mesh_good [DecidableEq G] {m : Mesh} {gs : Nat → Handlers G} {n : Net G} (h : MeshCalls.Reach (hands m gs) n) (hb : Spec.MeshCalls.Bounded n) :
    Good m gs n := by
  induction h with
  | init => exact good_init m gs
  | step a _ hs1 ih => exact good_step (ih (bounded_back hs1 hb)) hb hs1

/-! ## What the destination makes of a call -/

theorem index_long {md : Bytes} {op : Nat} (h : opIndex md = some op) : 8 ≤ md.length :=
  Classical.byContradiction fun hl => by rw [Props.Handler.index_short (by omega)] at h; cases h

theorem routed_index {md : Bytes} (h : 8 ≤ md.length) (d : Dest) : opIndex (be32 d.index ++ md.drop 4) = some d.index.toNat := by
  obtain ⟨md', h1, h2, _⟩ := Props.Mesh.mesh_routes_partial d md h
  unfold Dest.route at h1
  simp only at h1
  rw [if_neg (by omega)] at h1
  cases h1; exact h2

theorem routed_rest {md : Bytes} (h : 8 ≤ md.length) (d : Dest) : (be32 d.index ++ md.drop 4).drop 8 = md.drop 8 := by
  rw [List.drop_append, List.drop_drop]
  simp

theorem routed_unique {md : Bytes} (h : 8 ≤ md.length) {d : Dest} {op : UInt32}
    (ho : opIndex (be32 d.index ++ md.drop 4) = some op.toNat) : op = d.index := by
  rw [routed_index h d] at ho
  exact (UInt32.toNat_inj.mp (Option.some.inj ho)).symm

/-- What is known of work of a host: the call it is for, and where it is linked to. -/
theorem job_linked {m : Mesh} {gs : Nat → Handlers G} {i : Nat} {c : WasmCalls.Call} {x : Job (Hand G)} {d : Dest}
    (h : Serves .host (hands m gs i .host) c x) (hd : x.handler = .relay d) :
    Linked m i c d ∧ 8 ≤ c.metadata.length ∧ x.metadata = c.metadata := by
  obtain ⟨op, h1, h2⟩ := h.handler
  refine ⟨⟨op, h1, ?_⟩, index_long h1, by rw [h.metadata]; rfl⟩
  obtain ⟨d', h3, h4⟩ := Option.map_eq_some_iff.mp h2
  rw [hd] at h4; cases h4; exact h3

theorem linked_unique {m : Mesh} {i : Nat} {c : WasmCalls.Call} {d d' : Dest} (h : Linked m i c d) (h' : Linked m i c d') : d = d' := by
  obtain ⟨op, h1, h2⟩ := h
  obtain ⟨op', h1', h2'⟩ := h'
  rw [h1] at h1'
  have : op = op' := UInt32.toNat_inj.mp (Option.some.inj h1')
  rw [this, h2'] at h2; exact (Option.some.inj h2).symm

/-- Work of the guest of the destination for the call made there is work for the call it was made for. -/
theorem run_for {m : Mesh} {gs : Nat → Handlers G} {d : Dest} {c c2 : WasmCalls.Call} {x : Job (Hand G)} (h8 : 8 ≤ c.metadata.length)
    (hk : c.kind = .rr ∨ c.kind = .fnf) (h1 : c2.kind = c.kind) (h2 : c2.data = c.data)
    (h3 : c2.metadata = be32 d.index ++ c.metadata.drop 4) (hx : Serves .guest (hands m gs d.instance_ .guest) c2 x) :
    RunFor gs d c x := by
  refine ⟨hx.kind.trans h1, hx.data.trans h2, ?_, ?_⟩
  · rw [hx.metadata, h1, h3, Spec.WasmCalls.shown, if_pos ⟨rfl, hk⟩, routed_rest h8]
  · obtain ⟨op, h4, h5⟩ := hx.handler
    rw [h3] at h4
    have := routed_unique h8 h4
    subst this
    obtain ⟨g, h6, h7⟩ := Option.map_eq_some_iff.mp h5
    exact ⟨g, by rw [← h1]; exact h6, h7.symm⟩

theorem not_unknown {m : Mesh} {gs : Nat → Handlers G} {d : Dest} {c c2 : WasmCalls.Call} (h8 : 8 ≤ c.metadata.length)
    (h1 : c2.kind = c.kind) (h3 : c2.metadata = be32 d.index ++ c.metadata.drop 4) :
    Unknown (hands m gs d.instance_ .guest) c2 ↔ gs d.instance_ c.kind d.index = none := by
  constructor
  · intro h
    have := h d.index (by rw [h3]; exact routed_index h8 d)
    rw [h1] at this
    exact Option.map_eq_none_iff.mp this
  · intro h op ho
    rw [h3] at ho
    have := routed_unique h8 ho
    subst this
    rw [h1]; exact Option.map_eq_none_iff.mpr h

/-! ## Results (C153) -/

/-- **C153** A result that a module was told for a call was given by the code of the destination the call is linked to,
run with the data of the call and its metadata without the routing; or it is a failure, and the call is linked to nothing, or
to code that does not exist. The module was told at most one. -/
theorem module_calls_get_own_results [DecidableEq G] {m : Mesh} {gs : Nat → Handlers G} {n : Net G}
    (h : MeshCalls.Reach (hands m gs) n) (hb : Spec.MeshCalls.Bounded n) {i j : Nat} {c : WasmCalls.Call}
    (hc : ((n.sys i).node .guest).calls[j]? = some c) (hk : c.kind = .rr) :
    (∀ r ∈ toldCall ((n.sys i).node .guest) j, Through m gs n i c r) ∧ (toldCall ((n.sys i).node .guest) j).length ≤ 1 := by
  have hg := mesh_good h hb
  obtain ⟨h1, h2⟩ := calls_get_own_results (hg.reach i) (hb i) .guest hc hk
  refine ⟨fun r hr => ?_, h2⟩
  cases h1 r hr with
  | handler x _ hx hsv =>
    obtain ⟨ρ, hρ, rfl, rfl, ht⟩ := hg.made i x r hx
    obtain ⟨d, hd, hdst, c2, hc2, hk2, hd2, hm2⟩ := (hg.kept ρ hρ).toward
    obtain ⟨hl, h8, hmd⟩ := job_linked hsv hd
    rw [hdst] at hc2 ht
    have hkk : c2.kind = c.kind := hk2.trans hsv.kind
    rw [hmd] at hm2
    obtain ⟨h3, _⟩ := calls_get_own_results (hg.reach d.instance_) (hb _) .host hc2 (hkk.trans hk)
    cases h3 r ht with
    | handler x2 _ hx2 hs2 =>
      exact .answered d x2 r hl (run_for h8 (.inl hk) hkk (hd2.trans hsv.data) hm2 hs2) hx2
    | refused msg hu hmsg =>
      have : msg = Handler.lit "not_found" := by
        rw [hmsg, hm2]
        have : ¬ (be32 d.index ++ c.metadata.drop 4).length < 8 := Nat.not_lt.mpr (index_long (routed_index h8 d))
        simp only [Spec.WasmCalls.refusal, if_neg this]
      rw [this]
      exact .missing d hl ((not_unknown h8 hkk hm2).mp hu)
  | refused msg hu hmsg =>
    rw [hmsg]
    refine .unlinked fun d hl => ?_
    obtain ⟨op, h3, h4⟩ := hl
    have := hu op h3
    have := Option.map_eq_none_iff.mp this
    rw [h4] at this; cases this

/-- **C153** What a host does for a module it passes on at most once, to a call of its own: no two share one. -/
theorem passed_on_once [DecidableEq G] {m : Mesh} {gs : Nat → Handlers G} {n : Net G}
    (h : MeshCalls.Reach (hands m gs) n) (hb : Spec.MeshCalls.Bounded n) :
    (∀ i id, (onward n i id).length ≤ 1) ∧
    (∀ (k l : Nat) (ρ σ : Relay G), n.relays[k]? = some ρ → n.relays[l]? = some σ → ρ.dst = σ.dst → ρ.call = σ.call → k = l) ∧
    ∀ ρ ∈ n.relays, ∃ c ∈ ((n.sys ρ.src).node .guest).calls, ∃ d c2, c.id = ρ.job.id ∧ Linked m ρ.src c d ∧ ρ.dst = d.instance_ ∧
      ((n.sys ρ.dst).node .host).calls[ρ.call]? = some c2 ∧ c2.kind = c.kind ∧ c2.data = c.data ∧
      opIndex c2.metadata = some d.index.toNat ∧ c2.metadata.drop 4 = c.metadata.drop 4 := by
  have hg := mesh_good h hb
  refine ⟨hg.once, hg.apart, fun ρ hρ => ?_⟩
  obtain ⟨c, h1, h2⟩ := (hg.kept ρ hρ).from_
  obtain ⟨d, hd, hdst, c2, hc2, hk2, hd2, hm2⟩ := (hg.kept ρ hρ).toward
  obtain ⟨hl, h8, hmd⟩ := job_linked h2 hd
  rw [hmd] at hm2
  refine ⟨c, h1, d, c2, h2.id.symm, hl, hdst, hc2, hk2.trans h2.kind, hd2.trans h2.data, ?_, ?_⟩
  · rw [hm2]; exact routed_index h8 d
  · rw [hm2, List.drop_append]; simp

theorem net_idle {n : Net G} (hi : Spec.MeshCalls.Idle n) (i : Nat) : Props.WasmFinish.Idle (n.sys i) :=
  fun e => ⟨hi.wire i e, hi.tasks i e, hi.jobs i e⟩

/-- **C153** When nothing is under way any more, a module whose call is for a result, and who wants it, was told
exactly one. -/
theorem module_calls_get_results [DecidableEq G] {m : Mesh} {gs : Nat → Handlers G} {n : Net G}
    (h : MeshCalls.Reach (hands m gs) n) (hb : Spec.MeshCalls.Bounded n) (hi : Spec.MeshCalls.Idle n) {i j : Nat} {c : WasmCalls.Call}
    (hc : ((n.sys i).node .guest).calls[j]? = some c) (hk : c.kind = .rr) (ho : ((n.sys i).node .guest).obj j ≠ none) :
    ∃ r, toldCall ((n.sys i).node .guest) j = [r] ∧ Through m gs n i c r := by
  have hg := mesh_good h hb
  have hd := Props.WasmFinish.idle_done (hg.reach i) (hb i) (net_idle hi i) .guest hc
  unfold Spec.WasmCalls.Done at hd
  rw [hk] at hd
  obtain ⟨r, h1, _⟩ := hd ho
  exact ⟨r, h1, (module_calls_get_own_results h hb hc hk).1 r (by rw [h1]; exact List.mem_singleton.mpr rfl)⟩

theorem one_of_count {α : Type} {p : α → Bool} {l : List α} (h : l.countP p = 1) : ∃ x ∈ l, p x = true :=
  List.countP_pos_iff.mp (by omega)

/-- **C153** When nothing is under way any more, a call of a module that is forgotten was passed on exactly once, to the
destination it is linked to, and the code of the destination, if there is such code, was run exactly once for what was passed
on, with the data of the call and its metadata without the routing. -/
theorem module_calls_run [DecidableEq G] {m : Mesh} {gs : Nat → Handlers G} {n : Net G}
    (h : MeshCalls.Reach (hands m gs) n) (hb : Spec.MeshCalls.Bounded n) (hi : Spec.MeshCalls.Idle n) {i j : Nat} {c : WasmCalls.Call}
    (hc : ((n.sys i).node .guest).calls[j]? = some c) (hk : c.kind = .fnf) {d : Dest} (hl : Linked m i c d) :
    ∃ ρ c2, onward n i c.id = [ρ] ∧ ρ.dst = d.instance_ ∧ ((n.sys d.instance_).node .host).calls[ρ.call]? = some c2 ∧
      (gs d.instance_ .fnf d.index ≠ none → handlers c2.id ((n.sys d.instance_).node .guest).jobs = 1 ∧
        ∃ x ∈ ((n.sys d.instance_).node .guest).jobs, x.id = c2.id ∧ RunFor gs d c x) ∧
      (gs d.instance_ .fnf d.index = none → handlers c2.id ((n.sys d.instance_).node .guest).jobs = 0) := by
  have hg := mesh_good h hb
  have hd := Props.WasmFinish.idle_done (hg.reach i) (hb i) (net_idle hi i) .guest hc
  unfold Spec.WasmCalls.Done at hd
  rw [hk] at hd
  obtain ⟨op, hop, hmod⟩ := hl
  have hknown : ¬ Unknown (hands m gs i .host) c := by
    intro hu
    have := Option.map_eq_none_iff.mp (hu op hop)
    rw [hmod] at this; cases this
  obtain ⟨x, hx, hxid⟩ := one_of_count (hd hknown)
  have hxid : x.id = c.id := beq_iff_eq.mp hxid
  have gl := good_reach (hg.reach i) (hb i)
  obtain ⟨c', hc', hsv⟩ := (gl.link .guest).jobs x hx
  have hcc : c' = c := call_unique (gl.loc .guest) (hb i .guest) hc hc' (hsv.id.symm.trans hxid)
  subst hcc
  have hp := hi.passed i x hx (hsv.kind.trans hk)
  obtain ⟨ρ, hρ, hm⟩ := List.any_eq_true.mp hp
  simp only [Bool.and_eq_true, decide_eq_true_eq] at hm
  have hmem : ρ ∈ onward n i c'.id := List.mem_filter.mpr ⟨hρ, by simp [hm.1, hm.2, hxid]⟩
  have hone : onward n i c'.id = [ρ] := by
    have := hg.once i c'.id
    match hq : onward n i c'.id, this with
    | [], _ => rw [hq] at hmem; exact absurd hmem List.not_mem_nil
    | [σ], _ => rw [hq] at hmem; rw [List.mem_singleton.mp hmem]
    | _ :: _ :: _, h => simp at h
  obtain ⟨rfl, hid⟩ := hm
  obtain ⟨c3, h3, hs3⟩ := (hg.kept ρ hρ).from_
  have : c3 = c' := call_unique (gl.loc .guest) (hb _ .guest) hc h3 (by rw [← hs3.id, hid, hxid])
  subst this
  obtain ⟨d', hd', hdst, c2, hc2, hk2, hd2, hm2⟩ := (hg.kept ρ hρ).toward
  obtain ⟨hl', h8, hmd⟩ := job_linked hs3 hd'
  have := linked_unique ⟨op, hop, hmod⟩ hl'
  subst this
  rw [hdst] at hc2
  rw [hmd] at hm2
  have hkk : c2.kind = c3.kind := hk2.trans hs3.kind
  have run := handlers_run_for_calls (hg.reach d.instance_) (hb _) .host
  refine ⟨ρ, c2, hone, hdst, hc2, fun hn => ?_, fun hn => ?_⟩
  · have hk' : ¬ Unknown (hands m gs d.instance_ .guest) c2 := fun hu => hn (by
      have := (not_unknown h8 hkk hm2).mp hu
      rwa [hk] at this)
    have hcnt := (run.2 ρ.call c2 hc2 (hkk.trans hk)).2.1 hk' (by rw [hi.wire]; rfl) (by show Spec.Polite.queued _ ((n.sys d.instance_).node .guest).peer.tasks = 0; rw [hi.tasks]; rfl)
    refine ⟨hcnt, ?_⟩
    obtain ⟨z, hz, hzid⟩ := one_of_count hcnt
    have hzid : z.id = c2.id := beq_iff_eq.mp hzid
    obtain ⟨c4, h4, hs4⟩ := run.1 z hz
    have gl2 := good_reach (hg.reach d.instance_) (hb _)
    have : c4 = c2 := call_unique (gl2.loc .host) (hb _ .host) hc2 h4 (hs4.id.symm.trans hzid)
    subst this
    exact ⟨z, hz, hzid, run_for h8 (.inr hk) hkk (hd2.trans hs3.data) hm2 hs4⟩
  · exact (run.2 ρ.call c2 hc2 (hkk.trans hk)).2.2 ((not_unknown h8 hkk hm2).mpr (by rw [hk]; exact hn))

/-- **C153** Passing a call on does not crash the host: the metadata of a call that has a handler can be written to. -/
theorem passing_on_works [DecidableEq G] {m : Mesh} {gs : Nat → Handlers G} {n : Net G}
    (h : MeshCalls.Reach (hands m gs) n) (hb : Spec.MeshCalls.Bounded n) {i x : Nat} {j : Job (Hand G)} {d : Dest}
    (ht : n.target i x = some (j, d)) (hroom : ((n.sys d.instance_).node .host).calls.length < 2 ^ 30) (ctx : Ctx) :
    ∃ n', n.forward (hands m gs) i j d ctx = .ok (some n') := by
  have hg := mesh_good h hb
  obtain ⟨hj, hjd, hnp⟩ := target_some ht
  have gl := good_reach (hg.reach i) (hb i)
  obtain ⟨c, hc, hsv⟩ := (gl.link .guest).jobs j (List.mem_of_getElem? hj)
  obtain ⟨_, h8, hmd⟩ := job_linked hsv hjd
  have hr : d.route (some j.metadata) = .ok (some (be32 d.index ++ j.metadata.drop 4)) := by
    unfold Dest.route
    simp only
    rw [if_neg (by rw [hmd]; omega)]
  have hcnt := ((good_reach (hg.reach d.instance_) (hb _)).loc .host).counter
  obtain ⟨q, hq⟩ : ∃ q, StreamId.next (sideOf .host) ((n.sys d.instance_).node .host).counter = some q := by
    have hf : StreamId.finish (sideOf .host) (((n.sys d.instance_).node .host).counter + 1) ≠ none := by
      intro hf
      have := Props.StreamId.finish_server_none.mp hf
      have hc : (((n.sys d.instance_).node .host).counter + 1).toNat = ((n.sys d.instance_).node .host).calls.length + 1 := by
        rw [UInt64.toNat_add, hcnt]
        have : (1 : UInt64).toNat = 1 := rfl
        omega
      omega
    obtain ⟨r, hr⟩ := Option.ne_none_iff_exists'.mp hf
    exact ⟨_, by unfold StreamId.next; rw [hr]⟩
  obtain ⟨c', id, b⟩ := q
  unfold Net.forward
  rw [hr]
  simp only [Net.at_, WasmCalls.Sys.step, Node.call, hq, Option.map_some]
  exact ⟨_, rfl⟩

/-! ### A case -/

/-- The instance that takes a step. -/
def steps (n : Net G) : MeshCalls.Act → Option Nat
  | .own i _ => some i
  | .pass i x _ => (n.target i x).map fun t => t.2.instance_
  | .back r _ _ => (n.relays[r]?).map (·.src)

/-- A run of the first `k` instances, given by its steps. -/
def runNet [DecidableEq G] (k : Nat) (hs : Nat → End → Handlers (Hand G)) : Net G → List MeshCalls.Act → Option (Net G)
  | n, [] => some n
  | n, a :: as => if (steps n a).any (· < k) then (n.step hs a).bind fun n' => runNet k hs n' as else none

theorem steps_else [DecidableEq G] {hs : Nat → End → Handlers (Hand G)} {n n' : Net G} {a : MeshCalls.Act} {i k : Nat}
    (ht : steps n a = some i) (h : n.step hs a = some n') (hk : k ≠ i) : n'.sys k = n.sys k := by
  cases a with
  | own j b =>
    cases ht
    simp only [Net.step] at h
    split at h
    · cases h
    · obtain ⟨y, h1, rfl⟩ := at_step h; exact assign_ne _ _ hk
  | pass j x ctx =>
    simp only [Net.step] at h
    split at h
    · cases h
    · rename_i q d hq
      split at h
      · rename_i r hr
        subst h
        obtain ⟨y, _, h1, rfl⟩ := forward_some hr
        simp only [steps, hq, Option.map_some, Option.some.injEq] at ht
        subst ht
        exact assign_ne _ _ hk
      · cases h
  | back r x v =>
    simp only [Net.step] at h
    split at h
    · cases h
    · rename_i ρ hρ
      split at h
      · obtain ⟨y, h1, rfl⟩ := at_step h
        simp only [steps, hρ, Option.map_some, Option.some.injEq] at ht
        subst ht
        exact assign_ne _ _ hk
      · cases h

theorem runNet_reach [DecidableEq G] {k : Nat} {hs : Nat → End → Handlers (Hand G)} {n n' : Net G} {as : List MeshCalls.Act}
    (hr : MeshCalls.Reach hs n) (hn : ∀ i, k ≤ i → n.sys i = Sys.init) (h : runNet k hs n as = some n') :
    MeshCalls.Reach hs n' ∧ ∀ i, k ≤ i → n'.sys i = Sys.init := by
  induction as generalizing n with
  | nil => cases h; exact ⟨hr, hn⟩
  | cons a as ih =>
    simp only [runNet] at h
    split at h
    · rename_i hk
      obtain ⟨i, hi, hik⟩ := (Option.any_eq_true _ _).mp hk
      obtain ⟨n1, h1, h2⟩ := Option.bind_eq_some_iff.mp h
      refine ih (.step a hr h1) (fun l hl => ?_) h2
      have hik := of_decide_eq_true hik
      rw [steps_else hi h1 (by omega)]; exact hn l hl
    · cases h

theorem run_ends [DecidableEq G] {k : Nat} {hs : Nat → End → Handlers (Hand G)} {as : List MeshCalls.Act} {P : Net G → Prop} [DecidablePred P]
    (h : ((runNet k hs Net.init as).any fun n => decide (P n)) = true) :
    ∃ n, MeshCalls.Reach hs n ∧ (∀ i, k ≤ i → n.sys i = Sys.init) ∧ P n := by
  obtain ⟨n, h1, h2⟩ := (Option.any_eq_true _ _).mp h
  obtain ⟨h3, h4⟩ := runNet_reach .init (fun _ _ => rfl) h1
  exact ⟨n, h3, h4, of_decide_eq_true h2⟩

/-- Two modules: the first exports two operations of each of two kinds, the second imports the second ones. -/
def pair : Mesh :=
  match Mesh.new.loadModules 0 [([1], [⟨0, 1, 1, [110], [9]⟩, ⟨1, 1, 1, [110], [7]⟩, ⟨0, 2, 1, [110], [6]⟩, ⟨1, 2, 1, [110], [5]⟩]),
    ([2], [⟨0, 1, 2, [110], [7]⟩, ⟨0, 2, 2, [110], [5]⟩])] with
  | .ok m => m
  | _ => Mesh.new

/-- The code of the first module. -/
def code : Nat → Handlers Nat
  | 0 => fun k op => if op < 2 then some (10 * k.code.toNat + op.toNat) else none
  | _ => fun _ _ => none

/-- The second module makes a call for a result, and one that is forgotten, and one of an operation it does not import. -/
def calls : List MeshCalls.Act :=
  [.own 1 (.call .guest .rr [5] (opMd 0 ++ [77]) .background), .own 1 (.call .guest .fnf [6] (opMd 0) .background),
   .own 1 (.call .guest .rr [7] (opMd 3) .background), .own 1 (.subscribe .guest 0), .own 1 (.subscribe .guest 2),
   .own 1 (.recv .host (ask 3 21 0 6)), .own 1 (.recv .host ([0, 0, 0, 1, 17, 32, 0, 0, 9] ++ opMd 0 ++ [77, 5])),
   .own 1 (.recv .host (ask 5 17 3 7)),
   .own 1 (.task .host 1 true), .own 1 (.task .host 0 true), .own 1 (.task .host 0 true),
   .pass 1 1 .background, .pass 1 0 .background, .own 0 (.subscribe .host 1),
   .own 0 (.recv .guest (ask 2 21 1 6)), .own 0 (.task .guest 0 true),
   .own 0 (.recv .guest ([0, 0, 0, 4, 17, 32, 0, 0, 9] ++ opMd 1 ++ [77, 5])), .own 0 (.task .guest 0 true),
   .own 0 (.answer .guest 1 (.value [9] [])), .own 0 (.recv .host [0, 0, 0, 4, 40, 96, 9]), .back 1 0 (.value [9] []),
   .own 1 (.recv .guest [0, 0, 0, 5, 44, 0, 0, 0, 0, 0, 110, 111, 116, 95, 102, 111, 117, 110, 100]),
   .own 1 (.recv .guest [0, 0, 0, 1, 40, 96, 9])]

/-- The theorems say something: everything is done with in the end. -/
example : ∃ n : Net Nat, MeshCalls.Reach (hands pair code) n ∧ Spec.MeshCalls.Bounded n ∧ Spec.MeshCalls.Idle n ∧
    ((n.sys 1).node .guest).calls.map (·.kind) = [.rr, .fnf, .rr] ∧
    pair.moduleCall 1 .rr 0 = some ⟨0, 1⟩ ∧ pair.moduleCall 1 .fnf 0 = some ⟨0, 1⟩ ∧
    toldCall ((n.sys 1).node .guest) 0 = [.value [9] []] ∧
    toldCall ((n.sys 1).node .guest) 2 = [.failure [110, 111, 116, 95, 102, 111, 117, 110, 100]] ∧
    ((n.sys 0).node .guest).made = [(⟨.rr, .code 11, 4, [5], [77]⟩, .value [9] [])] ∧
    ((n.sys 0).node .guest).jobs = [⟨.fnf, .code 21, 2, [6], []⟩] ∧ n.relays.length = 2 := by
  have : ∃ n : Net Nat, MeshCalls.Reach (hands pair code) n ∧ (∀ i, 2 ≤ i → n.sys i = Sys.init) ∧
      (∀ i ∈ [0, 1], ∀ e ∈ [End.host, End.guest], ((n.sys i).node e).calls.length ≤ 2 ^ 30 ∧ (n.sys i).wire e = [] ∧
        ((n.sys i).node e).peer.tasks.length = 0 ∧ (∀ x ∈ ((n.sys i).node e).jobs, x.kind ≠ .rr) ∧
        ∀ x ∈ ((n.sys i).node .host).jobs, x.kind = .fnf → n.passed i x = true) ∧
      ((n.sys 1).node .guest).calls.map (·.kind) = [.rr, .fnf, .rr] ∧
      pair.moduleCall 1 .rr 0 = some ⟨0, 1⟩ ∧ pair.moduleCall 1 .fnf 0 = some ⟨0, 1⟩ ∧
      toldCall ((n.sys 1).node .guest) 0 = [.value [9] []] ∧
      toldCall ((n.sys 1).node .guest) 2 = [.failure [110, 111, 116, 95, 102, 111, 117, 110, 100]] ∧
      ((n.sys 0).node .guest).made = [(⟨.rr, .code 11, 4, [5], [77]⟩, .value [9] [])] ∧
      ((n.sys 0).node .guest).jobs = [⟨.fnf, .code 21, 2, [6], []⟩] ∧ n.relays.length = 2 :=
    run_ends (as := calls) (by decide +kernel)
  obtain ⟨n, h1, h2, h3, h4⟩ := this
  have key : ∀ i e, ((n.sys i).node e).calls.length ≤ 2 ^ 30 ∧ (n.sys i).wire e = [] ∧
        ((n.sys i).node e).peer.tasks.length = 0 ∧ (∀ x ∈ ((n.sys i).node e).jobs, x.kind ≠ .rr) ∧
        ∀ x ∈ ((n.sys i).node .host).jobs, x.kind = .fnf → n.passed i x = true := by
    intro i e
    by_cases hi : i < 2
    · exact h3 i (by simp; omega) e (by cases e <;> simp)
    · rw [h2 i (by omega)]
      exact ⟨Nat.zero_le _, rfl, rfl, fun x hx => absurd hx List.not_mem_nil, fun x hx => absurd hx List.not_mem_nil⟩
  exact ⟨n, h1, fun i e => (key i e).1, ⟨fun i e => (key i e).2.1, fun i e => List.length_eq_zero_iff.mp (key i e).2.2.1,
    fun i e => (key i e).2.2.2.1, fun i => (key i .host).2.2.2.2⟩, h4⟩

end Iota.Props.MeshCalls
