import Verif.Spec.MeshFinish
import Verif.Props.MeshCalls
import Verif.Props.WasmFinish
import Verif.Props.Mesh

/-! # Calls between the modules of a mesh finish (C166) -/

namespace Iota.Props.MeshFinish
open Iota.Go Iota.Frames Iota.Registry Iota.WasmDispatch Iota.WasmCalls Iota.Spec.Handler Iota.Spec.WasmCalls Iota.Mesh Iota.MeshCalls
open Iota.Spec.MeshCalls (Linked RunFor Through onward)
open Iota.Spec.MeshFinish
open Iota.Operations (Operation Table)
open Iota.Handler hiding Act
open Iota.Peers (Result requestFrame answerFrame isRequest)
open Iota.Props.WasmCalls (Plain put_node put_other other_other other_ne eq_or_other answerFrame_not)
open Iota.Props.MeshCalls (assign_same assign_ne at_step mesh_good target_some forward_some)

/-! ## One instance -/

section One
variable {H : Type} {u : Job H → Bool}

theorem work_at (y : WasmCalls.Sys H) (e : End) :
    sysWork u y = nodeWork u e (y.node e) + nodeWork u (other e) (y.node (other e)) + wireWork e (y.wire e) + wireWork (other e) (y.wire (other e)) := by
  cases e <;> simp only [sysWork, other] <;> omega

theorem work_put (y : WasmCalls.Sys H) (e : End) (n : Node H) (out : List Frame) (r : Bool) :
    sysWork u (y.put e n out r) = nodeWork u e n + nodeWork u (other e) (y.node (other e)) + (wireWork e (y.wire e) + wireWork e out) +
      wireWork (other e) (if r then (y.wire (other e)).tail else y.wire (other e)) := by
  rw [work_at _ e]
  simp [WasmCalls.Sys.put, other_ne, wireWork]

theorem wire_head {e : End} {l : List Frame} {f : Frame} (h : l.head? = some f) : wireWork e l = frameWork e f + wireWork e l.tail := by
  cases l with
  | nil => cases h
  | cons a l => cases h; simp [wireWork]

theorem count_erase {α : Type} {p : α → Bool} {l : List α} {i : Nat} : (l.eraseIdx i).countP p ≤ l.countP p :=
  (List.eraseIdx_sublist l i).countP_le

/-- Whatever is done at an instance leaves less to do. -/
theorem sys_down {hs : End → Handlers H} {y y' : WasmCalls.Sys H} {a : WasmCalls.Act} (hg : Props.WasmCalls.Good hs y) (hb : Spec.WasmCalls.Bounded y)
    (hsim : Spec.WasmCalls.Simple y) (hp : ∀ e, Plain (y.node e)) (ha : Spec.WasmCalls.Goes a) (h : y.step hs a = some y') :
    sysWork u y' < sysWork u y := by
  cases a with
  | recv e data =>
    obtain ⟨f, p, h1, rfl, h2⟩ := Props.WasmFinish.recv_simple hg hb hsim hp h
    rw [work_put, work_at y e, if_pos rfl, wire_head h1]
    have hw : wireWork e [] = 0 := rfl
    rcases h2 with ⟨hf, ht⟩ | ⟨hf, ht⟩
    · simp only [nodeWork, ht, frameWork, hf, if_true, hw, other_other, Nat.mul_add]; omega
    · have hq : frameWork (other e) f = 1 := by simp [frameWork, hf]
      simp only [nodeWork, ht, hq, hw]; omega
  | task e i live =>
    obtain ⟨hi, p, ht, h2⟩ := Props.WasmFinish.task_simple hg hsim hp h
    have hl : (y.node e).peer.tasks.length = p.tasks.length + 1 := by
      rw [ht, List.length_eraseIdx_of_lt hi]; omega
    rcases h2 with ⟨id, msg, _, rfl⟩ | ⟨x, rfl⟩
    · have hw : wireWork e [errorFrame id msg] = 1 := rfl
      rw [work_put, work_at y e, hw]
      have : 3 ≤ taskWork e := by cases e <;> decide
      simp only [nodeWork, hl, Nat.mul_add]; simp; omega
    · have hw : wireWork e [] = 0 := rfl
      rw [work_put, work_at y e, hw]
      have hx : List.countP (fun j : WasmCalls.Job H => decide (j.kind = .rr)) [x] ≤ 1 := List.countP_le_length
      have hx2 : List.countP u [x] ≤ 1 := List.countP_le_length
      simp only [nodeWork, hl, Nat.mul_add, List.countP_append]
      cases e <;> simp [taskWork] at hx hx2 ⊢ <;> omega
  | answer e i r =>
    obtain ⟨x, h1, hk, rfl⟩ := Props.WasmFinish.answer_simple h
    have hw : wireWork e [answerFrame x.id r] = 1 := by simp [wireWork, frameWork, answerFrame_not]
    rw [work_put, work_at y e, hw]
    have h2 := Props.WasmFinish.countP_erase (p := fun j : WasmCalls.Job H => decide (j.kind = .rr)) h1 (by simp [hk])
    have h3 : ((y.node e).jobs.eraseIdx i).countP u ≤ (y.node e).jobs.countP u := count_erase
    simp only [nodeWork, h2]
    cases e <;> simp <;> omega
  | _ => exact absurd ha (by simp [Spec.WasmCalls.Goes])

theorem goes_obj {hs : End → Handlers H} {y y' : WasmCalls.Sys H} {a : WasmCalls.Act} (ha : Spec.WasmCalls.Goes a)
    (h : y.step hs a = some y') (t : End) : (y'.node t).obj = (y.node t).obj := by
  have key : ∀ (e : End) (n : Node H) (out : List Frame) (r : Bool), n.obj = (y.node e).obj →
      ((y.put e n out r).node t).obj = (y.node t).obj := by
    intro e n out r hn
    rcases eq_or_other e t with rfl | rfl
    · rw [put_node]; exact hn
    · rw [put_other]
  cases a with
  | recv e data =>
    simp only [WasmCalls.Sys.step, Option.bind_eq_some_iff] at h
    obtain ⟨f, h1, h2⟩ := h
    split at h2
    · unfold WasmCalls.Sys.does at h2
      split at h2
      · cases h2; exact key _ _ _ _ rfl
      · cases h2
    · cases h2
  | task e i live =>
    simp only [WasmCalls.Sys.step, WasmCalls.Sys.does] at h
    split at h
    · cases h; exact key _ _ _ _ rfl
    · cases h
  | answer e i r =>
    obtain ⟨x, _, _, rfl⟩ := Props.WasmFinish.answer_simple h
    exact key _ _ _ _ rfl
  | _ => exact absurd ha (by simp [Spec.WasmCalls.Goes])

/-- There is nothing to do at a new instance. -/
theorem init_stuck {hs : End → Handlers H} {a : WasmCalls.Act} (ha : Spec.WasmCalls.Goes a) :
    (WasmCalls.Sys.init : WasmCalls.Sys H).step hs a = none := by
  cases a with
  | recv e data => rfl
  | task e i live => rfl
  | answer e i r => rfl
  | _ => exact absurd ha (by simp [Spec.WasmCalls.Goes])

end One

/-! ## Sums -/

theorem total_change {f f' : Nat → Nat} {i : Nat} (h : ∀ k, k ≠ i → f' k = f k) :
    ∀ {N : Nat}, i < N → total f' N + f i = total f N + f' i
  | 0, hi => by omega
  | N + 1, hi => by
    by_cases hN : i = N
    · subst hN
      have : ∀ M, M ≤ i → total f' M = total f M := by
        intro M
        induction M with
        | zero => intro _; rfl
        | succ M ih => intro hM; simp only [total, ih (by omega), h M (by omega)]
      simp only [total, this i (Nat.le_refl _)]; omega
    · have := total_change h (N := N) (by omega)
      simp only [total, h N (Ne.symm hN)]; omega

theorem total_congr {f f' : Nat → Nat} (h : ∀ k, f' k = f k) (N : Nat) : total f' N = total f N := by
  rw [show f' = f from funext h]

theorem countP_lt {α : Type} {p q : α → Bool} {x : α} : ∀ {l : List α}, (∀ a ∈ l, p a = true → q a = true) → x ∈ l → p x = false → q x = true →
    l.countP p < l.countP q
  | [], _, hx, _, _ => absurd hx List.not_mem_nil
  | a :: l, h, hx, hp, hq => by
    have hle : l.countP p ≤ l.countP q := List.countP_mono_left fun b hb => h b (List.mem_cons_of_mem _ hb)
    rcases List.mem_cons.mp hx with rfl | hx
    · simp only [List.countP_cons, hp, hq]; simp; omega
    · have := countP_lt (fun b hb => h b (List.mem_cons_of_mem _ hb)) hx hp hq
      simp only [List.countP_cons]
      by_cases ha : p a = true
      · simp only [ha, h a List.mem_cons_self ha]; omega
      · simp only [ha]; simp; omega

variable {G H : Type}

/-! ## A mesh -/

/-- A step of one instance that subscribes to nothing. -/
theorem own_down {n : Net G} {N i : Nat} {y : WasmCalls.Sys (Hand G)} (hi : i < N)
    (hw : ∀ u : Job (Hand G) → Bool, sysWork u y < sysWork u (n.sys i)) (ho : (y.node .host).obj = ((n.sys i).node .host).obj) :
    work N (⟨assign n.sys i y, n.relays⟩ : Net G) < work N n := by
  have hu : unheard (⟨assign n.sys i y, n.relays⟩ : Net G) = unheard n := by
    unfold unheard
    refine congrArg (fun p => List.countP p n.relays) (funext fun ρ => ?_)
    by_cases h : ρ.dst = i
    · subst h; simp only [assign_same, ho]
    · simp only [assign_ne _ _ h]
  have ht := total_change (f := fun k => sysWork (fun j => !n.passed k j) (n.sys k))
    (f' := fun k => sysWork (fun j => !n.passed k j) (assign n.sys i y k)) (i := i)
    (fun k hk => by simp only [assign_ne _ _ hk]) hi
  simp only [assign_same] at ht
  have := hw fun j => !n.passed i j
  show total (fun k => sysWork (fun j => !n.passed k j) (assign n.sys i y k)) N + 5 * unheard (⟨assign n.sys i y, n.relays⟩ : Net G) < _
  rw [hu]
  unfold work
  omega

/-- What holds while a mesh goes on. -/
structure Fine (N : Nat) (m : Mesh) (gs : Nat → Handlers G) (n : Net G) : Prop where
  good : Props.MeshCalls.Good m gs n
  bounded : Spec.MeshCalls.Bounded n
  simple : Spec.MeshFinish.Simple n
  within : Within N m n

theorem Fine.sys {N : Nat} {m : Mesh} {gs : Nat → Handlers G} {n : Net G} (h : Fine N m gs n) (i : Nat) :
    Props.WasmCalls.Good (hands m gs i) (n.sys i) ∧ ∀ e, Plain ((n.sys i).node e) :=
  ⟨Props.WasmCalls.good_reach (h.good.reach i) (h.bounded i), Props.WasmCalls.plain_reach (h.good.reach i) (h.bounded i) (h.simple i)⟩

/-- An instance with calls or work is one of the modules. -/
theorem Fine.lt {N : Nat} {m : Mesh} {gs : Nat → Handlers G} {n : Net G} (h : Fine N m gs n) {i : Nat}
    (hi : n.sys i ≠ WasmCalls.Sys.init) : i < N := Nat.lt_of_not_le fun hle => hi (h.within.new i hle)

/-- The work of a host is a method of a destination. -/
theorem host_job {N : Nat} {m : Mesh} {gs : Nat → Handlers G} {n : Net G} (h : Fine N m gs n) {i : Nat} {j : Job (Hand G)}
    (hj : j ∈ ((n.sys i).node .host).jobs) : ∃ c ∈ ((n.sys i).node .guest).calls, ∃ d, j.handler = .relay d ∧ d.instance_ < N ∧
      Serves .host (hands m gs i .host) c j := by
  obtain ⟨c, hc, hsv⟩ := ((h.sys i).1.link .guest).jobs j hj
  obtain ⟨op, _, hop⟩ := hsv.handler
  obtain ⟨d, hd, he⟩ := Option.map_eq_some_iff.mp hop
  exact ⟨c, hc, d, he.symm, h.within.linked _ _ _ _ hd, hsv⟩

/-- What a step that goes on comes to: less to do, and at most one more call of an end, of a kind that was there. -/
structure Ahead (N : Nat) (n n' : Net G) : Prop where
  down : work N n' < work N n
  calls : ∀ i e, ((n'.sys i).node e).calls.length ≤ ((n.sys i).node e).calls.length + 1
  simple : Spec.MeshFinish.Simple n'
  new : ∀ i, N ≤ i → n'.sys i = n.sys i

theorem ahead_own {N : Nat} {m : Mesh} {gs : Nat → Handlers G} {n : Net G} (h : Fine N m gs n) {i : Nat} {a : WasmCalls.Act}
    {y : WasmCalls.Sys (Hand G)} (ha : Spec.WasmCalls.Goes a) (hs : (n.sys i).step (hands m gs i) a = some y) :
    Ahead N n ⟨assign n.sys i y, n.relays⟩ := by
  have hi : i < N := h.lt fun he => by rw [he, init_stuck ha] at hs; cases hs
  have hc := Props.WasmFinish.goes_calls ha hs
  refine ⟨own_down hi (fun u => sys_down (h.sys i).1 (h.bounded i) (h.simple i) (h.sys i).2 ha hs) (goes_obj ha hs _), ?_, ?_, ?_⟩
  · intro k e
    show ((assign n.sys i y k).node e).calls.length ≤ _
    by_cases hk : k = i
    · subst hk; rw [assign_same, hc]; omega
    · rw [assign_ne _ _ hk]; omega
  · intro k e c hcc
    have hcc : c ∈ ((assign n.sys i y k).node e).calls := hcc
    by_cases hk : k = i
    · subst hk; rw [assign_same, hc] at hcc; exact h.simple k e c hcc
    · rw [assign_ne _ _ hk] at hcc; exact h.simple k e c hcc
  · intro k hk
    exact assign_ne _ _ (by omega)

theorem subscribe_simple {e : End} {hs : Handlers H} {n n' : Node H} {j : Nat} {out : List Frame} {c : WasmCalls.Call}
    (hc : n.calls[j]? = some c) (hk : c.kind = .rr ∨ c.kind = .fnf) (h : n.subscribe e hs j = some (n', out)) :
    c.kind = .rr ∧ n.obj j = none ∧ n'.calls = n.calls ∧ n'.jobs = n.jobs ∧ n'.made = n.made ∧ n'.peer.tasks = n.peer.tasks ∧
      n'.obj = (fun i => if i = j then some n.peer.st.objs.length else n.obj i) ∧
      out = [.request (requestFrame c.kind c.id c.data c.metadata)] := by
  rcases hk with hk | hk
  · obtain ⟨c', o, h1, h2, rfl, _, h3⟩ := Props.WasmCalls.subscribe_shape h
    cases hc.symm.trans h1
    rcases h3 with ⟨_, _, h3⟩ | ⟨h3, _⟩
    · exact ⟨hk, h2, rfl, rfl, rfl, rfl, rfl, h3⟩
    · exact absurd hk h3
  · unfold Node.subscribe at h
    rw [hc] at h
    split at h
    · rename_i c' hc' _
      cases hc'
      have : openAct c = none := by unfold openAct; rw [hk]
      rw [this] at h
      cases h
    · cases h

theorem ahead_subscribe {N : Nat} {m : Mesh} {gs : Nat → Handlers G} {n : Net G} (h : Fine N m gs n) {i j : Nat}
    {y : WasmCalls.Sys (Hand G)} (hr : ∃ ρ ∈ n.relays, ρ.dst = i ∧ ρ.call = j)
    (hs : (n.sys i).step (hands m gs i) (.subscribe .host j) = some y) :
    Ahead N n ⟨assign n.sys i y, n.relays⟩ := by
  obtain ⟨ρ, hρ, rfl, rfl⟩ := hr
  obtain ⟨d, hd, hdst, c, hc, hk, hdat, hm⟩ := (h.good.kept ρ hρ).toward
  simp only [WasmCalls.Sys.step, Option.map_eq_some_iff] at hs
  obtain ⟨⟨n1, out⟩, h1, rfl⟩ := hs
  obtain ⟨hrr, hno, e1, e2, e3, e4, e5, rfl⟩ := subscribe_simple hc (h.simple ρ.dst .host c (List.mem_of_getElem? hc)) h1
  dsimp only
  have hi : ρ.dst < N := h.lt fun he => by rw [he] at hc; simp [WasmCalls.Sys.init, Node.init] at hc
  have hcalls : ∀ t, (((n.sys ρ.dst).put .host n1 [.request (requestFrame c.kind c.id c.data c.metadata)] false).node t).calls =
      ((n.sys ρ.dst).node t).calls := by
    intro t
    cases t
    · rw [put_node]; exact e1
    · rfl
  have hreq : wireWork .host [.request (requestFrame c.kind c.id c.data c.metadata)] = 4 := rfl
  have hwork : ∀ u : Job (Hand G) → Bool,
      sysWork u ((n.sys ρ.dst).put .host n1 [.request (requestFrame c.kind c.id c.data c.metadata)] false) = sysWork u (n.sys ρ.dst) + 4 := by
    intro u
    rw [work_put, work_at (n.sys ρ.dst) .host, hreq]
    simp only [nodeWork, e2, e4]; simp; omega
  refine ⟨?_, ?_, ?_, fun k hk => assign_ne _ _ (by omega)⟩
  · have hu : unheard (⟨assign n.sys ρ.dst ((n.sys ρ.dst).put .host n1 [.request (requestFrame c.kind c.id c.data c.metadata)] false),
        n.relays⟩ : Net G) < unheard n := by
      unfold unheard
      refine countP_lt (x := ρ) ?_ hρ ?_ ?_
      · intro σ _ hσ
        simp only [Bool.and_eq_true, decide_eq_true_eq] at hσ ⊢
        refine ⟨hσ.1, ?_⟩
        have h2 := hσ.2
        by_cases hd : σ.dst = ρ.dst
        · rw [hd, assign_same, put_node, e5] at h2
          rw [hd]
          dsimp only at h2
          split at h2
          · cases h2
          · exact h2
        · rwa [assign_ne _ _ hd] at h2
      · simp only [assign_same, put_node, e5]; simp
      · simp [hno, ← hk, hrr]
    have ht := total_change (f := fun k => sysWork (fun j => !n.passed k j) (n.sys k))
      (f' := fun k => sysWork (fun j => !n.passed k j) (assign n.sys ρ.dst ((n.sys ρ.dst).put .host n1 [.request (requestFrame c.kind c.id c.data c.metadata)] false) k)) (i := ρ.dst)
      (fun k hk => by simp only [assign_ne _ _ hk]) hi
    simp only [assign_same, hwork] at ht
    show total (fun k => sysWork (fun j => !n.passed k j) (assign n.sys ρ.dst _ k)) N + 5 * unheard (⟨assign n.sys ρ.dst _, n.relays⟩ : Net G) < _
    unfold work
    omega
  · intro k e
    show ((assign n.sys ρ.dst _ k).node e).calls.length ≤ _
    by_cases hk : k = ρ.dst
    · subst hk; rw [assign_same, hcalls]; omega
    · rw [assign_ne _ _ hk]; omega
  · intro k e c' hcc
    have hcc : c' ∈ ((assign n.sys ρ.dst _ k).node e).calls := hcc
    by_cases hk : k = ρ.dst
    · subst hk; rw [assign_same, hcalls] at hcc; exact h.simple _ e c' hcc
    · rw [assign_ne _ _ hk] at hcc; exact h.simple k e c' hcc

theorem call_shape {hs : End → Handlers H} {y y' : WasmCalls.Sys H} {e : End} {k : Kind} {d m : Bytes} {ctx : Ctx}
    (h : y.step hs (.call e k d m ctx) = some y') :
    ∃ (id : UInt32) (n : Node H), y' = y.put e n (if k = .fnf then [.request (requestFrame k id d m)] else []) false ∧
      n.calls = (y.node e).calls ++ [⟨k, id, d, m, ctx⟩] ∧ n.peer = (y.node e).peer ∧ n.obj = (y.node e).obj ∧
      n.jobs = (y.node e).jobs ∧ n.made = (y.node e).made := by
  simp only [WasmCalls.Sys.step, Option.map_eq_some_iff] at h
  obtain ⟨⟨n, out⟩, h1, rfl⟩ := h
  unfold Node.call at h1
  split at h1
  · cases h1
  · rename_i c id b hq
    cases h1
    exact ⟨id, _, rfl, rfl, rfl, rfl, rfl, rfl⟩

theorem passed_snoc (n : Net G) (s : Nat → WasmCalls.Sys (Hand G)) (i : Nat) (j : Job (Hand G)) (q l k : Nat) (x : Job (Hand G)) :
    (⟨s, n.relays ++ [⟨i, j, q, l⟩]⟩ : Net G).passed k x = (n.passed k x || (decide (i = k) && decide (j.id = x.id))) := by
  unfold Net.passed
  rw [List.any_append]; simp

theorem ahead_pass {N : Nat} {m : Mesh} {gs : Nat → Handlers G} {n n' : Net G} (h : Fine N m gs n) {i x : Nat} {j : Job (Hand G)}
    {d : Dest} {ctx : Ctx} (ht : n.target i x = some (j, d)) (hf : n.forward (hands m gs) i j d ctx = .ok (some n')) :
    Ahead N n n' := by
  obtain ⟨hj, hjd, hnp⟩ := target_some ht
  obtain ⟨y, h4, h1, rfl⟩ := forward_some hf
  have hjm := List.mem_of_getElem? hj
  obtain ⟨c, hc, d', hd', hdN, hsv⟩ := host_job h hjm
  cases hjd.symm.trans hd'
  have hkind : j.kind = .rr ∨ j.kind = .fnf := by rw [hsv.kind]; exact h.simple i .guest c hc
  obtain ⟨id, nd, rfl, e1, e2, e3, e4, e5⟩ := call_shape h1
  have hi : i < N := h.lt fun he => by rw [he] at hj; simp [WasmCalls.Sys.init, Node.init] at hj
  -- first what was passed on is noted
  let n1 : Net G := ⟨n.sys, n.relays ++ [⟨i, j, d.instance_, ((n.sys d.instance_).node .host).calls.length⟩]⟩
  have hstep1 : total (fun k => sysWork (fun x => !n1.passed k x) (n.sys k)) N + 6 ≤
      total (fun k => sysWork (fun x => !n.passed k x) (n.sys k)) N := by
    have ht := total_change (f := fun k => sysWork (fun x => !n.passed k x) (n.sys k))
      (f' := fun k => sysWork (fun x => !n1.passed k x) (n.sys k)) (i := i) (fun k hk => by
        refine congrArg (fun u => sysWork u (n.sys k)) (funext fun x => ?_)
        rw [passed_snoc]; simp [Ne.symm hk]) hi
    have : sysWork (fun x => !n1.passed i x) (n.sys i) + 6 ≤ sysWork (fun x => !n.passed i x) (n.sys i) := by
      have hlt : ((n.sys i).node .host).jobs.countP (fun x => !n1.passed i x) < ((n.sys i).node .host).jobs.countP (fun x => !n.passed i x) := by
        refine countP_lt (x := j) ?_ hjm ?_ ?_
        · intro z _ hz
          rw [passed_snoc] at hz
          simp at hz ⊢; exact hz.1
        · rw [passed_snoc]; simp
        · simp [hnp]
      simp only [sysWork, nodeWork]; simp; omega
    omega
  -- then the call is made
  have hstep2 : total (fun k => sysWork (fun x => !n1.passed k x) (assign n.sys d.instance_ ((n.sys d.instance_).put .host nd
      (if j.kind = .fnf then [.request (requestFrame j.kind id j.data (be32 d.index ++ j.metadata.drop 4))] else []) false) k)) N =
      total (fun k => sysWork (fun x => !n1.passed k x) (n.sys k)) N + (if j.kind = .fnf then 4 else 0) := by
    have ht := total_change (f := fun k => sysWork (fun x => !n1.passed k x) (n.sys k))
      (f' := fun k => sysWork (fun x => !n1.passed k x) (assign n.sys d.instance_ ((n.sys d.instance_).put .host nd
      (if j.kind = .fnf then [.request (requestFrame j.kind id j.data (be32 d.index ++ j.metadata.drop 4))] else []) false) k))
      (i := d.instance_) (fun k hk => by simp only [assign_ne _ _ hk]) hdN
    have hw : wireWork .host (if j.kind = .fnf then [.request (requestFrame j.kind id j.data (be32 d.index ++ j.metadata.drop 4))] else []) =
        if j.kind = .fnf then 4 else 0 := by split <;> rfl
    have : ∀ u : Job (Hand G) → Bool, sysWork u ((n.sys d.instance_).put .host nd
      (if j.kind = .fnf then [.request (requestFrame j.kind id j.data (be32 d.index ++ j.metadata.drop 4))] else []) false) =
        sysWork u (n.sys d.instance_) + (if j.kind = .fnf then 4 else 0) := by
      intro u
      rw [work_put, work_at (n.sys d.instance_) .host, hw]
      simp only [nodeWork, e2, e4]; simp; omega
    simp only [assign_same, this] at ht
    omega
  have hcalls : ∀ k t, ((assign n.sys d.instance_ ((n.sys d.instance_).put .host nd
      (if j.kind = .fnf then [.request (requestFrame j.kind id j.data (be32 d.index ++ j.metadata.drop 4))] else []) false) k).node t).calls =
      ((n.sys k).node t).calls ∨ ((assign n.sys d.instance_ ((n.sys d.instance_).put .host nd
      (if j.kind = .fnf then [.request (requestFrame j.kind id j.data (be32 d.index ++ j.metadata.drop 4))] else []) false) k).node t).calls =
      ((n.sys k).node t).calls ++ [⟨j.kind, id, j.data, be32 d.index ++ j.metadata.drop 4, ctx⟩] := by
    intro k t
    by_cases hk : k = d.instance_
    · subst hk
      rw [assign_same]
      cases t
      · right; rw [put_node]; exact e1
      · left; rfl
    · left; rw [assign_ne _ _ hk]
  refine ⟨?_, ?_, ?_, fun k hk => assign_ne _ _ (by omega)⟩
  · have hu : unheard (⟨assign n.sys d.instance_ ((n.sys d.instance_).put .host nd
      (if j.kind = .fnf then [.request (requestFrame j.kind id j.data (be32 d.index ++ j.metadata.drop 4))] else []) false), n1.relays⟩ : Net G) ≤
        unheard n + (if j.kind = .fnf then 0 else 1) := by
      unfold unheard
      show List.countP _ (n.relays ++ _) ≤ _
      rw [List.countP_append]
      refine Nat.add_le_add (Nat.le_of_eq (congrArg (fun p => List.countP p n.relays) (funext fun σ => ?_))) ?_
      · by_cases hd : σ.dst = d.instance_
        · simp only [hd, assign_same, put_node, e3]
        · simp only [assign_ne _ _ hd]
      · split
        · rename_i hk
          simp [hk]
        · exact List.countP_le_length
    show total (fun k => sysWork (fun x => !n1.passed k x) _) N + 5 * unheard (⟨_, n1.relays⟩ : Net G) < _
    rw [hstep2]
    unfold work
    split at hu <;> rename_i hk <;> simp only [hk, if_true, if_false] at hu ⊢ <;> omega
  · intro k e
    show ((assign n.sys d.instance_ _ k).node e).calls.length ≤ _
    rcases hcalls k e with hq | hq <;> rw [hq]
    · omega
    · simp
  · intro k e c' hcc
    have hcc : c' ∈ ((assign n.sys d.instance_ _ k).node e).calls := hcc
    rcases hcalls k e with hq | hq <;> rw [hq] at hcc
    · exact h.simple k e c' hcc
    · rcases List.mem_append.mp hcc with hcc | hcc
      · exact h.simple k e c' hcc
      · cases List.mem_singleton.mp hcc; exact hkind

/-- Every step that goes on leaves less to do. -/
theorem goes_ahead [DecidableEq G] {N : Nat} {m : Mesh} {gs : Nat → Handlers G} {n n' : Net G} {a : MeshCalls.Act} (h : Fine N m gs n)
    (ha : Spec.MeshFinish.Goes n a) (hs : n.step (hands m gs) a = some n') : Ahead N n n' := by
  cases a with
  | own i b =>
    simp only [Net.step] at hs
    split at hs
    · cases hs
    · obtain ⟨y, h1, rfl⟩ := at_step hs
      cases b with
      | recv e data => exact ahead_own h (a := .recv e data) trivial h1
      | task e i live => exact ahead_own h (a := .task e i live) trivial h1
      | answer e i r => exact ahead_own h (a := .answer e i r) trivial h1
      | subscribe e j =>
        cases e with
        | host => exact ahead_subscribe h ha h1
        | guest => exact absurd ha (by simp [Spec.MeshFinish.Goes])
      | _ => exact absurd ha (by simp [Spec.MeshFinish.Goes])
  | pass i x ctx =>
    simp only [Net.step] at hs
    split at hs
    · cases hs
    · rename_i j d ht
      split at hs
      · rename_i r hr
        subst hs
        exact ahead_pass h ht hr
      · cases hs
  | back r x v =>
    simp only [Net.step] at hs
    split at hs
    · cases hs
    · split at hs
      · obtain ⟨y, h1, rfl⟩ := at_step hs
        exact ahead_own h (a := .answer .host x v) trivial h1
      · cases hs

/-! ## Something can be done -/

theorem small_assign {n : Net G} (h : Spec.MeshFinish.Small n) {i : Nat} {y : WasmCalls.Sys (Hand G)} {rs : List (Relay G)}
    (hy : Spec.WasmCalls.Small y) : Spec.MeshFinish.Small (⟨assign n.sys i y, rs⟩ : Net G) := by
  intro k
  show Spec.WasmCalls.Small (assign n.sys i y k)
  by_cases hk : k = i
  · subst hk; rw [assign_same]; exact hy
  · rw [assign_ne _ _ hk]; exact h k

theorem own_step [DecidableEq G] {hs : Nat → End → Handlers (Hand G)} {n : Net G} {i : Nat} {a : WasmCalls.Act} {y : WasmCalls.Sys (Hand G)}
    (ha : answersHost a = false) (h : (n.sys i).step (hs i) a = some y) : n.step hs (.own i a) = some ⟨assign n.sys i y, n.relays⟩ := by
  simp only [Net.step, ha, Net.at_, h, Option.map_some]; rfl

theorem refusal_fits (md : Bytes) : FitsResult (.failure (refusal md)) := by
  show (refusal md).length + 10 < 2 ^ 32
  have h1 : (lit "Invalid metadata").length = 16 := by decide +kernel
  have h2 : (lit "not_found").length = 9 := by decide +kernel
  unfold refusal
  split <;> omega

/-- If something is under way, something can be done. -/
theorem goes_on [DecidableEq G] {N : Nat} {m : Mesh} {gs : Nat → Handlers G} {n : Net G} (hr : MeshCalls.Reach (hands m gs) n)
    (h : Fine N m gs n) (hsm : Spec.MeshFinish.Small n)
    (hroom : ∀ i, ((n.sys i).node .host).calls.length < 2 ^ 30 ∨ work N n = 0) :
    Spec.MeshCalls.Idle n ∨ ∃ a n', Spec.MeshFinish.Goes n a ∧ n.step (hands m gs) a = some n' ∧ Spec.MeshFinish.Small n' := by
  by_cases h1 : ∃ i e, ((n.sys i).node e).peer.tasks ≠ []
  · obtain ⟨i, e, ht⟩ := h1
    right
    obtain ⟨p, hs1⟩ := (Props.WasmCalls.simple_calls_never_crash (h.good.reach i) (h.bounded i) (h.simple i) e).2 0 true (List.length_pos_iff.mpr ht)
    have hst : (n.sys i).step (hands m gs i) (.task e 0 true) =
        some ((n.sys i).put e (((n.sys i).node e).absorb p) ((((n.sys i).node e).news p).filterMap sentOf) false) := by
      simp only [WasmCalls.Sys.step, WasmCalls.Sys.does, hs1]
    exact ⟨.own i (.task e 0 true), _, trivial, own_step rfl hst,
      small_assign hsm (Props.WasmFinish.small_put (hsm i) _ _ _ _ rfl fun x r hx => .inl hx)⟩
  have ht : ∀ i e, ((n.sys i).node e).peer.tasks = [] := fun i e => Classical.byContradiction fun hne => h1 ⟨i, e, hne⟩
  by_cases h2 : ∃ i e, (n.sys i).wire e ≠ []
  · obtain ⟨i, e, hne⟩ := h2
    right
    obtain ⟨f, l, hl⟩ := List.exists_cons_of_ne_nil hne
    have hmem : f ∈ (n.sys i).wire e := by rw [hl]; exact List.mem_cons_self
    obtain ⟨data, hd⟩ := Props.WasmFinish.has_bytes (h.sys i).1 (h.simple i) (hsm i) hmem
      (Props.WasmFinish.from_reach (h.good.reach i) (h.bounded i) (h.simple i) e f hmem)
    have hh : ((n.sys i).wire (other (other e))).head? = some f := by rw [other_other, hl]; rfl
    have hrd : ((n.sys i).node (other e)).peer.ready (other e) = true := by
      unfold Peer.ready
      split
      · rfl
      · rw [ht]; rfl
    obtain ⟨p, hs1⟩ := (Props.WasmCalls.simple_calls_never_crash (h.good.reach i) (h.bounded i) (h.simple i) (other e)).1 f data hh hd hrd
    have hst : (n.sys i).step (hands m gs i) (.recv (other e) data) =
        some ((n.sys i).put (other e) (((n.sys i).node (other e)).absorb p) ((((n.sys i).node (other e)).news p).filterMap sentOf) true) := by
      simp only [WasmCalls.Sys.step, hh, Option.bind_some, hd, if_true, WasmCalls.Sys.does, hs1]
    exact ⟨.own i (.recv (other e) data), _, trivial, own_step rfl hst,
      small_assign hsm (Props.WasmFinish.small_put (hsm i) _ _ _ _ rfl fun x r hx => .inl hx)⟩
  have hwire : ∀ i e, (n.sys i).wire e = [] := fun i e => Classical.byContradiction fun hne => h2 ⟨i, e, hne⟩
  by_cases h3 : ∃ i, ∃ x ∈ ((n.sys i).node .guest).jobs, x.kind = .rr
  · obtain ⟨i, x, hx, hk⟩ := h3
    right
    obtain ⟨q, hq⟩ := List.mem_iff_getElem?.mp hx
    have hst : (n.sys i).step (hands m gs i) (.answer .guest q (.failure [])) = some ((n.sys i).put .guest { (n.sys i).node .guest with
        jobs := ((n.sys i).node .guest).jobs.eraseIdx q, made := ((n.sys i).node .guest).made ++ [(x, .failure [])] }
          [answerFrame x.id (.failure [])] false) := by
      simp only [WasmCalls.Sys.step, Node.answer, hq, hk, if_true, Option.map_some]
    refine ⟨.own i (.answer .guest q (.failure [])), _, trivial, own_step rfl hst,
      small_assign hsm (Props.WasmFinish.small_put (hsm i) _ _ _ _ rfl fun x r hx => ?_)⟩
    rcases List.mem_append.mp hx with hx | hx
    · exact .inl hx
    · cases List.mem_singleton.mp hx
      exact .inr (by show 0 + 10 < 2 ^ 32; decide)
  have hguest : ∀ i, ∀ x ∈ ((n.sys i).node .guest).jobs, x.kind ≠ .rr := fun i x hx hk => h3 ⟨i, x, hx, hk⟩
  by_cases h4 : ∃ i, ∃ x ∈ ((n.sys i).node .host).jobs, n.passed i x = false
  · obtain ⟨i, x, hx, hnp⟩ := h4
    right
    obtain ⟨q, hq⟩ := List.mem_iff_getElem?.mp hx
    obtain ⟨c, hc, d, hd, hdN, hsv⟩ := host_job h hx
    have htg : n.target i q = some (x, d) := by
      unfold Net.target; rw [hq]; simp only [hd, hnp, if_true]
    have hrm : ((n.sys d.instance_).node .host).calls.length < 2 ^ 30 := by
      rcases hroom d.instance_ with hlt | hz
      · exact hlt
      · exfalso
        have hi : i < N := h.lt fun he => by rw [he] at hq; simp [WasmCalls.Sys.init, Node.init] at hq
        have := total_change (f := fun k => sysWork (fun j => !n.passed k j) (n.sys k)) (f' := fun k => if k = i then 0 else sysWork (fun j => !n.passed k j) (n.sys k))
          (i := i) (fun k hk => by simp [hk]) hi
        have hpos : 0 < ((n.sys i).node .host).jobs.countP (fun j => !n.passed i j) := List.countP_pos_iff.mpr ⟨x, hx, by simp [hnp]⟩
        have : 0 < sysWork (fun j => !n.passed i j) (n.sys i) := by
          simp only [sysWork, nodeWork]; simp; omega
        unfold work at hz
        simp only [if_true] at *
        omega
    obtain ⟨n', hn'⟩ := Props.MeshCalls.passing_on_works hr h.bounded htg hrm .background
    obtain ⟨y, hy4, hy, rfl⟩ := forward_some hn'
    refine ⟨.pass i q .background, _, trivial, by simp only [Net.step, htg]; rw [hn'], small_assign hsm ?_⟩
    obtain ⟨id, nd, rfl, e1, e2, e3, e4, e5⟩ := call_shape hy
    have hfit := (hsm i).calls .guest c hc
    have hmd : x.metadata = c.metadata := by rw [hsv.metadata]; rfl
    constructor
    · intro e c' hc'
      cases e with
      | host =>
        rw [put_node, e1] at hc'
        rcases List.mem_append.mp hc' with hc' | hc'
        · exact (hsm _).calls .host c' hc'
        · cases List.mem_singleton.mp hc'
          have hlen : (be32 d.index ++ x.metadata.drop 4).length = c.metadata.length := by
            rw [List.length_append, List.length_drop, hmd, show (be32 d.index).length = 4 from rfl]
            rw [hmd] at hy4; omega
          dsimp only
          rw [hlen, hsv.data]; exact hfit
      | guest => exact (hsm _).calls .guest c' hc'
    · intro e z r hz
      cases e with
      | host => rw [put_node, e5] at hz; exact (hsm _).made .host z r hz
      | guest => exact (hsm _).made .guest z r hz
  have hpass : ∀ i, ∀ x ∈ ((n.sys i).node .host).jobs, n.passed i x = true := fun i x hx => by
    cases hp : n.passed i x with
    | true => rfl
    | false => exact absurd ⟨i, x, hx, hp⟩ h4
  by_cases h5 : ∃ i, ∃ x ∈ ((n.sys i).node .host).jobs, x.kind = .rr
  · obtain ⟨i, x, hx, hk⟩ := h5
    right
    obtain ⟨q, hq⟩ := List.mem_iff_getElem?.mp hx
    obtain ⟨ρ, hρ, hm⟩ := List.any_eq_true.mp (hpass i x hx)
    simp only [Bool.and_eq_true, decide_eq_true_eq] at hm
    obtain ⟨rfl, hid⟩ := hm
    obtain ⟨c, hc, d, hd, hdN, hsv⟩ := host_job h hx
    obtain ⟨c3, h3, hs3⟩ := (h.good.kept ρ hρ).from_
    have hcc : c3 = c := by
      obtain ⟨l, hl⟩ := List.mem_iff_getElem?.mp hc
      exact Props.WasmCalls.call_unique ((h.sys _).1.loc .guest) (h.bounded _ .guest) hl h3 (by rw [← hs3.id, hid, hsv.id])
    subst hcc
    have hjob : ρ.job = x := by
      obtain ⟨o1, a1, a2⟩ := hs3.handler
      obtain ⟨o2, b1, b2⟩ := hsv.handler
      have : o1 = o2 := UInt32.toNat_inj.mp (Option.some.inj (a1.symm.trans b1))
      subst this
      have hh := Option.some.inj (a2.symm.trans b2)
      have k1 := hs3.kind.trans hsv.kind.symm
      have k2 := hs3.data.trans hsv.data.symm
      have k3 := hs3.metadata.trans hsv.metadata.symm
      cases hj1 : ρ.job with
      | mk a b c d e =>
        cases x with
        | mk a' b' c' d' e' =>
          rw [hj1] at hh k1 k2 k3 hid
          dsimp only at hh k1 k2 k3 hid
          subst hh k1 k2 k3 hid; rfl
    obtain ⟨d', hd', hdst, c2, hc2, hk2, hd2, hm2⟩ := (h.good.kept ρ hρ).toward
    have hrr : c2.kind = .rr := by rw [hk2, hjob]; exact hk
    cases ho : ((n.sys ρ.dst).node .host).obj ρ.call with
    | none =>
      have hst : ∃ n1, ((n.sys ρ.dst).node .host).subscribe .host (hands m gs ρ.dst .host) ρ.call =
          some (n1, [.request (requestFrame c2.kind c2.id c2.data c2.metadata)]) := by
        unfold Node.subscribe
        rw [hc2, ho]
        simp only [openAct, hrr, Peer.step, if_true]
        exact ⟨_, rfl⟩
      obtain ⟨n1, hn1⟩ := hst
      obtain ⟨_, _, e1, e2, e3, e4, e5, _⟩ := subscribe_simple hc2 (.inl hrr) hn1
      refine ⟨.own ρ.dst (.subscribe .host ρ.call), _, ⟨ρ, hρ, rfl, rfl⟩, own_step (y := (n.sys ρ.dst).put .host n1
        [.request (requestFrame c2.kind c2.id c2.data c2.metadata)] false) rfl (by simp only [WasmCalls.Sys.step, hn1, Option.map_some]), ?_⟩
      exact small_assign hsm (Props.WasmFinish.small_put (hsm _) _ _ _ _ e1 fun z r hz => .inl (by rw [← e3]; exact hz))
    | some o =>
      have hz : inFlight ((n.sys ρ.dst).node (other .host)) ((n.sys ρ.dst).wire .host) ((n.sys ρ.dst).wire (other .host)) c2 = 0 := by
        have hh : handlers c2.id ((n.sys ρ.dst).node .guest).jobs = 0 := by
          refine List.countP_eq_zero.mpr fun z hz hzid => ?_
          obtain ⟨c4, q1, q2⟩ := ((h.sys ρ.dst).1.link .host).jobs z hz
          have : c4 = c2 := Props.WasmCalls.call_unique ((h.sys _).1.loc .host) (h.bounded _ .host) hc2 q1 (q2.id.symm.trans (beq_iff_eq.mp hzid))
          subst this
          exact hguest _ z hz (q2.kind.trans hrr)
        show inFlight ((n.sys ρ.dst).node .guest) _ ((n.sys ρ.dst).wire .guest) c2 = 0
        simp [inFlight, hwire, ht, hh, Spec.Polite.requests, Spec.Polite.answers, Spec.Polite.queued]
      obtain ⟨r, hrt⟩ := Props.WasmCalls.calls_get_results (h.good.reach ρ.dst) (h.bounded _) .host hc2 hrr (by rw [ho]; simp) hz
      have hmem : r ∈ toldCall ((n.sys ρ.dst).node .host) ρ.call := by rw [hrt]; exact List.mem_singleton.mpr rfl
      obtain ⟨kk, hkk⟩ := List.mem_iff_getElem?.mp hρ
      have hfit : FitsResult r := by
        cases (Props.WasmCalls.calls_get_own_results (h.good.reach ρ.dst) (h.bounded _) .host hc2 hrr).1 r hmem with
        | handler z _ hz _ => exact (hsm _).made .guest z r hz
        | refused msg _ hmsg => rw [hmsg]; exact refusal_fits _
      have hst : (n.sys ρ.src).step (hands m gs ρ.src) (.answer .host q r) = some ((n.sys ρ.src).put .host { (n.sys ρ.src).node .host with
          jobs := ((n.sys ρ.src).node .host).jobs.eraseIdx q, made := ((n.sys ρ.src).node .host).made ++ [(x, r)] }
            [answerFrame x.id r] false) := by
        simp only [WasmCalls.Sys.step, Node.answer, hq, hk, if_true, Option.map_some]
      refine ⟨.back kk q r, ⟨assign n.sys ρ.src ((n.sys ρ.src).put .host { (n.sys ρ.src).node .host with
          jobs := ((n.sys ρ.src).node .host).jobs.eraseIdx q, made := ((n.sys ρ.src).node .host).made ++ [(x, r)] }
            [answerFrame x.id r] false), n.relays⟩, trivial, ?_, ?_⟩
      · simp only [Net.step, hkk]
        rw [if_pos ⟨by rw [hjob]; exact hq, Props.MeshCalls.told_heard hmem⟩, Net.at_, hst]; rfl
      · refine small_assign hsm (Props.WasmFinish.small_put (hsm _) _ _ _ _ rfl fun z r' hz => ?_)
        rcases List.mem_append.mp hz with hz | hz
        · exact .inl hz
        · cases List.mem_singleton.mp hz; exact .inr hfit
  · left
    refine ⟨hwire, ht, fun i e x hx hk => ?_, fun i x hx _ => hpass i x hx⟩
    cases e with
    | host => exact h5 ⟨i, x, hx, hk⟩
    | guest => exact hguest i x hx hk

/-! ## Results (C166) -/

theorem idle_done [DecidableEq G] {m : Mesh} {gs : Nat → Handlers G} {n : Net G} (h : MeshCalls.Reach (hands m gs) n)
    (hb : Spec.MeshCalls.Bounded n) (hi : Spec.MeshCalls.Idle n) {i j : Nat} {c : WasmCalls.Call}
    (hc : ((n.sys i).node .guest).calls[j]? = some c) : Spec.MeshFinish.Done m gs n i j c := by
  unfold Spec.MeshFinish.Done
  split
  · rename_i hk
    exact fun ho => Props.MeshCalls.module_calls_get_results h hb hi hc hk ho
  · rename_i hk
    intro d hl
    obtain ⟨ρ, c2, h1, h2, h3, h4, _⟩ := Props.MeshCalls.module_calls_run h hb hi hc hk hl
    exact ⟨ρ, c2, h1, h2, h3, h4⟩
  · trivial

theorem ahead_fine [DecidableEq G] {N : Nat} {m : Mesh} {gs : Nat → Handlers G} {n n' : Net G} {a : MeshCalls.Act} (h : Fine N m gs n)
    (ha : Spec.MeshFinish.Goes n a) (hs : n.step (hands m gs) a = some n') (hb : Spec.MeshCalls.Bounded n') : Fine N m gs n' :=
  have hh := goes_ahead h ha hs
  ⟨Props.MeshCalls.good_step h.good hb hs, hb, hh.simple, ⟨h.within.linked, fun i hi => (hh.new i hi).trans (h.within.new i hi)⟩⟩

theorem onward_bounded [DecidableEq G] {hs : Nat → End → Handlers (Hand G)} {k : Nat} {n n' : Net G} (h : Onward hs k n n') :
    Spec.MeshCalls.Bounded n' → Spec.MeshCalls.Bounded n := by
  induction h with
  | refl n => exact id
  | step a _ hs _ ih => exact fun hb => Props.MeshCalls.bounded_back hs (ih hb)

theorem onward_run [DecidableEq G] {N : Nat} {m : Mesh} {gs : Nat → Handlers G} {k : Nat} {n n' : Net G}
    (h : Onward (hands m gs) k n n') : MeshCalls.Reach (hands m gs) n → Fine N m gs n → Spec.MeshCalls.Bounded n' →
    MeshCalls.Reach (hands m gs) n' ∧ Fine N m gs n' ∧ k + work N n' ≤ work N n := by
  induction h with
  | refl n => exact fun h1 h2 _ => ⟨h1, h2, by omega⟩
  | step a ha hs ho ih =>
    intro h1 h2 hb
    have hb1 := onward_bounded ho hb
    obtain ⟨h3, h4, h5⟩ := ih (.step a h1 hs) (ahead_fine h2 ha hs hb1) hb
    have := (goes_ahead h2 ha hs).down
    exact ⟨h3, h4, by omega⟩

/-- **C166** Whatever is done about the calls under way between the modules of a mesh, in whatever order, there is an end of
it, after no more steps than `work` says; and when nothing more can be done, every call of a module is done with. For up to
`2^30` calls of an end, none of them streams or channels, with data that fits into a frame. -/
theorem mesh_calls_finish [DecidableEq G] {N : Nat} {m : Mesh} {gs : Nat → Handlers G} {n n' : Net G} {k : Nat}
    (h : MeshCalls.Reach (hands m gs) n) (hsim : Spec.MeshFinish.Simple n) (hw : Within N m n)
    (ho : Onward (hands m gs) k n n') (hb : Spec.MeshCalls.Bounded n') :
    k ≤ work N n ∧
    ((∀ a, Spec.MeshFinish.Goes n' a → n'.step (hands m gs) a = none) → Spec.MeshFinish.Small n' →
      (∀ i, ((n'.sys i).node .host).calls.length < 2 ^ 30) →
      ∀ (i j : Nat) (c : WasmCalls.Call), ((n'.sys i).node .guest).calls[j]? = some c → Spec.MeshFinish.Done m gs n' i j c) := by
  have hbn := onward_bounded ho hb
  obtain ⟨h1, h2, h3⟩ := onward_run ho h ⟨mesh_good h hbn, hbn, hsim, hw⟩ hb
  refine ⟨by omega, fun hn hsm hrm i j c hc => ?_⟩
  rcases goes_on h1 h2 hsm (fun i => .inl (hrm i)) with hi | ⟨a, n2, hga, hst, _⟩
  · exact idle_done h1 hb hi hc
  · rw [hn a hga] at hst; cases hst

/-- **C166** From wherever the modules of a mesh are, they can go on, without new calls of modules, until nothing is under
way and every call of a module is done with. -/
theorem mesh_calls_can_finish [DecidableEq G] {N : Nat} {m : Mesh} {gs : Nat → Handlers G} {n : Net G}
    (h : MeshCalls.Reach (hands m gs) n) (hsim : Spec.MeshFinish.Simple n) (hw : Within N m n) (hsm : Spec.MeshFinish.Small n)
    (hroom : Room N n) : ∃ k n', Onward (hands m gs) k n n' ∧ MeshCalls.Reach (hands m gs) n' ∧ Spec.MeshCalls.Idle n' ∧
      ∀ (i j : Nat) (c : WasmCalls.Call), ((n'.sys i).node .guest).calls[j]? = some c → Spec.MeshFinish.Done m gs n' i j c := by
  generalize hk : work N n = w
  induction w using Nat.strongRecOn generalizing n with
  | ind w ih =>
    have hb : Spec.MeshCalls.Bounded n := fun i e => by have := hroom i e; omega
    have hf : Fine N m gs n := ⟨mesh_good h hb, hb, hsim, hw⟩
    rcases goes_on h hf hsm (fun i => by have := hroom i .host; omega) with hi | ⟨a, n1, hga, hst, hsm1⟩
    · exact ⟨0, n, .refl n, h, hi, fun i j c hc => idle_done h hb hi hc⟩
    · have hh := goes_ahead hf hga hst
      have hroom1 : Room N n1 := fun i e => by
        have := hroom i e; have := hh.calls i e; have := hh.down; omega
      obtain ⟨k, n', h1, h2, h3, h4⟩ := ih (work N n1) (by have := hh.down; omega) (.step a h hst) hh.simple
        ⟨hw.linked, fun i hi => (hh.new i hi).trans (hw.new i hi)⟩ hsm1 hroom1 rfl
      exact ⟨k + 1, n', .step a hga hst h1, h2, h3, h4⟩

theorem operations_lt {dir : UInt8} {h : List Table} : ∀ {b : Nat} {x : Nat × Operation}, x ∈ Spec.Mesh.operations dir b h → x.1 < b + h.length := by
  induction h with
  | nil => intro b x hx; simp [Spec.Mesh.operations] at hx
  | cons t h ih =>
    intro b x hx
    rw [Spec.Mesh.operations, List.mem_append] at hx
    rcases hx with hx | hx
    · obtain ⟨o, _, rfl⟩ := List.mem_map.mp hx
      simp
    · have := ih hx
      rw [List.length_cons]; omega

/-- **C166** The modules of a mesh that was loaded are those that were loaded. -/
theorem loaded_within (ls : List (Bytes × Table)) (hx : ∀ t ∈ Props.Mesh.tables ls, ∀ o ∈ t, o.index.toNat + 1 < 2 ^ 32) :
    ∃ m, Mesh.new.loadModules 0 ls = .ok m ∧ Within ls.length m (Net.init : Net G) := by
  obtain ⟨m, h1, h2⟩ := Props.Mesh.loaded ls hx
  refine ⟨m, h1, ⟨fun i k op d hd => ?_, fun _ _ => rfl⟩⟩
  obtain ⟨o, e, _, _, _, he, _, rfl⟩ := h2.tab.sound i k op d hd
  have := operations_lt he
  show e.1 < ls.length
  simpa [Props.Mesh.tables] using this


/-! ### A case -/

theorem pair_linked (i : Nat) (k : Kind) (op : UInt32) (d : Dest) (h : Props.MeshCalls.pair.moduleCall i k op = some d) : d.instance_ < 2 := by
  obtain ⟨m, h1, h2⟩ := loaded_within (G := Nat) [([1], [⟨0, 1, 1, [110], [9]⟩, ⟨1, 1, 1, [110], [7]⟩, ⟨0, 2, 1, [110], [6]⟩, ⟨1, 2, 1, [110], [5]⟩]),
    ([2], [⟨0, 1, 2, [110], [7]⟩, ⟨0, 2, 2, [110], [5]⟩])] (by decide)
  have : Props.MeshCalls.pair = m := by unfold Props.MeshCalls.pair; rw [h1]
  rw [this] at h
  exact h2.linked i k op d h

/-- The theorems say something: of three calls of a module, one was passed on, one is to be, and one was refused. -/
example : ∃ n : Net Nat, MeshCalls.Reach (hands Props.MeshCalls.pair Props.MeshCalls.code) n ∧ Spec.MeshFinish.Simple n ∧
    Within 2 Props.MeshCalls.pair n ∧ Spec.MeshFinish.Small n ∧ Room 2 n ∧ work 2 n = 13 ∧
    ((n.sys 1).node .guest).calls.length = 3 ∧ n.relays.length = 1 := by
  have : ∃ n : Net Nat, MeshCalls.Reach (hands Props.MeshCalls.pair Props.MeshCalls.code) n ∧ (∀ i, 2 ≤ i → n.sys i = Sys.init) ∧
      (∀ i ∈ [0, 1], ∀ e ∈ [End.host, End.guest], ((n.sys i).node e).calls.length ≤ 3 ∧
        (∀ c ∈ ((n.sys i).node e).calls, (c.kind = .rr ∨ c.kind = .fnf) ∧ c.metadata.length < 2 ^ 24 ∧ c.metadata.length + c.data.length + 13 < 2 ^ 32) ∧
        ((n.sys i).node e).made.length = 0) ∧ work 2 n = 13 ∧ ((n.sys 1).node .guest).calls.length = 3 ∧ n.relays.length = 1 :=
    Props.MeshCalls.run_ends (as := Props.MeshCalls.calls.take 12) (by decide +kernel)
  obtain ⟨n, h1, h2, h3, h4, h5⟩ := this
  have key : ∀ i e, ((n.sys i).node e).calls.length ≤ 3 ∧
      (∀ c ∈ ((n.sys i).node e).calls, (c.kind = .rr ∨ c.kind = .fnf) ∧ c.metadata.length < 2 ^ 24 ∧ c.metadata.length + c.data.length + 13 < 2 ^ 32) ∧
      ((n.sys i).node e).made.length = 0 := by
    intro i e
    by_cases hi : i < 2
    · exact h3 i (by simp; omega) e (by cases e <;> simp)
    · rw [h2 i (by omega)]
      exact ⟨Nat.zero_le _, fun x hx => absurd hx List.not_mem_nil, rfl⟩
  refine ⟨n, h1, fun i e c hc => ((key i e).2.1 c hc).1, ⟨pair_linked, h2⟩, fun i => ⟨fun e c hc => ((key i e).2.1 c hc).2, ?_⟩, ?_, h4, h5⟩
  · intro e x r hx
    rw [List.length_eq_zero_iff.mp (key i e).2.2] at hx
    exact absurd hx List.not_mem_nil
  · intro i e
    have := (key i e).1
    omega

end Iota.Props.MeshFinish
