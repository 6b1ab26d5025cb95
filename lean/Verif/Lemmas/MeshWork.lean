import Verif.Lemmas.MeshDrain

/-! # What is done in a mesh leaves less to do -/

namespace Iota.Lemmas.MeshDrain
open Iota.Go Iota.Frames Iota.Registry Iota.WasmDispatch Iota.WasmCalls Iota.Mesh Iota.MeshCalls
open Iota.Handler hiding Act
open Iota.Spec.WasmCalls (FitsResult handlers refusal Serves Unknown toldCall inFlight)
open Iota.Spec.WasmStreams (Said saysIn InOrder signals frameFor)
open Iota.Spec.WasmOnce (startedIn)
open Iota.Spec.WasmDrain (Mild FitsSig)
open Iota.Spec.MeshCalls (Linked onward)
open Iota.Spec.MeshStreams (RunFor Voice spoken AllTidy Settled Uncancelled)
open Iota.Spec.MeshFinish (total Within)
open Iota.Spec.MeshDrain
open Iota.Spec.Caller (Sig meaning)
open Iota.MeshStreams (relayed heardFrames)
open Iota.Peers (Result requestFrame answerFrame isRequest)
open Iota.Props.WasmCalls (put_node put_other other_other other_ne eq_or_other call_unique index_unique good_reach)
open Iota.Props.WasmDrain (Took Worked Fits FitsEv recv_mild task_mild sum_erase fine_mildly mildly_reach mildly_once subscribe_obj)
open Iota.Props.WasmFinish (answer_simple countP_erase)
open Iota.Props.MeshFinish (total_change countP_lt count_erase call_shape passed_snoc)
open Iota.Props.MeshCalls (assign_same assign_ne at_step mesh_good target_some forward_some bounded_back)
open Iota.Props.MeshStreams (cut relayed_cut step_net step_doing step_relays Kin kin_told heard_loud)

variable {H : Type} {ask : End → Prop}

/-! ## One instance -/

section One
variable {u : Job H → Bool}

theorem work_at (y : WasmCalls.Sys H) (e : End) :
    sysWork u y = nodeWork u e (y.node e) + nodeWork u (other e) (y.node (other e)) + wireWork e (y.wire e) + wireWork (other e) (y.wire (other e)) := by
  cases e <;> simp only [sysWork, other] <;> omega

theorem work_put (y : WasmCalls.Sys H) (e : End) (n : Node H) (out : List Frame) (r : Bool) :
    sysWork u (y.put e n out r) = nodeWork u e n + nodeWork u (other e) (y.node (other e)) + (wireWork e (y.wire e) + wireWork e out) +
      wireWork (other e) (if r then (y.wire (other e)).tail else y.wire (other e)) := by
  rw [work_at _ e]
  simp [WasmCalls.Sys.put, other_ne, wireWork]

theorem wire_head {e : End} {l : List Frame} {f : Frame} (h : l.head? = some f) : wireWork e l = weight e f + wireWork e l.tail := by
  cases l with
  | nil => cases h
  | cons a l => cases h; simp [wireWork]

theorem signals_append (o : Nat) (a b : List (Ev H)) : signals o (a ++ b) = signals o a ++ signals o b := by
  simp [signals]

/-- What a host is told in a step. -/
structure Hears (y y' : WasmCalls.Sys H) (o : Nat) (new : List Sig) : Prop where
  same : ∀ o', o' ≠ o → signals o' (y'.node .host).peer.log = signals o' (y.node .host).peer.log
  more : signals o (y'.node .host).peer.log = signals o (y.node .host).peer.log ++ new
  known : new ≠ [] → ∃ id, getStream (y.node .host).peer.st id = some o

theorem hears_none {y y' : WasmCalls.Sys H} (h : ∀ o, signals o (y'.node .host).peer.log = signals o (y.node .host).peer.log) : Hears y y' 0 [] :=
  ⟨fun o' _ => h o', by rw [h, List.append_nil], fun h => absurd rfl h⟩

theorem hears_put {y : WasmCalls.Sys H} {e : End} {n : Node H} {out : List Frame} {r : Bool}
    (h : e = .host → ∀ o, signals o n.peer.log = signals o (y.node .host).peer.log) : Hears y (y.put e n out r) 0 [] := by
  refine hears_none fun o => ?_
  cases e with
  | host => rw [put_node]; exact h rfl o
  | guest => rw [show (y.put .guest n out r).node .host = y.node .host from put_other]

/-- Whatever is done at an instance leaves less to do, even if everything the host is told is to be sent on. -/
theorem sys_down {hs : End → Handlers H} {y y' : WasmCalls.Sys H} {a : WasmCalls.Act} (hg : Props.WasmCalls.Good hs y) (hb : Spec.WasmCalls.Bounded y)
    (hf : Props.WasmDrain.Fine ask y) (ha : Spec.WasmCalls.Goes a) (hm : Mild (fun _ => True) a) (h : y.step hs a = some y') :
    ∃ o new, Hears y y' o new ∧ ∀ u, sysWork u y' + 1 + 2 * new.length ≤ sysWork u y := by
  have nil : ∀ e, wireWork e [] = 0 := fun _ => rfl
  cases a with
  | recv e data =>
    obtain ⟨f, p, h1, h2, rfl⟩ := recv_mild hg hb hf h
    have hpos : ∀ e (f : Frame), 1 ≤ weight e f := by intro e f; cases e <;> cases f <;> simp [weight]
    have key : ∃ o new, Hears y (y.put e { y.node e with peer := p } [] true) o new ∧
        ((p.tasks.map (effort e)).sum) + 1 + 2 * new.length ≤ (((y.node e).peer.tasks.map (effort e)).sum) + weight (other e) f := by
      cases h2 with
      | request v k =>
        refine ⟨0, [], hears_put (fun he o => ?_), ?_⟩
        · subst he; simp [Peer.after]
        · cases e <;> simp [Peer.after, effort, weight, other]
      | dropped f hq =>
        refine ⟨0, [], hears_put (fun he o => by subst he; rfl), ?_⟩
        have := hpos (other e) f
        simp; omega
      | demand v i o =>
        refine ⟨0, [], hears_put (fun he o => ?_), ?_⟩
        · subst he; simp [Peer.after]
        · cases e <;> simp [Peer.after, effort, weight, other]
      | heard f i st evs hq _ hev hlen _ hgs =>
        cases e with
        | guest =>
          refine ⟨0, [], hears_put (fun he o => by cases he), ?_⟩
          have := hpos (other .guest) f
          simp [Peer.after]; omega
        | host =>
          refine ⟨i, signals i evs, ⟨fun o' ho => ?_, ?_, fun _ => ⟨_, hgs⟩⟩, ?_⟩
          · rw [put_node]
            simp only [Peer.after, signals_append]
            have : signals o' evs = [] := by
              refine List.filterMap_eq_nil_iff.mpr fun ev hev' => ?_
              rcases hev ev hev' with ⟨d, m, rfl⟩ | rfl | ⟨m, rfl⟩ <;> simp [Spec.WasmCalls.signal, Ne.symm ho]
            rw [this, List.append_nil]
          · rw [put_node]
            simp only [Peer.after, signals_append]
          · have h5 : weight (other .host) f = 5 := by
              cases f <;> first | rfl | cases hq
            have h6 : (signals i evs).length ≤ 2 := Nat.le_trans (List.length_filterMap_le _ _) hlen
            simp [Peer.after, h5]; omega
    obtain ⟨o, new, h3, h4⟩ := key
    refine ⟨o, new, h3, fun u => ?_⟩
    rw [work_put, work_at y e, if_pos rfl, wire_head h1, nil]
    simp only [nodeWork]
    omega
  | task e i live =>
    have : live = true := hm
    subst this
    obtain ⟨p, hw, hcase⟩ := task_mild hg h
    have quiet : e = .host → ∀ o, signals o p.log = signals o (y.node .host).peer.log := by
      rintro rfl o
      cases hw with
      | refused k id d m n msg ht hl => simp [Peer.after, signals, Spec.WasmCalls.signal]
      | ran k id d m n g parent ht =>
        obtain ⟨_, _, _, hlog⟩ := Props.WasmDispatch.accept_tasks .host { (y.node .host).peer with tasks := (y.node .host).peer.tasks.eraseIdx i } k g id d m n parent
        rw [hlog]; simp [signals, Spec.WasmCalls.signal]
      | attached j n ht => simp [Peer.after, signals, Spec.WasmCalls.signal]
      | demanded j n ht => simp [Peer.after, signals, Spec.WasmCalls.signal]
    rcases hcase with ⟨k, id, d, m, n, c, msg, ht, hts, _, _, _, rfl⟩ | ⟨k, id, d, m, n, x, ts, ht, hts, hrest, hxk, rfl⟩ | ⟨t, ht, hnr, hts, rfl⟩
    · refine ⟨0, [], hears_put quiet, fun u => ?_⟩
      have := sum_erase (w := effort e) ht
      have hw : wireWork e [errorFrame id msg] ≤ 5 := by cases e <;> simp [wireWork, weight, errorFrame]
      rw [work_put, work_at y e]
      simp only [nodeWork, hts, this]
      cases e <;> simp [effort] <;> omega
    · refine ⟨0, [], hears_put quiet, fun u => ?_⟩
      have := sum_erase (w := effort e) ht
      rw [work_put, work_at y e, nil]
      have hx : (ts.map (effort e)).sum + duty e * List.countP (fun j : WasmCalls.Job H => decide (j.kind = .rr)) [x] ≤ duty e := by
        rcases hrest with rfl | rfl
        · cases k <;> cases e <;> simp [WasmDispatch.rest, effort, hxk, duty]
        · have : List.countP (fun j : WasmCalls.Job H => decide (j.kind = .rr)) [x] ≤ 1 := List.countP_le_length
          simp only [List.map_nil, List.sum_nil]
          cases e <;> simp only [duty] <;> omega
      have hx2 : List.countP u [x] ≤ 1 := List.countP_le_length
      simp only [nodeWork, hts, this, List.map_append, List.sum_append, List.countP_append, Nat.mul_add]
      simp only [Bool.false_eq_true, if_false]
      cases e <;> simp [effort, duty] at hx hx2 ⊢ <;> omega
    · refine ⟨0, [], hears_put quiet, fun u => ?_⟩
      have := sum_erase (w := effort e) ht
      have he : effort e t = 1 := by
        cases t with
        | request k id d m n => exact absurd rfl (hnr k id d m n)
        | _ => cases e <;> rfl
      rw [work_put, work_at y e, nil]
      simp only [nodeWork, hts, this, he]; simp; omega
  | answer e i r =>
    obtain ⟨x, h1, hk, rfl⟩ := answer_simple h
    refine ⟨0, [], hears_put (fun he o => by subst he; rfl), fun u => ?_⟩
    have hw : wireWork e [answerFrame x.id r] + 1 ≤ duty e := by cases e <;> cases r <;> simp [wireWork, weight, answerFrame, duty]
    rw [work_put, work_at y e]
    have h2 := countP_erase (p := fun j : WasmCalls.Job H => decide (j.kind = .rr)) h1 (by simp [hk])
    have h3 : ((y.node e).jobs.eraseIdx i).countP u ≤ (y.node e).jobs.countP u := count_erase
    simp only [nodeWork, h2, Nat.mul_add]
    cases e <;> simp <;> omega
  | _ => exact absurd ha (by simp [Spec.WasmCalls.Goes])

end One

/-! ## Sums -/

theorem total_le {f f' : Nat → Nat} : ∀ {N : Nat}, (∀ r, r < N → f' r ≤ f r) → total f' N ≤ total f N
  | 0, _ => Nat.le_refl _
  | N + 1, h => Nat.add_le_add (total_le fun r hr => h r (by omega)) (h N (by omega))

theorem total_rise {f f' : Nat → Nat} {P : Nat → Prop} {D : Nat} (hu : ∀ r s, P r → P s → r = s) :
    ∀ {N : Nat}, (∀ r, r < N → ¬ P r → f' r ≤ f r) → (∀ r, r < N → f' r ≤ f r + D) → total f' N ≤ total f N + D
  | 0, _, _ => by simp [total]
  | N + 1, h, h1 => by
    by_cases hN : P N
    · have := total_le (f := f) (f' := f') (N := N) fun r hr => h r (by omega) fun hp => by have := hu r N hp hN; omega
      have := h1 N (by omega)
      simp only [total]; omega
    · have := total_rise hu (N := N) (fun r hr => h r (by omega)) (fun r hr => h1 r (by omega))
      have := h N (by omega) hN
      simp only [total]; omega

theorem total_fall {f f' : Nat → Nat} {i D : Nat} (hi : f' i + D ≤ f i) : ∀ {N : Nat}, i < N → (∀ r, r < N → f' r ≤ f r) → total f' N + D ≤ total f N
  | 0, h, _ => by omega
  | N + 1, h, h1 => by
    by_cases hN : i = N
    · subst hN
      have := total_le (f := f) (f' := f') (N := i) fun r hr => h1 r (by omega)
      simp only [total]; omega
    · have := total_fall hi (N := N) (by omega) (fun r hr => h1 r (by omega))
      have := h1 N (by omega)
      simp only [total]; omega

/-! ## A mesh -/

variable {G : Type} [DecidableEq G]

/-- What holds while a mesh goes on. -/
structure Fine (N : Nat) (m : Mesh) (gs : Nat → Handlers G) (ask : End → Prop) (n : MeshStreams.Net G) (said : Words G) (begun : Begun) : Prop where
  mild : Mildly (hands m gs) ask n said begun
  bounded : Spec.MeshCalls.Bounded n.net
  within : Within N m n.net

section
variable {N : Nat} {m : Mesh} {gs : Nat → Handlers G} {n : MeshStreams.Net G} {said : Words G} {begun : Begun}

theorem Fine.sys (h : Fine N m gs ask n said begun) (i : Nat) : Spec.WasmDrain.Mildly (hands m gs i) ask (n.net.sys i) (said i) (begun i) :=
  mildly_sys h.mild h.bounded i

theorem Fine.kin (h : Fine N m gs ask n said begun) : Kin m gs n said := kin_told (mildly_told h.mild) h.bounded

theorem Fine.one (h : Fine N m gs ask n said begun) (i : Nat) : Props.WasmCalls.Good (hands m gs i) (n.net.sys i) :=
  good_reach (mildly_reach (h.sys i)) (h.bounded i)

theorem Fine.tables (h : Fine N m gs ask n said begun) (i : Nat) : Props.WasmDrain.Fine ask (n.net.sys i) := fine_mildly (h.sys i) (h.bounded i)

theorem Fine.lt (h : Fine N m gs ask n said begun) {i : Nat} (hi : n.net.sys i ≠ WasmCalls.Sys.init) : i < N :=
  Nat.lt_of_not_le fun hle => hi (h.within.new i hle)

/-- What a step that goes on comes to: less to do, and at most one more call of an end. -/
structure Ahead (N : Nat) (n : MeshStreams.Net G) (begun : Begun) (n' : MeshStreams.Net G) (begun' : Begun) : Prop where
  down : work N n' begun' < work N n begun
  calls : ∀ i e, ((n'.net.sys i).node e).calls.length ≤ ((n.net.sys i).node e).calls.length + 1
  new : ∀ i, N ≤ i → n'.net.sys i = n.net.sys i

theorem begins_none {b : WasmCalls.Act} (h : ∀ e, startedIn b e = []) (i : Nat) : begins begun i b = begun := by
  funext k t
  unfold begins
  split
  · rename_i hk; rw [h, List.append_nil, hk]
  · rfl

theorem calls_assign {i : Nat} {y : WasmCalls.Sys (Hand G)} {D : Nat} (h : ∀ e, (y.node e).calls.length ≤ ((n.net.sys i).node e).calls.length + D) (k : Nat) (e : End) :
    ((assign n.net.sys i y k).node e).calls.length ≤ ((n.net.sys k).node e).calls.length + D := by
  by_cases hk : k = i
  · subst hk; rw [assign_same]; exact h e
  · rw [assign_ne _ _ hk]; omega

/-- How the work of the instances changes with one of them. -/
theorem total_assign {i : Nat} (hi : i < N) (y : WasmCalls.Sys (Hand G)) (u : Nat → Job (Hand G) → Bool) :
    total (fun k => sysWork (u k) (assign n.net.sys i y k)) N + sysWork (u i) (n.net.sys i) = total (fun k => sysWork (u k) (n.net.sys k)) N + sysWork (u i) y := by
  have := total_change (f := fun k => sysWork (u k) (n.net.sys k)) (f' := fun k => sysWork (u k) (assign n.net.sys i y k)) (i := i)
    (fun k hk => by simp only [assign_ne _ _ hk]) hi
  simpa only [assign_same] using this

theorem ahead_down (h : Fine N m gs ask n said begun) {i : Nat} {a : WasmCalls.Act} {y : WasmCalls.Sys (Hand G)} (ha : Spec.WasmCalls.Goes a)
    (hm : Mild (fun _ => True) a) (hs : (n.net.sys i).step (hands m gs i) a = some y) :
    Ahead N n begun ⟨⟨assign n.net.sys i y, n.net.relays⟩, n.sent⟩ begun := by
  have hi : i < N := h.lt fun he => by rw [he, Props.MeshFinish.init_stuck ha] at hs; cases hs
  have hc := Props.WasmFinish.goes_calls ha hs
  have hobj := Props.MeshFinish.goes_obj ha hs .host
  obtain ⟨o, new, hh, hw⟩ := sys_down (h.one i) (h.bounded i) (h.tables i) ha hm hs
  have hsame : ∀ ρ : Relay G, ¬ (ρ.dst = i ∧ ((n.net.sys i).node .host).obj ρ.call = some o ∧ new ≠ []) →
      (heardFrames (⟨assign n.net.sys i y, n.net.relays⟩ : MeshCalls.Net G) ρ).length = (heardFrames n.net ρ).length := by
    intro ρ hn
    unfold heardFrames
    by_cases hk : ρ.dst = i
    · subst hk
      simp only [assign_same, hobj]
      cases ho : ((n.net.sys ρ.dst).node .host).obj ρ.call with
      | none => rfl
      | some o' =>
        simp only [relayed_cut, List.length_map]
        by_cases he : o' = o
        · subst he
          have : new = [] := Classical.byContradiction fun hne => hn ⟨rfl, ho, hne⟩
          rw [hh.more, this, List.append_nil]
        · rw [hh.same o' he]
    · simp only [assign_ne _ _ hk]
  have hmost : ∀ ρ : Relay G, (heardFrames (⟨assign n.net.sys i y, n.net.relays⟩ : MeshCalls.Net G) ρ).length ≤ (heardFrames n.net ρ).length + new.length := by
    intro ρ
    by_cases hp : ρ.dst = i ∧ ((n.net.sys i).node .host).obj ρ.call = some o ∧ new ≠ []
    · obtain ⟨rfl, ho, _⟩ := hp
      unfold heardFrames
      simp only [assign_same, hobj, ho, relayed_cut, List.length_map, hh.more]
      exact cut_length _ _
    · rw [hsame ρ hp]; omega
  have hrel : ∀ ρ : Relay G, (((assign n.net.sys i y ρ.dst).node .host).obj ρ.call) = (((n.net.sys ρ.dst).node .host).obj ρ.call) := by
    intro ρ
    by_cases hk : ρ.dst = i
    · rw [hk, assign_same, hobj]
    · rw [assign_ne _ _ hk]
  have hrise : total (relayWork (⟨⟨assign n.net.sys i y, n.net.relays⟩, n.sent⟩ : MeshStreams.Net G) begun) n.net.relays.length ≤
      total (relayWork n begun) n.net.relays.length + 2 * new.length := by
    refine total_rise (P := fun r => ∃ ρ, n.net.relays[r]? = some ρ ∧ ρ.dst = i ∧ ((n.net.sys i).node .host).obj ρ.call = some o ∧ new ≠ []) ?_ ?_ ?_
    · rintro r s ⟨ρ, h1, h2, h3, hne⟩ ⟨σ, h4, h5, h6, _⟩
      obtain ⟨id, hgs⟩ := hh.known hne
      have hlook := ((h.one i).loc .host).entries.lookup hgs
      have hkin := h.kin
      obtain ⟨_, _, _, c1, hc1, _⟩ := (hkin.good.kept ρ (List.mem_of_getElem? h1)).toward
      obtain ⟨_, _, _, c2, hc2, _⟩ := (hkin.good.kept σ (List.mem_of_getElem? h4)).toward
      rw [h2] at hc1
      rw [h5] at hc2
      have := index_unique ((h.one i).loc .host) (h.bounded i .host) hc1 hc2 ((hlook _ _ hc1 h3).trans (hlook _ _ hc2 h6).symm)
      exact hkin.good.apart r s ρ σ h1 h4 (h2.trans h5.symm) this
    · intro r _ hn
      unfold relayWork
      cases hr : n.net.relays[r]? with
      | none => exact Nat.le_refl _
      | some ρ =>
        simp only [hrel, hsame ρ fun ⟨a, b, c⟩ => hn ⟨ρ, hr, a, b, c⟩]
        exact Nat.le_refl _
    · intro r _
      unfold relayWork
      cases hr : n.net.relays[r]? with
      | none => simp
      | some ρ =>
        simp only [hrel]
        have := hmost ρ
        omega
  refine ⟨?_, calls_assign fun e => by rw [hc]; omega, fun k hk => assign_ne _ _ (by omega)⟩
  have ht := total_assign (n := n) hi y (fun k j => !n.net.passed k j)
  have := hw fun j => !n.net.passed i j
  show total (fun k => sysWork (fun j => !n.net.passed k j) (assign n.net.sys i y k)) N + total (relayWork _ begun) n.net.relays.length < _
  unfold work
  omega

theorem ahead_subscribe (h : Fine N m gs ask n said begun) {i j : Nat} {y : WasmCalls.Sys (Hand G)}
    (hr : ∃ ρ ∈ n.net.relays, ρ.dst = i ∧ ρ.call = j) (hs : (n.net.sys i).step (hands m gs i) (.subscribe .host j) = some y) :
    Ahead N n begun ⟨⟨assign n.net.sys i y, n.net.relays⟩, n.sent⟩ begun := by
  obtain ⟨ρ, hρ, rfl, rfl⟩ := hr
  obtain ⟨d, hd, hdst, c, hc, hk, hdat, hmd⟩ := (h.kin.good.kept ρ hρ).toward
  simp only [WasmCalls.Sys.step, Option.map_eq_some_iff] at hs
  obtain ⟨⟨n1, out⟩, h1, rfl⟩ := hs
  have hno : ((n.net.sys ρ.dst).node .host).obj ρ.call = none := by
    unfold Node.subscribe at h1
    split at h1
    · assumption
    · cases h1
  have hnf : c.kind ≠ .fnf := by
    intro hf
    unfold Node.subscribe at h1
    rw [hc, hno] at h1
    simp only [openAct, hf] at h1
    cases h1
  obtain ⟨c', o, hc', _, hn1, hout⟩ := subscribe_obj h1
  cases hc.symm.trans hc'
  have e1 : n1.calls = ((n.net.sys ρ.dst).node .host).calls := by rw [hn1]
  have e2 : n1.peer.tasks = ((n.net.sys ρ.dst).node .host).peer.tasks := by rw [hn1]; rfl
  have e3 : n1.jobs = ((n.net.sys ρ.dst).node .host).jobs := by rw [hn1]
  have e4 : n1.obj = fun i => if i = ρ.call then some ((n.net.sys ρ.dst).node .host).peer.st.objs.length else ((n.net.sys ρ.dst).node .host).obj i := by rw [hn1]
  have e5 : n1.peer.log = ((n.net.sys ρ.dst).node .host).peer.log := by rw [hn1]; rfl
  dsimp only
  have hi : ρ.dst < N := h.lt fun he => by rw [he] at hc; simp [WasmCalls.Sys.init, Node.init] at hc
  have hwork : ∀ u : Job (Hand G) → Bool, sysWork u ((n.net.sys ρ.dst).put .host n1 out false) = sysWork u (n.net.sys ρ.dst) + wireWork .host out := by
    intro u
    rw [work_put, work_at (n.net.sys ρ.dst) .host]
    simp only [nodeWork, e2, e3]; simp; omega
  have hcost : wireWork .host out + 1 ≤ hearing ρ.job.kind := by
    rcases hout with rfl | ⟨hrr, rfl⟩
    · rw [← hk]
      show 0 + 1 ≤ _
      cases hck : c.kind <;> simp [hearing]
      exact hnf hck
    · rw [← hk, hrr]; exact Nat.le_refl 9
  obtain ⟨r0, hr0⟩ := List.mem_iff_getElem?.mp hρ
  have hr0l : r0 < n.net.relays.length := (List.getElem?_eq_some_iff.mp hr0).1
  have hfresh : signals ((n.net.sys ρ.dst).node .host).peer.st.objs.length ((n.net.sys ρ.dst).node .host).peer.log = [] := by
    rw [Props.WasmStreams.signals_told]
    exact ((h.one ρ.dst).loc .host).untold _ (Nat.le_refl _)
  refine ⟨?_, calls_assign fun e => ?_, fun k hk => assign_ne _ _ (by omega)⟩
  · have ht := total_assign (n := n) hi ((n.net.sys ρ.dst).put .host n1 out false)
      (fun k j => !n.net.passed k j)
    rw [hwork] at ht
    have hheard : ∀ σ : Relay G, heardFrames (⟨assign n.net.sys ρ.dst ((n.net.sys ρ.dst).put .host n1 out false),
        n.net.relays⟩ : MeshCalls.Net G) σ = heardFrames n.net σ := by
      intro σ
      unfold heardFrames
      by_cases hk : σ.dst = ρ.dst
      · simp only [hk, assign_same, put_node, e4, e5]
        by_cases hcall : σ.call = ρ.call
        · simp only [hcall, if_true, hno]
          rw [relayed_cut, hfresh]; rfl
        · simp only [if_neg hcall]
      · simp only [assign_ne _ _ hk]
    have hfall := total_fall (f := relayWork n begun) (f' := relayWork (⟨⟨assign n.net.sys ρ.dst ((n.net.sys ρ.dst).put .host n1 out false),
        n.net.relays⟩, n.sent⟩ : MeshStreams.Net G) begun) (i := r0) (D := hearing ρ.job.kind) ?_ hr0l ?_
    · show total (fun k => sysWork (fun j => !n.net.passed k j) (assign n.net.sys ρ.dst _ k)) N + total (relayWork _ begun) n.net.relays.length < _
      unfold work
      omega
    · unfold relayWork
      simp only [hr0, hheard, assign_same, put_node, e4, hno]
      simp; omega
    · intro r _
      unfold relayWork
      cases hr : n.net.relays[r]? with
      | none => exact Nat.le_refl _
      | some σ =>
        simp only [hheard]
        by_cases hk : σ.dst = ρ.dst
        · simp only [hk, assign_same, put_node, e4]
          by_cases hcall : σ.call = ρ.call
          · simp only [hcall, if_true]; simp
          · simp only [if_neg hcall]; exact Nat.le_refl _
        · simp only [assign_ne _ _ hk]; exact Nat.le_refl _
  · cases e
    · rw [put_node, e1]; omega
    · exact Nat.le_succ _

theorem ahead_start (h : Fine N m gs ask n said begun) {i j : Nat} {k : UInt32} {y : WasmCalls.Sys (Hand G)}
    (hr : ∃ ρ ∈ n.net.relays, ρ.dst = i ∧ ρ.call = j) (hnew : j ∉ begun i .host)
    (hs : (n.net.sys i).step (hands m gs i) (.start .host j k) = some y) :
    Ahead N n begun ⟨⟨assign n.net.sys i y, n.net.relays⟩, n.sent⟩ (begins begun i (.start .host j k)) := by
  obtain ⟨ρ, hρ, rfl, rfl⟩ := hr
  obtain ⟨d, hd, hdst, c, hc, hk, hdat, hmd⟩ := (h.kin.good.kept ρ hρ).toward
  simp only [WasmCalls.Sys.step, Option.bind_eq_some_iff] at hs
  obtain ⟨c', hc', hs⟩ := hs
  cases hc.symm.trans hc'
  split at hs
  case isFalse => cases hs
  rename_i hmany
  obtain ⟨v, rfl⟩ : ∃ v, y = (n.net.sys ρ.dst).put .host ((n.net.sys ρ.dst).node .host) [.request v] false := ⟨_, (Option.some.inj hs).symm⟩
  have hi : ρ.dst < N := h.lt fun he => by rw [he] at hc; simp [WasmCalls.Sys.init, Node.init] at hc
  have hnode : ∀ (out : List Frame) (t : End), ((n.net.sys ρ.dst).put .host ((n.net.sys ρ.dst).node .host) out false).node t = (n.net.sys ρ.dst).node t := by
    intro out t
    cases t
    · exact put_node
    · rfl
  have hsame : ∀ (out : List Frame) (q : Nat) (t : End), (assign n.net.sys ρ.dst ((n.net.sys ρ.dst).put .host ((n.net.sys ρ.dst).node .host) out false) q).node t =
      (n.net.sys q).node t := by
    intro out q t
    by_cases hq : q = ρ.dst
    · rw [hq, assign_same, hnode]
    · rw [assign_ne _ _ hq]
  have hwork : ∀ (u : Job (Hand G) → Bool) (v : RequestPayload), sysWork u ((n.net.sys ρ.dst).put .host ((n.net.sys ρ.dst).node .host) [.request v] false) =
      sysWork u (n.net.sys ρ.dst) + 8 := by
    intro u v
    rw [work_put, work_at (n.net.sys ρ.dst) .host, show wireWork .host [.request v] = 8 from rfl]
    simp; omega
  obtain ⟨r0, hr0⟩ := List.mem_iff_getElem?.mp hρ
  have hr0l : r0 < n.net.relays.length := (List.getElem?_eq_some_iff.mp hr0).1
  have hbeg : ∀ q x, x ∈ begun q .host → x ∈ begins begun ρ.dst (.start .host ρ.call k) q .host := by
    intro q x hx
    unfold begins
    split
    · rename_i hq; subst hq; exact List.mem_append_left _ hx
    · exact hx
  refine ⟨?_, calls_assign fun e => by rw [hnode]; omega, fun k hk => assign_ne _ _ (by omega)⟩
  have ht := total_assign (n := n) hi ((n.net.sys ρ.dst).put .host ((n.net.sys ρ.dst).node .host) [.request v] false) (fun k j => !n.net.passed k j)
  rw [hwork] at ht
  have hfall := total_fall (f := relayWork n begun) (f' := relayWork (⟨⟨assign n.net.sys ρ.dst ((n.net.sys ρ.dst).put .host ((n.net.sys ρ.dst).node .host) [.request v] false), n.net.relays⟩, n.sent⟩ : MeshStreams.Net G)
    (begins begun ρ.dst (.start .host ρ.call k))) (i := r0) (D := 9) ?_ hr0l ?_
  · show total (fun k => sysWork (fun j => !n.net.passed k j) (assign n.net.sys ρ.dst _ k)) N + total (relayWork _ _) n.net.relays.length < _
    unfold work
    omega
  · have hmem : ρ.call ∈ begins begun ρ.dst (.start .host ρ.call k) ρ.dst .host := by
      unfold begins
      rw [if_pos rfl]
      exact List.mem_append_right _ (by simp [startedIn])
    have hmany' : many ρ.job.kind = true := by rw [← hk]; exact hmany
    unfold relayWork heardFrames
    simp only [hr0, hsame, hmem, hnew, hmany', not_true_eq_false, not_false_eq_true, and_false, and_self, if_true, if_false]
    omega
  · intro r _
    unfold relayWork heardFrames
    cases hr : n.net.relays[r]? with
    | none => exact Nat.le_refl _
    | some σ =>
      simp only [hsame]
      have : (if many σ.job.kind = true ∧ σ.call ∉ begins begun ρ.dst (.start .host ρ.call k) σ.dst .host then 9 else 0) ≤
          (if many σ.job.kind = true ∧ σ.call ∉ begun σ.dst .host then 9 else 0) := by
        split
        · rename_i hq
          rw [if_pos ⟨hq.1, fun hx => hq.2 (hbeg _ _ hx)⟩]; exact Nat.le_refl _
        · exact Nat.zero_le _
      omega

theorem host_job (h : Fine N m gs ask n said begun) {i : Nat} {j : Job (Hand G)} (hj : j ∈ ((n.net.sys i).node .host).jobs) :
    ∃ c ∈ ((n.net.sys i).node .guest).calls, ∃ d, j.handler = .relay d ∧ d.instance_ < N ∧ Serves .host (hands m gs i .host) c j := by
  obtain ⟨c, hc, hsv⟩ := ((h.one i).link .guest).jobs j hj
  obtain ⟨op, _, hop⟩ := hsv.handler
  obtain ⟨d, hd, he⟩ := Option.map_eq_some_iff.mp hop
  exact ⟨c, hc, d, he.symm, h.within.linked _ _ _ _ hd, hsv⟩

theorem ahead_pass (h : Fine N m gs ask n said begun) {n' : MeshCalls.Net G} {i x : Nat} {j : Job (Hand G)} {d : Dest} {ctx : Ctx}
    (ht : n.net.target i x = some (j, d)) (hf : n.net.forward (hands m gs) i j d ctx = .ok (some n')) : Ahead N n begun ⟨n', n.sent⟩ begun := by
  obtain ⟨hj, hjd, hnp⟩ := target_some ht
  obtain ⟨y, h4, h1, rfl⟩ := forward_some hf
  have hjm := List.mem_of_getElem? hj
  obtain ⟨c, hc, d', hd', hdN, hsv⟩ := host_job h hjm
  cases hjd.symm.trans hd'
  obtain ⟨id, nd, hy, e1, e2, e3, e4, e5⟩ := call_shape h1
  have hi : i < N := h.lt fun he => by rw [he] at hj; simp [WasmCalls.Sys.init, Node.init] at hj
  let n1 : MeshCalls.Net G := ⟨n.net.sys, n.net.relays ++ [⟨i, j, d.instance_, ((n.net.sys d.instance_).node .host).calls.length⟩]⟩
  have hstep1 : total (fun k => sysWork (fun x => !n1.passed k x) (n.net.sys k)) N + 11 ≤
      total (fun k => sysWork (fun x => !n.net.passed k x) (n.net.sys k)) N := by
    have ht := total_change (f := fun k => sysWork (fun x => !n.net.passed k x) (n.net.sys k))
      (f' := fun k => sysWork (fun x => !n1.passed k x) (n.net.sys k)) (i := i) (fun k hk => by
        refine congrArg (fun u => sysWork u (n.net.sys k)) (funext fun x => ?_)
        rw [passed_snoc]; simp [Ne.symm hk]) hi
    have : sysWork (fun x => !n1.passed i x) (n.net.sys i) + 11 ≤ sysWork (fun x => !n.net.passed i x) (n.net.sys i) := by
      have hlt : ((n.net.sys i).node .host).jobs.countP (fun x => !n1.passed i x) < ((n.net.sys i).node .host).jobs.countP (fun x => !n.net.passed i x) := by
        refine countP_lt (x := j) ?_ hjm ?_ ?_
        · intro z _ hz
          rw [passed_snoc] at hz
          simp at hz ⊢; exact hz.1
        · rw [passed_snoc]; simp
        · simp [hnp]
      simp only [sysWork, nodeWork]; simp; omega
    omega
  have hhost : (y.node .host) = nd := by rw [hy]; exact put_node
  have hguest : (y.node .guest) = (n.net.sys d.instance_).node .guest := by rw [hy]; rfl
  have hwork : ∀ u : Job (Hand G) → Bool, sysWork u y = sysWork u (n.net.sys d.instance_) + (if j.kind = .fnf then 8 else 0) := by
    intro u
    have hw : wireWork .host (if j.kind = .fnf then [.request (requestFrame j.kind id j.data (be32 d.index ++ j.metadata.drop 4))] else []) =
        if j.kind = .fnf then 8 else 0 := by split <;> rfl
    rw [hy, work_put, work_at (n.net.sys d.instance_) .host, hw]
    simp only [nodeWork, e2, e4]; simp; omega
  have hstep2 := total_assign (n := n) hdN y (fun k x => !n1.passed k x)
  rw [hwork] at hstep2
  have hobj : ∀ q x, ((assign n.net.sys d.instance_ y q).node .host).obj x = ((n.net.sys q).node .host).obj x := by
    intro q x
    by_cases hq : q = d.instance_
    · rw [hq, assign_same, hhost, e3]
    · rw [assign_ne _ _ hq]
  have hlog : ∀ q, ((assign n.net.sys d.instance_ y q).node .host).peer.log = ((n.net.sys q).node .host).peer.log := by
    intro q
    by_cases hq : q = d.instance_
    · rw [hq, assign_same, hhost, e2]
    · rw [assign_ne _ _ hq]
  have hnone : ((n.net.sys d.instance_).node .host).obj ((n.net.sys d.instance_).node .host).calls.length = none := by
    cases ho : ((n.net.sys d.instance_).node .host).obj ((n.net.sys d.instance_).node .host).calls.length with
    | none => rfl
    | some o => have := (((h.one d.instance_).loc .host).objs _ _ ho).1; omega
  refine ⟨?_, calls_assign fun e => ?_, fun k hk => assign_ne _ _ (by omega)⟩
  · have hrel : total (relayWork (⟨⟨assign n.net.sys d.instance_ y, n1.relays⟩, n.sent⟩ : MeshStreams.Net G) begun) n.net.relays.length ≤
        total (relayWork n begun) n.net.relays.length := by
      refine total_le fun r hr => ?_
      unfold relayWork heardFrames
      show (match (n.net.relays ++ _)[r]? with | none => _ | some ρ => _) ≤ _
      rw [List.getElem?_append_left hr]
      cases n.net.relays[r]? with
      | none => exact Nat.le_refl _
      | some σ => simp only [hobj, hlog]; exact Nat.le_refl _
    have hlast : relayWork (⟨⟨assign n.net.sys d.instance_ y, n1.relays⟩, n.sent⟩ : MeshStreams.Net G) begun n.net.relays.length +
        (if j.kind = .fnf then 8 else 0) ≤ 10 := by
      have hg : n1.relays[n.net.relays.length]? = some ⟨i, j, d.instance_, ((n.net.sys d.instance_).node .host).calls.length⟩ := by
        show (n.net.relays ++ _)[n.net.relays.length]? = _
        simp
      unfold relayWork heardFrames
      simp only [hg, hobj, hnone]
      cases hk : j.kind <;> simp [hearing, many]
      all_goals split <;> omega
    have hlen : n1.relays.length = n.net.relays.length + 1 := by
      show (n.net.relays ++ _).length = _
      simp
    show total (fun k => sysWork (fun x => !n1.passed k x) (assign n.net.sys d.instance_ y k)) N +
      total (relayWork (⟨⟨assign n.net.sys d.instance_ y, n1.relays⟩, n.sent⟩ : MeshStreams.Net G) begun) n1.relays.length < _
    rw [hlen]
    unfold work
    simp only [total]
    omega
  · cases e
    · rw [hhost, e1]; simp
    · rw [hguest]; exact Nat.le_succ _

theorem ahead_relay (h : Fine N m gs ask n said begun) {r x : Nat} {ρ : Relay G} {f : Frame} {y : WasmCalls.Sys (Hand G)}
    (hρ : n.net.relays[r]? = some ρ) (hf : (heardFrames n.net ρ)[n.sent r]? = some f)
    (hs : (n.net.sys ρ.src).step (hands m gs ρ.src) (.emit .host x f) = some y) :
    Ahead N n begun ⟨⟨assign n.net.sys ρ.src y, n.net.relays⟩, assign n.sent r (n.sent r + 1)⟩ begun := by
  simp only [WasmCalls.Sys.step, Option.bind_eq_some_iff] at hs
  obtain ⟨j, hj, hs⟩ := hs
  split at hs
  case isFalse => cases hs
  cases hs
  have hi : ρ.src < N := h.lt fun he => by rw [he] at hj; simp [WasmCalls.Sys.init, Node.init] at hj
  have hnode : ∀ t : End, ((n.net.sys ρ.src).put .host ((n.net.sys ρ.src).node .host) [f] false).node t = (n.net.sys ρ.src).node t := by
    intro t
    cases t
    · exact put_node
    · rfl
  have hsame : ∀ (q : Nat) (t : End), (assign n.net.sys ρ.src ((n.net.sys ρ.src).put .host ((n.net.sys ρ.src).node .host) [f] false) q).node t =
      (n.net.sys q).node t := by
    intro q t
    by_cases hq : q = ρ.src
    · rw [hq, assign_same, hnode]
    · rw [assign_ne _ _ hq]
  have hw1 : wireWork .host [f] = 1 := by
    have := (heard_loud (List.mem_of_getElem? hf)).1
    cases f <;> first | rfl | cases this
  have hwork : ∀ u : Job (Hand G) → Bool, sysWork u ((n.net.sys ρ.src).put .host ((n.net.sys ρ.src).node .host) [f] false) = sysWork u (n.net.sys ρ.src) + 1 := by
    intro u
    rw [work_put, work_at (n.net.sys ρ.src) .host, hw1]
    simp; omega
  have hrl : r < n.net.relays.length := (List.getElem?_eq_some_iff.mp hρ).1
  have hlt : n.sent r < (heardFrames n.net ρ).length := (List.getElem?_eq_some_iff.mp hf).1
  refine ⟨?_, calls_assign fun e => by rw [hnode]; omega, fun k hk => assign_ne _ _ (by omega)⟩
  have ht := total_assign (n := n) hi ((n.net.sys ρ.src).put .host ((n.net.sys ρ.src).node .host) [f] false) (fun k j => !n.net.passed k j)
  rw [hwork] at ht
  have hheard : ∀ σ : Relay G, heardFrames (⟨assign n.net.sys ρ.src ((n.net.sys ρ.src).put .host ((n.net.sys ρ.src).node .host) [f] false), n.net.relays⟩ :
      MeshCalls.Net G) σ = heardFrames n.net σ := by
    intro σ; unfold heardFrames; simp only [hsame]
  have hfall := total_fall (f := relayWork n begun) (f' := relayWork (⟨⟨assign n.net.sys ρ.src ((n.net.sys ρ.src).put .host ((n.net.sys ρ.src).node .host) [f] false),
    n.net.relays⟩, assign n.sent r (n.sent r + 1)⟩ : MeshStreams.Net G) begun) (i := r) (D := 2) ?_ hrl ?_
  · show total (fun k => sysWork (fun j => !n.net.passed k j) (assign n.net.sys ρ.src _ k)) N + total (relayWork _ begun) n.net.relays.length < _
    unfold work
    omega
  · unfold relayWork
    simp only [hρ, hsame, hheard, assign_same]
    omega
  · intro s _
    unfold relayWork
    cases hr : n.net.relays[s]? with
    | none => exact Nat.le_refl _
    | some σ =>
      simp only [hsame, hheard]
      by_cases hsr : s = r
      · subst hsr; rw [assign_same]; omega
      · rw [assign_ne _ _ hsr]; exact Nat.le_refl _

/-- Every step that goes on leaves less to do. -/
theorem goes_ahead (h : Fine N m gs ask n said begun) {n' : MeshStreams.Net G} {a : MeshStreams.Act} {i : Nat} {b : WasmCalls.Act} (ha : Goes n begun a)
    (hd : n.doing a = some (i, b)) (hs : n.step (hands m gs) a = some n') : Ahead N n begun n' (begins begun i b) := by
  cases a with
  | net a =>
    simp only [MeshStreams.Net.step] at hs
    split at hs
    · cases hs
    obtain ⟨n1, h1, rfl⟩ := Option.map_eq_some_iff.mp hs
    cases a with
    | own k c =>
      cases hd
      simp only [Net.step] at h1
      split at h1
      · cases h1
      obtain ⟨y, h2, rfl⟩ := at_step h1
      cases b with
      | recv e data => rw [begins_none fun _ => rfl]; exact ahead_down h (a := .recv e data) trivial trivial h2
      | task e x live => rw [begins_none fun _ => rfl]; exact ahead_down h (a := .task e x live) trivial ha h2
      | answer e x r => rw [begins_none fun _ => rfl]; exact ahead_down h (a := .answer e x r) trivial ha h2
      | subscribe e j =>
        cases e with
        | host => rw [begins_none fun _ => rfl]; exact ahead_subscribe h ha h2
        | guest => exact absurd ha id
      | start e j k =>
        cases e with
        | host => exact ahead_start h ha.1 ha.2.2 h2
        | guest => exact absurd ha id
      | _ => exact absurd ha id
    | pass k x ctx =>
      simp only [MeshStreams.Net.doing] at hd
      simp only [Net.step] at h1
      split at h1
      · cases h1
      · rename_i j d ht
        split at h1
        · rename_i r hr
          subst h1
          have hb : begins begun i b = begun := by
            rw [ht] at hd
            simp only at hd
            split at hd
            · cases hd; exact begins_none (fun _ => rfl) _
            · cases hd
          rw [hb]
          exact ahead_pass h ht hr
        · cases h1
    | back r x v =>
      simp only [MeshStreams.Net.doing] at hd
      simp only [Net.step] at h1
      split at h1
      · cases h1
      · rename_i ρ hρ
        rw [hρ] at hd
        cases hd
        split at h1
        · rename_i hc
          obtain ⟨y, h2, rfl⟩ := at_step h1
          rw [begins_none fun _ => rfl]
          refine ahead_down h (a := .answer .host x v) trivial ?_ h2
          exact told_fits (log_fits (h.sys ρ.dst) (h.bounded _) .host) (Props.MeshCalls.heard_told hc.2)
        · cases h1
  | relay r x =>
    simp only [MeshStreams.Net.step] at hs
    simp only [MeshStreams.Net.doing] at hd
    split at hs
    · cases hs
    · rename_i ρ hρ
      rw [hρ] at hd
      simp only at hd
      split at hs
      · split at hs
        · cases hs
        · rename_i f hf
          rw [hf] at hd
          cases hd
          obtain ⟨m1, h1, rfl⟩ := Option.map_eq_some_iff.mp hs
          obtain ⟨y, h2, rfl⟩ := at_step h1
          rw [begins_none fun _ => rfl]
          exact ahead_relay h hρ hf h2
      · cases hs

end

end Iota.Lemmas.MeshDrain
