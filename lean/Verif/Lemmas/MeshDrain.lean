import Verif.Spec.MeshDrain
import Verif.Props.WasmDrain
import Verif.Props.MeshStreams
import Verif.Props.MeshFinish

/-! # Runs of a mesh in which callers of streams only ask for more -/

namespace Iota.Lemmas.MeshDrain
open Iota.Go Iota.Frames Iota.Registry Iota.WasmDispatch Iota.WasmCalls Iota.Mesh Iota.MeshCalls
open Iota.Handler hiding Act
open Iota.Spec.WasmCalls (FitsResult handlers refusal Serves Unknown toldCall inFlight)
open Iota.Spec.WasmStreams (Said saysIn InOrder signals frameFor)
open Iota.Spec.WasmOnce (startedIn)
open Iota.Spec.WasmDrain (Mild FitsSig)
open Iota.Spec.MeshCalls (Linked onward)
open Iota.Spec.MeshStreams (RunFor Voice spoken AllTidy Settled Uncancelled)
open Iota.Spec.MeshFinish (total Within)
open Iota.Spec.MeshDrain
open Iota.Spec.Caller (Sig meaning)
open Iota.MeshStreams (relayed heardFrames)
open Iota.Peers (Result requestFrame answerFrame isRequest)
open Iota.Props.WasmCalls (put_node put_other other_other other_ne eq_or_other call_unique index_unique good_reach)
open Iota.Props.WasmDrain (Took Worked Fits FitsEv recv_mild task_mild sum_erase fine_mildly mildly_reach mildly_once subscribe_obj)
open Iota.Props.WasmFinish (answer_simple countP_erase)
open Iota.Props.MeshFinish (total_change countP_lt count_erase call_shape passed_snoc)
open Iota.Props.MeshCalls (assign_same assign_ne at_step mesh_good target_some forward_some bounded_back)
open Iota.Props.MeshStreams (cut relayed_cut step_net step_doing step_relays Kin kin_told heard_loud)

variable {H : Type} {ask : End → Prop}

/-! ## What is heard fits into frames -/

/-- Every signal an end was told fits into a frame. -/
theorem log_fits {hs : End → Handlers H} {y : WasmCalls.Sys H} {said : End → List (Said H)} {sent : End → List Nat}
    (h : Spec.WasmDrain.Mildly hs ask y said sent) (hb : Spec.WasmCalls.Bounded y) (t : End) : ∀ ev ∈ (y.node t).peer.log, FitsEv ev := by
  induction h with
  | init => intro ev hev; exact absurd hev List.not_mem_nil
  | @step y y' said sent a hm ho hf h1 h2 ih =>
    have hb1 := Props.WasmCalls.bounded_before h2 hb
    have ih := ih hb1
    have hg := good_reach (mildly_reach hm) hb1
    have hfine := fine_mildly hm hb1
    have key : ∀ (e : End) (n : Node H) (out : List Frame) (r : Bool), (e = t → ∀ ev ∈ n.peer.log, FitsEv ev) →
        ∀ ev ∈ ((y.put e n out r).node t).peer.log, FitsEv ev := by
      intro e n out r hn
      rcases eq_or_other e t with rfl | rfl
      · rw [put_node]; exact hn rfl
      · rw [put_other]; exact ih
    have same : ∀ (e : End) (n : Node H) (out : List Frame) (r : Bool), n.peer.log = (y.node e).peer.log →
        ∀ ev ∈ ((y.put e n out r).node t).peer.log, FitsEv ev := by
      intro e n out r hn
      refine key e n out r ?_
      rintro rfl
      rw [hn]; exact ih
    cases a with
    | call e k d m ctx =>
      obtain ⟨id, n, rfl, _, e2, _⟩ := call_shape h2
      exact same _ _ _ _ (by rw [e2])
    | subscribe e j =>
      simp only [WasmCalls.Sys.step, Option.map_eq_some_iff] at h2
      obtain ⟨⟨n, out⟩, h3, rfl⟩ := h2
      obtain ⟨c, o, _, _, rfl, _⟩ := subscribe_obj h3
      exact same _ _ _ _ rfl
    | start e j n =>
      simp only [WasmCalls.Sys.step, Option.bind_eq_some_iff] at h2
      obtain ⟨c, h3, h4⟩ := h2
      split at h4
      · cases h4; exact same _ _ _ _ rfl
      · cases h4
    | own e j f =>
      simp only [WasmCalls.Sys.step, Option.bind_eq_some_iff] at h2
      obtain ⟨c, h3, h4⟩ := h2
      split at h4
      · cases h4; exact same _ _ _ _ rfl
      · cases h4
    | recv e data =>
      obtain ⟨f, p, _, ht, rfl⟩ := recv_mild hg hb1 hfine h2
      refine key _ _ _ _ ?_
      rintro rfl
      show ∀ ev ∈ p.log, FitsEv ev
      cases ht with
      | request v k => simpa [Peer.after] using ih
      | dropped => exact ih
      | demand v i o => simpa [Peer.after] using ih
      | heard f i st evs _ _ _ _ h5 _ =>
        intro ev hev
        rcases List.mem_append.mp hev with hev | hev
        · exact ih ev hev
        · exact h5 ev hev
    | task e i live =>
      have : live = true := h1
      subst this
      obtain ⟨p, hw, hcase⟩ := task_mild hg h2
      have hp : e = t → ∀ ev ∈ p.log, FitsEv ev := by
        rintro rfl
        cases hw with
        | refused k id d m n msg ht hl =>
          intro ev hev
          rcases List.mem_append.mp hev with hev | hev
          · exact ih ev hev
          · cases List.mem_singleton.mp hev; trivial
        | ran k id d m n g parent ht =>
          obtain ⟨_, _, _, hlog⟩ := Props.WasmDispatch.accept_tasks e { (y.node e).peer with tasks := (y.node e).peer.tasks.eraseIdx i } k g id d m n parent
          rw [hlog]
          intro ev hev
          rcases List.mem_append.mp hev with hev | hev
          · exact ih ev hev
          · cases List.mem_singleton.mp hev; trivial
        | attached j n ht =>
          intro ev hev
          rcases List.mem_append.mp hev with hev | hev
          · exact ih ev hev
          · cases List.mem_singleton.mp hev; trivial
        | demanded j n ht =>
          intro ev hev
          rcases List.mem_append.mp hev with hev | hev
          · exact ih ev hev
          · cases List.mem_singleton.mp hev; trivial
      rcases hcase with ⟨_, _, _, _, _, _, _, _, _, _, _, _, rfl⟩ | ⟨_, _, _, _, _, _, _, _, _, _, _, rfl⟩ | ⟨_, _, _, _, rfl⟩
      all_goals exact key _ _ _ _ hp
    | startIn e i live =>
      simp only [WasmCalls.Sys.step, WasmCalls.Sys.does] at h2
      split at h2
      · rename_i p hp
        cases h2; cases hp
        exact same _ _ _ _ rfl
      · cases h2
    | openSink e i =>
      simp only [WasmCalls.Sys.step, WasmCalls.Sys.does] at h2
      split at h2
      · rename_i p hp
        cases h2; cases hp
        exact same _ _ _ _ rfl
      · cases h2
    | answer e i r =>
      obtain ⟨x, _, _, rfl⟩ := answer_simple h2
      exact same _ _ _ _ rfl
    | emit e i f =>
      simp only [WasmCalls.Sys.step, Option.bind_eq_some_iff] at h2
      obtain ⟨c, h3, h4⟩ := h2
      split at h4
      · cases h4; exact same _ _ _ _ rfl
      · cases h4

theorem signals_fit {o : Nat} {log : List (Ev (H × Ctx))} (h : ∀ ev ∈ log, FitsEv ev) : ∀ s ∈ signals o log, FitsSig s := by
  intro s hs
  obtain ⟨ev, hev, he⟩ := List.mem_filterMap.mp hs
  have := h ev hev
  cases ev <;> simp only [Spec.WasmCalls.signal] at he
  all_goals first
    | (cases he; done)
    | (split at he
       · cases he; first | exact this | trivial
       · cases he)

theorem cut_mem {s : Sig} : ∀ {l : List Sig}, s ∈ cut l → s ∈ l
  | .next d m :: l, h => by
    rcases List.mem_cons.mp h with rfl | h
    · exact List.mem_cons_self
    · exact List.mem_cons_of_mem _ (cut_mem h)
  | .complete :: l, h => by cases List.mem_singleton.mp h; exact List.mem_cons_self
  | .error m :: l, h => by cases List.mem_singleton.mp h; exact List.mem_cons_self

theorem cut_length (a b : List Sig) : (cut (a ++ b)).length ≤ (cut a).length + b.length := by
  induction a with
  | nil =>
    have : ∀ b : List Sig, (cut b).length ≤ b.length := by
      intro b
      induction b with
      | nil => exact Nat.le_refl _
      | cons s b ih => cases s <;> simp only [cut, List.length_cons, List.length_nil] <;> omega
    have := this b
    simp only [List.nil_append, cut, List.length_nil]; omega
  | cons s a ih =>
    cases s <;> simp only [List.cons_append, cut, List.length_cons, List.length_nil] <;> omega

theorem told_fits {n : Node H} (h : ∀ ev ∈ n.peer.log, FitsEv ev) {j : Nat} {r : Result} (hr : r ∈ toldCall n j) : FitsResult r := by
  unfold toldCall at hr
  split at hr
  · exact absurd hr List.not_mem_nil
  · rename_i o _
    obtain ⟨s, hs, he⟩ := List.mem_filterMap.mp hr
    have := signals_fit h s hs
    cases s <;> cases he <;> exact this


/-! ## Runs of a mesh are runs of its instances -/

variable {G : Type} [DecidableEq G]

theorem mildly_told {hs : Nat → End → Handlers (Hand G)} {n : MeshStreams.Net G} {said : Words G} {begun : Begun}
    (h : Mildly hs ask n said begun) : Spec.MeshStreams.Told hs n said := by
  induction h with
  | init => exact .init
  | step a i b _ h1 h2 _ _ h3 ih => exact .step a i b ih h1 h2 h3

theorem mildly_net {hs : Nat → End → Handlers (Hand G)} {n : MeshStreams.Net G} {said : Words G} {begun : Begun}
    (h : Mildly hs ask n said begun) : MeshCalls.Reach hs n.net := by
  induction h with
  | init => exact .init
  | step a i b _ _ _ _ _ h3 ih =>
    obtain ⟨a', h4⟩ := step_net h3
    exact .step a' ih h4

/-- What a host does for others is mild. -/
theorem doing_mild {m : Mesh} {gs : Nat → Handlers G} {n n' : MeshStreams.Net G} {said : Words G} {begun : Begun} {a : MeshStreams.Act} {i : Nat}
    {b : WasmCalls.Act} (hsys : ∀ i, Spec.WasmDrain.Mildly (hands m gs i) ask (n.net.sys i) (said i) (begun i))
    (hb : Spec.MeshCalls.Bounded n.net) (hd : n.doing a = some (i, b)) (ho : ∀ k c, a = .net (.own k c) → Mild ask c)
    (h : n.step (hands m gs) a = some n') : Mild ask b := by
  cases a with
  | net a =>
    cases a with
    | own k c => cases hd; exact ho _ _ rfl
    | pass k x ctx =>
      simp only [MeshStreams.Net.doing] at hd
      split at hd
      · cases hd
      · rename_i j d ht
        obtain ⟨hj, hjd, _⟩ := target_some ht
        have hg := good_reach (mildly_reach (hsys k)) (hb k)
        obtain ⟨c, hc, hsv⟩ := (hg.link .guest).jobs j (List.mem_of_getElem? hj)
        have hfit := (fine_mildly (hsys k) (hb k)).small .guest c hc
        have hmd : j.metadata = c.metadata := by rw [hsv.metadata]; rfl
        split at hd
        · rename_i md hmd'
          cases hd
          simp only [MeshStreams.Net.step, MeshStreams.Net.speaks, Bool.false_eq_true, if_false] at h
          obtain ⟨q, h1, _⟩ := Option.map_eq_some_iff.mp h
          simp only [Net.step, ht] at h1
          split at h1
          · rename_i r hr
            subst h1
            obtain ⟨y, h4, h5, _⟩ := forward_some hr
            have hlen : md.length = c.metadata.length := by
              have h6 := hr
              unfold Net.forward at h6
              rw [hmd'] at h6
              simp only at h6
              have h6 := Res.ok.inj h6
              obtain ⟨y', h7, h8⟩ := at_step h6
              obtain ⟨id, nd, rfl, e1, _⟩ := call_shape h7
              obtain ⟨id', nd', rfl, e1', _⟩ := call_shape h5
              have h9 := Option.some.inj (h7.symm.trans (h7))
              have : md = be32 d.index ++ j.metadata.drop 4 := by
                unfold Dest.route at hmd'
                simp only at hmd'
                split at hmd' <;> simp_all
              rw [this, List.length_append, List.length_drop, hmd, show (be32 d.index).length = 4 from rfl]
              rw [hmd] at h4; omega
            show md.length < 2 ^ 24 ∧ md.length + j.data.length + 13 < 2 ^ 32
            rw [hlen, hsv.data]; exact hfit
          · cases h1
        · cases hd
    | back r x v =>
      simp only [MeshStreams.Net.doing] at hd
      split at hd
      · cases hd
      · rename_i ρ hρ
        cases hd
        simp only [MeshStreams.Net.step, MeshStreams.Net.speaks, Bool.false_eq_true, if_false] at h
        obtain ⟨q, h1, _⟩ := Option.map_eq_some_iff.mp h
        simp only [Net.step, hρ] at h1
        split at h1
        · rename_i hc
          exact told_fits (log_fits (hsys ρ.dst) (hb _) .host) (Props.MeshCalls.heard_told hc.2)
        · cases h1
  | relay r x =>
    simp only [MeshStreams.Net.doing] at hd
    split at hd
    · cases hd
    · rename_i ρ hρ
      split at hd
      · cases hd
      · rename_i f hf
        cases hd
        have hm := List.mem_of_getElem? hf
        unfold heardFrames at hm
        split at hm
        · exact absurd hm List.not_mem_nil
        · rename_i o _
          rw [relayed_cut] at hm
          obtain ⟨s, hs, rfl⟩ := List.mem_map.mp hm
          refine ⟨s, signals_fit (log_fits (hsys ρ.dst) (hb _) .host) s (cut_mem hs), ?_⟩
          cases s <;> rfl

theorem sys_step {m : Mesh} {gs : Nat → Handlers G} {n n' : MeshStreams.Net G} {said : Words G} {begun : Begun} {a : MeshStreams.Act} {i : Nat}
    {b : WasmCalls.Act} (hsys : ∀ i, Spec.WasmDrain.Mildly (hands m gs i) ask (n.net.sys i) (said i) (begun i)) (hd : n.doing a = some (i, b))
    (hin : InOrder (n.net.sys i) b) (hst : ∀ e, ∀ j ∈ startedIn b e, j ∉ begun i e) (hm : Mild ask b) (h : n.step (hands m gs) a = some n') (k : Nat) :
    Spec.WasmDrain.Mildly (hands m gs k) ask (n'.net.sys k) (adds said i (saysIn (n.net.sys i) (n'.net.sys i) b) k) (begins begun i b k) := by
  obtain ⟨y, hy, he⟩ := step_doing hd h
  by_cases hk : k = i
  · subst hk
    have h1 : adds said k (saysIn (n.net.sys k) (n'.net.sys k) b) k = fun t => said k t ++ saysIn (n.net.sys k) (n'.net.sys k) b t :=
      funext fun t => if_pos rfl
    have h2 : begins begun k b k = fun t => begun k t ++ startedIn b t := funext fun t => if_pos rfl
    rw [h1, h2, he, assign_same]
    exact .step b (hsys k) hin hst hm hy
  · have h1 : adds said i (saysIn (n.net.sys i) (n'.net.sys i) b) k = said k := funext fun t => if_neg hk
    have h2 : begins begun i b k = begun k := funext fun t => if_neg hk
    rw [h1, h2, he, assign_ne _ _ hk]
    exact hsys k

theorem mildly_sys {m : Mesh} {gs : Nat → Handlers G} {n : MeshStreams.Net G} {said : Words G} {begun : Begun}
    (h : Mildly (hands m gs) ask n said begun) (hb : Spec.MeshCalls.Bounded n.net) :
    ∀ i, Spec.WasmDrain.Mildly (hands m gs i) ask (n.net.sys i) (said i) (begun i) := by
  induction h with
  | init => exact fun i => .init
  | step a i b _ hd hin hst hm hs ih =>
    obtain ⟨a', hnet⟩ := step_net hs
    have hb1 := bounded_back hnet hb
    exact sys_step (ih hb1) hd hin hst (doing_mild (ih hb1) hb1 hd hm hs) hs

/-! ## Nothing said by a host cancels -/

theorem says_mild {hs : End → Handlers H} {y : WasmCalls.Sys H} {said : End → List (Said H)} {sent : End → List Nat}
    (h : Spec.WasmDrain.Mildly hs ask y said sent) (hb : Spec.WasmCalls.Bounded y) (t : End) : ∀ s ∈ said t, ∀ v, s.2 ≠ .cancel v := by
  induction h with
  | init => intro s hs; exact absurd hs List.not_mem_nil
  | @step y y' said sent a hm ho hf h1 h2 ih =>
    have hb1 := Props.WasmCalls.bounded_before h2 hb
    have ih := ih hb1
    have hg := good_reach (mildly_reach hm) hb1
    intro s hs
    rcases List.mem_append.mp hs with hs | hs
    · exact ih s hs
    · cases a with
      | emit e i f =>
        simp only [saysIn] at hs
        split at hs
        · obtain ⟨x, _, rfl⟩ := List.mem_map.mp hs
          obtain ⟨sg, _, h4⟩ := h1
          intro v hv
          dsimp only at hv
          rw [hv] at h4
          cases sg <;> cases h4
        · exact absurd hs List.not_mem_nil
      | answer e i r =>
        simp only [saysIn] at hs
        split at hs
        · obtain ⟨x, _, rfl⟩ := List.mem_map.mp hs
          intro v hv
          cases r <;> cases hv
        · exact absurd hs List.not_mem_nil
      | task e i live =>
        simp only [saysIn] at hs
        split at hs
        · rename_i he
          subst he
          obtain ⟨f, hff, rfl⟩ := List.mem_map.mp hs
          have : live = true := h1
          subst this
          obtain ⟨ev, hev, hse⟩ := List.mem_filterMap.mp hff
          obtain ⟨p, hw, hcase⟩ := task_mild hg h2
          have hp : (y'.node t).peer = p := by
            rcases hcase with ⟨_, _, _, _, _, _, _, _, _, _, _, _, rfl⟩ | ⟨_, _, _, _, _, _, _, _, _, _, _, rfl⟩ | ⟨_, _, _, _, rfl⟩ <;> rw [put_node]
          rw [hp] at hev
          intro v hv
          dsimp only at hv
          subst hv
          cases hw with
          | refused k id d m n msg ht hl =>
            simp only [Node.news, Peer.after, List.drop_left] at hev
            cases List.mem_singleton.mp hev; cases hse
          | ran k id d m n g parent ht =>
            obtain ⟨_, _, _, hlog⟩ := Props.WasmDispatch.accept_tasks t { (y.node t).peer with tasks := (y.node t).peer.tasks.eraseIdx i } k g id d m n parent
            simp only [Node.news, hlog, List.drop_left] at hev
            cases List.mem_singleton.mp hev; cases hse
          | attached j n ht =>
            simp only [Node.news, Peer.after, List.drop_left] at hev
            cases List.mem_singleton.mp hev; cases hse
          | demanded j n ht =>
            simp only [Node.news, Peer.after, List.drop_left] at hev
            cases List.mem_singleton.mp hev; cases hse
        · exact absurd hs List.not_mem_nil
      | _ => exact absurd hs List.not_mem_nil

end Iota.Lemmas.MeshDrain
