import Verif.Lemmas.MeshWork

/-! # Streams between the modules of a mesh neither crash nor get stuck (C179) -/

namespace Iota.Props.MeshDrain
open Iota.Go Iota.Frames Iota.Registry Iota.WasmDispatch Iota.WasmCalls Iota.Mesh Iota.MeshCalls
open Iota.Handler hiding Act
open Iota.Spec.WasmCalls (FitsResult handlers refusal Serves Unknown toldCall inFlight)
open Iota.Spec.WasmStreams (Said saysIn InOrder signals frameFor)
open Iota.Spec.WasmOnce (startedIn)
open Iota.Spec.WasmDrain (Mild FitsSig)
open Iota.Spec.MeshCalls (Linked onward)
open Iota.Spec.MeshStreams (RunFor Voice spoken AllTidy Settled Uncancelled)
open Iota.Spec.MeshFinish (total Within)
open Iota.Spec.MeshDrain
open Iota.Spec.Caller (Sig meaning)
open Iota.MeshStreams (relayed heardFrames)
open Iota.Peers (Result requestFrame answerFrame isRequest)
open Iota.Props.WasmCalls (put_node put_other other_other other_ne eq_or_other call_unique index_unique good_reach)
open Iota.Props.WasmDrain (Took Worked Fits FitsEv recv_mild task_mild sum_erase fine_mildly mildly_reach mildly_once subscribe_obj)
open Iota.Props.WasmFinish (answer_simple countP_erase)
open Iota.Props.MeshFinish (total_change countP_lt count_erase call_shape passed_snoc)
open Iota.Props.MeshCalls (assign_same assign_ne at_step mesh_good target_some forward_some bounded_back)
open Iota.Props.MeshStreams (cut relayed_cut step_net step_doing step_relays Kin kin_told heard_loud)
open Iota.Lemmas.MeshDrain

variable {H : Type} {ask : End → Prop}

variable {G : Type} [DecidableEq G]

/-! ## Work of streams stays -/

theorem job_stays {hs : End → Handlers H} {y y' : WasmCalls.Sys H} {b : WasmCalls.Act} (h : y.step hs b = some y') {t : End} {x : Job H}
    (hx : x ∈ (y.node t).jobs) (hk : x.kind ≠ .rr) : x ∈ (y'.node t).jobs := by
  have key : ∀ (e : End) (n : Node H) (out : List Frame) (r : Bool), (e = t → x ∈ n.jobs) → x ∈ ((y.put e n out r).node t).jobs := by
    intro e n out r hn
    rcases eq_or_other e t with rfl | rfl
    · rw [put_node]; exact hn rfl
    · rw [put_other]; exact hx
  have does : ∀ (e : End) (a : WasmDispatch.Act) (r : Bool), y.does hs e a r = some y' → x ∈ (y'.node t).jobs := by
    intro e a r hd
    unfold WasmCalls.Sys.does at hd
    split at hd
    · cases hd
      refine key _ _ _ _ ?_
      rintro rfl
      exact List.mem_append_left _ hx
    · cases hd
  cases b with
  | call e k d m ctx =>
    obtain ⟨id, n, rfl, _, _, _, e4, _⟩ := call_shape h
    exact key _ _ _ _ fun he => by subst he; rw [e4]; exact hx
  | subscribe e j =>
    simp only [WasmCalls.Sys.step, Option.map_eq_some_iff] at h
    obtain ⟨⟨n, out⟩, h3, rfl⟩ := h
    obtain ⟨c, o, _, _, rfl, _⟩ := subscribe_obj h3
    exact key _ _ _ _ fun he => by subst he; exact hx
  | start e j n =>
    simp only [WasmCalls.Sys.step, Option.bind_eq_some_iff] at h
    obtain ⟨c, h3, h4⟩ := h
    split at h4
    · cases h4; exact key _ _ _ _ fun he => by subst he; exact hx
    · cases h4
  | own e j f =>
    simp only [WasmCalls.Sys.step, Option.bind_eq_some_iff] at h
    obtain ⟨c, h3, h4⟩ := h
    split at h4
    · cases h4; exact key _ _ _ _ fun he => by subst he; exact hx
    · cases h4
  | recv e data =>
    simp only [WasmCalls.Sys.step, Option.bind_eq_some_iff] at h
    obtain ⟨f, h3, h4⟩ := h
    split at h4
    · exact does _ _ _ h4
    · cases h4
  | task e i live => exact does _ _ _ h
  | startIn e i live => simp only [WasmCalls.Sys.step] at h; exact does _ _ _ h
  | openSink e i => simp only [WasmCalls.Sys.step] at h; exact does _ _ _ h
  | answer e i r =>
    obtain ⟨z, h1, hz, rfl⟩ := answer_simple h
    refine key _ _ _ _ ?_
    rintro rfl
    rcases Props.WasmCaller.mem_eraseIdx_or h1 hx with he | hm
    · subst he; exact absurd hz hk
    · exact hm
  | emit e j f =>
    simp only [WasmCalls.Sys.step, Option.bind_eq_some_iff] at h
    obtain ⟨c, h3, h4⟩ := h
    split at h4
    · cases h4; exact key _ _ _ _ fun he => by subst he; exact hx
    · cases h4

/-- The work of a host for a stream that was passed on stays. -/
theorem relays_stay {hs : Nat → End → Handlers (Hand G)} {n : MeshStreams.Net G} {said : Words G} {begun : Begun} (h : Mildly hs ask n said begun) :
    ∀ ρ ∈ n.net.relays, ρ.job.kind ≠ .rr → ρ.job ∈ ((n.net.sys ρ.src).node .host).jobs := by
  induction h with
  | init => intro ρ hρ; exact absurd hρ List.not_mem_nil
  | @step n n' said begun a i b _ hd _ _ _ hs ih =>
    obtain ⟨y, hy, hsys⟩ := step_doing hd hs
    have stay : ∀ (k : Nat) (x : Job (Hand G)), x ∈ ((n.net.sys k).node .host).jobs → x.kind ≠ .rr → x ∈ ((n'.net.sys k).node .host).jobs := by
      intro k x hx hk
      rw [hsys]
      by_cases hi : k = i
      · subst hi; rw [assign_same]; exact job_stays hy hx hk
      · rw [assign_ne _ _ hi]; exact hx
    obtain ⟨a', hnet⟩ := step_net hs
    intro ρ hρ hk
    rcases step_relays hnet with he | ⟨p, x, j, d, ht, he⟩
    · rw [he] at hρ; exact stay _ _ (ih ρ hρ hk) hk
    · rw [he] at hρ
      rcases List.mem_append.mp hρ with hρ | hρ
      · exact stay _ _ (ih ρ hρ hk) hk
      · cases List.mem_singleton.mp hρ
        exact stay _ _ (List.mem_of_getElem? (target_some ht).1) hk

section
variable {N : Nat} {m : Mesh} {gs : Nat → Handlers G} {n : MeshStreams.Net G} {said : Words G} {begun : Begun}

/-! ## Something can be done -/

/-- Nothing is under way. -/
structure Still (n : MeshStreams.Net G) (begun : Begun) : Prop where
  idle : Spec.MeshCalls.Idle n.net
  settled : Settled n
  passed : ∀ i, ∀ x ∈ ((n.net.sys i).node .host).jobs, n.net.passed i x = true
  begun : ∀ ρ ∈ n.net.relays, many ρ.job.kind = true → ρ.call ∈ begun ρ.dst .host

theorem own_step {i : Nat} {b : WasmCalls.Act} {y : WasmCalls.Sys (Hand G)} (ha : answersHost b = false) (he : ∀ x f, b ≠ .emit .host x f)
    (h : (n.net.sys i).step (hands m gs i) b = some y) :
    n.step (hands m gs) (.net (.own i b)) = some ⟨⟨assign n.net.sys i y, n.net.relays⟩, n.sent⟩ := by
  have : n.speaks (.own i b) = false := by
    unfold MeshStreams.Net.speaks
    split
    · rename_i heq
      cases heq
      exact absurd rfl (he _ _)
    · rfl
  simp only [MeshStreams.Net.step, this, Props.MeshFinish.own_step (hs := hands m gs) ha h]
  rfl

/-- If something is under way, something can be done. -/
theorem goes_on (h : Fine N m gs ask n said begun) (hroom : ∀ i, ((n.net.sys i).node .host).calls.length < 2 ^ 30 ∨ work N n begun = 0) :
    Still n begun ∨ ∃ a i b n', Goes n begun a ∧ n.doing a = some (i, b) ∧ n.step (hands m gs) a = some n' := by
  have K := h.kin
  by_cases h1 : ∃ i e, ((n.net.sys i).node e).peer.tasks ≠ []
  · obtain ⟨i, e, ht⟩ := h1
    right
    obtain ⟨x, p, hs1⟩ := Props.WasmDrain.some_work (e := e) (hs := hands m gs i e) ((h.tables i).kinds e) ht
    have hst : (n.net.sys i).step (hands m gs i) (.task e x true) =
        some ((n.net.sys i).put e (((n.net.sys i).node e).absorb p) ((((n.net.sys i).node e).news p).filterMap sentOf) false) := by
      simp only [WasmCalls.Sys.step, WasmCalls.Sys.does, hs1]
    exact ⟨_, _, _, _, (show Goes n begun (.net (.own i (.task e x true))) from rfl), rfl, own_step rfl (fun _ _ he => by cases he) hst⟩
  have ht : ∀ i e, ((n.net.sys i).node e).peer.tasks = [] := fun i e => Classical.byContradiction fun hne => h1 ⟨i, e, hne⟩
  by_cases h2 : ∃ i e, (n.net.sys i).wire e ≠ []
  · obtain ⟨i, e, hne⟩ := h2
    right
    obtain ⟨f, l, hl⟩ := List.exists_cons_of_ne_nil hne
    have hmem : f ∈ (n.net.sys i).wire e := by rw [hl]; exact List.mem_cons_self
    obtain ⟨data, hd⟩ := Props.WasmDrain.carries_bytes ((h.tables i).wire e f hmem) (fun c hc => Props.WasmFinish.id_lt ((h.one i).loc e) hc)
      fun c hc => Props.WasmFinish.id_lt ((h.one i).loc _) hc
    have hh : ((n.net.sys i).wire (other (other e))).head? = some f := by rw [other_other, hl]; rfl
    have hrd : ((n.net.sys i).node (other e)).peer.ready (other e) = true := by
      unfold Peer.ready
      split
      · rfl
      · rw [ht]; rfl
    obtain ⟨p, hs1, _⟩ := Props.WasmDrain.can_take (h.one i) (h.bounded i) (h.tables i) (e := other e) (by rw [other_other]; exact hmem) hd hrd
    have hst : (n.net.sys i).step (hands m gs i) (.recv (other e) data) =
        some ((n.net.sys i).put (other e) (((n.net.sys i).node (other e)).absorb p) ((((n.net.sys i).node (other e)).news p).filterMap sentOf) true) := by
      simp only [WasmCalls.Sys.step, hh, Option.bind_some, hd, if_true, WasmCalls.Sys.does, hs1]
    exact ⟨_, _, _, _, (show Goes n begun (.net (.own i (.recv (other e) data))) from trivial), rfl, own_step rfl (fun _ _ he => by cases he) hst⟩
  have hwire : ∀ i e, (n.net.sys i).wire e = [] := fun i e => Classical.byContradiction fun hne => h2 ⟨i, e, hne⟩
  by_cases h3 : ∃ i, ∃ x ∈ ((n.net.sys i).node .guest).jobs, x.kind = .rr
  · obtain ⟨i, x, hx, hk⟩ := h3
    right
    obtain ⟨q, hq⟩ := List.mem_iff_getElem?.mp hx
    have hst : (n.net.sys i).step (hands m gs i) (.answer .guest q (.failure [])) = some ((n.net.sys i).put .guest { (n.net.sys i).node .guest with
        jobs := ((n.net.sys i).node .guest).jobs.eraseIdx q, made := ((n.net.sys i).node .guest).made ++ [(x, .failure [])] }
          [answerFrame x.id (.failure [])] false) := by
      simp only [WasmCalls.Sys.step, Node.answer, hq, hk, if_true, Option.map_some]
    exact ⟨_, _, _, _, (show Goes n begun (.net (.own i (.answer .guest q (.failure [])))) from (by show 0 + 10 < 2 ^ 32; decide)), rfl,
      own_step rfl (fun _ _ he => by cases he) hst⟩
  have hguest : ∀ i, ∀ x ∈ ((n.net.sys i).node .guest).jobs, x.kind ≠ .rr := fun i x hx hk => h3 ⟨i, x, hx, hk⟩
  by_cases h4 : ∃ i, ∃ x ∈ ((n.net.sys i).node .host).jobs, n.net.passed i x = false
  · obtain ⟨i, x, hx, hnp⟩ := h4
    right
    obtain ⟨q, hq⟩ := List.mem_iff_getElem?.mp hx
    obtain ⟨c, hc, d, hd, hdN, hsv⟩ := host_job h hx
    have htg : n.net.target i q = some (x, d) := by
      unfold Net.target; rw [hq]; simp only [hd, hnp, if_true]
    have hrm : ((n.net.sys d.instance_).node .host).calls.length < 2 ^ 30 := by
      rcases hroom d.instance_ with hlt | hz
      · exact hlt
      · exfalso
        have hi : i < N := h.lt fun he => by rw [he] at hq; simp [WasmCalls.Sys.init, Node.init] at hq
        have := total_change (f := fun k => sysWork (fun j => !n.net.passed k j) (n.net.sys k)) (f' := fun k => if k = i then 0 else sysWork (fun j => !n.net.passed k j) (n.net.sys k))
          (i := i) (fun k hk => by simp [hk]) hi
        have hpos : 0 < ((n.net.sys i).node .host).jobs.countP (fun j => !n.net.passed i j) := List.countP_pos_iff.mpr ⟨x, hx, by simp [hnp]⟩
        have : 0 < sysWork (fun j => !n.net.passed i j) (n.net.sys i) := by
          simp only [sysWork, nodeWork]; simp; omega
        unfold work at hz
        simp only [if_true] at *
        omega
    obtain ⟨n', hn'⟩ := Props.MeshCalls.passing_on_works (mildly_net h.mild) h.bounded htg hrm .background
    refine ⟨.net (.pass i q .background), d.instance_, .call .host x.kind x.data (be32 d.index ++ x.metadata.drop 4) .background, ⟨n', n.sent⟩, trivial, ?_, ?_⟩
    · obtain ⟨y, hy4, _, _⟩ := forward_some hn'
      simp only [MeshStreams.Net.doing, htg, Dest.route, if_neg (Nat.not_lt.mpr hy4)]
    · simp only [MeshStreams.Net.step, MeshStreams.Net.speaks, Net.step, htg, hn']
      rfl
  have hpass : ∀ i, ∀ x ∈ ((n.net.sys i).node .host).jobs, n.net.passed i x = true := fun i x hx => by
    cases hp : n.net.passed i x with
    | true => rfl
    | false => exact absurd ⟨i, x, hx, hp⟩ h4
  -- what was passed on is subscribed to
  by_cases h5 : ∃ ρ ∈ n.net.relays, ρ.job.kind ≠ .fnf ∧ ((n.net.sys ρ.dst).node .host).obj ρ.call = none
  · obtain ⟨ρ, hρ, hk, ho⟩ := h5
    right
    obtain ⟨d', hd', hdst, c2, hc2, hk2, hd2, hm2⟩ := (K.good.kept ρ hρ).toward
    have hst : ∃ r, ((n.net.sys ρ.dst).node .host).subscribe .host (hands m gs ρ.dst .host) ρ.call = some r := by
      unfold Node.subscribe
      rw [hc2, ho]
      rw [← hk2] at hk
      cases hck : c2.kind with
      | fnf => exact absurd hck hk
      | rr => simp only [openAct, hck, Peer.step, if_true]; exact ⟨_, rfl⟩
      | rs => simp only [openAct, hck, Peer.step, if_true]; exact ⟨_, rfl⟩
      | rc => simp only [openAct, hck, Peer.step, if_true]; exact ⟨_, rfl⟩
    obtain ⟨r, hr⟩ := hst
    exact ⟨_, _, _, _, (show Goes n begun (.net (.own ρ.dst (.subscribe .host ρ.call))) from ⟨ρ, hρ, rfl, rfl⟩), rfl,
      own_step (y := (n.net.sys ρ.dst).put .host r.1 r.2 false) rfl (fun _ _ he => by cases he) (by simp only [WasmCalls.Sys.step, hr, Option.map_some])⟩
  have hsub : ∀ ρ ∈ n.net.relays, ρ.job.kind ≠ .fnf → ∃ o, ((n.net.sys ρ.dst).node .host).obj ρ.call = some o := fun ρ hρ hk => by
    cases ho : ((n.net.sys ρ.dst).node .host).obj ρ.call with
    | none => exact absurd ⟨ρ, hρ, hk, ho⟩ h5
    | some o => exact ⟨o, rfl⟩
  have hnf : ∀ k : Kind, many k = true → k ≠ .fnf := by intro k hk he; subst he; cases hk
  -- streams that were passed on are asked for
  by_cases h6 : ∃ ρ ∈ n.net.relays, many ρ.job.kind = true ∧ ρ.call ∉ begun ρ.dst .host
  · obtain ⟨ρ, hρ, hk, hnb⟩ := h6
    right
    obtain ⟨d', hd', hdst, c2, hc2, hk2, hd2, hm2⟩ := (K.good.kept ρ hρ).toward
    obtain ⟨o, ho⟩ := hsub ρ hρ (hnf _ hk)
    have hk' : many c2.kind = true := by rw [hk2]; exact hk
    exact ⟨_, _, _, _, (show Goes n begun (.net (.own ρ.dst (.start .host ρ.call 1))) from ⟨⟨ρ, hρ, rfl, rfl⟩, by rw [ho]; rfl, hnb⟩), rfl,
      own_step rfl (fun _ _ he => by cases he) (by simp only [WasmCalls.Sys.step, hc2, Option.bind_some, hk', if_true]; rfl)⟩
  have hbeg : ∀ ρ ∈ n.net.relays, many ρ.job.kind = true → ρ.call ∈ begun ρ.dst .host := fun ρ hρ hk =>
    Classical.byContradiction fun hn => h6 ⟨ρ, hρ, hk, hn⟩
  -- what was heard is sent on
  by_cases h7 : ∃ r ρ, n.net.relays[r]? = some ρ ∧ many ρ.job.kind = true ∧ n.sent r ≠ (heardFrames n.net ρ).length
  · obtain ⟨r, ρ, hr, hk, hne⟩ := h7
    right
    have hρ := List.mem_of_getElem? hr
    have hlt : n.sent r < (heardFrames n.net ρ).length := by have := K.most r ρ hr; omega
    have hf := List.getElem?_eq_getElem hlt
    obtain ⟨x, hx⟩ := List.mem_iff_getElem?.mp (relays_stay h.mild ρ hρ (by intro he; rw [he] at hk; cases hk))
    obtain ⟨hl1, hl2⟩ := heard_loud (List.mem_of_getElem? hf)
    have hq : isRequest ((heardFrames n.net ρ)[n.sent r]) = false := by
      cases hg : (heardFrames n.net ρ)[n.sent r] with
      | request v => rw [hg] at hl1; cases hl1
      | _ => rfl
    have hst : (n.net.sys ρ.src).step (hands m gs ρ.src) (.emit .host x ((heardFrames n.net ρ)[n.sent r])) =
        some ((n.net.sys ρ.src).put .host ((n.net.sys ρ.src).node .host) [(heardFrames n.net ρ)[n.sent r]] false) := by
      simp only [WasmCalls.Sys.step, hx, Option.bind_some, hk, hl2, hq, and_self, if_true]
    obtain ⟨n', hn'⟩ : ∃ n', n.step (hands m gs) (.relay r x) = some n' := by
      simp only [MeshStreams.Net.step, hr, hf, hx, if_true, Net.at_, hst, Option.map_some]
      exact ⟨_, rfl⟩
    exact ⟨.relay r x, ρ.src, .emit .host x ((heardFrames n.net ρ)[n.sent r]), n', trivial, by simp only [MeshStreams.Net.doing, hr, hf], hn'⟩
  have hsent : ∀ (r : Nat) (ρ : Relay G), n.net.relays[r]? = some ρ → many ρ.job.kind = true → n.sent r = (heardFrames n.net ρ).length :=
    fun r ρ hr hk => Classical.byContradiction fun hne => h7 ⟨r, ρ, hr, hk, hne⟩
  -- results are given back
  by_cases h8 : ∃ i, ∃ x ∈ ((n.net.sys i).node .host).jobs, x.kind = .rr
  · obtain ⟨i, x, hx, hk⟩ := h8
    right
    obtain ⟨q, hq⟩ := List.mem_iff_getElem?.mp hx
    obtain ⟨ρ, hρ, hm⟩ := List.any_eq_true.mp (hpass i x hx)
    simp only [Bool.and_eq_true, decide_eq_true_eq] at hm
    obtain ⟨rfl, hid⟩ := hm
    obtain ⟨c, hc, d, hd, hdN, hsv⟩ := host_job h hx
    obtain ⟨c3, h3, hs3⟩ := (K.good.kept ρ hρ).from_
    have hcc : c3 = c := by
      obtain ⟨l, hl⟩ := List.mem_iff_getElem?.mp hc
      exact call_unique ((h.one _).loc .guest) (h.bounded _ .guest) hl h3 (by rw [← hs3.id, hid, hsv.id])
    subst hcc
    have hjob : ρ.job = x := by
      obtain ⟨o1, a1, a2⟩ := hs3.handler
      obtain ⟨o2, b1, b2⟩ := hsv.handler
      have : o1 = o2 := UInt32.toNat_inj.mp (Option.some.inj (a1.symm.trans b1))
      subst this
      have hh := Option.some.inj (a2.symm.trans b2)
      have k1 := hs3.kind.trans hsv.kind.symm
      have k2 := hs3.data.trans hsv.data.symm
      have k3 := hs3.metadata.trans hsv.metadata.symm
      cases hj1 : ρ.job with
      | mk a b c d e =>
        cases x with
        | mk a' b' c' d' e' =>
          rw [hj1] at hh k1 k2 k3 hid
          dsimp only at hh k1 k2 k3 hid
          subst hh k1 k2 k3 hid; rfl
    obtain ⟨d', hd', hdst, c2, hc2, hk2, hd2, hm2⟩ := (K.good.kept ρ hρ).toward
    have hrr : c2.kind = .rr := by rw [hk2, hjob]; exact hk
    obtain ⟨o, ho⟩ := hsub ρ hρ (by rw [hjob, hk]; intro he; cases he)
    have hz : inFlight ((n.net.sys ρ.dst).node (other .host)) ((n.net.sys ρ.dst).wire .host) ((n.net.sys ρ.dst).wire (other .host)) c2 = 0 := by
      have hh : handlers c2.id ((n.net.sys ρ.dst).node .guest).jobs = 0 := by
        refine List.countP_eq_zero.mpr fun z hz hzid => ?_
        obtain ⟨c4, q1, q2⟩ := ((h.one ρ.dst).link .host).jobs z hz
        have : c4 = c2 := call_unique ((h.one _).loc .host) (h.bounded _ .host) hc2 q1 (q2.id.symm.trans (beq_iff_eq.mp hzid))
        subst this
        exact hguest _ z hz (q2.kind.trans hrr)
      show inFlight ((n.net.sys ρ.dst).node .guest) _ ((n.net.sys ρ.dst).wire .guest) c2 = 0
      simp [inFlight, hwire, ht, hh, Spec.Polite.requests, Spec.Polite.answers, Spec.Polite.queued]
    obtain ⟨r, hrt⟩ := Props.WasmCalls.calls_get_results (K.good.reach ρ.dst) (h.bounded _) .host hc2 hrr (by rw [ho]; simp) hz
    have hmem : r ∈ toldCall ((n.net.sys ρ.dst).node .host) ρ.call := by rw [hrt]; exact List.mem_singleton.mpr rfl
    obtain ⟨kk, hkk⟩ := List.mem_iff_getElem?.mp hρ
    have hst : (n.net.sys ρ.src).step (hands m gs ρ.src) (.answer .host q r) = some ((n.net.sys ρ.src).put .host { (n.net.sys ρ.src).node .host with
        jobs := ((n.net.sys ρ.src).node .host).jobs.eraseIdx q, made := ((n.net.sys ρ.src).node .host).made ++ [(x, r)] }
          [answerFrame x.id r] false) := by
      simp only [WasmCalls.Sys.step, Node.answer, hq, hk, if_true, Option.map_some]
    obtain ⟨n', hn'⟩ : ∃ n', n.step (hands m gs) (.net (.back kk q r)) = some n' := by
      simp only [MeshStreams.Net.step, MeshStreams.Net.speaks, Net.step, hkk]
      rw [if_pos (show _ ∧ _ from ⟨by rw [hjob]; exact hq, Props.MeshCalls.told_heard hmem⟩), Net.at_, hst]
      exact ⟨_, rfl⟩
    exact ⟨.net (.back kk q r), ρ.src, .answer .host q r, n', trivial, by simp only [MeshStreams.Net.doing, hkk], hn'⟩
  · left
    refine ⟨⟨hwire, ht, fun i e x hx hk => ?_, fun i x hx _ => hpass i x hx⟩, ⟨hwire, hsent⟩, hpass, hbeg⟩
    cases e with
    | host => exact h8 ⟨i, x, hx, hk⟩
    | guest => exact hguest i x hx hk

/-- When nothing is under way, all calls of modules are done with. -/
theorem still_drained (h : Fine N m gs ask n said begun) (hq : Still n begun) {i j : Nat} {c : WasmCalls.Call}
    (hc : ((n.net.sys i).node .guest).calls[j]? = some c) : Drained m gs n said begun i j c := by
  have K := h.kin
  have handled : ∀ i e id, Spec.WasmOnce.Handled (n.net.sys i) e id := fun i e id =>
    ⟨by rw [hq.idle.wire]; rfl, by rw [hq.idle.tasks]; rfl⟩
  refine ⟨Props.MeshFinish.idle_done (mildly_net h.mild) h.bounded hq.idle hc, fun hm hb d hl => ?_, fun o hm ho hb hnl => ?_, fun o hm ho tidy => ?_⟩
  · obtain ⟨op, hop, hmod⟩ := hl
    have hknown : ¬ Unknown (hands m gs i .host) c := by
      intro hu
      have := Option.map_eq_none_iff.mp (hu op hop)
      rw [hmod] at this; cases this
    obtain ⟨x, hx, hxid⟩ := Props.MeshCalls.one_of_count
      ((Props.WasmOnce.stream_served_once (mildly_once (h.sys i)) (h.bounded i) .guest j c hc hm).2.1 hb (handled _ _ _) hknown)
    have hxid : x.id = c.id := beq_iff_eq.mp hxid
    obtain ⟨c', hc', hsv⟩ := ((h.one i).link .guest).jobs x hx
    have hcc : c' = c := call_unique ((h.one i).loc .guest) (h.bounded i .guest) hc hc' (hsv.id.symm.trans hxid)
    subst hcc
    obtain ⟨ρ, hρ, hmm⟩ := List.any_eq_true.mp (hq.passed i x hx)
    simp only [Bool.and_eq_true, decide_eq_true_eq] at hmm
    have hmem : ρ ∈ onward n.net i c'.id := List.mem_filter.mpr ⟨hρ, by simp [hmm.1, hmm.2, hxid]⟩
    have hone : onward n.net i c'.id = [ρ] := by
      have := K.good.once i c'.id
      match hq : onward n.net i c'.id, this with
      | [], _ => rw [hq] at hmem; exact absurd hmem List.not_mem_nil
      | [σ], _ => rw [hq] at hmem; rw [List.mem_singleton.mp hmem]
      | _ :: _ :: _, h => simp at h
    obtain ⟨rfl, hid⟩ := hmm
    obtain ⟨c3, h3, hs3⟩ := (K.good.kept ρ hρ).from_
    have : c3 = c' := call_unique ((h.one _).loc .guest) (h.bounded _ .guest) hc h3 (by rw [← hs3.id, hid, hxid])
    subst this
    obtain ⟨d', hd', hdst, c2, hc2, hk2, hd2, hm2⟩ := (K.good.kept ρ hρ).toward
    obtain ⟨hl', h8, hmd⟩ := Props.MeshCalls.job_linked hs3 hd'
    have := Props.MeshCalls.linked_unique ⟨op, hop, hmod⟩ hl'
    subst this
    have hkk : c2.kind = c3.kind := hk2.trans hs3.kind
    have hbg := hq.begun ρ hρ (by rw [hs3.kind]; exact hm)
    rw [hdst] at hc2 hbg
    rw [hmd] at hm2
    refine ⟨ρ, c2, hone, hdst, hc2, fun hn => ?_⟩
    have hk' : ¬ Unknown (hands m gs d.instance_ .guest) c2 := fun hu => hn ((Props.MeshCalls.not_unknown h8 hkk hm2).mp hu)
    have hcnt := (Props.WasmOnce.stream_served_once (mildly_once (h.sys d.instance_)) (h.bounded _) .host ρ.call c2 hc2 (by rw [hkk]; exact hm)).2.1 hbg
      (handled _ _ _) hk'
    refine ⟨hcnt, ?_⟩
    obtain ⟨z, hz, hzid⟩ := Props.MeshCalls.one_of_count hcnt
    have hzid : z.id = c2.id := beq_iff_eq.mp hzid
    obtain ⟨c4, h4, hs4⟩ := ((h.one d.instance_).link .host).jobs z hz
    have : c4 = c2 := call_unique ((h.one _).loc .host) (h.bounded _ .host) hc2 h4 (hs4.id.symm.trans hzid)
    subst this
    exact ⟨z, hz, hzid, Props.MeshStreams.stream_run_for h8 hm hkk (hd2.trans hs3.data) hm2 hs4⟩
  · have hu : Unknown (hands m gs i .host) c := by
      intro op hop
      refine Option.map_eq_none_iff.mpr ?_
      cases hmod : m.moduleCall i c.kind op with
      | none => rfl
      | some d => exact absurd ⟨op, hop, hmod⟩ (hnl d)
    exact (Props.WasmOnce.refused_stream (mildly_once (h.sys i)) (h.bounded i) .guest j c o hc hm ho hu).2 hb (handled _ _ _)
      fun f hf => by rw [hq.idle.wire] at hf; exact absurd hf List.not_mem_nil
  · have hk : c.kind = .rs ∨ (c.kind = .rc ∧ Uncancelled said i c.id) := by
      cases hck : c.kind with
      | rr => rw [hck] at hm; cases hm
      | fnf => rw [hck] at hm; cases hm
      | rs => exact .inl rfl
      | rc =>
        refine .inr ⟨rfl, fun v hv => ?_⟩
        obtain ⟨s, hs1, hs2⟩ := List.mem_map.mp (List.mem_of_mem_filter hv)
        exact says_mild (h.sys i) (h.bounded i) .host s hs1 v hs2
    obtain ⟨_, h1, h2⟩ := Props.MeshStreams.module_stream_arrives (mildly_told h.mild) h.bounded tidy hc ho hk
    exact ⟨h1 hq.settled, h2⟩

/-! ## Going on -/

theorem goes_mildly {n' : MeshStreams.Net G} {a : MeshStreams.Act} {i : Nat} {b : WasmCalls.Act} (h : Mildly (hands m gs) ask n said begun) (ha : Goes n begun a)
    (hd : n.doing a = some (i, b)) (hs : n.step (hands m gs) a = some n') :
    Mildly (hands m gs) ask n' (adds said i (saysIn (n.net.sys i) (n'.net.sys i) b)) (begins begun i b) := by
  have hin : InOrder (n.net.sys i) b ∧ ∀ e, ∀ j ∈ startedIn b e, j ∉ begun i e := by
    cases a with
    | relay r x =>
      simp only [MeshStreams.Net.doing] at hd
      split at hd
      · cases hd
      · split at hd
        · cases hd
        · cases hd; exact ⟨trivial, fun e j hj => absurd hj List.not_mem_nil⟩
    | net a =>
      cases a with
      | own k c =>
        cases hd
        cases b with
        | start e j q =>
          cases e with
          | guest => exact absurd ha (by simp [Goes])
          | host =>
            obtain ⟨_, h1, h2⟩ := ha
            refine ⟨h1, fun e l hl => ?_⟩
            simp only [startedIn] at hl
            split at hl
            · rename_i he; subst he; rw [List.mem_singleton.mp hl]; exact h2
            · exact absurd hl List.not_mem_nil
        | _ => exact ⟨trivial, fun e j hj => absurd hj List.not_mem_nil⟩
      | pass k x ctx =>
        simp only [MeshStreams.Net.doing] at hd
        split at hd
        · cases hd
        · split at hd
          · cases hd; exact ⟨trivial, fun e j hj => absurd hj List.not_mem_nil⟩
          · cases hd
      | back r x v =>
        simp only [MeshStreams.Net.doing] at hd
        split at hd
        · cases hd
        · cases hd; exact ⟨trivial, fun e j hj => absurd hj List.not_mem_nil⟩
  refine .step a i b h hd hin.1 hin.2 ?_ hs
  intro k c hc
  subst hc
  cases c with
  | call e k d m ctx => exact absurd ha (by simp [Goes])
  | own e j f => exact absurd ha (by simp [Goes])
  | emit e j f => exact absurd ha (by simp [Goes])
  | task e j live => exact ha
  | answer e j r => exact ha
  | _ => trivial

theorem onward_bounded {n' : MeshStreams.Net G} {said' : Words G} {begun' : Begun} {hs : Nat → End → Handlers (Hand G)} {k : Nat}
    (h : Onward hs k n said begun n' said' begun') : Spec.MeshCalls.Bounded n'.net → Spec.MeshCalls.Bounded n.net := by
  induction h with
  | done => exact id
  | go a i b _ _ hs1 _ ih =>
    intro hb
    obtain ⟨a', hnet⟩ := step_net hs1
    exact bounded_back hnet (ih hb)

theorem onward_run {n' : MeshStreams.Net G} {said' : Words G} {begun' : Begun} {k : Nat} (ho : Onward (hands m gs) k n said begun n' said' begun')
    (h : Fine N m gs ask n said begun) (hb : Spec.MeshCalls.Bounded n'.net) :
    Fine N m gs ask n' said' begun' ∧ k + work N n' begun' ≤ work N n begun := by
  induction ho with
  | done => exact ⟨h, by omega⟩
  | go a i b ha hd hs1 ho ih =>
    have hh := goes_ahead h ha hd hs1
    obtain ⟨h1, h2⟩ := ih ⟨goes_mildly h.mild ha hd hs1, onward_bounded ho hb,
      ⟨h.within.linked, fun k hk => (hh.new k hk).trans (h.within.new k hk)⟩⟩ hb
    have := hh.down
    exact ⟨h1, by omega⟩

/-! ## Results (C179) -/

/-- **C179** Whatever is done about the calls and streams under way between the modules of a mesh, in whatever order, there is an
end of it, after no more steps than `work` says; and when nothing more can be done, every call of a module is done with, and
the subscriber of every stream was told everything that was said for it. For up to `2^30` calls of an end, with data that fits
into a frame, and callers of streams that only ask for more. -/
theorem mesh_streams_finish {n' : MeshStreams.Net G} {said' : Words G} {begun' : Begun} {k : Nat} (h : Mildly (hands m gs) ask n said begun)
    (hw : Within N m n.net) (ho : Onward (hands m gs) k n said begun n' said' begun') (hb : Spec.MeshCalls.Bounded n'.net) :
    k ≤ work N n begun ∧
    ((∀ a, Goes n' begun' a → n'.step (hands m gs) a = none) → (∀ i, ((n'.net.sys i).node .host).calls.length < 2 ^ 30) →
      ∀ (i j : Nat) (c : WasmCalls.Call), ((n'.net.sys i).node .guest).calls[j]? = some c → Drained m gs n' said' begun' i j c) := by
  obtain ⟨h1, h2⟩ := onward_run ho ⟨h, onward_bounded ho hb, hw⟩ hb
  refine ⟨by omega, fun hn hrm i j c hc => ?_⟩
  rcases goes_on h1 (fun i => .inl (hrm i)) with hi | ⟨a, i2, b, n2, hga, _, hst⟩
  · exact still_drained h1 hi hc
  · rw [hn a hga] at hst; cases hst

/-- **C179** From wherever the modules of a mesh are, they can go on, without new calls and demand of modules, until every call
of a module is done with. -/
theorem mesh_streams_can_finish (h : Mildly (hands m gs) ask n said begun) (hw : Within N m n.net) (hroom : Room N n begun) :
    ∃ k n' said' begun', Onward (hands m gs) k n said begun n' said' begun' ∧ Mildly (hands m gs) ask n' said' begun' ∧
      ∀ (i j : Nat) (c : WasmCalls.Call), ((n'.net.sys i).node .guest).calls[j]? = some c → Drained m gs n' said' begun' i j c := by
  generalize hk : work N n begun = w
  induction w using Nat.strongRecOn generalizing n said begun with
  | ind w ih =>
    have hf : Fine N m gs ask n said begun := ⟨h, fun i e => by have := hroom i e; omega, hw⟩
    rcases goes_on hf (fun i => by have := hroom i .host; omega) with hi | ⟨a, i, b, n1, hga, hd, hst⟩
    · exact ⟨0, n, said, begun, .done, h, fun i j c hc => still_drained hf hi hc⟩
    · have hh := goes_ahead hf hga hd hst
      obtain ⟨k, n', said', begun', h1, h2, h3⟩ := ih (work N n1 (begins begun i b)) (by have := hh.down; omega) (goes_mildly h hga hd hst)
        ⟨hw.linked, fun k hk => (hh.new k hk).trans (hw.new k hk)⟩
        (fun k e => by have := hroom k e; have := hh.calls k e; have := hh.down; omega) rfl
      exact ⟨k + 1, n', said', begun', .go a i b hga hd hst h1, h2, h3⟩

/-- **C179** If modules do not ask for more, nothing in a mesh crashes: at every instance, each end can take up the next frame
and do everything that was put off, and every call can be passed on. Missing: modules that ask for more, for which it is false of
one instance (`WasmDrain.guest_demand_crashes_refuted`). -/
theorem mesh_streams_never_crash_partial (h : Mildly (hands m gs) ask n said begun) (hask : ¬ask .guest) (hb : Spec.MeshCalls.Bounded n.net) (i : Nat) :
    (∀ e, (∀ f data, ((n.net.sys i).wire (other e)).head? = some f → decodeFrame data = .ok f → ((n.net.sys i).node e).peer.ready e = true →
        ∃ p, ((n.net.sys i).node e).peer.step e (hands m gs i e) (.recv data) = some (.ok p)) ∧
      ∀ x, x < ((n.net.sys i).node e).peer.tasks.length → ∃ p, ((n.net.sys i).node e).peer.step e (hands m gs i e) (.task x true) = some (.ok p)) ∧
    ∀ x j d ctx, n.net.target i x = some (j, d) → ((n.net.sys d.instance_).node .host).calls.length < 2 ^ 30 →
      ∃ n', n.net.forward (hands m gs) i j d ctx = .ok (some n') :=
  ⟨fun e => Props.WasmDrain.streams_never_crash_partial (mildly_sys h hb i) hask (hb i) e,
    fun _ _ _ ctx ht hr => Props.MeshCalls.passing_on_works (mildly_net h) hb ht hr ctx⟩

end

/-! ### A case -/

/-- A run of the first `k` instances, given by its steps. -/
def runMild (k : Nat) (hs : Nat → End → Handlers (Hand G)) : MeshStreams.Net G → Words G → Begun → List MeshStreams.Act →
    Option (MeshStreams.Net G × Words G × Begun)
  | n, said, begun, [] => some (n, said, begun)
  | n, said, begun, a :: as => (n.doing a).bind fun p =>
      if p.1 < k ∧ Props.MeshStreams.inOrder (n.net.sys p.1) p.2 = true ∧ ∀ e ∈ [End.host, .guest], ∀ j ∈ startedIn p.2 e, j ∉ begun p.1 e then
        (n.step hs a).bind fun n' => runMild k hs n' (adds said p.1 (saysIn (n.net.sys p.1) (n'.net.sys p.1) p.2)) (begins begun p.1 p.2) as
      else none

theorem runMild_mildly {k : Nat} {hs : Nat → End → Handlers (Hand G)} {n n' : MeshStreams.Net G} {said said' : Words G} {begun begun' : Begun}
    {as : List MeshStreams.Act} (ht : Mildly hs ask n said begun) (hn : ∀ i, k ≤ i → n.net.sys i = Sys.init)
    (hm : ∀ a ∈ as, ∀ k c, a = .net (.own k c) → Mild ask c) (h : runMild k hs n said begun as = some (n', said', begun')) :
    Mildly hs ask n' said' begun' ∧ ∀ i, k ≤ i → n'.net.sys i = Sys.init := by
  induction as generalizing n said begun with
  | nil => cases h; exact ⟨ht, hn⟩
  | cons a as ih =>
    simp only [runMild] at h
    obtain ⟨⟨i, b⟩, h1, h2⟩ := Option.bind_eq_some_iff.mp h
    split at h2
    · rename_i hc
      obtain ⟨n1, h3, h4⟩ := Option.bind_eq_some_iff.mp h2
      refine ih (.step a i b ht h1 (Props.MeshStreams.inOrder_ok hc.2.1) (fun e => hc.2.2 e (by cases e <;> simp)) (hm a List.mem_cons_self) h3) (fun l hl => ?_)
        (fun c hc => hm c (List.mem_cons_of_mem _ hc)) h4
      obtain ⟨y, _, hy⟩ := step_doing h1 h3
      have hne : l ≠ i := by have := hc.1; dsimp only at this; omega
      rw [hy, assign_ne _ _ hne]
      exact hn l hl
    · cases h2

/-- The run of `streams`, before the error of the stream was sent on. -/
def underway : List MeshStreams.Act := Props.MeshStreams.streams.take 14

theorem underway_mild : ∀ a ∈ underway, ∀ k c, a = .net (.own k c) → Mild (fun _ => False) c := by
  intro a ha k c hc
  subst hc
  simp only [underway, Props.MeshStreams.streams, List.take_succ_cons, List.take_zero, List.mem_cons, List.not_mem_nil, or_false] at ha
  rcases ha with h | h | h | h | h | h | h | h | h | h | h | h | h | h <;> cases h
  · exact ⟨by decide, by decide⟩
  all_goals first
    | trivial
    | exact rfl
    | exact ⟨.next [1] [], ⟨by decide, by decide⟩, rfl⟩
    | exact ⟨.error [9], by show _ < _; decide, rfl⟩

theorem pairS_within {n : MeshStreams.Net G} (hn : ∀ i, 2 ≤ i → n.net.sys i = Sys.init) : Within 2 Props.MeshStreams.pairS n.net := by
  refine ⟨fun i k op d h => ?_, hn⟩
  obtain ⟨m, h1, h2⟩ := Props.MeshFinish.loaded_within (G := Nat) [([1], [⟨0, 3, 1, [110], [9]⟩, ⟨1, 3, 1, [110], [7]⟩]), ([2], [⟨0, 3, 2, [110], [7]⟩])] (by decide)
  have : Props.MeshStreams.pairS = m := by unfold Props.MeshStreams.pairS; rw [h1]
  rw [this] at h
  exact h2.linked i k op d h

/-- An element is on its way to the second module and an error to the first host, and there is room for all that follows. -/
example : ∃ n said begun, Mildly (hands Props.MeshStreams.pairS Props.MeshCalls.code) (fun _ => False) n said begun ∧
    Within 2 Props.MeshStreams.pairS n.net ∧ Room 2 n begun ∧ 0 < work 2 n begun ∧ begun 1 .guest = [0] ∧
    ((n.net.sys 1).node .guest).calls.map (·.kind) = [.rs] ∧ (n.net.sys 0).wire .guest = [frameFor 2 (.error [9])] ∧
    (n.net.sys 1).wire .host = [frameFor 1 (.next [1] [])] := by
  have hrun : ((runMild 2 (hands Props.MeshStreams.pairS Props.MeshCalls.code) MeshStreams.Net.init (fun _ _ => []) (fun _ _ => []) underway).any fun p => decide
      ((∀ i ∈ [0, 1], ∀ e ∈ [End.host, .guest], ((p.1.net.sys i).node e).calls.length + work 2 p.1 p.2.2 ≤ 2 ^ 30) ∧ work 2 p.1 p.2.2 ≤ 2 ^ 30 ∧
        0 < work 2 p.1 p.2.2 ∧ p.2.2 1 .guest = [0] ∧
        ((p.1.net.sys 1).node .guest).calls.map (·.kind) = [.rs] ∧ (p.1.net.sys 0).wire .guest = [frameFor 2 (.error [9])] ∧
        (p.1.net.sys 1).wire .host = [frameFor 1 (.next [1] [])])) = true := by
    decide +kernel
  obtain ⟨⟨n, said, begun⟩, h1, h2⟩ := (Option.any_eq_true _ _).mp hrun
  obtain ⟨h2, h3, h4⟩ := of_decide_eq_true h2
  obtain ⟨h5, h6⟩ := runMild_mildly .init (fun _ _ => rfl) underway_mild h1
  refine ⟨n, said, begun, h5, pairS_within h6, fun i e => ?_, h4⟩
  by_cases hi : i < 2
  · exact h2 i (by simp; omega) e (by cases e <;> simp)
  · rw [h6 i (by omega)]
    cases e <;> simpa [Sys.init, Node.init] using h3

end Iota.Props.MeshDrain
