import Verif.Spec.Customer
import Verif.Props.MeshCalls
import Verif.Props.Components

/-! # The modules of the mesh example (C154) -/

namespace Iota.Props.Customer
open Iota.Go Iota.Registry Iota.WasmDispatch Iota.WasmCalls Iota.Mesh Iota.MeshCalls Iota.Customer
open Iota.Spec.Handler (opIndex)
open Iota.Spec.WasmCalls (toldCall Answered Serves)
open Iota.Spec.MeshCalls
open Iota.Spec.Customer
open Iota.Spec.Components (text)
open Iota.Spec.Codegen
open Iota.Spec.Msgpack (short)
open Iota.Peers (Result)
open Iota.Props.WasmCalls (calls_get_own_results put_node put_other)
open Iota.Props.MeshCalls (Grow grows at_step step_at assign_same assign_ne at_grows heard_told call_step answers forward_some bounded_back mesh_good
  module_calls_get_own_results)

/-! ## The values -/

theorem customer_wf : WellFormed customerEnv := by
  refine ⟨fun n => ?_, fun n => ?_, fun n => ?_, fun n fs h => ?_, fun _ => 0, fun n h => Nat.zero_lt_one, fun n s m h => ?_⟩ <;>
    rcases n with _ | n <;> simp_all [customerEnv, Codegen.Env.get, Codegen.Def.fields, names, short]

theorem greeting_wf : WellFormed greetingEnv := by
  refine ⟨fun n => ?_, fun n => ?_, fun n => ?_, fun n fs h => ?_, fun _ => 0, fun n h => Nat.zero_lt_one, fun n s m h => ?_⟩ <;>
    rcases n with _ | n <;> simp_all [greetingEnv, Codegen.Env.get, Codegen.Def.fields, names, short]

theorem customer_bytes (lib : Iota.Msgpack.Lib) (l r : Bytes) (h : l.length + r.length < 2 ^ 30) :
    ∃ d, Codegen.toBytes customerEnv (.named 0) (customerValue l r) (customerValue l r) = .ok d ∧
      ∃ f0, ∀ f, f0 ≤ f → parseCustomer lib f d = .ok (l, r) := by
  obtain ⟨bs, h1, f0, h2⟩ := Codegen.codec_round_trip_partial lib customerEnv customer_wf 0 (customerValue l r) (customerValue l r) (.refl _)
    (.struct rfl (.cons (.prim (by simp [IsPrim, short]; omega)) (.cons (.prim (by simp [IsPrim, short]; omega)) .nil))) (by
      simp [customerValue, Codegen.write, Codegen.Ty.strip, Codegen.Env.get, customerEnv, Codegen.writeFields, Codegen.Sc.op, Msgpack.Size.ops,
        Msgpack.Size.op, Msgpack.Size.str, Msgpack.Size.strLen, Msgpack.Size.mapSize, Msgpack.U32]
      (repeat' split) <;> omega)
  refine ⟨bs, h1, f0, fun f hf => ?_⟩
  unfold parseCustomer
  rw [h2 f hf]
  rfl

theorem greeting_bytes (lib : Iota.Msgpack.Lib) (n : Bytes) (h : n.length < 2 ^ 30) :
    ∃ d, sayHelloData n = .ok d ∧ ∃ f0, ∀ f, f0 ≤ f → parseGreeting lib f d = .ok n := by
  obtain ⟨bs, h1, f0, h2⟩ := Codegen.codec_round_trip_partial lib greetingEnv greeting_wf 0 (greetingValue n) (greetingValue n) (.refl _)
    (.struct rfl (.cons (.prim (by simp [IsPrim, short]; omega)) .nil)) (by
      simp [greetingValue, Codegen.write, Codegen.Ty.strip, Codegen.Env.get, greetingEnv, Codegen.writeFields, Codegen.Sc.op, Msgpack.Size.ops,
        Msgpack.Size.op, Msgpack.Size.str, Msgpack.Size.strLen, Msgpack.Size.mapSize, Msgpack.U32]
      (repeat' split) <;> omega)
  refine ⟨bs, h1, f0, fun f hf => ?_⟩
  unfold parseGreeting
  rw [h2 f hf]
  rfl

theorem string_bytes (s : Bytes) (h : s.length < 2 ^ 31) : ∃ d, Transform.string.encode s = .ok d ∧ Transform.string.decode d = .ok s :=
  Transform.string_inverse s (by simp [Msgpack.Size.str, Msgpack.Size.strLen, Msgpack.U32]; (repeat' split) <;> omega) (by simp [short]; omega)

/-! ## Invariant -/

/-- A call as a step of a flow makes it. -/
def CallIs (n : Node (Hand Code)) (k : Nat) (data : Bytes) (op : UInt32) : Prop :=
  ∃ call, n.calls[k]? = some call ∧ call.kind = .rr ∧ call.data = data ∧ call.metadata = importMd op

theorem CallIs.more {n n' : Node (Hand Code)} (hg : Grow n n') {k : Nat} {data : Bytes} {op : UInt32} (h : CallIs n k data op) :
    CallIs n' k data op := by
  obtain ⟨call, h1, h2⟩ := h
  exact ⟨call, hg.call h1, h2⟩

/-- What holds of a flow. -/
structure FlowOk (c : Cfg) (w : World) (f : Iota.Customer.Flow) : Prop where
  job : f.job.handler = .code .newCustomer
  first : ∃ a b d, parseCustomer c.lib c.fuel f.job.data = .ok (a, b) ∧ concatData a b = .ok d ∧
    CallIs (w.guest f.inst) f.first d 0
  second : ∀ q, f.second = some q → ∃ r n d, r ∈ toldCall (w.guest f.inst) f.first ∧ got r = .ok n ∧ sayHelloData n = .ok d ∧
    CallIs (w.guest f.inst) q d 1

/-- What holds of an answer of a guest. -/
def MadeOk (c : Cfg) (w : World) (i : Nat) (x : Job (Hand Code)) (v : Result) : Prop :=
  match x.handler with
  | .code .concat => fits (Iota.Customer.concat c.lib c.fuel x.data) v = true
  | .code .sayHello => fits (Iota.Customer.sayHello c.lib c.fuel x.data) v = true
  | .code .newCustomer => (∃ e, parseCustomer c.lib c.fuel x.data = .err e) ∨
      ∃ f ∈ w.flows, f.inst = i ∧ f.job = x ∧ ∃ q r, f.second = some q ∧ r ∈ toldCall (w.guest i) q ∧ fits (finished r) v = true
  | _ => True

structure Good (c : Cfg) (w : World) : Prop where
  reach : MeshCalls.Reach (hands c.mesh c.code) w.net
  flows : ∀ f ∈ w.flows, FlowOk c w f
  made : ∀ i x v, (x, v) ∈ (w.guest i).made → MadeOk c w i x v

theorem FlowOk.more {c : Cfg} {w w' : World} (hg : ∀ i, Grow (w.guest i) (w'.guest i)) {f : Iota.Customer.Flow} (h : FlowOk c w f) :
    FlowOk c w' f := by
  obtain ⟨a, b, d, h1, h2, h3⟩ := h.first
  refine ⟨h.job, ⟨a, b, d, h1, h2, h3.more (hg _)⟩, fun q hq => ?_⟩
  obtain ⟨r, n, d, h4, h5, h6, h7⟩ := h.second q hq
  exact ⟨r, n, d, (hg _).told h4, h5, h6, h7.more (hg _)⟩

theorem MadeOk.more {c : Cfg} {w w' : World} (hg : ∀ i, Grow (w.guest i) (w'.guest i))
    (hf : ∀ f ∈ w.flows, ∀ q, f.second = some q → f ∈ w'.flows) {i : Nat} {x : Job (Hand Code)} {v : Result} (h : MadeOk c w i x v) :
    MadeOk c w' i x v := by
  unfold MadeOk at h ⊢
  split
  · rename_i he; rw [he] at h; exact h
  · rename_i he; rw [he] at h; exact h
  · rename_i he
    rw [he] at h
    rcases h with h | ⟨f, h1, h2, h3, q, r, h4, h5, h6⟩
    · exact .inl h
    · exact .inr ⟨f, hf f h1 q h4, h2, h3, q, r, h4, (hg i).told h5, h6⟩
  · trivial

/-- The guests grow, and what is new in what they made is an answer. -/
theorem net_grows {hs : Nat → End → Handlers (Hand Code)} {n n' : Net Code} {a : MeshCalls.Act} (h : n.step hs a = some n') (i : Nat) :
    Grow ((n.sys i).node .guest) ((n'.sys i).node .guest) ∧
    ∀ x v, (x, v) ∈ ((n'.sys i).node .guest).made → (x, v) ∈ ((n.sys i).node .guest).made ∨
      ∃ k, a = .own i (.answer .guest k v) ∧ ((n.sys i).node .guest).jobs[k]? = some x := by
  have at_ : ∀ (k : Nat) (b : WasmCalls.Act) (y : WasmCalls.Sys (Hand Code)), (n.sys k).step (hs k) b = some y → n'.sys = assign n.sys k y →
      answers b ≠ some .guest → Grow ((n.sys i).node .guest) ((n'.sys i).node .guest) ∧
        ∀ x v, (x, v) ∈ ((n'.sys i).node .guest).made → (x, v) ∈ ((n.sys i).node .guest).made := by
    intro k b y h1 h2 h3
    rw [h2]
    refine ⟨at_grows h1 i .guest, fun x v hx => ?_⟩
    by_cases hk : i = k
    · subst hk; rw [assign_same, (grows h1 .guest).2 h3] at hx; exact hx
    · rwa [assign_ne _ _ hk] at hx
  cases a with
  | own k b =>
    simp only [Net.step] at h
    split at h
    · cases h
    · obtain ⟨y, h1, rfl⟩ := at_step h
      by_cases hb : answers b = some .guest
      · refine ⟨at_grows h1 i .guest, fun x v hx => ?_⟩
        by_cases hk : i = k
        · subst hk
          cases b with
          | answer e q r =>
            cases hb
            have hx : (x, v) ∈ ((assign n.sys i y i).node .guest).made := hx
            rw [assign_same] at hx
            simp only [WasmCalls.Sys.step, Option.map_eq_some_iff] at h1
            obtain ⟨⟨n1, out⟩, h2, rfl⟩ := h1
            rw [put_node] at hx
            unfold Node.answer at h2
            split at h2
            · cases h2
            · rename_i j hj
              split at h2
              · cases h2
                rcases List.mem_append.mp hx with hx | hx
                · exact .inl hx
                · cases List.mem_singleton.mp hx
                  exact .inr ⟨q, rfl, hj⟩
              · cases h2
          | _ => cases hb
        · have hx : (x, v) ∈ ((assign n.sys k y i).node .guest).made := hx
          rw [assign_ne _ _ hk] at hx; exact .inl hx
      · obtain ⟨h3, h4⟩ := at_ k b y h1 rfl hb
        exact ⟨h3, fun x v hx => .inl (h4 x v hx)⟩
  | pass k x ctx =>
    simp only [Net.step] at h
    split at h
    · cases h
    · split at h
      · rename_i r hr
        subst h
        obtain ⟨y, _, h1, rfl⟩ := forward_some hr
        obtain ⟨h3, h4⟩ := at_ _ _ y h1 rfl (fun he => by cases he)
        exact ⟨h3, fun x v hx => .inl (h4 x v hx)⟩
      · cases h
  | back r x v =>
    simp only [Net.step] at h
    split at h
    · cases h
    · split at h
      · obtain ⟨y, h1, rfl⟩ := at_step h
        obtain ⟨h3, h4⟩ := at_ _ _ y h1 rfl (fun he => by cases he)
        exact ⟨h3, fun x v hx => .inl (h4 x v hx)⟩
      · cases h

/-- A step of the mesh that answers nothing for a guest, or answers as it may. -/
theorem good_net {c : Cfg} {w : World} (hg : Good c w) {a : MeshCalls.Act} {n' : Net Code} {fs : List Iota.Customer.Flow}
    (h : w.net.step (hands c.mesh c.code) a = some n')
    (hfs : ∀ f ∈ w.flows, ∀ q, f.second = some q → f ∈ fs)
    (hfo : ∀ f ∈ fs, FlowOk c ⟨n', fs⟩ f)
    (ha : ∀ i k x v, a = .own i (.answer .guest k v) → (w.guest i).jobs[k]? = some x → MadeOk c w i x v) :
    Good c ⟨n', fs⟩ := by
  refine ⟨.step a hg.reach h, hfo, fun i x v hx => ?_⟩
  have key : MadeOk c w i x v := by
    rcases (net_grows h i).2 x v hx with hx | ⟨k, h1, h2⟩
    · exact hg.made i x v hx
    · exact ha i k x v h1 h2
  exact MadeOk.more (w := w) (w' := ⟨n', fs⟩) (fun i => (net_grows h i).1) hfs key

theorem op_concat : opConcat.1 = 0 := by decide +kernel
theorem op_sayHello : opSayHello.1 = 1 := by decide +kernel

/-- What a step of a flow does. -/
theorem call_some {c : Cfg} {w w' : World} {i : Nat} {data : Res Bytes} {op : UInt32} {ctx : Ctx} {fs : List Iota.Customer.Flow}
    (h : w.call c i data op ctx fs = some w') : ∃ d n, data = .ok d ∧
      w.net.step (hands c.mesh c.code) (.own i (.call .guest .rr d (importMd op) ctx)) = some n ∧ w' = ⟨n, fs⟩ ∧
      CallIs (w'.guest i) (w.guest i).calls.length d op := by
  unfold World.call at h
  split at h
  · rename_i d
    obtain ⟨n, h1, rfl⟩ := Option.map_eq_some_iff.mp h
    refine ⟨d, n, rfl, h1, rfl, ?_⟩
    have h2 := h1
    simp only [Net.step] at h2
    split at h2
    · cases h2
    · obtain ⟨y, h3, rfl⟩ := at_step h2
      obtain ⟨id, hid⟩ := call_step h3
      refine ⟨⟨.rr, id, d, importMd op, ctx⟩, ?_, rfl, rfl, rfl⟩
      · show ((assign w.net.sys i y i).node .guest).calls[_]? = _
        rw [assign_same, hid]
        exact List.getElem?_concat_length
  · cases h

theorem fresh_some {c : Cfg} {w : World} {i x : Nat} {j : Job (Hand Code)} {a b : Bytes} (h : w.fresh c i x = some (j, a, b)) :
    (w.guest i).jobs[x]? = some j ∧ j.handler = .code .newCustomer ∧ parseCustomer c.lib c.fuel j.data = .ok (a, b) := by
  unfold World.fresh at h
  split at h
  · cases h
  · rename_i j' hj
    split at h
    · rename_i hc
      split at h
      · rename_i p hp; cases h; exact ⟨hj, hc.1, hp⟩
      · cases h
    · cases h

theorem may_made {c : Cfg} {w : World} {i : Nat} {x : Job (Hand Code)} {v : Result} (h : mayAnswer c x v = true) : MadeOk c w i x v := by
  unfold mayAnswer at h
  unfold MadeOk
  split at h
  · rename_i he; rw [he]; exact h
  · rename_i he; rw [he]; exact h
  · rename_i he
    rw [he]
    split at h
    · rename_i e hp; exact .inl ⟨e, hp⟩
    · cases h
  · rename_i h1 h2 h3
    split
    · rename_i he; exact absurd he h1
    · rename_i he; exact absurd he h2
    · rename_i he; exact absurd he h3
    · trivial

theorem good_step {c : Cfg} {w w' : World} (hg : Good c w) {a : Iota.Customer.Act} (h : w.step c a = some w') : Good c w' := by
  cases a with
  | net a =>
    simp only [World.step] at h
    split at h
    · rename_i hal
      obtain ⟨n, h1, rfl⟩ := Option.map_eq_some_iff.mp h
      refine good_net hg h1 (fun f hf _ _ => hf) (fun f hf => FlowOk.more (w := w) (w' := ⟨n, w.flows⟩) (fun i => (net_grows h1 i).1) (hg.flows f hf)) ?_
      rintro i k x v rfl hx
      simp only [World.allows, hx] at hal
      exact may_made hal
    · cases h
  | begin_ i x ctx =>
    simp only [World.step] at h
    split at h
    · cases h
    · rename_i j first last hf
      obtain ⟨hj, hjc, hp⟩ := fresh_some hf
      obtain ⟨d, n, hd, h1, h2, h3⟩ := call_some h
      subst h2
      have hgr : ∀ k, Grow (w.guest k) (World.guest ⟨n, w.flows ++ [⟨i, j, (w.guest i).calls.length, none⟩]⟩ k) := fun k => (net_grows h1 k).1
      refine good_net hg h1 (fun f hf _ _ => List.mem_append_left _ hf) ?_ (fun _ _ _ _ he => by cases he)
      intro f hf
      rcases List.mem_append.mp hf with hf | hf
      · exact (hg.flows f hf).more hgr
      · cases List.mem_singleton.mp hf
        refine ⟨hjc, ⟨first, last, d, hp, hd, ?_⟩, fun q hq => by cases hq⟩
        rw [op_concat] at h3; exact h3
  | greet k r ctx =>
    simp only [World.step] at h
    split at h
    · cases h
    · rename_i f hf
      split at h
      · rename_i hc
        obtain ⟨d, n, hd, h1, h2, h3⟩ := call_some h
        subst h2
        have hgr : ∀ i, Grow (w.guest i) (World.guest ⟨n, w.flows.set k { f with second := some (w.guest f.inst).calls.length }⟩ i) :=
          fun i => (net_grows h1 i).1
        refine good_net hg h1 ?_ ?_ (fun _ _ _ _ he => by cases he)
        · intro g hgm q hq
          obtain ⟨l, hl⟩ := List.getElem?_of_mem hgm
          refine List.mem_of_getElem? (i := l) ?_
          rw [List.getElem?_set_ne]
          · exact hl
          · rintro rfl
            rw [hf] at hl; cases hl
            rw [hc.1] at hq; cases hq
        · intro g hgm
          rcases List.mem_or_eq_of_mem_set hgm with hgm | rfl
          · exact (hg.flows g hgm).more hgr
          · obtain ⟨h5, h4, _⟩ := (hg.flows f (List.mem_of_getElem? hf)).more hgr
            refine ⟨h5, h4, fun q hq => ?_⟩
            cases hq
            cases hgot : got r with
            | ok s =>
              rw [hgot] at hd
              rw [op_sayHello] at h3
              exact ⟨r, s, d, (hgr f.inst).told (heard_told hc.2), hgot, hd, h3⟩
            | err e => rw [hgot] at hd; cases hd
            | panic => rw [hgot] at hd; cases hd
      · cases h
  | finish k x r v =>
    simp only [World.step] at h
    split at h
    · cases h
    · rename_i f hf
      split at h
      · cases h
      · rename_i q hq
        split at h
        · rename_i hc
          obtain ⟨n, h1, rfl⟩ := Option.map_eq_some_iff.mp h
          refine good_net hg h1 (fun f hf _ _ => hf) (fun f hf => FlowOk.more (w := w) (w' := ⟨n, w.flows⟩) (fun i => (net_grows h1 i).1) (hg.flows f hf)) ?_
          intro i k' x' v' he hx
          cases he
          rw [hc.2.1] at hx
          cases hx
          unfold MadeOk
          rw [(hg.flows f (List.mem_of_getElem? hf)).job]
          exact .inr ⟨f, List.mem_of_getElem? hf, rfl, rfl, q, r, hq, heard_told hc.1, hc.2.2⟩
        · cases h

theorem good_reach {c : Cfg} {w : World} (h : Iota.Customer.Reach c w) : Good c w := by
  induction h with
  | init => exact ⟨.init, fun _ h => absurd h List.not_mem_nil, fun _ _ _ h => absurd h List.not_mem_nil⟩
  | step a _ hs ih => exact good_step ih hs

/-! ## What the flow is told -/

theorem import_index (op : UInt32) : opIndex (importMd op) = some op.toNat := by
  have := MeshCalls.routed_index (md := List.replicate 8 0) (by decide) ⟨0, op⟩
  exact this

theorem call_linked {c : Cfg} {i : Nat} {call : WasmCalls.Call} {op : UInt32} {d : Dest} (hk : call.kind = .rr) (hm : call.metadata = importMd op)
    (h : Linked c.mesh i call d) : c.mesh.moduleCall i .rr op = some d := by
  obtain ⟨op', h1, h2⟩ := h
  rw [hm, import_index] at h1
  have := UInt32.toNat_inj.mp (Option.some.inj h1)
  rw [← this, hk] at h2; exact h2

/-- The result of a call of a flow that is linked to some code was made by that code. -/
theorem told_made {c : Cfg} {w : World} (hg : Good c w) (hb : Spec.MeshCalls.Bounded w.net) {i k : Nat} {data : Bytes} {op : UInt32}
    (hc : CallIs (w.guest i) k data op) {g : Code} (hl : LinkedTo c i op g) {r : Result} (hr : r ∈ toldCall (w.guest i) k) :
    ∃ i' x, x.handler = .code g ∧ x.data = data ∧ (x, r) ∈ (w.guest i').made := by
  obtain ⟨call, h1, h2, h3, h4⟩ := hc
  obtain ⟨d, hd, hcode⟩ := hl
  cases (module_calls_get_own_results hg.reach hb h1 h2).1 r hr with
  | answered d' x _ hl' hrun hx =>
    have := call_linked h2 h4 hl'
    rw [hd] at this; cases this
    obtain ⟨g', h5, h6⟩ := hrun.handler
    rw [h2, hcode] at h5; cases h5
    exact ⟨_, x, h6, hrun.data.trans h3, hx⟩
  | missing d' hl' hn =>
    have := call_linked h2 h4 hl'
    rw [hd] at this; cases this
    rw [h2, hcode] at hn; cases hn
  | unlinked hn =>
    exact absurd ⟨op, by rw [h4]; exact import_index op, by rw [h2]; exact hd⟩ (hn d)

/-- The result of a call of a flow that is linked to nothing is a failure. -/
theorem told_failure {c : Cfg} {w : World} (hg : Good c w) (hb : Spec.MeshCalls.Bounded w.net) {i k : Nat} {data : Bytes} {op : UInt32}
    (hc : CallIs (w.guest i) k data op) (hl : Missing c i op) {r : Result} (hr : r ∈ toldCall (w.guest i) k) : ∃ msg, r = .failure msg := by
  obtain ⟨call, h1, h2, h3, h4⟩ := hc
  cases (module_calls_get_own_results hg.reach hb h1 h2).1 r hr with
  | answered d' x _ hl' hrun hx =>
    have := call_linked h2 h4 hl'
    rw [hl] at this; cases this
  | missing d' hl' hn => exact ⟨_, rfl⟩
  | unlinked hn => exact ⟨_, rfl⟩

theorem fits_ok {d : Bytes} {v : Result} (h : fits (.ok d) v = true) : v = .value d [] := by
  cases v with
  | value d' m => simp only [fits, decide_eq_true_eq] at h; rw [h.1, h.2]
  | failure m => cases h

/-- What `concat` answers. -/
theorem concat_says {c : Cfg} {a b d : Bytes} {r : Result} (hp : Components.parseStrings c.lib c.fuel d = .ok (a, b)) (hlen : a.length + b.length < 2 ^ 30)
    (h : fits (Iota.Customer.concat c.lib c.fuel d) r = true) : Says r (a ++ [32] ++ b) := by
  obtain ⟨e, h1, h2⟩ := string_bytes (a ++ [32] ++ b) (by simp; omega)
  unfold Iota.Customer.concat at h
  rw [hp] at h
  simp only [Res.bind, h1] at h
  exact ⟨e, fits_ok h, h2⟩

/-- What `sayHello` answers. -/
theorem hello_says {c : Cfg} {n d : Bytes} {r : Result} (hp : parseGreeting c.lib c.fuel d = .ok n) (hlen : n.length < 2 ^ 30 + 1)
    (h : fits (Iota.Customer.sayHello c.lib c.fuel d) r = true) : Says r (text "Hello, " ++ n) := by
  have e3 : text "Hello, " = [72, 101, 108, 108, 111, 44, 32] := by decide +kernel
  rw [e3]
  obtain ⟨e, h1, h2⟩ := string_bytes ([72, 101, 108, 108, 111, 44, 32] ++ n) (by simp; omega)
  unfold Iota.Customer.sayHello at h
  rw [hp] at h
  simp only [Res.bind, h1] at h
  exact ⟨e, fits_ok h, h2⟩

theorem got_says {r : Result} {s : Bytes} (h : Says r s) : got r = .ok s := by
  obtain ⟨d, rfl, h⟩ := h
  simp only [got, h]

/-- What the flow answers for what it was told last. -/
theorem finished_says {r v : Result} {s : Bytes} (h : got r = .ok s) (hlen : s.length < 2 ^ 31) (hf : fits (finished r) v = true) : Says v s := by
  obtain ⟨e, h1, h2⟩ := string_bytes s hlen
  unfold finished at hf
  rw [h] at hf
  simp only [Res.bind, h1] at hf
  exact ⟨e, fits_ok hf, h2⟩

/-- A result of a call for the flow comes from a flow that has run all its steps. -/
theorem flow_answered {c : Cfg} {w : World} (hg : Good c w) (hb : Spec.MeshCalls.Bounded w.net) {i j : Nat} {data a b : Bytes}
    (hp : parseCustomer c.lib c.fuel data = .ok (a, b)) (ha : Asks c w i j data) {v : Result} (hv : v ∈ toldCall ((w.net.sys i).node .host) j) :
    ∃ k d q r1 n e r2, concatData a b = .ok d ∧ CallIs (w.guest i) k d 0 ∧ r1 ∈ toldCall (w.guest i) k ∧ got r1 = .ok n ∧
      sayHelloData n = .ok e ∧ CallIs (w.guest i) q e 1 ∧ r2 ∈ toldCall (w.guest i) q ∧ fits (finished r2) v = true := by
  obtain ⟨call, h1, h2, h3, op, h4, h5⟩ := ha.call
  have hgm := mesh_good hg.reach hb
  cases (calls_get_own_results (hgm.reach i) (hb i) .host h1 h2).1 v hv with
  | handler x _ hx hs =>
    obtain ⟨op', h6, h7⟩ := hs.handler
    rw [h4] at h6
    have := UInt32.toNat_inj.mp (Option.some.inj h6)
    subst this
    obtain ⟨g, h8, h9⟩ := Option.map_eq_some_iff.mp h7
    rw [h2, h5] at h8; cases h8
    have hm := hg.made i x v hx
    unfold MadeOk at hm
    rw [← h9] at hm
    rw [hs.data, h3] at hm
    rcases hm with ⟨e, he⟩ | ⟨f, hf, rfl, hfj, q, r2, hq, hr2, hfit⟩
    · rw [hp] at he; cases he
    · have ho := hg.flows f hf
      obtain ⟨a', b', d, h10, h11, h12⟩ := ho.first
      rw [hfj, hs.data, h3, hp] at h10
      cases h10
      obtain ⟨r1, n, e, h13, h14, h15, h16⟩ := ho.second q hq
      exact ⟨_, d, q, r1, n, e, r2, h11, h12, h13, h14, h15, h16, hr2, hfit⟩
  | refused msg hu =>
    have := hu op h4
    rw [h2] at this
    have := Option.map_eq_none_iff.mp this
    rw [h5] at this; cases this

/-! ## The flow (C154) -/

/-- What came back from `concat`, where it is linked. -/
theorem first_told {c : Cfg} {w : World} (hg : Good c w) (hb : Spec.MeshCalls.Bounded w.net) {i k : Nat} {a b d : Bytes}
    (hlen : a.length + b.length < 2 ^ 29) (hp : Components.parseStrings c.lib c.fuel d = .ok (a, b)) (hc : CallIs (w.guest i) k d 0)
    (hl : LinkedTo c i 0 .concat) {r : Result} (hr : r ∈ toldCall (w.guest i) k) : got r = .ok (a ++ [32] ++ b) := by
  obtain ⟨i', x, h1, h2, h3⟩ := told_made hg hb hc hl hr
  have hm := hg.made i' x r h3
  unfold MadeOk at hm
  rw [h1] at hm
  dsimp only at hm
  rw [h2] at hm
  exact got_says (concat_says hp (by omega) hm)

/-- What came back from `sayHello`, where it is linked. -/
theorem second_told {c : Cfg} {w : World} (hg : Good c w) (hb : Spec.MeshCalls.Bounded w.net) {i k : Nat} {n d : Bytes}
    (hlen : n.length < 2 ^ 30) (hp : parseGreeting c.lib c.fuel d = .ok n) (hc : CallIs (w.guest i) k d 1)
    (hl : LinkedTo c i 1 .sayHello) {r : Result} (hr : r ∈ toldCall (w.guest i) k) : got r = .ok (text "Hello, " ++ n) := by
  obtain ⟨i', x, h1, h2, h3⟩ := told_made hg hb hc hl hr
  have hm := hg.made i' x r h3
  unfold MadeOk at hm
  rw [h1] at hm
  dsimp only at hm
  rw [h2] at hm
  exact got_says (hello_says hp (by omega) hm)

theorem hello_length : (text "Hello, ").length = 7 := by decide +kernel

/-- **C154 (partial)** A host that calls the flow of a customer module is told at most one result, and it is a success with
`Hello, ` and both names, if the imports of the module are linked to `concat` and `sayHello`. When nothing is under way any
more it was told. -/
theorem customers_greeted_partial (lib : Iota.Msgpack.Lib) (a b : Bytes) (hlen : a.length + b.length < 2 ^ 29) :
    ∃ data f0, Codegen.toBytes customerEnv (.named 0) (customerValue a b) (customerValue a b) = .ok data ∧
      ∀ (c : Cfg) (w : World), c.lib = lib → f0 ≤ c.fuel → Iota.Customer.Reach c w → Spec.MeshCalls.Bounded w.net →
      ∀ i j, Asks c w i j data → LinkedTo c i 0 .concat → LinkedTo c i 1 .sayHello →
        (∀ v ∈ toldCall ((w.net.sys i).node .host) j, Says v (text "Hello, " ++ a ++ text " " ++ b)) ∧
        (toldCall ((w.net.sys i).node .host) j).length ≤ 1 ∧
        (Spec.MeshCalls.Idle w.net → ((w.net.sys i).node .host).obj j ≠ none →
          ∃ v, toldCall ((w.net.sys i).node .host) j = [v] ∧ Says v (text "Hello, " ++ a ++ text " " ++ b)) := by
  have e1 : text " " = [32] := by decide +kernel
  have hlen2 : (a ++ [32] ++ b).length < 2 ^ 30 := by simp; omega
  obtain ⟨data, d1, f1, d2⟩ := customer_bytes lib a b (by omega)
  obtain ⟨sd, s1, f2, s2⟩ := Components.strings_bytes lib a b (by omega)
  obtain ⟨gd, g1, f3, g2⟩ := greeting_bytes lib (a ++ [32] ++ b) hlen2
  refine ⟨data, f1 + f2 + f3, d1, ?_⟩
  intro c w hlib hf hr hb i j ha hl0 hl1
  subst hlib
  have hg := good_reach hr
  have greets : ∀ v ∈ toldCall ((w.net.sys i).node .host) j, Says v (text "Hello, " ++ a ++ text " " ++ b) := by
    intro v hv
    obtain ⟨k, d, q, r1, n, e, r2, h1, h2, h3, h4, h5, h6, h7, h8⟩ := flow_answered hg hb (d2 c.fuel (by omega)) ha hv
    unfold concatData at h1
    rw [s1] at h1
    cases h1
    rw [first_told hg hb hlen (s2 c.fuel (by omega)) h2 hl0 h3] at h4
    cases h4
    rw [g1] at h5
    cases h5
    have h9 := second_told hg hb hlen2 (g2 c.fuel (by omega)) h6 hl1 h7
    have h10 := finished_says h9 (by rw [List.length_append, hello_length]; omega) h8
    rw [e1]
    simpa only [List.append_assoc] using h10
  obtain ⟨call, h1, h2, h3⟩ := ha.call
  have hgm := mesh_good hg.reach hb
  refine ⟨greets, (calls_get_own_results (hgm.reach i) (hb i) .host h1 h2).2, fun hi ho => ?_⟩
  have hd := Props.WasmFinish.idle_done (hgm.reach i) (hb i) (MeshCalls.net_idle hi i) .host h1
  unfold Spec.WasmCalls.Done at hd
  rw [h2] at hd
  obtain ⟨v, h4, _⟩ := hd ho
  exact ⟨v, h4, greets v (by rw [h4]; exact List.mem_singleton.mpr rfl)⟩

/-- **C154 (refuted)** Without `concat` the flow does not fail: whenever it answers, it says `Hello, ` and no name. -/
theorem missing_concat_refuted (lib : Iota.Msgpack.Lib) (a b : Bytes) (hlen : a.length + b.length < 2 ^ 29) :
    ∃ data f0, Codegen.toBytes customerEnv (.named 0) (customerValue a b) (customerValue a b) = .ok data ∧
      ∀ (c : Cfg) (w : World), c.lib = lib → f0 ≤ c.fuel → Iota.Customer.Reach c w → Spec.MeshCalls.Bounded w.net →
      ∀ i j, Asks c w i j data → Missing c i 0 → LinkedTo c i 1 .sayHello →
        ∀ v ∈ toldCall ((w.net.sys i).node .host) j, Says v (text "Hello, ") := by
  obtain ⟨data, d1, f1, d2⟩ := customer_bytes lib a b (by omega)
  obtain ⟨gd, g1, f3, g2⟩ := greeting_bytes lib [] (by decide)
  refine ⟨data, f1 + f3, d1, ?_⟩
  intro c w hlib hf hr hb i j ha hl0 hl1 v hv
  subst hlib
  have hg := good_reach hr
  obtain ⟨k, d, q, r1, n, e, r2, h1, h2, h3, h4, h5, h6, h7, h8⟩ := flow_answered hg hb (d2 c.fuel (by omega)) ha hv
  obtain ⟨msg, rfl⟩ := told_failure hg hb h2 hl0 h3
  cases h4
  rw [g1] at h5
  cases h5
  have h9 := second_told hg hb (by decide) (g2 c.fuel (by omega)) h6 hl1 h7
  have h10 := finished_says h9 (by rw [List.length_append, hello_length]; decide) h8
  simpa only [List.append_nil] using h10

/-- **C154 (refuted)** Without `sayHello` the flow does not fail: whenever it answers, it is a success with an empty text. -/
theorem missing_greeting_refuted (lib : Iota.Msgpack.Lib) (a b : Bytes) (hlen : a.length + b.length < 2 ^ 29) :
    ∃ data f0, Codegen.toBytes customerEnv (.named 0) (customerValue a b) (customerValue a b) = .ok data ∧
      ∀ (c : Cfg) (w : World), c.lib = lib → f0 ≤ c.fuel → Iota.Customer.Reach c w → Spec.MeshCalls.Bounded w.net →
      ∀ i j, Asks c w i j data → Missing c i 1 → ∀ v ∈ toldCall ((w.net.sys i).node .host) j, Says v [] := by
  obtain ⟨data, d1, f1, d2⟩ := customer_bytes lib a b (by omega)
  refine ⟨data, f1, d1, ?_⟩
  intro c w hlib hf hr hb i j ha hl1 v hv
  subst hlib
  have hg := good_reach hr
  obtain ⟨k, d, q, r1, n, e, r2, h1, h2, h3, h4, h5, h6, h7, h8⟩ := flow_answered hg hb (d2 c.fuel (by omega)) ha hv
  obtain ⟨msg, rfl⟩ := told_failure hg hb h6 hl1 h7
  exact finished_says rfl (by decide) h8

/-! ## Loading the modules -/

/-- The three modules, by file. -/
def files : List (Bytes × Reg Code) := [([1], concatModule), ([2], greetingModule), ([3], customerModule)]

/-- A mesh in which these modules were loaded, in this order. -/
def loaded (l : List (Bytes × Reg Code)) : Mesh :=
  match Mesh.new.loadModules 0 (l.map fun p => (p.1, operationList p.2)) with
  | .ok m => m
  | _ => Mesh.new

/-- The code of their instances. -/
def codeOf (l : List (Bytes × Reg Code)) (i : Nat) : Handlers Code :=
  match l[i]? with
  | some p => handlersOf p.2
  | none => fun _ _ => none

/-- What decoding needs, of which nothing is used here. -/
def noLib : Iota.Msgpack.Lib := ⟨fun n => n, fun _ => none⟩

/-- **C154** In whatever order the three modules are loaded, the imports of the customer module are linked to `concat` and
`sayHello`, and the flow is its first operation. -/
theorem modules_linked (lib : Iota.Msgpack.Lib) (fuel : Nat) (x y z : Fin 3) (hxy : x ≠ y) (hyz : y ≠ z) (hxz : x ≠ z) :
    ∃ i, codeOf [files[x], files[y], files[z]] i .rr 0 = some .newCustomer ∧
      LinkedTo ⟨loaded [files[x], files[y], files[z]], codeOf [files[x], files[y], files[z]], lib, fuel⟩ i 0 .concat ∧
      LinkedTo ⟨loaded [files[x], files[y], files[z]], codeOf [files[x], files[y], files[z]], lib, fuel⟩ i 1 .sayHello := by
  have key : ∀ x y z : Fin 3, x ≠ y → y ≠ z → x ≠ z → ∃ i : Fin 3, codeOf [files[x], files[y], files[z]] i .rr 0 = some .newCustomer ∧
      (((loaded [files[x], files[y], files[z]]).moduleCall i .rr 0).bind fun d =>
        codeOf [files[x], files[y], files[z]] d.instance_ .rr d.index) = some .concat ∧
      (((loaded [files[x], files[y], files[z]]).moduleCall i .rr 1).bind fun d =>
        codeOf [files[x], files[y], files[z]] d.instance_ .rr d.index) = some .sayHello := by decide +kernel
  obtain ⟨i, h1, h2, h3⟩ := key x y z hxy hyz hxz
  obtain ⟨d, h4, h5⟩ := Option.bind_eq_some_iff.mp h2
  obtain ⟨e, h6, h7⟩ := Option.bind_eq_some_iff.mp h3
  exact ⟨i, h1, ⟨d, h4, h5⟩, ⟨e, h6, h7⟩⟩

/-! ### A case -/

/-- The bytes of a frame. -/
def bytesOf (f : Frames.Frame) : Bytes :=
  match f.encode (List.replicate f.size 0) with
  | .ok b => b
  | _ => []

/-- What happens next in a run; `recv` takes up the frame that is next. -/
inductive Next where
  | act (a : Iota.Customer.Act)
  | recv (i : Nat) (e : End)

def Next.act? (w : World) : Next → Iota.Customer.Act
  | .act a => a
  | .recv i e => .net (.own i (.recv e (match ((w.net.sys i).wire (other e)).head? with | some f => bytesOf f | none => [])))

/-- The instance that takes a step. -/
def steps (w : World) : Iota.Customer.Act → Option Nat
  | .net a => MeshCalls.steps w.net a
  | .begin_ i _ _ => some i
  | .greet f _ _ => (w.flows[f]?).map (·.inst)
  | .finish f _ _ _ => (w.flows[f]?).map (·.inst)

/-- A run of the first `k` instances, given by its steps. -/
def runWorld (c : Cfg) (k : Nat) : World → List Next → Option World
  | w, [] => some w
  | w, n :: ns => if (steps w (n.act? w)).any (· < k) then (w.step c (n.act? w)).bind fun w' => runWorld c k w' ns else none

theorem steps_else {c : Cfg} {w w' : World} {a : Iota.Customer.Act} {i k : Nat} (ht : steps w a = some i) (h : w.step c a = some w')
    (hk : k ≠ i) : w'.net.sys k = w.net.sys k := by
  cases a with
  | net a =>
    simp only [World.step] at h
    split at h
    · obtain ⟨n, h1, rfl⟩ := Option.map_eq_some_iff.mp h
      exact MeshCalls.steps_else ht h1 hk
    · cases h
  | begin_ i x ctx =>
    cases ht
    simp only [World.step] at h
    split at h
    · cases h
    · obtain ⟨d, n, _, h1, rfl, _⟩ := call_some h
      exact MeshCalls.steps_else (i := i) rfl h1 hk
  | greet f r ctx =>
    simp only [World.step] at h
    split at h
    · cases h
    · rename_i f' hf
      split at h
      · obtain ⟨d, n, _, h1, rfl, _⟩ := call_some h
        simp only [steps, hf, Option.map_some, Option.some.injEq] at ht
        exact MeshCalls.steps_else (i := f'.inst) rfl h1 (ht ▸ hk)
      · cases h
  | finish f x r v =>
    simp only [World.step] at h
    split at h
    · cases h
    · rename_i f' hf
      simp only [steps, hf, Option.map_some, Option.some.injEq] at ht
      split at h
      · cases h
      · split at h
        · obtain ⟨n, h1, rfl⟩ := Option.map_eq_some_iff.mp h
          exact MeshCalls.steps_else (i := f'.inst) rfl h1 (ht ▸ hk)
        · cases h

theorem runWorld_reach {c : Cfg} {k : Nat} {w w' : World} {ns : List Next} (hr : Iota.Customer.Reach c w)
    (hn : ∀ i, k ≤ i → w.net.sys i = Sys.init) (h : runWorld c k w ns = some w') :
    Iota.Customer.Reach c w' ∧ ∀ i, k ≤ i → w'.net.sys i = Sys.init := by
  induction ns generalizing w with
  | nil => cases h; exact ⟨hr, hn⟩
  | cons a as ih =>
    simp only [runWorld] at h
    split at h
    · rename_i hk
      obtain ⟨i, hi, hik⟩ := (Option.any_eq_true _ _).mp hk
      obtain ⟨n1, h1, h2⟩ := Option.bind_eq_some_iff.mp h
      refine ih (.step _ hr h1) (fun l hl => ?_) h2
      have hik := of_decide_eq_true hik
      rw [steps_else hi h1 (by omega)]; exact hn l hl
    · cases h

theorem run_ends {c : Cfg} {k : Nat} {ns : List Next} {P : World → Prop} [DecidablePred P]
    (h : ((runWorld c k World.init ns).any fun n => decide (P n)) = true) :
    ∃ w, Iota.Customer.Reach c w ∧ (∀ i, k ≤ i → w.net.sys i = Sys.init) ∧ P w := by
  obtain ⟨n, h1, h2⟩ := (Option.any_eq_true _ _).mp h
  obtain ⟨h3, h4⟩ := runWorld_reach .init (fun _ _ => rfl) h1
  exact ⟨n, h3, h4, of_decide_eq_true h2⟩

/-- Nothing is under way at the first `k` instances, and the host of `i` has made this call only. -/
def Settled (k i : Nat) (data : Bytes) (w : World) : Prop :=
  (∀ l, l < k → ∀ e ∈ [End.host, End.guest], ((w.net.sys l).node e).calls.length ≤ 2 ^ 30 ∧ (w.net.sys l).wire e = [] ∧
    ((w.net.sys l).node e).peer.tasks.length = 0 ∧ ((w.net.sys l).node e).jobs = []) ∧
  (((w.net.sys i).node .host).calls.map fun c => (c.kind, c.data, c.metadata)) = [(.rr, data, importMd 0)]

instance (k i : Nat) (data : Bytes) (w : World) : Decidable (Settled k i data w) := by unfold Settled; infer_instance

theorem settled {c : Cfg} {k i : Nat} {data : Bytes} {w : World} (h : Settled k i data w) (hn : ∀ l, k ≤ l → w.net.sys l = Sys.init)
    (hc : c.code i .rr 0 = some .newCustomer) : Spec.MeshCalls.Bounded w.net ∧ Spec.MeshCalls.Idle w.net ∧ Asks c w i 0 data := by
  have key : ∀ l e, ((w.net.sys l).node e).calls.length ≤ 2 ^ 30 ∧ (w.net.sys l).wire e = [] ∧
      ((w.net.sys l).node e).peer.tasks.length = 0 ∧ ((w.net.sys l).node e).jobs = [] := by
    intro l e
    by_cases hl : l < k
    · exact h.1 l hl e (by cases e <;> simp)
    · rw [hn l (by omega)]; exact ⟨Nat.zero_le _, rfl, rfl, rfl⟩
  refine ⟨fun l e => (key l e).1, ⟨fun l e => (key l e).2.1, fun l e => List.length_eq_zero_iff.mp (key l e).2.2.1, fun l e x hx => ?_,
    fun l x hx => ?_⟩, ⟨?_⟩⟩
  · rw [(key l e).2.2.2] at hx; exact absurd hx List.not_mem_nil
  · rw [(key l .host).2.2.2] at hx; exact absurd hx List.not_mem_nil
  · have h2 := congrArg (fun l => l[0]?) h.2
    simp only [List.getElem?_map] at h2
    obtain ⟨call, h3, h4⟩ := Option.map_eq_some_iff.mp h2
    simp only [Prod.mk.injEq] at h4
    exact ⟨call, h3, h4.1, h4.2.1, 0, by rw [h4.2.2]; exact import_index 0, hc⟩

/-- The three modules, the one with the flow last. -/
def three : Cfg := ⟨loaded files, codeOf files, noLib, 20⟩

/-- The customer `A B`. -/
def ab : Bytes :=
  match Codegen.toBytes customerEnv (.named 0) (customerValue [65] [66]) (customerValue [65] [66]) with
  | .ok d => d
  | _ => []

/-- A string as a result. -/
def str (s : String) : Result :=
  match Transform.string.encode (txt s) with
  | .ok d => .value d []
  | _ => .failure []

/-- The call of an import that is linked to instance `d`, up to its result. -/
def through (d x : Nat) (r : Result) : List Next :=
  [.act (.net (.own 2 (.subscribe .guest x))), .recv 2 .host, .act (.net (.own 2 (.task .host 0 true))), .act (.net (.pass 2 0 .background)),
   .act (.net (.own d (.subscribe .host 0))), .recv d .guest, .act (.net (.own d (.task .guest 0 true))),
   .act (.net (.own d (.answer .guest 0 r))), .recv d .host, .act (.net (.back x 0 r)), .recv 2 .guest]

/-- The flow is called and runs. -/
def flowRun : List Next :=
  [.act (.net (.own 2 (.call .host .rr ab (importMd 0) .background))), .act (.net (.own 2 (.subscribe .host 0))), .recv 2 .guest,
   .act (.net (.own 2 (.task .guest 0 true))), .act (.begin_ 2 0 .background)] ++ through 0 0 (str "A B") ++
  [.act (.greet 0 (str "A B") .background)] ++ through 1 1 (str "Hello, A B") ++
  [.act (.finish 0 0 (str "Hello, A B") (str "Hello, A B")), .recv 2 .host]

/-- The theorem says something: the flow is called and everything is done with in the end. -/
example : ∃ w, Iota.Customer.Reach three w ∧ Spec.MeshCalls.Bounded w.net ∧ Spec.MeshCalls.Idle w.net ∧ Asks three w 2 0 ab ∧
    LinkedTo three 2 0 .concat ∧ LinkedTo three 2 1 .sayHello ∧ ((w.net.sys 2).node .host).obj 0 ≠ none ∧
    toldCall ((w.net.sys 2).node .host) 0 = [str "Hello, A B"] := by
  have : ∃ w, Iota.Customer.Reach three w ∧ (∀ l, 3 ≤ l → w.net.sys l = Sys.init) ∧ Settled 3 2 ab w ∧
      ((w.net.sys 2).node .host).obj 0 ≠ none ∧ toldCall ((w.net.sys 2).node .host) 0 = [str "Hello, A B"] :=
    run_ends (ns := flowRun) (by decide +kernel)
  obtain ⟨w, h1, h2, h3, h4⟩ := this
  obtain ⟨h5, h6, h7⟩ := settled (c := three) h3 h2 (by decide +kernel)
  exact ⟨w, h1, h5, h6, h7, ⟨⟨0, 0⟩, by decide +kernel, by decide +kernel⟩, ⟨⟨1, 0⟩, by decide +kernel, by decide +kernel⟩, h4⟩

/-- Two of the modules. -/
def two (first : Bytes × Reg Code) : Cfg := ⟨loaded [first, ([3], customerModule)], codeOf [first, ([3], customerModule)], noLib, 20⟩

/-- What a host answers for an import that is linked to nothing. -/
def notFound : Result := .failure (txt "not_found")

/-- The call of an import that is linked to nothing, up to its result. -/
def missed (x : Nat) : List Next :=
  [.act (.net (.own 1 (.subscribe .guest x))), .recv 1 .host, .act (.net (.own 1 (.task .host 0 true))), .recv 1 .guest]

/-- The call of an import that is linked to the first instance, up to its result. -/
def found (x : Nat) (r : Result) : List Next :=
  [.act (.net (.own 1 (.subscribe .guest x))), .recv 1 .host, .act (.net (.own 1 (.task .host 0 true))), .act (.net (.pass 1 0 .background)),
   .act (.net (.own 0 (.subscribe .host 0))), .recv 0 .guest, .act (.net (.own 0 (.task .guest 0 true))),
   .act (.net (.own 0 (.answer .guest 0 r))), .recv 0 .host, .act (.net (.back 0 0 r)), .recv 1 .guest]

/-- The flow is called and runs. -/
def twoRun (l1 l2 : List Next) (r1 r2 v : Result) : List Next :=
  [.act (.net (.own 1 (.call .host .rr ab (importMd 0) .background))), .act (.net (.own 1 (.subscribe .host 0))), .recv 1 .guest,
   .act (.net (.own 1 (.task .guest 0 true))), .act (.begin_ 1 0 .background)] ++ l1 ++ [.act (.greet 0 r1 .background)] ++ l2 ++
  [.act (.finish 0 0 r2 v), .recv 1 .host]

/-- Without `concat`. -/
example : ∃ w, Iota.Customer.Reach (two ([2], greetingModule)) w ∧ Spec.MeshCalls.Bounded w.net ∧ Asks (two ([2], greetingModule)) w 1 0 ab ∧
    Missing (two ([2], greetingModule)) 1 0 ∧ LinkedTo (two ([2], greetingModule)) 1 1 .sayHello ∧
    toldCall ((w.net.sys 1).node .host) 0 = [str "Hello, "] := by
  have : ∃ w, Iota.Customer.Reach (two ([2], greetingModule)) w ∧ (∀ l, 2 ≤ l → w.net.sys l = Sys.init) ∧ Settled 2 1 ab w ∧
      toldCall ((w.net.sys 1).node .host) 0 = [str "Hello, "] :=
    run_ends (ns := twoRun (missed 0) (found 1 (str "Hello, ")) notFound (str "Hello, ") (str "Hello, ")) (by decide +kernel)
  obtain ⟨w, h1, h2, h3, h4⟩ := this
  obtain ⟨h5, h6, h7⟩ := settled (c := two ([2], greetingModule)) h3 h2 (by decide +kernel)
  exact ⟨w, h1, h5, h7, by show _ = _; decide +kernel, ⟨⟨0, 0⟩, by decide +kernel, by decide +kernel⟩, h4⟩

/-- Without `sayHello`. -/
example : ∃ w, Iota.Customer.Reach (two ([1], concatModule)) w ∧ Spec.MeshCalls.Bounded w.net ∧ Asks (two ([1], concatModule)) w 1 0 ab ∧
    Missing (two ([1], concatModule)) 1 1 ∧ toldCall ((w.net.sys 1).node .host) 0 = [str ""] := by
  have : ∃ w, Iota.Customer.Reach (two ([1], concatModule)) w ∧ (∀ l, 2 ≤ l → w.net.sys l = Sys.init) ∧ Settled 2 1 ab w ∧
      toldCall ((w.net.sys 1).node .host) 0 = [str ""] :=
    run_ends (ns := twoRun (found 0 (str "A B")) (missed 1) (str "A B") notFound (str "")) (by decide +kernel)
  obtain ⟨w, h1, h2, h3, h4⟩ := this
  obtain ⟨h5, h6, h7⟩ := settled (c := two ([1], concatModule)) h3 h2 (by decide +kernel)
  exact ⟨w, h1, h5, h7, by show _ = _; decide +kernel, h4⟩

end Iota.Props.Customer
