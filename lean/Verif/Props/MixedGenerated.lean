import Verif.Props.GoRustCall
import Verif.Props.Mixed
import Verif.Props.RustGenerated

/-!
# C202: a generated Go client calls a generated Rust service
-/

namespace Iota.Props.MixedGenerated
open Iota.Go Iota.Msgpack Iota.Codegen Iota.Calls Iota.RustInputs Iota.RustOnce Iota.GoRustCall Iota.Spec.Msgpack Iota.Spec.Codegen Iota.Spec.Foreign
open Iota.Props.RustInputs Iota.Props.RustResults Iota.Props.Calls Iota.Props.GoRustCall
open Iota.Frames Iota.WasmDispatch Iota.WasmCalls Iota.Rust Iota.Mixed Iota.Spec.Mixed Iota.RustGenerated
open Iota.Spec.RustSocket (yields)
open Iota.Spec.WasmCalls (toldCall)
open Iota.Peers (Result)
open Iota.Props.RustGenerated (Serves)

/-! ## Specification -/

/-- What the Go client is told: the value that the implementation returned for the arguments, its error, or the error of a serializer that refuses the value. -/
inductive Told (env : Env) (lib : Lib) (op : Operation) (ser : GV → Except Bytes Bytes) (impl : Impl (List Val) GV) (args : List Val) : Result → Prop
  | value {v : GV} {b : Bytes} (hi : impl args (.ok v)) (hd : ∃ f0, ∀ f, f0 ≤ f → Calls.decode env lib f (clientResult op).2 b = some (.ok v)) :
      Told env lib op ser impl args (.value b [])
  | error {e : Bytes} (hi : impl args (.error e)) : Told env lib op ser impl args (.failure e)
  | refused {v : GV} {e : Bytes} (hi : impl args (.ok v)) (hs : ser v = .error e) : Told env lib op ser impl args (.failure e)

/-! ## C202 -/

/-- **C202 (partial)** For all operations in the ordinary form whose result is not a time, all arguments, all implementations and all runs of a Go host with a Rust guest, or of
a Go guest in a Rust host, in which the Rust end serves the operation by its generated wrapper: what the generated Go client is told is what the implementation returned for
exactly the arguments, at most once, and once if it subscribed and everything is done.

Missing: operations without parameters, unary ones, those that answer nothing or with a time (C190, C194); what `Single` excludes (C151). -/
theorem mixed_call_partial (format : Time → Bytes) (lib : Lib) {env : Env} (receiver : String) (op : Operation) (hwe : WellFormed env)
    (hw : WellFormed (defs env op)) (hc : clientCompiles receiver op = true) (hu : op.unary = false) (hs : ∀ p ∈ op.params, p.stream = false)
    (hne : op.params ≠ []) (hv : op.ret ≠ .void) (hnt : base op.ret ≠ some .time) (vs vs' : List GV) (ho : Reorder (.obj vs) (.obj vs'))
    (ht : TypedF (defs env op) Allow.all (op.params.map fun p => (p.name, p.ty.ty)) vs')
    (hlt : Size.ops (write (defs env op) (.named env.length) (.obj vs)) < 2 ^ 32)
    (ser : GV → Except Bytes Bytes) (hser : Serializer env op.ret.ty ser) (msg : Bytes) (impl : Impl (List Val) GV) (index : Nat) :
    ∃ bs f0, clientSends env format op vs vs' = some (.ok bs) ∧ ∀ f, f0 ≤ f → ∀ {H : Type} (e : End) (hs : Handlers H) (m : Mixed H) (R : List SockAct),
      Runs e hs m R → Single e m R → Few m R → Small m → Serves (decide (e = .host)) R index (Gives (readArgs f op msg) ser impl) →
      ∀ (j : Nat) (c : WasmCalls.Call), m.go.calls[j]? = some c → c.kind = .rr → c.data = bs → beNat (c.metadata.take 4) = index →
        (∀ r ∈ toldCall m.go j, Told env lib op ser impl (argVals (defs env op) (op.params.map fun p => (p.name, p.ty.ty)) vs') r) ∧
        (toldCall m.go j).length ≤ 1 ∧ (Settled m → (m.go.obj j).isSome = true → ∃ r, toldCall m.go j = [r]) := by
  obtain ⟨bs, h1, f0, h2⟩ := whole_call_partial format lib receiver op hwe hw hc hu hs hne hv hnt vs vs' ho ht hlt ser hser msg
  refine ⟨bs, f0, h1, fun f hf H e hs m R hr hg hfew hsm hserves j c hcall hk hd hm => ?_⟩
  obtain ⟨hA, hB⟩ := Mixed.go_callers_told hr hg hfew hsm j c hcall hk
  have i := Mixed.inv hr hg hfew hsm
  have key : (∀ r ∈ toldCall m.go j, Told env lib op ser impl (argVals (defs env op) (op.params.map fun p => (p.name, p.ty.ty)) vs') r) ∧
      (toldCall m.go j).length ≤ 1 := by
    by_cases hex : ∃ v, SockAct.recv (.request v) ∈ R ∧ v.streamID = c.id
    · obtain ⟨v, hv, hid⟩ := hex
      obtain ⟨bef, rest, s1, hR, hrun⟩ := i.taken hv
      obtain ⟨t1, t2, t3, _⟩ := i.taken_call hg hfew hcall hv hid
      rw [hk] at t3
      have hsv := hserves bef rest v s1 hR t3 (by rw [t1]; exact hm) hrun
      rcases (hA s1.tasks.length rest ⟨bef, v, s1, hR, hid, hrun, rfl⟩).1 with h3 | h3
      · simp [h3]
      · rw [h3]
        cases hy : (yields s1.tasks.length rest).head? with
        | none => simp
        | some y =>
          obtain ⟨a, evs, w, hrw, rfl⟩ := hsv y hy
          rw [t2, hd] at hrw
          obtain ⟨g1, g2, _⟩ := h2 f hf evs w hrw.request hrw.runs
          have hacts : ∀ r, Ev.ret r ∈ evs → impl (argVals (defs env op) (op.params.map fun p => (p.name, p.ty.ty)) vs') r := by
            intro r hret
            obtain ⟨x, hx, hix⟩ := hrw.returns r hret
            rcases g1 with g1 | g1
            · rw [g1] at hx; cases hx
            · rw [g1] at hx; cases List.mem_singleton.mp hx; exact hix
          cases g2 a hrw.answer with
          | value hret hdec => simpa [yielded, toldGo] using Told.value (hacts _ hret) hdec
          | error hret => simpa [yielded, toldGo] using Told.error (hacts _ hret)
          | refused hret hs => simpa [yielded, toldGo] using Told.refused (hacts _ hret) hs
    · simp [hB (fun v hv hs => hex ⟨v, hv, hs⟩)]
  exact ⟨key.1, key.2, fun hset hob => Mixed.go_calls_settle hr hg hfew hsm hset j c hcall hk hob⟩

/-! ### Cases -/

/-- An implementation of `count` that answers 9. -/
def nine : Impl (List Val) GV := fun _ r => r = .ok (.sc (.uint 9))

example (format : Time → Bytes) (lib : Lib) := mixed_call_partial format lib "s" GoRustCall.count (env := []) GoRustCall.nil_wf sell_wf (by decide) rfl
  (by simp [GoRustCall.count]) (by simp [GoRustCall.count]) (by decide) (by decide) [.sc (.uint 7), .null] [.sc (.uint 7), .null] (.refl _)
  (.cons (.prim (by simp [IsPrim])) (.cons (.nilColl (by simp [T.ty, Collection])) .nil)) (by decide +kernel) small small_serializer [33] nine 1

/-- What a call of `count(7, nil)` sends. -/
def args : Bytes := [0x82, 0xa1, 110, 7, 0xa1, 108, 0x90]

theorem args_sent : clientSends [] (fun _ => []) GoRustCall.count [.sc (.uint 7), .null] [.sc (.uint 7), .null] = some (.ok args) := by decide +kernel

theorem gives_nine : Gives (readArgs 20 GoRustCall.count [33]) small nine args (.ok [] [9]) := by
  refine ⟨.ok [9], [.arrive (.ok args), .poll, .ret (.ok (.sc (.uint 9))), .take],
    ⟨some (.ok args), .done, [[.int 7, .arr []]], some (.ok [9]), true, some (.ok [9]), false⟩, ⟨rfl, ?_, ?_, rfl⟩, rfl⟩
  · intro r hr; simpa using hr
  · intro r hr; exact ⟨_, List.mem_singleton_self _, by simpa [nine] using hr⟩

/-- A Go host calls `count(7, nil)`, which is operation 1 of its Rust guest, and is told 9. -/
def session : List Iota.Mixed.Act := [.go (.call .rr args (WasmCalls.opMd 1) .background), .go (.subscribe 0), .toRust, .rust (.task 0 (.ok [] [9])), .toGo]

def taken : List SockAct := [.recv (.request ⟨tRequestResponse, 2, WasmCalls.opMd 1, args, false, false, 0⟩), .task 0 (.ok [] [9])]

theorem serves : Serves true taken 1 (Gives (readArgs 20 GoRustCall.count [33]) small nine) := by
  intro as bs v s h _ _ hr y hy
  match as, h with
  | [], h =>
    cases h
    cases hr
    cases hy
    exact gives_nine
  | [_], h => cases h
  | _ :: _ :: as, h =>
    have := congrArg List.length h
    simp [taken] at this

example : ∃ (m : Mixed Nat) (R : List SockAct), Runs .host WasmDispatch.hs2 m R ∧ (Single .host m R ∧ Few m R ∧ Small m) ∧ Settled m ∧
    Serves true R 1 (Gives (readArgs 20 GoRustCall.count [33]) small nine) ∧ m.go.calls.map (fun c => (c.data, c.metadata)) = [(args, WasmCalls.opMd 1)] ∧
    toldCall m.go 0 = [.value [9] []] :=
  Mixed.play_ends (l := session) _ (fun m R => Mixed.fine .host m R && Mixed.idle m && decide (R = taken ∧
      m.go.calls.map (fun c => (c.data, c.metadata)) = [(args, WasmCalls.opMd 1)] ∧ toldCall m.go 0 = [.value [9] []]))
    (fun m R h => by
      simp only [Bool.and_eq_true, decide_eq_true_eq] at h
      exact ⟨Mixed.fine_all h.1.1, Mixed.idle_settled h.1.2, h.2.1 ▸ serves, h.2.2⟩)
    (by decide +kernel)

end Iota.Props.MixedGenerated
