import Verif.Model.GeneratedWasm
import Verif.Props.Generated
import Verif.Props.Services

/-!
# C199: generated Go code in a WebAssembly host and its guest
-/

namespace Iota.Props.GeneratedWasm
open Iota.Go Iota.Msgpack Iota.Codegen Iota.Calls Iota.GoRustCall Iota.Registry Iota.WasmDispatch Iota.WasmCalls Iota.Generated
open Iota.Spec.Codegen Iota.Spec.WasmCalls Iota.Props.Calls Iota.Props.GoCall Iota.Props.Generated
open Iota.Spec.Handler (opIndex)
open Iota.Peers (Result)

variable {env : Env} {lib : Lib} {format : Time → Bytes} {order : GV → GV} {fuel : Nat} {hs : End → Handlers Wrapper}

/-! ## Specification -/

/-- Runs of the two programs. -/
inductive Runs (env : Env) (lib : Lib) (format : Time → Bytes) (order : GV → GV) (fuel : Nat) (hs : End → Handlers Wrapper) : Sys Wrapper → Prop
  | init : Runs env lib format order fuel hs Sys.init
  | step {y y' : Sys Wrapper} (a : WasmCalls.Act) : Runs env lib format order fuel hs y →
      GeneratedWasm.step env lib format order fuel hs y a = some y' → Runs env lib format order fuel hs y'

/-! ## C199 -/

theorem runs_reach {y : Sys Wrapper} (h : Runs env lib format order fuel hs y) : WasmCalls.Reach hs y := by
  induction h with
  | init => exact .init
  | step a _ hs ih =>
    unfold GeneratedWasm.step at hs
    split at hs
    · exact .step a ih hs
    · cases hs

/-- Every result was given by the wrapper of its handler. -/
theorem made_fits {y : Sys Wrapper} (h : Runs env lib format order fuel hs y) (e : End) :
    ∀ p ∈ (y.node e).made, fits (goAnswers env lib format fuel p.1.handler.op p.1.handler.impl order p.1.data) p.2 = true := by
  induction h with
  | init => intro p hp; exact absurd hp List.not_mem_nil
  | @step y y' a _ hs ih =>
    unfold GeneratedWasm.step at hs
    split at hs
    · rename_i hp
      intro p hpm
      rcases Services.made_step hs e with h1 | ⟨i, r, x, rfl, hx, h1⟩
      · rw [h1] at hpm; exact ih p hpm
      · rw [h1] at hpm
        rcases List.mem_append.mp hpm with h2 | h2
        · exact ih p h2
        · cases List.mem_singleton.mp h2
          simp only [GeneratedWasm.permitted, hx] at hp
          exact hp
    · cases hs

/-- What a caller is told is what the wrapper of the operation gives for its data. -/
theorem told_made {op : Operation} {impl : List GV → Res GV} {e : End} {id : UInt32} (hid : hs (other e) .rr id = some ⟨op, impl⟩) {y : Sys Wrapper}
    (hr : Runs env lib format order fuel hs y) (hb : Bounded y) {j : Nat} {c : WasmCalls.Call} (hc : (y.node e).calls[j]? = some c) (hk : c.kind = .rr)
    (hm : opIndex c.metadata = some id.toNat) {r : Result} (hr' : r ∈ toldCall (y.node e) j) :
    fits (goAnswers env lib format fuel op impl order c.data) r = true := by
  have hidx : ∀ op : UInt32, opIndex c.metadata = some op.toNat → op = id := by
    intro op ho
    rw [hm] at ho
    exact UInt32.toNat_inj.mp (Option.some.inj ho).symm
  cases (WasmCalls.calls_get_own_results (runs_reach hr) hb e hc hk).1 r hr' with
  | refused msg hun _ =>
    have := hun id hm
    rw [hk, hid] at this
    cases this
  | handler x r hx hsv =>
    have hg := made_fits hr (other e) _ hx
    obtain ⟨i, h5, h6⟩ := hsv.handler
    rw [hidx i h5, hk, hid] at h6
    have h7 : x.handler = ⟨op, impl⟩ := (Option.some.inj h6).symm
    simpa only [h7, hsv.data] using hg

/-- **C199 (partial)** For all hosts and guests with generated Go code, all their runs and both directions: if the index in the metadata of a call names the
wrapper of an operation at the other end, then what the caller is told is what the implementation returned for exactly its arguments; it is told so
at most once, and once if it subscribed and nothing of the call is under way.

Missing: operations that do not compile (C113), absent optional enums and aliases. -/
theorem generated_wasm_call_partial (lib : Lib) (format : Time → Bytes) {env : Env} (receiver : String) (op : Operation) (hwe : WellFormed env)
    (hw : WellFormed (defs env op)) (hu : op.unary = true → op.args.length ≤ 1) (hsc : serverCompiles op = true)
    (hcc : clientCompiles receiver op = true) (vs vs' : List GV) (ho : Reorder (.obj vs) (.obj vs'))
    (ht : TypedF (defs env op) ⟨false, true, true⟩ (op.args.map fun p => (p.name, p.ty.ty)) vs')
    (hlt : Size.ops (writeFields (defs env op) (op.args.map fun p => (p.name, p.ty.ty)) vs) + 5 < 2 ^ 32)
    (impl : List GV → Res GV) (order : GV → GV) (hor : ∀ v, Reorder (order v) v)
    (hfine : Fine env lib format op order (impl (arguments env op vs')))
    (hs : End → Handlers Wrapper) (e : End) (id : UInt32) (hid : hs (other e) .rr id = some ⟨op, impl⟩) :
    ∃ bs f0, clientSends env format op vs vs' = some (.ok bs) ∧ ∀ fuel, f0 ≤ fuel → ∀ (y : Sys Wrapper),
      Runs env lib format order fuel hs y → Bounded y →
      ∀ (j : Nat) (c : WasmCalls.Call), (y.node e).calls[j]? = some c → c.kind = .rr → c.data = bs → opIndex c.metadata = some id.toNat →
        (∀ r ∈ toldCall (y.node e) j, Told env lib fuel op (impl (arguments env op vs')) r) ∧
        (toldCall (y.node e) j).length ≤ 1 ∧
        ((y.node e).obj j ≠ none → inFlight (y.node (other e)) (y.wire e) (y.wire (other e)) c = 0 → ∃ r, toldCall (y.node e) j = [r]) := by
  obtain ⟨bs, h1, f0, h2⟩ := answer_told lib format receiver op hwe hw hu hsc hcc vs vs' ho ht hlt impl order hor hfine
  refine ⟨bs, f0, h1, fun fuel hf y hr hb j c hc hk hd hm => ?_⟩
  exact ⟨fun r hr' => h2 fuel hf r (hd ▸ told_made hid hr hb hc hk hm hr'), (WasmCalls.calls_get_own_results (runs_reach hr) hb e hc hk).2,
    fun ho hz => WasmCalls.calls_get_results (runs_reach hr) hb e hc hk ho hz⟩

/-- **C199 (partial)** The index need not be known: the guest sends the host a table of its operations, the operation is in it under its name, and calls
of the host with any index the table gives for this name are told what the implementation returned. For all histories of exports and imports of the guest in
which no other wrapper has this name.

Missing: as above. -/
theorem advertised_wasm_call_partial (lib : Lib) (format : Time → Bytes) {env : Env} (receiver : String) (op : Operation) (hwe : WellFormed env)
    (hw : WellFormed (defs env op)) (hu : op.unary = true → op.args.length ≤ 1) (hsc : serverCompiles op = true)
    (hcc : clientCompiles receiver op = true) (vs vs' : List GV) (ho : Reorder (.obj vs) (.obj vs'))
    (ht : TypedF (defs env op) ⟨false, true, true⟩ (op.args.map fun p => (p.name, p.ty.ty)) vs')
    (hlt : Size.ops (writeFields (defs env op) (op.args.map fun p => (p.name, p.ty.ty)) vs) + 5 < 2 ^ 32)
    (impl : List GV → Res GV) (order : GV → GV) (hor : ∀ v, Reorder (order v) v)
    (hfine : Fine env lib format op order (impl (arguments env op vs')))
    (es : List (Registry.Ev Wrapper)) (hn : ∀ o ∈ operationList (Registry.run es), o.ns.length < 2 ^ 16 ∧ o.op.length < 2 ^ 16)
    (hsz : 10 + ((operationList (Registry.run es)).map fun o => 12 + o.ns.length + o.op.length).sum < 2 ^ 32)
    (x : Info) (hx : .exp .rr x ⟨op, impl⟩ ∈ es) (hone : ∀ w, .exp .rr x w ∈ es → w = ⟨op, impl⟩)
    (hs : End → Handlers Wrapper) (hg : hs .guest = getHandler (Registry.run es)) :
    ∃ t bs f0, Registry.Advertised es t ∧ clientSends env format op vs vs' = some (.ok bs) ∧
      (∃ o ∈ t, o.type = Kind.rr.code ∧ o.direction = 1 ∧ o.ns = x.ns ∧ o.op = x.op) ∧
      ∀ o ∈ t, o.type = Kind.rr.code → o.direction = 1 → o.ns = x.ns → o.op = x.op →
        ∀ fuel, f0 ≤ fuel → ∀ (y : Sys Wrapper), Runs env lib format order fuel hs y → Bounded y →
        ∀ (j : Nat) (c : WasmCalls.Call), (y.node .host).calls[j]? = some c → c.kind = .rr → c.data = bs →
          opIndex c.metadata = some o.index.toNat →
          (∀ r ∈ toldCall (y.node .host) j, Told env lib fuel op (impl (arguments env op vs')) r) ∧
          (toldCall (y.node .host) j).length ≤ 1 ∧
          ((y.node .host).obj j ≠ none → inFlight (y.node .guest) (y.wire .host) (y.wire .guest) c = 0 →
            ∃ r, toldCall (y.node .host) j = [r]) := by
  obtain ⟨t, h1, h2, h3⟩ := Registry.advertised_index_reaches_handler es hn hsz
  obtain ⟨bs, h4, f0, h5⟩ := answer_told lib format receiver op hwe hw hu hsc hcc vs vs' ho ht hlt impl order hor hfine
  refine ⟨t, bs, f0, h1, h4, h2 _ _ _ hx, fun o hot hty hd hns hop fuel hf y hr hb j c hc hk hdt hm => ?_⟩
  obtain ⟨k, w, h6, h7, h8, _⟩ := h3 o hot hd
  have hkr : k = .rr := by
    rw [hty] at h6
    cases k <;> first | rfl | exact absurd h6 (by decide)
  subst hkr
  rw [hns, hop] at h7
  have hid : hs .guest .rr o.index = some ⟨op, impl⟩ := by rw [hg, h8, hone w h7]
  exact ⟨fun r hr' => h5 fuel hf r (hdt ▸ told_made (e := .host) hid hr hb hc hk hm hr'),
    (WasmCalls.calls_get_own_results (runs_reach hr) hb .host hc hk).2,
    fun ho hz => WasmCalls.calls_get_results (runs_reach hr) hb .host hc hk ho hz⟩

/-! ### Cases -/

/-- The guest exports `count`, and the host nothing. -/
def hands : End → Handlers Wrapper
  | .host => fun _ _ => none
  | .guest => getHandler (Registry.run (events .client))

example := generated_wasm_call_partial noLib (fun _ => []) "s" count (env := []) nil_wf sell_wf (by decide) (by decide) (by decide)
    [.sc (.uint 7), .null] [.sc (.uint 7), .null] (.refl _)
    (.cons (.prim (by simp [IsPrim])) (.cons (.nilColl (by simp [Collection, T.ty])) .nil)) (by decide +kernel) first (fun v => v) (fun v => .refl v)
    (.ok (v := .sc (.uint 7)) (by simp [Times]) (.prim (by simp [IsPrim])) (by decide +kernel))
    hands .host 0 rfl

example := advertised_wasm_call_partial noLib (fun _ => []) "s" count (env := []) nil_wf sell_wf (by decide) (by decide) (by decide)
    [.sc (.uint 7), .null] [.sc (.uint 7), .null] (.refl _)
    (.cons (.prim (by simp [IsPrim])) (.cons (.nilColl (by simp [Collection, T.ty])) .nil)) (by decide +kernel) first (fun v => v) (fun v => .refl v)
    (.ok (v := .sc (.uint 7)) (by simp [Times]) (.prim (by simp [IsPrim])) (by decide +kernel))
    (events .client) (by decide) (by decide) name (by simp [events]) (by intro w hw; simp [events] at hw; exact hw) hands rfl

def runSteps (y : Sys Wrapper) : List WasmCalls.Act → Option (Sys Wrapper)
  | [] => some y
  | a :: as => (GeneratedWasm.step [] noLib (fun _ => []) (fun v => v) 20 hands y a).bind fun y' => runSteps y' as

theorem runSteps_runs {as : List WasmCalls.Act} : ∀ {y y' : Sys Wrapper}, Runs [] noLib (fun _ => []) (fun v => v) 20 hands y →
    runSteps y as = some y' → Runs [] noLib (fun _ => []) (fun v => v) 20 hands y' := by
  induction as with
  | nil => intro y y' h hr; cases hr; exact h
  | cons a as ih =>
    intro y y' h hr
    obtain ⟨y1, h1, h2⟩ := Option.bind_eq_some_iff.mp hr
    exact ih (.step a h h1) h2

/-- The host calls `count(7, nil)` and the guest answers 7. -/
def session : List WasmCalls.Act :=
  [.call .host .rr sent (Programs.importMd 0) .background, .subscribe .host 0,
   .recv .guest ([0, 0, 0, 2, 17, 0, 0, 0, 8] ++ Programs.importMd 0 ++ sent), .task .guest 0 true,
   .answer .guest 0 (.value [7] []), .recv .host [0, 0, 0, 2, 40, 96, 7]]

example : ∃ y : Sys Wrapper, Runs [] noLib (fun _ => []) (fun v => v) 20 hands y ∧ toldCall (y.node .host) 0 = [.value [7] []] := by
  have h : ((runSteps Sys.init session).any fun y => decide (toldCall (y.node .host) 0 = [.value [7] []])) = true := by decide +kernel
  obtain ⟨y, h1, h2⟩ := (Option.any_eq_true _ _).mp h
  exact ⟨y, runSteps_runs .init h1, of_decide_eq_true h2⟩

/-- The guest cannot answer 8. -/
example : (runSteps Sys.init (session.take 4 ++ [.answer .guest 0 (.value [8] [])])).isNone = true := by decide +kernel

end Iota.Props.GeneratedWasm
