import Verif.Model.Generated
import Verif.Props.Greeter
import Verif.Props.GoCall

/-!
# C198: generated Go programs over a connection
-/

namespace Iota.Props.Generated
open Iota.Go Iota.Msgpack Iota.Codegen Iota.Calls Iota.GoRustCall Iota.Registry Iota.Peers Iota.Net Iota.Programs Iota.Generated
open Iota.Spec.Codegen Iota.Spec.Programs Iota.Props.Calls Iota.Props.Programs Iota.Props.GoCall
open Iota.Spec.Handler (opIndex)
open Iota.Spec.Components (text)
open Iota.Spec.Polite (results)
open Iota.Spec.Net (Sane Few GoesOn)
open Iota.StreamId (Side)

/-! ## Specification -/

/-- What an implementation may return: a value of the type of the result that can be serialized, or an error. -/
inductive Fine (env : Env) (lib : Lib) (format : Time → Bytes) (op : Operation) (order : GV → GV) : Res GV → Prop
  | ok {v : GV} (hf : Times lib format v) (ht : TypedT env op.ret v) (hlt : Size.ops (write env op.ret.ty (order v)) < 2 ^ 32) :
      Fine env lib format op order (.ok v)
  | err {e : String} : Fine env lib format op order (.err e)

/-- The caller is told what the implementation returned: the client decodes the same value, with empty slices and maps for nil, or gets the text
of the error. -/
inductive Told (env : Env) (lib : Lib) (fuel : Nat) (op : Operation) : Res GV → Result → Prop
  | value {v : GV} {d m : Bytes} (h : Calls.decode env lib fuel (clientResult op).2 d = some (.ok (seen env op.ret v))) :
      Told env lib fuel op (.ok v) (.value d m)
  | failure {e : String} : Told env lib fuel op (.err e) (.failure (text e))

/-! ## C198 -/

/-- What fits the answer of the wrapper to the data that a client sends is what the caller should be told. -/
theorem answer_told (lib : Lib) (format : Time → Bytes) {env : Env} (receiver : String) (op : Operation) (hwe : WellFormed env)
    (hw : WellFormed (defs env op)) (hu : op.unary = true → op.args.length ≤ 1) (hs : serverCompiles op = true)
    (hc : clientCompiles receiver op = true) (vs vs' : List GV) (ho : Reorder (.obj vs) (.obj vs'))
    (ht : TypedF (defs env op) ⟨false, true, true⟩ (op.args.map fun p => (p.name, p.ty.ty)) vs')
    (hlt : Size.ops (writeFields (defs env op) (op.args.map fun p => (p.name, p.ty.ty)) vs) + 5 < 2 ^ 32)
    (impl : List GV → Res GV) (order : GV → GV) (hor : ∀ v, Reorder (order v) v)
    (hfine : Fine env lib format op order (impl (arguments env op vs'))) :
    ∃ bs, clientSends env format op vs vs' = some (.ok bs) ∧ ∃ f0, ∀ f, f0 ≤ f → ∀ r,
      fits (goAnswers env lib format f op impl order bs) r = true → Told env lib f op (impl (arguments env op vs')) r := by
  obtain ⟨bs, h1, f1, h2⟩ := args_arrive_partial lib format receiver op hw hu hs hc vs vs' ho ht hlt
  refine ⟨bs, h1, ?_⟩
  generalize hi : impl (arguments env op vs') = x at hfine ⊢
  rw [arguments] at hi
  cases hfine with
  | @ok v hf hty hsz =>
    obtain ⟨out, h3, f2, h4⟩ := result_arrives_partial hwe receiver op hs hc (order v) v hf (hor v) hty hsz
    refine ⟨f1 + f2, fun f hle r hr => ?_⟩
    simp only [goAnswers, h2 f (by omega), hi, respond, h3] at hr
    cases r with
    | failure m => simp [fits] at hr
    | value d m =>
      have hr : d = out ∧ m = [] := of_decide_eq_true hr
      rw [hr.1]
      exact .value (h4 f (by omega))
  | err =>
    refine ⟨f1, fun f hle r hr => ?_⟩
    simp only [goAnswers, h2 f hle, hi, respond] at hr
    cases r with
    | value d m => simp [fits] at hr
    | failure m =>
      have hr := of_decide_eq_true hr
      rw [hr]
      exact .failure

/-- **C198 (partial)** For all programs with generated Go code at the ends of a connection, and all their runs: if the client has imported the operation in
the place in which the service has exported it, then what the caller is told for a call is what the implementation returned for exactly its arguments, it
is told so at most once, and once nothing more can be done about the calls under way it was told, if it asked to be.

Missing: operations in other places (C155), what C147 is missing, and operations that do not compile (C113). -/
theorem generated_call_partial (lib : Lib) (format : Time → Bytes) {env : Env} (receiver : String) (op : Operation) (hwe : WellFormed env)
    (hw : WellFormed (defs env op)) (hu : op.unary = true → op.args.length ≤ 1) (hs : serverCompiles op = true)
    (hc : clientCompiles receiver op = true) (vs vs' : List GV) (ho : Reorder (.obj vs) (.obj vs'))
    (ht : TypedF (defs env op) ⟨false, true, true⟩ (op.args.map fun p => (p.name, p.ty.ty)) vs')
    (hlt : Size.ops (writeFields (defs env op) (op.args.map fun p => (p.name, p.ty.ty)) vs) + 5 < 2 ^ 32)
    (impl : List GV → Res GV) (order : GV → GV) (hor : ∀ v, Reorder (order v) v)
    (hfine : Fine env lib format op order (impl (arguments env op vs')))
    (es : Side → List (Registry.Ev Wrapper)) (hsm : ∀ s k, ((Registry.run (es s)).handlers k).length < 2 ^ 32)
    (s : Side) (x : Info) (id : UInt32) (hid : (.rr, x, id) ∈ Registry.ids Reg.init (es s))
    (hil : ((Registry.run (es s)).imports .rr).length < 2 ^ 32)
    (same : ∀ (i : Nat), ((Registry.run (es s)).imports .rr)[i]? = some x →
      (Registry.exports (es (other s)) .rr)[i]? = some (x, ⟨op, impl⟩)) :
    ∃ bs f0, clientSends env format op vs vs' = some (.ok bs) ∧ ∀ fuel, f0 ≤ fuel → ∀ subs (n : Net),
      Simple (duo env lib format order fuel fun s => Registry.run (es s)) subs n → Few n →
      ∀ (j : Nat) (c : Peers.Call), (n.peer s).calls[j]? = some c → c.kind = .rr → c.frame.data = bs →
        opIndex c.frame.metadata = some id.toNat →
        (∀ r, .delivered c.obj r ∈ (n.peer s).log → Told env lib fuel op (impl (arguments env op vs')) r) ∧
        results c.obj (n.peer s).log ≤ 1 ∧
        ((∀ a, GoesOn (fun s => blank (Registry.run (es s))) a → Sane n a → n.step a = none) → j ∈ subs s →
          ∃ r, .delivered c.obj r ∈ (n.peer s).log ∧ results c.obj (n.peer s).log = 1) := by
  obtain ⟨bs, h1, f0, h2⟩ := answer_told lib format receiver op hwe hw hu hs hc vs vs' ho ht hlt impl order hor hfine
  refine ⟨bs, f0, h1, fun fuel hf subs n hsim hb j c hj hk hd hm => ?_⟩
  have hsmall : Small (duo env lib format order fuel fun s => Registry.run (es s)) := hsm
  have hbl : ∀ s, Handler.Small (blank (Registry.run (es s))) := by
    intro s k
    simp only [blank, List.length_map]
    exact hsm s k
  have hp := Greeter.simple_polite hsim
  refine ⟨fun r hr => ?_, ?_, fun hn hsub => ?_⟩
  · have hplace := same _ (import_place hid hil)
    rcases call_runs_place (es := es) (fun _ => rfl) hsmall (Greeter.simple_reach hsim) hb s c (List.mem_of_getElem? hj) hk _ hm r hr with
      ⟨y, code, h3, h4⟩ | ⟨h3, _⟩
    · rw [hplace] at h3
      cases h3
      have h4 : fits (goAnswers env lib format fuel op impl order c.frame.data) r = true := h4
      rw [hd] at h4
      exact h2 fuel hf r h4
    · rw [hplace] at h3
      cases h3
  · have := Net.tcp_calls_once_partial hbl hp hb s j c hj
    split at this <;> omega
  · obtain ⟨m, h3⟩ := Net.tcp_calls_finish_partial hbl hp hb
    obtain ⟨h4, r, h5, _⟩ := (((h3 0 n (.stay n)).2 hn) s j c hj hsub).1 hk
    exact ⟨r, h5, h4⟩

/-! ### Cases -/

/-- Returns its first argument. -/
def first (vs : List GV) : Res GV := .ok (vs.headD .null)

def name : Info := ⟨[97], [98]⟩

/-- The program that listens imports `count` (`GoCall.count`), the one that connects exports it. -/
def events : Side → List (Registry.Ev Wrapper)
  | .client => [.exp .rr name ⟨count, first⟩]
  | .server => [.imp .rr name]

def noLib : Lib := ⟨fun n => n, fun _ => none⟩

/-- What a call of `count(7, nil)` sends. -/
def sent : Bytes := match clientSends [] (fun _ => []) count [.sc (.uint 7), .null] [.sc (.uint 7), .null] with
  | some (.ok bs) => bs
  | _ => []

example := generated_call_partial noLib (fun _ => []) "s" count (env := []) nil_wf sell_wf (by decide) (by decide) (by decide)
    [.sc (.uint 7), .null] [.sc (.uint 7), .null] (.refl _)
    (.cons (.prim (by simp [IsPrim])) (.cons (.nilColl (by simp [Collection, T.ty])) .nil)) (by decide +kernel) first (fun v => v) (fun v => .refl v)
    (.ok (v := .sc (.uint 7)) (by simp [Times]) (.prim (by simp [IsPrim])) (by decide +kernel))
    events (by intro s k; cases s <;> cases k <;> decide) .server name 0 (by simp [events, Registry.ids, Registry.step, importOp, Reg.init, search, upd]) (by decide) (by
      intro i hi
      cases i with
      | zero => rfl
      | succ i => simp [events, Registry.run, Registry.step, importOp, Reg.init, search, upd] at hi)

/-- The programs. -/
def programs : Duo Wrapper := duo [] noLib (fun _ => []) (fun v => v) 20 fun s => Registry.run (events s)

/-- A call and its answer. -/
def calling : List Programs.Act :=
  [.net (.peer (.call .server .rr sent (importMd 0))), .net (.peer (.subscribe .server 0)), .net (.carry .server 20),
   .net (.carry .server sent.length), .net (.read .server []), .net (.handle .client), .run .client true 0, .answer .client 0 (.value [7] []),
   .net (.carry .client 10), .net (.read .client []), .net (.handle .server)]

theorem calling_runs : (Greeter.runSimple programs (fun _ => []) Net.init calling).isSome = true := by decide +kernel

example : ∃ (n : Net) (subs : Side → List Nat) (c : Peers.Call), Simple programs subs n ∧ Few n ∧
    (n.peer .server).calls[0]? = some c ∧ c.kind = .rr ∧ c.frame.data = sent ∧ opIndex c.frame.metadata = some 0 ∧
    .delivered c.obj (.value [7] []) ∈ (n.peer .server).log := by
  refine ⟨((Greeter.runSimple programs (fun _ => []) Net.init calling).get calling_runs).2, _, ⟨.rr, requestFrame .rr 2 sent (importMd 0), 0⟩,
    Greeter.runSimple_ends (Option.some_get calling_runs).symm, ?_, ?_, ?_, ?_, ?_, ?_⟩
  · intro s; cases s <;> decide +kernel
  · decide +kernel
  · decide +kernel
  · decide +kernel
  · decide +kernel
  · decide +kernel

end Iota.Props.Generated
