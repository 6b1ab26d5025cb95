import Verif.Model.GoRustCall
import Verif.Props.Calls

/-!
# C196: a whole call between a client and a service generated in Go
-/

namespace Iota.Props.GoCall
open Iota.Go Iota.Msgpack Iota.Codegen Iota.Calls Iota.GoRustCall Iota.Spec.Msgpack Iota.Spec.Codegen Iota.Props.Calls

/-! ## Specification -/

/-- What the caller makes of what the wrapper answers to the data of a call. -/
def returned (env : Env) (lib : Lib) (format : Time → Bytes) (fuel : Nat) (op : Operation) (impl : List GV → Res GV) (order : GV → GV)
    (data : Bytes) : Option (Res GV) :=
  match goAnswers env lib format fuel op impl order data with
  | some (.ok out) => Calls.decode env lib fuel (clientResult op).2 out
  | some (.err e) => some (.err e)
  | some .panic => some .panic
  | none => none

/-- The arguments as the implementation sees them: nil slices and maps are empty. -/
def arguments (env : Env) (op : Operation) (vs : List GV) : List GV :=
  normF (defs env op) (op.args.map fun p => (p.name, p.ty.ty)) vs

/-! ## C196 -/

/-- **C196** For all operations of which both ends compile, unary or not, all arguments and all implementations: the call returns the value that
the implementation returns for these arguments, in which nil slices and maps are empty, or the error that it returns. -/
theorem go_call_partial (lib : Lib) (format : Time → Bytes) {env : Env} (receiver : String) (op : Operation) (hwe : WellFormed env)
    (hw : WellFormed (defs env op)) (hu : op.unary = true → op.args.length ≤ 1) (hs : serverCompiles op = true)
    (hc : clientCompiles receiver op = true) (vs vs' : List GV) (ho : Reorder (.obj vs) (.obj vs'))
    (ht : TypedF (defs env op) ⟨false, true, true⟩ (op.args.map fun p => (p.name, p.ty.ty)) vs')
    (hlt : Size.ops (writeFields (defs env op) (op.args.map fun p => (p.name, p.ty.ty)) vs) + 5 < 2 ^ 32)
    (impl : List GV → Res GV) (order : GV → GV) (hor : ∀ v, Reorder (order v) v) :
    ∃ bs, clientSends env format op vs vs' = some (.ok bs) ∧
      (∀ v, impl (arguments env op vs') = .ok v → Times lib format v → TypedT env op.ret v → Size.ops (write env op.ret.ty (order v)) < 2 ^ 32 →
        ∃ f0, ∀ f, f0 ≤ f → returned env lib format f op impl order bs = some (.ok (seen env op.ret v))) ∧
      (∀ e, impl (arguments env op vs') = .err e → ∃ f0, ∀ f, f0 ≤ f → returned env lib format f op impl order bs = some (.err e)) := by
  obtain ⟨bs, h1, f1, h2⟩ := args_arrive_partial lib format receiver op hw hu hs hc vs vs' ho ht hlt
  refine ⟨bs, h1, fun v hi hf hty hsz => ?_, fun e hi => ⟨f1, fun f hle => ?_⟩⟩
  · obtain ⟨out, h3, f2, h4⟩ := result_arrives_partial hwe receiver op hs hc (order v) v hf (hor v) hty hsz
    refine ⟨f1 + f2, fun f hle => ?_⟩
    rw [arguments] at hi
    simp only [returned, goAnswers, h2 f (by omega), hi, respond, h3]
    exact h4 f (by omega)
  · rw [arguments] at hi
    simp only [returned, goAnswers, h2 f hle, hi, respond]

/-- **C196** Data that the wrapper cannot read is answered with an error whatever the implementation is, so without calling it. -/
theorem unread_call (lib : Lib) (format : Time → Bytes) (env : Env) (op : Operation) (fuel : Nat) (data : Bytes) (e : String)
    (h : serverReceives env lib fuel op data = some (.err e)) (impl : List GV → Res GV) (order : GV → GV) :
    returned env lib format fuel op impl order data = some (.err e) := by
  simp only [returned, goAnswers, h]

/-! ### Cases -/

theorem nil_wf : WellFormed [] := by
  refine ⟨fun n => ?_, fun n => ?_, fun n s h => ?_, fun n fs h => ?_, fun _ => 0, fun n h => ?_, fun n s m h => ?_⟩
  · simp [Env.get, Def.fields, names]
  · simp [Env.get, Def.fields, short]
  · simp [Env.get, Def.fields, names] at h
  · simp [Env.get] at h
  · simp at h
  · simp [Env.get, Def.fields] at h

/-- `sell` with 7 and a nil slice, which the implementation sees as an empty one. -/
example (lib : Lib) (format : Time → Bytes) (impl : List GV → Res GV) (hi : impl [.sc (.uint 7), .list []] = .err "sold out") :
    ∃ bs, clientSends [] format sell [.sc (.uint 7), .null] [.sc (.uint 7), .null] = some (.ok bs) ∧
      ∃ f0, ∀ f, f0 ≤ f → returned [] lib format f sell impl (fun v => v) bs = some (.err "sold out") := by
  obtain ⟨bs, h1, _, h2⟩ := go_call_partial lib format "s" sell (env := []) nil_wf sell_wf (by decide) (by decide) (by decide)
    [.sc (.uint 7), .null] [.sc (.uint 7), .null] (.refl _)
    (.cons (.prim (by simp [IsPrim])) (.cons (.nilColl (by simp [Collection, T.ty])) .nil)) (by decide +kernel) impl (fun v => v) (fun v => .refl v)
  exact ⟨bs, h1, h2 _ (by simpa [arguments, normF, norm, sell, Operation.args, T.ty, Ty.strip, Env.get, defs] using hi)⟩

/-- `count` as in the case above, with a result. -/
def count : Operation := ⟨"count", false, [⟨[110], "n", false, .prim .u8⟩, ⟨[108], "l", false, .list (.prim .str)⟩], false, .prim .u8⟩

example (lib : Lib) (format : Time → Bytes) :
    ∃ bs, clientSends [] format count [.sc (.uint 7), .null] [.sc (.uint 7), .null] = some (.ok bs) ∧
      ∃ f0, ∀ f, f0 ≤ f → returned [] lib format f count (fun vs => .ok (vs.headD .null)) (fun v => v) bs = some (.ok (.sc (.uint 7))) := by
  obtain ⟨bs, h1, h2, _⟩ := go_call_partial lib format "s" count (env := []) nil_wf sell_wf (by decide) (by decide) (by decide)
    [.sc (.uint 7), .null] [.sc (.uint 7), .null] (.refl _)
    (.cons (.prim (by simp [IsPrim])) (.cons (.nilColl (by simp [Collection, T.ty])) .nil)) (by decide +kernel)
    (fun vs => .ok (vs.headD .null)) (fun v => v) (fun v => .refl v)
  have := h2 (.sc (.uint 7)) (by simp [arguments, normF, norm, count, Operation.args, T.ty, Ty.strip, Env.get, defs])
    (by simp [Times]) (.prim (by simp [IsPrim])) (by decide +kernel)
  exact ⟨bs, h1, this⟩

/-- A request cut off after its head. -/
example (lib : Lib) (format : Time → Bytes) (impl : List GV → Res GV) :
    ∃ e, returned [] lib format 9 count impl (fun v => v) [0x82] = some (.err e) :=
  ⟨_, unread_call lib format [] count 9 [0x82] _ rfl impl _⟩

end Iota.Props.GoCall
