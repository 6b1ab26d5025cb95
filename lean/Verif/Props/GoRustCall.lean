import Verif.Model.GoRustCall
import Verif.Props.RustResults
import Verif.Props.RustInputs
import Verif.Props.RustOnce
import Verif.Props.RustOutputs

/-!
# C195: a whole call, between a client and a service generated in Go and in Rust
-/

namespace Iota.Props.GoRustCall
open Iota.Go Iota.Msgpack Iota.Codegen Iota.Calls Iota.RustInputs Iota.RustOnce Iota.GoRustCall Iota.Spec.Msgpack Iota.Spec.Codegen Iota.Spec.Foreign
open Iota.Props.RustInputs Iota.Props.RustResults Iota.Props.Calls

/-! ## Specification -/

/-- A serializer, which may fail, of values of a type: what it writes is some MessagePack serialization, and shorter than 2^32. -/
def Serializer (env : Env) (t : Ty) (ser : GV → Except Bytes Bytes) : Prop :=
  ∀ v bs, ser v = .ok bs → Ser env t v bs ∧ bs.length < 2 ^ 32

/-- Nothing but this request arrives. -/
def Only (evs : List (Ev GV)) (bs : Bytes) : Prop := ∀ r, Ev.arrive r ∈ evs → r = .ok bs

/-- What the caller makes of an answer. -/
inductive Outcome (env : Env) (lib : Lib) (op : Operation) (ser : GV → Except Bytes Bytes) (evs : List (Ev GV)) :
    Except Bytes Bytes → Prop
  /-- the value that the implementation returned -/
  | value {v : GV} {b : Bytes} (hr : Ev.ret (.ok v) ∈ evs) (hd : ∃ f0, ∀ f, f0 ≤ f → Calls.decode env lib f (clientResult op).2 b = some (.ok v)) :
      Outcome env lib op ser evs (.ok b)
  /-- the error that the implementation returned -/
  | error {e : Bytes} (hr : Ev.ret (.error e) ∈ evs) : Outcome env lib op ser evs (.error e)
  /-- the implementation returned a value that the serializer refuses -/
  | refused {v : GV} {e : Bytes} (hr : Ev.ret (.ok v) ∈ evs) (hs : ser v = .error e) : Outcome env lib op ser evs (.error e)

/-! ## C195 -/

/-- **C195** For all operations in the ordinary form whose result is not a time, all arguments, and all runs of the wrapper on what the
client sends: the implementation is started at most once, with the arguments; the caller gets the value that the implementation returns,
or its error; and the answer does come, if the implementation returns and the Mono with the answer is kept. -/
theorem whole_call_partial (format : Time → Bytes) (lib : Lib) {env : Env} (receiver : String) (op : Operation) (hwe : WellFormed env)
    (hw : WellFormed (defs env op)) (hc : clientCompiles receiver op = true) (hu : op.unary = false) (hs : ∀ p ∈ op.params, p.stream = false)
    (hne : op.params ≠ []) (hv : op.ret ≠ .void) (hnt : base op.ret ≠ some .time) (vs vs' : List GV) (ho : Reorder (.obj vs) (.obj vs'))
    (ht : TypedF (defs env op) Allow.all (op.params.map fun p => (p.name, p.ty.ty)) vs')
    (hlt : Size.ops (write (defs env op) (.named env.length) (.obj vs)) < 2 ^ 32)
    (ser : GV → Except Bytes Bytes) (hser : Serializer env op.ret.ty ser) (msg : Bytes) :
    ∃ bs, clientSends env format op vs vs' = some (.ok bs) ∧ ∃ f0, ∀ f, f0 ≤ f → ∀ (evs : List (Ev GV)) (w : Once (List Val)),
      Only evs bs → Once.start.run (readArgs f op msg) ser evs = some w →
      (w.acts = [] ∨ w.acts = [argVals (defs env op) (op.params.map fun p => (p.name, p.ty.ty)) vs']) ∧
      (∀ a, w.answer = some a → Outcome env lib op ser evs a) ∧
      (Ev.drop ∉ evs → w.panicked = false ∧ (Ev.arrive (.ok bs) ∈ evs → w.phase ≠ .acting →
        w.step (readArgs f op msg) ser .poll = none → w.step (readArgs f op msg) ser .take = none → w.answer.isSome = true)) := by
  obtain ⟨bs, hsend, f0, hf⟩ := go_args_read_partial format op hw hu hs hne vs vs' ho ht hlt
  refine ⟨bs, hsend, f0, fun f hle evs w hon hr => ?_⟩
  have hread : readArgs f op msg bs = .ok (argVals (defs env op) (op.params.map fun p => (p.name, p.ty.ty)) vs') := by
    rw [readArgs, hf f hle]
  obtain ⟨h1, h2, h3⟩ := RustOnce.once_wrapper_safe (readArgs f op msg) ser evs w hr
  refine ⟨?_, fun a ha => ?_, fun hd => ?_⟩
  · cases hx : w.acts with
    | nil => exact .inl rfl
    | cons x l =>
      rw [hx] at h1
      obtain rfl : l = [] := by simpa using h1
      obtain ⟨d, hm, hd⟩ := h2 x (by simp [hx])
      cases hon _ hm
      rw [hread] at hd
      cases hd
      exact .inr rfl
  · cases h3 a ha with
    | unread h =>
      rcases h with h | ⟨d, hm, hd⟩
      · cases hon _ h
      · cases hon _ hm
        rw [hread] at hd
        cases hd
    | result _ hret hs =>
      cases a with
      | ok b =>
        obtain ⟨hb, hl⟩ := hser _ _ hs
        exact .value hret (foreign_result_partial env hwe lib receiver op hc hv hnt _ _ hb hl)
      | error e => exact .refused hret hs
    | failed _ hret => exact .error hret
  · obtain ⟨h4, h5⟩ := RustOnce.once_wrapper_live (readArgs f op msg) ser evs w hr hd
    exact ⟨h4, h5 _⟩

/-- **C195** Whatever arrives, from whomever: the implementation in Rust is only started with one value for each parameter, each of them found
under the name of the parameter in the request, and a request that cannot be read as that is answered with an error, if it is answered. -/
theorem started_with_request (fuel : Nat) (op : Operation) (msg : Bytes) (ser : GV → Except Bytes Bytes) (evs : List (Ev GV))
    (w : Once (List Val)) (hr : Once.start.run (readArgs fuel op msg) ser evs = some w) :
    (∀ vs ∈ w.acts, vs.length = op.params.length ∧ ∃ data entries rest, Ev.arrive (.ok data) ∈ evs ∧
      Spec.Reader.parse fuel data = some (.map entries, rest) ∧
      ∀ (i : Nat) (p : Param) (v : Val), op.params[i]? = some p → vs[i]? = some v → (.str p.name, v) ∈ entries) ∧
    ((∀ data, Ev.arrive (.ok data) ∈ evs → inputs fuel (op.params.map (·.name)) data = none) →
      w.acts = [] ∧ ∀ a, w.answer = some a → ∃ e, a = .error e) := by
  obtain ⟨_, h2, h3⟩ := RustOnce.once_wrapper_safe (readArgs fuel op msg) ser evs w hr
  have hin : ∀ data x, readArgs fuel op msg data = .ok x → inputs fuel (op.params.map (·.name)) data = some x := by
    intro data x h
    unfold readArgs at h
    split at h
    · rename_i he
      cases h
      exact he
    · cases h
  refine ⟨fun vs hvs => ?_, fun hno => ⟨?_, fun a ha => ?_⟩⟩
  · obtain ⟨d, hm, hd⟩ := h2 vs hvs
    obtain ⟨hl, entries, rest, hp, he⟩ := inputs_all _ _ _ _ (hin _ _ hd)
    refine ⟨by simpa using hl, d, entries, rest, hm, hp, fun i p v h4 h5 => he i _ v (by simp [h4]) h5⟩
  · refine List.eq_nil_iff_forall_not_mem.mpr fun x hx => ?_
    obtain ⟨d, hm, hd⟩ := h2 x hx
    have := hin _ _ hd
    rw [hno d hm] at this
    cases this
  · have no : ∀ x, ¬ RustOnce.Reads (readArgs fuel op msg) evs x := by
      rintro x ⟨d, hm, hd⟩
      have := hin _ _ hd
      rw [hno d hm] at this
      cases this
    cases h3 a ha with
    | unread h => exact ⟨_, rfl⟩
    | result h _ _ => exact absurd h (no _)
    | failed h _ => exact ⟨_, rfl⟩

/-- **C195** The other way round: for all operations that have arguments and are not unary, whose result is neither nothing nor a time, all
implementations, all arguments and all their serializations in which no signed integer has the format of an unsigned one, the service answers
with data that the client reads as what the implementation returns for these arguments. -/
theorem whole_call_go_partial (format : Time → Bytes) (lib : Lib) {env : Env} (op : Operation) (hwe : WellFormed env) (hw : WellFormed (defs env op))
    (hc : serverCompiles op = true) (hu : op.unary = false) (ha : op.args ≠ []) (hv : op.ret ≠ .void) (hnt : base op.ret ≠ some .time)
    (impl : List GV → Res GV) (order : GV → GV) (ho : ∀ v, Reorder (order v) v) (vs : List GV) (bs : Bytes)
    (h : Ser (defs env op) (.named env.length) (.obj vs) bs) (hl : bs.length < 2 ^ 32)
    (v : GV) (hi : impl vs = .ok v) (ht : Typed env ⟨false, true, true⟩ op.ret.ty v)
    (hlt : Size.ops (write env op.ret.ty (order v)) < 2 ^ 32) :
    ∃ out f0, ∀ f, f0 ≤ f → goAnswers env lib format f op impl order bs = some (.ok out) ∧ output f out = some (valOf env op.ret.ty v) := by
  obtain ⟨f1, h1⟩ := TypedReads.foreign_inputs_partial env lib op hw hu ha vs bs h hl
  obtain ⟨out, h2, f2, h3⟩ := RustOutputs.go_result_read_partial format op hwe hc hv hnt _ _ (ho v) ht hlt
  refine ⟨out, f1 + f2, fun f hle => ⟨?_, h3 f (by omega)⟩⟩
  simp only [goAnswers, h1 f (by omega), hi]
  exact h2

/-- **C195** And if the implementation returns an error for these arguments, whatever the type of the result, the service answers with it. -/
theorem whole_call_go_error (format : Time → Bytes) (lib : Lib) {env : Env} (op : Operation) (hw : WellFormed (defs env op))
    (hu : op.unary = false) (ha : op.args ≠ []) (impl : List GV → Res GV) (order : GV → GV) (vs : List GV) (bs : Bytes)
    (h : Ser (defs env op) (.named env.length) (.obj vs) bs) (hl : bs.length < 2 ^ 32) (e : String) (hi : impl vs = .err e) :
    ∃ f0, ∀ f, f0 ≤ f → goAnswers env lib format f op impl order bs = some (.err e) := by
  obtain ⟨f1, h1⟩ := TypedReads.foreign_inputs_partial env lib op hw hu ha vs bs h hl
  exact ⟨f1, fun f hle => by simp only [goAnswers, h1 f hle, hi, respond]⟩

/-! ### Cases -/

/-- `count(n: u8, l: [string]): u8` -/
def count : Operation := ⟨"count", false, [⟨[110], "n", false, .prim .u8⟩, ⟨[108], "l", false, .list (.prim .str)⟩], false, .prim .u8⟩

theorem nil_wf : WellFormed [] := by
  refine ⟨fun n => ?_, fun n => ?_, fun n s h => ?_, fun n fs h => ?_, fun _ => 0, fun n h => ?_, fun n s m h => ?_⟩
  · simp [Env.get, Def.fields, names]
  · simp [Env.get, Def.fields, short]
  · simp [Env.get, Def.fields, names] at h
  · simp [Env.get] at h
  · simp at h
  · simp [Env.get, Def.fields] at h

/-- Small numbers are written as one byte, others refused. -/
def small : GV → Except Bytes Bytes
  | .sc (.uint n) => if n < 128 then .ok [UInt8.ofNat n] else .error [33]
  | _ => .error [33]

theorem small_serializer : Serializer [] (.prim .u8) small := by
  intro v bs h
  cases v <;> simp only [small, reduceCtorEq] at h
  case sc s =>
    cases s <;> simp only [small, reduceCtorEq] at h
    case uint n =>
      split at h
      · cases h
        rename_i hn
        refine ⟨.prim (.plain (by simp [IsPrim]; omega) (by decide) ?_ (fun h => h.elim)), by simp⟩
        simpa [scVal] using Wire.posfix (E := ExtHead) (n := n) hn
      · cases h

/-- The call is made, the implementation answers 9, and the client returns 9. -/
example (format : Time → Bytes) (lib : Lib) := whole_call_partial format lib "s" count (env := []) nil_wf sell_wf (by decide) rfl
  (by simp [count]) (by simp [count]) (by decide) (by decide) [.sc (.uint 7), .null] [.sc (.uint 7), .null] (.refl _)
  (.cons (.prim (by simp [IsPrim])) (.cons (.nilColl (by simp [T.ty, Collection])) .nil)) (by decide +kernel) small small_serializer [33]

example : ((Once.start.run (readArgs 20 count [33]) small
    [.arrive (.ok [0x82, 0xa1, 110, 7, 0xa1, 108, 0x90]), .poll, .ret (.ok (.sc (.uint 9))), .take]).map fun w =>
      (w.acts.length, match w.answer with | some (.ok b) => b | _ => [])) = some (1, [9]) := by
  decide +kernel

/-- One argument is missing. -/
example : ((Once.start.run (readArgs 20 count [33]) small [.arrive (.ok [0x81, 0xa1, 110, 7]), .poll, .take]).map fun w =>
      (w.acts.length, match w.answer with | some (.error b) => b | _ => [])) = some (0, [33]) := by
  decide +kernel

example (w : Once (List Val)) (h : Once.start.run (readArgs 20 count [33]) small [.arrive (.ok [0x81, 0xa1, 110, 7]), .poll, .take] = some w) :
    w.acts = [] ∧ ∀ a, w.answer = some a → ∃ e, a = .error e :=
  (started_with_request 20 count [33] small _ w h).2 (by
    intro d hd
    simp only [List.mem_cons, Ev.arrive.injEq, Except.ok.injEq, reduceCtorEq, List.not_mem_nil, or_false] at hd
    subst hd
    decide +kernel)

/-- The arguments with the second one first. -/
theorem count_args : Ser (defs [] count) (.named 0) (.obj [.sc (.uint 7), .list []]) [0x82, 0xa1, 108, 0xc0, 0xa1, 110, 0xcc, 7] := by
  have hn : SerF (defs [] count) ((defs [] count).get 0).fields 1 [([110], .sc (.uint 7))] _ :=
    .known (s := [110]) (t := .prim .u8) (h := [0xa1]) (b := [0xcc, 7]) (c := []) (by simp [count, defs, Operation.args, Env.get, Def.fields, T.ty])
      (.fix (by decide)) (.prim (.plain (by simp [IsPrim]) (by decide) (Wire.uint (n := 7) (j := 0) (by decide) (by decide)) (fun h => h.elim))) .nil
  have hb : SerF (defs [] count) ((defs [] count).get 0).fields 2 [([108], .list []), ([110], .sc (.uint 7))] _ :=
    .known (s := [108]) (t := .list (.prim .str)) (h := [0xa1]) (b := [0xc0]) (by simp [count, defs, Operation.args, Env.get, Def.fields, T.ty])
      (.fix (by decide)) .nilList hn
  exact .obj (h := [0x82]) (.fix (by decide)) (by decide) hb

/-- `count` answered by Go code that returns its first argument. -/
example (format : Time → Bytes) (lib : Lib) : ∃ out f0, ∀ f, f0 ≤ f →
    goAnswers [] lib format f count (fun vs => .ok (vs.headD .null)) (fun v => v) [0x82, 0xa1, 108, 0xc0, 0xa1, 110, 0xcc, 7] = some (.ok out) ∧
      output f out = some (.int 7) :=
  whole_call_go_partial format lib count (env := []) nil_wf sell_wf (by decide) rfl (by simp [count, Operation.args]) (by decide) (by decide)
    (fun vs => .ok (vs.headD .null)) (fun v => v) (fun v => .refl v) [.sc (.uint 7), .list []] _ count_args (by decide) (.sc (.uint 7)) rfl
    (.prim (by simp [IsPrim])) (by decide +kernel)

/-- And by code that fails. -/
example (format : Time → Bytes) (lib : Lib) : ∃ f0, ∀ f, f0 ≤ f →
    goAnswers [] lib format f count (fun _ => .err "no") (fun v => v) [0x82, 0xa1, 108, 0xc0, 0xa1, 110, 0xcc, 7] = some (.err "no") :=
  whole_call_go_error format lib count (env := []) sell_wf rfl (by simp [count, Operation.args]) (fun _ => .err "no") (fun v => v)
    [.sc (.uint 7), .list []] _ count_args (by decide) "no" rfl

end Iota.Props.GoRustCall
