import Verif.Props.RustInputs

/-!
# C190: a service generated in Go and a client generated in Rust
-/

namespace Iota.Props.RustOutputs
open Iota.Go Iota.Msgpack Iota.Codegen Iota.Calls Iota.Spec.Msgpack Iota.Spec.Codegen Iota.Lemmas.Msgpack Iota.Lemmas.Codegen
open Iota.Spec.Reader Iota.RustInputs Iota.Props.Calls

/-- A value of any type is serialized as the MessagePack value that stands for it; zero bytes may follow. -/
theorem ty_wire {env : Env} (hw : WellFormed env) {t : Ty} {v v' : GV} (hr : Reorder v v') (ht : Typed env Allow.all t v')
    (hlt : Size.ops (write env t v) < 2 ^ 32) :
    ∃ bs k, Codegen.toBytes env t v v' = .ok (bs ++ List.replicate k 0) ∧ Wire ExtHead (valOf env t v') bs := by
  obtain ⟨bs, h1, h2, h3, _⟩ := good (lib := ⟨fun x => x, fun _ => none⟩) (Props.Codegen.fit_refl hw Allow.all) ht
  have hs := Props.Codegen.reorder_size env hr t
  have hwb := Props.Codegen.withBuffer_fits h1 (n := Size.ops (write env t v)) (hs ▸ h2.1) hlt
  refine ⟨bs, Size.ops (write env t v) - bs.length, ?_, h3⟩
  unfold Codegen.toBytes
  rw [hwb]

theorem output_wire {v : Val} {bs : Bytes} (h : Wire ExtHead v bs) : ∃ f0, ∀ f, f0 ≤ f → ∀ r, output f (bs ++ r) = some v := by
  obtain ⟨f0, h0⟩ := Props.RustInputs.parse_wire h
  exact ⟨f0, fun f hle r => by rw [output, h0 f hle r]⟩

/-- For a step with a primitive type the data is that of the scalar. -/
theorem scalar_sent {env : Env} (format : Time → Bytes) (hw : WellFormed env) {s : Step} {t : Ty} {p : Prim} {x : Sc} (v : GV)
    (hs : s.type = some (.prim p)) (hp : p ≠ .time) (htp : t = .prim p ∨ t = .cast p) (ht : Typed env Allow.all t (.sc x))
    (hlt : Size.ops (write env t (.sc x)) < 2 ^ 32) :
    ∃ bs k, encode env format s v (.sc x) = some (.ok (bs ++ List.replicate k 0)) ∧ Wire ExtHead (scVal x) bs := by
  obtain ⟨bs, k, h1, h2⟩ := ty_wire hw (.refl _) ht hlt
  refine ⟨bs, k, ?_, by simpa [valOf] using h2⟩
  rw [encode_prim env format hs hp, ← h1]
  rcases htp with rfl | rfl <;> simp only [Codegen.toBytes, Msgpack.toBytes, write] <;>
    cases withBuffer (Size.ops [x.op]) (Enc.ops [x.op]) <;> rfl

theorem scalar_of {env : Env} {a : Allow} {t : Ty} {p : Prim} {v : GV} (htp : t = .prim p ∨ t = .cast p) (h0 : a.nilCast = false)
    (ht : Typed env a t v) : ∃ x, v = .sc x := by
  rcases htp with rfl | rfl
  · cases ht with
    | prim h => exact ⟨_, rfl⟩
    | nilColl h => simp [Collection] at h
  · cases ht with
    | cast h => exact ⟨_, rfl⟩
    | nilColl h => simp [Collection] at h

/-- **C190** For all operations whose wrapper compiles and whose result is neither nothing nor a time, and all results: what the
wrapper of a service generated in Go answers is read by a client generated in Rust as the MessagePack value of that result. -/
theorem go_result_read_partial (format : Time → Bytes) {env : Env} (op : Operation) (hw : WellFormed env)
    (hc : serverCompiles op = true) (hv : op.ret ≠ .void) (hnt : base op.ret ≠ some .time) (v v' : GV) (ho : Reorder v v')
    (ht : Typed env ⟨false, true, true⟩ op.ret.ty v') (hlt : Size.ops (write env op.ret.ty v) < 2 ^ 32) :
    ∃ bs, encode env format (serverResult op).2 v v' = some (.ok bs) ∧
      ∃ f0, ∀ f, f0 ≤ f → output f bs = some (valOf env op.ret.ty v') := by
  have he := (server_parts hc).2.2
  have hr := (no_read op.ret op).2.2.2.1
  have ht' : Typed env Allow.all op.ret.ty v' := Props.Codegen.typed_mono (fun _ => rfl) (fun _ => rfl) (fun _ => rfl) ht
  have hs := Props.Codegen.reorder_size env ho op.ret.ty
  cases hb : base op.ret with
  | some p =>
    have hse := (accepts_prim he hb).resolve_right (hr _)
    obtain ⟨x, rfl⟩ := scalar_of (prim_ty hb) rfl ht
    obtain ⟨bs, k, h1, h2⟩ := scalar_sent format hw v hse (fun h => hnt (by rw [hb, h])) (prim_ty hb) ht' (hs ▸ hlt)
    obtain ⟨f0, h0⟩ := output_wire h2
    refine ⟨_, h1, f0, fun f hle => ?_⟩
    rw [h0 f hle]
    simp [valOf]
  | none =>
    obtain ⟨bs, k, h1, h2⟩ := ty_wire hw ho ht' hlt
    obtain ⟨f0, h0⟩ := output_wire h2
    refine ⟨bs ++ List.replicate k 0, ?_, f0, fun f hle => h0 f hle _⟩
    generalize (serverResult op).2 = se at he hr ⊢
    cases hret : op.ret with
    | void => exact absurd hret hv
    | prim p => rw [hret] at hb; simp [base] at hb
    | enum => rw [hret] at hb; simp [base] at hb
    | alias p => rw [hret] at hb; simp [base] at hb
    | aliasObj n =>
      rw [hret] at he h1
      rw [(accepts_named (.inr rfl) he).resolve_right (hr _)]
      simp only [encode]
      exact congrArg some h1
    | obj n =>
      rw [hret] at he h1
      rw [(accepts_named (.inl rfl) he).resolve_right (hr _)]
      simp only [encode]
      exact congrArg some h1
    | list e =>
      rw [hret] at he h1
      rw [(accepts_list he).resolve_right (hr _)]
      simp only [encode]
      exact congrArg some h1
    | map k e => rw [hret] at he; exact absurd (accepts_map he) (hr _)
    | opt e => rw [hret] at he; exact absurd (accepts_opt he) (hr _)

/-- **C190** Not so if the result is a time: the wrapper answers with the text of the time, the client expects a timestamp, which
is what a time in a field of a type is serialized as. -/
theorem time_result_refuted (format : Time → Bytes) {env : Env} (op : Operation) (hw : WellFormed env)
    (hc : serverCompiles op = true) (hb : base op.ret = some .time) (t : Time) (hf : (format t).length < 2 ^ 16) (v : GV) :
    ∃ bs, encode env format (serverResult op).2 v (.sc (.time t)) = some (.ok bs) ∧
      ∃ f0, ∀ f, f0 ≤ f → output f bs = some (.str (format t)) ∧ output f bs ≠ some (valOf env op.ret.ty (.sc (.time t))) := by
  have hse := (accepts_prim (server_parts hc).2.2 hb).resolve_right ((no_read op.ret op).2.2.2.1 _)
  have hty : Typed env Allow.all (.prim .str) (.sc (.str (format t))) := .prim (by simp [IsPrim, short]; omega)
  obtain ⟨bs, k, h1, h2⟩ := ty_wire hw (.refl _) hty (by
    simp only [write, Sc.op, Size.ops, Size.op]
    unfold Size.str Size.strLen
    rw [Nat.mod_eq_of_lt (by unfold U32; omega)]
    split <;> (try split) <;> (try split) <;> omega)
  obtain ⟨f0, h0⟩ := output_wire h2
  refine ⟨bs ++ List.replicate k 0, ?_, f0, fun f hle => ?_⟩
  · have : Msgpack.toBytes [.str (format t)] = .ok (bs ++ List.replicate k 0) := by
      rw [← h1]
      simp only [Codegen.toBytes, Msgpack.toBytes, write, Sc.op]
      cases withBuffer (Size.ops [.str (format t)]) (Enc.ops [.str (format t)]) <;> rfl
    generalize (serverResult op).2 = se at hse
    cases se <;> simp only [Step.type, reduceCtorEq] at hse <;> unfold encode Step.type <;> simp only [hse, this]
  · rw [h0 f hle]
    simp [valOf, scVal]

/-- **C190** Nor if there is no result: the wrapper answers with no data at all, which is no MessagePack value, not even nil. -/
theorem void_result_refuted (format : Time → Bytes) (env : Env) (op : Operation) (h : op.ret = .void) (v v' : GV) :
    encode env format (serverResult op).2 v v' = some (.ok []) ∧ ∀ f, output f [] = none := by
  refine ⟨?_, fun f => ?_⟩
  · simp only [serverResult, h]
    unfold encode
    simp only [Step.type, show transforms.lookup "Void" = some T.void from by decide]
  · cases f <;> simp [output, parse, headOf]

/-! ### Cases -/

example (format : Time → Bytes) :
    ∃ bs, encode shopEnv format (serverResult buy).2 (.list [.obj [.sc (.uint 7), .null]]) (.list [.obj [.sc (.uint 7), .null]]) =
        some (.ok bs) ∧
      ∃ f0, ∀ f, f0 ≤ f → output f bs = some (.arr [.map [(.str [110], .int 7), (.str [108], .arr [])]]) := by
  have := go_result_read_partial (env := shopEnv) format buy shop_wf (by decide) (by decide) (by decide)
    (.list [.obj [.sc (.uint 7), .null]]) (.list [.obj [.sc (.uint 7), .null]]) (.refl _)
    (.list (by simp [short]) (.cons (.struct rfl (.cons (.prim (by simp [IsPrim])) (.cons (.nilColl (by simp [Collection])) .nil))) .nil))
    (by decide +kernel)
  simpa [valOf, valsOf, fieldsVal, scVal, buy, T.ty, Ty.strip, shopEnv, Env.get] using this

/-- An operation that answers with a time. -/
def now : Operation := ⟨"now", false, [], false, .prim .time⟩

example (format : Time → Bytes) (t : Time) (hf : (format t).length < 2 ^ 16) (v : GV) :
    ∃ bs, encode shopEnv format (serverResult now).2 v (.sc (.time t)) = some (.ok bs) ∧
      ∃ f0, ∀ f, f0 ≤ f → output f bs = some (.str (format t)) ∧ output f bs ≠ some (valOf shopEnv now.ret.ty (.sc (.time t))) :=
  time_result_refuted format now shop_wf (by decide) rfl t hf v

example (format : Time → Bytes) : encode shopEnv format (serverResult sell).2 .null .null = some (.ok []) ∧ ∀ f, output f [] = none :=
  void_result_refuted format shopEnv sell rfl .null .null

end Iota.Props.RustOutputs
