import Verif.Model.RustCall
import Verif.Props.RustClient
import Verif.Props.RustInputs
import Verif.Props.RustOnce
import Verif.Props.RustOutputs

/-!
# C197: a whole call between a client and a service generated in Rust
-/

namespace Iota.Props.RustCall
open Iota.Go Iota.Spec.Msgpack Iota.Spec.Reader Iota.RustInputs Iota.RustOnce Iota.RustClient Iota.RustCall Iota.Props.RustClient

/-! ## Specification -/

/-- Nothing but this request arrives. -/
def Only (evs : List (Ev Val)) (bs : Bytes) : Prop := ∀ r, Ev.arrive r ∈ evs → r = .ok bs

/-- What the caller makes of an answer: the value that the implementation returned if that takes at most 100 KiB, an error if it takes more,
or the error that the implementation returned. -/
inductive Result (ser : Val → Bytes) (msg : Bytes) (evs : List (Ev Val)) : Except Bytes Bytes → Prop
  | value {v : Val} {b : Bytes} (hr : Ev.ret (.ok v) ∈ evs) (hs : (ser v).length ≤ 102400)
      (ho : ∃ f0, ∀ f, f0 ≤ f → output f b = some v) : Result ser msg evs (.ok b)
  | large {v : Val} (hr : Ev.ret (.ok v) ∈ evs) (hs : 102400 < (ser v).length) : Result ser msg evs (.error msg)
  | error {e : Bytes} (hr : Ev.ret (.error e) ∈ evs) : Result ser msg evs (.error e)

/-! ## C197 -/

theorem entries_named : ∀ (ns : List Bytes) (vs : List Val), ∀ e ∈ entries ns vs, ∃ n ∈ ns, e.1 = .str n
  | [], _, e, h => by simp [entries] at h
  | _ :: _, [], e, h => by simp [entries] at h
  | n :: ns, v :: vs, e, h => by
    simp only [entries, List.mem_cons] at h
    rcases h with rfl | h
    · exact ⟨n, by simp, rfl⟩
    · obtain ⟨m, h1, h2⟩ := entries_named ns vs e h
      exact ⟨m, by simp [h1], h2⟩

theorem fields_entries : ∀ (ns : List Bytes) (vs : List Val) (pre : List (Val × Val)), ns.length = vs.length → ns.Nodup →
    (∀ e ∈ pre, ∀ n ∈ ns, isName n e.1 = false) → fields (pre ++ entries ns vs) ns = some vs
  | [], vs, pre, hl, _, _ => by
    cases vs with
    | nil => rfl
    | cons v vs => simp at hl
  | n :: ns, [], pre, hl, _, _ => by simp at hl
  | n :: ns, v :: vs, pre, hl, hn, hp => by
    have hn' : n ∉ ns ∧ ns.Nodup := by simpa using hn
    have hrest := fields_entries ns vs (pre ++ [(.str n, v)]) (by simpa using hl) hn'.2 (by
      intro e he m hm
      rcases List.mem_append.mp he with he | he
      · exact hp e he m (by simp [hm])
      · simp only [List.mem_singleton] at he
        subst he
        simp only [isName, beq_eq_false_iff_ne, ne_eq]
        rintro rfl
        exact hn'.1 hm)
    have h1 : pre.filter (fun e => isName n e.1) = [] := by
      rw [List.filter_eq_nil_iff]
      intro e he
      simp [hp e he n (by simp)]
    have h2 : (entries ns vs).filter (fun e => isName n e.1) = [] := by
      rw [List.filter_eq_nil_iff]
      intro e he
      obtain ⟨m, hm, hk⟩ := entries_named ns vs e he
      rw [hk]
      simp only [isName, beq_iff_eq]
      rintro rfl
      exact hn'.1 hm
    have h3 : field (pre ++ entries (n :: ns) (v :: vs)) n = some v := by
      have hself : isName n (.str n) = true := by simp [isName]
      rw [field, entries, List.filter_append, h1, List.filter_cons, if_pos hself, h2]
      rfl
    have h4 : fields (pre ++ entries (n :: ns) (v :: vs)) ns = some vs := by
      rw [← hrest]
      simp [entries]
    rw [fields, h3, h4]

/-- **C197** For all operations that answer once, unary or not, all arguments and all serializers of MessagePack: if the arguments take more than
100 KiB the call fails and nothing is sent. Otherwise one request is made for the import of the operation, and in all runs of the wrapper on it
the implementation is started at most once, with the arguments; the caller gets what it returned, an error if that takes more than 100 KiB; and the answer
comes if the implementation returns and the Mono with the answer is kept. -/
theorem rust_call (ser : Val → Bytes) (index : Nat) (hi : index < 2 ^ 32) (params : List Bytes) (hn : params.Nodup) (vs : List Val)
    (hl : params.length = vs.length) (hw : Writer ser (.map (entries params vs))) (msg msg' : Bytes) :
    (102400 < (ser (.map (entries params vs))).length → call ser false index (.map (entries params vs)) = .fails) ∧
    ((ser (.map (entries params vs))).length ≤ 102400 → ∃ md d, call ser false index (.map (entries params vs)) = .asks .rr md d ∧
      md.length = 8 ∧ beNat (md.take 4) = index ∧
      ∃ f0, ∀ f, f0 ≤ f → ∀ (evs : List (Ev Val)) (w : Once (List Val)), Only evs d → (∀ v, Ev.ret (.ok v) ∈ evs → Writer ser v) →
        Once.start.run (de f params msg) (wrap ser msg') evs = some w →
        (w.acts = [] ∨ w.acts = [vs]) ∧ (∀ a, w.answer = some a → Result ser msg' evs a) ∧
        (Ev.drop ∉ evs → w.panicked = false ∧ (Ev.arrive (.ok d) ∈ evs → w.phase ≠ .acting →
          w.step (de f params msg) (wrap ser msg') .poll = none → w.step (de f params msg) (wrap ser msg') .take = none →
          w.answer.isSome = true))) := by
  refine ⟨fun h => ?_, fun h => ?_⟩
  · have : serialize ser (.map (entries params vs)) = none := by
      rw [serialize, if_neg (by unfold bufferSize; omega)]
    simp [call, callOnce, this]
  · obtain ⟨md, d, h1, h2, h3, f0, h4⟩ := call_made_partial ser false index hi _ hw h
    refine ⟨md, d, h1, h2, h3, f0, fun f hle evs w hon hwr hr => ?_⟩
    have hread : de f params msg d = .ok vs := by
      have hf := fields_entries params vs [] hl hn (by simp)
      rw [List.nil_append] at hf
      simp only [de, inputs, h4 f hle, hf]
    obtain ⟨s1, s2, s3⟩ := RustOnce.once_wrapper_safe (de f params msg) (wrap ser msg') evs w hr
    refine ⟨?_, fun a ha => ?_, fun hd => ?_⟩
    · cases hx : w.acts with
      | nil => exact .inl rfl
      | cons x l =>
        rw [hx] at s1
        obtain rfl : l = [] := by simpa using s1
        obtain ⟨d', hm, hd⟩ := s2 x (by simp [hx])
        cases hon _ hm
        rw [hread] at hd
        cases hd
        exact .inr rfl
    · cases s3 a ha with
      | unread h =>
        rcases h with h | ⟨d', hm, hd⟩
        · cases hon _ h
        · cases hon _ hm
          rw [hread] at hd
          cases hd
      | @result _ v _ _ hret hs =>
        by_cases hb : (ser v).length ≤ 102400
        · have : wrap ser msg' v = .ok (ser v) := by simp [wrap, serialize, bufferSize, hb]
          rw [this] at hs
          subst hs
          obtain ⟨f1, h5⟩ := RustOutputs.output_wire (hwr v hret)
          exact .value hret hb ⟨f1, fun f hle => by simpa using h5 f hle []⟩
        · have : wrap ser msg' v = .error msg' := by simp [wrap, serialize, bufferSize, hb]
          rw [this] at hs
          subst hs
          exact .large hret (by omega)
      | failed _ hret => exact .error hret
    · obtain ⟨h5, h6⟩ := RustOnce.once_wrapper_live (de f params msg) (wrap ser msg') evs w hr hd
      exact ⟨h5, h6 _⟩

/-! ### Cases -/

/-- A serializer that knows the arguments of `add(a: u8, b: u8)` and small numbers. -/
def tiny : Val → Bytes
  | .map [(.str [97], .int x), (.str [98], .int y)] => [0x82, 0xa1, 97, UInt8.ofNat x.toNat, 0xa1, 98, UInt8.ofNat y.toNat]
  | .int x => [UInt8.ofNat x.toNat]
  | _ => [0xc0]

theorem tiny_args : Writer tiny (.map (entries [[97], [98]] [.int 3, .int 4])) := by
  have h := Wire.map (E := ExtHead) (l := [(.str [97], .int 3), (.str [98], .int 4)]) (h := [0x82]) (MapHead.fix (by decide))
    (.cons (.str (s := [97]) (h := [0xa1]) (.fix (by decide))) (.posfix (n := 3) (by decide))
      (.cons (.str (s := [98]) (h := [0xa1]) (.fix (by decide))) (.posfix (n := 4) (by decide)) .nil))
  exact h

example := rust_call tiny 7 (by decide) [[97], [98]] (by decide) [.int 3, .int 4] rfl tiny_args [33] [34]

example : call tiny false 7 (.map (entries [[97], [98]] [.int 3, .int 4])) = .asks .rr [0, 0, 0, 7, 0, 0, 0, 0] [0x82, 0xa1, 97, 3, 0xa1, 98, 4] := by
  decide +kernel

example : ((Once.start.run (de 20 [[97], [98]] [33]) (wrap tiny [34])
    [.arrive (.ok [0x82, 0xa1, 97, 3, 0xa1, 98, 4]), .poll, .ret (.ok (.int 7)), .take]).map fun w =>
      (w.acts.length, match w.answer with | some (.ok b) => b | _ => [])) = some (1, [7]) := by
  decide +kernel

end Iota.Props.RustCall
