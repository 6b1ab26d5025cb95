import Verif.Model.RustClient
import Verif.Props.RustInputs

/-!
# C191: a generated Rust client makes the calls it is asked to make
-/

namespace Iota.Props.RustClient
open Iota.Go Iota.Spec.Msgpack Iota.Spec.Reader Iota.Registry Iota.RustClient

/-! ## Specification -/

mutual
/-- How many bytes of text, binary data and extensions a value holds, and one for every value in it. -/
def weight : Val → Nat
  | .nil => 1
  | .bool _ => 1
  | .int _ => 1
  | .f32 _ => 1
  | .f64 _ => 1
  | .str s => 1 + s.length
  | .bin s => 1 + s.length
  | .arr l => 1 + weights l
  | .map l => 1 + weightPairs l
  | .ext _ s => 1 + s.length

def weights : List Val → Nat
  | [] => 0
  | v :: l => weight v + weights l

def weightPairs : List (Val × Val) → Nat
  | [] => 0
  | (k, v) :: l => weight k + weight v + weightPairs l
end

/-- A serializer writes MessagePack. -/
def Writer (ser : Val → Bytes) (v : Val) : Prop := Wire ExtHead v (ser v)

/-! ## No serialization is shorter than the weight -/

theorem strHead_pos {n : Nat} {h : Bytes} (hh : StrHead n h) : 1 ≤ h.length := by cases hh <;> simp [num]
theorem binHead_pos {n : Nat} {h : Bytes} (hh : BinHead n h) : 1 ≤ h.length := by cases hh; simp [num]
theorem arrHead_pos {n : Nat} {h : Bytes} (hh : ArrHead n h) : 1 ≤ h.length := by cases hh <;> simp
theorem mapHead_pos {n : Nat} {h : Bytes} (hh : MapHead n h) : 1 ≤ h.length := by cases hh <;> simp

mutual
theorem weight_le {E : Nat → Bytes → Prop} : {v : Val} → {bs : Bytes} → Wire E v bs → weight v ≤ bs.length
  | _, _, .nil => by simp [weight]
  | _, _, .false => by simp [weight]
  | _, _, .true => by simp [weight]
  | _, _, .posfix _ => by simp [weight]
  | _, _, .negfix _ => by simp [weight]
  | _, _, .uint _ _ => by simp [weight, num]
  | _, _, .int _ _ => by simp [weight, num]
  | _, _, .f32 _ => by simp [weight]
  | _, _, .f64 _ => by simp [weight]
  | _, _, .str hh => by
      have := strHead_pos hh
      simp only [weight, List.length_append]
      omega
  | _, _, .bin hh => by
      have := binHead_pos hh
      simp only [weight, List.length_append]
      omega
  | _, _, .arr hh hb => by
      have := arrHead_pos hh
      have := weights_le hb
      simp only [weight, List.length_append]
      omega
  | _, _, .map hh hb => by
      have := mapHead_pos hh
      have := weightPairs_le hb
      simp only [weight, List.length_append]
      omega
  | _, _, .ext _ _ => by
      simp only [weight, List.length_append, List.length_cons]
      omega

theorem weights_le {E : Nat → Bytes → Prop} : {l : List Val} → {bs : Bytes} → Wires E l bs → weights l ≤ bs.length
  | _, _, .nil => by simp [weights]
  | _, _, .cons hv hl => by
      have := weight_le hv
      have := weights_le hl
      simp only [weights, List.length_append]
      omega

theorem weightPairs_le {E : Nat → Bytes → Prop} : {l : List (Val × Val)} → {bs : Bytes} → WirePairs E l bs →
    weightPairs l ≤ bs.length
  | _, _, .nil => by simp [weightPairs]
  | _, _, .cons hk hv hl => by
      have := weight_le hk
      have := weight_le hv
      have := weightPairs_le hl
      simp only [weightPairs, List.length_append]
      omega
end

/-! ## C191 -/

/-- **C191** If the arguments take at most 100 KiB, a call makes one request of the kind of the operation, for the import with the
index of the operation, with data from which the arguments, and nothing else, are read. -/
theorem call_made_partial (ser : Val → Bytes) (streamOut : Bool) (index : Nat) (hi : index < 2 ^ 32) (v : Val) (hw : Writer ser v)
    (hs : (ser v).length ≤ 102400) :
    ∃ md d, call ser streamOut index v = .asks (if streamOut then .rs else .rr) md d ∧ md.length = 8 ∧ beNat (md.take 4) = index ∧
      ∃ f0, ∀ f, f0 ≤ f → parse f d = some (v, []) := by
  obtain ⟨f0, h0⟩ := Props.RustInputs.parse_wire hw
  have hser : serialize ser v = some (ser v) := by simp [serialize, bufferSize, hs]
  refine ⟨metadata index, ser v, ?_, by simp [metadata], ?_, f0, fun f hle => by simpa using h0 f hle []⟩
  · cases streamOut <;> simp [call, callOnce, callStream, hser]
  · have : (metadata index).take 4 = beBytes 4 index := by
      rw [metadata, List.take_append_of_le_length (by simp), List.take_of_length_le (by simp)]
    rw [this, beNat_beBytes_of_lt (by simpa using hi)]

theorem large {ser : Val → Bytes} {v : Val} (hw : Writer ser v) (hv : 102400 < weight v) : serialize ser v = none := by
  have := weight_le hw
  rw [serialize, if_neg (by unfold bufferSize; omega)]

/-- **C191** Not so for larger arguments, however they are written: a call that answers once fails before anything is sent. -/
theorem large_call_refuted (ser : Val → Bytes) (index : Nat) (v : Val) (hw : Writer ser v) (hv : 102400 < weight v) :
    call ser false index v = .fails := by
  simp [call, callOnce, large hw hv]

/-- **C191** A call that answers with a stream panics. -/
theorem large_stream_refuted (ser : Val → Bytes) (index : Nat) (v : Val) (hw : Writer ser v) (hv : 102400 < weight v) :
    call ser true index v = .panics := by
  simp [call, callStream, large hw hv]

/-- **C191** A result of at most 100 KiB is answered, a larger one is replaced with an error. -/
theorem answer_size (ser : Val → Bytes) (v : Val) (hw : Writer ser v) :
    ((ser v).length ≤ 102400 → ∃ d, answer ser (some v) = some d ∧ ∃ f0, ∀ f, f0 ≤ f → parse f d = some (v, [])) ∧
    (102400 < weight v → answer ser (some v) = none) := by
  obtain ⟨f0, h0⟩ := Props.RustInputs.parse_wire hw
  refine ⟨fun hs => ⟨ser v, by simp [answer, serialize, bufferSize, hs], f0, fun f hle => by simpa using h0 f hle []⟩, fun hv => ?_⟩
  simp [answer, large hw hv]

/-! ### Cases -/

/-- A serializer for binary data. -/
def binary : Val → Bytes
  | .bin s => 0xc6 :: (beBytes 4 s.length ++ s)
  | _ => [0xc0]

theorem binary_writes (s : Bytes) (h : s.length < 2 ^ 32) : Writer binary (.bin s) := by
  have := Wire.bin (E := ExtHead) (BinHead.len (n := s.length) (j := 2) (by omega) (by simpa using h))
  simpa [Writer, binary, num] using this

example : call binary true 7 (.bin [1, 2]) = .asks .rs [0, 0, 0, 7, 0, 0, 0, 0] [0xc6, 0, 0, 0, 2, 1, 2] := by decide +kernel

example (s : Bytes) (h : s.length < 2 ^ 32) (hs : s.length = 102400) : call binary true 7 (.bin s) = .panics :=
  large_stream_refuted binary 7 _ (binary_writes s h) (by simp [weight, hs])

example (s : Bytes) (h : s.length < 2 ^ 32) (hs : s.length = 102400) : call binary false 7 (.bin s) = .fails :=
  large_call_refuted binary 7 _ (binary_writes s h) (by simp [weight, hs])

example : ∃ md d, call binary false 7 (.bin [1, 2]) = .asks .rr md d ∧ md.length = 8 ∧ beNat (md.take 4) = 7 ∧
    ∃ f0, ∀ f, f0 ≤ f → parse f d = some (.bin [1, 2], []) :=
  call_made_partial binary false 7 (by decide) _ (binary_writes [1, 2] (by decide)) (by decide +kernel)

end Iota.Props.RustClient
