import Verif.Model.U24

/-! # C07: 24-bit lengths -/

namespace Iota.Props.U24
open Iota.Go Iota.U24

theorem asInt_eq (p : U24) : p.asInt = beNat p.bytes := by
  simp [U24.asInt, U24.bytes, beNat, Nat.shiftLeft_eq]; omega

/-- **C07** A value is accepted exactly when it is at most 16777215; the three bytes are its big-endian
form and read back, from the front of any buffer, as the same value. -/
theorem u24_roundtrip (v : UInt32) :
    (v.toNat ≤ 16777215 → ∃ n, newUint24 v = .ok n ∧ mustNewUint24 v = .ok n ∧
        n.bytes = beBytes 3 v.toNat ∧ n.asInt = v.toNat ∧
        ∀ r, readUint24ToInt (n.bytes ++ r) = .ok v.toNat ∧ newUint24Bytes (n.bytes ++ r) = .ok n) ∧
    (16777215 < v.toNat → (∃ e, newUint24 v = .err e) ∧ mustNewUint24 v = .panic) := by
  constructor
  · intro h
    have hn : newUint24 v = .ok (truncBytes v) := by
      unfold newUint24; rw [if_neg (by unfold maxUint24; omega)]
    have e8 : (8 : UInt32).toNat % 32 = 8 := by decide
    have e16 : (16 : UInt32).toNat % 32 = 16 := by decide
    have hb : (truncBytes v).bytes = beBytes 3 v.toNat := by
      simp only [truncBytes, U24.bytes, beBytes, List.cons.injEq, and_true]
      refine ⟨?_, ?_, ?_⟩ <;> apply UInt8.toNat_inj.mp <;>
        simp [UInt32.toNat_toUInt8, UInt8.toNat_ofNat', UInt32.toNat_shiftRight, Nat.shiftRight_eq_div_pow]
    have ha : (truncBytes v).asInt = v.toNat := by
      rw [asInt_eq, hb, beNat_beBytes_of_lt]; omega
    refine ⟨truncBytes v, hn, by simp [mustNewUint24, hn], hb, ha, fun r => ⟨?_, rfl⟩⟩
    have : readUint24ToInt ((truncBytes v).bytes ++ r) = .ok (truncBytes v).asInt := rfl
    rw [this, ha]
  · intro h
    have hn : newUint24 v = .err "uint24 exceed max value" := by
      unfold newUint24; rw [if_pos (by unfold maxUint24; omega)]
    exact ⟨⟨_, hn⟩, by simp [mustNewUint24, hn]⟩

example : (16777215 : UInt32).toNat ≤ 16777215 ∧ 16777215 < (16777216 : UInt32).toNat := by decide

/-- **C07** Every three received bytes read as a value in range, namely their big-endian value. -/
theorem u24_read_range (a b c : UInt8) (r : Bytes) :
    ∃ n, readUint24ToInt (a :: b :: c :: r) = .ok n ∧ n ≤ 16777215 ∧ n = beNat [a, b, c] := by
  refine ⟨_, rfl, ?_, ?_⟩
  · have := a.toNat_lt; have := b.toNat_lt; have := c.toNat_lt
    simp only [Nat.shiftLeft_eq]; omega
  · exact asInt_eq ⟨a, b, c⟩

example : readUint24ToInt [1, 2, 3, 4] = .ok 66051 := rfl

end Iota.Props.U24
