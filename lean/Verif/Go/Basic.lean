/-!
# Go primitives

Result type with panics, byte slices and big-endian integers. These model the parts of the Go
language and standard library that the code under `/repo/go` relies on.
-/

namespace Iota.Go

/-- `[]byte`. Only the visible part `s[0:len(s)]` is modelled, not the spare capacity. -/
abbrev Bytes := List UInt8

/-- Outcome of a Go call: normal return, returned `error`, or run-time panic. -/
inductive Res (α : Type u) where
  | ok (a : α) : Res α
  | err (msg : String) : Res α
  | panic : Res α
  deriving DecidableEq, Repr

namespace Res

def bind {α : Type u} {β : Type v} (r : Res α) (f : α → Res β) : Res β :=
  match r with
  | ok a => f a
  | err e => err e
  | panic => panic

instance : Monad Res where
  pure := ok
  bind := bind

@[simp] theorem pure_eq {α : Type u} (a : α) : (pure a : Res α) = ok a := rfl
@[simp] theorem ok_bind {α β : Type u} (a : α) (f : α → Res β) : (ok a >>= f) = f a := rfl
@[simp] theorem err_bind {α β : Type u} (e : String) (f : α → Res β) :
    ((err e : Res α) >>= f) = err e := rfl
@[simp] theorem panic_bind {α β : Type u} (f : α → Res β) : ((panic : Res α) >>= f) = panic := rfl

instance : LawfulMonad Res := LawfulMonad.mk'
  (id_map := by intro α x; cases x <;> rfl)
  (pure_bind := by intros; rfl)
  (bind_assoc := by intro α β γ x f g; cases x <;> rfl)

/-- The call returned normally or with an error. -/
def noPanic {α : Type u} : Res α → Prop
  | panic => False
  | _ => True

instance {α : Type u} (r : Res α) : Decidable r.noPanic := by
  cases r <;> unfold noPanic <;> infer_instance

end Res

/-! ## Big-endian integers (`encoding/binary.BigEndian`) -/

/-- `k` bytes of `n`, most significant first; higher bits are cut off. -/
def beBytes : Nat → Nat → Bytes
  | 0, _ => []
  | k + 1, n => UInt8.ofNat (n / 256 ^ k) :: beBytes k n

/-- Value of a big-endian byte string. -/
def beNat : Bytes → Nat
  | [] => 0
  | b :: bs => b.toNat * 256 ^ bs.length + beNat bs

@[simp] theorem length_beBytes (k n : Nat) : (beBytes k n).length = k := by
  induction k with
  | zero => rfl
  | succ k ih => simp [beBytes, ih]

theorem beNat_lt (bs : Bytes) : beNat bs < 256 ^ bs.length := by
  induction bs with
  | nil => simp [beNat]
  | cons b bs ih =>
    have hb : b.toNat < 256 := b.toNat_lt
    simp only [beNat, List.length_cons, Nat.pow_succ]
    have : (b.toNat + 1) * 256 ^ bs.length ≤ 256 * 256 ^ bs.length :=
      Nat.mul_le_mul_right _ hb
    rw [Nat.add_mul] at this
    omega

theorem beNat_beBytes (k n : Nat) : beNat (beBytes k n) = n % 256 ^ k := by
  induction k with
  | zero => simp [beBytes, beNat, Nat.mod_one]
  | succ k ih =>
    simp only [beBytes, beNat, length_beBytes, ih, UInt8.toNat_ofNat']
    have e : (2:Nat)^8 = 256 := by decide
    rw [e, Nat.pow_succ, Nat.mod_mul, Nat.mul_comm, Nat.add_comm]

theorem beNat_beBytes_of_lt {k n : Nat} (h : n < 256 ^ k) : beNat (beBytes k n) = n := by
  rw [beNat_beBytes, Nat.mod_eq_of_lt h]

theorem beBytes_add_mul (k n m : Nat) : beBytes k (n + 256 ^ k * m) = beBytes k n := by
  have key : ∀ j, ∀ n d, beBytes j (n + 256 ^ (j + d) * m) = beBytes j n := by
    intro j
    induction j with
    | zero => intros; rfl
    | succ j ih =>
      intro n d
      have e : j + 1 + d = j + (d + 1) := by omega
      simp only [beBytes, List.cons.injEq]
      refine ⟨?_, by rw [e]; exact ih n (d + 1)⟩
      have : n + 256 ^ (j + 1 + d) * m = n + 256 ^ j * (256 * (256 ^ d * m)) := by
        rw [show 256 ^ (j + 1 + d) = 256 ^ j * (256 * 256 ^ d) by
          rw [Nat.pow_add, Nat.pow_succ, Nat.mul_assoc]]
        simp only [Nat.mul_assoc]
      rw [this, Nat.add_mul_div_left _ _ (Nat.pow_pos (by decide))]
      apply UInt8.toNat_inj.mp
      simp only [UInt8.toNat_ofNat']
      have : (2:Nat)^8 = 256 := by decide
      rw [this, Nat.add_mul_mod_self_left]
  exact key k n 0

theorem beBytes_beNat (bs : Bytes) : beBytes bs.length (beNat bs) = bs := by
  induction bs with
  | nil => rfl
  | cons b bs ih =>
    simp only [beBytes, beNat, List.length_cons]
    have hlt := beNat_lt bs
    have hpos : 0 < 256 ^ bs.length := Nat.pow_pos (by decide)
    congr 1
    · rw [Nat.add_comm, Nat.mul_comm, Nat.add_mul_div_left _ _ hpos, Nat.div_eq_of_lt hlt]
      simp
    · rw [Nat.add_comm, Nat.mul_comm, beBytes_add_mul, ih]

theorem beNat_append (a b : Bytes) : beNat (a ++ b) = beNat a * 256 ^ b.length + beNat b := by
  induction a with
  | nil => simp [beNat]
  | cons x xs ih =>
    simp only [List.cons_append, beNat, ih, List.length_append, Nat.pow_add, Nat.add_mul]
    simp [Nat.mul_assoc, Nat.add_assoc]

/-! ## Slice expressions -/

/-- `b[n:]` -/
def sliceFrom (b : Bytes) (n : Nat) : Res Bytes :=
  if n ≤ b.length then .ok (b.drop n) else .panic

/-- `b[:n]`. Go checks `n` against the capacity; here it is checked against the length. Where the
code could reach the spare capacity the model comment says so. -/
def sliceTo (b : Bytes) (n : Nat) : Res Bytes :=
  if n ≤ b.length then .ok (b.take n) else .panic

/-- `b[i]` -/
def index (b : Bytes) (i : Nat) : Res UInt8 :=
  match b[i]? with
  | some x => .ok x
  | none => .panic

/-- `binary.BigEndian.Uint16(b)` -/
def getU16 (b : Bytes) : Res UInt16 :=
  if 2 ≤ b.length then .ok (UInt16.ofNat (beNat (b.take 2))) else .panic

/-- `binary.BigEndian.Uint32(b)` -/
def getU32 (b : Bytes) : Res UInt32 :=
  if 4 ≤ b.length then .ok (UInt32.ofNat (beNat (b.take 4))) else .panic

/-- `binary.BigEndian.Uint64(b)` -/
def getU64 (b : Bytes) : Res UInt64 :=
  if 8 ≤ b.length then .ok (UInt64.ofNat (beNat (b.take 8))) else .panic

def be16 (v : UInt16) : Bytes := beBytes 2 v.toNat
def be32 (v : UInt32) : Bytes := beBytes 4 v.toNat
def be64 (v : UInt64) : Bytes := beBytes 8 v.toNat

@[simp] theorem length_be16 (v : UInt16) : (be16 v).length = 2 := by simp [be16]
@[simp] theorem length_be32 (v : UInt32) : (be32 v).length = 4 := by simp [be32]
@[simp] theorem length_be64 (v : UInt64) : (be64 v).length = 8 := by simp [be64]

theorem ofNat_beNat_be16 (v : UInt16) : UInt16.ofNat (beNat (be16 v)) = v := by
  rw [be16, beNat_beBytes_of_lt (by simpa using v.toNat_lt)]; simp

theorem ofNat_beNat_be32 (v : UInt32) : UInt32.ofNat (beNat (be32 v)) = v := by
  rw [be32, beNat_beBytes_of_lt (by simpa using v.toNat_lt)]; simp

theorem ofNat_beNat_be64 (v : UInt64) : UInt64.ofNat (beNat (be64 v)) = v := by
  rw [be64, beNat_beBytes_of_lt (by simpa using v.toNat_lt)]; simp

@[simp] theorem getU16_be16_append (v : UInt16) (r : Bytes) : getU16 (be16 v ++ r) = .ok v := by
  simp [getU16, ofNat_beNat_be16]

@[simp] theorem getU32_be32_append (v : UInt32) (r : Bytes) : getU32 (be32 v ++ r) = .ok v := by
  simp [getU32, ofNat_beNat_be32]

@[simp] theorem getU64_be64_append (v : UInt64) (r : Bytes) : getU64 (be64 v ++ r) = .ok v := by
  simp [getU64, ofNat_beNat_be64]

/-! ## Writing through a slice

`payload := buf; payload = payload[n:]; copy(payload, ..)`: a slice variable walking through a
caller-supplied buffer. `done` is the part before the slice, `rest` is the slice. -/

structure Cur where
  done : Bytes
  rest : Bytes
  deriving DecidableEq, Repr

namespace Cur

/-- The whole underlying buffer. -/
def buf (c : Cur) : Bytes := c.done ++ c.rest

/-- Start of the buffer. -/
def start (b : Bytes) : Cur := ⟨[], b⟩

/-- `binary.BigEndian.PutUintN(payload[off:], ..)`: panics unless it fits. -/
def putAt (c : Cur) (off : Nat) (bs : Bytes) : Res Cur :=
  if off + bs.length ≤ c.rest.length then
    .ok ⟨c.done, c.rest.take off ++ bs ++ c.rest.drop (off + bs.length)⟩
  else .panic

/-- `copy(payload, src)`: never panics, silently truncates. -/
def copy (c : Cur) (src : Bytes) : Cur :=
  ⟨c.done, src.take c.rest.length ++ c.rest.drop src.length⟩

/-- `payload = payload[n:]` -/
def adv (c : Cur) (n : Nat) : Res Cur :=
  if n ≤ c.rest.length then .ok ⟨c.done ++ c.rest.take n, c.rest.drop n⟩ else .panic

theorem putAt_append (d p o r bs : Bytes) (h : o.length = bs.length) :
    putAt ⟨d, p ++ o ++ r⟩ p.length bs = .ok ⟨d, p ++ bs ++ r⟩ := by
  simp [putAt, h, List.drop_append]

theorem adv_append (d o r : Bytes) {n : Nat} (h : n = o.length) :
    adv ⟨d, o ++ r⟩ n = .ok ⟨d ++ o, r⟩ := by
  subst h; simp [adv]

theorem copy_append (d o r bs : Bytes) (h : o.length = bs.length) :
    copy ⟨d, o ++ r⟩ bs = ⟨d, bs ++ r⟩ := by
  simp [copy, h]
  rw [List.take_of_length_le (by omega)]

end Cur

/-- Splits a list into a prefix of given length and the rest. -/
theorem exists_split {α : Type u} (l : List α) {n : Nat} (h : n ≤ l.length) :
    ∃ a b, l = a ++ b ∧ a.length = n :=
  ⟨l.take n, l.drop n, (List.take_append_drop n l).symm, by simp [h]⟩

end Iota.Go
