import Verif.Props.Codegen

/-!
# C97: what a field has that the message does not
-/

namespace Iota.Props.CodegenZero
open Iota.Go Iota.Msgpack Iota.Codegen Iota.Spec.Msgpack Iota.Spec.Codegen Iota.Lemmas.Msgpack Iota.Lemmas.Codegen Iota.Props.Codegen

/-- The empty string, false, the first second of year 1, the number 0, no bytes. -/
inductive ZeroOf : Prim → Sc → Prop
  | str : ZeroOf .str (.str [])
  | bool : ZeroOf .bool (.bool false)
  | time : ZeroOf .time (.time ⟨-62135596800, 0⟩)
  | int {p} (h : p = .i8 ∨ p = .i16 ∨ p = .i32 ∨ p = .i64) : ZeroOf p (.int 0)
  | uint {p} (h : p = .u8 ∨ p = .u16 ∨ p = .u32 ∨ p = .u64) : ZeroOf p (.uint 0)
  | f32 : ZeroOf .f32 (.f32 0)
  | f64 : ZeroOf .f64 (.f64 0)
  | bytes : ZeroOf .bytes (.bytes [])

/-- Zero values of Go: slices, maps and pointers are nil, a struct has the zero values of its fields. -/
inductive Zero (env : Env) : Ty → GV → Prop
  | prim {p s} (h : ZeroOf p s) : Zero env (.prim p) (.sc s)
  | cast {p s} (h : ZeroOf p s) : Zero env (.cast p) (.sc s)
  | list {t} : Zero env (.list t) .null
  | map {k t} : Zero env (.map k t) .null
  | opt {t} : Zero env (.opt t) .null
  | named {n vs} (hl : vs.length = (env.get n).fields.length)
      (h : ∀ (i : Nat) s t v, (env.get n).fields[i]? = some (s, t) → vs[i]? = some v → Zero env t v) :
      Zero env (.named n) (.obj vs)

theorem zeroPrim_zero (p : Prim) : ZeroOf p (zeroPrim p) := by
  cases p <;> simp only [zeroPrim] <;> first | constructor | skip
  all_goals simp

theorem zero_named {env : Env} {rank : Nat → Nat}
    (hr : ∀ n s m, (s, .named m) ∈ (env.get n).fields → rank m < rank n) :
    ∀ (f n : Nat), rank n < f → Zero env (.named n) (zero env f (.named n)) := by
  intro f
  induction f with
  | zero => intro n h; omega
  | succ f ih =>
    intro n hf
    simp only [zero]
    refine .named (by simp) fun i s t v hi hv => ?_
    rw [List.getElem?_map, hi] at hv
    simp only [Option.map_some, Option.some.injEq] at hv
    subst hv
    have hp := List.mem_of_getElem? hi
    cases t with
    | named m => exact ih m (by have := hr n s m hp; omega)
    | prim p => cases f <;> exact .prim (zeroPrim_zero p)
    | cast p => cases f <;> exact .cast (zeroPrim_zero p)
    | list t => cases f <;> exact .list
    | map k t => cases f <;> exact .map
    | opt t => cases f <;> exact .opt

theorem zero_zero {env : Env} (hw : WellFormed env) {n : Nat} {s : Bytes} {t : Ty} (h : (s, t) ∈ (env.get n).fields) :
    Zero env t (zero env env.length t) := by
  obtain ⟨rank, hr1, hr2⟩ := hw.acyclic
  have hn : n < env.length := by
    by_cases hn : env.length ≤ n
    · rw [get_ge hn] at h; simp [Def.fields] at h
    · omega
  cases t with
  | named m =>
    have := hr2 n s m h
    have := hr1 n hn
    exact zero_named hr2 _ m (by omega)
  | prim p => cases env.length <;> exact .prim (zeroPrim_zero p)
  | cast p => cases env.length <;> exact .cast (zeroPrim_zero p)
  | list t => cases env.length <;> exact .list
  | map k t => cases env.length <;> exact .map
  | opt t => cases env.length <;> exact .opt

theorem adaptF_names (w r : Env) : ∀ (fs : List (Bytes × Ty)) (vs : List GV) (s : Bytes),
    s ∉ names fs → s ∉ (adaptF w r fs vs).map (·.1)
  | [], _, _, _ => by simp [adaptF]
  | _ :: _, [], _, _ => by simp [adaptF]
  | (n, t) :: fs, v :: vs, s, h => by
    simp only [names, List.map_cons, List.mem_cons, not_or] at h
    simp only [adaptF, List.map_cons, List.mem_cons, not_or]
    exact ⟨h.1, adaptF_names w r fs vs s h.2⟩

/-- **C97** (part) Whatever the version of the definitions that wrote a message, a field of the reader's
version that the writer's does not have, has the zero value of its type: the empty string, 0, false, the
first second of year 1, nil, or a struct of zero values. -/
theorem missing_fields_zero_partial (lib : Lib) (w r : Env) (hw : WellFormed w) (hr : WellFormed r) (hc : Compatible w r)
    (long : Bool) (hk : long = true → Knows w r) (n : Nat) (v v' : GV) (ho : Reorder v v') (fs : List (Bytes × Ty))
    (hd : w.get n = .struct fs)
    (ht : Typed w ⟨false, long, true⟩ (.named n) v') (hlt : Size.ops (write w (.named n) v) < 2 ^ 32) :
    ∃ bs, Codegen.toBytes w (.named n) v v' = .ok bs ∧
      ∃ f0, ∀ f, f0 ≤ f → ∃ got, fromBytes r lib f n bs = some (.ok (.obj got)) ∧
        got.length = (r.get n).fields.length ∧
        ∀ (i : Nat) s t, (r.get n).fields[i]? = some (s, t) → s ∉ names fs → ∃ z, got[i]? = some z ∧ Zero r t z := by
  obtain ⟨bs, h1, f0, h2⟩ := evolution_partial lib w r hw hr hc long hk n v v' ho ht hlt
  refine ⟨bs, h1, f0, fun f hf => ?_⟩
  have hobj : ∃ vs, v' = .obj vs := by
    cases ht with
    | struct => exact ⟨_, rfl⟩
    | union => exact ⟨_, rfl⟩
    | nilColl h => simp [Collection] at h
  obtain ⟨vs, rfl⟩ := hobj
  have ha : adapt w r (.named n) (.obj vs) = .obj (fill r (r.get n).fields (adaptF w r fs vs)) := by
    simp only [adapt, Ty.strip, hd]
  refine ⟨_, (h2 f hf).trans (by rw [ha]), by simp [fill], fun i s t hi hs => ?_⟩
  refine ⟨zero r r.length t, ?_, zero_zero hr (List.mem_of_getElem? hi)⟩
  unfold fill
  rw [List.getElem?_map, hi]
  simp [lookup_none (adaptF_names w r fs vs s hs)]

/-- The field `d` of the older version is the empty string after reading a message of the newer one. -/
example (lib : Lib) : ∃ bs, Codegen.toBytes newerEnv (.named 0) (.obj [.sc (.time ⟨1, 0⟩), .sc (.uint 7)]) (.obj [.sc (.time ⟨1, 0⟩), .sc (.uint 7)]) = .ok bs ∧
    ∃ f0, ∀ f, f0 ≤ f → ∃ got, fromBytes olderEnv lib f 0 bs = some (.ok (.obj got)) ∧ got.length = 2 ∧ got[1]? = some (.sc (.str [])) := by
  obtain ⟨bs, h1, f0, h2⟩ := missing_fields_zero_partial lib newerEnv olderEnv newer_wf older_wf newer_older false nofun 0
    (.obj [.sc (.time ⟨1, 0⟩), .sc (.uint 7)]) (.obj [.sc (.time ⟨1, 0⟩), .sc (.uint 7)]) (.refl _)
    [([97], .prim .time), ([98], .prim .u8)] rfl
    (.struct rfl (.cons (.prim (by simp [IsPrim, i64])) (.cons (.prim (by simp [IsPrim] : IsPrim _ _ (.uint 7))) .nil))) (by decide +kernel)
  refine ⟨bs, h1, f0, fun f hf => ?_⟩
  obtain ⟨got, h3, h4, h5⟩ := h2 f hf
  refine ⟨got, h3, h4, ?_⟩
  obtain ⟨z, hz, hz'⟩ := h5 1 [100] (.prim .str) rfl (by simp [names])
  rw [hz]
  cases hz' with
  | prim h =>
    cases h with
    | str => rfl
    | int h => simp at h
    | uint h => simp at h

end Iota.Props.CodegenZero
