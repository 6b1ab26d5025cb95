import Verif.Props.TypedReads
import Verif.Props.Calls

/-!
# C194: a service generated in Rust and a client generated in Go
-/

namespace Iota.Props.RustResults
open Iota.Go Iota.Msgpack Iota.Codegen Iota.Calls Iota.Spec.Msgpack Iota.Spec.Codegen Iota.Lemmas.Msgpack Iota.Lemmas.Codegen
open Iota.Spec.Foreign Iota.Props.TypedReads Iota.Props.Calls Iota.Props.Interop

theorem slice_reads (lib : Lib) {env : Env} (hw : WellFormed env) {t : Ty} : ∀ {l : List GV} {b : Bytes}, SerL env t l b →
    ∃ f0, ∀ f, f0 ≤ f → ∀ pre rest acc, (pre ++ b ++ rest).length < 2 ^ 32 →
      sliceLoop env lib f t l.length acc ⟨pre ++ b ++ rest, pre.length, false⟩ = some (.ok (.list (acc ++ l)))
  | [], _, .nil => ⟨0, fun f _ pre rest acc _ => by simp [sliceLoop]⟩
  | v :: l, _, .cons (a := x) (b := y) hv hl => by
    obtain ⟨f0, h0⟩ := ser_reads lib hw hv false _ (fun _ => rfl)
    obtain ⟨f1, h1⟩ := slice_reads lib hw hl
    refine ⟨max f0 f1, fun f hle pre rest acc hlt => ?_⟩
    have e0 := (h0 f (by omega)).1 pre (y ++ rest) (by simpa using hlt)
    have e1 := h1 f (by omega) (pre ++ x) rest (acc ++ [v]) (by simpa using hlt)
    simp only [List.append_assoc, List.length_append] at e0 e1
    simp only [List.length_cons, sliceLoop, List.append_assoc, e0, e1, List.cons_append, List.nil_append]

theorem slice_read (lib : Lib) {env : Env} (hw : WellFormed env) {t : Ty} {v : GV} {bs : Bytes} (h : Ser env (.list t) v bs)
    (hlt : bs.length < 2 ^ 32) : ∃ f0, ∀ f, f0 ≤ f → Calls.decode env lib f (.slice t) bs = some (.ok v) := by
  cases h with
  | list hh hb =>
    rename_i l h b
    obtain ⟨f0, h0⟩ := slice_reads lib hw hb
    refine ⟨f0, fun f hle => ?_⟩
    have e0 := reads_arraySize hh [] b (by simpa using hlt)
    have e1 := h0 f hle h [] [] (by simpa using hlt)
    simp only [List.nil_append, List.length_nil, Nat.zero_add, List.append_nil] at e0 e1
    simp only [Calls.decode, D.new, e0, e1]
  | nilList =>
    have h0 : Reads Dec.arraySize [0xc0] 0 := reads_head1 rfl
    refine ⟨0, fun f _ => ?_⟩
    have e0 := h0 [] [] (by decide)
    simp only [List.nil_append, List.length_nil, Nat.zero_add, List.append_nil] at e0
    simp only [Calls.decode, D.new, e0, sliceLoop]

theorem prim_read (lib : Lib) {env : Env} {t : Ty} {p : Prim} {v : GV} {bs : Bytes} (htp : t = .prim p ∨ t = .cast p)
    (h : Ser env t v bs) : ∃ s, v = .sc s ∧ Reads (readPrim lib p) bs s := by
  rcases htp with rfl | rfl
  · cases h with
    | prim h => exact ⟨_, rfl, serPrim_reads h⟩
  · cases h with
    | cast h => exact ⟨_, rfl, serPrim_reads h⟩

/-! ## C194 -/

/-- **C194** For all operations whose importing function compiles and whose result is not a time, and all serializations of the result
in which no signed integer has the format of an unsigned one: the client makes the result of it. -/
theorem foreign_result_partial (env : Env) (hw : WellFormed env) (lib : Lib) (receiver : String) (op : Operation)
    (hc : clientCompiles receiver op = true) (hv : op.ret ≠ .void) (hnt : base op.ret ≠ some .time) (v : GV) (bs : Bytes)
    (h : Ser env op.ret.ty v bs) (hlt : bs.length < 2 ^ 32) :
    ∃ f0, ∀ f, f0 ≤ f → Calls.decode env lib f (clientResult op).2 bs = some (.ok v) := by
  have he := (client_parts hc).2.2
  have hr := (no_read op.ret op).2.2.2.2
  cases hb : base op.ret with
  | some p =>
    have hse := (accepts_prim he hb).resolve_right (hr _)
    obtain ⟨s, rfl, hs⟩ := prim_read lib (prim_ty hb) h
    refine ⟨0, fun f _ => ?_⟩
    rw [decode_prim env lib f hse (fun e => hnt (by rw [hb, e]))]
    have := hs [] [] (by simpa using hlt)
    simp only [List.nil_append, List.length_nil, List.append_nil] at this
    simp only [D.new, this, Res.bind]
  | none =>
    generalize (clientResult op).2 = se at he hr ⊢
    cases hret : op.ret with
    | void => exact absurd hret hv
    | prim p => rw [hret] at hb; simp [base] at hb
    | enum => rw [hret] at hb; simp [base] at hb
    | alias p => rw [hret] at hb; simp [base] at hb
    | aliasObj n =>
      rw [hret] at he h
      rw [(accepts_named (.inr rfl) he).resolve_right (hr _)]
      have := foreign_read_partial env hw lib n v bs h [] (by simpa using hlt)
      simpa [Calls.decode] using this
    | obj n =>
      rw [hret] at he h
      rw [(accepts_named (.inl rfl) he).resolve_right (hr _)]
      have := foreign_read_partial env hw lib n v bs h [] (by simpa using hlt)
      simpa [Calls.decode] using this
    | list e =>
      rw [hret] at he h
      rw [(accepts_list he).resolve_right (hr _)]
      exact slice_read lib hw h hlt
    | map k e => rw [hret] at he; exact absurd (accepts_map he) (hr _)
    | opt e => rw [hret] at he; exact absurd (accepts_opt he) (hr _)

theorem str_fails (t : Time) (bs : Bytes) (h : Timestamp t bs) : Fails Dec.str (D.new bs) := by
  cases h with
  | t32 h => exact fails_bind (fails_head (by simp) (m := "bad prefix for string length") rfl) _
  | t64 h => exact fails_bind (fails_head (by simp) (m := "bad prefix for string length") rfl) _
  | t96 h => exact fails_bind (fails_head (by simp) (m := "bad prefix for string length") rfl) _

/-- **C194** Not so if the result is a time: the client expects a text, and refuses every timestamp. -/
theorem time_result_refuted (env : Env) (lib : Lib) (receiver : String) (op : Operation) (hc : clientCompiles receiver op = true)
    (hb : base op.ret = some .time) (t : Time) (bs : Bytes) (h : Timestamp t bs) (f : Nat) :
    ∃ e, Calls.decode env lib f (clientResult op).2 bs = some (.err e) := by
  have hse := (accepts_prim (client_parts hc).2.2 hb).resolve_right ((no_read op.ret op).2.2.2.2 _)
  obtain ⟨e, d, hs⟩ := str_fails t bs h
  refine ⟨e, ?_⟩
  generalize (clientResult op).2 = se at hse
  cases se <;> simp only [Step.type, reduceCtorEq] at hse <;> unfold Calls.decode Step.type <;>
    simp only [hse, Transform.time, hs] <;> rfl

/-- **C194** Without a result the data does not matter. -/
theorem void_result (env : Env) (lib : Lib) (op : Operation) (h : op.ret = .void) (bs : Bytes) (f : Nat) :
    Calls.decode env lib f (clientResult op).2 bs = some (.ok .null) := by
  have hs : (clientResult op).2 = .var "Void" := by
    unfold clientResult returns
    rw [h]
    cases op.streamIn.isSome <;> cases op.streamOut <;> rfl
  rw [hs]
  unfold Calls.decode
  simp only [Step.type, show transforms.lookup "Void" = some T.void from by decide]

/-! ### Cases -/

/-- An operation that returns a person (`Interop.exEnv`): the fields may come in any order. -/
def find : Operation := ⟨"find", false, [⟨[110], "n", false, .prim .str⟩], false, .obj 0⟩

example (lib : Lib) := foreign_result_partial exEnv exEnv_wf lib "f" find (by decide) (by decide) (by decide) _ _ exPerson (by decide)

/-- A stream of lists of persons. -/
def all : Operation := ⟨"all", false, [], true, .list (.named 0)⟩

example (lib : Lib) := foreign_result_partial exEnv exEnv_wf lib "f" all (by decide) (by decide) (by decide) _ _
  (Ser.list (l := [_]) (h := [0x91]) (ArrHead.fix (by decide)) (.cons exPerson .nil)) (by decide)

def now : Operation := ⟨"now", false, [], false, .prim .time⟩

example (lib : Lib) : ∃ e, Calls.decode [] lib 9 (clientResult now).2 [0xd6, 0xff, 0, 0, 0, 1] = some (.err e) :=
  time_result_refuted [] lib "f" now (by decide) rfl ⟨1, 0⟩ _ (.t32 (s := 1) (by decide)) 9

example (lib : Lib) : Calls.decode [] lib 9 (clientResult ⟨"stop", false, [], false, .void⟩).2 [0xc0] = some (.ok .null) :=
  void_result [] lib _ rfl _ 9

end Iota.Props.RustResults
