import Verif.Spec.RustHost
import Verif.Props.RustSocket
import Verif.Props.RustOperations
import Verif.Props.RustGuest
import Verif.Props.RustResponder

/-!
# C121 – C125: the Rust host
-/

namespace Iota.Props.RustHost
open Go Iota.Frames Iota.Rust Iota.Rust.Host Iota.Spec.RustHost
open Iota.Props.RustSocket (AllLive)
open Iota.Spec.RustSocket Iota.Lemmas.RustSocket

/-! ## Running a function of the module -/

theorem run_append (as : List Act) : ∀ (c : Ctx) (bs : List Act), c.run (as ++ bs) =
    match c.run as with
    | (c', .done) => c'.run bs
    | r => r := by
  induction as with
  | nil => intro c bs; rfl
  | cons a as ih =>
    intro c bs
    simp only [List.cons_append, Ctx.run]
    rcases h : c.act a with ⟨c', _ | _ | _⟩
    · exact ih c' bs
    · rfl
    · rfl

theorem run_append_done {c c' : Ctx} {as : List Act} (h : c.run as = (c', .done)) (bs : List Act) :
    c.run (as ++ bs) = c'.run bs := by rw [run_append, h]

theorem run_split {c c' : Ctx} {as bs : List Act} (h : c.run (as ++ bs) = (c', .done)) :
    ∃ c1, c.run as = (c1, .done) ∧ c1.run bs = (c', .done) := by
  rw [run_append] at h
  rcases hr : c.run as with ⟨c1, _ | _ | _⟩ <;> rw [hr] at h
  · exact ⟨c1, rfl, h⟩
  · cases h
  · cases h

/-- The start succeeds exactly when all functions are there and run to their end. -/
theorem newContext_ok_iff (m : Mod) (c : Ctx) : newContext m = .ok c ↔
    m.linkable = true ∧ m.hasSend = true ∧ m.hasMemory = true ∧ m.init.isSome = true ∧
      (Ctx.new m.mem).run (functions m) = (c, .done) := by
  unfold newContext functions
  cases m.linkable <;> simp
  cases m.hasSend <;> simp
  cases m.hasMemory <;> simp
  have stage : ∀ (c : Ctx) (o : Option (List Act)), (∃ c', c.run (o.getD []) = (c', .done) ∧ c.runStart o = .ok c') ∨
      (∃ c' w, w ≠ How.done ∧ c.run (o.getD []) = (c', w) ∧ ∀ x, c.runStart o ≠ .ok x) := by
    intro c o
    cases o with
    | none => exact Or.inl ⟨c, rfl, rfl⟩
    | some as =>
      simp only [Option.getD_some, Ctx.runStart]
      rcases c.run as with ⟨c', _ | _ | _⟩
      · exact Or.inl ⟨c', rfl, rfl⟩
      · exact Or.inr ⟨c', _, by decide, rfl, fun _ h => (nomatch h)⟩
      · exact Or.inr ⟨c', _, by decide, rfl, fun _ h => (nomatch h)⟩
  have lstage : ∀ (c : Ctx) (o : Option (List Act)), (∃ c', c.run (o.getD []) = (c', .done) ∧ c.runList o = .ok c') ∨
      (∃ c' w, w ≠ How.done ∧ c.run (o.getD []) = (c', w) ∧ ∀ x, c.runList o ≠ .ok x) := by
    intro c o
    cases o with
    | none => exact Or.inl ⟨c, rfl, rfl⟩
    | some as =>
      simp only [Option.getD_some, Ctx.runList]
      rcases c.run as with ⟨c', _ | _ | _⟩
      · exact Or.inl ⟨c', rfl, rfl⟩
      · exact Or.inr ⟨c', _, by decide, rfl, fun _ h => (nomatch h)⟩
      · exact Or.inr ⟨c', _, by decide, rfl, fun _ h => (nomatch h)⟩
  rw [run_append]
  rcases stage (Ctx.new m.mem) m.start with ⟨c1, h1, h2⟩ | ⟨c1, w, hw, h1, h2⟩
  · rw [h1, h2]
    simp only [Res.ok_bind]
    cases hi : m.init with
    | none => simp [Ctx.runInit]
    | some as =>
      simp only [Option.getD_some, Option.isSome_some, true_and, Ctx.runInit, run_append]
      rcases hr : c1.run as with ⟨c2, _ | _ | _⟩
      · simp only [Res.ok_bind]
        rcases lstage c2 m.list with ⟨c3, h3, h4⟩ | ⟨c3, w, hw, h3, h4⟩
        · rw [h3, h4]; simp
        · rw [h3]
          constructor
          · intro h; exact absurd h (h4 c)
          · intro h; cases h; exact absurd rfl hw
      · simp
      · simp
  · rw [h1]
    constructor
    · intro h
      cases hs : (Ctx.new m.mem).runStart m.start with
      | ok x => exact absurd hs (h2 x)
      | err e => rw [hs] at h; cases h
      | panic => rw [hs] at h; cases h
    · rintro ⟨-, h⟩
      cases w with
      | done => exact absurd rfl hw
      | trapped => cases h
      | panicked => cases h

/-! ## C121: the operations of a module -/

theorem act_ops (c : Ctx) (a : Act) (h : hands a = false) : (c.act a).1.ops = c.ops := by
  cases a with
  | opList p n => cases h
  | write p bs => simp only [Ctx.act]; split <;> rfl
  | grow n => rfl
  | initBuffers g h => simp only [Ctx.act]; split <;> rfl
  | send n =>
    simp only [Ctx.act]
    split
    · rfl
    · split
      · rfl
      · unfold Ctx.hostSend
        split
        · split <;> rfl
        · rfl
        · rfl
  | log p n =>
    simp only [Ctx.act]
    split
    · rfl
    · split <;> rfl
  | trap => rfl

theorem run_ops (as : List Act) : ∀ (c : Ctx), (∀ a ∈ as, hands a = false) → (c.run as).1.ops = c.ops := by
  induction as with
  | nil => intro c _; rfl
  | cons a as ih =>
    intro c h
    have h1 := act_ops c a (h a (by simp))
    simp only [Ctx.run]
    rcases hr : c.act a with ⟨c', _ | _ | _⟩ <;> rw [hr] at h1
    · exact (ih c' fun x hx => h x (by simp [hx])).trans h1
    · exact h1
    · exact h1

/-- **C121** After the start of a module the host knows the operations of the table that was handed over last, from
whichever function, as it was in the memory of the module at that time. -/
theorem table_last (m : Mod) (c c1 : Ctx) (as bs : List Act) (p n : Nat) (l : OpList) (hc : newContext m = .ok c)
    (hf : functions m = as ++ .opList p n :: bs) (hbs : ∀ a ∈ bs, hands a = false)
    (h1 : (Ctx.new m.mem).run as = (c1, .done)) (hl : decodeOps (slice c1.mem p n) = .ok l) : c.ops = l := by
  obtain ⟨-, -, -, -, hr⟩ := (newContext_ok_iff m c).1 hc
  rw [hf, run_append_done h1] at hr
  simp only [Ctx.run] at hr
  rcases ha : c1.act (.opList p n) with ⟨c2, _ | _ | _⟩ <;> rw [ha] at hr
  · have e : c2.ops = l := by
      simp only [Ctx.act, Ctx.range] at ha
      split at ha
      · cases ha
      · rename_i b hb
        split at hb
        · cases hb
          unfold slice at hl
          rw [hl] at ha
          cases ha
          rfl
        · cases hb
    have := run_ops bs c2 hbs
    simp only at hr
    rw [hr] at this
    exact this.trans e
  · cases hr
  · cases hr

/-- **C121** A module that never hands over a table is started, and has no operations. -/
theorem table_none (m : Mod) (c : Ctx) (hc : newContext m = .ok c) (h : ∀ a ∈ functions m, hands a = false)
    (ns op : Bytes) : c.getExport ns op = none ∧ c.getImport ns op = none := by
  obtain ⟨-, -, -, -, hr⟩ := (newContext_ok_iff m c).1 hc
  have := run_ops _ (Ctx.new m.mem) h
  rw [hr] at this
  have e : c.ops = ⟨[], []⟩ := this
  simp [Ctx.getExport, Ctx.getImport, e, getOp]

theorem slice_written (mem b : Bytes) (p : Nat) (h : p + b.length ≤ mem.length) :
    slice (mem.take p ++ b ++ mem.drop (p + b.length)) p b.length = b := by
  unfold slice
  rw [List.append_assoc, List.drop_left' (by simp; omega), List.take_left]

/-- A table is stored and handed over. -/
theorem table_stored (m : Mod) (c : Ctx) (as bs : List Act) (p : Nat) (b : Bytes) (l : OpList) (hc : newContext m = .ok c)
    (hf : functions m = as ++ .write p b :: .opList p b.length :: bs) (hbs : ∀ a ∈ bs, hands a = false)
    (hl : decodeOps b = .ok l) : c.ops = l := by
  obtain ⟨-, -, -, -, hr⟩ := (newContext_ok_iff m c).1 hc
  rw [hf, show as ++ .write p b :: .opList p b.length :: bs = (as ++ [.write p b]) ++ (.opList p b.length :: bs) by simp] at hr
  obtain ⟨c1, g1, -⟩ := run_split hr
  obtain ⟨c0, g2, g3⟩ := run_split g1
  refine table_last m c c1 (as ++ [.write p b]) bs p b.length l hc (by simp [hf]) hbs g1 ?_
  simp only [Ctx.run, Ctx.act] at g3
  by_cases hle : p + b.length ≤ c0.mem.length
  · simp only [if_pos hle] at g3
    cases g3
    simp only
    rw [slice_written _ _ _ hle]
    exact hl
  · simp only [if_neg hle] at g3
    cases g3

/-- **C121** A module written in Rust: the host knows exactly the operations it lists. -/
theorem rust_module_ops (m : Mod) (c : Ctx) (as bs : List Act) (p : Nat) (l : OpList) (hc : newContext m = .ok c)
    (hf : functions m = as ++ .write p (encodeOps l) :: .opList p (encodeOps l).length :: bs)
    (hbs : ∀ a ∈ bs, hands a = false) (h : ∀ o ∈ l.exports ++ l.imports, RustOperations.Valid o)
    (hn : l.imports.length + l.exports.length < 2 ^ 32) : c.ops = l :=
  table_stored m c as bs p _ l hc hf hbs (by simpa using RustOperations.rust_round_trip l h hn [])

/-- **C121** A module written in Go: the host knows the operations of its table, sorted into exports (direction 1) and
imports, if their kinds are known ones and their names are UTF-8. -/
theorem go_module_ops_partial (m : Mod) (c : Ctx) (as bs : List Act) (p : Nat) (t : Operations.Table) (b : Bytes)
    (hc : newContext m = .ok c) (hb : Operations.toBytes t = .ok b)
    (hf : functions m = as ++ .write p b :: .opList p b.length :: bs) (hbs : ∀ a ∈ bs, hands a = false)
    (h : ∀ o ∈ t, o.ns.length < 2 ^ 16 ∧ o.op.length < 2 ^ 16)
    (hs : 10 + (t.map fun o => 12 + o.ns.length + o.op.length).sum < 2 ^ 32)
    (hk : ∀ o ∈ t, 1 ≤ o.type.toNat ∧ o.type.toNat ≤ 4) (hu : ∀ o ∈ t, isUtf8 o.ns = true ∧ isUtf8 o.op = true) :
    c.ops = ⟨(t.filter (fun o => o.direction ≠ 1)).map fun o => ⟨o.index, o.type, o.ns, o.op⟩,
      (t.filter (fun o => o.direction = 1)).map fun o => ⟨o.index, o.type, o.ns, o.op⟩⟩ := by
  obtain ⟨b', h1, h2⟩ := RustOperations.go_to_rust_partial t h hs hk hu []
  rw [hb] at h1
  cases h1
  exact table_stored m c as bs p b _ hc hf hbs (by simpa using h2)

/-- **C121** An operation is found under its name with the index the module gave it, if no other one has that name. -/
theorem export_found (c : Ctx) (o : Op) (ho : o ∈ c.ops.exports)
    (hu : ∀ o' ∈ c.ops.exports, o'.ns = o.ns → o'.op = o.op → o' = o) : c.getExport o.ns o.op = some o.index := by
  unfold Ctx.getExport
  cases hg : getOp c.ops.exports o.ns o.op with
  | none => exact absurd ⟨rfl, rfl⟩ ((RustOperations.lookup_first _ _ _).1.1 hg o ho)
  | some i =>
    obtain ⟨a, o', b, h1, h2, h3, h4, -⟩ := (RustOperations.lookup_first _ _ _).2 i hg
    rw [hu o' (by rw [h1]; simp) h2 h3] at h4
    rw [h4]

theorem import_found (c : Ctx) (o : Op) (ho : o ∈ c.ops.imports)
    (hu : ∀ o' ∈ c.ops.imports, o'.ns = o.ns → o'.op = o.op → o' = o) : c.getImport o.ns o.op = some o.index := by
  unfold Ctx.getImport
  cases hg : getOp c.ops.imports o.ns o.op with
  | none => exact absurd ⟨rfl, rfl⟩ ((RustOperations.lookup_first _ _ _).1.1 hg o ho)
  | some i =>
    obtain ⟨a, o', b, h1, h2, h3, h4, -⟩ := (RustOperations.lookup_first _ _ _).2 i hg
    rw [hu o' (by rw [h1]; simp) h2 h3] at h4
    rw [h4]

/-- A module with 128 bytes of memory, an exported and an imported operation. -/
def sample : Mod :=
  ⟨true, true, true, List.replicate 128 0, none, some [.initBuffers 64 96],
    some [.write 2 (encodeOps ⟨[⟨3, 1, [0x61], [0x63]⟩], [⟨7, 4, [0x61], [0x62]⟩]⟩),
      .opList 2 (encodeOps ⟨[⟨3, 1, [0x61], [0x63]⟩], [⟨7, 4, [0x61], [0x62]⟩]⟩).length]⟩

/-- The context of it. -/
def begun : Ctx := match newContext sample with
  | .ok c => c
  | _ => Ctx.new []

theorem sample_ok : newContext sample = .ok begun := by decide +kernel

example : begun.getExport [0x61] [0x62] = some 7 ∧ begun.getImport [0x61] [0x63] = some 3 ∧
    begun.getExport [0x61] [0x63] = none ∧ begun.guestStart = 64 ∧ begun.hostStart = 96 := by decide +kernel

/-! ## C122: starting a module does not crash the host -/

theorem processHost_panics_iff (s : Sock) (h : AllLive s) (f : Frame) : processHost s f = .panic ↔ ¬ servable f := by
  have hp : s.processOnce f ≠ .panic := fun e => by
    obtain ⟨i, k, -, h2, h3, -⟩ := (RustSocket.process_crashes_iff s f).1 e
    rw [h k (List.mem_of_getElem? h2)] at h3
    cases h3
  cases f with
  | request v =>
    unfold processHost servable
    by_cases hc : v.frameType = tRequestFNF ∨ v.frameType = tRequestResponse
    · simp only [if_pos hc, true_iff]
      rintro ⟨h1, h2⟩
      exact hc.elim h1 h2
    · simp only [if_neg hc, hp, false_iff]
      exact fun e => e ⟨fun x => hc (Or.inl x), fun x => hc (Or.inr x)⟩
  | requestN v => exact ⟨fun e => absurd e hp, fun e => absurd trivial e⟩
  | payload v => exact ⟨fun e => absurd e hp, fun e => absurd trivial e⟩
  | cancel v => exact ⟨fun e => absurd e hp, fun e => absurd trivial e⟩
  | error v => exact ⟨fun e => absurd e hp, fun e => absurd trivial e⟩

theorem processHost_ok {s s' : Sock} {f : Frame} (h : processHost s f = .ok s') : s.processOnce f = .ok s' := by
  unfold processHost at h
  split at h
  · split at h
    · cases h
    · exact h
  · exact h

theorem processHost_not_err (s : Sock) (f : Frame) (e : String) : processHost s f ≠ .err e := by
  unfold processHost
  split
  · split
    · exact fun h => nomatch h
    · exact RustSocket.process_not_err s _ e
  · exact RustSocket.process_not_err s _ e

/-- A call of the host crashes it exactly if it is not polite. -/
theorem act_panics_iff (c : Ctx) (h : AllLive c.sock) (a : Act) :
    (c.act a).2 = .panicked ↔ ¬ Polite c.mem c.hostStart a := by
  cases a with
  | write p bs => simp only [Ctx.act, Polite]; split <;> simp
  | grow n => simp [Ctx.act, Polite]
  | trap => simp [Ctx.act, Polite]
  | initBuffers g h =>
    simp only [Ctx.act, Polite]
    split <;> rename_i hc <;> simp [hc]
  | opList p n =>
    simp only [Ctx.act, Polite, Ctx.range, slice]
    by_cases hc : p + n < 2 ^ 31 ∧ p + n ≤ c.mem.length
    · simp only [if_pos hc]
      cases decodeOps ((c.mem.drop p).take n) <;> simp [hc.1, hc.2]
    · simp only [if_neg hc, true_iff]
      exact fun e => hc ⟨e.1, e.2.1⟩
  | log p n =>
    simp only [Ctx.act, Polite, Ctx.range, slice]
    by_cases hc : p + n < 2 ^ 31 ∧ p + n ≤ c.mem.length
    · simp only [if_pos hc]
      cases isUtf8 ((c.mem.drop p).take n) <;> simp [hc.1, hc.2]
    · simp only [if_neg hc, true_iff]
      exact fun e => hc ⟨e.1, e.2.1⟩
  | send n =>
    simp only [Ctx.act, Polite, Ctx.hostRange, slice]
    by_cases hc : n < 2 ^ 31 ∧ c.hostStart + n ≤ c.mem.length
    · simp only [if_pos hc]
      cases hr : readFrame ((c.mem.drop c.hostStart).take n) with
      | none => simp [hc.1, hc.2]
      | some x =>
        obtain ⟨b, r⟩ := x
        simp only [Ctx.hostSend]
        cases hd : decode b with
        | err e => simp [hc.1, hc.2, hd]
        | panic => simp [hc.1, hc.2, hd]
        | ok f =>
          have := processHost_panics_iff c.sock h f
          cases hp : processHost c.sock f with
          | ok s =>
            have e : servable f := Classical.byContradiction fun x => by rw [this.2 x] at hp; cases hp
            simp [hc.1, hc.2, hd, e, hp]
          | err e => exact absurd hp (processHost_not_err _ _ _)
          | panic => simp [hc.1, hc.2, hd, this.1 hp, hp]
    · simp only [if_neg hc, true_iff]
      exact fun e => hc ⟨e.1, e.2.1⟩

theorem act_fails_iff (c : Ctx) (a : Act) : (c.act a).2 = .trapped ↔ Failing c.mem c.hostStart a := by
  cases a with
  | write p bs => simp only [Ctx.act, Failing]; split <;> simp <;> omega
  | grow n => simp [Ctx.act, Failing]
  | trap => simp [Ctx.act, Failing]
  | initBuffers g h => simp only [Ctx.act, Failing]; split <;> simp
  | opList p n =>
    simp only [Ctx.act, Failing, Ctx.range, slice]
    by_cases hc : p + n < 2 ^ 31 ∧ p + n ≤ c.mem.length
    · simp only [if_pos hc]
      cases decodeOps ((c.mem.drop p).take n) <;> simp [hc.1, hc.2]
    · simp only [if_neg hc]
      exact ⟨fun h => (nomatch h), fun e => absurd ⟨e.1, e.2.1⟩ hc⟩
  | log p n =>
    simp only [Ctx.act, Failing]
    split
    · simp
    · split <;> simp
  | send n =>
    simp only [Ctx.act, Failing, Ctx.hostRange, slice]
    by_cases hc : n < 2 ^ 31 ∧ c.hostStart + n ≤ c.mem.length
    · simp only [if_pos hc]
      cases hr : readFrame ((c.mem.drop c.hostStart).take n) with
      | none => simp [hc.1, hc.2]
      | some x =>
        obtain ⟨b, r⟩ := x
        simp only [Ctx.hostSend]
        cases hd : decode b with
        | err e => simp
        | panic => simp
        | ok f =>
          cases hp : processHost c.sock f with
          | ok s => simp [hp]
          | err e => exact absurd hp (processHost_not_err _ _ _)
          | panic => simp [hp]
    · simp only [if_neg hc]
      exact ⟨fun h => (nomatch h), fun e => absurd ⟨e.1, e.2.1⟩ hc⟩

theorem allLive_send {s : Sock} (h : AllLive s) (f : Frame) : AllLive (s.send f) := h

theorem act_allLive (c : Ctx) (h : AllLive c.sock) (a : Act) : AllLive (c.act a).1.sock := by
  cases a with
  | write p bs => simp only [Ctx.act]; split <;> exact h
  | grow n => exact h
  | trap => exact h
  | initBuffers g h => simp only [Ctx.act]; split <;> assumption
  | opList p n =>
    simp only [Ctx.act]
    split
    · exact h
    · split <;> exact h
  | log p n =>
    simp only [Ctx.act]
    split
    · exact h
    · split <;> exact h
  | send n =>
    simp only [Ctx.act]
    split
    · exact h
    · split
      · exact h
      · unfold Ctx.hostSend
        split
        · split
          · rename_i hp
            exact h.process (processHost_ok hp)
          · exact h
          · exact h
        · exact allLive_send h _
        · exact h

theorem run_allLive (as : List Act) : ∀ (c : Ctx), AllLive c.sock → AllLive (c.run as).1.sock := by
  induction as with
  | nil => intro c h; exact h
  | cons a as ih =>
    intro c h
    have h1 := act_allLive c h a
    simp only [Ctx.run]
    rcases hr : c.act a with ⟨c', _ | _ | _⟩ <;> rw [hr] at h1
    · exact ih c' h1
    · exact h1
    · exact h1

/-- A function stops early where one of the things it does stops it. -/
theorem run_stops_iff (as : List Act) (w : How) (hw : w ≠ .done) : ∀ (c : Ctx), (c.run as).2 = w ↔
    ∃ xs a ys c', as = xs ++ a :: ys ∧ c.run xs = (c', .done) ∧ (c'.act a).2 = w := by
  induction as with
  | nil =>
    intro c
    constructor
    · intro h; exact absurd h.symm hw
    · rintro ⟨xs, a, ys, c', h, -⟩; simp at h
  | cons a as ih =>
    intro c
    simp only [Ctx.run]
    rcases hr : c.act a with ⟨c1, _ | _ | _⟩
    · rw [ih c1]
      constructor
      · rintro ⟨xs, b, ys, c', rfl, h2, h3⟩
        exact ⟨a :: xs, b, ys, c', rfl, by simp only [Ctx.run, hr]; exact h2, h3⟩
      · rintro ⟨xs, b, ys, c', h1, h2, h3⟩
        cases xs with
        | nil =>
          simp only [List.nil_append, List.cons.injEq] at h1
          obtain ⟨rfl, rfl⟩ := h1
          cases h2
          rw [hr] at h3
          exact absurd h3.symm hw
        | cons x xs =>
          simp only [List.cons_append, List.cons.injEq] at h1
          obtain ⟨rfl, rfl⟩ := h1
          simp only [Ctx.run, hr] at h2
          exact ⟨xs, b, ys, c', rfl, h2, h3⟩
    all_goals
      constructor
      · intro h
        exact ⟨[], a, as, c, rfl, rfl, by rw [hr]; exact h⟩
      · rintro ⟨xs, b, ys, c', h1, h2, h3⟩
        cases xs with
        | nil =>
          simp only [List.nil_append, List.cons.injEq] at h1
          obtain ⟨rfl, rfl⟩ := h1
          cases h2
          rw [hr] at h3
          exact h3
        | cons x xs =>
          simp only [List.cons_append, List.cons.injEq] at h1
          obtain ⟨rfl, rfl⟩ := h1
          simp only [Ctx.run, hr] at h2
          cases h2

theorem newContext_panic_iff (m : Mod) (h1 : m.linkable = true) (h2 : m.hasSend = true) (h3 : m.hasMemory = true)
    (h4 : m.init.isSome = true) : newContext m = .panic ↔
    ((Ctx.new m.mem).run (functions m)).2 = .panicked ∨
      ∃ c, (Ctx.new m.mem).run (m.start.getD [] ++ m.init.getD []) = (c, .done) ∧
        (c.run (m.list.getD [])).2 = .trapped := by
  obtain ⟨i, hi⟩ := Option.isSome_iff_exists.1 h4
  unfold newContext functions
  rw [h1, h2, h3, hi, if_neg (by decide), if_neg (by decide), if_neg (by decide), Option.getD_some, run_append, run_append]
  have e : (Ctx.new m.mem).runStart m.start = match (Ctx.new m.mem).run (m.start.getD []) with
      | (c', .done) => .ok c'
      | (_, .trapped) => .err "InitFailed"
      | (_, .panicked) => .panic := by cases m.start <;> rfl
  have e' : ∀ c : Ctx, c.runList m.list = match c.run (m.list.getD []) with
      | (c', .done) => .ok c'
      | (_, .trapped) => .panic
      | (_, .panicked) => .panic := fun c => by cases m.list <;> rfl
  rw [e]
  rcases (Ctx.new m.mem).run (m.start.getD []) with ⟨c1, _ | _ | _⟩
  · simp only [Res.ok_bind, Ctx.runInit]
    rcases c1.run i with ⟨c2, _ | _ | _⟩
    · simp only [Res.ok_bind, e', Prod.mk.injEq, and_true, exists_eq_left']
      rcases c2.run (m.list.getD []) with ⟨c3, _ | _ | _⟩ <;> simp
    · simp
    · simp
  · simp
  · simp

/-- **C122 (partial)** Full statement: whatever a module does while it is started, the host gets a context or an error.
Proved: the exact condition under which the host crashes, for all modules that can be linked, have a memory and the two
functions that are needed: the module makes a call of the host that is not polite, or anything fails in the function
that lists the operations. All other failures are reported as errors. Missing: the remaining cases, which do crash it
(`memory_refuted`, `list_trap_refuted`, `list_unreadable_refuted`, `start_call_refuted`, `pointer_refuted`,
`log_refuted`). -/
theorem start_panics_iff_partial (m : Mod) (h1 : m.linkable = true) (h2 : m.hasSend = true) (h3 : m.hasMemory = true)
    (h4 : m.init.isSome = true) : newContext m = .panic ↔
    ∃ as a bs c, functions m = as ++ a :: bs ∧ (Ctx.new m.mem).run as = (c, .done) ∧
      (¬ Polite c.mem c.hostStart a ∨
        (Failing c.mem c.hostStart a ∧ (m.start.getD [] ++ m.init.getD []).length ≤ as.length)) := by
  have hl0 : AllLive (Ctx.new m.mem).sock := by intro k hk; cases hk
  rw [newContext_panic_iff m h1 h2 h3 h4, run_stops_iff _ _ (by decide)]
  constructor
  · rintro (⟨xs, a, ys, c, e, hr, hp⟩ | ⟨c, hr, ht⟩)
    · refine ⟨xs, a, ys, c, e, hr, Or.inl ((act_panics_iff c ?_ a).1 hp)⟩
      have := run_allLive xs _ hl0
      rwa [hr] at this
    · obtain ⟨xs, a, ys, c', e, hr', hp⟩ := (run_stops_iff _ _ (by decide) c).1 ht
      refine ⟨m.start.getD [] ++ m.init.getD [] ++ xs, a, ys, c', by simp [functions, e],
        (run_append_done hr xs).trans hr', Or.inr ⟨(act_fails_iff c' a).1 hp, by simp⟩⟩
  · rintro ⟨as, a, bs, c, e, hr, hp | ⟨hp, hl⟩⟩
    · refine Or.inl ⟨as, a, bs, c, e, hr, (act_panics_iff c ?_ a).2 hp⟩
      have := run_allLive as _ hl0
      rwa [hr] at this
    · right
      unfold functions at e
      obtain ⟨xs, rfl⟩ : ∃ xs, as = (m.start.getD [] ++ m.init.getD []) ++ xs :=
        ⟨as.drop (m.start.getD [] ++ m.init.getD []).length, by
          have h := congrArg (List.take (m.start.getD [] ++ m.init.getD []).length) e
          rw [List.take_left, List.take_append_of_le_length hl] at h
          have e2 := List.take_append_drop (m.start.getD [] ++ m.init.getD []).length as
          rw [← h] at e2
          exact e2.symm⟩
      obtain ⟨c1, g1, g2⟩ := run_split hr
      refine ⟨c1, g1, (run_stops_iff _ _ (by decide) c1).2 ⟨xs, a, bs, c, ?_, g2, (act_fails_iff c a).2 hp⟩⟩
      rw [List.append_assoc _ xs] at e
      exact List.append_cancel_left e

/-- **C122 (partial)** A module that cannot be linked, or lacks one of the functions, is refused with an error, unless
it crashes the host before. -/
theorem start_refused (m : Mod) (h : m.linkable = false ∨ m.hasSend = false) : newContext m = .err "InitFailed" := by
  unfold newContext
  rcases h with h | h
  · rw [if_pos h]
  · rw [if_pos h]; split <;> rfl

example : newContext { sample with hasSend := false } = .err "InitFailed" ∧
    newContext { sample with init := none } = .err "InitFailed" ∧
    newContext { sample with init := some [.trap] } = .err "InitFailed" := by decide +kernel

/-- **C122 is false of the code**: a module that does not export its memory crashes the host. -/
theorem memory_refuted : newContext { sample with hasMemory := false } = .panic := by decide

/-- **C122 is false of the code**: a trap in the function that lists the operations crashes the host; in the function
that initialises the module it is an error. -/
theorem list_trap_refuted : newContext { sample with list := some [.trap] } = .panic ∧
    newContext { sample with init := some [.trap] } = .err "InitFailed" := by decide

/-- **C122 is false of the code**: a table that cannot be read (here of another version), which the reader reports as an
error, crashes the host. -/
theorem list_unreadable_refuted : ∃ b, decodeOps b = .err "Version" ∧
    newContext { sample with list := some [.write 2 b, .opList 2 b.length] } = .panic :=
  ⟨[0, 0x77, 0x72, 0x73, 0, 2, 0, 0, 0, 0], by decide +kernel, by decide +kernel⟩

/-- The packet of a frame. -/
def packed (f : Frame) : Bytes := Iota.Spec.Framing.packet (encode f)

/-- What a module does to send a frame. -/
def sends (at_ : Nat) (f : Frame) : List Act := [.write at_ (packed f), .send (packed f).length]

/-- A call of the host by the module, id 2. -/
def moduleCall : Frame := newRequest tRequestFNF 2 [] [5] 0 0

/-- **C122 is false of the code**: a module that calls an operation of the host while it is started crashes it. -/
theorem start_call_refuted :
    newContext { sample with start := some ([.initBuffers 64 96] ++ sends 96 moduleCall) } = .panic ∧
    newContext { sample with start := some ([.initBuffers 64 96] ++ sends 96 (.cancel ⟨2⟩)) } ≠ .panic := by decide +kernel

/-- **C122 is false of the code**: buffers at or above 2^31, and a range of memory that ends there, crash the host, even
where a module may have such addresses. -/
theorem pointer_refuted : newContext { sample with init := some [.initBuffers (2 ^ 31) 96] } = .panic ∧
    newContext { sample with init := some [.log (2 ^ 31) 0] } = .panic := by decide +kernel

/-- **C122 is false of the code**: a message for the console that is not UTF-8 crashes the host. -/
theorem log_refuted : newContext { sample with init := some [.write 0 [0xff], .log 0 1] } = .panic := by decide +kernel

/-! ## C123: calls of the module -/

/-- Failures and cancellations. -/
def telling (f : Frame) : Prop := (∃ v, f = .error v) ∨ ∃ v, f = .cancel v

/-- A task that is started for a stream or channel that the module asks for. -/
def starting (k : Task) : Prop := (∃ a b c, k = .rsStart a b c) ∨ ∃ a b, k = .rcStart a b

/-- What happens to a socket because of the module. -/
structure Ext (s s' : Sock) : Prop where
  out : ∃ l, s'.out = s.out ++ l ∧ ∀ g ∈ l, telling g
  tasks : ∃ l, s'.tasks = s.tasks ++ l ∧ ∀ k, some k ∈ l → starting k
  next : s'.next = s.next

theorem Ext.refl (s : Sock) : Ext s s :=
  ⟨⟨[], by simp, fun _ h => absurd h List.not_mem_nil⟩, ⟨[], by simp, fun _ h => absurd h List.not_mem_nil⟩, rfl⟩

theorem Ext.same {s s' : Sock} (h1 : s'.out = s.out) (h2 : s'.tasks = s.tasks) (h3 : s'.next = s.next) : Ext s s' :=
  ⟨⟨[], by simp [h1], fun _ h => absurd h List.not_mem_nil⟩, ⟨[], by simp [h2], fun _ h => absurd h List.not_mem_nil⟩, h3⟩

theorem Ext.trans {s t u : Sock} (h : Ext s t) (g : Ext t u) : Ext s u := by
  obtain ⟨⟨l, h1, h2⟩, ⟨k, h3, h4⟩, h5⟩ := h
  obtain ⟨⟨l', g1, g2⟩, ⟨k', g3, g4⟩, g5⟩ := g
  refine ⟨⟨l ++ l', by rw [g1, h1, List.append_assoc], fun x hx => ?_⟩, ⟨k ++ k', by rw [g3, h3, List.append_assoc],
    fun x hx => ?_⟩, g5.trans h5⟩
  · exact (List.mem_append.1 hx).elim (h2 x) (g2 x)
  · exact (List.mem_append.1 hx).elim (h4 x) (g4 x)

theorem Ext.sent {s : Sock} {g : Frame} (h : telling g) : Ext s (s.send g) :=
  ⟨⟨[g], rfl, fun x hx => by cases List.mem_singleton.1 hx; exact h⟩,
    ⟨[], by simp [Sock.send], fun _ h => absurd h List.not_mem_nil⟩, rfl⟩

theorem Ext.remove (s : Sock) (sid : UInt32) : Ext s (s.remove sid) :=
  Ext.same (RustResponder.remove_tasks s sid).2 (RustResponder.remove_tasks s sid).1 (Lemmas.RustSocket.remove_next s sid)

theorem Ext.put (s : Sock) (i : Nat) (x : Signal) : Ext s (s.put i x) := Ext.same rfl rfl rfl

theorem process_ext {s s' : Sock} {f : Frame} (h : processHost s f = .ok s') : Ext s s' := by
  have hn := Lemmas.RustSocket.processOnce_next (processHost_ok h)
  cases f with
  | request v =>
    simp only [processHost] at h
    split at h
    · cases h
    · rename_i hc
      simp only [Sock.processOnce] at h
      rw [if_neg fun e => hc (Or.inl e), if_neg fun e => hc (Or.inr e)] at h
      split at h
      · cases h
        exact ⟨⟨[], by simp [Sock.spawn], fun _ h => absurd h List.not_mem_nil⟩,
          ⟨[_], rfl, fun k hk => by cases List.mem_singleton.1 hk; exact Or.inl ⟨_, _, _, rfl⟩⟩, rfl⟩
      · cases h
        refine ⟨⟨[], ?_, fun _ h => absurd h List.not_mem_nil⟩,
          ⟨[some (.rcStart v.streamID s.sinks.length)], ?_, fun k hk => ?_⟩, hn⟩
        · simp [Sock.spawn, Sock.register, RustResponder.remove_tasks]
        · simp [Sock.spawn, Sock.register, RustResponder.remove_tasks]
        · cases List.mem_singleton.1 hk; exact Or.inr ⟨_, _, rfl⟩
  | requestN v =>
    simp only [processHost, Sock.processOnce, Res.ok.injEq] at h
    subst h
    unfold Sock.onRequestN
    split
    · exact Ext.sent (Or.inl ⟨_, rfl⟩)
    · split
      · exact Ext.same rfl rfl rfl
      · exact Ext.sent (Or.inl ⟨_, rfl⟩)
  | payload v =>
    simp only [processHost, Sock.processOnce, Res.ok.injEq] at h
    subst h
    have hc : Ext s (s.send (.cancel ⟨v.streamID⟩)) := Ext.sent (Or.inr ⟨_, rfl⟩)
    unfold Sock.onPayload
    split
    · exact Ext.refl s
    · split
      · exact Ext.refl s
      · split
        · refine Ext.trans ?_ (Ext.remove _ _)
          split
          · exact Ext.put s _ _
          · exact Ext.refl s
        · split
          · refine Ext.trans ?_ (Ext.remove _ _)
            split
            · split
              · exact Ext.put s _ _
              · exact hc
            · exact Ext.refl s
          · split
            · split
              · exact Ext.put s _ _
              · exact hc
            · exact Ext.refl s
  | cancel v =>
    simp only [processHost, Sock.processOnce] at h
    exact Ext.same (RustResponder.cancel_out h).2 (RustResponder.cancel_out h).1 hn
  | error v =>
    simp only [processHost, Sock.processOnce] at h
    exact Ext.same (RustResponder.error_out h).2 (RustResponder.error_out h).1 hn

/-- What a function of the module changes in a context. -/
structure Grows (c c' : Ctx) : Prop where
  sock : Ext c.sock c'.sock
  handed : c'.handed = c.handed
  alive : c'.alive = c.alive
  wild : c'.wild = c.wild

theorem Grows.refl (c : Ctx) : Grows c c := ⟨Ext.refl _, rfl, rfl, rfl⟩

theorem act_grows (c : Ctx) (a : Act) : Grows c (c.act a).1 := by
  cases a with
  | write p bs => simp only [Ctx.act]; split <;> exact ⟨Ext.refl _, rfl, rfl, rfl⟩
  | grow n => exact ⟨Ext.refl _, rfl, rfl, rfl⟩
  | trap => exact ⟨Ext.refl _, rfl, rfl, rfl⟩
  | initBuffers g h => simp only [Ctx.act]; split <;> exact ⟨Ext.refl _, rfl, rfl, rfl⟩
  | opList p n =>
    simp only [Ctx.act]
    split
    · exact Grows.refl c
    · split <;> exact ⟨Ext.refl _, rfl, rfl, rfl⟩
  | log p n =>
    simp only [Ctx.act]
    split
    · exact Grows.refl c
    · split <;> exact ⟨Ext.refl _, rfl, rfl, rfl⟩
  | send n =>
    simp only [Ctx.act]
    split
    · exact Grows.refl c
    · split
      · exact Grows.refl c
      · unfold Ctx.hostSend
        split
        · split
          · rename_i hp
            exact ⟨process_ext hp, rfl, rfl, rfl⟩
          · exact Grows.refl c
          · exact Grows.refl c
        · exact ⟨Ext.sent (Or.inl ⟨_, rfl⟩), rfl, rfl, rfl⟩
        · exact Grows.refl c

theorem run_grows (as : List Act) : ∀ (c : Ctx), Grows c (c.run as).1 := by
  induction as with
  | nil => intro c; exact Grows.refl c
  | cons a as ih =>
    intro c
    have h1 := act_grows c a
    simp only [Ctx.run]
    rcases hr : c.act a with ⟨c', _ | _ | _⟩ <;> rw [hr] at h1
    · have h2 := ih c'
      exact ⟨h1.sock.trans h2.sock, h2.handed.trans h1.handed, h2.alive.trans h1.alive, h2.wild.trans h1.wild⟩
    · exact h1
    · exact h1

/-- A task a host may have. -/
def okTask : Task → Prop
  | .rsStart _ _ _ => True
  | .rcStart _ _ => True
  | .feed sid _ _ _ => sid.toNat % 2 = 1
  | _ => False

structure Inv (s : Sock) : Prop where
  out : ∀ g ∈ s.out, own g
  tasks : ∀ k, some k ∈ s.tasks → okTask k
  next : s.next.toNat % 2 = 1

theorem Inv.ext {s s' : Sock} (h : Inv s) (e : Ext s s') : Inv s' := by
  obtain ⟨⟨l, h1, h2⟩, ⟨k, h3, h4⟩, h5⟩ := e
  refine ⟨fun g hg => ?_, fun x hx => ?_, by rw [h5]; exact h.next⟩
  · rw [h1] at hg
    exact (List.mem_append.1 hg).elim (h.out g) fun hg => Or.inr (h2 g hg)
  · rw [h3] at hx
    rcases List.mem_append.1 hx with hx | hx
    · exact h.tasks x hx
    · rcases h4 x hx with ⟨_, _, _, rfl⟩ | ⟨_, _, rfl⟩ <;> trivial

theorem register_core (s : Sock) (sid : UInt32) (w : Wait) (l : List Signal) : (s.register sid w l).out = s.out ∧
    (s.register sid w l).tasks = s.tasks ∧ (s.register sid w l).next = s.next :=
  ⟨(RustResponder.remove_tasks s sid).2, (RustResponder.remove_tasks s sid).1, Lemmas.RustSocket.remove_next s sid⟩

theorem request_out (s : Sock) (m : Method) (md d : Bytes) : ∃ l, (s.request m md d).out = s.out ++ l ∧
    ∀ g ∈ l, g.streamID = s.next := by
  cases m with
  | fnf => exact ⟨[_], rfl, fun g hg => by cases List.mem_singleton.1 hg; rfl⟩
  | rr => exact ⟨[_], congrArg (· ++ [_]) (register_core s.draw s.next .rr []).1,
      fun g hg => by cases List.mem_singleton.1 hg; rfl⟩
  | rs => exact ⟨[_], congrArg (· ++ [_]) (register_core s.draw s.next .rs []).1,
      fun g hg => by cases List.mem_singleton.1 hg; rfl⟩
  | rc => exact ⟨[], by rw [List.append_nil]; exact (register_core s.draw s.next .rc []).1, fun g hg => absurd hg List.not_mem_nil⟩

theorem request_tasks (s : Sock) (m : Method) (md d : Bytes) : ∃ l, (s.request m md d).tasks = s.tasks ++ l ∧
    ∀ k, some k ∈ l → k = .feed s.next s.queues.length true 1 := by
  cases m with
  | fnf => exact ⟨[], by simp [Sock.request, Sock.send, Sock.draw], fun g hg => absurd hg List.not_mem_nil⟩
  | rr => exact ⟨[], by rw [List.append_nil]; exact (register_core s.draw s.next .rr []).2.1, fun g hg => absurd hg List.not_mem_nil⟩
  | rs => exact ⟨[], by rw [List.append_nil]; exact (register_core s.draw s.next .rs []).2.1, fun g hg => absurd hg List.not_mem_nil⟩
  | rc => exact ⟨[_], congrArg (· ++ [_]) (register_core s.draw s.next .rc []).2.1,
      fun g hg => by cases List.mem_singleton.1 hg; rfl⟩

theorem Inv.request {s : Sock} (h : Inv s) (m : Method) (md d : Bytes) : Inv (s.request m md d) := by
  obtain ⟨l, h1, h2⟩ := request_out s m md d
  obtain ⟨k, h3, h4⟩ := request_tasks s m md d
  refine ⟨fun g hg => ?_, fun x hx => ?_, ?_⟩
  · rw [h1] at hg
    rcases List.mem_append.1 hg with hg | hg
    · exact h.out g hg
    · exact Or.inl (by rw [h2 g hg]; exact h.next)
  · rw [h3] at hx
    rcases List.mem_append.1 hx with hx | hx
    · exact h.tasks x hx
    · rw [h4 x hx]; exact h.next
  · rw [Lemmas.RustSocket.call_next, RustResponder.parity_add]; exact h.next

theorem mem_set_some {l : List (Option Task)} {t : Nat} {x : Option Task} {k : Task} (h : some k ∈ l.set t x) :
    some k ∈ l ∨ x = some k := by
  rcases List.mem_or_eq_of_mem_set h with h | h
  · exact Or.inl h
  · exact Or.inr h.symm

theorem Inv.task {s s' : Sock} {t : Nat} {y : Yield} {sid : UInt32} {q : Nat} {first : Bool} {n : UInt32} (h : Inv s)
    (ho : sid.toNat % 2 = 1) (hr : s.runTask t y (.feed sid q first n) = some s') : Inv s' := by
  have hout : ∀ f : Frame, f.streamID = sid → ∀ g ∈ s.out ++ [f], own g := fun f hf g hg => by
    rcases List.mem_append.1 hg with hg | hg
    · exact h.out g hg
    · cases List.mem_singleton.1 hg
      exact Or.inl (by rw [hf]; exact ho)
  have hnone : ∀ k, some k ∈ s.tasks.set t none → okTask k := fun k hk => by
    rcases mem_set_some hk with hk | hk
    · exact h.tasks k hk
    · cases hk
  have hfeed : ∀ (b : Bool) (m : UInt32) k, some k ∈ s.tasks.set t (some (.feed sid q b m)) → okTask k := fun b m k hk => by
    rcases mem_set_some hk with hk | hk
    · exact h.tasks k hk
    · cases hk; exact ho
  simp only [Sock.runTask] at hr
  split at hr
  · split at hr
    · cases hr; exact ⟨h.out, hfeed _ _, h.next⟩
    · split at hr
      · cases hr
      · cases hr; exact ⟨hout _ rfl, hnone, h.next⟩
  · cases y <;> simp only at hr
    · split at hr <;> · cases hr; exact ⟨hout _ rfl, hfeed _ _, h.next⟩
    · cases hr; exact ⟨hout _ rfl, hfeed _ _, h.next⟩
    · cases hr; exact ⟨hout _ rfl, hnone, h.next⟩

/-- What is lasting in a context. -/
structure Lasting (c : Ctx) : Prop where
  inv : Inv c.sock
  handed : ∃ l, c.sock.out = c.handed ++ l

theorem step_lasting {c c' : Ctx} {a : Step} {p : Bool} (h : Lasting c) (hs : c.step a = some (c', p)) : Lasting c' := by
  cases a with
  | deliver as =>
    simp only [Ctx.step] at hs
    split at hs
    · cases hs
    · split at hs
      · cases hs
      · rename_i f hf
        cases hs
        obtain ⟨l, hl⟩ := h.handed
        have hl' : ∃ l', c.sock.out = (c.handed ++ [f]) ++ l' := by
          rw [hl, List.getElem?_append_right (by simp)] at hf
          simp only [Nat.sub_self] at hf
          cases l with
          | nil => cases hf
          | cons x l => cases hf; exact ⟨l, by simp [hl]⟩
        unfold Ctx.deliver
        split
        · rename_i mem n _
          split
          · have g := run_grows as { c with mem := mem, handed := c.handed ++ [f] }
            have key : Lasting (({ c with mem := mem, handed := c.handed ++ [f] } : Ctx).run as).1 := by
              refine ⟨h.inv.ext g.sock, ?_⟩
              obtain ⟨l', hl'⟩ := hl'
              obtain ⟨x, hx, -⟩ := g.sock.out
              exact ⟨l' ++ x, by rw [g.handed, hx]; simp only; rw [hl', List.append_assoc]⟩
            rcases hr : ({ c with mem := mem, handed := c.handed ++ [f] } : Ctx).run as with ⟨c2, _ | _ | _⟩ <;> rw [hr] at key
            · exact key
            · exact key
            · exact ⟨key.inv, key.handed⟩
          · exact ⟨h.inv, h.handed⟩
        · exact ⟨h.inv, h.handed⟩
  | call m md d =>
    simp only [Ctx.step] at hs
    split at hs
    · cases hs
    · simp only [Option.some.injEq] at hs
      unfold Ctx.call at hs
      have h1 := h.inv.request m md d
      split at hs
      · cases hs
        refine ⟨h1, ?_⟩
        obtain ⟨l, hl⟩ := h.handed
        obtain ⟨l', hl', -⟩ := request_out c.sock m md d
        exact ⟨l ++ l', by simp only; rw [hl', hl, List.append_assoc]⟩
      · cases hs
        exact ⟨⟨h.inv.out, h1.tasks, h1.next⟩, h.handed⟩
  | drop i =>
    simp only [Ctx.step] at hs
    split at hs
    · cases hs
    · cases hs
      exact ⟨⟨h.inv.out, h.inv.tasks, h.inv.next⟩, h.handed⟩
  | task t y =>
    simp only [Ctx.step] at hs
    split at hs
    · cases hs
    · split at hs
      · rename_i k hk
        obtain ⟨c1, hc1, e⟩ := Option.map_eq_some_iff.1 hs
        cases e
        have hk' := h.inv.tasks k (List.mem_of_getElem? hk)
        have hnone : ∀ x, some x ∈ c.sock.tasks.set t none → okTask x := fun x hx => by
          rcases mem_set_some hx with hx | hx
          · exact h.inv.tasks x hx
          · cases hx
        cases k with
        | rr => exact absurd hk' id
        | fnf => exact absurd hk' id
        | rs => exact absurd hk' id
        | rc => exact absurd hk' id
        | rsStart =>
          simp only [Ctx.task] at hc1
          cases hc1
          exact ⟨⟨h.inv.out, hnone, h.inv.next⟩, h.handed⟩
        | rcStart =>
          simp only [Ctx.task] at hc1
          cases hc1
          exact ⟨⟨h.inv.out, hnone, h.inv.next⟩, h.handed⟩
        | feed sid q first n =>
          simp only [Ctx.task] at hc1
          split at hc1
          · cases hc1
          · rename_i s hs
            have hi := h.inv.task hk' hs
            have hp : ∃ l, s.out = c.sock.out ++ l := by
              have hs' := hs
              simp only [Sock.runTask] at hs'
              split at hs'
              · split at hs'
                · cases hs'; exact ⟨[], by simp⟩
                · split at hs'
                  · cases hs'
                  · cases hs'; exact ⟨[_], rfl⟩
              · cases y <;> simp only at hs'
                · split at hs' <;> · cases hs'; exact ⟨[_], rfl⟩
                · cases hs'; exact ⟨[_], rfl⟩
                · cases hs'; exact ⟨[_], rfl⟩
            obtain ⟨l, hl⟩ := h.handed
            obtain ⟨l', hl'⟩ := hp
            split at hc1
            · cases hc1
              exact ⟨hi, l ++ l', by simp only; rw [hl', hl, List.append_assoc]⟩
            · cases hc1
              refine ⟨⟨h.inv.out, fun x hx => ?_, hi.next⟩, h.handed⟩
              rcases mem_set_some hx with hx | hx
              · exact hi.tasks x hx
              · cases hx
      · cases hs

theorem steps_lasting (ss : List Step) : ∀ {c c' : Ctx} {ps : List Bool}, Lasting c → c.steps ss = some (c', ps) →
    Lasting c' := by
  induction ss with
  | nil => intro c c' ps h hs; cases hs; exact h
  | cons a ss ih =>
    intro c c' ps h hs
    simp only [Ctx.steps] at hs
    split at hs
    · cases hs
    · rename_i c1 p h1
      obtain ⟨r, hr, e⟩ := Option.map_eq_some_iff.1 hs
      cases e
      exact ih (step_lasting h h1) hr

theorem new_lasting {m : Mod} {c : Ctx} (h : newContext m = .ok c) : Lasting c := by
  obtain ⟨-, -, -, -, hr⟩ := (newContext_ok_iff m c).1 h
  have g := run_grows (functions m) (Ctx.new m.mem)
  rw [hr] at g
  refine ⟨Inv.ext ⟨?_, ?_, rfl⟩ g.sock, ⟨c.sock.out, ?_⟩⟩
  · intro x hx; cases hx
  · intro x hx; cases hx
  · rw [g.handed]; rfl

/-- **C123 (refuted)** Full statement: a module that calls an operation of the host gets its answer. **False of the
code**: whatever the module and local code do, the host never hands over anything on a stream of the module (even ids)
but failures and cancellations: no result, no completion, no demand. -/
theorem host_never_answers_refuted (m : Mod) (c c' : Ctx) (ss : List Step) (ps : List Bool) (hc : newContext m = .ok c)
    (hs : c.steps ss = some (c', ps)) (f : Frame) (hf : f ∈ c'.handed) (he : f.streamID.toNat % 2 = 0) :
    (∃ v, f = .error v) ∨ ∃ v, f = .cancel v := by
  have h := steps_lasting ss (new_lasting hc) hs
  obtain ⟨l, hl⟩ := h.handed
  rcases h.inv.out f (by rw [hl]; simp [hf]) with ho | ho
  · omega
  · exact ho

/-- **C123 is false of the code**: a module that calls the host without or for one result, while it handles a frame,
ends the task that brings it its frames. -/
theorem request_kills_refuted (c c1 : Ctx) (f : Frame) (mem : Bytes) (n k : Nat) (as bs : List Act) (b r : Bytes)
    (v : RequestPayload) (ha : c.alive = true) (hw : c.wild = false) (hf : c.sock.out[c.handed.length]? = some f)
    (hh : hostWrite c.mem c.guestStart f = .ok (mem, n)) (hm : c.guestStart + n ≤ c.mem.length)
    (hr : ({ c with mem := mem, handed := c.handed ++ [f] } : Ctx).run as = (c1, .done)) (hk : k < 2 ^ 31)
    (hi : c1.hostStart + k ≤ c1.mem.length) (hb : readFrame (slice c1.mem c1.hostStart k) = some (b, r))
    (hd : decode b = .ok (.request v)) (ht : v.frameType = tRequestFNF ∨ v.frameType = tRequestResponse) :
    ∃ c', c.step (.deliver (as ++ .send k :: bs)) = some (c', false) ∧ c'.alive = false := by
  have hp : c1.act (.send k) = (c1, .panicked) := by
    simp only [Ctx.act, Ctx.hostRange, if_pos (And.intro hk hi)]
    unfold slice at hb
    rw [hb]
    simp only [Ctx.hostSend, hd, processHost, if_pos ht]
  have hrun : ({ c with mem := mem, handed := c.handed ++ [f] } : Ctx).run (as ++ .send k :: bs) = (c1, .panicked) := by
    rw [run_append_done hr]
    simp only [Ctx.run, hp]
  refine ⟨{ c1 with alive := false }, ?_, rfl⟩
  have hn : ¬ (c.alive = false ∨ c.wild = true) := by rw [ha, hw]; simp
  simp only [Ctx.step, if_neg hn, hf, Ctx.deliver, hh, if_pos hm, hrun]

/-- Nothing a channel has received is lost or added. -/
def sameGot (s s' : Sock) : Prop :=
  ∀ (i : Nat) (k : Sink), s.sinks[i]? = some k → ∃ k' : Sink, s'.sinks[i]? = some k' ∧ k'.got = k.got

theorem sameGot.refl (s : Sock) : sameGot s s := fun _ k h => ⟨k, h, rfl⟩

theorem sameGot.of_sinks {s s' : Sock} (h : s'.sinks = s.sinks) : sameGot s s' := fun i k hk => ⟨k, by rw [h]; exact hk, rfl⟩

theorem sameGot.modify {s s' : Sock} {i : Nat} {g : Sink → Sink} (h : s'.sinks = s.sinks.modify i g)
    (hg : ∀ k, (g k).got = k.got) : sameGot s s' := fun j k hk => by
  rw [h, List.getElem?_modify, hk]
  by_cases e : i = j
  · exact ⟨g k, by simp [e], hg k⟩
  · exact ⟨k, by simp [e], rfl⟩

theorem sameGot.register (s : Sock) (sid : UInt32) (w : Wait) (l : List Signal) : sameGot s (s.register sid w l) := by
  have h1 : sameGot s (s.remove sid) := by
    unfold Sock.remove
    split
    · exact sameGot.refl s
    · exact sameGot.modify (g := fun x => { x with closed := true }) rfl fun _ => rfl
  intro i k hk
  obtain ⟨k', h2, h3⟩ := h1 i k hk
  refine ⟨k', ?_, h3⟩
  simp only [Sock.register]
  rw [List.getElem?_append_left (List.getElem?_eq_some_iff.1 h2).1]
  exact h2

theorem sameGot.request (s : Sock) (m : Method) (md d : Bytes) : sameGot s (s.request m md d) := by
  cases m with
  | fnf => exact sameGot.refl s
  | rr => exact sameGot.register s.draw s.next .rr []
  | rs => exact sameGot.register s.draw s.next .rs []
  | rc => exact sameGot.register s.draw s.next .rc []

theorem sameGot.trans {s t u : Sock} (h : sameGot s t) (g : sameGot t u) : sameGot s u := fun i k hk => by
  obtain ⟨k1, h1, h2⟩ := h i k hk
  obtain ⟨k2, g1, g2⟩ := g i k1 h1
  exact ⟨k2, g1, g2.trans h2⟩

theorem step_dead {c c' : Ctx} {a : Step} {p : Bool} (h : c.alive = false) (hs : c.step a = some (c', p)) :
    c'.alive = false ∧ c'.handed = c.handed ∧ c'.sock.out = c.sock.out ∧ sameGot c.sock c'.sock ∧
      ∀ m md d, a = .call m md d → m ≠ .rc → p = true := by
  cases a with
  | deliver as => simp only [Ctx.step, if_pos (Or.inl h)] at hs; cases hs
  | call m md d =>
    simp only [Ctx.step] at hs
    split at hs
    · cases hs
    · simp only [Ctx.call, h, Bool.false_eq_true, if_false, Option.some.injEq] at hs
      cases hs
      refine ⟨rfl, rfl, rfl, ?_, ?_⟩
      · exact (sameGot.request c.sock m md d).trans (sameGot.of_sinks rfl)
      · intro m' md' d' e hm
        cases e
        simp [hm]
  | drop i =>
    simp only [Ctx.step] at hs
    split at hs
    · cases hs
    · cases hs
      exact ⟨h, rfl, rfl, sameGot.modify (g := fun x => { x with live := false }) rfl fun _ => rfl, fun _ _ _ e => (nomatch e)⟩
  | task t y =>
    simp only [Ctx.step] at hs
    split at hs
    · cases hs
    · split at hs
      · rename_i k hk
        obtain ⟨c1, hc1, e⟩ := Option.map_eq_some_iff.1 hs
        cases e
        have gen : ∀ k, (match c.sock.runTask t y k with
            | none => none
            | some s =>
              if c.alive = true ∨ s.out = c.sock.out then some { c with sock := s }
              else some { c with sock := { s with out := c.sock.out, tasks := s.tasks.set t none } }) = some c' →
            c'.alive = false ∧ c'.handed = c.handed ∧ c'.sock.out = c.sock.out ∧ sameGot c.sock c'.sock := by
          intro k hk
          split at hk
          · cases hk
          · rename_i s hs
            have e := (Lemmas.RustSocket.runTask_core hs).2.1
            split at hk
            · rename_i hor
              rw [h] at hor
              cases hk
              exact ⟨h, rfl, hor.elim (fun x => (nomatch x)) id, sameGot.of_sinks e⟩
            · cases hk
              exact ⟨h, rfl, rfl, sameGot.of_sinks e⟩
        have key : c'.alive = false ∧ c'.handed = c.handed ∧ c'.sock.out = c.sock.out ∧ sameGot c.sock c'.sock := by
          cases k with
          | rsStart =>
            simp only [Ctx.task] at hc1
            cases hc1
            exact ⟨h, rfl, rfl, sameGot.of_sinks rfl⟩
          | rcStart sid i =>
            simp only [Ctx.task] at hc1
            cases hc1
            exact ⟨h, rfl, rfl, sameGot.modify (g := fun x => { x with live := false }) rfl fun _ => rfl⟩
          | rr => exact gen _ hc1
          | fnf => exact gen _ hc1
          | rs => exact gen _ hc1
          | rc => exact gen _ hc1
          | feed => exact gen _ hc1
        exact ⟨key.1, key.2.1, key.2.2.1, key.2.2.2, fun _ _ _ e => (nomatch e)⟩
      · cases hs

/-- **C123, C124 are false of the code**: after that, for ever, the module gets no frame, those who wait get nothing, and
every call without result, for one result or for a stream crashes whoever makes it. -/
theorem dead_forever_refuted (ss : List Step) : ∀ (c c' : Ctx) (ps : List Bool), c.alive = false →
    c.steps ss = some (c', ps) → c'.alive = false ∧ c'.handed = c.handed ∧ sameGot c.sock c'.sock ∧
      ∀ (i : Nat) (m : Method) (md d : Bytes), ss[i]? = some (.call m md d) → m ≠ .rc → ps[i]? = some true := by
  induction ss with
  | nil => intro c c' ps h hs; cases hs; exact ⟨h, rfl, sameGot.refl _, fun i m md d e => by simp at e⟩
  | cons a ss ih =>
    intro c c' ps h hs
    simp only [Ctx.steps] at hs
    split at hs
    · cases hs
    · rename_i c1 p h1
      obtain ⟨⟨c2, qs⟩, hr, e⟩ := Option.map_eq_some_iff.1 hs
      cases e
      obtain ⟨g1, g2, -, g4, g5⟩ := step_dead h h1
      obtain ⟨i1, i2, i3, i4⟩ := ih c1 c2 qs g1 hr
      refine ⟨i1, i2.trans g2, g4.trans i3, fun i m md d e hm => ?_⟩
      cases i with
      | zero =>
        simp only [List.getElem?_cons_zero, Option.some.injEq] at e ⊢
        exact g5 m md d e hm
      | succ i =>
        simp only [List.getElem?_cons_succ] at e ⊢
        exact i4 i m md d e hm

theorem any_some {α : Type} {o : Option α} {p : α → Bool} (h : o.any p = true) : ∃ x, o = some x ∧ p x = true := by
  cases o with
  | none => cases h
  | some x => exact ⟨x, rfl, h⟩

/-- Local code calls the module for one result; the module, before it answers, calls the host. -/
example : ∃ c ps, begun.steps [.call .rr [] [1], .deliver (sends 96 moduleCall), .call .rr [] [2], .call .fnf [] [3]] =
    some (c, ps) ∧ ps = [false, false, true, true] ∧ c.alive = false ∧ c.handed.length = 1 ∧
    (c.sock.sinks.map fun k => (k.got, k.closed)) = [([], false), ([], false)] := by
  have h : (begun.steps [.call .rr [] [1], .deliver (sends 96 moduleCall), .call .rr [] [2], .call .fnf [] [3]]).any
      (fun r => r.2 = [false, false, true, true] ∧ r.1.alive = false ∧ r.1.handed.length = 1 ∧
        (r.1.sock.sinks.map fun k => (k.got, k.closed)) = [([], false), ([], false)]) = true := by decide +kernel
  obtain ⟨⟨c, ps⟩, h1, h2⟩ := any_some h
  exact ⟨c, ps, h1, by simpa using h2⟩

/-! ## C124: failures of a module at work -/

/-- No channel of the module is about to be given up. -/
def NoOpening (s : Sock) : Prop := ∀ k, some k ∈ s.tasks → ∀ a b, k ≠ .rcStart a b

/-- Nobody has given up waiting, nor will, and the writer is there. -/
structure Sound (c : Ctx) : Prop where
  live : AllLive c.sock
  opening : NoOpening c.sock

theorem process_opening {s s' : Sock} {f : Frame} (h : NoOpening s) (hr : ∀ v, f ≠ .request v)
    (hp : processHost s f = .ok s') : NoOpening s' := by
  have ht : s'.tasks = s.tasks := by
    cases f with
    | request v => exact absurd rfl (hr v)
    | requestN v =>
      simp only [processHost, Sock.processOnce, Res.ok.injEq] at hp
      subst hp
      unfold Sock.onRequestN
      split
      · rfl
      · split <;> rfl
    | payload v =>
      simp only [processHost, Sock.processOnce, Res.ok.injEq] at hp
      subst hp
      exact (RustResponder.payload_out s v 0).1
    | cancel v =>
      simp only [processHost, Sock.processOnce] at hp
      exact (RustResponder.cancel_out hp).1
    | error v =>
      simp only [processHost, Sock.processOnce] at hp
      exact (RustResponder.error_out hp).1
  intro k hk
  rw [ht] at hk
  exact h k hk

theorem act_sound (c : Ctx) (h : Sound c) (a : Act) (hq : Quiet c.mem c.hostStart a) : Sound (c.act a).1 := by
  refine ⟨act_allLive c h.live a, ?_⟩
  cases a with
  | write p bs => simp only [Ctx.act]; split <;> exact h.opening
  | grow n => exact h.opening
  | trap => exact h.opening
  | initBuffers g h' => simp only [Ctx.act]; split <;> exact h.opening
  | opList p n =>
    simp only [Ctx.act]
    split
    · exact h.opening
    · split <;> exact h.opening
  | log p n =>
    simp only [Ctx.act]
    split
    · exact h.opening
    · split <;> exact h.opening
  | send n =>
    simp only [Ctx.act]
    split
    · exact h.opening
    · rename_i b hb
      split
      · exact h.opening
      · rename_i x hx
        unfold Ctx.hostSend
        split
        · rename_i f hf
          split
          · rename_i s hp
            refine process_opening h.opening (fun v e => ?_) hp
            subst e
            unfold Ctx.hostRange at hb
            split at hb
            · cases hb
              exact hq.2 n x.1 x.2 v rfl hx hf
            · cases hb
          · exact h.opening
          · exact h.opening
        · exact h.opening
        · exact h.opening

theorem quietRun_tail {c c' : Ctx} {a : Act} {as : List Act} (h : QuietRun c (a :: as)) (hr : c.act a = (c', .done)) :
    QuietRun c' as := fun xs b ys c2 e hx => by
  refine h (a :: xs) b ys c2 (by rw [e]; rfl) ?_
  simp only [Ctx.run, hr]
  exact hx

theorem run_sound (as : List Act) : ∀ (c : Ctx), Sound c → QuietRun c as → Sound (c.run as).1 ∧ (c.run as).2 ≠ .panicked := by
  induction as with
  | nil => intro c h _; exact ⟨h, by simp [Ctx.run]⟩
  | cons a as ih =>
    intro c h hq
    have h0 := hq [] a as c rfl rfl
    have h1 := act_sound c h a h0
    have h2 : (c.act a).2 ≠ .panicked := fun e => (act_panics_iff c h.live a).1 e h0.1
    simp only [Ctx.run]
    rcases hr : c.act a with ⟨c', _ | _ | _⟩ <;> rw [hr] at h1 h2
    · exact ih c' h1 (quietRun_tail hq hr)
    · exact ⟨h1, by simp⟩
    · exact absurd rfl h2

/-- Everything the module does with the frames it is handed is quiet, the frames fit its buffer, and no local code gives
up waiting. -/
def QuietSteps (c : Ctx) (ss : List Step) : Prop :=
  ∀ xs a ys c' ps, ss = xs ++ a :: ys → c.steps xs = some (c', ps) →
    (∀ i, a ≠ .drop i) ∧
    ∀ as f, a = .deliver as → c'.sock.out[c'.handed.length]? = some f →
      ∃ mem n, hostWrite c'.mem c'.guestStart f = .ok (mem, n) ∧
        QuietRun { c' with mem := mem, handed := c'.handed ++ [f] } as

theorem request_live {s : Sock} (h : AllLive s) (m : Method) (md d : Bytes) : AllLive (s.request m md d) := by
  have hd : AllLive s.draw := h
  cases m with
  | fnf => exact h
  | rr => exact hd.register s.next .rr []
  | rs => exact hd.register s.next .rs []
  | rc => exact hd.register s.next .rc []

theorem step_sound {c c' : Ctx} {a : Step} {p : Bool} (hl : Inv c.sock) (h : Sound c) (ha : c.alive = true)
    (hd : ∀ i, a ≠ .drop i)
    (hq : ∀ as f, a = .deliver as → c.sock.out[c.handed.length]? = some f →
      ∃ mem n, hostWrite c.mem c.guestStart f = .ok (mem, n) ∧
        QuietRun { c with mem := mem, handed := c.handed ++ [f] } as)
    (hs : c.step a = some (c', p)) : Sound c' ∧ c'.alive = true ∧ p = false := by
  cases a with
  | deliver as =>
    simp only [Ctx.step] at hs
    split at hs
    · cases hs
    · split at hs
      · cases hs
      · rename_i f hf
        cases hs
        obtain ⟨mem, n, h1, h2⟩ := hq as f rfl hf
        unfold Ctx.deliver
        rw [h1]
        simp only
        split
        · have hs0 : Sound { c with mem := mem, handed := c.handed ++ [f] } := ⟨h.live, h.opening⟩
          have g := run_sound as _ hs0 h2
          have gr := (run_grows as { c with mem := mem, handed := c.handed ++ [f] }).alive
          rcases hr : ({ c with mem := mem, handed := c.handed ++ [f] } : Ctx).run as with ⟨c2, _ | _ | _⟩ <;>
            rw [hr] at g gr
          · exact ⟨g.1, gr.trans ha, trivial⟩
          · exact ⟨g.1, gr.trans ha, trivial⟩
          · exact absurd rfl g.2
        · exact ⟨⟨h.live, h.opening⟩, ha, trivial⟩
  | call m md d =>
    simp only [Ctx.step] at hs
    split at hs
    · cases hs
    · simp only [Ctx.call, ha, if_true, Option.some.injEq] at hs
      cases hs
      refine ⟨⟨request_live h.live m md d, fun k hk a b => ?_⟩, rfl, rfl⟩
      obtain ⟨l, h3, h4⟩ := request_tasks c.sock m md d
      simp only at hk
      rw [h3] at hk
      rcases List.mem_append.1 hk with hk | hk
      · exact h.opening k hk a b
      · rw [h4 k hk]; exact fun e => nomatch e
  | drop i => exact absurd rfl (hd i)
  | task t y =>
    simp only [Ctx.step] at hs
    split at hs
    · cases hs
    · split at hs
      · rename_i k hk
        obtain ⟨c1, hc1, e⟩ := Option.map_eq_some_iff.1 hs
        cases e
        have hk0 := List.mem_of_getElem? hk
        have hk' := hl.tasks k hk0
        cases k with
        | rr => exact absurd hk' id
        | fnf => exact absurd hk' id
        | rs => exact absurd hk' id
        | rc => exact absurd hk' id
        | rcStart a b => exact absurd rfl (h.opening _ hk0 a b)
        | rsStart =>
          simp only [Ctx.task] at hc1
          cases hc1
          refine ⟨⟨h.live, fun x hx => ?_⟩, ha, rfl⟩
          rcases mem_set_some hx with hx | hx
          · exact h.opening x hx
          · cases hx
        | feed sid q first n =>
          simp only [Ctx.task] at hc1
          split at hc1
          · cases hc1
          · rename_i s hs'
            rw [if_pos (Or.inl ha)] at hc1
            cases hc1
            refine ⟨⟨fun k hk => h.live k (by rw [← (Lemmas.RustSocket.runTask_core hs').2.1]; exact hk),
              fun x hx a b => ?_⟩, ha, rfl⟩
            obtain ⟨st, ⟨e1, e2⟩ | e1⟩ := RustResponder.runTask_tasks hs'
            · simp only at hx
              have hx' := hx
              simp only [Sock.runTask] at hs'
              split at hs'
              · split at hs'
                · cases hs'
                  rcases mem_set_some hx with hx | hx
                  · exact h.opening x hx a b
                  · cases hx; exact fun e => nomatch e
                · split at hs'
                  · cases hs'
                  · cases hs'
                    rcases mem_set_some hx with hx | hx
                    · exact h.opening x hx a b
                    · cases hx
              · cases y <;> simp only at hs'
                · split at hs' <;>
                  · cases hs'
                    rcases mem_set_some hx with hx | hx
                    · exact h.opening x hx a b
                    · cases hx; exact fun e => nomatch e
                · cases hs'
                  rcases mem_set_some hx with hx | hx
                  · exact h.opening x hx a b
                  · cases hx; exact fun e => nomatch e
                · cases hs'
                  rcases mem_set_some hx with hx | hx
                  · exact h.opening x hx a b
                  · cases hx
            · simp only at hx
              rw [e1] at hx
              exact h.opening x hx a b
      · cases hs

/-- **C124 (partial)** Full statement: whatever a module does with the frames it is handed, traps included, the host goes
on: it hands over further frames and local calls do not crash. Proved for every run in which all that the module does is
quiet (it may trap at any time), frames fit its buffer and no local code gives up waiting. Missing: the other modules
(`request_kills_refuted`, `large_frame_refuted`), and local code that gives up waiting (`given_up_refuted`). -/
theorem goes_on_partial (ss : List Step) : ∀ (c c' : Ctx) (ps : List Bool), Inv c.sock → (∃ l, c.sock.out = c.handed ++ l) →
    Sound c → c.alive = true → QuietSteps c ss → c.steps ss = some (c', ps) →
    c'.alive = true ∧ ∀ p ∈ ps, p = false := by
  induction ss with
  | nil => intro c c' ps _ _ _ ha _ hs; cases hs; exact ⟨ha, fun p hp => absurd hp List.not_mem_nil⟩
  | cons a ss ih =>
    intro c c' ps hi hh h ha hq hs
    simp only [Ctx.steps] at hs
    split at hs
    · cases hs
    · rename_i c1 p h1
      obtain ⟨⟨c2, qs⟩, hr, e⟩ := Option.map_eq_some_iff.1 hs
      cases e
      have hq0 := hq [] a ss c [] rfl rfl
      obtain ⟨g1, g2, g3⟩ := step_sound hi h ha hq0.1 hq0.2 h1
      have hl := step_lasting ⟨hi, hh⟩ h1
      obtain ⟨i1, i2⟩ := ih c1 c2 qs hl.inv hl.handed g1 g2 (fun xs b ys c3 ps e hx => by
        refine hq (a :: xs) b ys c3 (p :: ps) (by rw [e]; rfl) ?_
        simp only [Ctx.steps, h1, hx, Option.map_some]) hr
      refine ⟨i1, fun p' hp' => ?_⟩
      rcases List.mem_cons.1 hp' with rfl | hp'
      · exact g3
      · exact i2 p' hp'

/-- **C124 (partial)** The same from the start of the module. -/
theorem goes_on_started_partial (m : Mod) (c c' : Ctx) (ss : List Step) (ps : List Bool) (hc : newContext m = .ok c)
    (hf : QuietRun (Ctx.new m.mem) (functions m)) (hq : QuietSteps c ss) (hs : c.steps ss = some (c', ps)) :
    c'.alive = true ∧ ∀ p ∈ ps, p = false := by
  have hl := new_lasting hc
  obtain ⟨-, -, -, -, hr⟩ := (newContext_ok_iff m c).1 hc
  have hs0 := run_sound (functions m) (Ctx.new m.mem) ⟨fun k hk => absurd hk List.not_mem_nil,
    fun k hk => absurd hk List.not_mem_nil⟩ hf
  have ha := (run_grows (functions m) (Ctx.new m.mem)).alive
  rw [hr] at hs0 ha
  exact goes_on_partial ss c c' ps hl.inv hl.handed hs0.1 ha hq hs

/-- The hypotheses are met by a module that traps when it is called. -/
example : QuietSteps begun [.call .rr [] [1], .deliver [.trap]] := by
  intro xs a ys c' ps e hs
  match xs, e with
  | [], e =>
    simp only [List.nil_append, List.cons.injEq] at e
    obtain ⟨rfl, -⟩ := e
    exact ⟨fun i e => (nomatch e), fun as f e => (nomatch e)⟩
  | [_], e =>
    simp only [List.cons_append, List.nil_append, List.cons.injEq] at e
    obtain ⟨rfl, rfl, -⟩ := e
    refine ⟨fun i e => (nomatch e), fun as f e hf => ?_⟩
    cases e
    have hc : c' = { begun with sock := begun.sock.request .rr [] [1] } := by
      have h1 : begun.steps [.call .rr [] [1]] = some ({ begun with sock := begun.sock.request .rr [] [1] }, [false]) := by
        decide +kernel
      rw [h1] at hs
      exact (congrArg Prod.fst (Option.some.inj hs)).symm
    have hf' : f = newRequest tRequestResponse 1 [] [1] 0 0 := by
      subst hc
      have h2 : (({ begun with sock := begun.sock.request .rr [] [1] } : Ctx).sock.out[
        ({ begun with sock := begun.sock.request .rr [] [1] } : Ctx).handed.length]?) =
          some (newRequest tRequestResponse 1 [] [1] 0 0) := by decide +kernel
      rw [h2] at hf
      exact (Option.some.inj hf).symm
    subst hf'
    refine ⟨_, _, if_pos (by decide +kernel), fun xs a ys c2 e _ => ?_⟩
    match xs, e with
    | [], e =>
      simp only [List.nil_append, List.cons.injEq] at e
      obtain ⟨rfl, -⟩ := e
      exact ⟨trivial, fun n b r v e => (nomatch e)⟩
    | _ :: _, e => simp at e
  | _ :: _ :: _, e => simp at e

/-- A trap of the module in a call, then an answer to the next call. -/
example : (begun.steps [.call .rr [] [1], .deliver [.trap], .call .rr [] [2],
      .deliver (sends 96 (.payload ⟨3, [], [9], false, true, true⟩))]).any
    (fun r => r.2 = [false, false, false, false] ∧ r.1.alive = true ∧ r.1.handed.length = 2 ∧ r.1.heard.length = 1) = true := by decide +kernel

/-- **C124 is false of the code**: a frame too large for the buffer the host assumes (4092 bytes) ends the writer. -/
theorem large_frame_refuted (c : Ctx) (f : Frame) (as : List Act) (ha : c.alive = true) (hw : c.wild = false)
    (hf : c.sock.out[c.handed.length]? = some f) (hl : 4089 < (encode f).length) :
    ∃ c', c.step (.deliver as) = some (c', false) ∧ c'.alive = false := by
  have hn : ¬ (c.alive = false ∨ c.wild = true) := by rw [ha, hw]; simp
  have hh : hostWrite c.mem c.guestStart f = .panic := by
    unfold hostWrite
    rw [if_neg]
    simp [toU24, assumedSize]
    omega
  exact ⟨{ c with alive := false }, by simp only [Ctx.step, if_neg hn, hf, Ctx.deliver, hh], rfl⟩

/-- **C124 is false of the code**: local code that gives up waiting for a result (a timeout, say), and a module that then
answers with an error, together end the writer: all later calls of the module crash. Without the first they do not. -/
theorem given_up_refuted : (∃ c ps, begun.steps [.call .rr [] [1], .drop 0, .deliver (sends 96 (.error ⟨1, 513, [7]⟩)),
      .call .rr [] [2]] = some (c, ps) ∧ ps = [false, false, false, true] ∧ c.alive = false) ∧
    ∃ c ps, begun.steps [.call .rr [] [1], .deliver (sends 96 (.error ⟨1, 513, [7]⟩)),
      .call .rr [] [2]] = some (c, ps) ∧ ps = [false, false, false] ∧ c.alive = true := by
  have h : (begun.steps [.call .rr [] [1], .drop 0, .deliver (sends 96 (.error ⟨1, 513, [7]⟩)), .call .rr [] [2]]).any
      (fun r => r.2 = [false, false, false, true] ∧ r.1.alive = false) = true := by decide +kernel
  have h' : (begun.steps [.call .rr [] [1], .deliver (sends 96 (.error ⟨1, 513, [7]⟩)), .call .rr [] [2]]).any
      (fun r => r.2 = [false, false, false] ∧ r.1.alive = true) = true := by decide +kernel
  obtain ⟨⟨c, ps⟩, h1, h2⟩ := any_some h
  obtain ⟨⟨c', ps'⟩, h3, h4⟩ := any_some h'
  exact ⟨⟨c, ps, h1, by simpa using h2⟩, c', ps', h3, by simpa using h4⟩

/-! ## C125: frames for the module, and results for local callers -/

/-- **C125** The frames handed to the module are those that the socket sent, in that order, none twice and none left out
before the last one. -/
theorem handed_in_order (m : Mod) (c c' : Ctx) (ss : List Step) (ps : List Bool) (hc : newContext m = .ok c)
    (hs : c.steps ss = some (c', ps)) : ∃ rest, c'.sock.out = c'.handed ++ rest :=
  (steps_lasting ss (new_lasting hc) hs).handed

/-- **C125 (partial)** While the writer is there and has not written outside of the memory, the next frame can be handed
over, and is in the memory of the module when the module is called, as a packet, when it fits. -/
theorem next_handed_partial (c : Ctx) (f : Frame) (as : List Act) (ha : c.alive = true) (hw : c.wild = false)
    (hf : c.sock.out[c.handed.length]? = some f) (hl : (encode f).length ≤ 4089)
    (hm : c.guestStart + (encode f).length + 3 ≤ c.mem.length) :
    ∃ mem, slice mem c.guestStart ((encode f).length + 3) = packed f ∧ mem.length = c.mem.length ∧
      (c.step (.deliver as)).map (fun r => r.1.handed) = some (c.handed ++ [f]) ∧
      ∀ c1, ({ c with mem := mem, handed := c.handed ++ [f] } : Ctx).run as = (c1, .done) →
        c.step (.deliver as) = some (c1, false) := by
  have hn : ¬ (c.alive = false ∨ c.wild = true) := by rw [ha, hw]; simp
  have e3 : toU24 (UInt32.ofNat (encode f).length) = beBytes 3 (encode f).length := RustGuest.toU24_len (by omega)
  have hp : packed f = toU24 (UInt32.ofNat (encode f).length) ++ encode f := by rw [e3]; rfl
  have hlen : (toU24 (UInt32.ofNat (encode f).length) ++ encode f).length = (encode f).length + 3 := by
    rw [e3]; simp; omega
  have hh : hostWrite c.mem c.guestStart f = .ok (c.mem.take c.guestStart ++ packed f ++
      c.mem.drop (c.guestStart + ((encode f).length + 3)), (encode f).length + 3) := by
    unfold hostWrite
    rw [hlen, if_pos (by simp [assumedSize]; omega), hp]
  refine ⟨c.mem.take c.guestStart ++ packed f ++ c.mem.drop (c.guestStart + ((encode f).length + 3)), ?_, ?_, ?_, ?_⟩
  · have := slice_written c.mem (packed f) c.guestStart (by rw [hp, hlen]; omega)
    rw [hp, hlen] at this
    rw [hp]
    exact this
  · rw [List.length_append, List.length_append, show (packed f).length = (encode f).length + 3 by rw [hp]; exact hlen,
      List.length_take, List.length_drop]
    omega
  · simp only [Ctx.step, if_neg hn, hf, Ctx.deliver, hh, if_pos (show c.guestStart + ((encode f).length + 3) ≤ c.mem.length by omega)]
    have g := (run_grows as { c with
      mem := c.mem.take c.guestStart ++ packed f ++ c.mem.drop (c.guestStart + ((encode f).length + 3))
      handed := c.handed ++ [f] }).handed
    rcases hr : ({ c with
      mem := c.mem.take c.guestStart ++ packed f ++ c.mem.drop (c.guestStart + ((encode f).length + 3))
      handed := c.handed ++ [f] } : Ctx).run as with ⟨c2, _ | _ | _⟩ <;> rw [hr] at g <;> simpa using g
  · intro c1 hr
    simp only [Ctx.step, if_neg hn, hf, Ctx.deliver, hh, if_pos (show c.guestStart + ((encode f).length + 3) ≤ c.mem.length by omega), hr]

/-- The frames of a stream. -/
def ofStream (sid : UInt32) (fs : List Frame) : List Frame := fs.filter fun f => f.streamID = sid

theorem outcome_append (b : Bool) (xs ys : List Frame) : outcome b (xs ++ ys) =
    if (outcome b xs).2 then outcome b xs else ((outcome b xs).1 ++ (outcome b ys).1, (outcome b ys).2) := by
  induction xs with
  | nil => simp [outcome]
  | cons x xs ih =>
    simp only [List.cons_append, outcome]
    split
    · simp
    · rw [ih]
      split <;> simp_all

/-- A caller on stream `sid`, after the frames `fs` of the module. -/
def Told (s : Sock) (sid : UInt32) (i : Nat) (w : Wait) (fs : List Frame) : Prop :=
  Obs s sid i w (outcome (isSingle w) (ofStream sid fs)).1 (!(outcome (isSingle w) (ofStream sid fs)).2)

theorem told_recv {s s' : Sock} {sid : UInt32} {i : Nat} {w : Wait} {fs : List Frame} {f : Frame}
    (h : Told s sid i w fs) (hc : opensChannel sid (.recv f) = false) (hp : s.processOnce f = .ok s') :
    Told s' sid i w (fs ++ [f]) := by
  have g := recv_obs h hc hp
  unfold Told ofStream
  rw [List.filter_append, outcome_append]
  unfold ofStream at g
  cases hb : (outcome (isSingle w) (fs.filter fun f => f.streamID = sid)).2 with
  | true =>
    rw [hb] at g
    simpa [hb] using g
  | false =>
    rw [hb] at g
    by_cases e : f.streamID = sid
    · simp only [seenBy, e, if_true] at g
      simp only [Bool.false_eq_true, if_false, List.filter_cons, e, decide_true, if_true, List.filter_nil, outcome]
      cases hm : (meaning (isSingle w) f).2 <;> simpa [hm] using g
    · simp only [seenBy, e, if_false] at g
      simpa [hb, List.filter_cons, e, outcome] using g

theorem act_told (c : Ctx) (a : Act) (sid : UInt32) (i : Nat) (w : Wait) : ∃ gs, (c.act a).1.heard = c.heard ++ gs ∧
    (c.act a).1.sock.next = c.sock.next ∧
    ((∀ f ∈ gs, opensChannel sid (.recv f) = false) → ∀ fs, Told c.sock sid i w fs →
      Told (c.act a).1.sock sid i w (fs ++ gs)) := by
  have same : ∀ c' : Ctx, c'.heard = c.heard → c'.sock = c.sock → ∃ gs, c'.heard = c.heard ++ gs ∧
      c'.sock.next = c.sock.next ∧
      ((∀ f ∈ gs, opensChannel sid (.recv f) = false) → ∀ fs, Told c.sock sid i w fs → Told c'.sock sid i w (fs ++ gs)) :=
    fun c' h1 h2 => ⟨[], by simp [h1], by rw [h2], fun _ fs h => by rw [h2, List.append_nil]; exact h⟩
  cases a with
  | write p bs => simp only [Ctx.act]; split <;> exact same _ rfl rfl
  | grow n => exact same _ rfl rfl
  | trap => exact same _ rfl rfl
  | initBuffers g h => simp only [Ctx.act]; split <;> exact same _ rfl rfl
  | opList p n =>
    simp only [Ctx.act]
    split
    · exact same _ rfl rfl
    · split <;> exact same _ rfl rfl
  | log p n =>
    simp only [Ctx.act]
    split
    · exact same _ rfl rfl
    · split <;> exact same _ rfl rfl
  | send n =>
    simp only [Ctx.act]
    split
    · exact same _ rfl rfl
    · split
      · exact same _ rfl rfl
      · unfold Ctx.hostSend
        split
        · rename_i f _
          split
          · rename_i s hp
            exact ⟨[f], rfl, processOnce_next (processHost_ok hp),
              fun hc fs h => told_recv h (hc f (by simp)) (processHost_ok hp)⟩
          · exact same _ rfl rfl
          · exact same _ rfl rfl
        · exact ⟨[], by simp, rfl, fun _ fs h => by rw [List.append_nil]; exact Obs.congr h rfl rfl rfl⟩
        · exact same _ rfl rfl

theorem run_told (as : List Act) (sid : UInt32) (i : Nat) (w : Wait) : ∀ (c : Ctx), ∃ gs,
    (c.run as).1.heard = c.heard ++ gs ∧ (c.run as).1.sock.next = c.sock.next ∧
    ((∀ f ∈ gs, opensChannel sid (.recv f) = false) → ∀ fs, Told c.sock sid i w fs →
      Told (c.run as).1.sock sid i w (fs ++ gs)) := by
  induction as with
  | nil => intro c; exact ⟨[], by simp [Ctx.run], rfl, fun _ fs h => by rw [List.append_nil]; exact h⟩
  | cons a as ih =>
    intro c
    obtain ⟨gs, h1, h2, h3⟩ := act_told c a sid i w
    simp only [Ctx.run]
    rcases hr : c.act a with ⟨c', _ | _ | _⟩ <;> rw [hr] at h1 h2 h3
    · obtain ⟨gs', g1, g2, g3⟩ := ih c'
      refine ⟨gs ++ gs', by rw [g1, h1, List.append_assoc], g2.trans h2, fun hc fs h => ?_⟩
      rw [← List.append_assoc]
      exact g3 (fun f hf => hc f (by simp [hf])) _ (h3 (fun f hf => hc f (by simp [hf])) fs h)
    · exact ⟨gs, h1, h2, h3⟩
    · exact ⟨gs, h1, h2, h3⟩

theorem step_told {c c' : Ctx} {a : Step} {p : Bool} (sid : UInt32) (i : Nat) (w : Wait)
    (hn : c.sock.next.toNat + 2 * calls [a] < 2 ^ 32) (hs : c.step a = some (c', p)) : ∃ gs,
    c'.heard = c.heard ++ gs ∧ c'.sock.next.toNat = c.sock.next.toNat + 2 * calls [a] ∧
    ((∀ f ∈ gs, opensChannel sid (.recv f) = false) → ∀ fs, Told c.sock sid i w fs → Told c'.sock sid i w (fs ++ gs)) := by
  have noth : ∀ c' : Ctx, c'.heard = c.heard → c'.sock.next = c.sock.next →
      (∀ fs, Told c.sock sid i w fs → Told c'.sock sid i w fs) → ∃ gs, c'.heard = c.heard ++ gs ∧
      c'.sock.next.toNat = c.sock.next.toNat + 2 * 0 ∧
      ((∀ f ∈ gs, opensChannel sid (.recv f) = false) → ∀ fs, Told c.sock sid i w fs → Told c'.sock sid i w (fs ++ gs)) :=
    fun c' h1 h2 h3 => ⟨[], by simp [h1], by rw [h2]; rfl, fun _ fs h => by rw [List.append_nil]; exact h3 fs h⟩
  cases a with
  | deliver as =>
    simp only [Ctx.step] at hs
    split at hs
    · cases hs
    · split at hs
      · cases hs
      · rename_i f hf
        cases hs
        unfold Ctx.deliver
        split
        · rename_i mem n _
          split
          · obtain ⟨gs, h1, h2, h3⟩ := run_told as sid i w { c with mem := mem, handed := c.handed ++ [f] }
            refine ⟨gs, ?_⟩
            rcases hr : ({ c with mem := mem, handed := c.handed ++ [f] } : Ctx).run as with ⟨c2, _ | _ | _⟩ <;>
              rw [hr] at h1 h2 h3
            · exact ⟨h1, by rw [h2]; rfl, h3⟩
            · exact ⟨h1, by rw [h2]; rfl, h3⟩
            · exact ⟨h1, by simp only; rw [h2]; rfl, h3⟩
          · exact noth _ rfl rfl fun _ h => h
        · exact noth _ rfl rfl fun _ h => h
  | call m md d =>
    simp only [calls] at hn
    have hd : (c.sock.next + 2).toNat = c.sock.next.toNat + 2 * calls [.call m md d] := by
      rw [draw_toNat (by omega)]; simp [calls]
    simp only [Ctx.step] at hs
    split at hs
    · cases hs
    · simp only [Option.some.injEq] at hs
      unfold Ctx.call at hs
      split at hs
      · cases hs
        exact ⟨[], by simp, by simp only; rw [call_next]; exact hd, fun _ fs h => by
          rw [List.append_nil]; exact call_obs h (by omega)⟩
      · cases hs
        exact ⟨[], by simp, by simp only; rw [call_next]; exact hd, fun _ fs h => by
          rw [List.append_nil]; exact Obs.congr (call_obs (m := m) (md := md) (d := d) h (by omega)) rfl rfl rfl⟩
  | drop j =>
    simp only [Ctx.step] at hs
    split at hs
    · cases hs
    · cases hs
      exact noth _ rfl rfl fun _ h => drop_obs h
  | task t y =>
    simp only [Ctx.step] at hs
    split at hs
    · cases hs
    · split at hs
      · rename_i k hk
        obtain ⟨c1, hc1, e⟩ := Option.map_eq_some_iff.1 hs
        cases e
        have gen : ∀ k, (match c.sock.runTask t y k with
            | none => none
            | some s =>
              if c.alive = true ∨ s.out = c.sock.out then some { c with sock := s }
              else some { c with sock := { s with out := c.sock.out, tasks := s.tasks.set t none } }) = some c' →
            c'.heard = c.heard ∧ c'.sock.next = c.sock.next ∧ ∀ fs, Told c.sock sid i w fs → Told c'.sock sid i w fs := by
          intro k hk
          split at hk
          · cases hk
          · rename_i s hs
            obtain ⟨e1, e2, e3⟩ := runTask_core hs
            split at hk
            · cases hk
              exact ⟨rfl, e3, fun fs h => Obs.congr h e1 e2 e3⟩
            · cases hk
              exact ⟨rfl, e3, fun fs h => Obs.congr h e1 e2 e3⟩
        have key : c'.heard = c.heard ∧ c'.sock.next = c.sock.next ∧
            ∀ fs, Told c.sock sid i w fs → Told c'.sock sid i w fs := by
          cases k with
          | rsStart =>
            simp only [Ctx.task] at hc1
            cases hc1
            exact ⟨rfl, rfl, fun fs h => Obs.congr h rfl rfl rfl⟩
          | rcStart sid' j =>
            simp only [Ctx.task] at hc1
            cases hc1
            exact ⟨rfl, rfl, fun fs h => Obs.congr (drop_obs (j := j) h) rfl rfl rfl⟩
          | rr => exact gen _ hc1
          | fnf => exact gen _ hc1
          | rs => exact gen _ hc1
          | rc => exact gen _ hc1
          | feed => exact gen _ hc1
        exact noth _ key.1 key.2.1 key.2.2
      · cases hs

theorem calls_cons (a : Step) (ss : List Step) : calls (a :: ss) = calls [a] + calls ss := by
  cases a <;> simp [calls]
  omega

theorem steps_told (ss : List Step) (sid : UInt32) (i : Nat) (w : Wait) : ∀ {c c' : Ctx} {ps : List Bool},
    c.sock.next.toNat + 2 * calls ss < 2 ^ 32 → c.steps ss = some (c', ps) → ∃ gs,
    c'.heard = c.heard ++ gs ∧ c'.sock.next.toNat = c.sock.next.toNat + 2 * calls ss ∧
    ((∀ f ∈ gs, opensChannel sid (.recv f) = false) → ∀ fs, Told c.sock sid i w fs → Told c'.sock sid i w (fs ++ gs)) := by
  induction ss with
  | nil =>
    intro c c' ps _ hs
    cases hs
    exact ⟨[], by simp, rfl, fun _ fs h => by rw [List.append_nil]; exact h⟩
  | cons a ss ih =>
    intro c c' ps hn hs
    rw [calls_cons] at hn
    simp only [Ctx.steps] at hs
    split at hs
    · cases hs
    · rename_i c1 p h1
      obtain ⟨⟨c2, qs⟩, hr, e⟩ := Option.map_eq_some_iff.1 hs
      cases e
      obtain ⟨gs, g1, g2, g3⟩ := step_told sid i w (by omega) h1
      obtain ⟨gs', k1, k2, k3⟩ := ih (by omega) hr
      refine ⟨gs ++ gs', by rw [k1, g1, List.append_assoc], by rw [k2, g2, calls_cons a ss]; omega, fun hc fs h => ?_⟩
      rw [← List.append_assoc]
      exact k3 (fun f hf => hc f (by simp [hf])) _ (g3 (fun f hf => hc f (by simp [hf])) fs h)

/-- Handlers refer to channels that there are. -/
theorem act_wf (c : Ctx) (h : RustSocket.WF c.sock) (a : Act) : RustSocket.WF (c.act a).1.sock := by
  cases a with
  | write p bs => simp only [Ctx.act]; split <;> exact h
  | grow n => exact h
  | trap => exact h
  | initBuffers g h' => simp only [Ctx.act]; split <;> exact h
  | opList p n =>
    simp only [Ctx.act]
    split
    · exact h
    · split <;> exact h
  | log p n =>
    simp only [Ctx.act]
    split
    · exact h
    · split <;> exact h
  | send n =>
    simp only [Ctx.act]
    split
    · exact h
    · split
      · exact h
      · unfold Ctx.hostSend
        split
        · split
          · rename_i hp
            exact h.process (processHost_ok hp)
          · exact h
          · exact h
        · exact h.send _
        · exact h

theorem run_wf (as : List Act) : ∀ (c : Ctx), RustSocket.WF c.sock → RustSocket.WF (c.run as).1.sock := by
  induction as with
  | nil => intro c h; exact h
  | cons a as ih =>
    intro c h
    have h1 := act_wf c h a
    simp only [Ctx.run]
    rcases hr : c.act a with ⟨c', _ | _ | _⟩ <;> rw [hr] at h1
    · exact ih c' h1
    · exact h1
    · exact h1

theorem step_wf {c c' : Ctx} {a : Step} {p : Bool} (h : RustSocket.WF c.sock) (hs : c.step a = some (c', p)) :
    RustSocket.WF c'.sock := by
  cases a with
  | deliver as =>
    simp only [Ctx.step] at hs
    split at hs
    · cases hs
    · split at hs
      · cases hs
      · rename_i f hf
        cases hs
        unfold Ctx.deliver
        split
        · rename_i mem n _
          split
          · have g := run_wf as { c with mem := mem, handed := c.handed ++ [f] } h
            rcases hr : ({ c with mem := mem, handed := c.handed ++ [f] } : Ctx).run as with ⟨c2, _ | _ | _⟩ <;>
              rw [hr] at g <;> exact g
          · exact h
        · exact h
  | call m md d =>
    simp only [Ctx.step] at hs
    split at hs
    · cases hs
    · simp only [Option.some.injEq] at hs
      unfold Ctx.call at hs
      split at hs
      · cases hs; exact h.call m md d
      · cases hs; exact (h.call m md d).congr rfl rfl
  | drop j =>
    simp only [Ctx.step] at hs
    split at hs
    · cases hs
    · cases hs
      exact h.congr rfl (by simp)
  | task t y =>
    simp only [Ctx.step] at hs
    split at hs
    · cases hs
    · split at hs
      · rename_i k hk
        obtain ⟨c1, hc1, e⟩ := Option.map_eq_some_iff.1 hs
        cases e
        have gen : ∀ k, (match c.sock.runTask t y k with
            | none => none
            | some s =>
              if c.alive = true ∨ s.out = c.sock.out then some { c with sock := s }
              else some { c with sock := { s with out := c.sock.out, tasks := s.tasks.set t none } }) = some c' →
            RustSocket.WF c'.sock := by
          intro k hk
          split at hk
          · cases hk
          · rename_i s hs
            obtain ⟨e1, e2, e3⟩ := runTask_core hs
            split at hk <;>
            · cases hk
              exact h.congr e1 (congrArg List.length e2)
        cases k with
        | rsStart =>
          simp only [Ctx.task] at hc1
          cases hc1
          exact h.congr rfl rfl
        | rcStart sid' j =>
          simp only [Ctx.task] at hc1
          cases hc1
          exact h.congr rfl (by simp)
        | rr => exact gen _ hc1
        | fnf => exact gen _ hc1
        | rs => exact gen _ hc1
        | rc => exact gen _ hc1
        | feed => exact gen _ hc1
      · cases hs

theorem steps_wf (ss : List Step) : ∀ {c c' : Ctx} {ps : List Bool}, RustSocket.WF c.sock → c.steps ss = some (c', ps) →
    RustSocket.WF c'.sock := by
  induction ss with
  | nil => intro c c' ps h hs; cases hs; exact h
  | cons a ss ih =>
    intro c c' ps h hs
    simp only [Ctx.steps] at hs
    split at hs
    · cases hs
    · rename_i c1 p h1
      obtain ⟨r, hr, e⟩ := Option.map_eq_some_iff.1 hs
      cases e
      exact ih (step_wf h h1) hr

/-- **C125 (partial)** Full statement: local code that calls a module gets exactly the results that the frames of the
module on its stream bring, in order, and learns of the end of the stream exactly when they say so. Proved for every
module, every run before and after the call, whatever the module does otherwise (traps included), for the first 2^31-2
calls, as long as the module does not open a channel under the id of the call. Missing: those cases (as in C72); a module
that traps, or a writer that is gone, is never the end of a stream (`never_told_refuted`). -/
theorem host_caller_partial (m : Mod) (c0 c1 c2 c : Ctx) (ss tt : List Step) (ps qs : List Bool) (p : Bool)
    (me : Method) (hm : me ≠ .fnf) (md d : Bytes) (h0 : newContext m = .ok c0) (h1 : c0.steps ss = some (c1, ps))
    (h2 : c1.step (.call me md d) = some (c2, p)) (h3 : c2.steps tt = some (c, qs))
    (hn : calls ss + calls tt + 2 < 2 ^ 31)
    (hc : ∀ f ∈ c.heard.drop c1.heard.length, opensChannel c1.sock.next (.recv f) = false)
    (k : Sink) (hk : c.sock.sinks[c1.sock.sinks.length]? = some k) (hl : k.live = true) :
    (k.got, k.closed) = outcome (me = .rr) (ofStream c1.sock.next (c.heard.drop c1.heard.length)) := by
  have hw0 : RustSocket.WF c0.sock ∧ c0.sock.next = 1 := by
    obtain ⟨-, -, -, -, hr⟩ := (newContext_ok_iff m c0).1 h0
    have g1 := run_wf (functions m) (Ctx.new m.mem) (fun x hx => absurd hx List.not_mem_nil)
    have g2 := (run_grows (functions m) (Ctx.new m.mem)).sock.next
    rw [hr] at g1 g2
    exact ⟨g1, g2⟩
  have n0 : c0.sock.next.toNat = 1 := by rw [hw0.2]; rfl
  obtain ⟨gs1, -, n1, -⟩ := steps_told ss 0 0 .rr (by omega) h1
  have hw1 := steps_wf ss hw0.1 h1
  have hnew := RustSocket.call_new hw1 me hm md d (by omega)
  obtain ⟨gs2, e2, n2, -⟩ := step_told 0 0 .rr (by simp only [calls]; omega) h2
  have hc2 : c2.heard = c1.heard ∧ Obs c2.sock c1.sock.next c1.sock.sinks.length (RustSocket.waitOf me) [] true := by
    simp only [Ctx.step] at h2
    split at h2
    · cases h2
    · simp only [Option.some.injEq] at h2
      unfold Ctx.call at h2
      split at h2
      · cases h2; exact ⟨rfl, hnew⟩
      · cases h2; exact ⟨rfl, hnew.congr rfl rfl rfl⟩
  obtain ⟨gs, e, -, ht⟩ := steps_told tt c1.sock.next c1.sock.sinks.length (RustSocket.waitOf me)
    (by rw [n2]; simp only [calls]; omega) h3
  have hd : c.heard.drop c1.heard.length = gs := by rw [e, hc2.1, List.drop_left]
  rw [hd] at hc ⊢
  have hend := ht hc [] hc2.2
  rw [List.nil_append] at hend
  obtain ⟨k', g1, g2, g3, g4⟩ := hend.sink
  rw [hk] at g1
  cases g1
  have hsingle : isSingle (RustSocket.waitOf me) = decide (me = .rr) := by cases me <;> first | rfl | exact absurd rfl hm
  rw [hsingle] at g3 g4
  rw [g3 hl, g4]
  simp

/-- Two calls, answered in the other order, with a trap in between. -/
example : (begun.steps [.call .rs [] [1], .call .rr [] [2], .deliver [.trap],
      .deliver (sends 96 (.payload ⟨3, [], [9], false, true, true⟩) ++ sends 96 (.payload ⟨1, [], [8], false, true, true⟩))]).any
    (fun r => (r.1.sock.sinks.map fun k => (k.got, k.closed)) = [([.ok [] [8]], true), ([.ok [] [9]], true)]) = true := by
  decide +kernel

/-- **C124, C125 are false of the code**: local code that waits for a module that has trapped, or whose writer is gone,
is never told: as long as the module sends nothing on the stream, the result is open. (In the Go host it gets an error
when the module fails.) -/
theorem never_told_refuted (m : Mod) (c0 c1 c2 c : Ctx) (ss tt : List Step) (ps qs : List Bool) (p : Bool)
    (me : Method) (hm : me ≠ .fnf) (md d : Bytes) (h0 : newContext m = .ok c0) (h1 : c0.steps ss = some (c1, ps))
    (h2 : c1.step (.call me md d) = some (c2, p)) (h3 : c2.steps tt = some (c, qs))
    (hn : calls ss + calls tt + 2 < 2 ^ 31) (hc : ∀ f ∈ c.heard.drop c1.heard.length, f.streamID ≠ c1.sock.next)
    (k : Sink) (hk : c.sock.sinks[c1.sock.sinks.length]? = some k) (hl : k.live = true) : k.got = [] ∧ k.closed = false := by
  have h := host_caller_partial m c0 c1 c2 c ss tt ps qs p me hm md d h0 h1 h2 h3 hn (fun f hf => by
    unfold opensChannel
    split
    · rename_i v e
      cases e
      have := hc _ hf
      simp only [Frame.streamID] at this
      simp [this]
    · rfl) k hk hl
  have e : ofStream c1.sock.next (c.heard.drop c1.heard.length) = [] := by
    simp only [ofStream, List.filter_eq_nil_iff, decide_eq_true_eq]
    exact hc
  rw [e] at h
  simpa [outcome] using h

example : (begun.steps [.call .rr [] [1], .deliver [.trap]]).any
    (fun r => r.1.heard = [] ∧ (r.1.sock.sinks.map fun k => (k.live, k.got, k.closed)) = [(true, [], false)]) = true := by
  decide +kernel

/-- **C121** Nothing but the module itself changes its operations: they stay as they are in every run in which it hands
over no table. -/
theorem ops_stay (ss : List Step) : ∀ {c c' : Ctx} {ps : List Bool}, c.steps ss = some (c', ps) →
    (∀ as, .deliver as ∈ ss → ∀ a ∈ as, hands a = false) → c'.ops = c.ops := by
  induction ss with
  | nil => intro c c' ps hs _; cases hs; rfl
  | cons a ss ih =>
    intro c c' ps hs h
    simp only [Ctx.steps] at hs
    split at hs
    · cases hs
    · rename_i c1 p h1
      obtain ⟨r, hr, e⟩ := Option.map_eq_some_iff.1 hs
      cases e
      refine (ih hr fun as ha => h as (List.mem_cons_of_mem _ ha)).trans ?_
      cases a with
      | deliver as =>
        simp only [Ctx.step] at h1
        split at h1
        · cases h1
        · split at h1
          · cases h1
          · rename_i f hf
            cases h1
            unfold Ctx.deliver
            split
            · rename_i mem n _
              split
              · have g := run_ops as { c with mem := mem, handed := c.handed ++ [f] } (h as (by simp))
                rcases hr : ({ c with mem := mem, handed := c.handed ++ [f] } : Ctx).run as with ⟨c2, _ | _ | _⟩ <;>
                  rw [hr] at g <;> exact g
              · rfl
            · rfl
      | call m md d =>
        simp only [Ctx.step] at h1
        split at h1
        · cases h1
        · simp only [Option.some.injEq] at h1
          unfold Ctx.call at h1
          split at h1 <;> · cases h1; rfl
      | drop j =>
        simp only [Ctx.step] at h1
        split at h1
        · cases h1
        · cases h1; rfl
      | task t y =>
        simp only [Ctx.step] at h1
        split at h1
        · cases h1
        · split at h1
          · rename_i k hk
            obtain ⟨c3, hc3, e⟩ := Option.map_eq_some_iff.1 h1
            cases e
            unfold Ctx.task at hc3
            split at hc3
            · cases hc3; rfl
            · cases hc3; rfl
            · split at hc3
              · cases hc3
              · split at hc3 <;> · cases hc3; rfl
          · cases h1

end Iota.Props.RustHost
