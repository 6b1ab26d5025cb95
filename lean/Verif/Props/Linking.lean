import Verif.Model.Linking

/-!
# Theorems about which modules start on which host
-/

namespace Iota.Props.Linking
open Iota.Spec.Linking Iota.Linking

/-- The functions of a host that are not those of the protocol. -/
def of (others : Provided) (m n : String) (t : FuncType) : Prop := m ≠ "wasmrs" ∧ others m n = some t

theorem go_offers_asks (n : String) (t : FuncType) (h : (n, t) ∈ asks) : goWasmrs n = some t := by
  have : ∀ x ∈ asks, goWasmrs x.1 = some x.2 := by decide +kernel
  exact this _ h

theorem rust_offers_asks (n : String) (t : FuncType) (h : (n, t) ∈ asks) : rustWasmrs n = some t := by
  have : ∀ x ∈ asks, rustWasmrs x.1 = some x.2 := by decide +kernel
  exact this _ h

theorem go_links {others : Provided} {b : Binary} (h : AsksFor (of others) b) : links (goProvides others) b = true := by
  rw [links, List.all_eq_true]
  intro i hi
  rw [decide_eq_true_eq, goProvides]
  rcases h i hi with ⟨h1, h2⟩ | ⟨h1, h2⟩
  · rw [if_pos h1]; exact go_offers_asks _ _ h2
  · rw [if_neg h1]; exact h2

theorem rust_links {others : Provided} {b : Binary} (h : AsksFor (of others) b) : links (rustProvides others) b = true := by
  rw [links, List.all_eq_true]
  intro i hi
  rw [decide_eq_true_eq, rustProvides]
  rcases h i hi with ⟨h1, h2⟩ | ⟨h1, h2⟩
  · rw [if_pos h1]; exact rust_offers_asks _ _ h2
  · rw [if_neg h1]; exact h2

/-- The functions that a host calls at the start take no parameters. -/
def Plain (b : Binary) : Prop := ∀ n ∈ ["_start", "wasmrs_init"], ∀ t, b.export n = some t → t.params = []

/-- **C187** A Go host starts every module that keeps to the protocol, whatever `__wasmrs_init` gives back, and can hand it frames. -/
theorem protocol_starts_on_go (others : Provided) (b : Binary) (res : List ValType) (hi : AsksFor (of others) b) (ho : Offers res b)
    (hp : Plain b) : goStart others b = .started ∧ goSends b = true := by
  have h1 : goStarts b ["_start", "wasmrs_init"] = true := by
    have : ∀ ns : List String, (∀ n ∈ ns, n ∈ ["_start", "wasmrs_init"]) → goStarts b ns = true := by
      intro ns
      induction ns with
      | nil => intro _; rfl
      | cons n ns ih =>
        intro h
        rw [goStarts]
        have ih := ih fun x hx => h x (List.mem_cons_of_mem _ hx)
        cases he : b.export n with
        | none => exact ih
        | some t => simp only [callable, hp n (h n List.mem_cons_self) t he, ih]; rfl
    exact this _ fun _ h => h
  constructor
  · rw [goStart, if_neg (by simp [go_links hi]), if_neg (by simp [h1])]
    simp only [goInstance, ho.init, ho.send, goCalls, ho.list]
    rfl
  · simp only [goSends, ho.send]
    rfl

/-- **C187** A Rust host starts every module that keeps to the protocol, provided that `__wasmrs_init` gives nothing back, and asks it for
its operations. -/
theorem protocol_starts_on_rust (others : Provided) (b : Binary) (hi : AsksFor (of others) b) (ho : Offers [] b) :
    rustStart others b = .started ∧ rustLists b = true := by
  constructor
  · rw [rustStart, if_neg (by simp [rust_links hi]), if_neg (by simp [typedFunc, ho.send, words]), if_neg (by simp [ho.memory]), rustInit,
      if_pos (by simp [typedFunc, ho.init])]
  · simp [rustLists, typedFunc, ho.list, words]

/-- A Rust host starts no other module: what starts there keeps to the protocol, but for the list of operations. -/
theorem started_on_rust (others : Provided) (b : Binary) (h : rustStart others b = .started) :
    b.export "__wasmrs_init" = some ⟨[.i32, .i32, .i32], []⟩ ∧ b.export "__wasmrs_send" = some (words 1) ∧ b.memory = true ∧
    ∀ i ∈ b.imports, i.1 = "wasmrs" → rustWasmrs i.2.1 = some i.2.2 := by
  rw [rustStart] at h
  split at h
  · cases h
  · rename_i hl
    split at h
    · cases h
    · rename_i hs
      split at h
      · cases h
      · rename_i hm
        rw [rustInit] at h
        split at h
        · rename_i hi
          refine ⟨by simpa [typedFunc] using hi, by simpa [typedFunc, words] using hs, by simpa using hm, fun i hx hw => ?_⟩
          have hl : links (rustProvides others) b = true := by simpa using hl
          rw [links, List.all_eq_true] at hl
          have := hl i hx
          rw [decide_eq_true_eq, rustProvides, if_pos hw] at this
          exact this
        · cases h

theorem export_program {imports mi : List (String × String × FuncType)} {exports me : List (String × FuncType)} {n : String} {t : FuncType}
    (h : (exports.find? fun e => e.1 = n) = some (n, t)) : (program imports exports mi me).export n = some t := by
  rw [Binary.export, program]
  simp only [List.find?_append, h, Option.some_or, Option.map_some]

theorem asks_program {others : Provided} {imports mi : List (String × String × FuncType)} {exports me : List (String × FuncType)}
    (h : ∀ i ∈ imports, i.1 = "wasmrs" ∧ (i.2.1, i.2.2) ∈ asks) (hm : ∀ i ∈ mi, of others i.1 i.2.1 i.2.2) :
    AsksFor (of others) (program imports exports mi me) := by
  intro i hi
  rcases List.mem_append.mp hi with hi | hi
  · exact .inr (hm i hi)
  · exact .inl (h i hi)

theorem go_offers (mi : List (String × String × FuncType)) (me : List (String × FuncType)) : Offers [.i32] (program goImports goExports mi me) :=
  ⟨export_program (by decide +kernel), export_program (by decide +kernel), export_program (by decide +kernel), rfl⟩

theorem rust_offers (mi : List (String × String × FuncType)) (me : List (String × FuncType)) : Offers [] (program rustImports rustExports mi me) :=
  ⟨export_program (by decide +kernel), export_program (by decide +kernel), export_program (by decide +kernel), rfl⟩

/-- **C187 (partial)** Full statement: every program with the guest library of Go or of Rust, whatever else it exports and whatever
else it imports from the host, is started by the hosts in Go and in Rust. Proved for all pairs but one. Missing: programs in Go on the
host in Rust (`go_on_rust_refuted`). -/
theorem programs_start_partial (others : Provided) (mi : List (String × String × FuncType)) (me : List (String × FuncType))
    (hm : ∀ i ∈ mi, of others i.1 i.2.1 i.2.2) :
    (Plain (program goImports goExports mi me) → goStart others (program goImports goExports mi me) = .started ∧
      goSends (program goImports goExports mi me) = true) ∧
    (Plain (program rustImports rustExports mi me) → goStart others (program rustImports rustExports mi me) = .started ∧
      goSends (program rustImports rustExports mi me) = true) ∧
    rustStart others (program rustImports rustExports mi me) = .started ∧ rustLists (program rustImports rustExports mi me) = true := by
  have hg : ∀ i ∈ goImports, i.1 = "wasmrs" ∧ (i.2.1, i.2.2) ∈ asks := by decide +kernel
  have hr : ∀ i ∈ rustImports, i.1 = "wasmrs" ∧ (i.2.1, i.2.2) ∈ asks := by decide +kernel
  exact ⟨protocol_starts_on_go others _ _ (asks_program hg hm) (go_offers mi me),
    protocol_starts_on_go others _ _ (asks_program hr hm) (rust_offers mi me),
    protocol_starts_on_rust others _ (asks_program hr hm) (rust_offers mi me)⟩

/-- **C187 is false of the code** for every program in Go on a host in Rust: `__wasmrs_init` gives a value back, and the host looks for
a function that gives none. It says that the function is not exported. -/
theorem go_on_rust_refuted (others : Provided) (mi : List (String × String × FuncType)) (me : List (String × FuncType)) :
    rustStart others (program goImports goExports mi me) ≠ .started ∧
    ((∀ i ∈ mi, of others i.1 i.2.1 i.2.2) → rustStart others (program goImports goExports mi me) = .noInit) := by
  have ho := go_offers mi me
  constructor
  · intro h
    have := (started_on_rust others _ h).1
    rw [ho.init] at this
    simp at this
  · intro hm
    have hg : ∀ i ∈ goImports, i.1 = "wasmrs" ∧ (i.2.1, i.2.2) ∈ asks := by decide +kernel
    rw [rustStart, if_neg (by simp [rust_links (asks_program hg hm)]), if_neg (by simp [typedFunc, ho.send, words]), if_neg (by simp [ho.memory]), rustInit,
      if_neg (by simp [typedFunc, ho.init])]

/-- **C187 is false of the code** for modules that use all the protocol of the host in Rust: `__console_log` is not there on a host in
Go. -/
theorem log_on_go_refuted (others : Provided) (b : Binary) (t : FuncType) (h : ("wasmrs", "__console_log", t) ∈ b.imports) :
    goStart others b = .link := by
  have : links (goProvides others) b = false := by
    rw [Bool.eq_false_iff]
    intro hl
    rw [links, List.all_eq_true] at hl
    have := hl _ h
    rw [decide_eq_true_eq, goProvides, if_pos rfl] at this
    have hn : goWasmrs "__console_log" = none := by decide +kernel
    rw [hn] at this
    cases this
  rw [goStart, if_pos this]

/-- A module without a list of operations starts on a host in Rust and makes the host in Go panic. -/
theorem no_list_panics_refuted (others : Provided) (b : Binary) (hi : AsksFor (of others) b)
    (h1 : b.export "__wasmrs_init" = some ⟨[.i32, .i32, .i32], []⟩) (h2 : b.export "__wasmrs_send" = some (words 1))
    (h3 : b.export "__wasmrs_op_list_request" = none) (hm : b.memory = true) (h4 : b.export "_start" = none) (h5 : b.export "wasmrs_init" = none) :
    rustStart others b = .started ∧ goStart others b = .panic := by
  constructor
  · rw [rustStart, if_neg (by simp [rust_links hi]), if_neg (by simp [typedFunc, h2, words]), if_neg (by simp [hm]), rustInit,
      if_pos (by simp [typedFunc, h1])]
  · rw [goStart, if_neg (by simp [go_links hi]), if_neg (by simp [goStarts, h4, h5])]
    simp only [goInstance, h1, h2, goCalls, h3]
    rfl

/-! ## Cases -/

/-- A host with one function of WASI. -/
def wasi : Provided := fun m n => if m = "wasi_snapshot_preview1" ∧ n = "fd_write" then some (words 4) else none

example : goStart wasi (program goImports goExports [("wasi_snapshot_preview1", "fd_write", words 4)] [("_start", words 0)]) = .started ∧
    rustStart wasi (program goImports goExports [("wasi_snapshot_preview1", "fd_write", words 4)] [("_start", words 0)]) = .noInit ∧
    rustStart wasi (program rustImports rustExports [("wasi_snapshot_preview1", "fd_write", words 4)] []) = .started ∧
    goStart wasi (program rustImports rustExports [("env", "other", words 4)] []) = .link := by decide +kernel

example : Plain (program goImports goExports [("wasi_snapshot_preview1", "fd_write", words 4)] [("_start", words 0)]) := by
  intro n hn t ht
  have : ∀ n ∈ ["_start", "wasmrs_init"], ∀ t ∈ (program goImports goExports [("wasi_snapshot_preview1", "fd_write", words 4)] [("_start", words 0)]).export n,
    t.params = [] := by decide +kernel
  exact this n hn t ht

end Iota.Props.Linking
