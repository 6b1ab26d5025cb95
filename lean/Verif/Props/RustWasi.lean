import Verif.Spec.RustWasi

/-!
# C185: WASI parameters and deadlines of the Rust host
-/

namespace Iota.Props.RustWasi
open Iota.RustWasi Iota.Spec.RustWasi

theorem openAll_some {w : World} {l : List (Str × Str)} (h : ∀ x ∈ l, ∃ d, w.dir x.2 = some d) :
    ∃ r, openAll w l = some r ∧ r.map (·.1) = l.map (·.1) ∧ r.map (fun x => some x.2) = l.map (fun x => w.dir x.2) := by
  induction l with
  | nil => exact ⟨[], rfl, rfl, rfl⟩
  | cons x l ih =>
    obtain ⟨g, hst⟩ := x
    obtain ⟨d, hd⟩ := h (g, hst) List.mem_cons_self
    obtain ⟨r, h1, h2, h3⟩ := ih fun y hy => h y (List.mem_cons_of_mem _ hy)
    have hd : w.dir hst = some d := hd
    exact ⟨(g, d) :: r, by simp [openAll, hd, h1], by simp [h2], by simp [h3, hd]⟩

theorem openAll_none {w : World} {l : List (Str × Str)} {x : Str × Str} (hx : x ∈ l) (h : w.dir x.2 = none) : openAll w l = none := by
  induction l with
  | nil => cases hx
  | cons y l ih =>
    obtain ⟨g, hst⟩ := y
    simp only [openAll]
    rcases List.mem_cons.mp hx with rfl | hx
    · have h : w.dir hst = none := h
      rw [h]
    · rw [ih hx]
      cases w.dir hst <;> rfl

theorem openAll_mem {w : World} {l : List (Str × Str)} {r : List (Str × Nat)} (h : openAll w l = some r) (g : Str) (d : Nat) :
    (g, d) ∈ r ↔ ∃ host, (g, host) ∈ l ∧ w.dir host = some d := by
  induction l generalizing r with
  | nil =>
    cases h
    simp
  | cons x l ih =>
    obtain ⟨g', hst⟩ := x
    simp only [openAll] at h
    cases hd : w.dir hst with
    | none => rw [hd] at h; cases h
    | some d' =>
      rw [hd] at h
      simp only [Option.map_eq_some_iff] at h
      obtain ⟨r', hr, rfl⟩ := h
      simp only [List.mem_cons, ih hr, Prod.mk.injEq]
      constructor
      · rintro (⟨rfl, rfl⟩ | ⟨host, hm, hh⟩)
        · exact ⟨hst, Or.inl ⟨rfl, rfl⟩, hd⟩
        · exact ⟨host, Or.inr hm, hh⟩
      · rintro ⟨host, ⟨rfl, rfl⟩ | hm, hh⟩
        · rw [hd] at hh
          cases hh
          exact Or.inl ⟨rfl, rfl⟩
        · exact Or.inr ⟨host, hm, hh⟩

theorem preopen_some {w : World} {p : Params} (h : ∀ s ∈ needed p, ∃ d, w.dir s = some d) :
    ∃ r, preopen w p.preopenedDirs p.mapDirs = some r ∧ r.map (·.1) = p.preopenedDirs ++ p.mapDirs.map (·.1) ∧
      r.map (fun x => some x.2) = (p.preopenedDirs ++ p.mapDirs.map (·.2)).map w.dir ∧ ∀ g d, (g, d) ∈ r ↔ sees w p g d := by
  obtain ⟨a, h1, h2, h3⟩ := openAll_some (w := w) (l := p.preopenedDirs.map fun d => (d, d)) (by
    intro x hx
    obtain ⟨s, hs, rfl⟩ := List.mem_map.mp hx
    exact h s (List.mem_append_left _ hs))
  obtain ⟨b, h4, h5, h6⟩ := openAll_some (w := w) (l := p.mapDirs) (by
    intro x hx
    exact h x.2 (List.mem_append_right _ (List.mem_map.mpr ⟨x, hx, rfl⟩)))
  refine ⟨a ++ b, by simp [preopen, h1, h4], ?_, ?_, ?_⟩
  · rw [List.map_append, h2, h5]
    simp [Function.comp_def]
  · rw [List.map_append, h3, h6]
    simp [Function.comp_def]
  · intro g d
    rw [List.mem_append, openAll_mem h1, openAll_mem h4]
    unfold sees
    constructor
    · rintro (⟨host, hm, hh⟩ | hh)
      · obtain ⟨s, hs, he⟩ := List.mem_map.mp hm
        cases he
        exact Or.inl ⟨hs, hh⟩
      · exact Or.inr hh
    · rintro (⟨hs, hh⟩ | hh)
      · exact Or.inl ⟨g, List.mem_map.mpr ⟨g, hs, rfl⟩, hh⟩
      · exact Or.inr hh

/-- A module that is not stopped is told what its store has. -/
theorem run_free {e : Engine} (s : Store) (he : e.interrupts = false) (code : List Code) :
    run e s code = (answers s.wasi.args s.wasi.env s.wasi.preopens code, .returned) := by
  induction code with
  | nil => rfl
  | cons c cs ih =>
    cases c with
    | check now => simp [run, answers, he, ih]
    | args => simp [run, answers, ih]
    | env => simp [run, answers, ih]
    | dirs => simp [run, answers, ih]

/-- **C185 (partial)** A module of a host without deadlines is told the arguments and variables of the parameters, and the directories
in the order given, each under its own name or the one it is mapped to and no other; without parameters, none. It runs to its end.
Missing: directories that are not there, see `directory_refuted`. -/
theorem wasi_told_partial (w : World) (b : Builder) (p : Params) (code : List Code) (he : b.engine = none) (hd : b.deadlines = none)
    (hp : b.wasi.getD Params.default = p) (h : ∀ s ∈ needed p, ∃ d, w.dir s = some d) (ha : w.argsOk p.argv = true)
    (hv : w.envOk p.envVars = true) :
    ∃ dirs, begin w b.build code = .ok (answers p.argv p.envVars dirs code, .returned) ∧
      dirs.map (·.1) = p.preopenedDirs ++ p.mapDirs.map (·.1) ∧ ∀ g d, (g, d) ∈ dirs ↔ sees w p g d := by
  obtain ⟨r, h1, h2, _, h4⟩ := preopen_some h
  refine ⟨r, ?_, h2, h4⟩
  have hb : b.build = ⟨⟨false⟩, b.wasi, none⟩ := by simp [Builder.build, he, hd]
  rw [hb]
  unfold begin newStore
  simp only [hp, initWasi, h1, initCtx, ha, hv]
  simp [run_free]

/-- **C185** Arguments or variables that wasmtime does not accept are an error, if the directories are there. -/
theorem wasi_refused (w : World) (b : Builder) (p : Params) (code : List Code)
    (hp : b.wasi.getD Params.default = p) (h : ∀ s ∈ needed p, ∃ d, w.dir s = some d)
    (ha : w.argsOk p.argv = false ∨ w.envOk p.envVars = false) : begin w b.build code = .error := by
  obtain ⟨r, h1, _⟩ := preopen_some h
  have hb : b.build.wasi = b.wasi := by
    unfold Builder.build
    cases b.engine <;> rfl
  unfold begin newStore
  rw [hb]
  simp only [hp, initWasi, h1, initCtx]
  rcases ha with ha | ha
  · simp [ha]
  · cases hx : w.argsOk p.argv <;> simp [ha]

/-- **C185 (refuted)** A directory that is not there is no error: the host panics. -/
theorem directory_refuted (w : World) (b : Builder) (p : Params) (code : List Code) (hp : b.wasi.getD Params.default = p) (s : Str)
    (hs : s ∈ needed p) (h : w.dir s = none) : begin w b.build code = .panic := by
  have hn : preopen w p.preopenedDirs p.mapDirs = none := by
    unfold preopen
    rcases List.mem_append.mp hs with hm | hm
    · rw [openAll_none (List.mem_map.mpr ⟨s, hm, rfl⟩) h]
    · obtain ⟨x, hx, rfl⟩ := List.mem_map.mp hm
      rw [openAll_none hx h]
      cases openAll w (p.preopenedDirs.map fun d => (d, d)) <;> rfl
  have hb : b.build.wasi = b.wasi := by
    unfold Builder.build
    cases b.engine <;> rfl
  unfold begin newStore
  rw [hb]
  simp only [hp, initWasi, hn]

theorem store_deadline {w : World} {p : Provider} {s : Store} (h : newStore w p = .ok s) : s.deadline = 0 := by
  unfold newStore at h
  split at h <;> first | (cases h; rfl) | cases h

theorem run_stops {e : Engine} {s : Store} (he : e.interrupts = true) (hs : s.deadline = 0) {code : List Code}
    (hc : checks code ≠ []) : (run e s code).2 = .stopped := by
  induction code with
  | nil => exact absurd rfl hc
  | cons c cs ih =>
    cases c with
    | check now => simp [run, he, hs]
    | args => simpa [run] using ih hc
    | env => simpa [run] using ih hc
    | dirs => simpa [run] using ih hc

/-- **C185 (refuted)** With deadlines every module is stopped at once, however long they are and whatever the time: at the first entry of
a function. -/
theorem deadlines_stop_refuted (w : World) (b : Builder) (init func : Nat) (code : List Code) (he : b.engine = none)
    (r : List Told × End) (hr : begin w (b.withDeadlines init func).build code = .ok r) (hc : checks code ≠ []) : r.2 = .stopped := by
  have hb : (b.withDeadlines init func).build = ⟨⟨true⟩, b.wasi, some (init, func)⟩ := by
    simp [Builder.build, Builder.withDeadlines, he]
  rw [hb] at hr
  unfold begin at hr
  cases hs : newStore w ⟨⟨true⟩, b.wasi, some (init, func)⟩ with
  | ok s =>
    rw [hs] at hr
    cases hr
    exact run_stops rfl (store_deadline hs) hc
  | error => rw [hs] at hr; cases hr
  | panic => rw [hs] at hr; cases hr

/-- **C185 (refuted)** With an engine that does not look at the epoch no module is stopped, however late. -/
theorem deadlines_ignored_refuted (w : World) (b : Builder) (init func : Nat) (code : List Code) (he : b.engine = some ⟨false⟩)
    (r : List Told × End) (hr : begin w (b.withDeadlines init func).build code = .ok r) : r.2 = .returned := by
  have hb : (b.withDeadlines init func).build = ⟨⟨false⟩, b.wasi, some (init, func)⟩ := by
    simp [Builder.build, Builder.withDeadlines, he]
  rw [hb] at hr
  unfold begin at hr
  cases hs : newStore w ⟨⟨false⟩, b.wasi, some (init, func)⟩ with
  | ok s =>
    rw [hs] at hr
    cases hr
    rw [run_free s rfl]
  | error => rw [hs] at hr; cases hr
  | panic => rw [hs] at hr; cases hr

/-! ## Examples -/

def exWorld : World := ⟨fun s => if s = ['/', 'a'] then some 1 else if s = ['/', 'b'] then some 2 else none, fun l => l.length < 9, fun _ => true⟩
def exParams : Params := Params.new [['x']] [(['/', 'm'], ['/', 'b'])] [(['k'], ['v'])] [['/', 'a']]

example : begin exWorld (Builder.new.withWasi exParams).build [.check 7, .dirs, .args] =
    .ok ([.dirs [(['/', 'a'], 1), (['/', 'm'], 2)], .args [['x']]], .returned) := by decide
example : begin exWorld (Builder.new.withWasi { exParams with preopenedDirs := [['/', 'c']] }).build [] = .panic := by decide
/-- It is not late, and stopped. -/
example : begin exWorld ((Builder.new.withWasi exParams).withDeadlines 100 100).build [.check 0] = .ok ([], .stopped) := by decide
example : ¬ late 0 100 [.check 0] := by
  rintro ⟨now, hm, h⟩
  simp only [checks, List.mem_singleton] at hm
  omega
/-- It is late, and not stopped. -/
example : begin exWorld ((Builder.new.withEngine ⟨false⟩).withDeadlines 1 1).build [.check 0, .check 9] = .ok ([], .returned) := by decide
example : late 0 1 [.check 0, .check 9] := ⟨9, by simp [checks], by omega⟩

end Iota.Props.RustWasi
