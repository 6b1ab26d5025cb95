import Verif.Model.Scaffold

/-!
# C143: scaffolded services fit the generated interfaces and the main program
-/

namespace Iota.Props.Scaffold
open Iota.Calls Iota.Scaffold Iota.Spec.GoFile
open Iota.Imports (Op typeRefs tyRefs)

/-! ## The scaffold in the program -/

/-- The compiler has nothing to say about how the main program uses the scaffold: it names its package, passes to each
`NewX` what it takes, and each `*XImpl` has the methods of the interface that `RegisterX` asks for. -/
structure Fits (cfg : Config) (set : Bool) (ns : Namespace) : Prop where
  package : mainPackage cfg = scaffoldPackage cfg
  services : ∀ i ∈ registered ns, construction i = constructor cfg i
  providers : ∀ d ∈ providers ns, ∀ i ∈ ns.ifaces, i.name = d → cfg.selects i = true → constructor cfg i = []
  methods : ∀ i ∈ registered ns, ∀ m ∈ declaredMethods i, m ∈ implMethods cfg set i

/-- The interface is a service. -/
def Service (i : Iface) : Prop := "service" ∈ i.roles

/-- An operation of the interface that code is written for. -/
def Coded (i : Iface) (op : Operation) : Prop := ∃ o ∈ i.ops, o.noCode = false ∧ o.op = op

theorem mem_coded (i : Iface) (op : Operation) : op ∈ i.coded ↔ Coded i op := by
  simp [Iface.coded, Coded, and_assoc]

theorem mem_registered (ns : Namespace) (i : Iface) : i ∈ registered ns ↔ i ∈ ns.ifaces ∧ Service i := by
  simp [registered, Iface.service, Service]

theorem mem_providers (ns : Namespace) (d : String) :
    d ∈ providers ns ↔ ∃ i ∈ ns.ifaces, Service i ∧ d ∈ i.uses := by
  simp [providers, Iface.service, Service, and_assoc]

theorem package_iff (cfg : Config) : mainPackage cfg = scaffoldPackage cfg ↔ ∃ p, cfg.package = some p ∧ p ≠ "" := by
  unfold mainPackage scaffoldPackage
  cases cfg.package with
  | none => simp
  | some p =>
    dsimp only
    by_cases h : p = ""
    · rw [if_pos h, if_pos h]
      simp [h]
    · rw [if_neg h, if_neg h]
      simp [h]

theorem constructor_iff (cfg : Config) (i : Iface) : construction i = constructor cfg i ↔ cfg.logger = false := by
  unfold construction constructor
  cases cfg.logger with
  | false => simp
  | true =>
    simp only [if_true, Bool.true_eq_false, iff_false]
    intro h
    have := congrArg List.length h
    simp at this

theorem constructor_nil (cfg : Config) (i : Iface) : constructor cfg i = [] ↔ cfg.logger = false ∧ i.uses = [] := by
  unfold constructor
  cases cfg.logger <;> simp

theorem method_iff (set : Bool) (op op' : Operation) (h : interfaceMethod op = scaffoldMethod set op') :
    op.streamOut = false := by
  cases hs : op.streamOut with
  | false => rfl
  | true =>
    exfalso
    have h := congrArg Method.result h
    have e : (interfaceMethod op).result = .flux (.value op.ret) := by simp [interfaceMethod, isVoid, hs]
    rw [e] at h
    cases hs' : op'.streamOut <;> cases set <;> by_cases hv : op'.ret = .void <;>
      simp [scaffoldMethod, isVoid, expand, hs', hv] at h

theorem methods_iff (cfg : Config) (set : Bool) (i : Iface) (h : cfg.selects i = true) :
    (∀ m ∈ declaredMethods i, m ∈ implMethods cfg set i) ↔ ∀ op, Coded i op → op.streamOut = false := by
  unfold declaredMethods implMethods
  rw [if_pos h]
  constructor
  · intro hm op ho
    obtain ⟨op', _, he⟩ := List.mem_map.1 (hm _ (List.mem_map.2 ⟨op, (mem_coded i op).2 ho, rfl⟩))
    exact method_iff set op op' he.symm
  · intro hs m hm
    obtain ⟨op, ho, rfl⟩ := List.mem_map.1 hm
    refine List.mem_map.2 ⟨op, ho, ?_⟩
    have := hs op ((mem_coded i op).1 ho)
    simp [interfaceMethod, scaffoldMethod, expand, this]

/-- **C143** (part) If the scaffold is written for all services, it fits the interfaces and the main program exactly if: a
package is configured; no logger is, unless there are no services; what services use takes nothing itself; and no
operation of a service with code returns a stream. Missing: all of these, which nothing in the generator excludes. -/
theorem fits_partial (cfg : Config) (set : Bool) (ns : Namespace)
    (hsel : ∀ i ∈ ns.ifaces, Service i → cfg.selects i = true) :
    Fits cfg set ns ↔
      (∃ p, cfg.package = some p ∧ p ≠ "") ∧
      (∀ i ∈ ns.ifaces, Service i → cfg.logger = false) ∧
      (∀ i ∈ ns.ifaces, Service i → ∀ j ∈ ns.ifaces, j.name ∈ i.uses → cfg.selects j = true → j.uses = []) ∧
      (∀ i ∈ ns.ifaces, Service i → ∀ op, Coded i op → op.streamOut = false) := by
  constructor
  · rintro ⟨h1, h2, h3, h4⟩
    refine ⟨(package_iff cfg).1 h1, fun i hi hs => ?_, fun i hi hs j hj hd hj' => ?_, fun i hi hs => ?_⟩
    · exact (constructor_iff cfg i).1 (h2 i ((mem_registered ns i).2 ⟨hi, hs⟩))
    · exact ((constructor_nil cfg j).1 (h3 _ ((mem_providers ns _).2 ⟨i, hi, hs, hd⟩) j hj rfl hj')).2
    · exact (methods_iff cfg set i (hsel i hi hs)).1 (h4 i ((mem_registered ns i).2 ⟨hi, hs⟩))
  · rintro ⟨h1, h2, h3, h4⟩
    refine ⟨(package_iff cfg).2 h1, fun i hi => ?_, fun d hd j hj he hj' => ?_, fun i hi => ?_⟩
    · obtain ⟨hi, hs⟩ := (mem_registered ns i).1 hi
      exact (constructor_iff cfg i).2 (h2 i hi hs)
    · obtain ⟨i, hi, hs, hd⟩ := (mem_providers ns d).1 hd
      subst he
      exact (constructor_nil cfg j).2 ⟨h2 i hi hs, h3 i hi hs j hj hd hj'⟩
    · obtain ⟨hi, hs⟩ := (mem_registered ns i).1 hi
      exact (methods_iff cfg set i (hsel i hi hs)).2 (h4 i hi hs)

/-- **C143** (refuted) A service with an operation that returns a stream and has code has a scaffold that does not implement
it, whatever the configuration. -/
theorem stream_refuted (cfg : Config) (set : Bool) (ns : Namespace) (i : Iface) (hi : i ∈ ns.ifaces) (hs : Service i)
    (op : Operation) (ho : Coded i op) (hr : op.streamOut = true) : ¬ Fits cfg set ns := by
  rintro ⟨_, _, _, h4⟩
  have h := h4 i ((mem_registered ns i).2 ⟨hi, hs⟩) _ (List.mem_map.2 ⟨op, (mem_coded i op).2 ho, rfl⟩)
  unfold implMethods at h
  split at h
  · obtain ⟨op', _, he⟩ := List.mem_map.1 h
    have := method_iff set op op' he.symm
    rw [hr] at this
    exact absurd this (by simp)
  · exact absurd h List.not_mem_nil

/-- **C143** (refuted) With a logger, no main program with a service compiles. -/
theorem logger_refuted (cfg : Config) (set : Bool) (ns : Namespace) (i : Iface) (hi : i ∈ ns.ifaces) (hs : Service i)
    (hl : cfg.logger = true) : ¬ Fits cfg set ns := by
  rintro ⟨_, h2, _, _⟩
  have := (constructor_iff cfg i).1 (h2 i ((mem_registered ns i).2 ⟨hi, hs⟩))
  rw [hl] at this
  exact absurd this (by simp)

/-- **C143** (refuted) Without a package in the configuration, scaffold and main program disagree about its name. -/
theorem package_refuted (cfg : Config) (set : Bool) (ns : Namespace) (h : cfg.package = none) : ¬ Fits cfg set ns := by
  rintro ⟨h1, _, _, _⟩
  obtain ⟨p, hp, _⟩ := (package_iff cfg).1 h1
  rw [h] at hp
  cases hp

/-! ## The imports of the scaffold -/

theorem mem_once (ps : List Pkg) (p : Pkg) : p ∈ once ps ↔ p ∈ ps := by
  induction ps with
  | nil => rfl
  | cons q ps ih =>
    simp only [once, List.mem_cons, List.mem_filter, ih, decide_eq_true_eq]
    constructor
    · rintro (h | ⟨h, _⟩)
      · exact .inl h
      · exact .inr h
    · rintro (h | h)
      · exact .inl h
      · by_cases he : p = q
        · exact .inl he
        · exact .inr ⟨h, he⟩

theorem nodup_once (ps : List Pkg) : (once ps).Nodup := by
  induction ps with
  | nil => exact List.nodup_nil
  | cons q ps ih =>
    refine List.nodup_cons.2 ⟨fun h => ?_, ih.filter _⟩
    simp at h

/-- The scaffold is written for the operation, or it is visited because others of its interface are. -/
def Seen (cfg : Config) (ns : Namespace) (op : Operation) : Prop :=
  ∃ i ∈ ns.ifaces, cfg.selects i = true ∧ ∃ o ∈ i.ops, o.op = op

/-- The scaffold is written for the operation. -/
def Written (cfg : Config) (ns : Namespace) (op : Operation) : Prop :=
  ∃ i ∈ ns.ifaces, cfg.selects i = true ∧ Coded i op

/-- A stream is a parameter or the result. -/
def Streams (op : Operation) : Prop := op.streamOut = true ∨ ∃ p ∈ op.params, p.stream = true

/-- A parameter or the result has a datetime in it. -/
def Times (op : Operation) : Prop :=
  Imports.Pkg.time ∈ typeRefs op.ret ∨ ∃ p ∈ op.params, Imports.Pkg.time ∈ typeRefs p.ty

theorem mem_opImports (op : Operation) (p : Pkg) : p ∈ opImports op ↔
    (p = .mono ∧ op.streamOut = false) ∨ (p = .flux ∧ Streams op) ∨ (p = .time ∧ Times op) := by
  unfold opImports typeImports Streams Times
  simp only [List.mem_append, List.mem_flatMap]
  cases op.streamOut <;> cases p <;> simp

theorem mem_visited (cfg : Config) (ns : Namespace) (p : Pkg) : p ∈ visited cfg ns ↔
    (p = .mono ∧ ((∃ f ∈ ns.funcs, f.op.streamOut = false) ∨ ∃ op, Seen cfg ns op ∧ op.streamOut = false)) ∨
    (p = .flux ∧ ∃ op, Seen cfg ns op ∧ Streams op) ∨ (p = .time ∧ ∃ op, Seen cfg ns op ∧ Times op) := by
  have h1 : (∃ f ∈ ns.funcs, p ∈ funcImports f.op) ↔ p = .mono ∧ ∃ f ∈ ns.funcs, f.op.streamOut = false := by
    unfold funcImports
    constructor
    · rintro ⟨f, hf, h⟩
      cases hs : f.op.streamOut <;> rw [hs] at h <;> simp at h
      exact ⟨h, f, hf, hs⟩
    · rintro ⟨rfl, f, hf, hs⟩
      exact ⟨f, hf, by simp [hs]⟩
  have h2 : (∃ i ∈ ns.ifaces.filter cfg.selects, ∃ o ∈ i.ops, p ∈ opImports o.op) ↔
      ∃ op, Seen cfg ns op ∧ p ∈ opImports op := by
    constructor
    · rintro ⟨i, hi, o, ho, h⟩
      obtain ⟨hi, hs⟩ := List.mem_filter.1 hi
      exact ⟨o.op, ⟨i, hi, hs, o, ho, rfl⟩, h⟩
    · rintro ⟨_, ⟨i, hi, hs, o, ho, rfl⟩, h⟩
      exact ⟨i, List.mem_filter.2 ⟨hi, hs⟩, o, ho, h⟩
  unfold visited
  simp only [List.mem_append, List.mem_flatMap]
  rw [h1, h2]
  constructor
  · rintro (⟨rfl, h⟩ | ⟨op, ho, h⟩)
    · exact .inl ⟨rfl, .inl h⟩
    · rcases (mem_opImports op p).1 h with ⟨e, h'⟩ | ⟨e, h'⟩ | ⟨e, h'⟩
      · exact .inl ⟨e, .inr ⟨op, ho, h'⟩⟩
      · exact .inr (.inl ⟨e, op, ho, h'⟩)
      · exact .inr (.inr ⟨e, op, ho, h'⟩)
  · rintro (⟨rfl, h | ⟨op, ho, h⟩⟩ | ⟨rfl, op, ho, h⟩ | ⟨rfl, op, ho, h⟩)
    · exact .inl ⟨rfl, h⟩
    · exact .inr ⟨op, ho, (mem_opImports op _).2 (.inl ⟨rfl, h⟩)⟩
    · exact .inr ⟨op, ho, (mem_opImports op _).2 (.inr (.inl ⟨rfl, h⟩))⟩
    · exact .inr ⟨op, ho, (mem_opImports op _).2 (.inr (.inr ⟨rfl, h⟩))⟩

theorem mem_methodRefs (set : Bool) (op : Operation) (p : Pkg) : p ∈ methodRefs set op ↔
    p = .context ∨ p = .errors ∨ p ∈ opImports op := by
  have hv : ∀ t, Pkg.mono ∉ valueRefs t ∧ Pkg.flux ∉ valueRefs t ∧ Pkg.context ∉ valueRefs t ∧ Pkg.errors ∉ valueRefs t ∧
      Pkg.logger ∉ valueRefs t ∧ (Pkg.time ∈ valueRefs t ↔ Imports.Pkg.time ∈ typeRefs t) := by
    intro t
    unfold valueRefs
    split <;> simp_all
  have hvoid : typeRefs .void = [] := rfl
  have hr : p ∈ resultRefs (scaffoldMethod set op).result ↔
      (p = .mono ∧ op.streamOut = false) ∨ (p = .flux ∧ op.streamOut = true) ∨
      (p = .time ∧ Imports.Pkg.time ∈ typeRefs op.ret) := by
    obtain ⟨v1, v2, v3, v4, v5, v6⟩ := hv op.ret
    unfold scaffoldMethod isVoid expand
    cases hs : op.streamOut with
    | true =>
      cases set <;> cases p <;> simp [resultRefs, v1, v2, v3, v4, v5, v6]
    | false =>
      by_cases hn : op.ret = .void
      · cases p <;> simp [resultRefs, hn, hvoid]
      · cases p <;> simp [resultRefs, hn, v1, v2, v3, v4, v5, v6]
  unfold methodRefs
  simp only [List.mem_append, List.mem_flatMap, hr, mem_opImports, Streams, Times]
  have hq : (∃ q ∈ op.params, p ∈ (if q.stream = true then [Pkg.flux] else []) ∨ p ∈ valueRefs q.ty) ↔
      (p = .flux ∧ ∃ q ∈ op.params, q.stream = true) ∨
      (p = .time ∧ ∃ q ∈ op.params, Imports.Pkg.time ∈ typeRefs q.ty) := by
    constructor
    · rintro ⟨q, hq, h | h⟩
      · cases hs : q.stream <;> rw [hs] at h <;> simp at h
        exact .inl ⟨h, q, hq, hs⟩
      · unfold valueRefs at h
        split at h
        · rename_i ht
          exact .inr ⟨by simpa using h, q, hq, ht⟩
        · exact absurd h List.not_mem_nil
    · rintro (⟨rfl, q, hq, hs⟩ | ⟨rfl, q, hq, ht⟩)
      · exact ⟨q, hq, .inl (by simp [hs])⟩
      · exact ⟨q, hq, .inr ((hv q.ty).2.2.2.2.2.2 ht)⟩
  rw [hq]
  cases p <;> simp
  · exact or_comm
  · exact or_comm

/-- **C143** (imports, part) The imports of the scaffold are right exactly if there is nothing to write it for, or: it is
written for an operation; a service has an operation with code; and operations without code, and functions, need no other
packages than the operations that it is written for. Missing: the rest, which nothing in the generator excludes. -/
theorem imports_partial (cfg : Config) (set : Bool) (ns : Namespace) :
    Accepted (scaffoldFile cfg set ns) ↔
      (∀ i ∈ ns.ifaces, cfg.selects i = false) ∨
      ((∃ op, Written cfg ns op) ∧
       (∃ i ∈ ns.ifaces, Service i ∧ ∃ op, Coded i op) ∧
       ((∃ f ∈ ns.funcs, f.op.streamOut = false) ∨ (∃ op, Seen cfg ns op ∧ op.streamOut = false) →
         ∃ op, Written cfg ns op ∧ op.streamOut = false) ∧
       ((∃ op, Seen cfg ns op ∧ Streams op) → ∃ op, Written cfg ns op ∧ Streams op) ∧
       ((∃ op, Seen cfg ns op ∧ Times op) → ∃ op, Written cfg ns op ∧ Times op)) := by
  have huses : ∀ p, p ∈ (scaffoldFile cfg set ns).uses ↔
      (p = .logger ∧ cfg.logger = true ∧ ∃ i ∈ ns.ifaces, cfg.selects i = true) ∨
      ∃ op, Written cfg ns op ∧ p ∈ methodRefs set op := by
    intro p
    unfold scaffoldFile typeDeclRefs
    simp only [List.mem_flatMap, List.mem_append, List.mem_filter]
    constructor
    · rintro ⟨i, ⟨hi, hs⟩, h | ⟨op, ho, h⟩⟩
      · cases hl : cfg.logger <;> rw [hl] at h <;> simp at h
        exact .inl ⟨h, rfl, i, hi, hs⟩
      · exact .inr ⟨op, ⟨i, hi, hs, (mem_coded i op).1 ho⟩, h⟩
    · rintro (⟨rfl, hl, i, hi, hs⟩ | ⟨op, ⟨i, hi, hs, ho⟩, h⟩)
      · exact ⟨i, ⟨hi, hs⟩, .inl (by simp [hl])⟩
      · exact ⟨i, ⟨hi, hs⟩, .inr ⟨op, (mem_coded i op).2 ho, h⟩⟩
  have hsc : hasServiceCode ns = true ↔ ∃ i ∈ ns.ifaces, Service i ∧ ∃ op, Coded i op := by
    simp only [hasServiceCode, List.any_eq_true, Bool.and_eq_true, Iface.service, Service, Coded,
      List.contains_iff_mem, Bool.not_eq_true']
    constructor
    · rintro ⟨i, hi, hs, o, ho, hn⟩
      exact ⟨i, hi, hs, o.op, o, ho, hn, rfl⟩
    · rintro ⟨i, hi, hs, op, o, ho, hn, _⟩
      exact ⟨i, hi, hs, o, ho, hn⟩
  have hseen : ∀ op, Written cfg ns op → Seen cfg ns op := by
    rintro op ⟨i, hi, hs, o, ho, _, he⟩
    exact ⟨i, hi, hs, o, ho, he⟩
  by_cases hi : hasInterfaces cfg ns = true
  · obtain ⟨i0, hi0, hs0⟩ := List.any_eq_true.1 hi
    have himp : ∀ p, p ∈ (scaffoldFile cfg set ns).imports ↔
        (p = .context ∧ hasServiceCode ns = true) ∨ p = .errors ∨ p ∈ visited cfg ns ∨ (p = .logger ∧ cfg.logger = true) := by
      intro p
      unfold scaffoldFile imports
      rw [if_pos hi]
      simp only [List.mem_append, mem_once, List.mem_singleton]
      cases hasServiceCode ns <;> cases cfg.logger <;> simp [or_assoc]
    have hnodup : (scaffoldFile cfg set ns).imports.Nodup := by
      have hv : ∀ p ∈ once (visited cfg ns), p = .mono ∨ p = .flux ∨ p = .time := by
        intro p hp
        rcases (mem_visited cfg ns p).1 ((mem_once _ _).1 hp) with h | h | h
        · exact .inl h.1
        · exact .inr (.inl h.1)
        · exact .inr (.inr h.1)
      unfold scaffoldFile imports
      rw [if_pos hi]
      refine List.nodup_append.2 ⟨List.nodup_append.2 ⟨by cases hasServiceCode ns <;> simp, nodup_once _, ?_⟩,
        by cases cfg.logger <;> simp, ?_⟩
      · intro a ha b hb hab
        subst hab
        rcases hv _ hb with rfl | rfl | rfl <;> cases hasServiceCode ns <;> simp at ha
      · intro a ha b hb hab
        subst hab
        cases hl : cfg.logger <;> rw [hl] at hb <;> simp at hb
        subst hb
        rcases List.mem_append.1 ha with ha | ha
        · cases hasServiceCode ns <;> simp at ha
        · rcases hv _ ha with h | h | h <;> cases h
    rw [show (∀ i ∈ ns.ifaces, cfg.selects i = false) ↔ False from
      ⟨fun h => by rw [h i0 hi0] at hs0; exact absurd hs0 (by simp), False.elim⟩, false_or]
    unfold Accepted
    simp only [hnodup, true_and, himp, huses, mem_methodRefs, mem_visited, mem_opImports]
    constructor
    · rintro ⟨h1, h2⟩
      have hw : ∃ op, Written cfg ns op := by
        rcases h2 .errors (by simp) with h | ⟨op, ho, _⟩
        · exact absurd h.1 (by simp)
        · exact ⟨op, ho⟩
      refine ⟨hw, ?_, fun h => ?_, fun h => ?_, fun h => ?_⟩
      · obtain ⟨op, ho⟩ := hw
        have := h1 .context (.inr ⟨op, ho, .inl rfl⟩)
        simp only [reduceCtorEq, true_and, false_and, or_false] at this
        exact hsc.1 this
      · rcases h2 .mono (.inr (.inr (.inl (.inl ⟨rfl, h⟩)))) with h | ⟨op, ho, h⟩
        · exact absurd h.1 (by simp)
        · simp only [reduceCtorEq, true_and, false_and, or_false, false_or] at h
          exact ⟨op, ho, h⟩
      · rcases h2 .flux (.inr (.inr (.inl (.inr (.inl ⟨rfl, h⟩))))) with h | ⟨op, ho, h⟩
        · exact absurd h.1 (by simp)
        · simp only [reduceCtorEq, true_and, false_and, or_false, false_or] at h
          exact ⟨op, ho, h⟩
      · rcases h2 .time (.inr (.inr (.inl (.inr (.inr ⟨rfl, h⟩))))) with h | ⟨op, ho, h⟩
        · exact absurd h.1 (by simp)
        · simp only [reduceCtorEq, true_and, false_and, or_false, false_or] at h
          exact ⟨op, ho, h⟩
    · rintro ⟨⟨op0, ho0⟩, hc, hm, hf, ht⟩
      refine ⟨fun p hp => ?_, fun p hp => ?_⟩
      · rcases hp with ⟨rfl, hl, _⟩ | ⟨op, ho, rfl | rfl | ⟨rfl, h⟩ | ⟨rfl, h⟩ | ⟨rfl, h⟩⟩
        · exact .inr (.inr (.inr ⟨rfl, hl⟩))
        · exact .inl ⟨rfl, hsc.2 hc⟩
        · exact .inr (.inl rfl)
        · exact .inr (.inr (.inl (.inl ⟨rfl, .inr ⟨op, hseen op ho, h⟩⟩)))
        · exact .inr (.inr (.inl (.inr (.inl ⟨rfl, op, hseen op ho, h⟩))))
        · exact .inr (.inr (.inl (.inr (.inr ⟨rfl, op, hseen op ho, h⟩))))
      · rcases hp with ⟨rfl, _⟩ | rfl | (⟨rfl, h⟩ | ⟨rfl, h⟩ | ⟨rfl, h⟩) | ⟨rfl, hl⟩
        · exact .inr ⟨op0, ho0, .inl rfl⟩
        · exact .inr ⟨op0, ho0, .inr (.inl rfl)⟩
        · obtain ⟨op, ho, h⟩ := hm h
          exact .inr ⟨op, ho, .inr (.inr (.inl ⟨rfl, h⟩))⟩
        · obtain ⟨op, ho, h⟩ := hf h
          exact .inr ⟨op, ho, .inr (.inr (.inr (.inl ⟨rfl, h⟩)))⟩
        · obtain ⟨op, ho, h⟩ := ht h
          exact .inr ⟨op, ho, .inr (.inr (.inr (.inr ⟨rfl, h⟩)))⟩
        · exact .inl ⟨rfl, hl, i0, hi0, hs0⟩
  · have hnone : ∀ i ∈ ns.ifaces, cfg.selects i = false := by
      intro i hm
      cases hs : cfg.selects i with
      | false => rfl
      | true => exact absurd (List.any_eq_true.2 ⟨i, hm, hs⟩) hi
    refine ⟨fun _ => .inl hnone, fun _ => ?_⟩
    have e1 : (scaffoldFile cfg set ns).imports = [] := by
      unfold scaffoldFile imports
      rw [if_neg hi]
    refine ⟨by rw [e1]; exact List.nodup_nil, fun p hp => ?_, fun p hp => ?_⟩
    · rcases (huses p).1 hp with ⟨_, _, i, hm, hs⟩ | ⟨op, ⟨i, hm, hs, _⟩, _⟩ <;>
      · rw [hnone i hm] at hs
        exact absurd hs (by simp)
    · rw [e1] at hp
      exact absurd hp List.not_mem_nil

/-- **C143** (imports, refuted) A service none of whose operations has code has a scaffold that does not compile: `errors`
is imported for nothing. -/
theorem no_code_refuted (cfg : Config) (set : Bool) (ns : Namespace) (i : Iface) (hi : i ∈ ns.ifaces)
    (hs : cfg.selects i = true) (h : ∀ op, ¬ Written cfg ns op) : ¬ Accepted (scaffoldFile cfg set ns) := by
  rw [imports_partial]
  rintro (h' | ⟨⟨op, ho⟩, _⟩)
  · rw [h' i hi] at hs
    exact absurd hs (by simp)
  · exact h op ho

/-- **C143** (imports, refuted) A function whose result is no stream, in a namespace whose services return only streams:
`mono` is imported for nothing. -/
theorem function_refuted (cfg : Config) (set : Bool) (ns : Namespace) (i : Iface) (hi : i ∈ ns.ifaces)
    (hs : cfg.selects i = true) (f : Op) (hf : f ∈ ns.funcs) (hr : f.op.streamOut = false)
    (h : ∀ op, Written cfg ns op → op.streamOut = true) : ¬ Accepted (scaffoldFile cfg set ns) := by
  rw [imports_partial]
  rintro (h' | ⟨_, _, h', _⟩)
  · rw [h' i hi] at hs
    exact absurd hs (by simp)
  · obtain ⟨op, ho, hr'⟩ := h' (.inl ⟨f, hf, hr⟩)
    rw [h op ho] at hr'
    exact absurd hr' (by simp)

/-! ## Examples -/

def str (n : String) : Param := ⟨[], n, false, .prim .str⟩

def shorten : Operation := ⟨"shorten", false, [str "url"], false, .obj 0⟩
def lookup : Operation := ⟨"lookup", false, [str "id"], false, .obj 0⟩
def all : Operation := ⟨"all", false, [], true, .obj 0⟩

def service (ops : List Op) : Iface := ⟨"Shortener", ["service"], ["Repository"], ops⟩
def repository : Iface := ⟨"Repository", ["provider"], [], [⟨lookup, false⟩]⟩

/-- As in `/repo/codegen/testdata/tinygo`. -/
def plain : Config := ⟨["service"], [], false, some "urlshortener"⟩

/-- `/repo/codegen/testdata/tinygo/apex.axdl`: the scaffold fits, and imports what it uses. -/
example (set : Bool) : Fits plain set ⟨[service [⟨shorten, false⟩, ⟨lookup, true⟩], repository], []⟩ ∧
    Accepted (scaffoldFile plain set ⟨[service [⟨shorten, false⟩, ⟨lookup, true⟩], repository], []⟩) := by
  constructor
  · rw [fits_partial _ _ _ (by simp [Service, service, repository, Config.selects, plain])]
    simp [Service, service, repository, Config.selects, plain, Coded, shorten]
  · rw [imports_partial]
    refine .inr ⟨⟨shorten, ?_⟩, ?_, fun _ => ⟨shorten, ?_, rfl⟩, ?_, ?_⟩ <;>
    simp [Service, service, repository, Config.selects, plain, Coded, Written, Seen, Streams, Times, shorten, lookup, str,
      typeRefs, tyRefs]

/-- The same with a stream of all. -/
example (set : Bool) : ¬ Fits plain set ⟨[service [⟨shorten, false⟩, ⟨all, false⟩], repository], []⟩ :=
  stream_refuted _ _ _ (service [⟨shorten, false⟩, ⟨all, false⟩]) (by simp) (by simp [Service, service]) all
    ⟨⟨all, false⟩, by simp [service], rfl, rfl⟩ rfl

/-- Only streams, beside a function. -/
example (set : Bool) : ¬ Accepted (scaffoldFile plain set ⟨[service [⟨all, false⟩]], [⟨shorten, false⟩]⟩) :=
  function_refuted _ _ _ (service [⟨all, false⟩]) (by simp) (by simp [service, Config.selects, plain])
    ⟨shorten, false⟩ (by simp) rfl (by
      rintro op ⟨i, hi, _, o, ho, _, rfl⟩
      simp at hi
      subst hi
      simp [service] at ho
      subst ho
      rfl)

/-- No code. -/
example (set : Bool) : ¬ Accepted (scaffoldFile plain set ⟨[service [⟨lookup, true⟩]], []⟩) :=
  no_code_refuted _ _ _ (service [⟨lookup, true⟩]) (by simp) (by simp [service, Config.selects, plain]) (by
    rintro op ⟨i, hi, _, o, ho, hn, _⟩
    simp at hi
    subst hi
    simp [service] at ho
    subst ho
    exact absurd hn (by simp))

end Iota.Props.Scaffold
