import Verif.Model.Imports

/-!
# C137: generated Go files import the packages they use, and no others
-/

namespace Iota.Props.Imports
open Iota.Codegen Iota.Calls Iota.Imports Iota.Spec.GoFile

/-! ## Sets of imports -/

theorem mem_add (s : List Pkg) (p q : Pkg) : q ∈ add s p ↔ q ∈ s ∨ q = p := by
  unfold add
  split
  next h => constructor
            · exact Or.inl
            · rintro (h' | rfl)
              · exact h'
              · exact h
  next => simp

theorem nodup_add {s : List Pkg} (h : s.Nodup) (p : Pkg) : (add s p).Nodup := by
  unfold add
  split
  next => exact h
  next hp => exact List.nodup_append.2 ⟨h, by simp, by
      intro a ha b hb; rw [List.mem_singleton.1 hb]; intro he; exact hp (he ▸ ha)⟩

theorem mem_addAll (ps : List Pkg) : ∀ (s : List Pkg) (q : Pkg), q ∈ addAll s ps ↔ q ∈ s ∨ q ∈ ps := by
  induction ps with
  | nil => intro s q; simp [addAll]
  | cons p ps ih =>
    intro s q
    show q ∈ addAll (add s p) ps ↔ _
    rw [ih, mem_add, List.mem_cons, or_assoc]

theorem nodup_addAll (ps : List Pkg) : ∀ {s : List Pkg}, s.Nodup → (addAll s ps).Nodup := by
  induction ps with
  | nil => intro s h; exact h
  | cons p ps ih => intro s h; exact ih (nodup_add h p)

/-! ## Wrappers -/

/-- The parameter is read with the decoder of `msgpack`: of the types with code, all but enumerations, aliases
and types of their own. -/
def Plain : T → Prop
  | .prim _ | .list _ | .map _ _ => True
  | _ => False

/-- A unary operation with such a parameter. -/
def Reads (op : Operation) : Prop := op.unary = true ∧ ∃ p, op.args.head? = some p ∧ Plain p.ty

theorem result_refs {op : Operation} (h1 : (serverResult op).1 = declared op)
    (h2 : accepts (serverResult op).2 op.ret = true) :
    (∀ p ∈ serverResultRefs op, p = Rx.pkg (package op) ∨ p = .transform ∨ p = .payload) ∧
    .transform ∈ serverResultRefs op ∧ Rx.pkg (package op) ∈ serverResultRefs op := by
  have hd : declared op = package op := rfl
  rw [hd] at h1
  unfold serverResult at h1 h2
  unfold serverResultRefs
  cases hr : op.ret with
  | void =>
    rw [hr] at h1 h2; dsimp only at h1 h2 ⊢
    rw [← h1]; simp [Rx.pkg]
  | prim q => simp
  | enum => simp
  | alias q => simp
  | aliasObj n => dsimp only; simp
  | obj n =>
    rw [hr] at h1 h2; dsimp only at h1 h2 ⊢
    cases hs : op.streamOut with
    | true => rw [hs] at h2; simp [accepts] at h2
    | false => simp
  | list t =>
    rw [hr] at h1 h2; dsimp only at h1 h2 ⊢
    rw [← h1]
    cases t <;> simp_all [accepts, tyRefs, Rx.pkg]
  | map k t => rw [hr] at h1 h2; simp [accepts] at h2
  | opt t => rw [hr] at h1 h2; simp [accepts] at h2

theorem in_refs {t : T} (h : accepts (serverIn t) t = true) :
    ∀ p ∈ serverInRefs t, p = .flux ∨ p = .transform ∨ p = .payload := by
  cases t <;> simp_all [serverIn, serverInRefs, accepts, typeRefs]

theorem arg_refs (op : Operation) (h : op.unary = true → (op.args.head?.all fun p => accepts (serverArg p.ty) p.ty) = true) :
    (∀ p ∈ serverArgRefs op, p = Rx.pkg (package op) ∨ p = .transform ∨ p = .payload ∨ (p = .msgpack ∧ Reads op)) ∧
    (Reads op → .msgpack ∈ serverArgRefs op) := by
  unfold serverArgRefs Reads
  cases hu : op.unary with
  | false => cases ha : op.args <;> simp
  | true =>
    have h := h hu
    cases ha : op.args with
    | nil => simp
    | cons q l =>
      rw [ha] at h
      simp only [List.head?_cons, Option.all_some] at h
      dsimp only
      cases ht : q.ty <;> rw [ht] at h <;> simp_all [serverUnaryRefs, Plain, accepts, serverArg] <;>
        (try rintro p (rfl | rfl | rfl) <;> simp)

theorem mem_wrapper {op : Operation} (h : serverCompiles op = true) (p : Pkg) :
    p ∈ wrapperRefs op ↔
      p = .invoke ∨ p = .context ∨ p = .payload ∨ p = .transform ∨ p = Rx.pkg (package op) ∨ (p = .msgpack ∧ Reads op) := by
  unfold serverCompiles at h
  simp only [Bool.and_eq_true, beq_iff_eq] at h
  obtain ⟨⟨⟨⟨⟨_, _⟩, _⟩, h4⟩, h5⟩, ⟨h6, h7⟩, h8⟩ := h
  have hr := result_refs h6 h8
  have ha := arg_refs op (by intro hu; rw [if_pos hu] at h4; exact h4)
  have hw : wrapped op = package op := h7.symm.trans h6
  have hin : ∀ q ∈ (match op.streamIn with | some t => serverInRefs t | none => []),
      q = Rx.pkg (package op) ∨ q = .transform ∨ q = .payload := by
    cases hs : op.streamIn with
    | none => intro q hq; exact absurd hq List.not_mem_nil
    | some t =>
      rw [hs] at h5
      have hf : package op = .flux := by rw [← hw]; unfold wrapped; rw [hs]; rfl
      rw [hf]
      exact in_refs h5
  have hfl : op.streamIn.isSome = true → package op = .flux := by
    intro hs; rw [← hw]; unfold wrapped; rw [hs]; rfl
  unfold wrapperRefs
  rw [hw]
  simp only [List.mem_append, List.mem_cons, List.not_mem_nil, or_false]
  constructor
  · rintro ((((((h | h | h) | h) | h | h) | h) | h) | h)
    · exact .inl h
    · exact .inr (.inl h)
    · exact .inr (.inr (.inl h))
    · split at h
      next hs =>
        simp only [List.mem_cons, List.not_mem_nil, or_false] at h
        rcases h with h | h
        · exact .inr (.inr (.inr (.inr (.inl (by rw [hfl hs]; exact h)))))
        · exact .inr (.inr (.inl h))
      next => exact absurd h List.not_mem_nil
    · exact .inr (.inr (.inr (.inr (.inl h))))
    · exact .inr (.inr (.inl h))
    · rcases ha.1 p h with h | h | h | h
      · exact .inr (.inr (.inr (.inr (.inl h))))
      · exact .inr (.inr (.inr (.inl h)))
      · exact .inr (.inr (.inl h))
      · exact .inr (.inr (.inr (.inr (.inr h))))
    · rcases hin p h with h | h | h
      · exact .inr (.inr (.inr (.inr (.inl h))))
      · exact .inr (.inr (.inr (.inl h)))
      · exact .inr (.inr (.inl h))
    · rcases hr.1 p h with h | h | h
      · exact .inr (.inr (.inr (.inr (.inl h))))
      · exact .inr (.inr (.inr (.inl h)))
      · exact .inr (.inr (.inl h))
  · rintro (h | h | h | h | h | h)
    · simp [h]
    · simp [h]
    · simp [h]
    · right; rw [h]; exact hr.2.1
    · simp [h]
    · left; left; right; rw [h.1]; exact ha.2 h.2

/-- The operations and functions whose results are looked at for imports: all functions, and all operations of
handlers. -/
def Visited (ns : Namespace) (op : Operation) : Prop :=
  (∃ f ∈ ns.funcs, f.fn.op = op) ∨ (∃ i ∈ ns.ifaces, i.handler = true ∧ ∃ o ∈ i.ops, o.op = op)

/-- Of these, the unary ones with a stream among their parameters, which are looked at as well if they belong to
a handler. -/
def UnaryStream (ns : Namespace) (op : Operation) : Prop :=
  ((∃ f ∈ ns.funcs, f.handler = true ∧ f.fn.op = op) ∨ (∃ i ∈ ns.ifaces, i.handler = true ∧ ∃ o ∈ i.ops, o.op = op)) ∧
  op.unary = true ∧ ∃ p ∈ op.params, p.stream = true

theorem mem_result (op : Operation) (p : Pkg) :
    p ∈ resultImports op ↔ p = Rx.pkg (package op) := by
  unfold resultImports package
  cases op.streamOut <;> simp [Rx.pkg]

theorem mem_param (op : Operation) (p : Pkg) :
    p ∈ serverParamImports op ↔ p = .flux ∧ op.unary = true ∧ ∃ q ∈ op.params, q.stream = true := by
  unfold serverParamImports
  cases op.unary with
  | false => simp
  | true =>
    simp only [if_true, List.mem_flatMap, true_and]
    constructor
    · rintro ⟨q, hq, h⟩
      cases hs : q.stream with
      | false => rw [hs] at h; simp at h
      | true => rw [hs] at h; simp at h; exact ⟨h, q, hq, hs⟩
    · rintro ⟨rfl, q, hq, hs⟩
      exact ⟨q, hq, by rw [hs]; simp⟩

theorem mem_serverImports (ns : Namespace) (p : Pkg) :
    p ∈ serverImports ns ↔
      (∃ op, Visited ns op ∧ p = Rx.pkg (package op)) ∨ (p = .flux ∧ ∃ op, UnaryStream ns op) := by
  unfold serverImports Visited UnaryStream
  simp only [List.mem_append, List.mem_flatMap, mem_result]
  constructor
  · rintro (⟨f, hf, h | h⟩ | ⟨i, hi, h⟩)
    · exact .inl ⟨_, .inl ⟨f, hf, rfl⟩, h⟩
    · cases hh : f.handler with
      | false => rw [hh] at h; simp at h
      | true =>
        rw [hh, if_pos rfl, mem_param] at h
        exact .inr ⟨h.1, f.fn.op, .inl ⟨f, hf, hh, rfl⟩, h.2⟩
    · cases hh : i.handler with
      | false => rw [hh] at h; simp at h
      | true =>
        rw [hh, if_pos rfl] at h
        simp only [List.mem_flatMap, List.mem_append, mem_result, mem_param] at h
        obtain ⟨o, ho, h | h⟩ := h
        · exact .inl ⟨_, .inr ⟨i, hi, hh, o, ho, rfl⟩, h⟩
        · exact .inr ⟨h.1, o.op, .inr ⟨i, hi, hh, o, ho, rfl⟩, h.2⟩
  · rintro (⟨_, ⟨f, hf, rfl⟩ | ⟨i, hi, hh, o, ho, rfl⟩, h⟩ | ⟨rfl, _, ⟨f, hf, hh, rfl⟩ | ⟨i, hi, hh, o, ho, rfl⟩, h⟩)
    · exact .inl ⟨f, hf, .inl h⟩
    · refine .inr ⟨i, hi, ?_⟩
      rw [if_pos hh]
      simp only [List.mem_flatMap, List.mem_append, mem_result]
      exact ⟨o, ho, .inl h⟩
    · refine .inl ⟨f, hf, .inr ?_⟩
      rw [if_pos hh, mem_param]
      exact ⟨rfl, h⟩
    · refine .inr ⟨i, hi, ?_⟩
      rw [if_pos hh]
      simp only [List.mem_flatMap, List.mem_append, mem_param]
      exact ⟨o, ho, .inr ⟨trivial, h⟩⟩

theorem mem_serverUses {ns : Namespace} (h : ∀ op ∈ exported ns, serverCompiles op = true) (p : Pkg) :
    p ∈ (serverFile ns).uses ↔ ∃ op ∈ exported ns,
      p = .invoke ∨ p = .context ∨ p = .payload ∨ p = .transform ∨ p = Rx.pkg (package op) ∨ (p = .msgpack ∧ Reads op) := by
  simp only [serverFile, List.mem_append, List.mem_flatMap, List.mem_cons, List.not_mem_nil, or_false]
  constructor
  · rintro (⟨op, ho, h'⟩ | ⟨op, ho, h'⟩)
    · exact ⟨op, ho, .inl h'⟩
    · exact ⟨op, ho, (mem_wrapper (h op ho) p).1 h'⟩
  · rintro ⟨op, ho, h'⟩
    exact .inr ⟨op, ho, (mem_wrapper (h op ho) p).2 h'⟩

theorem mem_exported {ns : Namespace} {op : Operation} (h : op ∈ exported ns) : Visited ns op := by
  unfold exported at h
  simp only [List.mem_append, List.mem_map, List.mem_filter, List.mem_flatMap] at h
  rcases h with ⟨f, ⟨hf, _⟩, rfl⟩ | ⟨i, hi, h⟩
  · exact .inl ⟨f, hf, rfl⟩
  · unfold Iface.exported at h
    split at h
    next hh =>
      simp only [List.mem_map, List.mem_filter] at h
      obtain ⟨o, ⟨ho, _⟩, rfl⟩ := h
      exact .inr ⟨i, hi, hh, o, ho, rfl⟩
    next => exact absurd h List.not_mem_nil

theorem pkg_cases (op : Operation) : Rx.pkg (package op) = .mono ∨ Rx.pkg (package op) = .flux := by
  cases package op
  · exact .inl rfl
  · exact .inr rfl

theorem nodup_serverImports (ns : Namespace) : (serverFile ns).imports.Nodup := by
  have hset : ∀ p ∈ addAll [] (serverImports ns), p = .mono ∨ p = .flux := by
    intro p hp
    rcases (mem_addAll _ _ _).1 hp with hp | hp
    · exact absurd hp List.not_mem_nil
    · rcases (mem_serverImports ns p).1 hp with ⟨op, _, rfl⟩ | ⟨rfl, _⟩
      · exact pkg_cases op
      · exact .inr rfl
  have hn := nodup_addAll (serverImports ns) (s := []) List.nodup_nil
  show ([Pkg.context, .invoke, .payload] ++ addAll [] (serverImports ns) ++ [Pkg.transform]).Nodup
  refine List.nodup_append.2 ⟨List.nodup_append.2 ⟨by simp, hn, ?_⟩, by simp, ?_⟩
  · intro a ha b hb hab
    rcases hset b hb with rfl | rfl <;> simp [hab] at ha
  · intro a ha b hb hab
    rw [List.mem_singleton] at hb
    subst hab; subst hb
    rcases List.mem_append.1 ha with ha | ha
    · simp at ha
    · rcases hset _ ha with h | h <;> exact absurd h (fun h => nomatch h)

/-- The operations and functions that get a wrapper: functions that are no providers, and the operations of
handlers that are not marked as without code. -/
def HasWrapper (ns : Namespace) (op : Operation) : Prop :=
  (∃ f ∈ ns.funcs, f.provider = false ∧ f.fn.op = op) ∨
  (∃ i ∈ ns.ifaces, i.handler = true ∧ ∃ o ∈ i.ops, o.noCode = false ∧ o.op = op)

theorem mem_exported_iff (ns : Namespace) (op : Operation) : op ∈ exported ns ↔ HasWrapper ns op := by
  unfold exported HasWrapper
  simp only [List.mem_append, List.mem_map, List.mem_filter, List.mem_flatMap, Bool.not_eq_true']
  refine or_congr ⟨?_, ?_⟩ ⟨?_, ?_⟩
  · rintro ⟨f, ⟨hf, hp⟩, rfl⟩; exact ⟨f, hf, hp, rfl⟩
  · rintro ⟨f, hf, hp, rfl⟩; exact ⟨f, ⟨hf, hp⟩, rfl⟩
  · rintro ⟨i, hi, h⟩
    unfold Iface.exported at h
    split at h
    next hh =>
      simp only [List.mem_map, List.mem_filter, Bool.not_eq_true'] at h
      obtain ⟨o, ⟨ho, hn⟩, rfl⟩ := h
      exact ⟨i, hi, hh, o, ho, hn, rfl⟩
    next => exact absurd h List.not_mem_nil
  · rintro ⟨i, hi, hh, o, ho, hn, rfl⟩
    refine ⟨i, hi, ?_⟩
    unfold Iface.exported
    rw [if_pos hh]
    simp only [List.mem_map, List.mem_filter, Bool.not_eq_true']
    exact ⟨o, ⟨ho, hn⟩, rfl⟩

theorem server_file_exported (ns : Namespace) (h : ∀ op ∈ exported ns, serverCompiles op = true) :
    Accepted (serverFile ns) ↔
      exported ns ≠ [] ∧ (∀ op ∈ exported ns, ¬ Reads op) ∧
      (∀ op, Visited ns op → ∃ op' ∈ exported ns, op'.streamOut = op.streamOut) ∧
      (∀ op, UnaryStream ns op → ∃ op' ∈ exported ns, op'.streamOut = true) := by
  have hu := mem_serverUses h
  have hi : ∀ p, p ∈ (serverFile ns).imports ↔
      p = .context ∨ p = .invoke ∨ p = .payload ∨ p = .transform ∨
      (∃ op, Visited ns op ∧ p = Rx.pkg (package op)) ∨ (p = .flux ∧ ∃ op, UnaryStream ns op) := by
    intro p
    rw [← mem_serverImports]
    simp only [serverFile, List.mem_append, mem_addAll, List.mem_cons, List.not_mem_nil, or_false, false_or]
    constructor
    · rintro ((( h | h | h) | h) | h) <;> simp [h]
    · rintro (h | h | h | h | h) <;> simp [h]
  have hpk : ∀ a b : Operation, Rx.pkg (package a) = Rx.pkg (package b) → a.streamOut = b.streamOut := by
    intro a b he
    unfold package at he
    cases ha : a.streamOut <;> cases hb : b.streamOut <;> simp [ha, hb, Rx.pkg] at he ⊢
  have hfl : ∀ a : Operation, Pkg.flux = Rx.pkg (package a) → a.streamOut = true := by
    intro a he
    unfold package at he
    cases ha : a.streamOut
    · simp [ha, Rx.pkg] at he
    · rfl
  have hpk' : ∀ a b : Operation, a.streamOut = b.streamOut → Rx.pkg (package a) = Rx.pkg (package b) := by
    intro a b he; unfold package; rw [he]
  constructor
  · rintro ⟨_, h1, h2⟩
    refine ⟨?_, ?_, ?_, ?_⟩
    · intro he
      obtain ⟨op, ho, _⟩ := (hu _).1 (h2 .context ((hi _).2 (.inl rfl)))
      rw [he] at ho
      exact absurd ho List.not_mem_nil
    · intro op ho hr
      have := (hi _).1 (h1 .msgpack ((hu _).2 ⟨op, ho, by simp [hr]⟩))
      rcases this with h | h | h | h | ⟨op', _, h⟩ | ⟨h, _⟩
      · cases h
      · cases h
      · cases h
      · cases h
      · rcases pkg_cases op' with h' | h' <;> rw [h'] at h <;> cases h
      · cases h
    · intro op hv
      obtain ⟨op', ho', h'⟩ := (hu _).1 (h2 (Rx.pkg (package op)) ((hi _).2 (.inr (.inr (.inr (.inr (.inl ⟨op, hv, rfl⟩)))))))
      refine ⟨op', ho', ?_⟩
      rcases pkg_cases op with hp | hp <;> rw [hp] at h' <;> simp at h' <;> exact (hpk _ _ (hp.trans h')).symm
    · intro op hv
      obtain ⟨op', ho', h'⟩ := (hu _).1 (h2 .flux ((hi _).2 (.inr (.inr (.inr (.inr (.inr ⟨rfl, op, hv⟩)))))))
      refine ⟨op', ho', hfl _ ?_⟩
      simpa using h'
  · rintro ⟨h0, h1, h2, h3⟩
    obtain ⟨o, ho⟩ := List.exists_mem_of_ne_nil _ h0
    refine ⟨nodup_serverImports ns, ?_, ?_⟩
    · intro p hp
      obtain ⟨op, hop, hp⟩ := (hu p).1 hp
      rw [hi]
      rcases hp with h | h | h | h | h | h
      · simp [h]
      · simp [h]
      · simp [h]
      · simp [h]
      · exact .inr (.inr (.inr (.inr (.inl ⟨op, mem_exported hop, h⟩))))
      · exact absurd h.2 (h1 op hop)
    · intro p hp
      rw [hu]
      rcases (hi p).1 hp with h | h | h | h | ⟨op, hv, h⟩ | ⟨h, op, hv⟩
      · exact ⟨o, ho, by simp [h]⟩
      · exact ⟨o, ho, by simp [h]⟩
      · exact ⟨o, ho, by simp [h]⟩
      · exact ⟨o, ho, by simp [h]⟩
      · obtain ⟨op', ho', he⟩ := h2 op hv
        exact ⟨op', ho', by simp [h, hpk' _ _ he]⟩
      · obtain ⟨op', ho', he⟩ := h3 op hv
        exact ⟨op', ho', by simp [h, package, he, Rx.pkg]⟩

/-- **C137 (server).** If each wrapper by itself compiles, then the imports of their file are right exactly if
there is a wrapper, no wrapper reads a unary parameter with `msgpack`, and what is looked at for imports but
gets no wrapper needs no other packages than the wrappers. -/
theorem server_file_imports_partial (ns : Namespace) (h : ∀ op, HasWrapper ns op → serverCompiles op = true) :
    Accepted (serverFile ns) ↔
      (∃ op, HasWrapper ns op) ∧ (∀ op, HasWrapper ns op → ¬ Reads op) ∧
      (∀ op, Visited ns op → ∃ op', HasWrapper ns op' ∧ op'.streamOut = op.streamOut) ∧
      (∀ op, UnaryStream ns op → ∃ op', HasWrapper ns op' ∧ op'.streamOut = true) := by
  have hne : exported ns ≠ [] ↔ ∃ op, op ∈ exported ns :=
    ⟨List.exists_mem_of_ne_nil _, fun ⟨_, ho⟩ he => absurd (he ▸ ho) List.not_mem_nil⟩
  rw [server_file_exported ns fun op ho => h op ((mem_exported_iff ns op).1 ho), hne]
  simp only [mem_exported_iff]

/-! ## Importing functions -/

theorem tyRefs_time (t : Ty) : ∀ p ∈ tyRefs t, p = .time := by
  induction t with
  | prim q => cases q <;> simp [tyRefs]
  | cast q => simp [tyRefs]
  | named n => simp [tyRefs]
  | opt t ih => exact ih
  | list t ih => exact ih
  | map k t ih =>
    intro p hp
    rcases List.mem_append.1 hp with hp | hp
    · split at hp <;> simp at hp; exact hp
    · exact ih p hp

theorem typeRefs_time (t : T) : ∀ p ∈ typeRefs t, p = .time := by
  cases t with
  | prim q => exact tyRefs_time _
  | list t => exact tyRefs_time t
  | map k t => exact tyRefs_time (.map k t)
  | opt t => exact tyRefs_time t
  | _ => intro p hp; exact absurd hp List.not_mem_nil

/-- A datetime is a part of the type; if `through`, aliases are looked through. -/
inductive Has (through : Bool) : Ty → Prop
  | prim : Has through (.prim .time)
  | cast : through = true → Has through (.cast .time)
  | opt {t : Ty} : Has through t → Has through (.opt t)
  | list {t : Ty} : Has through t → Has through (.list t)
  | key {t : Ty} : Has through (.map .time t)
  | value {k : Prim} {t : Ty} : Has through t → Has through (.map k t)

/-- The same for the type of a parameter or result; nothing, enumerations and types of their own have none. -/
def HasTime (through : Bool) : T → Prop
  | .prim p => Has through (.prim p)
  | .alias p => Has through (.cast p)
  | .list t => Has through (.list t)
  | .map k t => Has through (.map k t)
  | .opt t => Has through (.opt t)
  | _ => False

theorem tyRefs_iff (t : Ty) : Pkg.time ∈ tyRefs t ↔ Has false t := by
  induction t with
  | prim q =>
    cases q <;> simp [tyRefs] <;> first | exact .prim | (intro h; cases h)
  | cast q => simp [tyRefs]; intro h; cases h with | cast h => exact absurd h (by simp)
  | named n => simp [tyRefs]; intro h; cases h
  | opt t ih => exact ih.trans ⟨.opt, fun h => by cases h with | opt h => exact h⟩
  | list t ih => exact ih.trans ⟨.list, fun h => by cases h with | list h => exact h⟩
  | map k t ih =>
    show Pkg.time ∈ (if k = .time then [Pkg.time] else []) ++ tyRefs t ↔ _
    rw [List.mem_append, ih]
    constructor
    · rintro (h | h)
      · split at h
        next hk => rw [hk]; exact .key
        next => exact absurd h List.not_mem_nil
      · exact .value h
    · intro h
      cases h with
      | key => left; simp
      | value h => exact .inr h

theorem tyTime_iff (t : Ty) : tyTime t = true ↔ Has true t := by
  induction t with
  | prim q =>
    simp only [tyTime, decide_eq_true_eq]
    exact ⟨fun h => h ▸ .prim, fun h => by cases h; rfl⟩
  | cast q =>
    simp only [tyTime, decide_eq_true_eq]
    exact ⟨fun h => h ▸ .cast rfl, fun h => by cases h; rfl⟩
  | named n => simp [tyTime]; intro h; cases h
  | opt t ih => exact ih.trans ⟨.opt, fun h => by cases h with | opt h => exact h⟩
  | list t ih => exact ih.trans ⟨.list, fun h => by cases h with | list h => exact h⟩
  | map k t ih =>
    simp only [tyTime, Bool.or_eq_true, decide_eq_true_eq, ih]
    constructor
    · rintro (h | h)
      · rw [h]; exact .key
      · exact .value h
    · intro h
      cases h with
      | key => exact .inl rfl
      | value h => exact .inr h

theorem typeRefs_iff (t : T) : Pkg.time ∈ typeRefs t ↔ HasTime false t := by
  cases t with
  | prim p => exact tyRefs_iff _
  | list t => exact tyRefs_iff (.list t)
  | map k t => exact tyRefs_iff (.map k t)
  | opt t => exact tyRefs_iff (.opt t)
  | alias p => exact tyRefs_iff (.cast p)
  | _ => simp [typeRefs, HasTime]

theorem typeTime_iff (t : T) : typeTime t = true ↔ HasTime true t := by
  cases t with
  | prim p => exact tyTime_iff (.prim p)
  | list t => exact tyTime_iff (.list t)
  | map k t => exact tyTime_iff (.map k t)
  | opt t => exact tyTime_iff (.opt t)
  | alias p => exact tyTime_iff (.cast p)
  | _ => simp [typeTime, HasTime]

/-- The signature of the operation names `time`: a datetime is part of the result or of a parameter, other than
by an alias. -/
def NamesTime (op : Operation) : Prop :=
  HasTime false op.ret ∨ ∃ p ∈ op.params, HasTime false p.ty

/-- A visit of the result or, unless the operation is unary, of a parameter comes to a datetime, also by an alias. -/
def FindsTime (op : Operation) : Prop :=
  HasTime true op.ret ∨ (op.unary = false ∧ ∃ p ∈ op.params, HasTime true p.ty)

theorem mem_streamIn {op : Operation} {p : Param} (hp : p ∈ op.params) (hs : p.stream = true) :
    op.streamIn.isSome = true := by
  have hm : p ∈ op.streams := List.mem_filter.2 ⟨hp, hs⟩
  unfold Operation.streamIn
  cases h : op.streams with
  | nil => rw [h] at hm; exact absurd hm List.not_mem_nil
  | cons q l => rfl

theorem client_facts {r : String} {op : Operation} (h : clientCompiles r op = true) :
    (op.streamIn.isSome = true → op.streamOut = true) ∧ returns op = some op.ret ∧
    (clientResult op).1 = declared op ∧ accepts (clientResult op).2 op.ret = true ∧
    (op.unary = true → (op.args.head?.all fun p => accepts (clientArg p.ty) p.ty) = true) ∧
    (op.streamIn.all fun t => accepts (clientIn t) t) = true := by
  unfold clientCompiles at h
  simp only [Bool.and_eq_true, beq_iff_eq] at h
  obtain ⟨⟨⟨⟨_, _⟩, h4⟩, h5⟩, ⟨h6, h7⟩, h8⟩ := h
  have hs : op.streamIn.isSome = true → op.streamOut = true := by
    intro hs
    have hc : declared op = (callStyle op).rx := h7.symm.trans h6
    unfold declared callStyle at hc
    rw [hs] at hc
    cases ho : op.streamOut with
    | true => rfl
    | false => rw [ho] at hc; simp [Style.rx] at hc
  refine ⟨hs, ?_, h7, h8, by intro hu; rw [if_pos hu] at h4; exact h4, h5⟩
  unfold returns
  cases hi : op.streamIn.isSome with
  | true => simp [hs hi]
  | false => cases op.streamOut <;> simp

/-- The result of an operation that compiles is a datetime or does not have to do with any. -/
theorem client_result {r : String} {op : Operation} (h : clientCompiles r op = true) :
    (∀ p ∈ clientResultRefs op, p = Rx.pkg (package op) ∨ p = .transform ∨ p = .payload) ∧
    Pkg.transform ∈ clientResultRefs op := by
  obtain ⟨_, hr, h1, h2, _⟩ := client_facts h
  have hd : declared op = package op := rfl
  rw [hd] at h1
  unfold clientResult at h1 h2
  unfold clientResultRefs
  rw [hr] at h1 h2 ⊢
  cases ht : op.ret with
  | void =>
    rw [ht] at h1 h2; dsimp only at h1 h2 ⊢
    rw [← h1]; simp [Rx.pkg]
  | list t =>
    rw [ht] at h2; dsimp only at h2 ⊢
    cases t <;> simp_all [accepts, tyRefs]
  | map k t => rw [ht] at h2; simp [accepts] at h2
  | opt t => rw [ht] at h2; simp [accepts] at h2
  | obj n => simp [typeRefs]
  | _ => simp

theorem client_in {t : T} : ∀ p ∈ clientInRefs t, p = .flux ∨ p = .transform ∨ p = .payload := by
  cases t <;> simp [clientInRefs]

theorem client_arg {r : String} {op : Operation} (h : clientCompiles r op = true) :
    (∀ p ∈ clientArgRefs op, p = Rx.pkg (package op) ∨ (p = .msgpack ∧ op.args ≠ []) ∨
      p ∈ typeRefs op.ret) ∧
    (op.args ≠ [] → Pkg.msgpack ∈ clientArgRefs op) := by
  obtain ⟨_, hr, _, _, h4, _⟩ := client_facts h
  have he : returnTypeRefs op = typeRefs op.ret := by unfold returnTypeRefs; rw [hr]
  unfold clientArgRefs
  rw [he]
  cases ha : op.args with
  | nil => cases op.unary <;> simp
  | cons q l =>
    have key : ∀ p ∈ [Pkg.msgpack, Rx.pkg (package op)] ++ typeRefs op.ret,
        p = Rx.pkg (package op) ∨ (p = .msgpack ∧ q :: l ≠ []) ∨ p ∈ typeRefs op.ret := by
      intro p hp
      simp only [List.mem_append, List.mem_cons, List.not_mem_nil, or_false] at hp
      rcases hp with (hp | hp) | hp
      · exact .inr (.inl ⟨hp, by simp⟩)
      · exact .inl hp
      · exact .inr (.inr hp)
    cases hu : op.unary with
    | false => exact ⟨key, fun _ => by simp⟩
    | true =>
      have h4 := h4 hu
      rw [ha] at h4
      simp only [List.head?_cons, Option.all_some] at h4
      dsimp only
      cases ht : q.ty with
      | enum => exact ⟨key, fun _ => by simp⟩
      | obj n => exact ⟨key, fun _ => by simp⟩
      | prim n => exact ⟨key, fun _ => by simp⟩
      | _ => rw [ht] at h4; simp [clientArg, accepts] at h4

theorem mem_invoker {r : String} {op : Operation} (h : clientCompiles r op = true) (p : Pkg) :
    p ∈ invokerRefs op ↔
      p = .context ∨ p = .proxy ∨ p = .binary ∨ p = .payload ∨ p = .transform ∨ p = Rx.pkg (package op) ∨
      (p = .msgpack ∧ op.args ≠ []) ∨ (p = .time ∧ NamesTime op) := by
  obtain ⟨h1, h2, h3, h4, h5, h6⟩ := client_facts h
  have hres := client_result h
  have harg := client_arg h
  have hfl : op.streamIn.isSome = true → Rx.pkg (package op) = .flux := by
    intro hs; unfold package; rw [h1 hs]; rfl
  have hin : ∀ q ∈ (match op.streamIn with | some t => clientInRefs t | none => []),
      q = Rx.pkg (package op) ∨ q = .transform ∨ q = .payload := by
    cases hs : op.streamIn with
    | none => intro q hq; exact absurd hq List.not_mem_nil
    | some t => rw [hfl (by rw [hs]; rfl)]; exact client_in
  have hret : ∀ q, q ∈ resultTypeRefs op ↔ q = Rx.pkg (package op) ∨ q ∈ typeRefs op.ret := by
    intro q
    have hd : declared op = package op := rfl
    unfold resultTypeRefs
    cases ht : op.ret with
    | void => unfold package; cases op.streamOut <;> simp [typeRefs, Rx.pkg]
    | _ => simp [hd]
  unfold invokerRefs signatureRefs
  simp only [List.mem_append, hret, List.mem_flatMap, List.mem_cons, List.not_mem_nil, or_false]
  constructor
  · rintro ((((((h | ⟨q, hq, h | h⟩) | h | h) | h) | h | h | h | h) | h) | h)
    · simp [h]
    · cases hs : q.stream with
      | false => rw [hs] at h; simp at h
      | true =>
        rw [hs] at h; simp at h
        have := hfl (mem_streamIn hq hs)
        simp [h, this]
    · have := typeRefs_time _ _ h
      exact .inr (.inr (.inr (.inr (.inr (.inr (.inr ⟨this, .inr ⟨q, hq, (typeRefs_iff _).1 (this ▸ h)⟩⟩))))))
    · simp [h]
    · have := typeRefs_time _ _ h
      exact .inr (.inr (.inr (.inr (.inr (.inr (.inr ⟨this, .inl ((typeRefs_iff _).1 (this ▸ h))⟩))))))
    · rcases harg.1 p h with h | h | h
      · simp [h]
      · simp [h]
      · have := typeRefs_time _ _ h
        exact .inr (.inr (.inr (.inr (.inr (.inr (.inr ⟨this, .inl ((typeRefs_iff _).1 (this ▸ h))⟩))))))
    · simp [h]
    · simp [h]
    · simp [h]
    · simp [h]
    · rcases hin p h with h | h | h <;> simp [h]
    · rcases hres.1 p h with h | h | h <;> simp [h]
  · rintro (h | h | h | h | h | h | h | h)
    · simp [h]
    · simp [h]
    · simp [h]
    · simp [h]
    · right; rw [h]; exact hres.2
    · simp [h]
    · left; left; left; right; rw [h.1]; exact harg.2 h.2
    · left; left; left; left
      obtain ⟨rfl, h | ⟨q, hq, h⟩⟩ := h
      · exact .inr (.inr ((typeRefs_iff _).2 h))
      · exact .inl (.inr ⟨q, hq, .inr ((typeRefs_iff _).2 h)⟩)

theorem looked_imported {s : Side} {ns : Namespace} {op : Operation} (h : op ∈ looked s ns) : op ∈ imported s ns := by
  unfold looked at h
  unfold imported
  rcases List.mem_append.1 h with h | h
  · exact List.mem_append.2 (.inl h)
  · refine List.mem_append.2 (.inr ?_)
    simp only [List.mem_flatMap, List.mem_map, List.mem_filter] at h ⊢
    obtain ⟨i, hi, o, ⟨ho, ht⟩, rfl⟩ := h
    refine ⟨i, ⟨hi, ?_⟩, o, ho, rfl⟩
    cases s with
    | provider => simp [Side.takesOp] at ht; exact ht.1
    | handler => exact ht

theorem mem_clientOpImports {r : String} {op : Operation} (h : clientCompiles r op = true) (p : Pkg) :
    p ∈ clientOpImports op ↔ p = Rx.pkg (package op) := by
  obtain ⟨h1, _⟩ := client_facts h
  unfold clientOpImports
  rw [List.mem_append, mem_result]
  constructor
  · rintro (h | h)
    · exact h
    · split at h
      next => exact absurd h List.not_mem_nil
      next =>
        obtain ⟨q, hq, h⟩ := List.mem_flatMap.1 h
        cases hs : q.stream with
        | false => rw [hs] at h; simp at h
        | true =>
          rw [hs] at h; simp at h
          rw [h]; unfold package; rw [h1 (mem_streamIn hq hs)]; rfl
  · exact .inl

theorem mem_clientOpTime (op : Operation) (p : Pkg) : p ∈ clientOpTime op ↔ p = .time ∧ FindsTime op := by
  unfold clientOpTime FindsTime
  simp only [← typeTime_iff]
  rw [List.mem_append]
  constructor
  · rintro (h | h)
    · split at h <;> simp at h
      next ht => exact ⟨h, .inl ht⟩
    · split at h
      next => exact absurd h List.not_mem_nil
      next hu =>
        obtain ⟨q, hq, h⟩ := List.mem_flatMap.1 h
        split at h <;> simp at h
        next ht => exact ⟨h, .inr ⟨by simpa using hu, q, hq, ht⟩⟩
  · rintro ⟨rfl, h | ⟨hu, q, hq, h⟩⟩
    · left; simp [h]
    · right
      rw [hu]
      exact List.mem_flatMap.2 ⟨q, hq, by simp [h]⟩

theorem clientImports_pkgs (s : Side) (ns : Namespace) :
    ∀ p ∈ (looked s ns).flatMap clientOpImports, p = .mono ∨ p = .flux := by
  intro p hp
  obtain ⟨op, _, hp⟩ := List.mem_flatMap.1 hp
  unfold clientOpImports at hp
  rcases List.mem_append.1 hp with h | h
  · rw [mem_result] at h
    rw [h]
    exact pkg_cases op
  · split at h
    next => exact absurd h List.not_mem_nil
    next =>
      obtain ⟨q, hq, h⟩ := List.mem_flatMap.1 h
      split at h <;> simp at h
      exact .inr h

theorem clientTime_pkgs (s : Side) (ns : Namespace) : ∀ p ∈ (looked s ns).flatMap clientOpTime, p = .time := by
  intro p hp
  obtain ⟨op, _, hp⟩ := List.mem_flatMap.1 hp
  exact ((mem_clientOpTime op p).1 hp).1

theorem nodup_clientImports (s : Side) (ns : Namespace) : (clientFile s ns).imports.Nodup := by
  show (if s.hasAny ns then _ else [Pkg.invoke]).Nodup
  split
  next =>
    have hn := nodup_addAll ((looked s ns).flatMap clientOpImports) (s := []) List.nodup_nil
    have hn' := nodup_addAll ((looked s ns).flatMap clientOpTime) (s := []) List.nodup_nil
    have hm : ∀ p ∈ addAll [] ((looked s ns).flatMap clientOpImports), p = .mono ∨ p = .flux := by
      intro p hp
      exact clientImports_pkgs s ns p (((mem_addAll _ _ _).1 hp).resolve_left List.not_mem_nil)
    have ht : ∀ p ∈ addAll [] ((looked s ns).flatMap clientOpTime), p = .time := by
      intro p hp
      exact clientTime_pkgs s ns p (((mem_addAll _ _ _).1 hp).resolve_left List.not_mem_nil)
    refine List.nodup_append.2 ⟨List.nodup_append.2 ⟨List.nodup_append.2 ⟨List.nodup_append.2
      ⟨by simp, hn', ?_⟩, by simp, ?_⟩, hn, ?_⟩, by simp, ?_⟩
    · intro a ha b hb hab
      rw [ht b hb] at hab
      simp [hab] at ha
    · intro a ha b hb hab
      subst hab
      rcases List.mem_append.1 ha with ha | ha
      · simp at ha; rcases ha with rfl | rfl <;> simp at hb
      · rw [ht _ ha] at hb; simp at hb
    · intro a ha b hb hab
      subst hab
      rcases hm _ hb with h | h <;> rw [h] at ha <;> simp at ha <;> exact absurd (ht _ ha) (fun h => nomatch h)
    · intro a ha b hb hab
      subst hab
      simp at hb
      rcases hb with rfl | rfl
      · simp at ha
        rcases ha with ha | ha
        · exact absurd (ht _ ha) (fun h => nomatch h)
        · rcases hm _ ha with h | h <;> cases h
      · simp at ha
        rcases ha with ha | ha
        · exact absurd (ht _ ha) (fun h => nomatch h)
        · rcases hm _ ha with h | h <;> cases h
  next => simp

theorem mem_clientImports {s : Side} {ns : Namespace} (hs : s.hasAny ns = true)
    (h : ∀ op ∈ imported s ns, ∃ r, clientCompiles r op = true) (p : Pkg) :
    p ∈ (clientFile s ns).imports ↔
      p = .context ∨ p = .binary ∨ p = .invoke ∨ p = .payload ∨ p = .proxy ∨ p = .transform ∨ p = .msgpack ∨
      (∃ op ∈ looked s ns, p = Rx.pkg (package op)) ∨ (p = .time ∧ ∃ op ∈ looked s ns, FindsTime op) := by
  have e1 : p ∈ (looked s ns).flatMap clientOpImports ↔ ∃ op ∈ looked s ns, p = Rx.pkg (package op) := by
    rw [List.mem_flatMap]
    constructor
    · rintro ⟨op, ho, hp⟩
      obtain ⟨r, hr⟩ := h op (looked_imported ho)
      exact ⟨op, ho, (mem_clientOpImports hr p).1 hp⟩
    · rintro ⟨op, ho, hp⟩
      obtain ⟨r, hr⟩ := h op (looked_imported ho)
      exact ⟨op, ho, (mem_clientOpImports hr p).2 hp⟩
  have e2 : p ∈ (looked s ns).flatMap clientOpTime ↔ p = .time ∧ ∃ op ∈ looked s ns, FindsTime op := by
    rw [List.mem_flatMap]
    constructor
    · rintro ⟨op, ho, hp⟩
      have := (mem_clientOpTime op p).1 hp
      exact ⟨this.1, op, ho, this.2⟩
    · rintro ⟨rfl, op, ho, hp⟩
      exact ⟨op, ho, (mem_clientOpTime op _).2 ⟨rfl, hp⟩⟩
  simp only [clientFile, if_pos hs, List.mem_append, mem_addAll, List.mem_cons, List.not_mem_nil, or_false,
    false_or, e1, e2]
  constructor
  · rintro (((((h | h) | h) | h | h | h) | h) | h | h)
    · simp [h]
    · simp [h]
    · exact .inr (.inr (.inr (.inr (.inr (.inr (.inr (.inr h)))))))
    · simp [h]
    · simp [h]
    · simp [h]
    · exact .inr (.inr (.inr (.inr (.inr (.inr (.inr (.inl h)))))))
    · simp [h]
    · simp [h]
  · rintro (h | h | h | h | h | h | h | h | h)
    · simp [h]
    · simp [h]
    · simp [h]
    · simp [h]
    · simp [h]
    · simp [h]
    · simp [h]
    · exact .inl (.inr h)
    · exact .inl (.inl (.inl (.inr h)))

theorem mem_clientUses {s : Side} {ns : Namespace}
    (h : ∀ op ∈ imported s ns, ∃ r, clientCompiles r op = true) (p : Pkg) :
    p ∈ (clientFile s ns).uses ↔ p = .invoke ∨ ∃ op ∈ imported s ns,
      p = .context ∨ p = .proxy ∨ p = .binary ∨ p = .payload ∨ p = .transform ∨ p = Rx.pkg (package op) ∨
      (p = .msgpack ∧ op.args ≠ []) ∨ (p = .time ∧ NamesTime op) := by
  simp only [clientFile, List.mem_append, List.mem_flatMap, List.mem_cons, List.not_mem_nil, or_false]
  constructor
  · rintro ((((h' | h') | h') | ⟨i, _, o, _, h'⟩) | ⟨op, ho, h'⟩)
    · exact .inl h'
    · exact .inl h'
    · split at h'
      next =>
        obtain ⟨f, _, h'⟩ := List.mem_flatMap.1 h'
        exact .inl (List.mem_singleton.1 h')
      next => exact absurd h' List.not_mem_nil
    · exact .inl h'
    · obtain ⟨r, hr⟩ := h op ho
      exact .inr ⟨op, ho, (mem_invoker hr p).1 h'⟩
  · rintro (h' | ⟨op, ho, h'⟩)
    · simp [h']
    · obtain ⟨r, hr⟩ := h op ho
      exact .inr ⟨op, ho, (mem_invoker hr p).2 h'⟩

theorem invoke_imported (s : Side) (ns : Namespace) : Pkg.invoke ∈ (clientFile s ns).imports := by
  unfold clientFile
  dsimp only
  split <;> simp

/-- What `ProviderVisitor` or `ImportVisitor` take for something to import: for the first, an interface with
`@provider` all of whose operations have code, or any function with `@provider`; for the second, an interface
or function with `@service`. -/
def Found (s : Side) (ns : Namespace) : Prop :=
  match s with
  | .provider => (∃ i ∈ ns.ifaces, i.provider = true ∧ ∀ o ∈ i.ops, o.noCode = false) ∨ ∃ f ∈ ns.funcs, f.provider = true
  | .handler => (∃ i ∈ ns.ifaces, i.service = true) ∨ ∃ f ∈ ns.funcs, f.service = true

/-- The operations and functions that get an importing function: all operations of a provider or handler, and
functions that are, for providers unless they are marked as without code. -/
def HasFunction (s : Side) (ns : Namespace) (op : Operation) : Prop :=
  match s with
  | .provider => (∃ f ∈ ns.funcs, f.provider = true ∧ f.fn.noCode = false ∧ f.fn.op = op) ∨
      ∃ i ∈ ns.ifaces, i.provider = true ∧ ∃ o ∈ i.ops, o.op = op
  | .handler => (∃ f ∈ ns.funcs, f.handler = true ∧ f.fn.op = op) ∨
      ∃ i ∈ ns.ifaces, i.handler = true ∧ ∃ o ∈ i.ops, o.op = op

/-- Those that are looked at for imports: the same, but never operations marked as without code of providers. -/
def LookedAt (s : Side) (ns : Namespace) (op : Operation) : Prop :=
  match s with
  | .provider => (∃ f ∈ ns.funcs, f.provider = true ∧ f.fn.noCode = false ∧ f.fn.op = op) ∨
      ∃ i ∈ ns.ifaces, i.provider = true ∧ ∃ o ∈ i.ops, o.noCode = false ∧ o.op = op
  | .handler => (∃ f ∈ ns.funcs, f.handler = true ∧ f.fn.op = op) ∨
      ∃ i ∈ ns.ifaces, i.handler = true ∧ ∃ o ∈ i.ops, o.op = op

theorem found_iff (s : Side) (ns : Namespace) : s.hasAny ns = true ↔ Found s ns := by
  cases s <;> simp [Side.hasAny, Found]

theorem mem_imported_iff (s : Side) (ns : Namespace) (op : Operation) : op ∈ imported s ns ↔ HasFunction s ns op := by
  cases s <;> simp [imported, HasFunction, Side.takesFunc, Side.takesIface, and_assoc]

theorem mem_looked_iff (s : Side) (ns : Namespace) (op : Operation) : op ∈ looked s ns ↔ LookedAt s ns op := by
  cases s with
  | provider =>
    simp only [looked, LookedAt, Side.takesFunc, Side.takesOp, List.mem_append, List.mem_map, List.mem_filter,
      List.mem_flatMap, Bool.and_eq_true, Bool.not_eq_true', and_assoc]
    refine or_congr Iff.rfl ⟨?_, ?_⟩
    · rintro ⟨i, hi, o, ho, hp, hn, rfl⟩; exact ⟨i, hi, hp, o, ho, hn, rfl⟩
    · rintro ⟨i, hi, hp, o, ho, hn, rfl⟩; exact ⟨i, hi, o, ho, hp, hn, rfl⟩
  | handler =>
    simp only [looked, LookedAt, Side.takesFunc, Side.takesOp, List.mem_append, List.mem_map, List.mem_filter,
      List.mem_flatMap, and_assoc]
    refine or_congr Iff.rfl ⟨?_, ?_⟩
    · rintro ⟨i, hi, o, ho, hp, rfl⟩; exact ⟨i, hi, hp, o, ho, rfl⟩
    · rintro ⟨i, hi, hp, o, ho, rfl⟩; exact ⟨i, hi, o, ho, hp, rfl⟩

theorem client_file_imported (s : Side) (ns : Namespace)
    (h : ∀ op ∈ imported s ns, ∃ r, clientCompiles r op = true) :
    Accepted (clientFile s ns) ↔
      if s.hasAny ns then
        (∃ op ∈ imported s ns, op.args ≠ []) ∧
        (∀ op ∈ imported s ns, ∃ op' ∈ looked s ns, op'.streamOut = op.streamOut) ∧
        ((∃ op ∈ imported s ns, NamesTime op) ↔ ∃ op ∈ looked s ns, FindsTime op)
      else imported s ns = [] := by
  have hu := mem_clientUses h
  have hpk : ∀ a b : Operation, Rx.pkg (package a) = Rx.pkg (package b) → a.streamOut = b.streamOut := by
    intro a b he
    unfold package at he
    cases ha : a.streamOut <;> cases hb : b.streamOut <;> simp [ha, hb, Rx.pkg] at he ⊢
  have hpk' : ∀ a b : Operation, a.streamOut = b.streamOut → Rx.pkg (package a) = Rx.pkg (package b) := by
    intro a b he; unfold package; rw [he]
  cases hs : s.hasAny ns with
  | false =>
    have hi : (clientFile s ns).imports = [.invoke] := by unfold clientFile; simp [hs]
    simp only [Bool.false_eq_true, if_false]
    constructor
    · rintro ⟨_, h1, _⟩
      cases hm : imported s ns with
      | nil => rfl
      | cons op l =>
        have := h1 .context ((hu _).2 (.inr ⟨op, by rw [hm]; simp, .inl rfl⟩))
        rw [hi] at this
        simp at this
    · intro he
      refine ⟨nodup_clientImports s ns, ?_, ?_⟩
      · intro p hp
        rcases (hu p).1 hp with hp | ⟨op, ho, _⟩
        · rw [hi, hp]; simp
        · rw [he] at ho; exact absurd ho List.not_mem_nil
      · intro p hp
        rw [hi] at hp
        exact (hu p).2 (.inl (List.mem_singleton.1 hp))
  | true =>
    have hi := mem_clientImports hs h
    simp only [if_true]
    constructor
    · rintro ⟨_, h1, h2⟩
      refine ⟨?_, ?_, ?_, ?_⟩
      · rcases (hu _).1 (h2 .msgpack ((hi _).2 (by simp))) with hp | ⟨op, ho, hp⟩
        · cases hp
        · refine ⟨op, ho, ?_⟩
          rcases pkg_cases op with h' | h' <;> rw [h'] at hp <;> simp at hp <;> exact hp
      · intro op ho
        have hp := (hi _).1 (h1 _ ((hu _).2 (.inr ⟨op, ho, .inr (.inr (.inr (.inr (.inr (.inl rfl)))))⟩)))
        rcases pkg_cases op with h' | h' <;> rw [h'] at hp <;> simp at hp <;>
          (obtain ⟨op', ho', hp⟩ := hp
           exact ⟨op', ho', hpk _ _ (hp.symm.trans h'.symm)⟩)
      · rintro ⟨op, ho, ht⟩
        have hp := (hi _).1 (h1 .time ((hu _).2 (.inr ⟨op, ho, by simp [ht]⟩)))
        simp at hp
        rcases hp with ⟨op', _, hp⟩ | hp
        · rcases pkg_cases op' with h' | h' <;> rw [h'] at hp <;> cases hp
        · exact hp
      · rintro ⟨op, ho, ht⟩
        rcases (hu _).1 (h2 .time ((hi _).2 (.inr (.inr (.inr (.inr (.inr (.inr (.inr (.inr ⟨rfl, op, ho, ht⟩)))))))))) with
          hp | ⟨op', ho', hp⟩
        · cases hp
        · refine ⟨op', ho', ?_⟩
          rcases pkg_cases op' with h' | h' <;> rw [h'] at hp <;> simp at hp <;> exact hp
    · rintro ⟨⟨oa, hoa, ha⟩, hb, hc⟩
      refine ⟨nodup_clientImports s ns, ?_, ?_⟩
      · intro p hp
        rw [hi]
        rcases (hu p).1 hp with hp | ⟨op, ho, hp⟩
        · simp [hp]
        · rcases hp with hp | hp | hp | hp | hp | hp | hp | hp
          · simp [hp]
          · simp [hp]
          · simp [hp]
          · simp [hp]
          · simp [hp]
          · obtain ⟨op', ho', he⟩ := hb op ho
            exact .inr (.inr (.inr (.inr (.inr (.inr (.inr (.inl ⟨op', ho', hp.trans (hpk' _ _ he.symm)⟩)))))))
          · simp [hp.1]
          · exact .inr (.inr (.inr (.inr (.inr (.inr (.inr (.inr ⟨hp.1, hc.1 ⟨op, ho, hp.2⟩⟩)))))))
      · intro p hp
        rw [hu]
        rcases (hi p).1 hp with hp | hp | hp | hp | hp | hp | hp | ⟨op, ho, hp⟩ | hp
        · exact .inr ⟨oa, hoa, by simp [hp]⟩
        · exact .inr ⟨oa, hoa, by simp [hp]⟩
        · exact .inl hp
        · exact .inr ⟨oa, hoa, by simp [hp]⟩
        · exact .inr ⟨oa, hoa, by simp [hp]⟩
        · exact .inr ⟨oa, hoa, by simp [hp]⟩
        · exact .inr ⟨oa, hoa, by simp [hp, ha]⟩
        · exact .inr ⟨op, looked_imported ho, by simp [hp]⟩
        · obtain ⟨op, ho, ht⟩ := hc.2 hp.2
          exact .inr ⟨op, ho, by simp [hp.1, ht]⟩

/-- **C137 (client).** If each importing function by itself compiles, then the imports of their file are right
exactly if: when the generator finds nothing to import, it writes no function; otherwise there is a function
that encodes arguments, the functions without code need no other packages than those with code, and `time` is
found by the visit of the types exactly if a signature names it. -/
theorem client_file_imports_partial (s : Side) (ns : Namespace)
    (h : ∀ op, HasFunction s ns op → ∃ r, clientCompiles r op = true) :
    Accepted (clientFile s ns) ↔
      (Found s ns →
        (∃ op, HasFunction s ns op ∧ op.args ≠ []) ∧
        (∀ op, HasFunction s ns op → ∃ op', LookedAt s ns op' ∧ op'.streamOut = op.streamOut) ∧
        ((∃ op, HasFunction s ns op ∧ NamesTime op) ↔ ∃ op, LookedAt s ns op ∧ FindsTime op)) ∧
      (¬ Found s ns → ∀ op, ¬ HasFunction s ns op) := by
  rw [client_file_imported s ns fun op ho => h op ((mem_imported_iff s ns op).1 ho)]
  simp only [mem_imported_iff, mem_looked_iff]
  rw [← found_iff]
  cases hs : s.hasAny ns with
  | true => simp
  | false =>
    simp only [Bool.false_eq_true, if_false, false_implies, not_false_eq_true, true_implies, true_and]
    constructor
    · intro he op ho
      rw [← mem_imported_iff, he] at ho
      exact absurd ho List.not_mem_nil
    · intro hn
      cases hm : imported s ns with
      | nil => rfl
      | cons op l => exact absurd ((mem_imported_iff s ns op).1 (by rw [hm]; simp)) (hn op)

/-! ## Files that never compile -/

/-- A wrapper that reads its parameter with `msgpack` makes its file one that does not compile, whatever else is
in the namespace: nothing ever imports `msgpack` there. -/
theorem msgpack_not_imported_refuted (ns : Namespace) (op : Operation) (ho : HasWrapper ns op) (hr : Reads op) :
    ¬ Accepted (serverFile ns) := by
  rw [← mem_exported_iff] at ho
  rintro ⟨_, h1, _⟩
  have hm : Pkg.msgpack ∈ serverArgRefs op := by
    obtain ⟨hu, p, hp, ht⟩ := hr
    unfold serverArgRefs
    cases ha : op.args with
    | nil => rw [ha] at hp; simp at hp
    | cons q l =>
      rw [ha] at hp
      simp at hp
      subst hp
      rw [hu]
      dsimp only
      cases hq : q.ty <;> rw [hq] at ht <;> simp [Plain] at ht <;> simp [serverUnaryRefs]
  have := h1 .msgpack (by
    unfold serverFile wrapperRefs
    simp only [List.mem_append, List.mem_flatMap]
    exact .inr ⟨op, ho, .inl (.inl (.inr hm))⟩)
  simp only [serverFile, List.mem_append, mem_addAll, List.mem_cons, List.not_mem_nil, or_false, false_or,
    mem_serverImports] at this
  simp at this
  obtain ⟨op', _, h⟩ := this
  rcases pkg_cases op' with h' | h' <;> rw [h'] at h <;> cases h

/-- A namespace without operations to export has a file that does not compile. -/
theorem nothing_exported_refuted (ns : Namespace) (h : ∀ op, ¬ HasWrapper ns op) : ¬ Accepted (serverFile ns) := by
  have h : exported ns = [] := by
    cases he : exported ns with
    | nil => rfl
    | cons op l => exact absurd ((mem_exported_iff ns op).1 (by rw [he]; simp)) (h op)
  rintro ⟨_, _, h2⟩
  have := h2 .context (by simp [serverFile])
  simp [serverFile, h] at this

theorem msgpack_needs_args {op : Operation} (h : Pkg.msgpack ∈ invokerRefs op) : op.args ≠ [] := by
  intro ha
  have hty : ∀ t, Pkg.msgpack ∉ typeRefs t := fun t hm => absurd (typeRefs_time t _ hm) (fun h => nomatch h)
  have hty' : ∀ t, Pkg.msgpack ∉ tyRefs t := fun t hm => absurd (tyRefs_time t _ hm) (fun h => nomatch h)
  have hpk : Pkg.msgpack ≠ Rx.pkg (package op) := by
    rcases pkg_cases op with h | h <;> rw [h] <;> simp
  have hpk' : Pkg.msgpack ≠ Rx.pkg (declared op) := hpk
  unfold invokerRefs signatureRefs at h
  simp only [List.mem_append, List.mem_flatMap, List.mem_cons, List.not_mem_nil, or_false] at h
  rcases h with (((((h | ⟨q, _, h | h⟩) | h) | h) | h | h | h | h) | h) | h
  · cases h
  · split at h <;> simp at h
  · exact hty _ h
  · unfold resultTypeRefs at h
    cases ht : op.ret <;> rw [ht] at h <;> simp [hpk', hty] at h
    split at h <;> simp at h
  · unfold clientArgRefs at h
    rw [ha] at h
    cases hu : op.unary <;> rw [hu] at h <;> simp at h
  · cases h
  · cases h
  · cases h
  · cases h
  · cases hs : op.streamIn with
    | none => rw [hs] at h; simp at h
    | some t => rw [hs] at h; rcases client_in _ h with h | h | h <;> cases h
  · unfold clientResultRefs at h
    cases hr : returns op with
    | none => rw [hr] at h; simp at h
    | some t => rw [hr] at h; cases t <;> simp [hpk, hty, hty'] at h

/-- Importing functions none of which has arguments come in a file that does not compile: `msgpack` is imported
for nothing. -/
theorem no_arguments_refuted (s : Side) (ns : Namespace) (hs : Found s ns)
    (h : ∀ op, HasFunction s ns op → op.args = []) : ¬ Accepted (clientFile s ns) := by
  rw [← found_iff] at hs
  have h : ∀ op ∈ imported s ns, op.args = [] := fun op ho => h op ((mem_imported_iff s ns op).1 ho)
  rintro ⟨_, _, h2⟩
  have := h2 .msgpack (by simp [clientFile, hs])
  simp only [clientFile, List.mem_append, List.mem_flatMap, List.mem_cons, List.not_mem_nil, or_false] at this
  rcases this with ((h' | h') | ⟨_, _, _, _, h'⟩) | ⟨op, ho, h'⟩
  · rcases h' with h' | h' <;> cases h'
  · rw [if_pos hs] at h'
    obtain ⟨_, _, h'⟩ := List.mem_flatMap.1 h'
    simp at h'
  · cases h'
  · exact msgpack_needs_args h' (h op ho)

/-- A function that is written although the generator found nothing to import has nothing of what it names: the
only provider has an operation without code, or there are handlers that are no services. -/
theorem written_unfound_refuted (s : Side) (ns : Namespace) (hs : ¬ Found s ns) (op : Operation)
    (ho : HasFunction s ns op) : ¬ Accepted (clientFile s ns) := by
  rw [← found_iff, Bool.not_eq_true] at hs
  rw [← mem_imported_iff] at ho
  rintro ⟨_, h1, _⟩
  have := h1 .context (by
    unfold clientFile invokerRefs signatureRefs
    simp only [List.mem_append, List.mem_flatMap]
    exact .inr ⟨op, ho, by simp⟩)
  simp [clientFile, hs] at this

/-! ## Examples -/

def str (n : String) : Param := ⟨[], n, false, .prim .str⟩

/-- `/repo/codegen/testdata/tinygo/apex.axdl`, which has a service with one operation without code and a provider. -/
def shortener : Namespace where
  funcs := []
  ifaces :=
    [{ handler := true
       service := true
       provider := false
       ops := [⟨⟨"shorten", false, [str "url"], false, .obj 0⟩, false⟩, ⟨⟨"lookup", false, [str "id"], false, .obj 0⟩, true⟩] },
     { handler := false
       service := false
       provider := true
       ops := [⟨⟨"loadById", false, [str "id"], false, .obj 0⟩, false⟩, ⟨⟨"loadByURL", false, [str "url"], false, .obj 0⟩, false⟩,
         ⟨⟨"storeURL", true, [⟨[], "url", false, .obj 0⟩], false, .void⟩, false⟩] }]

/-- The import sections are those of `/repo/codegen/testdata/tinygo/expected/pkg/urlshortener/export.go` and
`providers.go`. -/
example : (serverFile shortener).imports = [.context, .invoke, .payload, .mono, .transform] ∧
    (clientFile .provider shortener).imports =
      [.context, .binary, .invoke, .payload, .proxy, .mono, .transform, .msgpack] := by decide +kernel

/-- Both files of it are accepted, by the theorems. -/
example : Accepted (serverFile shortener) ∧ Accepted (clientFile .provider shortener) := by
  constructor
  · have he : exported shortener = [⟨"shorten", false, [str "url"], false, .obj 0⟩] := rfl
    have hw : ∀ op, HasWrapper shortener op ↔ op = ⟨"shorten", false, [str "url"], false, .obj 0⟩ := by
      intro op; rw [← mem_exported_iff, he, List.mem_singleton]
    have hv : ∀ op, Visited shortener op → op.streamOut = false ∧ op.unary = false := by
      rintro op (⟨f, hf, _⟩ | ⟨i, hi, hh, o, ho, rfl⟩)
      · simp [shortener] at hf
      · simp [shortener] at hi
        rcases hi with rfl | rfl
        · simp at ho
          rcases ho with rfl | rfl <;> exact ⟨rfl, rfl⟩
        · simp at hh
    refine (server_file_imports_partial shortener ?_).2 ⟨⟨_, (hw _).2 rfl⟩, ?_, ?_, ?_⟩
    · intro op ho; rw [(hw op).1 ho]; decide +kernel
    · intro op ho hr; rw [(hw op).1 ho] at hr; exact absurd hr.1 (by simp)
    · intro op ho; exact ⟨_, (hw _).2 rfl, (hv op ho).1.symm⟩
    · rintro op ⟨⟨f, hf, _⟩ | h, hu, _⟩
      · simp [shortener] at hf
      · exact absurd (hv op (.inr h)).2 (by simp [hu])
  · have hl : ∀ op ∈ imported .provider shortener, clientCompiles "r" op = true := by decide +kernel
    have he : imported .provider shortener = [⟨"loadById", false, [str "id"], false, .obj 0⟩,
        ⟨"loadByURL", false, [str "url"], false, .obj 0⟩, ⟨"storeURL", true, [⟨[], "url", false, .obj 0⟩], false, .void⟩] := rfl
    have hm : imported .provider shortener = looked .provider shortener := rfl
    refine (client_file_imports_partial .provider shortener
      fun op ho => ⟨"r", hl op ((mem_imported_iff _ _ _).2 ho)⟩).2 ⟨fun _ => ?_, fun hn => ?_⟩
    · simp only [← mem_imported_iff, ← mem_looked_iff, ← hm]
      refine ⟨⟨⟨"loadById", false, [str "id"], false, .obj 0⟩, by rw [he]; simp,
        by simp [Operation.args, str]⟩, fun op ho => ⟨op, ho, rfl⟩, ?_⟩
      constructor
      · rintro ⟨op, ho, h⟩
        simp [he] at ho
        rcases ho with rfl | rfl | rfl <;> simp [NamesTime, ← typeRefs_iff, typeRefs, tyRefs, str] at h
      · rintro ⟨op, ho, h⟩
        simp [he] at ho
        rcases ho with rfl | rfl | rfl <;> simp [FindsTime, ← typeTime_iff, typeTime, str] at h
    · exact absurd ((found_iff .provider shortener).1 (by decide +kernel)) hn

def clock : Operation := ⟨"now", false, [], false, .prim .time⟩

/-- `interface Clock @provider { now(): datetime }` compiles by itself, but not with the imports of its file. -/
example : clientCompiles "c" clock = true ∧ ¬ Accepted (clientFile .provider ⟨[⟨false, false, true, [⟨clock, false⟩]⟩], []⟩) := by
  refine ⟨by decide +kernel, no_arguments_refuted _ _ (.inl ⟨_, List.mem_singleton_self _, rfl, by simp⟩) ?_⟩
  rintro op (⟨f, hf, _⟩ | ⟨i, hi, _, o, ho, rfl⟩)
  · exact absurd hf List.not_mem_nil
  · rw [List.mem_singleton.1 hi] at ho
    rw [List.mem_singleton.1 ho]; rfl

def echo : Operation := ⟨"echo", true, [str "text"], false, .prim .str⟩

/-- `interface Echo @service { echo[text: string]: string }`: the same for its wrapper. -/
example : serverCompiles echo = true ∧ ¬ Accepted (serverFile ⟨[⟨true, true, false, [⟨echo, false⟩]⟩], []⟩) :=
  ⟨by decide +kernel, msgpack_not_imported_refuted _ echo
    (.inr ⟨_, List.mem_singleton_self _, rfl, _, List.mem_singleton_self _, rfl, rfl⟩) ⟨rfl, str "text", rfl, trivial⟩⟩

/-- A provider with an operation without code: code is written, imports are not. -/
example : ¬ Accepted (clientFile .provider ⟨[⟨false, false, true, [⟨echo, true⟩]⟩], []⟩) :=
  written_unfound_refuted _ _ (by simp [Found]) echo
    (.inr ⟨_, List.mem_singleton_self _, rfl, _, List.mem_singleton_self _, rfl⟩)

/-- A service all of whose operations are without code. -/
example : ¬ Accepted (serverFile ⟨[⟨true, true, false, [⟨clock, true⟩]⟩], []⟩) :=
  nothing_exported_refuted _ (by simp [HasWrapper])

end Iota.Props.Imports
