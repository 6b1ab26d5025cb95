import Verif.Spec.Components
import Verif.Props.Codegen
import Verif.Props.Registry
import Verif.Props.Transform

/-!
# C149: the component that counts words; C150: components that make one value of one value
-/

namespace Iota.Props.Components
open Iota.Go Iota.Msgpack Iota.Registry Iota.Components Iota.Spec.Components Iota.Spec.Msgpack Iota.Spec.Codegen

theorem ignored_stop : ignoredWords = stopWords := by decide +kernel
theorem counts_text : countsPort = text "counts" := by decide +kernel
theorem words_text : wordsPort = text "words" := by decide +kernel

/-! ## The map of counts -/

theorem bump_keys (m : List (Bytes × Nat)) (w : Bytes) :
    (bump m w).map (·.1) = if w ∈ m.map (·.1) then m.map (·.1) else m.map (·.1) ++ [w] := by
  induction m with
  | nil => simp [bump]
  | cons p m ih =>
    obtain ⟨k, n⟩ := p
    simp only [bump]
    by_cases h : k = w
    · subst h; simp
    · rw [if_neg h]
      simp only [List.map_cons, ih, List.mem_cons]
      by_cases hm : w ∈ m.map (·.1)
      · rw [if_pos hm, if_pos (.inr hm)]
      · rw [if_neg hm, if_neg (fun e => e.elim (fun e => h e.symm) hm)]
        rfl

theorem bump_length (m : List (Bytes × Nat)) (w : Bytes) : (bump m w).length ≤ m.length + 1 := by
  have := congrArg List.length (bump_keys m w)
  rw [List.length_map] at this
  rw [this]
  split <;> simp

theorem mem_bump_other {m : List (Bytes × Nat)} {w k : Bytes} {n : Nat} (h : k ≠ w) : (k, n) ∈ bump m w ↔ (k, n) ∈ m := by
  induction m with
  | nil => simp [bump, h]
  | cons p m ih =>
    obtain ⟨k', n'⟩ := p
    simp only [bump]
    by_cases h' : k' = w
    · subst h'
      simp [h]
    · rw [if_neg h']
      simp [ih]

theorem mem_bump_old {m : List (Bytes × Nat)} {w : Bytes} {n n' : Nat} (hd : (m.map (·.1)).Nodup) (h : (w, n) ∈ m) :
    (w, n') ∈ bump m w ↔ n' = (n + 1) % 2 ^ 64 := by
  induction m with
  | nil => exact absurd h List.not_mem_nil
  | cons p m ih =>
    obtain ⟨k, j⟩ := p
    simp only [List.map_cons, List.nodup_cons] at hd
    simp only [bump]
    by_cases hk : k = w
    · subst hk
      have hj : n = j := by
        rcases List.mem_cons.mp h with h | h
        · simpa using h
        · exact absurd (List.mem_map_of_mem (f := (·.1)) h) hd.1
      have hn : (k, n') ∉ m := fun hm => hd.1 (List.mem_map_of_mem (f := (·.1)) hm)
      simp [hn, hj]
    · rw [if_neg hk]
      have hm : (w, n) ∈ m := by
        rcases List.mem_cons.mp h with h | h
        · exact absurd (by simpa using (congrArg (·.1) h).symm) hk
        · exact h
      rw [List.mem_cons, ih hd.2 hm]
      constructor
      · rintro (e | e)
        · exact absurd (congrArg (·.1) e).symm hk
        · exact e
      · exact .inr

theorem mem_bump_new {m : List (Bytes × Nat)} {w : Bytes} {n' : Nat} (h : w ∉ m.map (·.1)) : (w, n') ∈ bump m w ↔ n' = 1 := by
  induction m with
  | nil => simp [bump]
  | cons p m ih =>
    obtain ⟨k, j⟩ := p
    simp only [List.map_cons, List.mem_cons] at h
    have hk : k ≠ w := fun e => h (.inl e.symm)
    simp only [bump]
    rw [if_neg hk, List.mem_cons, ih (fun e => h (.inr e))]
    constructor
    · rintro (e | e)
      · exact absurd (congrArg (·.1) e).symm hk
      · exact e
    · exact .inr

/-- How often a word occurs. -/
def freq (lower : Bytes → Bytes) (ws : List Bytes) (w : Bytes) : Nat := (ws.filter fun x => lower x = w).length

theorem freq_snoc (lower : Bytes → Bytes) (ws : List Bytes) (x w : Bytes) :
    freq lower (ws ++ [x]) w = freq lower ws w + if lower x = w then 1 else 0 := by
  unfold freq
  by_cases h : lower x = w <;> simp [h]

theorem freq_le (lower : Bytes → Bytes) (ws : List Bytes) (w : Bytes) : freq lower ws w ≤ ws.length := List.length_filter_le _ _

/-- The state of the component after some words. -/
structure Tells (lower : Bytes → Bytes) (ws : List Bytes) (m : List (Bytes × Nat)) : Prop where
  exactly : ∀ w n, (w, n) ∈ m ↔ w ∉ stopWords ∧ n = freq lower ws w ∧ 0 < n
  once : (m.map (·.1)).Nodup
  few : m.length ≤ ws.length

theorem tells_nil (lower : Bytes → Bytes) : Tells lower [] [] := ⟨by simp [freq], by simp, by simp⟩

theorem tells_next {lower : Bytes → Bytes} {ws : List Bytes} {m : List (Bytes × Nat)} (h : Tells lower ws m) (hl : ws.length < 2 ^ 31)
    (x : Bytes) : Tells lower (ws ++ [x]) (Comp.next lower ⟨m, false⟩ x).counts := by
  unfold Comp.next
  simp only [Bool.false_eq_true, if_false]
  rw [ignored_stop]
  by_cases hs : lower x ∈ stopWords
  · rw [if_pos hs]
    refine ⟨fun w n => ?_, h.once, ?_⟩
    · rw [h.exactly, freq_snoc]
      by_cases hw : lower x = w
      · subst hw
        simp [hs]
      · simp [hw]
    · have := h.few
      simp
      omega
  · rw [if_neg hs]
    dsimp only
    refine ⟨fun w n => ?_, ?_, ?_⟩
    · rw [freq_snoc]
      by_cases hw : lower x = w
      · subst hw
        rw [if_pos rfl]
        by_cases hm : lower x ∈ m.map (·.1)
        · obtain ⟨⟨k, j⟩, hj, hk⟩ := List.mem_map.mp hm
          simp only at hk
          subst hk
          have hj' := (h.exactly _ _).mp hj
          rw [mem_bump_old h.once hj, hj'.2.1]
          have := freq_le lower ws (lower x)
          rw [Nat.mod_eq_of_lt (by omega)]
          constructor
          · rintro rfl; exact ⟨hs, rfl, by omega⟩
          · exact fun e => e.2.1
        · rw [mem_bump_new hm]
          have h0 : freq lower ws (lower x) = 0 := by
            rcases Nat.eq_zero_or_pos (freq lower ws (lower x)) with h0 | h0
            · exact h0
            · exact absurd (List.mem_map_of_mem (f := (·.1)) ((h.exactly _ _).mpr ⟨hs, rfl, h0⟩)) hm
          rw [h0]
          constructor
          · rintro rfl; exact ⟨hs, rfl, by omega⟩
          · exact fun e => e.2.1
      · rw [if_neg hw, mem_bump_other (fun e => hw e.symm), h.exactly]
        simp
    · rw [bump_keys]
      by_cases hm : lower x ∈ m.map (·.1)
      · rw [if_pos hm]; exact h.once
      · rw [if_neg hm, List.nodup_append]
        refine ⟨h.once, by simp, fun a ha b hb e => ?_⟩
        simp only [List.mem_singleton] at hb
        exact hm (hb ▸ e ▸ ha)
    · have h1 := h.few
      have h2 := bump_length m (lower x)
      simp only [List.length_append, List.length_cons, List.length_nil]
      omega

theorem next_open (lower : Bytes → Bytes) (c : Comp) (x : Bytes) (h : c.closed = false) : (c.next lower x).closed = false := by
  unfold Comp.next
  rw [h]
  simp only [Bool.false_eq_true, if_false]
  split
  · exact h
  · rfl

/-! ## The component -/

theorem frequencies_of {lower : Bytes → Bytes} {ws : List Bytes} {m : List (Bytes × Nat)} (h : Tells lower ws m)
    {arrange : List (Bytes × Nat) → List (Bytes × Nat)} (hs : Sorts arrange) : Frequencies lower ws (arrange m) := by
  obtain ⟨hp, hq⟩ := hs m
  exact ⟨fun w n => hp.mem_iff.trans (h.exactly w n), (hp.map _).nodup_iff.mpr h.once, hq⟩

theorem slice_all {l : List (Bytes × Nat)} (h : l.length < 2 ^ 31) :
    sliceResponse requestMax l = l.map (fun p => Push.next p.1 p.2) ++ [.complete] := by
  unfold sliceResponse
  have hr : l.length ≤ requestMax := by unfold requestMax; omega
  rw [List.take_of_length_le hr, List.drop_of_length_le hr, if_pos rfl]

theorem run_after (lower : Bytes → Bytes) (arrange : List (Bytes × Nat) → List (Bytes × Nat)) (l : List Word) (c : Comp)
    (h : c.closed = true) : (Comp.run lower arrange c l).2 = [] := by
  induction l with
  | nil => rfl
  | cons x l ih =>
    cases x with
    | next w =>
      simp only [Comp.run]
      rw [show c.next lower w = c by simp [Comp.next, h]]
      exact ih
    | complete =>
      simp only [Comp.run]
      rw [show c.complete arrange = (c, []) by simp [Comp.complete, h]]
      simpa using ih

theorem run_words (lower : Bytes → Bytes) (arrange : List (Bytes × Nat) → List (Bytes × Nat)) (l : List Word) (xs : List Bytes) :
    ∀ (ws : List Bytes) (m : List (Bytes × Nat)), Tells lower ws m → (ws ++ xs).length < 2 ^ 31 →
      ∃ m', Tells lower (ws ++ xs) m' ∧
        Comp.run lower arrange ⟨m, false⟩ (xs.map .next ++ l) = Comp.run lower arrange ⟨m', false⟩ l := by
  induction xs with
  | nil => intro ws m h _; exact ⟨m, by simpa using h, rfl⟩
  | cons x xs ih =>
    intro ws m h hl
    have hn := tells_next h (by simp at hl; omega) x
    obtain ⟨m', h1, h2⟩ := ih (ws ++ [x]) _ hn (by simpa using hl)
    refine ⟨m', by simpa using h1, ?_⟩
    rw [← h2]
    simp only [List.map_cons, List.cons_append, Comp.run]
    have : Comp.next lower ⟨m, false⟩ x = ⟨(Comp.next lower ⟨m, false⟩ x).counts, false⟩ := by
      have := next_open lower ⟨m, false⟩ x rfl
      revert this
      cases Comp.next lower ⟨m, false⟩ x
      rintro rfl
      rfl
    rw [← this]

/-- **C149, the component.** Whatever words it gets, fewer than 2^31: when their end comes, and not before, it pushes each
word that is not a stop word once, with the number of times it came, more frequent ones first, and then the end; and nothing
after that, whatever comes. -/
theorem words_counted (lower : Bytes → Bytes) (arrange : List (Bytes × Nat) → List (Bytes × Nat)) (hs : Sorts arrange)
    (ws : List Bytes) (hl : ws.length < 2 ^ 31) (rest : List Word) :
    (Comp.run lower arrange Comp.init (ws.map .next)).2 = [] ∧
    ∃ l, Frequencies lower ws l ∧
      (Comp.run lower arrange Comp.init (ws.map .next ++ .complete :: rest)).2 = l.map (fun p => Push.next p.1 p.2) ++ [.complete] := by
  constructor
  · obtain ⟨m, _, h2⟩ := run_words lower arrange [] ws [] [] (tells_nil lower) (by simpa using hl)
    rw [List.append_nil] at h2
    rw [Comp.init, h2]
    rfl
  · obtain ⟨m, h1, h2⟩ := run_words lower arrange (.complete :: rest) ws [] [] (tells_nil lower) (by simpa using hl)
    rw [List.nil_append] at h1
    refine ⟨arrange m, frequencies_of h1 hs, ?_⟩
    rw [Comp.init, h2]
    simp only [Comp.run]
    have hc : Comp.complete arrange ⟨m, false⟩ = (⟨m, true⟩, sliceResponse requestMax (arrange m)) := by simp [Comp.complete]
    rw [hc]
    dsimp only
    rw [run_after _ _ _ _ rfl, List.append_nil, slice_all]
    have := (hs m).1.length_eq
    have := h1.few
    omega

/-- A way to sort. -/
def insertCount (p : Bytes × Nat) : List (Bytes × Nat) → List (Bytes × Nat)
  | [] => [p]
  | q :: l => if q.2 ≤ p.2 then p :: q :: l else q :: insertCount p l

/-- A way to sort. -/
def sortCounts (l : List (Bytes × Nat)) : List (Bytes × Nat) := l.foldr insertCount []

theorem insert_perm (p : Bytes × Nat) (l : List (Bytes × Nat)) : (insertCount p l).Perm (p :: l) := by
  induction l with
  | nil => exact .refl _
  | cons q l ih =>
    simp only [insertCount]
    split
    · exact .refl _
    · exact (ih.cons q).trans (.swap p q l)

theorem insert_sorted (p : Bytes × Nat) (l : List (Bytes × Nat)) (h : l.Pairwise fun a b => b.2 ≤ a.2) :
    (insertCount p l).Pairwise fun a b => b.2 ≤ a.2 := by
  induction l with
  | nil => simp [insertCount]
  | cons q l ih =>
    simp only [insertCount]
    have hq := List.pairwise_cons.mp h
    split
    · rename_i hle
      refine List.pairwise_cons.mpr ⟨fun x hx => ?_, h⟩
      rcases List.mem_cons.mp hx with rfl | hx
      · exact hle
      · exact Nat.le_trans (hq.1 x hx) hle
    · rename_i hle
      refine List.pairwise_cons.mpr ⟨fun x hx => ?_, ih hq.2⟩
      rcases List.mem_cons.mp ((insert_perm p l).mem_iff.mp hx) with rfl | hx
      · omega
      · exact hq.1 x hx

theorem sort_sorts : Sorts sortCounts := by
  intro l
  induction l with
  | nil => exact ⟨.refl _, .nil⟩
  | cons p l ih => exact ⟨(insert_perm p _).trans (ih.1.cons p), insert_sorted p _ ih.2⟩

/-- "c", "b", "the", "b". -/
example : (Comp.run id sortCounts Comp.init
    [.next [99], .next [98], .next [116, 104, 101], .next [98], .complete, .next [99], .complete]).2 =
    [.next [98] 2, .next [99] 1, .complete] := by decide +kernel

/-! ## The handler -/

theorem wordCount_wf : WellFormed wordCountEnv := by
  refine ⟨fun n => ?_, fun n => ?_, fun n => ?_, fun n fs h => ?_, fun _ => 0, fun n h => Nat.zero_lt_one, fun n s m h => ?_⟩ <;>
    rcases n with _ | n <;> simp_all [wordCountEnv, Codegen.Env.get, Codegen.Def.fields, names, short]

theorem wordCount_bytes (lib : Lib) (w : Bytes) (n : Nat) (hw : w.length < 2 ^ 31) (hn : n < 2 ^ 64) :
    ∃ d, Codegen.toBytes wordCountEnv (.named 0) (wordCount w n) (wordCount w n) = .ok d ∧
      ∃ f0, ∀ f, f0 ≤ f → Codegen.fromBytes wordCountEnv lib f 0 d = some (.ok (wordCount w n)) := by
  obtain ⟨bs, h1, h2⟩ := Codegen.codec_round_trip_partial lib wordCountEnv wordCount_wf 0 (wordCount w n) (wordCount w n) (.refl _)
    (.struct rfl (.cons (.prim (by simp [IsPrim, short]; omega)) (.cons (.prim (by simp [IsPrim]; omega)) .nil))) (by
      simp [wordCount, Codegen.write, Codegen.Ty.strip, Codegen.Env.get, wordCountEnv, Codegen.writeFields, Codegen.Sc.op, Size.ops, Size.op,
        Size.str, Size.strLen, Size.mapSize, Size.uint, U32]
      (repeat' split) <;> omega)
  exact ⟨bs, h1, h2⟩

/-- What `PortIO.Encode` makes for a port, and what the other side takes it for. -/
theorem port_bytes (name : Bytes) (c n : Bool) (h : name.length < 2 ^ 16) :
    ∃ md, PortIO.encode ⟨name, [], c, n⟩ = .ok md ∧ PortIO.decode md = .ok ⟨name, [], c || n, c || n⟩ :=
  Registry.port_round_trip_partial ⟨name, [], c, n⟩ h

theorem counts_short : countsPort.length < 2 ^ 16 := by decide

/-- What the subscriber of the handler's result is sent for counts. -/
inductive Payloads (lib : Lib) : List (Bytes × Nat) → List Out → Prop
  | nil : Payloads lib [] []
  | cons {w n md d l out} (h : IsCount lib true md d w n) (t : Payloads lib l out) : Payloads lib ((w, n) :: l) (.next md d :: out)

theorem shows_of {lib : Lib} {l : List (Bytes × Nat)} {out : List Out} (h : Payloads lib l out) {md : Bytes} {n : Bool}
    (hm : PortIO.decode md = .ok ⟨text "counts", [], true, n⟩) : Shows lib (out ++ [.next md [], .complete]) l := by
  induction h with
  | nil => exact .done hm
  | cons h _ ih => exact .count h ih

theorem payloads_last {lib : Lib} {l : List (Bytes × Nat)} {out : List Out} (h : Payloads lib l out) {md d : Bytes}
    (hx : Out.next md d ∈ out) : ∃ p, PortIO.decode md = .ok p ∧ p.complete = true ∧ p.next = true := by
  induction h with
  | nil => exact absurd hx List.not_mem_nil
  | cons h t ih =>
    rcases List.mem_cons.mp hx with e | hx
    · cases e
      exact ⟨_, h.1, rfl, rfl⟩
    · exact ih hx

theorem pushes_append (s : Freq) (l k : List Push) : s.pushes (l ++ k) = (s.pushes l).bind fun s' => s'.pushes k := by
  induction l generalizing s with
  | nil => rfl
  | cons p l ih =>
    simp only [List.cons_append, Freq.pushes]
    cases s.push p with
    | ok s' => exact ih s'
    | err e => rfl
    | panic => rfl

theorem push_counts (lib : Lib) (l : List (Bytes × Nat)) (hl : ∀ p ∈ l, p.1.length < 2 ^ 31 ∧ p.2 < 2 ^ 64) :
    ∀ (s : Freq), s.countsClosed = false → s.sink.closed = false →
      ∃ out, Payloads lib l out ∧
        s.pushes (l.map fun p => Push.next p.1 p.2) = .ok { s with sink := ⟨false, s.sink.out ++ out⟩ } := by
  induction l with
  | nil =>
    intro s _ hs
    refine ⟨[], .nil, ?_⟩
    obtain ⟨c, cc, f, ⟨sc, so⟩, ic⟩ := s
    simp only at hs
    subst hs
    simp [Freq.pushes]
  | cons p l ih =>
    intro s hc hs
    obtain ⟨w, n⟩ := p
    obtain ⟨hw, hn⟩ := hl (w, n) List.mem_cons_self
    obtain ⟨d, d1, d2⟩ := wordCount_bytes lib w n hw hn
    obtain ⟨md, m1, m2⟩ := port_bytes countsPort false true counts_short
    have hp : s.push (.next w n) = .ok { s with sink := ⟨false, s.sink.out ++ [.next md d]⟩ } := by
      simp only [Freq.push, hc, Bool.false_eq_true, if_false, d1, m1, Res.bind, Sink.next, hs]
    obtain ⟨out, o1, o2⟩ := ih (fun p hp => hl p (List.mem_cons_of_mem _ hp)) { s with sink := ⟨false, s.sink.out ++ [.next md d]⟩ } hc rfl
    refine ⟨.next md d :: out, .cons ⟨counts_text ▸ m2, d2⟩ o1, ?_⟩
    simp only [List.map_cons, Freq.pushes, hp, Res.bind]
    rw [o2]
    simp

/-- The end of the words: all counts, the end of the port, the end. -/
theorem complete_open (lib : Lib) {arrange : List (Bytes × Nat) → List (Bytes × Nat)} (hs : Sorts arrange) {lower : Bytes → Bytes}
    {ws : List Bytes} (hl : ws.length < 2 ^ 31) (hw : ∀ w ∈ ws, (lower w).length < 2 ^ 31) (s : Freq) (hm : Tells lower ws s.comp.counts)
    (hc : s.comp.closed = false) (hk : s.countsClosed = false) (hf : s.finalized = 0) (ho : s.sink = Sink.new) :
    ∃ s' l, s.wordsComplete arrange = .ok s' ∧ Shows lib s'.sink.out l ∧ Frequencies lower ws l ∧
      s'.comp.closed = true ∧ s'.sink.closed = true ∧ s'.inClosed = s.inClosed ∧
      (∀ x ∈ s'.sink.out, ∀ md d, x = .next md d → ∃ p, PortIO.decode md = .ok p ∧ p.complete = true ∧ p.next = true) := by
  have hlen : (arrange s.comp.counts).length < 2 ^ 31 := by
    have := (hs s.comp.counts).1.length_eq
    have := hm.few
    omega
  have hall : ∀ p ∈ arrange s.comp.counts, p.1.length < 2 ^ 31 ∧ p.2 < 2 ^ 64 := by
    intro p hp
    obtain ⟨w, n⟩ := p
    have h1 := (hm.exactly w n).mp ((hs s.comp.counts).1.mem_iff.mp hp)
    obtain ⟨_, rfl, h2⟩ := h1
    have h3 := freq_le lower ws w
    refine ⟨?_, by dsimp only; omega⟩
    unfold freq at h2
    obtain ⟨x, hx⟩ := List.exists_mem_of_length_pos h2
    obtain ⟨hx1, hx2⟩ := List.mem_filter.mp hx
    have := hw x hx1
    simp only [decide_eq_true_eq] at hx2
    rw [← hx2]; exact this
  obtain ⟨out, o1, o2⟩ := push_counts lib (arrange s.comp.counts) hall { s with comp := ⟨s.comp.counts, true⟩ } hk (by rw [ho]; rfl)
  obtain ⟨md, m1, m2⟩ := port_bytes countsPort true false counts_short
  have hcc : s.comp.complete arrange = (⟨s.comp.counts, true⟩, sliceResponse requestMax (arrange s.comp.counts)) := by
    simp [Comp.complete, hc]
  refine ⟨⟨⟨s.comp.counts, true⟩, true, 1, ⟨true, out ++ [.next md [], .complete]⟩, s.inClosed⟩, arrange s.comp.counts, ?_,
    shows_of o1 (counts_text ▸ m2), frequencies_of hm hs, rfl, rfl, rfl, ?_⟩
  · unfold Freq.wordsComplete
    rw [hcc, slice_all hlen]
    dsimp only
    rw [pushes_append, o2]
    simp only [Res.bind, Freq.pushes, Freq.push, hk, Bool.false_eq_true, if_false, m1, Freq.final, hf, Nat.zero_add, if_true, Sink.next,
      Sink.complete, ho, Sink.new, List.nil_append, List.append_assoc, List.singleton_append]
  · intro x hx md' d' e
    subst e
    rcases List.mem_append.mp hx with hx | hx
    · exact payloads_last o1 hx
    · simp at hx
      obtain ⟨rfl, rfl⟩ := hx
      exact ⟨_, m2, rfl, rfl⟩

theorem text_words_short : (text "words").length < 2 ^ 16 := by decide +kernel

/-- What arrives when a word is sent. -/
theorem sent {w : Bytes} {i : In} (h : SendsWord w i) (hw : w.length < 2 ^ 31) :
    ∃ md d, i = .next md d ∧ PortIO.decode md = .ok ⟨text "words", [], true, true⟩ ∧ Transform.string.decode d = .ok w := by
  obtain ⟨md, d, h1, h2, rfl⟩ := h
  obtain ⟨md', e1, e2⟩ := port_bytes (text "words") false true text_words_short
  rw [h1] at e1
  cases e1
  obtain ⟨d', f1, f2⟩ := Transform.string_inverse w (by simp [Size.str, Size.strLen, U32]; (repeat' split) <;> omega) (by simp [short]; omega)
  rw [h2] at f1
  cases f1
  exact ⟨md, d, rfl, e2, f2⟩

theorem sends (w : Bytes) (hw : w.length < 2 ^ 31) : ∃ i, SendsWord w i := by
  obtain ⟨md', e1, _⟩ := port_bytes (text "words") false true text_words_short
  obtain ⟨d', f1, _⟩ := Transform.string_inverse w (by simp [Size.str, Size.strLen, U32]; (repeat' split) <;> omega) (by simp [short]; omega)
  exact ⟨_, md', d', e1, f1, rfl⟩

/-- Once the words have ended, the result changes no more. -/
theorem step_closed (lower : Bytes → Bytes) (arrange : List (Bytes × Nat) → List (Bytes × Nat)) {s s' : Freq} {i : In}
    (hc : s.comp.closed = true) (hs : s.sink.closed = true) (h : s.step lower arrange i = .ok s') :
    s'.comp.closed = true ∧ s'.sink = s.sink := by
  have he : ∀ e, s.sink.error e = s.sink := fun e => by simp [Sink.error, hs]
  have hw : ∀ t : Freq, t.comp = s.comp → t.wordsComplete arrange = .ok t := by
    intro t ht
    obtain ⟨c, cc, f, k, ic⟩ := t
    simp only at ht
    subst ht
    simp [Freq.wordsComplete, Comp.complete, hc, Freq.pushes]
  have ha : ∀ (b : Bool) (t : Freq), t.comp = s.comp → t.afterWord arrange b = .ok t := by
    intro b t ht
    unfold Freq.afterWord
    cases b
    · rfl
    · exact hw t ht
  have hn : ∀ w, s.comp.next lower w = s.comp := fun w => by simp [Comp.next, hc]
  unfold Freq.step at h
  by_cases hi : s.inClosed = true
  · rw [if_pos hi] at h
    cases h
    exact ⟨hc, rfl⟩
  · rw [if_neg hi] at h
    cases i with
    | complete =>
      simp only at h
      rw [hw { s with inClosed := true } rfl] at h
      cases h
      exact ⟨hc, rfl⟩
    | error e =>
      simp only at h
      cases h
      exact ⟨hc, rfl⟩
    | next md d =>
      simp only at h
      cases hd : PortIO.decode md with
      | panic => rw [hd] at h; cases h
      | err e =>
        rw [hd] at h
        cases h
        exact ⟨hc, he e⟩
      | ok port =>
        rw [hd] at h
        simp only at h
        by_cases hp : port.port = wordsPort
        · rw [if_pos hp] at h
          unfold Freq.onWords at h
          by_cases hx : port.next = true
          · rw [if_pos hx] at h
            cases hq : Transform.string.decode d with
            | panic => rw [hq] at h; cases h
            | err e =>
              rw [hq] at h
              cases h
              exact ⟨hc, he e⟩
            | ok w =>
              rw [hq] at h
              simp only at h
              rw [ha port.complete { s with comp := s.comp.next lower w } (hn w)] at h
              cases h
              exact ⟨by rw [hn]; exact hc, rfl⟩
          · rw [if_neg hx, ha port.complete s rfl] at h
            cases h
            exact ⟨hc, rfl⟩
        · rw [if_neg hp] at h
          cases h
          exact ⟨hc, rfl⟩

theorem run_closed (lower : Bytes → Bytes) (arrange : List (Bytes × Nat) → List (Bytes × Nat)) (l : List In) :
    ∀ {s s' : Freq}, s.comp.closed = true → s.sink.closed = true → s.run lower arrange l = .ok s' → s'.sink = s.sink := by
  induction l with
  | nil => intro s s' _ _ h; simp only [Freq.run] at h; cases h; rfl
  | cons i l ih =>
    intro s s' hc hs h
    simp only [Freq.run] at h
    cases h1 : s.step lower arrange i with
    | panic => rw [h1] at h; cases h
    | err e => rw [h1] at h; cases h
    | ok s1 =>
      rw [h1] at h
      simp only [Res.bind] at h
      obtain ⟨k1, k2⟩ := step_closed lower arrange hc hs h1
      rw [ih k1 (by rw [k2]; exact hs) h, k2]

/-- The first word. -/
theorem first_word (lib : Lib) (lower : Bytes → Bytes) {arrange : List (Bytes × Nat) → List (Bytes × Nat)} (hs : Sorts arrange)
    {w : Bytes} {i : In} (h : SendsWord w i) (hw : w.length < 2 ^ 31) (hlow : (lower w).length < 2 ^ 31) :
    ∃ s l, Freq.init.step lower arrange i = .ok s ∧ Shows lib s.sink.out l ∧ Frequencies lower [w] l ∧ s.comp.closed = true ∧
      s.sink.closed = true ∧ s.inClosed = false ∧
      (∀ x ∈ s.sink.out, ∀ md d, x = .next md d → ∃ p, PortIO.decode md = .ok p ∧ p.complete = true ∧ p.next = true) := by
  obtain ⟨md, d, rfl, h1, h2⟩ := sent h hw
  have ht := tells_next (tells_nil lower) (by decide) w
  have ho := next_open lower ⟨[], false⟩ w rfl
  obtain ⟨s, l, c1, c2, c3, c4, c5, c6, c7⟩ := complete_open lib hs (lower := lower) (ws := [w]) (by simp)
    (fun x hx => by simp only [List.mem_singleton] at hx; rw [hx]; exact hlow)
    { Freq.init with comp := Comp.next lower ⟨[], false⟩ w } ht ho rfl rfl rfl
  refine ⟨s, l, ?_, c2, c3, c4, c5, c6, c7⟩
  rw [← c1]
  simp only [Freq.step, h1, words_text, if_true, Freq.onWords, h2, Freq.afterWord, Freq.init, Comp.init, Bool.false_eq_true, if_false]

/-! ## What is shown is determined -/

theorem count_unique {lib : Lib} {md d w w' : Bytes} {n n' : Nat} {a b : Bool} (h : IsCount lib a md d w n) (h' : IsCount lib b md d w' n') :
    w = w' ∧ n = n' := by
  obtain ⟨_, f, h1⟩ := h
  obtain ⟨_, f', h2⟩ := h'
  have e := (h1 (max f f') (Nat.le_max_left _ _)).symm.trans (h2 (max f f') (Nat.le_max_right _ _))
  simp only [wordCount, Option.some.injEq, Res.ok.injEq, Codegen.GV.obj.injEq, List.cons.injEq, Codegen.GV.sc.injEq, Codegen.Sc.str.injEq,
    Codegen.Sc.uint.injEq, and_true] at e
  exact e

theorem shows_unique {lib : Lib} {out : List Out} {l : List (Bytes × Nat)} (h : Shows lib out l) :
    ∀ {l'}, Shows lib out l' → l = l' := by
  induction h with
  | done h =>
    intro l' h'
    cases h' with
    | done _ => rfl
    | count _ t => cases t
  | count h t ih =>
    intro l' h'
    cases h' with
    | done _ => cases t
    | count h2 t2 =>
      obtain ⟨rfl, rfl⟩ := count_unique h h2
      rw [ih t2]

/-! ## The claims about the handler -/

/-- **C149 (partial), the handler.** For a caller that sends no word, or one, and then ends, the result is the list of
frequencies, the end of the port and the end. Missing: more words. -/
theorem few_words_partial (lib : Lib) (lower : Bytes → Bytes) (arrange : List (Bytes × Nat) → List (Bytes × Nat)) (hs : Sorts arrange) :
    (∃ s, Freq.init.run lower arrange [.complete] = .ok s ∧ Shows lib s.sink.out [] ∧ Frequencies lower [] []) ∧
    ∀ w i, SendsWord w i → w.length < 2 ^ 31 → (lower w).length < 2 ^ 31 →
      ∃ s l, Freq.init.run lower arrange [i, .complete] = .ok s ∧ Shows lib s.sink.out l ∧ Frequencies lower [w] l := by
  constructor
  · obtain ⟨s, l, c1, c2, c3, _⟩ := complete_open lib hs (lower := lower) (ws := []) (by simp) (by simp)
      { Freq.init with inClosed := true } (tells_nil lower) rfl rfl rfl rfl
    have hl : l = [] := by
      rcases l with _ | ⟨⟨w, n⟩, l⟩
      · rfl
      · have := (c3.exactly w n).mp List.mem_cons_self
        simp at this
        omega
    subst hl
    refine ⟨s, ?_, c2, c3⟩
    simp only [Freq.run]
    rw [show Freq.init.step lower arrange .complete = .ok s by
      rw [← c1]; simp [Freq.step, Freq.init]]
    rfl
  · intro w i h hw hlow
    obtain ⟨s, l, c1, c2, c3, c4, c5, c6, _⟩ := first_word lib lower hs h hw hlow
    refine ⟨{ s with inClosed := true }, l, ?_, c2, c3⟩
    simp only [Freq.run, c1, Res.bind]
    have : s.step lower arrange .complete = .ok { s with inClosed := true } := by
      simp [Freq.step, c6, Freq.wordsComplete, Comp.complete, c4, Freq.pushes]
    rw [this]

/-- **C149 is false of the code**, for all inputs with more than one word. Every payload that a caller sends as not the last
one is taken for the last one (both flags are 1), so only the first word is counted: whatever follows it, the result is the
frequencies of this one word; if another word that counts follows, it is not the list of frequencies. And every count that
is sent is marked as the last one. -/
theorem only_first_word_refuted (lib : Lib) (lower : Bytes → Bytes) (arrange : List (Bytes × Nat) → List (Bytes × Nat)) (hs : Sorts arrange)
    (w : Bytes) (i : In) (h : SendsWord w i) (hw : w.length < 2 ^ 31) (hlow : (lower w).length < 2 ^ 31) (rest : List In) (s : Freq)
    (hr : Freq.init.run lower arrange (i :: rest) = .ok s) :
    (∃ l, Shows lib s.sink.out l ∧ Frequencies lower [w] l) ∧
    (∀ ws, (∃ x ∈ ws, lower x ∉ stopWords) → ∀ l, Shows lib s.sink.out l → ¬ Frequencies lower (w :: ws) l) ∧
    (∀ md d, Out.next md d ∈ s.sink.out → ∃ p, PortIO.decode md = .ok p ∧ p.complete = true) := by
  obtain ⟨s1, l, c1, c2, c3, c4, c5, c6, c7⟩ := first_word lib lower hs h hw hlow
  simp only [Freq.run, c1, Res.bind] at hr
  have hk := run_closed lower arrange rest c4 c5 hr
  rw [hk]
  refine ⟨⟨l, c2, c3⟩, ?_, fun md d hm => ?_⟩
  · rintro ws ⟨x, hx, hns⟩ l' hl' hf
    have := shows_unique c2 hl'
    subst this
    have h1 : 0 < freq lower (w :: ws) (lower x) := by
      unfold freq
      exact List.length_pos_of_mem (List.mem_filter.mpr ⟨List.mem_cons_of_mem _ hx, by simp⟩)
    have h2 := (hf.exactly (lower x) (freq lower (w :: ws) (lower x))).mpr ⟨hns, rfl, h1⟩
    obtain ⟨_, h3, _⟩ := (c3.exactly _ _).mp h2
    by_cases he : lower w = lower x
    · have e1 : freq lower (w :: ws) (lower x) = freq lower ws (lower x) + 1 := by unfold freq; simp [he]
      have e2 : 0 < freq lower ws (lower x) := by
        unfold freq
        exact List.length_pos_of_mem (List.mem_filter.mpr ⟨hx, by simp⟩)
      simp [he] at h3
      omega
    · simp [he] at h3
      omega
  · obtain ⟨p, p1, p2, _⟩ := c7 _ hm md d rfl
    exact ⟨p, p1, p2⟩

/-- **C149**, further: when the caller's input fails, the handler does nothing, now and for ever: before the first word,
neither end nor error reaches the caller. -/
theorem failed_input_refuted (lower : Bytes → Bytes) (arrange : List (Bytes × Nat) → List (Bytes × Nat)) (e : String) (rest : List In) :
    ∃ s, Freq.init.run lower arrange (.error e :: rest) = .ok s ∧ s.sink = Sink.new := by
  have : ∀ (l : List In) (t : Freq), t.inClosed = true → t.run lower arrange l = .ok t := by
    intro l
    induction l with
    | nil => intro t _; rfl
    | cons i l ih =>
      intro t ht
      simp only [Freq.run, Freq.step, ht, if_true, Res.bind]
      exact ih t ht
  refine ⟨{ Freq.init with inClosed := true }, ?_, rfl⟩
  simp only [Freq.run]
  rw [show Freq.init.step lower arrange (.error e) = .ok { Freq.init with inClosed := true } by simp [Freq.step, Freq.init]]
  exact this rest _ rfl

/-- A payload with less than three bytes of metadata makes `PortIO.Decode` panic. -/
theorem decode_short (md : Bytes) (h : md.length < 3) : PortIO.decode md = .panic := by
  match md, h with
  | [], _ => rfl
  | [a], _ => rfl
  | [a, b], _ => rfl
  | _ :: _ :: _ :: _, h => simp at h; omega

/-- **C149**, further: a payload with less than three bytes of metadata, at any time before the end of the input, crashes. -/
theorem short_metadata_refuted (lower : Bytes → Bytes) (arrange : List (Bytes × Nat) → List (Bytes × Nat)) (s : Freq) (hi : s.inClosed = false)
    (md d : Bytes) (h : md.length < 3) (rest : List In) : s.run lower arrange (.next md d :: rest) = .panic := by
  simp only [Freq.run, Freq.step, hi, Bool.false_eq_true, if_false, decode_short md h, Res.bind]

/-- "b" and "c" are sent; only "b" is counted. -/
example (lib : Lib) : ∃ i j s l, SendsWord [98] i ∧ SendsWord [99] j ∧ Freq.init.run id sortCounts [i, j, .complete] = .ok s ∧
    Shows lib s.sink.out l ∧ l = [([98], 1)] := by
  refine ⟨.next [1, 0, 5, 119, 111, 114, 100, 115] [0xa1, 98], .next [1, 0, 5, 119, 111, 114, 100, 115] [0xa1, 99],
    ⟨⟨[([98], 1)], true⟩, true, 1, ⟨true, [.next [1, 0, 6, 99, 111, 117, 110, 116, 115] [130, 164, 119, 111, 114, 100, 161, 98, 165, 99, 111, 117, 110, 116, 1],
      .next [1, 0, 6, 99, 111, 117, 110, 116, 115] [], .complete]⟩, true⟩, _,
    ⟨_, _, by decide +kernel, by decide +kernel, rfl⟩, ⟨_, _, by decide +kernel, by decide +kernel, rfl⟩, by decide +kernel, ?_, rfl⟩
  refine .count (last := true) ⟨by decide +kernel, ?_⟩ (.done (n := true) (by decide +kernel))
  obtain ⟨d, h1, h2⟩ := wordCount_bytes lib [98] 1 (by decide) (by decide)
  have : Codegen.toBytes wordCountEnv (.named 0) (wordCount [98] 1) (wordCount [98] 1) =
      .ok [130, 164, 119, 111, 114, 100, 161, 98, 165, 99, 111, 117, 110, 116, 1] := by decide +kernel
  rw [h1] at this
  cases this
  exact h2

/-! ## Components that make one value of one value -/

section
variable {α : Type} (c : Single α)

theorem final_closed (s : SState) (h : s.sink.closed = true) : s.final.sink = s.sink := by
  unfold SState.final
  split
  · simp [Sink.complete, h]
  · rfl

theorem forward_closed {s s' : SState} {v : Bytes} (h : s.sink.closed = true) (hf : s.forward c v = .ok s') : s'.sink = s.sink := by
  unfold SState.forward at hf
  cases he : Transform.string.encode v with
  | panic => rw [he] at hf; cases hf
  | err e =>
    rw [he] at hf
    cases hf
    simp [Sink.error, h]
  | ok d =>
    rw [he] at hf
    simp only at hf
    cases hp : PortIO.encode ⟨c.outPort, [], true, true⟩ with
    | panic => rw [hp] at hf; cases hf
    | err e => rw [hp] at hf; cases hf
    | ok md =>
      rw [hp] at hf
      simp only [Res.bind] at hf
      cases hf
      simp [Sink.next, h]

theorem input_closed {s s' : SState} {a : α} (h : s.sink.closed = true) (hf : s.input c a = .ok s') : s'.sink = s.sink := by
  unfold SState.input at hf
  split at hf
  · cases hf; rfl
  · unfold SState.output at hf
    split at hf
    · cases hf; rfl
    · cases hw : SState.forward c { s with inputClosed := true, outputClosed := true } (c.value a) with
      | panic => rw [hw] at hf; cases hf
      | err e => rw [hw] at hf; cases hf
      | ok t =>
        rw [hw] at hf
        simp only [Res.bind] at hf
        cases hf
        have := forward_closed c (s := { s with inputClosed := true, outputClosed := true }) h hw
        simp only at this
        rw [final_closed t (by rw [this]; exact h), this]

/-- Once the result has ended, nothing more is sent. -/
theorem single_step_closed {s s' : SState} {i : In} (h : s.sink.closed = true) (hf : s.step c i = .ok s') : s'.sink = s.sink := by
  unfold SState.step at hf
  split at hf
  · cases hf; rfl
  · cases i with
    | complete => simp only at hf; cases hf; rfl
    | error e => simp only at hf; cases hf; rfl
    | next md d =>
      simp only at hf
      cases hd : PortIO.decode md with
      | panic => rw [hd] at hf; cases hf
      | err e => rw [hd] at hf; cases hf; simp [Sink.error, h]
      | ok port =>
        rw [hd] at hf
        simp only at hf
        split at hf
        · unfold SState.onPort at hf
          split at hf
          · cases hp : c.parse d with
            | panic => rw [hp] at hf; cases hf
            | err e => rw [hp] at hf; cases hf; simp [Sink.error, h]
            | ok a => rw [hp] at hf; exact input_closed c h hf
          · cases hf; rfl
        · cases hf; rfl

theorem single_run_closed (l : List In) : ∀ {s s' : SState}, s.sink.closed = true → s.run c l = .ok s' → s'.sink = s.sink := by
  induction l with
  | nil => intro s s' _ h; simp only [SState.run] at h; cases h; rfl
  | cons i l ih =>
    intro s s' hs h
    simp only [SState.run] at h
    cases h1 : s.step c i with
    | panic => rw [h1] at h; cases h
    | err e => rw [h1] at h; cases h
    | ok s1 =>
      rw [h1] at h
      have hk := single_step_closed c hs h1
      rw [ih (by rw [hk]; exact hs) h, hk]

theorem single_run_ended (l : List In) (s : SState) (h : s.inClosed = true) : s.run c l = .ok s := by
  induction l with
  | nil => rfl
  | cons i l ih => simp only [SState.run, SState.step, h, if_true, Res.bind]; exact ih

theorem bind_noErr {β γ : Type} {r : Res β} {f : β → Res γ} (h1 : ∀ e, r ≠ .err e) (h2 : ∀ b e, f b ≠ .err e) (e : String) :
    (r >>= f) ≠ .err e := by
  cases r with
  | ok b => exact h2 b e
  | err e' => exact absurd rfl (h1 e')
  | panic => exact fun h => by cases h

/-- `PortIO.Decode` returns no error. -/
theorem port_err (md : Bytes) (e : String) : PortIO.decode md ≠ .err e := by
  unfold PortIO.decode
  have h1 : ∀ (b : Bytes) n e, index b n ≠ .err e := by intro b n e; unfold index; split <;> simp
  have h2 : ∀ (b : Bytes) n e, sliceFrom b n ≠ .err e := by intro b n e; unfold sliceFrom; split <;> simp
  have h3 : ∀ (b : Bytes) n e, sliceTo b n ≠ .err e := by intro b n e; unfold sliceTo; split <;> simp
  have h4 : ∀ (b : Bytes) e, getU16 b ≠ .err e := by intro b e; unfold getU16; split <;> simp
  exact bind_noErr (h1 _ _) (fun _ => bind_noErr (h2 _ _) fun _ => bind_noErr (h4 _) fun _ => bind_noErr (h2 _ _) fun _ =>
    bind_noErr (h3 _ _) fun _ => bind_noErr (h2 _ _) fun _ e => by simp) e

/-- The answer. -/
theorem answer_open {a : α} (hv : (c.value a).length < 2 ^ 31) (hp : c.outPort.length < 2 ^ 16) :
    ∃ md d s, SState.init.input c a = .ok s ∧ s.sink = ⟨true, [.next md d, .complete]⟩ ∧ IsText c.outPort md d (c.value a) := by
  obtain ⟨md, m1, m2⟩ := port_bytes c.outPort true true hp
  obtain ⟨d, d1, d2⟩ := Transform.string_inverse (c.value a) (by simp [Size.str, Size.strLen, U32]; (repeat' split) <;> omega)
    (by simp [short]; omega)
  refine ⟨md, d, ⟨true, true, 1, ⟨true, [.next md d, .complete]⟩, false⟩, ?_, rfl, m2, d2⟩
  simp [SState.input, SState.init, SState.output, SState.forward, d1, m1, Res.bind, SState.final, Sink.next, Sink.complete, Sink.new]

/-- **C150 (partial)** For every component of this kind and every input, as long as nothing panics: the first payload for its
port decides. If it can be read, the result is one payload for the output port, marked as its last one, with the text made of
the value, and the end; if not, this error; payloads for other ports and all that follows change nothing. Missing: the end of
a result whose input ends or fails before that (`silent_refuted`), and metadata that panics (`short_metadata_refuted'`). -/
theorem single_answers_partial (hp : c.outPort.length < 2 ^ 16) (ins : List In) : ∀ (s : SState),
    (∀ a, firstFor c.inPort c.parse ins = some (.ok a) → (c.value a).length < 2 ^ 31) → SState.init.run c ins = .ok s →
    match firstFor c.inPort c.parse ins with
    | none => s.sink = Sink.new
    | some (.ok a) => ∃ md d, s.sink = ⟨true, [.next md d, .complete]⟩ ∧ IsText c.outPort md d (c.value a)
    | some (.err e) => s.sink = ⟨true, [.error e]⟩
    | some .panic => False := by
  induction ins with
  | nil =>
    intro s _ h
    simp only [SState.run] at h
    cases h
    rfl
  | cons i l ih =>
    intro s hv h
    simp only [SState.run] at h
    cases i with
    | complete =>
      simp only [firstFor]
      have : SState.init.step c .complete = .ok { SState.init with inClosed := true } := by simp [SState.step, SState.init]
      rw [this] at h
      simp only [Res.bind] at h
      rw [single_run_ended c l _ rfl] at h
      cases h
      rfl
    | error e =>
      simp only [firstFor]
      have : SState.init.step c (.error e) = .ok { SState.init with inClosed := true } := by simp [SState.step, SState.init]
      rw [this] at h
      simp only [Res.bind] at h
      rw [single_run_ended c l _ rfl] at h
      cases h
      rfl
    | next md d =>
      cases hd : PortIO.decode md with
      | err e => exact absurd hd (port_err md e)
      | panic =>
        have : SState.init.step c (.next md d) = .panic := by simp [SState.step, SState.init, hd]
        rw [this] at h
        cases h
      | ok port =>
        by_cases hq : port.port = c.inPort ∧ port.next = true
        · have hff : firstFor c.inPort c.parse (.next md d :: l) = some (c.parse d) := by simp [firstFor, hd, hq]
          have hst : SState.init.step c (.next md d) = match c.parse d with
            | .ok a => SState.init.input c a
            | .err e => .ok { SState.init with sink := Sink.new.error e }
            | .panic => .panic := by
            simp only [SState.step, SState.init, hd, hq.1, if_true, SState.onPort, hq.2, Bool.false_eq_true, if_false]
            cases c.parse d <;> rfl
          rw [hff] at hv ⊢
          rw [hst] at h
          cases hx : c.parse d with
          | panic => rw [hx] at h; cases h
          | err e =>
            rw [hx] at h
            simp only [Res.bind] at h
            exact single_run_closed c l (by simp [Sink.error, Sink.new]) h
          | ok a =>
            rw [hx] at h hv
            obtain ⟨md', d', s1, a1, a2, a3⟩ := answer_open c (hv a rfl) hp
            simp only [a1, Res.bind] at h
            refine ⟨md', d', ?_, a3⟩
            rw [← a2]
            exact single_run_closed c l (by rw [a2]) h
        · have hff : firstFor c.inPort c.parse (.next md d :: l) = firstFor c.inPort c.parse l := by simp only [firstFor, hd, if_neg hq]
          have hst : SState.init.step c (.next md d) = .ok SState.init := by
            simp only [SState.step, SState.init, hd, Bool.false_eq_true, if_false]
            by_cases h1 : port.port = c.inPort
            · have : port.next = false := by
                cases hn : port.next
                · rfl
                · exact absurd ⟨h1, hn⟩ hq
              rw [if_pos h1, SState.onPort, this]
              rfl
            · rw [if_neg h1]
          rw [hff] at hv ⊢
          rw [hst] at h
          exact ih s hv h

/-- **C150 is false of the code**: if the input ends or fails before a value came, the result never ends, whatever
happens. -/
theorem silent_refuted (rest : List In) (i : In) (hi : i = .complete ∨ ∃ e, i = .error e) :
    ∃ s, SState.init.run c (i :: rest) = .ok s ∧ s.sink = Sink.new := by
  have : SState.init.step c i = .ok { SState.init with inClosed := true } := by
    rcases hi with rfl | ⟨e, rfl⟩ <;> simp [SState.step, SState.init]
  refine ⟨{ SState.init with inClosed := true }, ?_, rfl⟩
  simp only [SState.run, this, Res.bind]
  exact single_run_ended c rest _ rfl

/-- **C150**, further: a payload with less than three bytes of metadata, at any time before the end of the input, crashes. -/
theorem short_metadata_refuted' (s : SState) (hi : s.inClosed = false) (md d : Bytes) (h : md.length < 3) (rest : List In) :
    s.run c (.next md d :: rest) = .panic := by
  simp only [SState.run, SState.step, hi, Bool.false_eq_true, if_false, decode_short md h, Res.bind]

end

theorem firstFor_sent {α : Type} {port md d : Bytes} {parse : Bytes → Res α} {a b : Bool} (hl : port.length < 2 ^ 16) (hab : (a || b) = true)
    (hm : PortIO.encode ⟨port, [], a, b⟩ = .ok md) (rest : List In) : firstFor port parse (.next md d :: rest) = some (parse d) := by
  obtain ⟨md', m1, m2⟩ := port_bytes port a b hl
  rw [hm] at m1
  cases m1
  simp only [firstFor, m2]
  rw [if_pos ⟨trivial, hab⟩]

theorem strings_wf : WellFormed stringsEnv := by
  refine ⟨fun n => ?_, fun n => ?_, fun n => ?_, fun n fs h => ?_, fun _ => 0, fun n h => Nat.zero_lt_one, fun n s m h => ?_⟩ <;>
    rcases n with _ | n <;> simp_all [stringsEnv, Codegen.Env.get, Codegen.Def.fields, names, short]

theorem strings_bytes (lib : Lib) (l r : Bytes) (h : l.length + r.length < 2 ^ 30) :
    ∃ d, Codegen.toBytes stringsEnv (.named 0) (stringsValue l r) (stringsValue l r) = .ok d ∧
      ∃ f0, ∀ f, f0 ≤ f → parseStrings lib f d = .ok (l, r) := by
  obtain ⟨bs, h1, f0, h2⟩ := Codegen.codec_round_trip_partial lib stringsEnv strings_wf 0 (stringsValue l r) (stringsValue l r) (.refl _)
    (.struct rfl (.cons (.prim (by simp [IsPrim, short]; omega)) (.cons (.prim (by simp [IsPrim, short]; omega)) .nil))) (by
      simp [stringsValue, Codegen.write, Codegen.Ty.strip, Codegen.Env.get, stringsEnv, Codegen.writeFields, Codegen.Sc.op, Size.ops, Size.op,
        Size.str, Size.strLen, Size.mapSize, U32]
      (repeat' split) <;> omega)
  refine ⟨bs, h1, f0, fun f hf => ?_⟩
  unfold parseStrings
  rw [h2 f hf]
  rfl

/-- **C150**, `Concat`: two strings sent to the port `strings` come back on the port `value`, joined by a space, and then the
end comes, whatever else is sent. -/
theorem concat_joins (lib : Lib) (l r : Bytes) (h : l.length + r.length < 2 ^ 30) :
    ∃ d f0, Codegen.toBytes stringsEnv (.named 0) (stringsValue l r) (stringsValue l r) = .ok d ∧
      ∀ fuel, f0 ≤ fuel → ∀ (a b : Bool) (md : Bytes), (a || b) = true → PortIO.encode ⟨text "strings", [], a, b⟩ = .ok md →
      ∀ rest s, SState.init.run (concat lib fuel) (.next md d :: rest) = .ok s →
        ∃ md' d', s.sink.out = [.next md' d', .complete] ∧ IsText (text "value") md' d' (l ++ text " " ++ r) := by
  obtain ⟨d, d1, f0, d2⟩ := strings_bytes lib l r h
  refine ⟨d, f0, d1, fun fuel hf a b md hab hm rest s hr => ?_⟩
  have e1 : (concat lib fuel).inPort = text "strings" := by show [115, 116, 114, 105, 110, 103, 115] = text "strings"; decide +kernel
  have e2 : (concat lib fuel).outPort = text "value" := by show [118, 97, 108, 117, 101] = text "value"; decide +kernel
  have e3 : text " " = [32] := by decide +kernel
  have hl : (text "strings").length < 2 ^ 16 := by decide +kernel
  have ho : (text "value").length < 2 ^ 16 := by decide +kernel
  have hff : firstFor (concat lib fuel).inPort (concat lib fuel).parse (.next md d :: rest) = some (.ok (l, r)) := by
    rw [e1, firstFor_sent hl hab hm]
    show some (parseStrings lib fuel d) = _
    rw [d2 fuel hf]
  have hout := single_answers_partial (concat lib fuel) (by rw [e2]; exact ho) (.next md d :: rest) s (by
    intro x hx
    rw [hff] at hx
    simp only [Option.some.injEq, Res.ok.injEq] at hx
    subst hx
    show (l ++ [32] ++ r).length < 2 ^ 31
    simp
    omega) hr
  rw [hff] at hout
  obtain ⟨md', d', h1, h2⟩ := hout
  rw [e2] at h2
  exact ⟨md', d', by rw [h1], by rw [e3]; exact h2⟩

/-- **C150**, `Greeter`: a name sent to the port `name` is greeted on the port `message`, and then the end comes. -/
theorem greeter_greets (name : Bytes) (h : name.length < 2 ^ 30) :
    ∃ d, Transform.string.encode name = .ok d ∧
      ∀ (a b : Bool) (md : Bytes), (a || b) = true → PortIO.encode ⟨text "name", [], a, b⟩ = .ok md →
      ∀ rest s, SState.init.run greeter (.next md d :: rest) = .ok s →
        ∃ md' d', s.sink.out = [.next md' d', .complete] ∧ IsText (text "message") md' d' (text "Hello, " ++ name) := by
  obtain ⟨d, d1, d2⟩ := Transform.string_inverse name (by simp [Size.str, Size.strLen, U32]; (repeat' split) <;> omega) (by simp [short]; omega)
  refine ⟨d, d1, fun a b md hab hm rest s hr => ?_⟩
  have e1 : greeter.inPort = text "name" := by decide +kernel
  have e2 : greeter.outPort = text "message" := by decide +kernel
  have e3 : text "Hello, " = [72, 101, 108, 108, 111, 44, 32] := by decide +kernel
  have hl : (text "name").length < 2 ^ 16 := by decide +kernel
  have ho : (text "message").length < 2 ^ 16 := by decide +kernel
  have hff : firstFor greeter.inPort greeter.parse (.next md d :: rest) = some (.ok name) := by
    rw [e1, firstFor_sent hl hab hm]
    show some (Transform.string.decode d) = _
    rw [d2]
  have hout := single_answers_partial greeter (by rw [e2]; exact ho) (.next md d :: rest) s (by
    intro x hx
    rw [hff] at hx
    simp only [Option.some.injEq, Res.ok.injEq] at hx
    subst hx
    show ([72, 101, 108, 108, 111, 44, 32] ++ name).length < 2 ^ 31
    simp
    omega) hr
  rw [hff] at hout
  obtain ⟨md', d', h1, h2⟩ := hout
  rw [e2] at h2
  exact ⟨md', d', by rw [h1], by rw [e3]; exact h2⟩

/-- "Bo" is greeted; the payload for another port before it and the second name after it change nothing. -/
example : SState.init.run greeter [.next [1, 0, 1, 120] [7], .next [1, 0, 4, 110, 97, 109, 101] [0xa2, 66, 111],
    .next [1, 0, 4, 110, 97, 109, 101] [0xa1, 67], .complete] =
    .ok ⟨true, true, 1, ⟨true, [.next [1, 0, 7, 109, 101, 115, 115, 97, 103, 101] [0xa9, 72, 101, 108, 108, 111, 44, 32, 66, 111],
      .complete]⟩, true⟩ := by decide +kernel

end Iota.Props.Components
