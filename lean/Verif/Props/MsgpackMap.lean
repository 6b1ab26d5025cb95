import Verif.Props.Msgpack

/-! # Maps that repeat a key (C86) -/

namespace Iota.Props.MsgpackMap
open Iota.Go Iota.Msgpack Iota.Spec.Msgpack Iota.Lemmas.Msgpack

/-- The value an entry gives to a string key. -/
def entry (s : Bytes) : Val × Val → Option Val
  | (.str k, v) => if k = s then some v else none
  | _ => none

/-- The last value of a key in a list of entries. -/
def last (s : Bytes) : List (Val × Val) → Option Val
  | [] => none
  | p :: l => (last s l).orElse fun _ => entry s p

/-- The value of a string key in the map that was read: a Go map has one entry per key. -/
def value (s : Bytes) (m : List (Any × Any)) : Option Val :=
  (m.find? fun p => Dec.keyEq p.1 (.str s)).map fun p => den p.2

/-- Entries one after the other. -/
def setAll (m : List (Any × Any)) (ws : List (Any × Any)) : List (Any × Any) :=
  ws.foldl (fun m p => Dec.mapSet m p.1 p.2) m

theorem keyEq_str (k : Any) (s : Bytes) : Dec.keyEq k (.str s) = true ↔ k = .str s := by
  cases k <;> simp [Dec.keyEq]

theorem value_set (m : List (Any × Any)) (k s : Bytes) (v : Any) :
    value s (Dec.mapSet m (.str k) v) = if k = s then some (den v) else value s m := by
  induction m with
  | nil =>
    simp only [Dec.mapSet, value, List.find?_cons, List.find?_nil]
    by_cases h : k = s
    · simp [Dec.keyEq, h]
    · simp [Dec.keyEq, h]
  | cons p m ih =>
    obtain ⟨k', v'⟩ := p
    rw [Dec.mapSet]
    by_cases hk : Dec.keyEq k' (.str k) = true
    · have := (keyEq_str _ _).mp hk
      subst this
      rw [if_pos hk]
      simp only [value, List.find?_cons]
      by_cases h : k = s
      · simp [Dec.keyEq, h]
      · simp [Dec.keyEq, h]
    · rw [if_neg hk]
      simp only [value, List.find?_cons] at ih ⊢
      by_cases h : Dec.keyEq k' (.str s) = true
      · have := (keyEq_str _ _).mp h
        subst this
        have hne : ¬ k = s := fun e => hk (by simp [Dec.keyEq, e])
        simp [h, hne]
      · have h : Dec.keyEq k' (.str s) = false := by simpa using h
        rw [h]
        exact ih

theorem keys_set (m : List (Any × Any)) (k : Bytes) (v : Any) (h : (m.map (·.1)).Nodup) :
    ((Dec.mapSet m (.str k) v).map (·.1)).Nodup ∧
      ∀ x, x ∈ (Dec.mapSet m (.str k) v).map (·.1) ↔ x = .str k ∨ x ∈ m.map (·.1) := by
  induction m with
  | nil => simp [Dec.mapSet]
  | cons p m ih =>
    obtain ⟨k', v'⟩ := p
    simp only [List.map_cons, List.nodup_cons] at h
    obtain ⟨i1, i2⟩ := ih h.2
    rw [Dec.mapSet]
    by_cases hk : Dec.keyEq k' (.str k) = true
    · have := (keyEq_str _ _).mp hk
      subst this
      rw [if_pos hk]
      simp only [List.map_cons, List.nodup_cons, List.mem_cons]
      exact ⟨h, fun x => by simp⟩
    · rw [if_neg hk]
      simp only [List.map_cons, List.nodup_cons, List.mem_cons, i2]
      refine ⟨⟨?_, i1⟩, fun x => ?_⟩
      · rintro (e | e)
        · exact hk ((keyEq_str _ _).mpr e)
        · exact h.1 e
      · constructor
        · rintro (e | e | e)
          · exact .inr (.inl e)
          · exact .inl e
          · exact .inr (.inr e)
        · rintro (e | e | e)
          · exact .inr (.inl e)
          · exact .inl e
          · exact .inr (.inr e)

/-- Reading entries with string keys, repeated or not. -/
def RunAll (bs : Bytes) (ws : List (Any × Any)) : Prop :=
  ∃ fuel, ∀ m (pre rest : Bytes), (pre ++ bs ++ rest).length < 2 ^ 32 →
    Dec.map fuel ws.length m ⟨pre ++ bs ++ rest, pre.length, false⟩ =
      some (.ok (.mapAA (setAll m ws)), ⟨pre ++ bs ++ rest, pre.length + bs.length, false⟩)

theorem runAll_cons {a b c : Bytes} {k : Bytes} {w : Any} {ws : List (Any × Any)} (hk : ReadsRun Dec.any a (.str k))
    (h : ReadsRun Dec.any b w) (hs : RunAll c ws) : RunAll (a ++ (b ++ c)) ((.str k, w) :: ws) := by
  obtain ⟨e, he⟩ := hk
  obtain ⟨f, hf⟩ := h
  obtain ⟨g, hg⟩ := hs
  refine ⟨max e (max f g) + 1, fun m pre rest hlt => ?_⟩
  have h0 := any_mono (g := max e (max f g)) (by omega) (he pre (b ++ c ++ rest) (by simpa using hlt))
  have h1 := any_mono (g := max e (max f g)) (by omega) (hf (pre ++ a) (c ++ rest) (by simpa using hlt))
  have h2 := map_mono (g := max e (max f g)) (by omega)
    (hg (Dec.mapSet m (.str k) w) (pre ++ a ++ b) rest (by simpa using hlt))
  simp only [List.append_assoc, List.length_append, List.length_cons, Nat.add_assoc] at h0 h1 h2 ⊢
  rw [Dec.map, h0]
  simp only
  rw [h1]
  simp only [Dec.unhashable, Bool.false_eq_true, if_false]
  rw [h2]
  simp [Nat.add_assoc, setAll]

theorem entries_read {E} : (l : List (Val × Val)) → (bs : Bytes) → WirePairs E l bs →
    (∀ p ∈ l, (∃ s, p.1 = .str s) ∧ Readable p.2) →
    ∃ ws, RunAll bs ws ∧ denA ws = l ∧ ∀ p ∈ ws, ∃ s, p.1 = .str s
  | [], _, .nil, _ => ⟨[], ⟨1, fun m pre rest _ => by simp [Dec.map, setAll]⟩, rfl, by simp⟩
  | (k, v) :: l, _, .cons (a := a) hk hv hl, hr => by
    obtain ⟨⟨s, rfl⟩, h2⟩ := hr (k, v) List.mem_cons_self
    obtain ⟨w, h3, h4⟩ := any_reads hv h2
    obtain ⟨ws, h5, h6, h7⟩ := entries_read l _ hl fun p hp => hr p (List.mem_cons_of_mem _ hp)
    have hks : ReadsRun Dec.any a (.str s) := by
      cases hk with
      | str hh => exact run_leaf (anyHead_str hh)
    refine ⟨(.str s, w) :: ws, runAll_cons hks h3 h5, by simp [denA, den, h4, h6], ?_⟩
    intro p hp
    rcases List.mem_cons.mp hp with rfl | hp
    · exact ⟨s, rfl⟩
    · exact h7 p hp

theorem value_all (s : Bytes) (ws : List (Any × Any)) (hw : ∀ p ∈ ws, ∃ k, p.1 = .str k) : ∀ m,
    value s (setAll m ws) = (last s (denA ws)).orElse fun _ => value s m := by
  induction ws with
  | nil => intro m; rfl
  | cons p ws ih =>
    intro m
    obtain ⟨k, v⟩ := p
    obtain ⟨k', rfl⟩ : ∃ k', k = .str k' := hw (k, v) List.mem_cons_self
    have e : setAll m ((.str k', v) :: ws) = setAll (Dec.mapSet m (.str k') v) ws := rfl
    rw [e, ih (fun p hp => hw p (List.mem_cons_of_mem _ hp)), value_set]
    simp only [denA, last, den, entry]
    cases last s (denA ws) with
    | some x => rfl
    | none =>
      by_cases h : k' = s
      · simp [h]
      · simp [h]

theorem keys_all (ws : List (Any × Any)) (hw : ∀ p ∈ ws, ∃ k, p.1 = .str k) : ∀ m : List (Any × Any), (m.map (·.1)).Nodup →
    ((setAll m ws).map (·.1)).Nodup := by
  induction ws with
  | nil => intro m h; exact h
  | cons p ws ih =>
    intro m h
    obtain ⟨k, v⟩ := p
    obtain ⟨k', rfl⟩ : ∃ k', k = .str k' := hw (k, v) List.mem_cons_self
    exact ih (fun p hp => hw p (List.mem_cons_of_mem _ hp)) _ (keys_set m k' v h).1

/-- **C86** `ReadAny` on a map with string keys, of which some may be repeated, whatever precedes and follows it: the map
read has every key once, and each with the last of its values. -/
theorem repeated_keys_last {E} (l : List (Val × Val)) (h b : Bytes) (hh : MapHead l.length h) (hb : WirePairs E l b)
    (hl : ∀ p ∈ l, (∃ s, p.1 = .str s) ∧ Readable p.2) :
    ∃ m, ReadsRun Dec.any (h ++ b) (.mapAA m) ∧ (m.map (·.1)).Nodup ∧ ∀ s, value s m = last s l := by
  obtain ⟨ws, ⟨f, hf⟩, hd, hw⟩ := entries_read l b hb hl
  have hlen : l.length = ws.length := by rw [← hd, denA_length]
  refine ⟨setAll [] ws, ⟨f + 1, fun pre rest hlt => ?_⟩, keys_all ws hw [] (by simp), fun s => ?_⟩
  · have h1 := anyHead_map hh pre (b ++ rest) (by simpa using hlt)
    have h2 := hf [] (pre ++ h) rest (by simpa using hlt)
    simp only [List.append_assoc, List.length_append] at h1 h2 ⊢
    rw [Dec.any, h1]
    simp only
    rw [hlen, h2]
    simp [Nat.add_assoc]
  · rw [value_all s ws hw, hd]
    cases last s l <;> rfl

/-- Three entries, two of them for the same key. -/
example : WirePairs ExtHead [(.str [0x61], .int 1), (.str [0x62], .int 2), (.str [0x61], .int 3)]
      ([0xa1, 0x61] ++ ([1] ++ ([0xa1, 0x62] ++ ([2] ++ ([0xa1, 0x61] ++ ([3] ++ [])))))) ∧
    last [0x61] [(.str [0x61], .int 1), (.str [0x62], .int 2), (.str [0x61], .int 3)] = some (.int 3) ∧
    Dec.any 9 (D.new [0x83, 0xa1, 0x61, 1, 0xa1, 0x62, 2, 0xa1, 0x61, 3]) =
      some (.ok (.mapAA [(.str [0x61], .int .i64 3), (.str [0x62], .int .i64 2)]),
        ⟨[0x83, 0xa1, 0x61, 1, 0xa1, 0x62, 2, 0xa1, 0x61, 3], 10, false⟩) := by
  refine ⟨?_, rfl, by rfl⟩
  have i : ∀ n : Nat, n < 128 → Wire ExtHead (.int n) [UInt8.ofNat n] := fun n h => .posfix h
  have s : ∀ c : UInt8, Wire ExtHead (.str [c]) [0xa1, c] := fun c => .str (s := [c]) (h := [0xa1]) (.fix (by simp))
  exact .cons (s _) (i 1 (by omega)) (.cons (s _) (i 2 (by omega)) (.cons (s _) (i 3 (by omega)) .nil))

end Iota.Props.MsgpackMap
