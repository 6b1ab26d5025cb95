import Verif.Model.Framing
import Verif.Spec.Framing

/-! # Helper lemmas on the frame scanner -/

namespace Iota.Lemmas.Framing
open Iota.Go Iota.Frames Iota.U24 Iota.Framing Iota.Spec.Framing

theorem read24 (d : Bytes) (h : 3 ≤ d.length) : readUint24ToInt d = .ok (beNat (d.take 3)) := by
  match d, h with
  | a :: b :: c :: r, _ =>
    simp [readUint24ToInt, beNat, Nat.shiftLeft_eq]; omega

theorem beNat_take3_lt (d : Bytes) : beNat (d.take 3) < 16777216 := by
  have h := beNat_lt (d.take 3)
  have h2 : (256 : Nat) ^ (d.take 3).length ≤ 256 ^ 3 :=
    Nat.pow_le_pow_right (by omega) (by simp; omega)
  omega

/-- Length announced by the first three bytes. -/
def ann (d : Bytes) : Nat := beNat (d.take 3)

theorem ann_append (w r : Bytes) (h : 3 ≤ w.length) : ann (w ++ r) = ann w := by
  unfold ann; rw [List.take_append_of_le_length h]

theorem ann_packet (m r : Bytes) (h : m.length < 2 ^ 24) : ann (packet m ++ r) = m.length := by
  unfold ann packet
  rw [List.append_assoc, List.take_append_of_le_length (by simp), List.take_of_length_le (by simp),
    beNat_beBytes_of_lt (by omega)]

/-- Scanner in working order. -/
structure WF (s : Scanner) : Prop where
  le : s.start ≤ s.stop
  stop : s.stop ≤ s.buf.length
  pos : 0 < s.buf.length
  max : s.buf.length ≤ maxBuffSize
  stalls : ∀ e ∈ s.rd.evs, e.stalls ≤ maxEmptyReads

/-- Bytes received or still to come that have not been handed out. -/
def rest (s : Scanner) : Bytes := s.window ++ s.rd.rem

theorem window_length {s : Scanner} (h : WF s) : s.window.length = s.stop - s.start := by
  have := h.stop
  simp only [Scanner.window, List.length_take, List.length_drop]; omega

/-- Complete or zero-length packet at the front. -/
def Ready (w : Bytes) : Prop := 3 ≤ w.length ∧ (ann w = 0 ∨ ann w + 3 ≤ w.length)

instance (w : Bytes) : Decidable (Ready w) := by unfold Ready; infer_instance

theorem trySplit_more {s : Scanner} (h : WF s) (he : s.err = none) (hr : ¬ Ready s.window) :
    trySplit s = .more s := by
  unfold trySplit
  rw [he]
  split
  · have hd : doSplit s.window false = .ok (0, none) := by
      unfold doSplit lengthFieldSize
      rw [if_neg (by simp)]
      by_cases h3 : s.window.length < 3
      · rw [if_pos h3]
      · rw [if_neg h3, read24 _ (by omega)]
        have h1 : ¬ (beNat (s.window.take 3) < 1) := fun hc =>
          hr ⟨by omega, Or.inl (by unfold ann; omega)⟩
        have h2 : ¬ (beNat (s.window.take 3) + 3 ≤ s.window.length) := fun hc =>
          hr ⟨by omega, Or.inr (by unfold ann; omega)⟩
        simp only [Res.ok_bind]
        rw [if_neg h1, if_neg h2]; rfl
    simp only [Option.isSome_none, hd]
    cases s; simp_all
  · rfl

theorem trySplit_zero {s : Scanner} (h : WF s) (he : s.err = none) (h3 : 3 ≤ s.window.length)
    (hz : ann s.window = 0) :
    trySplit s = .fail { s with err := some (.split "rsocket: invalid frame length") } := by
  have hl := window_length h
  unfold trySplit
  rw [if_pos (Or.inl (by omega)), he]
  have hd : doSplit s.window false = .err "rsocket: invalid frame length" := by
    unfold doSplit lengthFieldSize
    rw [if_neg (by simp), if_neg (by omega), read24 _ h3]
    simp only [Res.ok_bind]
    rw [if_pos (by unfold ann at hz; omega)]
  simp only [Option.isSome_none, hd]

theorem trySplit_token {s : Scanner} (h : WF s) (he : s.err = none) (h3 : 3 ≤ s.window.length)
    (hp : 1 ≤ ann s.window) (hc : ann s.window + 3 ≤ s.window.length) :
    trySplit s = .token ⟨s.old.length, s.start, ann s.window + 3⟩
      { s with start := s.start + (ann s.window + 3) } := by
  have hl := window_length h
  unfold trySplit
  rw [if_pos (Or.inl (by omega)), he]
  have hd : doSplit s.window false = .ok (ann s.window + 3, some (ann s.window + 3)) := by
    unfold doSplit lengthFieldSize
    rw [if_neg (by simp), if_neg (by omega), read24 _ h3]
    simp only [Res.ok_bind]
    rw [if_neg (by unfold ann at hp; omega), if_pos (by unfold ann at hc; omega)]; rfl
  simp only [Option.isSome_none, hd]
  rw [if_neg (by omega)]

theorem shift_spec {s : Scanner} (h : WF s) :
    WF (shift s) ∧ (shift s).window = s.window ∧ (shift s).rd = s.rd ∧ (shift s).err = s.err ∧
      (shift s).old = s.old ∧
      ((shift s).stop = (shift s).buf.length → s.window.length = (shift s).buf.length) := by
  have hl := window_length h
  have h1 := h.le
  have h2 := h.stop
  unfold shift
  split
  · have hlen : (s.window ++ s.buf.drop s.window.length).length = s.buf.length := by
      simp only [List.length_append, List.length_drop]; omega
    refine ⟨⟨by simp, ?_, ?_, ?_, h.stalls⟩, ?_, rfl, rfl, rfl, ?_⟩
    · simp only [hlen]; omega
    · simp only [hlen]; exact h.pos
    · simp only [hlen]; exact h.max
    · show ((s.window ++ s.buf.drop s.window.length).drop 0).take (s.stop - s.start - 0) = _
      rw [List.drop_zero, Nat.sub_zero, ← hl, List.take_left']
      rfl
    · simp only [hlen]; omega
  · rename_i hc
    refine ⟨h, rfl, rfl, rfl, rfl, fun he => ?_⟩
    have : s.start = 0 := Nat.eq_zero_of_not_pos (fun hp => hc ⟨hp, Or.inl he⟩)
    omega

theorem grow_spec {s : Scanner} (h : WF s) (hfull : s.stop = s.buf.length → s.window.length = s.buf.length)
    (hm : s.window.length < maxBuffSize) :
    ∃ s', grow s = some s' ∧ WF s' ∧ s'.window = s.window ∧ s'.rd = s.rd ∧ s'.err = s.err ∧
      s'.stop < s'.buf.length := by
  have hl := window_length h
  have h1 := h.le
  have h2 := h.stop
  have h3 := h.pos
  unfold grow
  by_cases hc : s.stop = s.buf.length
  · have hw := hfull hc
    rw [if_pos hc, if_neg (by omega)]
    generalize hz : min (s.buf.length * 2) maxBuffSize - s.window.length = z
    have hlen : (s.window ++ List.replicate z (0 : UInt8)).length = s.window.length + z := by simp
    refine ⟨_, rfl, ⟨by simp, ?_, ?_, ?_, h.stalls⟩, ?_, rfl, rfl, ?_⟩
    · simp only [hlen]; omega
    · simp only [hlen]; omega
    · simp only [hlen]; omega
    · show ((s.window ++ List.replicate z (0 : UInt8)).drop 0).take (s.stop - s.start - 0) = _
      rw [List.drop_zero, Nat.sub_zero, ← hl, List.take_left']
      rfl
    · simp only [hlen]; omega
  · rw [if_neg hc]
    exact ⟨s, rfl, h, rfl, rfl, rfl, by omega⟩

theorem nextSize_bounds {r : Reader} {space : Nat} (h : 0 < space) :
    1 ≤ r.nextSize space ∧ r.nextSize space ≤ space := by
  unfold Reader.nextSize
  split <;> omega

theorem nextStalls_le {r : Reader} (h : ∀ e ∈ r.evs, e.stalls ≤ maxEmptyReads) :
    ¬ (r.nextStalls > maxEmptyReads) := by
  unfold Reader.nextStalls
  split
  · simp
  · rename_i e _ he
    have := h e (by rw [he]; simp)
    omega

theorem readMore_spec {s : Scanner} (h : WF s) (hs : s.stop < s.buf.length) :
    ∃ c : Bytes, s.rd.rem = c ++ (readMore s).rd.rem ∧ (s.rd.rem ≠ [] → c ≠ []) ∧
      WF (readMore s) ∧ (readMore s).window = s.window ++ c ∧
      (readMore s).rd.together = s.rd.together ∧ (readMore s).rd.final = s.rd.final ∧
      (readMore s).err = (if s.rd.rem = [] ∨ (s.rd.together = true ∧ (readMore s).rd.rem = [])
        then some (.io s.rd.final) else none) := by
  have hb := nextSize_bounds (r := s.rd) (space := s.buf.length - s.stop) (by omega)
  have h1 := h.le
  have h2 := h.stop
  unfold readMore
  rw [if_neg (nextStalls_le h.stalls)]
  generalize hk : s.rd.nextSize (s.buf.length - s.stop) = k at hb
  have hread : (s.rd.read (s.buf.length - s.stop)).1 = s.rd.rem.take k := by
    unfold Reader.read; rw [hk]
    split
    · rename_i he; rw [he]; simp
    · rfl
  have herr : (s.rd.read (s.buf.length - s.stop)).2 =
      if s.rd.rem = [] ∨ (s.rd.together = true ∧ s.rd.rem.drop k = []) then some s.rd.final else none := by
    unfold Reader.read; rw [hk]
    by_cases he : s.rd.rem = []
    · rw [if_pos he, if_pos (Or.inl he)]
    · rw [if_neg he]; simp [he]
  rw [hread, herr]
  have hafter : (s.rd.after (s.buf.length - s.stop)).rem = s.rd.rem.drop k := by
    simp only [Reader.after, hk]
  have hcl : (s.rd.rem.take k).length ≤ s.buf.length - s.stop := by simp; omega
  have hlen : (s.buf.take s.stop ++ s.rd.rem.take k ++ s.buf.drop (s.stop + (s.rd.rem.take k).length)).length
      = s.buf.length := by
    simp only [List.length_append, List.length_take, List.length_drop] at hcl ⊢; omega
  refine ⟨s.rd.rem.take k, ?_, ?_, ⟨?_, ?_, ?_, ?_, ?_⟩, ?_, rfl, rfl, ?_⟩
  · simp only [hafter]; rw [List.take_append_drop]
  · intro hne hc
    cases hr : s.rd.rem with
    | nil => exact hne hr
    | cons a t =>
      rw [hr] at hc
      cases k with
      | zero => omega
      | succ k => simp at hc
  · show s.start ≤ s.stop + (s.rd.rem.take k).length; omega
  · simp only [hlen]; omega
  · simp only [hlen]; exact h.pos
  · simp only [hlen]; exact h.max
  · intro e he
    exact h.stalls e (by
      simp only [Reader.after] at he
      exact List.mem_of_mem_tail he)
  · simp only [Scanner.window]
    rw [List.append_assoc, List.drop_append_of_le_length (by simp; omega),
      ← List.append_assoc, List.take_append_of_le_length (by simp; omega),
      List.take_of_length_le (by simp; omega)]
    rw [List.drop_take]
  · simp only [hafter]
    split <;> rfl

theorem scanLoop_err {s : Scanner} {e : ScanErr} (h : s.err = some e) (n : Nat) :
    scanLoop (n + 1) s = some (.ok (none, { s with start := 0, stop := 0 })) := by
  have ht : trySplit s = .more s := by
    unfold trySplit
    rw [if_pos (Or.inr (by simp [h])), h]
    cases s; simp_all [doSplit]
  simp only [scanLoop, ht, h, Option.isSome_some, if_true]

/-- What a call of `Scan` may lead to when `p` are the bytes not handed out yet. -/
inductive Outcome (s : Scanner) (p : Bytes) : Option (Res (Option View × Scanner)) → Prop
  | token (s' : Scanner) (v : View) (h3 : 3 ≤ p.length) (hp : 1 ≤ ann p) (hc : ann p + 3 ≤ p.length)
      (hd : s'.deref v = p.take (ann p + 3)) (hl : v.len = ann p + 3)
      (hr : rest s' = p.drop (ann p + 3)) (wf : WF s') (he : s'.err = none)
      (ht : s'.rd.together = s.rd.together) (hf : s'.rd.final = s.rd.final)
      (hg : v.gen = s'.old.length) (ho : v.off + v.len = s'.start) :
      Outcome s p (some (.ok (some v, s')))
  | zero (s' : Scanner) (h3 : 3 ≤ p.length) (hz : ann p = 0)
      (he : s'.err = some (.split "rsocket: invalid frame length")) :
      Outcome s p (some (.ok (none, s')))
  | ended (s' : Scanner) (he : s'.err = some (.io s.rd.final))
      (hn : s.rd.together = true ∨ ¬ Ready p) : Outcome s p (some (.ok (none, s')))

theorem Outcome.congr {s t : Scanner} {p q : Bytes} {r} (h : Outcome t q r) (hp : q = p)
    (ht : t.rd.together = s.rd.together) (hf : t.rd.final = s.rd.final) : Outcome s p r := by
  subst hp
  cases h with
  | token s' v h3 hp hc hd hl hr wf he ht' hf' hg ho =>
    exact .token s' v h3 hp hc hd hl hr wf he (ht'.trans ht) (hf'.trans hf) hg ho
  | zero s' h3 hz he => exact .zero s' h3 hz he
  | ended s' he hn => exact .ended s' (hf ▸ he) (ht ▸ hn)

theorem deref_token (s : Scanner) (n m : Nat) :
    ({ s with start := m } : Scanner).deref ⟨s.old.length, s.start, n⟩ = (s.buf.drop s.start).take n := by
  simp [Scanner.deref]

theorem scanLoop_spec (n : Nat) : ∀ (s : Scanner), WF s → s.err = none → ∀ fuel, s.rd.rem.length ≤ n →
    n + 2 ≤ fuel → Outcome s (rest s) (scanLoop fuel s) := by
  induction n with
  | zero =>
    intro s wf he fuel hn hfu
    obtain ⟨f, rfl⟩ : ∃ f, fuel = f + 2 := ⟨fuel - 2, by omega⟩
    exact scan_step s wf he f (Or.inl (by simpa using hn)) 
  | succ n ih =>
    intro s wf he fuel hn hfu
    obtain ⟨f, rfl⟩ : ∃ f, fuel = f + 2 := ⟨fuel - 2, by omega⟩
    by_cases hr : s.rd.rem = []
    · exact scan_step s wf he f (Or.inl hr)
    · refine scan_step s wf he f (Or.inr fun s' wf' he' hlt => ih s' wf' he' (f + 1) (by omega) (by omega))
where
  /-- One round. -/
  scan_step (s : Scanner) (wf : WF s) (he : s.err = none) (f : Nat)
      (next : s.rd.rem = [] ∨ ∀ s' : Scanner, WF s' → s'.err = none →
        s'.rd.rem.length < s.rd.rem.length → Outcome s' (rest s') (scanLoop (f + 1) s')) :
      Outcome s (rest s) (scanLoop (f + 2) s) := by
    have hl := window_length wf
    by_cases hr : Ready s.window
    · obtain ⟨h3, hz⟩ := hr
      have ha : ann (rest s) = ann s.window := ann_append _ _ h3
      have hlen : (rest s).length = s.window.length + s.rd.rem.length := by simp [rest]
      by_cases h0 : ann s.window = 0
      · rw [scanLoop, trySplit_zero wf he h3 h0]
        exact .zero _ (by omega) (by omega) rfl
      · have hc : ann s.window + 3 ≤ s.window.length := by omega
        rw [scanLoop, trySplit_token wf he h3 (by omega) hc]
        have h2 := wf.stop
        refine .token _ _ (by omega) (by omega) (by omega) ?_ (by rw [ha]) ?_ ?_ he rfl rfl rfl rfl
        · rw [deref_token, ha, rest, List.take_append_of_le_length hc]
          generalize ann s.window = k at hc
          rw [Scanner.window, List.take_take, Nat.min_eq_left (by omega)]
        · rw [ha, rest, rest, List.drop_append_of_le_length hc]
          congr 1
          simp only [Scanner.window, List.drop_take, List.drop_drop]
          congr 1
          omega
        · exact ⟨by simp; omega, h2, wf.pos, wf.max, wf.stalls⟩
    · have hm : s.window.length < maxBuffSize := by
        by_cases h3 : 3 ≤ s.window.length
        · have := beNat_take3_lt s.window
          have h4 : ¬ (ann s.window + 3 ≤ s.window.length) := fun hc => hr ⟨h3, Or.inr hc⟩
          unfold ann at h4
          unfold maxBuffSize lengthFieldSize; omega
        · unfold maxBuffSize lengthFieldSize; omega
      obtain ⟨w1, hw1, hrd1, he1, ho1, hfull⟩ := shift_spec wf
      obtain ⟨s2, hg, w2, hw2, hrd2, he2, hlt⟩ := grow_spec w1 (by rw [hw1]; exact hfull) (by rw [hw1]; exact hm)
      rw [scanLoop, trySplit_more wf he hr]
      simp only [he, Option.isSome_none, Bool.false_eq_true, if_false, hg]
      obtain ⟨c, hc1, hc2, w3, hw3, ht3, hf3, he3⟩ := readMore_spec w2 hlt
      rw [hrd2, hrd1] at hc1 hc2 ht3 hf3 he3
      have hrest : rest (readMore s2) = rest s := by
        rw [rest, rest, hw3, hw2, hw1, hc1, List.append_assoc]
      by_cases hend : s.rd.rem = [] ∨ (s.rd.together = true ∧ (readMore s2).rd.rem = [])
      · rw [if_pos hend] at he3
        rw [scanLoop_err he3]
        refine .ended _ he3 ?_
        rcases hend with h | h
        · right; rw [rest, h, List.append_nil]; exact hr
        · exact Or.inl h.1
      · rw [if_neg hend] at he3
        rcases next with h | h
        · exact absurd (Or.inl h) hend
        · refine (h _ w3 he3 ?_).congr hrest ht3 hf3
          have hne : s.rd.rem ≠ [] := fun h => hend (Or.inl h)
          have := hc2 hne
          have : c.length ≠ 0 := by simpa using this
          rw [hc1]; simp; omega

theorem scan_spec (s : Scanner) (wf : WF s) (he : s.err = none) : Outcome s (rest s) (scan s) :=
  scanLoop_spec _ s wf he _ (Nat.le_refl _) (Nat.le_refl _)

theorem newDecoder_wf (rd : Reader) (h : ∀ e ∈ rd.evs, e.stalls ≤ maxEmptyReads) : WF (newDecoder rd) := by
  have hl : (newDecoder rd).buf.length = minBuffSize := by unfold newDecoder; rw [List.length_replicate]
  refine ⟨Nat.le_refl _, ?_, ?_, ?_, h⟩
  · rw [hl]; exact Nat.zero_le _
  · rw [hl]; decide
  · rw [hl]; decide

theorem newDecoder_rest (rd : Reader) : rest (newDecoder rd) = rd.rem := by
  simp [rest, newDecoder, Scanner.window]

end Iota.Lemmas.Framing
