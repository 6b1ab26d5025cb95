import Verif.Spec.RustWrappers
import Verif.Spec.RustSocket

/-!
# C131, C132: generated wrappers for streams and channels
-/

namespace Iota.Props.RustWrappers
open Iota.Go Iota.RustWrappers Iota.Spec.RustWrappers
open Iota.Rust (Yield)
open Iota.RustRx (Signal)

variable {α β : Type}

theorem message_ok (ser : α → Except Bytes Bytes) (v : α) : message ser (.ok v) = convert ser v := by
  cases h : ser v <;> simp [message, convert, h]

theorem completes_append (a b : List (Signal α Bytes)) : completes (a ++ b) = (completes a || completes b) := by
  simp [completes]

theorem upToEnd_append (a b : List (Signal α Bytes)) (h : completes a = false) : upToEnd (a ++ b) = a ++ upToEnd b := by
  induction a with
  | nil => rfl
  | cons x a ih =>
    cases x with
    | complete => simp [completes] at h
    | ok v => simp [upToEnd, ih (by simpa [completes] using h)]
    | err e => simp [upToEnd, ih (by simpa [completes] using h)]

theorem upToEnd_self (a : List (Signal α Bytes)) (h : completes a = false) : upToEnd a = a := by
  have := upToEnd_append a [] h
  simpa [upToEnd] using this

theorem streamSent_append (a b : List (StreamEv α)) : streamSent (a ++ b) = streamSent a ++ streamSent b := by
  induction a with
  | nil => rfl
  | cons e a ih =>
    cases e with
    | use u => cases u <;> simp [streamSent, ih]
    | ret k => simp [streamSent, ih]
    | fail e => simp [streamSent, ih]
    | pump => simp [streamSent, ih]

theorem streamRun_append (ser : α → Except Bytes Bytes) (w : StreamW α) (a b : List (StreamEv α)) :
    w.run ser (a ++ b) = (w.run ser a).bind fun w' => w'.run ser b := by
  induction a generalizing w with
  | nil => rfl
  | cons e a ih =>
    simp only [List.cons_append, StreamW.run]
    cases w.step ser e with
    | none => rfl
    | some w' => exact ih w'

/-- Forwarding: what was sent, `s`, is split into what went out and what is in the queue. -/
def Forwarding (ser : α → Except Bytes Bytes) (s : List (Signal α Bytes)) (c : Chan α) (out : List (Signal Bytes Bytes)) : Prop :=
  ∃ pre, s = pre ++ c.queue ∧ completes pre = false ∧ out = pre.map (message ser)

/-- The end of forwarding: at completion, or when there was no sender left. -/
def Forwarded (ser : α → Except Bytes Bytes) (s : List (Signal α Bytes)) (c : Chan α) (out : List (Signal Bytes Bytes)) : Prop :=
  ∃ pre, completes pre = false ∧ out = pre.map (message ser) ∧ ((∃ rest, s = pre ++ .complete :: rest) ∨ (s = pre ∧ c.senders = 0))

theorem forwarded_eq {ser : α → Except Bytes Bytes} {s : List (Signal α Bytes)} {c : Chan α} {out : List (Signal Bytes Bytes)}
    (h : Forwarded ser s c out) : out = (upToEnd s).map (message ser) := by
  obtain ⟨pre, h1, rfl, ⟨rest, rfl⟩ | ⟨rfl, _⟩⟩ := h
  · rw [upToEnd_append _ _ h1]
    simp [upToEnd]
  · rw [upToEnd_self _ h1]

theorem forwarding_eq {ser : α → Except Bytes Bytes} {s : List (Signal α Bytes)} {c : Chan α} {out : List (Signal Bytes Bytes)}
    (h : Forwarding ser s c out) : ∃ rest, (upToEnd s).map (message ser) = out ++ rest := by
  obtain ⟨pre, rfl, h1, rfl⟩ := h
  rw [upToEnd_append _ _ h1, List.map_append]
  exact ⟨_, rfl⟩

/-- What is known after any run. -/
structure SInv (ser : α → Except Bytes Bytes) (s : List (Signal α Bytes)) (w : StreamW α) : Prop where
  running : w.impl = .running → w.out = [] ∧ w.done = false ∧ w.outs.queue = s ∧ w.kept = false
  failed : ∀ e, w.impl = .failed e → (w.done = false ∧ w.out = []) ∨ (w.done = true ∧ w.out = [.err e])
  forwarding : w.impl = .returned → w.done = false → Forwarding ser s w.outs w.out
  forwarded : w.impl = .returned → w.done = true → ∃ out, w.out = out ++ [.complete] ∧ Forwarded ser s w.outs out
  kept : w.impl = .returned → w.kept = true → w.done = false → 0 < w.outs.senders
  keptEnd : w.impl = .returned → w.kept = true → w.done = true → completes s = true

theorem use_spec {c c' : Chan α} {k : Nat} {u : Use α} (h : c.use k u = some c') :
    (∀ x, u = .send x → 0 < c.senders ∧ c'.queue = c.queue ++ [x] ∧ c'.senders = c.senders) ∧
    ((∀ x, u ≠ .send x) → c'.queue = c.queue ∧ (c.senders = 0 → c'.senders = 0) ∧ (k = 1 → 0 < c.senders → 0 < c'.senders)) := by
  cases u with
  | send x =>
    simp only [Chan.use] at h
    split at h
    · rename_i hp
      simp only [Option.some.injEq] at h
      subst h
      refine ⟨?_, fun hx => absurd rfl (hx x)⟩
      intro y hy
      cases hy
      exact ⟨hp, rfl, rfl⟩
    · cases h
  | clone =>
    simp only [Chan.use] at h
    split at h
    · rename_i hp
      simp only [Option.some.injEq] at h
      subst h
      exact ⟨(fun x hx => nomatch hx), fun _ => ⟨rfl, fun h0 => by omega, fun _ _ => by simp⟩⟩
    · cases h
  | drop =>
    simp only [Chan.use] at h
    split at h
    · rename_i hp
      simp only [Option.some.injEq] at h
      subst h
      exact ⟨fun x hx => (nomatch hx), fun _ => ⟨rfl, fun h0 => by simp [h0], fun h1 h2 => by simp; omega⟩⟩
    · cases h

theorem forwarded_use {ser : α → Except Bytes Bytes} {s : List (Signal α Bytes)} {c c' : Chan α} {out : List (Signal Bytes Bytes)}
    {k : Nat} {u : Use α} (h : Forwarded ser s c out) (hu : c.use k u = some c') (t : List (Signal α Bytes))
    (ht : ∀ x, u = .send x → t = [x]) (ht' : (∀ x, u ≠ .send x) → t = []) : Forwarded ser (s ++ t) c' out := by
  obtain ⟨pre, h1, h2, h3⟩ := h
  refine ⟨pre, h1, h2, ?_⟩
  obtain ⟨hs, hn⟩ := use_spec hu
  rcases h3 with ⟨rest, rfl⟩ | ⟨rfl, h0⟩
  · exact .inl ⟨rest ++ t, by simp⟩
  · cases u with
    | send x =>
      have := (hs x rfl).1
      omega
    | clone =>
      rw [ht' (fun x hx => nomatch hx), List.append_nil]
      exact .inr ⟨rfl, (hn (fun x hx => nomatch hx)).2.1 h0⟩
    | drop =>
      rw [ht' (fun x hx => nomatch hx), List.append_nil]
      exact .inr ⟨rfl, (hn (fun x hx => nomatch hx)).2.1 h0⟩

theorem queue_use {c c' : Chan α} {k : Nat} {u : Use α} (hu : c.use k u = some c') (t : List (Signal α Bytes))
    (ht : ∀ x, u = .send x → t = [x]) (ht' : (∀ x, u ≠ .send x) → t = []) : c'.queue = c.queue ++ t := by
  obtain ⟨hs, hn⟩ := use_spec hu
  cases u with
  | send x => rw [ht x rfl]; exact (hs x rfl).2.1
  | clone => rw [ht' (fun x hx => nomatch hx), List.append_nil]; exact (hn (fun x hx => nomatch hx)).1
  | drop => rw [ht' (fun x hx => nomatch hx), List.append_nil]; exact (hn (fun x hx => nomatch hx)).1

theorem forwarding_use {ser : α → Except Bytes Bytes} {s : List (Signal α Bytes)} {c c' : Chan α} {out : List (Signal Bytes Bytes)}
    {k : Nat} {u : Use α} (h : Forwarding ser s c out) (hu : c.use k u = some c') (t : List (Signal α Bytes))
    (ht : ∀ x, u = .send x → t = [x]) (ht' : (∀ x, u ≠ .send x) → t = []) : Forwarding ser (s ++ t) c' out := by
  obtain ⟨pre, rfl, h2, h3⟩ := h
  exact ⟨pre, by rw [queue_use hu t ht ht', List.append_assoc], h2, h3⟩

/-- One round of forwarding. -/
theorem next_spec {ser : α → Except Bytes Bytes} {s : List (Signal α Bytes)} {c : Chan α} {out : List (Signal Bytes Bytes)}
    (h : Forwarding ser s c out) :
    (∀ v c', c.next = (.item v, c') → c'.senders = c.senders ∧ Forwarding ser s c' (out ++ [convert ser v])) ∧
    (∀ e c', c.next = (.error e, c') → c'.senders = c.senders ∧ Forwarding ser s c' (out ++ [.err e])) ∧
    (∀ c', c.next = (.ended, c') → Forwarded ser s c' out ∧ (c.senders ≠ 0 → completes s = true)) ∧
    (∀ c', c.next = (.pending, c') → c.queue = [] ∧ c.senders ≠ 0) := by
  obtain ⟨pre, h1, h2, h3⟩ := h
  unfold Chan.next
  split
  · rename_i v q hq
    refine ⟨?_, ?_, ?_, ?_⟩
    · intro v' c' e
      obtain ⟨e1, rfl⟩ := Prod.mk.inj e
      obtain rfl := Got.item.inj e1
      refine ⟨rfl, pre ++ [.ok v], ?_, ?_, ?_⟩
      · rw [h1, hq]; simp
      · rw [completes_append, h2]; rfl
      · rw [h3]; rw [List.map_append, List.map_singleton, message_ok]
    all_goals intros; rename_i e; exact nomatch (Prod.mk.inj e).1
  · rename_i v q hq
    refine ⟨?_, ?_, ?_, ?_⟩
    · intros; rename_i e; exact nomatch (Prod.mk.inj e).1
    · intro v' c' e
      obtain ⟨e1, rfl⟩ := Prod.mk.inj e
      obtain rfl := Got.error.inj e1
      refine ⟨rfl, pre ++ [.err v], ?_, ?_, ?_⟩
      · rw [h1, hq]; simp
      · rw [completes_append, h2]; rfl
      · rw [h3]; simp [message]
    all_goals intros; rename_i e; exact nomatch (Prod.mk.inj e).1
  · rename_i q hq
    refine ⟨?_, ?_, ?_, ?_⟩
    · intros; rename_i e; exact nomatch (Prod.mk.inj e).1
    · intros; rename_i e; exact nomatch (Prod.mk.inj e).1
    · intro c' e
      refine ⟨⟨pre, h2, h3, .inl ⟨q, by rw [h1, hq]⟩⟩, fun _ => ?_⟩
      rw [h1, hq, completes_append]
      simp [completes]
    · intros; rename_i e; exact nomatch (Prod.mk.inj e).1
  · rename_i hq
    split
    · rename_i h0
      refine ⟨?_, ?_, ?_, ?_⟩
      · intros; rename_i e; exact nomatch (Prod.mk.inj e).1
      · intros; rename_i e; exact nomatch (Prod.mk.inj e).1
      · intro c' e
        obtain ⟨_, rfl⟩ := Prod.mk.inj e
        exact ⟨⟨pre, h2, h3, .inr ⟨by rw [h1, hq, List.append_nil], h0⟩⟩, fun hn => absurd h0 hn⟩
      · intros; rename_i e; exact nomatch (Prod.mk.inj e).1
    · rename_i h0
      refine ⟨?_, ?_, ?_, ?_⟩
      · intros; rename_i e; exact nomatch (Prod.mk.inj e).1
      · intros; rename_i e; exact nomatch (Prod.mk.inj e).1
      · intros; rename_i e; exact nomatch (Prod.mk.inj e).1
      · exact fun _ _ => ⟨hq, h0⟩

theorem sinv_step {ser : α → Except Bytes Bytes} {s : List (Signal α Bytes)} {w w' : StreamW α} (h : SInv ser s w)
    (e : StreamEv α) (he : w.step ser e = some w') : SInv ser (s ++ streamSent [e]) w' := by
  cases e with
  | use u =>
    simp only [StreamW.step, Option.map_eq_some_iff] at he
    obtain ⟨c, hc, rfl⟩ := he
    have ht : ∀ x, u = .send x → streamSent [StreamEv.use u] = [x] := by rintro x rfl; rfl
    have ht' : (∀ x, u ≠ .send x) → streamSent [StreamEv.use u] = [] := by
      intro hx
      cases u with
      | send x => exact absurd rfl (hx x)
      | clone => rfl
      | drop => rfl
    refine ⟨?_, h.failed, ?_, ?_, ?_, ?_⟩
    · intro hr
      obtain ⟨h1, h2, h3, h4⟩ := h.running hr
      exact ⟨h1, h2, by rw [← h3]; exact queue_use hc _ ht ht', h4⟩
    · intro hr hd
      exact forwarding_use (h.forwarding hr hd) hc _ ht ht'
    · intro hr hd
      obtain ⟨out, h1, h2⟩ := h.forwarded hr hd
      exact ⟨out, h1, forwarded_use h2 hc _ ht ht'⟩
    · intro hr hk hd
      have h1 := h.kept hr hk hd
      have hk1 : (if w.kept && !w.done then 1 else 0) = 1 := by
        have hk' : w.kept = true := hk
        have hd' : w.done = false := hd
        simp [hk', hd']
      obtain ⟨hs, hn⟩ := use_spec hc
      cases u with
      | send x =>
        have := hs x rfl
        simp only
        omega
      | clone => exact (hn (fun x hx => nomatch hx)).2.2 hk1 h1
      | drop => exact (hn (fun x hx => nomatch hx)).2.2 hk1 h1
    · intro hr hk hd
      rw [completes_append, h.keptEnd hr hk hd]
      rfl
  | ret k =>
    simp only [StreamW.step] at he
    split at he
    · rename_i hc
      simp only [Option.some.injEq] at he
      subst he
      obtain ⟨h1, h2, h3, h4⟩ := h.running hc.1
      have : streamSent [StreamEv.ret (α := α) k] = [] := rfl
      rw [this, List.append_nil]
      refine ⟨(nomatch ·), (fun e he => nomatch he), fun _ _ => ⟨[], ?_, rfl, ?_⟩, fun _ hd => ?_, fun _ hk _ => ?_, fun _ _ hd => ?_⟩
      · rw [List.nil_append]; exact h3.symm
      · exact h1
      · exact absurd (h2.symm.trans hd) (by decide)
      · exact hc.2 hk
      · exact absurd (h2.symm.trans hd) (by decide)
    · cases he
  | fail m =>
    simp only [StreamW.step] at he
    split at he
    · rename_i hc
      simp only [Option.some.injEq] at he
      subst he
      obtain ⟨h1, h2, h3, h4⟩ := h.running hc
      refine ⟨(nomatch ·), fun e he => .inl ⟨h2, h1⟩, (nomatch ·), (nomatch ·), (nomatch ·), (nomatch ·)⟩
    · cases he
  | pump =>
    have : streamSent [StreamEv.pump (α := α)] = [] := rfl
    rw [this, List.append_nil]
    simp only [StreamW.step] at he
    cases hi : w.impl with
    | running => rw [hi] at he; cases he
    | failed e =>
      rw [hi] at he
      simp only at he
      split at he
      · cases he
      · rename_i hd
        simp only [Option.some.injEq] at he
        subst he
        have hd : w.done = false := by simpa using hd
        have ho : w.out = [] := by
          rcases h.failed e hi with ⟨_, h2⟩ | ⟨h1, _⟩
          · exact h2
          · exact absurd (h1.symm.trans hd) (by decide)
        refine ⟨fun hr => ?_, fun e' he' => .inr ⟨rfl, ?_⟩, fun hr => ?_, fun hr => ?_, fun hr => ?_, fun hr => ?_⟩
        · exact nomatch hr
        · have : e = e' := Impl.failed.inj he'
          simp [ho, this]
        all_goals exact nomatch hr
    | returned =>
      rw [hi] at he
      simp only at he
      split at he
      · cases he
      · rename_i hd
        have hd : w.done = false := by simpa using hd
        simp only [Option.some.injEq] at he
        subst he
        have hf := h.forwarding hi hd
        have hkp := h.kept hi
        obtain ⟨n1, n2, n3, n4⟩ := next_spec hf
        unfold StreamW.forward
        split
        · rename_i v c hn
          obtain ⟨a1, a2⟩ := n1 v c hn
          exact ⟨fun hr => absurd (hi.symm.trans hr) (by simp), fun e hr => absurd (hi.symm.trans hr) (by simp), fun _ _ => a2,
            fun _ hd' => absurd (hd.symm.trans hd') (by decide), fun _ hk _ => by rw [a1]; exact hkp hk hd,
            fun _ _ hd' => absurd (hd.symm.trans hd') (by decide)⟩
        · rename_i v c hn
          obtain ⟨a1, a2⟩ := n2 v c hn
          exact ⟨fun hr => absurd (hi.symm.trans hr) (by simp), fun e hr => absurd (hi.symm.trans hr) (by simp), fun _ _ => a2,
            fun _ hd' => absurd (hd.symm.trans hd') (by decide), fun _ hk _ => by rw [a1]; exact hkp hk hd,
            fun _ _ hd' => absurd (hd.symm.trans hd') (by decide)⟩
        · rename_i c hn
          obtain ⟨a1, a2⟩ := n3 c hn
          exact ⟨fun hr => absurd (hi.symm.trans hr) (by simp), fun e hr => absurd (hi.symm.trans hr) (by simp),
            (fun _ hd' => nomatch hd'), fun _ _ => ⟨w.out, rfl, a1⟩, (fun _ _ hd' => nomatch hd'),
            fun _ hk _ => a2 (by have := hkp hk hd; omega)⟩
        · exact h

theorem sinv_run {ser : α → Except Bytes Bytes} (es : List (StreamEv α)) {s : List (Signal α Bytes)} {w w' : StreamW α}
    (h : SInv ser s w) (he : w.run ser es = some w') : SInv ser (s ++ streamSent es) w' := by
  induction es generalizing s w with
  | nil =>
    simp only [StreamW.run, Option.some.injEq] at he
    subst he
    simpa [streamSent] using h
  | cons e es ih =>
    simp only [StreamW.run] at he
    cases hs : w.step ser e with
    | none => rw [hs] at he; cases he
    | some w1 =>
      rw [hs] at he
      have := ih (sinv_step h e hs) he
      rw [List.append_assoc] at this
      have e1 : streamSent (e :: es) = streamSent [e] ++ streamSent es := streamSent_append [e] es
      rwa [e1]

theorem sinv (ser : α → Except Bytes Bytes) (es : List (StreamEv α)) {w : StreamW α} (he : StreamW.start.run ser es = some w) :
    SInv ser (streamSent es) w := by
  have h0 : SInv ser [] (StreamW.start : StreamW α) :=
    ⟨fun _ => ⟨rfl, rfl, rfl, rfl⟩, (fun _ h => nomatch h), (nomatch ·), (nomatch ·), (nomatch ·), (nomatch ·)⟩
  have := sinv_run es h0 he
  simpa using this

theorem streamSent_pumps (n : Nat) : streamSent (List.replicate n (StreamEv.pump (α := α))) = [] := by
  induction n with
  | zero => rfl
  | succ n ih => simp [List.replicate_succ, streamSent, ih]

/-- Without completion among what was sent there is none among what is heard. -/
theorem heard_open (ser : α → Except Bytes Bytes) (pre : List (Signal α Bytes)) (h : completes pre = false) :
    Yield.done ∉ heard false (pre.map (message ser)) := by
  induction pre with
  | nil => simp [heard]
  | cons x pre ih =>
    cases x with
    | complete => simp [completes] at h
    | ok v =>
      have ih := ih (by simpa [completes] using h)
      simp only [List.map_cons, message, convert]
      split
      all_goals simp [heard, ih]
    | err e =>
      have ih := ih (by simpa [completes] using h)
      simp [message, heard, ih]

/-! ## C131: streams -/

/-- **C131 (partial)** Once the implementation has returned, what is passed on are the messages of what it sent, in order,
up to its completion; and at the end all of them and completion. Missing: what happens before it returns, and what happens
when it fails or never completes its stream; see the theorems below. -/
theorem stream_wrapper_partial (ser : α → Except Bytes Bytes) (es : List (StreamEv α)) {w : StreamW α}
    (he : StreamW.start.run ser es = some w) (hr : w.impl = .returned) :
    (w.done = false → ∃ rest, (upToEnd (streamSent es)).map (message ser) = w.out ++ rest) ∧
    (w.done = true → w.out = (upToEnd (streamSent es)).map (message ser) ++ [.complete]) := by
  have h := sinv ser es he
  refine ⟨fun hd => forwarding_eq (h.forwarding hr hd), fun hd => ?_⟩
  obtain ⟨out, h1, h2⟩ := h.forwarded hr hd
  rw [h1, forwarded_eq h2]

/-- **C131 (partial)** The wrapper gets there by itself if the implementation completed the stream, or dropped its senders. -/
theorem stream_wrapper_ends_partial (ser : α → Except Bytes Bytes) (es : List (StreamEv α)) {w : StreamW α}
    (he : StreamW.start.run ser es = some w) (hr : w.impl = .returned)
    (hc : completes (streamSent es) = true ∨ w.outs.senders = 0) :
    ∃ n w', StreamW.start.run ser (es ++ List.replicate n .pump) = some w' ∧ w'.done = true ∧
      w'.out = (upToEnd (streamSent es)).map (message ser) ++ [.complete] := by
  have key : ∀ (n : Nat) (s : List (Signal α Bytes)) (w : StreamW α), SInv ser s w → w.impl = .returned →
      (completes s = true ∨ w.outs.senders = 0) → w.outs.queue.length = n →
      ∃ k w', w.run ser (List.replicate k .pump) = some w' ∧ w'.done = true ∧ w'.impl = .returned := by
    intro n
    induction n with
    | zero =>
      intro s w h hr hc hq
      cases hd : w.done with
      | true => exact ⟨0, w, rfl, hd, hr⟩
      | false =>
        have hq : w.outs.queue = [] := List.length_eq_zero_iff.mp hq
        obtain ⟨pre, h1, h2, _⟩ := h.forwarding hr hd
        rw [hq, List.append_nil] at h1
        have h0 : w.outs.senders = 0 := by
          rcases hc with hc | hc
          · rw [h1, h2] at hc; cases hc
          · exact hc
        refine ⟨1, w.forward ser, ?_, ?_, ?_⟩
        · simp [StreamW.run, StreamW.step, hr, hd]
        · simp [StreamW.forward, Chan.next, hq, h0]
        · simp [StreamW.forward, Chan.next, hq, h0, hr]
    | succ n ih =>
      intro s w h hr hc hq
      cases hd : w.done with
      | true => exact ⟨0, w, rfl, hd, hr⟩
      | false =>
        have hstep : w.step ser .pump = some (w.forward ser) := by simp [StreamW.step, hr, hd]
        have h' := sinv_step h .pump hstep
        have e0 : streamSent [StreamEv.pump (α := α)] = [] := rfl
        rw [e0, List.append_nil] at h'
        cases hqq : w.outs.queue with
        | nil => rw [hqq] at hq; simp at hq
        | cons x q =>
          rw [hqq] at hq
          have hl : q.length = n := by simpa using hq
          have hfin : ∀ k w', (w.forward ser).run ser (List.replicate k .pump) = some w' →
              w.run ser (List.replicate (k + 1) .pump) = some w' := by
            intro k w' hk
            rw [List.replicate_succ, StreamW.run, hstep]
            exact hk
          cases x with
          | ok v =>
            have hi : (w.forward ser).impl = .returned := by simp [StreamW.forward, Chan.next, hqq, hr]
            have hsn : (w.forward ser).outs.senders = w.outs.senders := by simp [StreamW.forward, Chan.next, hqq]
            have hql : (w.forward ser).outs.queue.length = n := by simp [StreamW.forward, Chan.next, hqq, hl]
            obtain ⟨k, w', h1, h2⟩ := ih s _ h' hi (by rw [hsn]; exact hc) hql
            exact ⟨k + 1, w', hfin k w' h1, h2⟩
          | err e =>
            have hi : (w.forward ser).impl = .returned := by simp [StreamW.forward, Chan.next, hqq, hr]
            have hsn : (w.forward ser).outs.senders = w.outs.senders := by simp [StreamW.forward, Chan.next, hqq]
            have hql : (w.forward ser).outs.queue.length = n := by simp [StreamW.forward, Chan.next, hqq, hl]
            obtain ⟨k, w', h1, h2⟩ := ih s _ h' hi (by rw [hsn]; exact hc) hql
            exact ⟨k + 1, w', hfin k w' h1, h2⟩
          | complete =>
            refine ⟨1, w.forward ser, hfin 0 _ rfl, ?_, ?_⟩
            · simp [StreamW.forward, Chan.next, hqq]
            · simp [StreamW.forward, Chan.next, hqq, hr]
  obtain ⟨n, w', h1, h2, h3⟩ := key _ _ w (sinv ser es he) hr hc rfl
  have hrun : StreamW.start.run ser (es ++ List.replicate n .pump) = some w' := by
    rw [streamRun_append, he]
    exact h1
  have hsent : streamSent (es ++ List.replicate n StreamEv.pump) = streamSent es := by
    rw [streamSent_append]
    rw [streamSent_pumps, List.append_nil]
  refine ⟨n, w', hrun, h2, ?_⟩
  rw [(stream_wrapper_partial ser _ hrun h3).2 h2, hsent]

/-- **C131 is false of the code**: nothing is passed on while the implementation runs, whatever it has sent. -/
theorem stream_wrapper_early_refuted (ser : α → Except Bytes Bytes) (es : List (StreamEv α)) {w : StreamW α}
    (he : StreamW.start.run ser es = some w) (hr : w.impl = .running) : w.out = [] ∧ heard false w.out = [] := by
  have h := ((sinv ser es he).running hr).1
  exact ⟨h, by rw [h]; rfl⟩

/-- **C131 is false of the code**: if the implementation fails, the caller is told only that, and nothing of what it sent
before. -/
theorem stream_wrapper_failure_refuted (ser : α → Except Bytes Bytes) (es : List (StreamEv α)) {w : StreamW α} {e : Bytes}
    (he : StreamW.start.run ser es = some w) (hr : w.impl = .failed e) :
    heard false w.out = [] ∨ heard false w.out = [.err e] := by
  rcases (sinv ser es he).failed e hr with ⟨_, h⟩ | ⟨_, h⟩ <;> rw [h]
  · exact .inl rfl
  · exact .inr rfl

/-- **C131 is false of the code**: if the implementation returns the Flux it was given, as its signature invites it to, and
did not complete it, the caller is never told that the stream ended. -/
theorem stream_wrapper_open_refuted (ser : α → Except Bytes Bytes) (es : List (StreamEv α)) {w : StreamW α}
    (he : StreamW.start.run ser es = some w) (hr : w.impl = .returned) (hk : w.kept = true)
    (hc : completes (streamSent es) = false) : w.done = false ∧ Yield.done ∉ heard false w.out := by
  have h := sinv ser es he
  have hd : w.done = false := by
    cases hd : w.done with
    | false => rfl
    | true =>
      have := h.keptEnd hr hk hd
      rw [hc] at this
      cases this
  refine ⟨hd, ?_⟩
  obtain ⟨pre, _, h2, h3⟩ := h.forwarding hr hd
  rw [h3]
  exact heard_open ser pre h2

/-! ## C132: channels -/

theorem channelSent_append (a b : List (ChannelEv α)) : channelSent (a ++ b) = channelSent a ++ channelSent b := by
  induction a with
  | nil => rfl
  | cons e a ih =>
    cases e with
    | use u => cases u <;> simp [channelSent, ih]
    | _ => simp [channelSent, ih]

theorem channelArrived_append (a b : List (ChannelEv α)) : channelArrived (a ++ b) = channelArrived a ++ channelArrived b := by
  induction a with
  | nil => rfl
  | cons e a ih => cases e <;> simp [channelArrived, ih]

/-- What the implementation is given for an element of the caller. -/
def given (de : Bytes → Except Bytes β) (b : Bytes) : Got β :=
  match de b with
  | .ok v => .item v
  | .error e => .error e

/-- The same on its way. -/
def handed (de : Bytes → Except Bytes β) (b : Bytes) : Signal β Bytes :=
  match de b with
  | .ok v => .ok v
  | .error e => .err e

/-- The elements among what was read. -/
def readItems : List (Got β) → List (Got β)
  | [] => []
  | .item v :: l => .item v :: readItems l
  | .error e :: l => .error e :: readItems l
  | _ :: l => readItems l

theorem readItems_append (a b : List (Got β)) : readItems (a ++ b) = readItems a ++ readItems b := by
  induction a with
  | nil => rfl
  | cons x a ih => cases x <;> simp [readItems, ih]

theorem elements_ok (l : List Bytes) (r : List (Signal Bytes Bytes)) :
    elements (l.map .ok ++ r) = l ++ elements r := by
  induction l with
  | nil => rfl
  | cons b l ih => simp [elements, ih]

/-- The output side after any run. -/
structure COut (ser : α → Except Bytes Bytes) (s : List (Signal α Bytes)) (w : ChannelW β α) : Prop where
  forwarding : w.outDone = false → Forwarding ser s w.outs w.out
  forwarded : w.outDone = true → Forwarded ser s w.outs w.out

theorem cout_step {de : Bytes → Except Bytes β} {ser : α → Except Bytes Bytes} {s : List (Signal α Bytes)} {w w' : ChannelW β α}
    (h : COut ser s w) (e : ChannelEv α) (he : w.step de ser e = some w') : COut ser (s ++ channelSent [e]) w' := by
  cases e with
  | use u =>
    simp only [ChannelW.step, Option.map_eq_some_iff] at he
    obtain ⟨c, hc, rfl⟩ := he
    have ht : ∀ x, u = .send x → channelSent [ChannelEv.use u] = [x] := by rintro x rfl; rfl
    have ht' : (∀ x, u ≠ .send x) → channelSent [ChannelEv.use u] = [] := by
      intro hx
      cases u with
      | send x => exact absurd rfl (hx x)
      | clone => rfl
      | drop => rfl
    exact ⟨fun hd => forwarding_use (h.forwarding hd) hc _ ht ht', fun hd => forwarded_use (h.forwarded hd) hc _ ht ht'⟩
  | arrive x =>
    simp only [ChannelW.step, Option.map_eq_some_iff] at he
    obtain ⟨c, hc, rfl⟩ := he
    show COut ser (s ++ []) _
    rw [List.append_nil]
    exact ⟨h.forwarding, h.forwarded⟩
  | hangup =>
    simp only [ChannelW.step, Option.map_eq_some_iff] at he
    obtain ⟨c, hc, rfl⟩ := he
    show COut ser (s ++ []) _
    rw [List.append_nil]
    exact ⟨h.forwarding, h.forwarded⟩
  | read =>
    simp only [ChannelW.step, Option.some.injEq] at he
    subst he
    show COut ser (s ++ []) _
    rw [List.append_nil]
    exact ⟨h.forwarding, h.forwarded⟩
  | ret =>
    simp only [ChannelW.step] at he
    split at he
    · simp only [Option.some.injEq] at he
      subst he
      show COut ser (s ++ []) _
      rw [List.append_nil]
      exact ⟨h.forwarding, h.forwarded⟩
    · cases he
  | fail m =>
    simp only [ChannelW.step] at he
    split at he
    · simp only [Option.some.injEq] at he
      subst he
      show COut ser (s ++ []) _
      rw [List.append_nil]
      exact ⟨h.forwarding, h.forwarded⟩
    · cases he
  | pumpIn =>
    simp only [ChannelW.step] at he
    split at he
    · cases he
    · simp only [Option.some.injEq] at he
      subst he
      have e1 : (w.forwardIn de).outDone = w.outDone ∧ (w.forwardIn de).outs = w.outs ∧ (w.forwardIn de).out = w.out := by
        unfold ChannelW.forwardIn
        split <;> exact ⟨rfl, rfl, rfl⟩
      have : channelSent [ChannelEv.pumpIn (α := α)] = [] := rfl
      rw [this, List.append_nil]
      refine ⟨fun hd => ?_, fun hd => ?_⟩
      · rw [e1.2.1, e1.2.2]; exact h.forwarding (by rw [← e1.1]; exact hd)
      · rw [e1.2.1, e1.2.2]; exact h.forwarded (by rw [← e1.1]; exact hd)
  | pumpOut =>
    have : channelSent [ChannelEv.pumpOut (α := α)] = [] := rfl
    rw [this, List.append_nil]
    simp only [ChannelW.step] at he
    split at he
    · cases he
    · rename_i hd
      have hd : w.outDone = false := by simpa using hd
      simp only [Option.some.injEq] at he
      subst he
      obtain ⟨n1, n2, n3, n4⟩ := next_spec (h.forwarding hd)
      unfold ChannelW.forwardOut
      split
      · rename_i v c hn
        exact ⟨fun _ => (n1 v c hn).2, fun hd' => absurd (hd.symm.trans hd') (by decide)⟩
      · rename_i v c hn
        exact ⟨fun _ => (n2 v c hn).2, fun hd' => absurd (hd.symm.trans hd') (by decide)⟩
      · rename_i c hn
        exact ⟨(fun hd' => nomatch hd'), fun _ => (n3 c hn).1⟩
      · exact h

/-- The input side after any run: `took` are the elements the first task has passed on, of which the implementation has
read `a`. -/
structure CIn (de : Bytes → Except Bytes β) (s : List (Signal Bytes Bytes)) (w : ChannelW β α) (a b : List Bytes) : Prop where
  open_ : w.inDone = false → s = (a ++ b).map .ok ++ w.input.queue ∧ w.inputs.senders = 1
  closed : w.inDone = true → w.inputs.senders = 0 ∧
    ((∃ x rest, s = (a ++ b).map .ok ++ x :: rest ∧ ∀ v, x ≠ .ok v) ∨ (s = (a ++ b).map .ok ∧ w.input.senders = 0))
  queue : w.inputs.queue = b.map (handed de)
  items : readItems w.read = a.map (given de)
  ended : Got.ended ∈ w.read → w.inDone = true ∧ b = []

theorem cin_step {de : Bytes → Except Bytes β} {ser : α → Except Bytes Bytes} {s : List (Signal Bytes Bytes)}
    {w w' : ChannelW β α} {a b : List Bytes} (h : CIn de s w a b) (e : ChannelEv α) (he : w.step de ser e = some w') :
    ∃ a' b', CIn de (s ++ channelArrived [e]) w' a' b' := by
  cases e with
  | use u =>
    simp only [ChannelW.step, Option.map_eq_some_iff] at he
    obtain ⟨c, hc, rfl⟩ := he
    refine ⟨a, b, ?_⟩
    show CIn de (s ++ []) _ a b
    rw [List.append_nil]
    exact ⟨h.open_, h.closed, h.queue, h.items, h.ended⟩
  | arrive x =>
    simp only [ChannelW.step, Option.map_eq_some_iff] at he
    obtain ⟨c, hc, rfl⟩ := he
    have hu := (use_spec hc).1 x rfl
    refine ⟨a, b, ?_⟩
    have e0 : channelArrived [ChannelEv.arrive (α := α) x] = [x] := rfl
    rw [e0]
    refine ⟨fun hd => ?_, fun hd => ?_, h.queue, h.items, h.ended⟩
    · obtain ⟨h1, h2⟩ := h.open_ hd
      refine ⟨?_, h2⟩
      rw [h1, hu.2.1, List.append_assoc]
    · obtain ⟨h1, h2⟩ := h.closed hd
      refine ⟨h1, ?_⟩
      rcases h2 with ⟨y, rest, rfl, hy⟩ | ⟨rfl, h0⟩
      · exact .inl ⟨y, rest ++ [x], by simp, hy⟩
      · omega
  | hangup =>
    simp only [ChannelW.step, Option.map_eq_some_iff] at he
    obtain ⟨c, hc, rfl⟩ := he
    have hu := (use_spec hc).2 (fun x hx => nomatch hx)
    refine ⟨a, b, ?_⟩
    have e0 : channelArrived [ChannelEv.hangup (α := α)] = [] := rfl
    rw [e0, List.append_nil]
    refine ⟨fun hd => ?_, fun hd => ?_, h.queue, h.items, h.ended⟩
    · obtain ⟨h1, h2⟩ := h.open_ hd
      exact ⟨by rw [h1, hu.1], h2⟩
    · obtain ⟨h1, h2⟩ := h.closed hd
      refine ⟨h1, ?_⟩
      rcases h2 with h2 | ⟨h2, h0⟩
      · exact .inl h2
      · exact .inr ⟨h2, hu.2.1 h0⟩
  | read =>
    simp only [ChannelW.step, Option.some.injEq] at he
    subst he
    have e0 : channelArrived [ChannelEv.read (α := α)] = [] := rfl
    rw [e0, List.append_nil]
    cases b with
    | nil =>
      have hq : w.inputs.queue = [] := h.queue
      refine ⟨a, [], ?_⟩
      by_cases h0 : w.inputs.senders = 0
      · have hn : w.inputs.next = (.ended, w.inputs) := by simp [Chan.next, hq, h0]
        have hd : w.inDone = true := by
          cases hd : w.inDone with
          | true => rfl
          | false => have := (h.open_ hd).2; omega
        rw [hn]
        exact ⟨h.open_, h.closed, h.queue, by rw [readItems_append, h.items]; simp [readItems], fun _ => ⟨hd, rfl⟩⟩
      · have hn : w.inputs.next = (.pending, w.inputs) := by simp [Chan.next, hq, h0]
        rw [hn]
        exact ⟨h.open_, h.closed, h.queue, by rw [readItems_append, h.items]; simp [readItems], fun he => h.ended (by simpa using he)⟩
    | cons y b =>
      refine ⟨a ++ [y], b, ?_⟩
      have hq : w.inputs.queue = handed de y :: b.map (handed de) := h.queue
      have hn : w.inputs.next = (given de y, { w.inputs with queue := b.map (handed de) }) := by
        unfold Chan.next
        rw [hq]
        unfold handed given
        cases de y <;> rfl
      rw [hn]
      have hg : readItems [given de y] = [given de y] ∧ given de y ≠ .ended := by
        unfold given
        cases de y <;> exact ⟨rfl, (fun h => nomatch h)⟩
      refine ⟨fun hd => ?_, fun hd => ?_, rfl, ?_, fun he => ?_⟩
      · have := h.open_ hd
        simpa using this
      · have := h.closed hd
        simpa using this
      · rw [readItems_append, h.items, hg.1]; simp
      · rcases List.mem_append.mp he with he | he
        · have := (h.ended he).2
          cases this
        · exact absurd (by simpa using he : Got.ended = given de y).symm hg.2
  | ret =>
    simp only [ChannelW.step] at he
    split at he
    · simp only [Option.some.injEq] at he
      subst he
      refine ⟨a, b, ?_⟩
      show CIn de (s ++ []) _ a b
      rw [List.append_nil]
      exact ⟨h.open_, h.closed, h.queue, h.items, h.ended⟩
    · cases he
  | fail m =>
    simp only [ChannelW.step] at he
    split at he
    · simp only [Option.some.injEq] at he
      subst he
      refine ⟨a, b, ?_⟩
      show CIn de (s ++ []) _ a b
      rw [List.append_nil]
      exact ⟨h.open_, h.closed, h.queue, h.items, h.ended⟩
    · cases he
  | pumpOut =>
    simp only [ChannelW.step] at he
    split at he
    · cases he
    · simp only [Option.some.injEq] at he
      subst he
      have e1 : (w.forwardOut ser).inDone = w.inDone ∧ (w.forwardOut ser).input = w.input ∧
          (w.forwardOut ser).inputs = w.inputs ∧ (w.forwardOut ser).read = w.read := by
        unfold ChannelW.forwardOut
        split <;> exact ⟨rfl, rfl, rfl, rfl⟩
      obtain ⟨e1, e2, e3, e4⟩ := e1
      have e0 : channelArrived [ChannelEv.pumpOut (α := α)] = [] := rfl
      rw [e0, List.append_nil]
      refine ⟨a, b, ?_, ?_, ?_, ?_, ?_⟩
      · rw [e1, e2, e3]; exact h.open_
      · rw [e1, e2, e3]; exact h.closed
      · rw [e3]; exact h.queue
      · rw [e4]; exact h.items
      · rw [e1, e4]; exact h.ended
  | pumpIn =>
    have e0 : channelArrived [ChannelEv.pumpIn (α := α)] = [] := rfl
    rw [e0, List.append_nil]
    simp only [ChannelW.step] at he
    split at he
    · cases he
    · rename_i hd
      have hd : w.inDone = false := by simpa using hd
      simp only [Option.some.injEq] at he
      subst he
      obtain ⟨h1, h2⟩ := h.open_ hd
      have hne : Got.ended ∉ w.read := fun hm => absurd ((h.ended hm).1.symm.trans hd) (by decide)
      unfold ChannelW.forwardIn Chan.next
      cases hq : w.input.queue with
      | nil =>
        by_cases h0 : w.input.senders = 0
        · simp only [h0, if_true]
          refine ⟨a, b, (fun hd' => nomatch hd'), fun _ => ⟨by simp only; omega, .inr ⟨?_, h0⟩⟩, h.queue, h.items,
            fun hm => absurd hm hne⟩
          rw [h1, hq, List.append_nil]
        · simp only [h0, if_false]
          exact ⟨a, b, h⟩
      | cons x q =>
        cases x with
        | ok v =>
          refine ⟨a, b ++ [v], fun _ => ⟨?_, h2⟩, fun hd' => absurd (hd.symm.trans hd') (by decide), ?_, h.items,
            fun hm => absurd hm hne⟩
          · rw [h1, hq]; simp
          · simp only [h.queue, List.map_append, List.map_cons, List.map_nil, handed]
            rfl
        | err m =>
          refine ⟨a, b, (fun hd' => nomatch hd'), fun _ => ⟨by simp only; omega, .inl ⟨.err m, q, ?_, fun v hv => nomatch hv⟩⟩, h.queue, h.items,
            fun hm => absurd hm hne⟩
          rw [h1, hq]
        | complete =>
          refine ⟨a, b, (fun hd' => nomatch hd'), fun _ => ⟨by simp only; omega, .inl ⟨.complete, q, ?_, fun v hv => nomatch hv⟩⟩, h.queue, h.items,
            fun hm => absurd hm hne⟩
          rw [h1, hq]

theorem channel_run {de : Bytes → Except Bytes β} {ser : α → Except Bytes Bytes} (es : List (ChannelEv α))
    {s : List (Signal α Bytes)} {s' : List (Signal Bytes Bytes)} {w w' : ChannelW β α} {a b : List Bytes} (h : COut ser s w)
    (h' : CIn de s' w a b) (he : w.run de ser es = some w') :
    COut ser (s ++ channelSent es) w' ∧ ∃ a' b', CIn de (s' ++ channelArrived es) w' a' b' := by
  induction es generalizing s s' w a b with
  | nil =>
    simp only [ChannelW.run, Option.some.injEq] at he
    subst he
    exact ⟨by simpa [channelSent] using h, a, b, by simpa [channelArrived] using h'⟩
  | cons e es ih =>
    simp only [ChannelW.run] at he
    cases hs : w.step de ser e with
    | none => rw [hs] at he; cases he
    | some w1 =>
      rw [hs] at he
      obtain ⟨a', b', h2⟩ := cin_step h' e hs
      have := ih (cout_step h e hs) h2 he
      rw [List.append_assoc, List.append_assoc, ← channelSent_append, ← channelArrived_append] at this
      exact this

theorem cinv (de : Bytes → Except Bytes β) (ser : α → Except Bytes Bytes) (es : List (ChannelEv α)) {w : ChannelW β α}
    (he : ChannelW.start.run de ser es = some w) :
    COut ser (channelSent es) w ∧ ∃ a b, CIn de (channelArrived es) w a b := by
  have h0 : COut ser [] (ChannelW.start : ChannelW β α) := ⟨fun _ => ⟨[], rfl, rfl, rfl⟩, (fun h => nomatch h)⟩
  have h1 : CIn de [] (ChannelW.start : ChannelW β α) [] [] :=
    ⟨fun _ => ⟨rfl, rfl⟩, (fun h => nomatch h), rfl, rfl, fun h => absurd h List.not_mem_nil⟩
  have := channel_run es h0 h1 he
  simpa using this

/-- **C132 (partial)** What the implementation of a channel sends is passed on in order up to completion, also while it
runs, and all of it by the time the stream ends. Missing: failures, see `channel_failure_refuted`. -/
theorem channel_outputs_partial (de : Bytes → Except Bytes β) (ser : α → Except Bytes Bytes) (es : List (ChannelEv α))
    {w : ChannelW β α} (he : ChannelW.start.run de ser es = some w) :
    (w.outDone = false → ∃ rest, (upToEnd (channelSent es)).map (message ser) = w.out ++ rest) ∧
    (w.outDone = true → w.out = (upToEnd (channelSent es)).map (message ser)) := by
  obtain ⟨h, _⟩ := cinv de ser es he
  exact ⟨fun hd => forwarding_eq (h.forwarding hd), fun hd => forwarded_eq (h.forwarded hd)⟩

/-- **C132 (partial)** The implementation of a channel reads the elements of the caller in order; once it is told the end,
it has read all of them up to the end of the caller's stream. Missing: a stream that fails, see
`channel_input_failure_refuted`. -/
theorem channel_inputs_partial (de : Bytes → Except Bytes β) (ser : α → Except Bytes Bytes) (es : List (ChannelEv α))
    {w : ChannelW β α} (he : ChannelW.start.run de ser es = some w) :
    (∃ rest, (elements (channelArrived es)).map (given de) = readItems w.read ++ rest) ∧
    (Got.ended ∈ w.read → readItems w.read = (elements (channelArrived es)).map (given de)) := by
  obtain ⟨_, a, b, h⟩ := cinv de ser es he
  have hel : ∃ r, elements (channelArrived es) = a ++ b ++ r ∧ (w.inDone = true → r = []) := by
    cases hd : w.inDone with
    | false =>
      refine ⟨elements w.input.queue, ?_, (fun h => nomatch h)⟩
      rw [(h.open_ hd).1, elements_ok]
    | true =>
      refine ⟨[], ?_, fun _ => rfl⟩
      rcases (h.closed hd).2 with ⟨x, rest, h1, h2⟩ | ⟨h1, _⟩
      · rw [h1, elements_ok]
        cases x with
        | ok v => exact absurd rfl (h2 v)
        | err e => rfl
        | complete => rfl
      · have := elements_ok (a ++ b) []
        rw [List.append_nil] at this
        rw [h1, this]
        rfl
  obtain ⟨r, h1, h2⟩ := hel
  refine ⟨⟨(b ++ r).map (given de), ?_⟩, fun hm => ?_⟩
  · rw [h1, h.items]; simp
  · obtain ⟨h3, h4⟩ := h.ended hm
    rw [h1, h.items, h4, h2 h3]
    simp

theorem mem_readItems {l : List (Got β)} {e : Bytes} (h : Got.error e ∈ l) : Got.error e ∈ readItems l := by
  induction l with
  | nil => cases h
  | cons x l ih =>
    rcases List.mem_cons.mp h with rfl | h'
    · simp [readItems]
    · cases x <;> simp [readItems, ih h']

theorem channelRun_append (de : Bytes → Except Bytes β) (ser : α → Except Bytes Bytes) (w : ChannelW β α)
    (a b : List (ChannelEv α)) : w.run de ser (a ++ b) = (w.run de ser a).bind fun w' => w'.run de ser b := by
  induction a generalizing w with
  | nil => rfl
  | cons e a ih =>
    simp only [List.cons_append, ChannelW.run]
    cases w.step de ser e with
    | none => rfl
    | some w' => exact ih w'

theorem channelSent_replicate (n : Nat) (e : ChannelEv α) (h : channelSent [e] = []) :
    channelSent (List.replicate n e) = [] := by
  induction n with
  | zero => rfl
  | succ n ih =>
    have := channelSent_append [e] (List.replicate n e)
    rw [h, ih] at this
    exact this

theorem channelArrived_replicate (n : Nat) (e : ChannelEv α) (h : channelArrived [e] = []) :
    channelArrived (List.replicate n e) = [] := by
  induction n with
  | zero => rfl
  | succ n ih =>
    have := channelArrived_append [e] (List.replicate n e)
    rw [h, ih] at this
    exact this

/-- **C132 (partial)** If the implementation of a channel completed its stream, or dropped its senders, all that it sent is
passed on and the stream ends, by the task of the wrapper alone. -/
theorem channel_outputs_end_partial (de : Bytes → Except Bytes β) (ser : α → Except Bytes Bytes) (es : List (ChannelEv α))
    {w : ChannelW β α} (he : ChannelW.start.run de ser es = some w)
    (hc : completes (channelSent es) = true ∨ w.outs.senders = 0) :
    ∃ n w', ChannelW.start.run de ser (es ++ List.replicate n .pumpOut) = some w' ∧ w'.outDone = true ∧
      w'.out = (upToEnd (channelSent es)).map (message ser) := by
  have key : ∀ (n : Nat) (s : List (Signal α Bytes)) (w : ChannelW β α), COut ser s w →
      (completes s = true ∨ w.outs.senders = 0) → w.outs.queue.length = n →
      ∃ k w', w.run de ser (List.replicate k .pumpOut) = some w' ∧ w'.outDone = true := by
    intro n
    induction n with
    | zero =>
      intro s w h hc hq
      cases hd : w.outDone with
      | true => exact ⟨0, w, rfl, hd⟩
      | false =>
        have hq : w.outs.queue = [] := List.length_eq_zero_iff.mp hq
        obtain ⟨pre, h1, h2, _⟩ := h.forwarding hd
        rw [hq, List.append_nil] at h1
        have h0 : w.outs.senders = 0 := by
          rcases hc with hc | hc
          · rw [h1, h2] at hc; cases hc
          · exact hc
        refine ⟨1, w.forwardOut ser, ?_, ?_⟩
        · simp [ChannelW.run, ChannelW.step, hd]
        · simp [ChannelW.forwardOut, Chan.next, hq, h0]
    | succ n ih =>
      intro s w h hc hq
      cases hd : w.outDone with
      | true => exact ⟨0, w, rfl, hd⟩
      | false =>
        have hstep : w.step de ser .pumpOut = some (w.forwardOut ser) := by simp [ChannelW.step, hd]
        have h' := cout_step h .pumpOut hstep
        have e0 : channelSent [ChannelEv.pumpOut (α := α)] = [] := rfl
        rw [e0, List.append_nil] at h'
        cases hqq : w.outs.queue with
        | nil => rw [hqq] at hq; simp at hq
        | cons x q =>
          rw [hqq] at hq
          have hl : q.length = n := by simpa using hq
          have hfin : ∀ k w', (w.forwardOut ser).run de ser (List.replicate k .pumpOut) = some w' →
              w.run de ser (List.replicate (k + 1) .pumpOut) = some w' := by
            intro k w' hk
            rw [List.replicate_succ, ChannelW.run, hstep]
            exact hk
          cases x with
          | ok v =>
            have hsn : (w.forwardOut ser).outs.senders = w.outs.senders := by simp [ChannelW.forwardOut, Chan.next, hqq]
            have hql : (w.forwardOut ser).outs.queue.length = n := by simp [ChannelW.forwardOut, Chan.next, hqq, hl]
            obtain ⟨k, w', h1, h2⟩ := ih s _ h' (by rw [hsn]; exact hc) hql
            exact ⟨k + 1, w', hfin k w' h1, h2⟩
          | err e =>
            have hsn : (w.forwardOut ser).outs.senders = w.outs.senders := by simp [ChannelW.forwardOut, Chan.next, hqq]
            have hql : (w.forwardOut ser).outs.queue.length = n := by simp [ChannelW.forwardOut, Chan.next, hqq, hl]
            obtain ⟨k, w', h1, h2⟩ := ih s _ h' (by rw [hsn]; exact hc) hql
            exact ⟨k + 1, w', hfin k w' h1, h2⟩
          | complete =>
            exact ⟨1, w.forwardOut ser, hfin 0 _ rfl, by simp [ChannelW.forwardOut, Chan.next, hqq]⟩
  obtain ⟨n, w', h1, h2⟩ := key _ _ w (cinv de ser es he).1 hc rfl
  have hrun : ChannelW.start.run de ser (es ++ List.replicate n .pumpOut) = some w' := by
    rw [channelRun_append, he]
    exact h1
  refine ⟨n, w', hrun, h2, ?_⟩
  rw [(channel_outputs_partial de ser _ hrun).2 h2, channelSent_append, channelSent_replicate n _ rfl, List.append_nil]

/-- **C132 (partial)** If the stream of the caller has ended, the implementation of a channel can read all of its elements and
then its end. -/
theorem channel_inputs_end_partial (de : Bytes → Except Bytes β) (ser : α → Except Bytes Bytes) (es : List (ChannelEv α))
    {w : ChannelW β α} (he : ChannelW.start.run de ser es = some w)
    (hc : (∃ x ∈ channelArrived es, ∀ v, x ≠ .ok v) ∨ w.input.senders = 0) :
    ∃ n m w', ChannelW.start.run de ser (es ++ List.replicate n .pumpIn ++ List.replicate m .read) = some w' ∧
      Got.ended ∈ w'.read ∧ readItems w'.read = (elements (channelArrived es)).map (given de) := by
  have key : ∀ (n : Nat) (s : List (Signal Bytes Bytes)) (w : ChannelW β α) (a b : List Bytes), CIn de s w a b →
      ((∃ x ∈ s, ∀ v, x ≠ .ok v) ∨ w.input.senders = 0) → w.input.queue.length = n →
      ∃ k w', w.run de ser (List.replicate k .pumpIn) = some w' ∧ w'.inDone = true := by
    intro n
    induction n with
    | zero =>
      intro s w a b h hc hq
      cases hd : w.inDone with
      | true => exact ⟨0, w, rfl, hd⟩
      | false =>
        have hq : w.input.queue = [] := List.length_eq_zero_iff.mp hq
        have h1 := (h.open_ hd).1
        rw [hq, List.append_nil] at h1
        have h0 : w.input.senders = 0 := by
          rcases hc with ⟨x, hx, hv⟩ | hc
          · rw [h1] at hx
            obtain ⟨v, _, e⟩ := List.mem_map.mp hx
            exact absurd e.symm (hv v)
          · exact hc
        refine ⟨1, w.forwardIn de, ?_, ?_⟩
        · simp [ChannelW.run, ChannelW.step, hd]
        · simp [ChannelW.forwardIn, Chan.next, hq, h0]
    | succ n ih =>
      intro s w a b h hc hq
      cases hd : w.inDone with
      | true => exact ⟨0, w, rfl, hd⟩
      | false =>
        have hstep : w.step de ser .pumpIn = some (w.forwardIn de) := by simp [ChannelW.step, hd]
        obtain ⟨a', b', h'⟩ := cin_step h .pumpIn hstep
        have e0 : channelArrived [ChannelEv.pumpIn (α := α)] = [] := rfl
        rw [e0, List.append_nil] at h'
        cases hqq : w.input.queue with
        | nil => rw [hqq] at hq; simp at hq
        | cons x q =>
          rw [hqq] at hq
          have hl : q.length = n := by simpa using hq
          have hfin : ∀ k w', (w.forwardIn de).run de ser (List.replicate k .pumpIn) = some w' →
              w.run de ser (List.replicate (k + 1) .pumpIn) = some w' := by
            intro k w' hk
            rw [List.replicate_succ, ChannelW.run, hstep]
            exact hk
          cases x with
          | ok v =>
            have hsn : (w.forwardIn de).input.senders = w.input.senders := by simp [ChannelW.forwardIn, Chan.next, hqq]
            have hql : (w.forwardIn de).input.queue.length = n := by simp [ChannelW.forwardIn, Chan.next, hqq, hl]
            obtain ⟨k, w', h1, h2⟩ := ih s _ a' b' h' (by rw [hsn]; exact hc) hql
            exact ⟨k + 1, w', hfin k w' h1, h2⟩
          | err e => exact ⟨1, w.forwardIn de, hfin 0 _ rfl, by simp [ChannelW.forwardIn, Chan.next, hqq]⟩
          | complete => exact ⟨1, w.forwardIn de, hfin 0 _ rfl, by simp [ChannelW.forwardIn, Chan.next, hqq]⟩
  have reads : ∀ (n : Nat) (w : ChannelW β α), w.inputs.senders = 0 → (∀ x ∈ w.inputs.queue, ∃ b, x = handed de b) →
      w.inputs.queue.length = n →
      ∃ w', w.run de ser (List.replicate (n + 1) .read) = some w' ∧ Got.ended ∈ w'.read := by
    intro n
    induction n with
    | zero =>
      intro w h0 _ hq
      have hq : w.inputs.queue = [] := List.length_eq_zero_iff.mp hq
      refine ⟨_, rfl, ?_⟩
      simp [Chan.next, hq, h0]
    | succ n ih =>
      intro w h0 hall hq
      cases hqq : w.inputs.queue with
      | nil => rw [hqq] at hq; simp at hq
      | cons x q =>
        rw [hqq] at hq
        have hl : q.length = n := by simpa using hq
        obtain ⟨b, rfl⟩ := hall x (by rw [hqq]; simp)
        have hn : w.inputs.next.2 = { w.inputs with queue := q } := by
          unfold Chan.next handed at *
          rw [hqq]
          cases de b <;> rfl
        have := ih { w with inputs := w.inputs.next.2, read := w.read ++ [w.inputs.next.1] } (by simp [hn, h0])
          (by simp only [hn]; exact fun x hx => hall x (by rw [hqq]; simp [hx])) (by simp [hn, hl])
        obtain ⟨w', h1, h2⟩ := this
        refine ⟨w', ?_, h2⟩
        rw [List.replicate_succ, ChannelW.run]
        simp only [ChannelW.step]
        exact h1
  obtain ⟨_, a, b, hin⟩ := cinv de ser es he
  obtain ⟨n, w1, h1, h2⟩ := key _ _ w a b hin hc rfl
  have hrun : ChannelW.start.run de ser (es ++ List.replicate n .pumpIn) = some w1 := by
    rw [channelRun_append, he]
    exact h1
  obtain ⟨_, a1, b1, hin1⟩ := cinv de ser _ hrun
  obtain ⟨w2, h3, h4⟩ := reads _ w1 (hin1.closed h2).1
    (by rw [hin1.queue]; intro x hx; obtain ⟨b, _, rfl⟩ := List.mem_map.mp hx; exact ⟨b, rfl⟩) rfl
  have hrun2 : ChannelW.start.run de ser (es ++ List.replicate n .pumpIn ++ List.replicate (w1.inputs.queue.length + 1) .read) =
      some w2 := by
    rw [channelRun_append, hrun]
    exact h3
  refine ⟨n, _, w2, hrun2, h4, ?_⟩
  rw [(channel_inputs_partial de ser _ hrun2).2 h4, channelArrived_append, channelArrived_append,
    channelArrived_replicate n _ rfl, channelArrived_replicate _ _ rfl, List.append_nil, List.append_nil]

/-- **C132 is false of the code**: the implementation never reads an error that the caller's stream ended with, only those
of elements that could not be decoded; a stream that failed looks like one that is complete. -/
theorem channel_input_failure_refuted (de : Bytes → Except Bytes β) (ser : α → Except Bytes Bytes) (es : List (ChannelEv α))
    {w : ChannelW β α} (he : ChannelW.start.run de ser es = some w) (e : Bytes) (hm : Got.error e ∈ w.read) :
    ∃ b ∈ elements (channelArrived es), de b = .error e := by
  obtain ⟨rest, h⟩ := (channel_inputs_partial de ser es he).1
  have h1 : Got.error e ∈ (elements (channelArrived es)).map (given de) := by
    rw [h]
    exact List.mem_append.mpr (.inl (mem_readItems hm))
  obtain ⟨b, h2, h3⟩ := List.mem_map.mp h1
  refine ⟨b, h2, ?_⟩
  unfold given at h3
  cases hb : de b with
  | ok v => rw [hb] at h3; cases h3
  | error m => rw [hb] at h3; simp only [Got.error.injEq] at h3; rw [h3]

theorem mem_heard {gone : Bool} {l : List (Signal Bytes Bytes)} {e : Bytes} (h : Yield.err e ∈ heard gone l) : Signal.err e ∈ l := by
  induction l with
  | nil => cases gone <;> simp [heard] at h
  | cons x l ih =>
    cases x with
    | ok b =>
      simp only [heard, List.mem_cons, reduceCtorEq, false_or] at h
      exact List.mem_cons.mpr (.inr (ih h))
    | err m =>
      simp only [heard, List.mem_cons, Yield.err.injEq] at h
      rcases h with rfl | h
      · simp
      · exact List.mem_cons.mpr (.inr (ih h))
    | complete => simp [heard] at h

theorem mem_upToEnd {l : List (Signal α Bytes)} {x : Signal α Bytes} (h : x ∈ upToEnd l) : x ∈ l := by
  induction l with
  | nil => cases h
  | cons y l ih =>
    cases y with
    | complete => cases h
    | ok v => rcases List.mem_cons.mp h with rfl | h <;> simp [*]
    | err v => rcases List.mem_cons.mp h with rfl | h <;> simp [*]

/-- **C132 is false of the code**: the caller hears only errors that the implementation put on its stream (or of elements
that could not be encoded), never that the implementation failed. -/
theorem channel_failure_refuted (de : Bytes → Except Bytes β) (ser : α → Except Bytes Bytes) (es : List (ChannelEv α))
    {w : ChannelW β α} (he : ChannelW.start.run de ser es = some w) (e : Bytes) (hm : Yield.err e ∈ heard w.outDone w.out) :
    Signal.err e ∈ channelSent es ∨ ∃ v, Signal.ok v ∈ channelSent es ∧ ser v = .error e := by
  have h1 := mem_heard hm
  have h2 : Signal.err e ∈ (upToEnd (channelSent es)).map (message ser) := by
    obtain ⟨ha, hb⟩ := channel_outputs_partial de ser es he
    cases hd : w.outDone with
    | false =>
      obtain ⟨rest, h⟩ := ha hd
      rw [h]
      exact List.mem_append.mpr (.inl h1)
    | true => rw [← hb hd]; exact h1
  obtain ⟨x, h3, h4⟩ := List.mem_map.mp h2
  have h5 := mem_upToEnd h3
  cases x with
  | ok v =>
    refine .inr ⟨v, h5, ?_⟩
    simp only [message, convert] at h4
    cases hv : ser v with
    | ok b => rw [hv] at h4; cases h4
    | error m => rw [hv] at h4; simp only [Signal.err.injEq] at h4; rw [h4]
  | err m => simp only [message, Signal.err.injEq] at h4; subst h4; exact .inl h5
  | complete => cases h4

/-! ## Examples -/

/-- Elements are numbers below 100, one byte each. -/
def exSer (n : Nat) : Except Bytes Bytes := if n < 100 then .ok [UInt8.ofNat n] else .error [0]

/-- Reads one byte. -/
def exDe (b : Bytes) : Except Bytes Nat :=
  match b with
  | [x] => .ok x.toNat
  | _ => .error [1]

/-- A stream that is completed: nothing at first, then everything, also what code started by the implementation sent after it
returned. -/
example : (StreamW.start.run exSer [.use (.send (.ok 1)), .use .clone, .ret true, .pump, .use (.send (.ok 200)), .use (.send .complete),
    .use .drop, .pump, .pump]).map (fun w => (w.out, w.done)) = some ([.ok [1], .err [0], .complete], true) := by decide

example : (StreamW.start.run exSer [.use (.send (.ok 1)), .use (.send (.ok 2))]).map (·.out) = some [] := by decide

/-- It fails after two elements. -/
example : (StreamW.start.run exSer [.use (.send (.ok 1)), .use (.send (.ok 2)), .fail [9], .pump]).map (fun w => heard false w.out) =
    some [.err [9]] := by decide

/-- It returns its Flux without completing it. -/
example : (StreamW.start.run exSer [.use (.send (.ok 1)), .ret true, .pump, .pump, .pump]).map (fun w => (heard false w.out, w.done)) =
    some ([.ok [] [1]], false) := by decide

/-- A channel whose implementation reads an element, answers, and fails; the caller hears the answer and a normal end. Then
its own stream fails, and code the implementation started reads a normal end. -/
example : (ChannelW.start.run exDe exSer [.arrive (.ok [5]), .pumpIn, .read, .use (.send (.ok 6)), .pumpOut, .fail [9], .use .drop, .pumpOut,
    .arrive (.err [3]), .pumpIn, .read]).map (fun w => (w.impl, heard w.outDone w.out, w.read)) =
    some (.failed [9], [.ok [] [6], .done], [.item 5, .ended]) := by decide

end Iota.Props.RustWrappers
