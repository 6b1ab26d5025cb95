import Verif.Spec.Reqres
import Verif.Props.RustWrappers

/-!
# C183: the example component in Rust and the program that calls it
-/

namespace Iota.Props.Reqres
open Iota.Go Iota.RustWrappers Iota.Spec.RustWrappers Iota.Props.RustWrappers Iota.Reqres Iota.Spec.Reqres
open Iota.RustRx (Signal)

/-! ## `chars` -/

/-- What `chars` sends. -/
def charsSent (s : Str) : List (Signal Str Bytes) := s.map (fun c => .ok [c]) ++ [.complete]

theorem chars_eq (s : Str) : chars s = (charsSent s).map (fun x => .use (.send x)) ++ [.ret true] := by
  simp [chars, charsSent]

theorem sent_sends (xs : List (Signal Str Bytes)) : streamSent (xs.map (fun x => StreamEv.use (.send x)) ++ [.ret true]) = xs := by
  induction xs with
  | nil => rfl
  | cons x xs ih => simp only [List.map_cons, List.cons_append, streamSent, ih]

theorem sent_done (es : List (StreamEv Str)) : streamSent (done es) = streamSent es := by
  induction es with
  | nil => rfl
  | cons e es ih =>
    cases e with
    | use u => cases u <;> simp [done, streamSent, ih]
    | ret k => simp [done, streamSent, ih]
    | fail e => simp [done, streamSent, ih]
    | pump => simp [done, streamSent, ih]

theorem done_append (a b : List (StreamEv Str)) : done (a ++ b) = done a ++ done b := by
  induction a with
  | nil => rfl
  | cons e a ih => cases e <;> simp [done, ih]

theorem done_pumps (n : Nat) : done (List.replicate n .pump) = [] := by
  induction n with
  | zero => rfl
  | succ n ih => simp [List.replicate_succ, done, ih]

theorem upToEnd_chars (s : Str) : upToEnd (charsSent s) = s.map (fun c => .ok [c]) := by
  have h : completes (s.map (fun c => (Signal.ok [c] : Signal Str Bytes))) = false := by simp [completes]
  rw [charsSent, upToEnd_append _ _ h]
  simp [upToEnd]

/-- Where `chars` is: `rest` is what it has to do yet. -/
def At (w : StreamW Str) (rest : List (StreamEv Str)) : Prop :=
  w.outs.senders = 1 ∧ ((w.impl = .running ∧ ∃ xs : List (Signal Str Bytes), rest = xs.map (fun x => .use (.send x)) ++ [.ret true]) ∨
    (w.impl = .returned ∧ rest = []))

theorem next_senders {α : Type} (c : Chan α) : c.next.2.senders = c.senders := by
  obtain ⟨q, n⟩ := c
  cases q with
  | nil => simp only [Chan.next]; split <;> rfl
  | cons x q => cases x <;> rfl

theorem forward_keeps (ser : Str → Except Bytes Bytes) (w : StreamW Str) :
    (w.forward ser).outs.senders = w.outs.senders ∧ (w.forward ser).impl = w.impl := by
  have h := next_senders w.outs
  unfold StreamW.forward
  split <;> rename_i hc <;> rw [hc] at h <;> first | exact ⟨h, rfl⟩ | exact ⟨rfl, rfl⟩

theorem at_step {ser : Str → Except Bytes Bytes} {w w' : StreamW Str} {e : StreamEv Str} {rest : List (StreamEv Str)}
    (h : At w (done [e] ++ rest)) (he : w.step ser e = some w') : At w' rest := by
  obtain ⟨h1, h2⟩ := h
  cases e with
  | pump =>
    have h2 : (w.impl = .running ∧ ∃ xs : List (Signal Str Bytes), rest = xs.map (fun x => .use (.send x)) ++ [.ret true]) ∨ (w.impl = .returned ∧ rest = []) := h2
    rcases h2 with ⟨hr, _⟩ | ⟨hr, h3⟩
    · simp [StreamW.step, hr] at he
    · simp only [StreamW.step, hr] at he
      split at he
      · cases he
      · cases he
        have := forward_keeps ser w
        exact ⟨this.1.trans h1, Or.inr ⟨this.2.trans hr, h3⟩⟩
  | use u =>
    rcases h2 with ⟨hr, xs, hx⟩ | ⟨_, h3⟩
    · cases xs with
      | nil => simp [done] at hx
      | cons x xs =>
        simp only [done, List.cons_append, List.nil_append, List.map_cons, List.cons.injEq, StreamEv.use.injEq] at hx
        obtain ⟨rfl, rfl⟩ := hx
        simp only [StreamW.step, Option.map_eq_some_iff] at he
        obtain ⟨c, hc, rfl⟩ := he
        have hu := (use_spec hc).1 x rfl
        exact ⟨hu.2.2.trans h1, Or.inl ⟨hr, xs, rfl⟩⟩
    · simp [done] at h3
  | ret k =>
    rcases h2 with ⟨hr, xs, hx⟩ | ⟨_, h3⟩
    · cases xs with
      | nil =>
        simp only [done, List.cons_append, List.nil_append, List.map_nil, List.cons.injEq] at hx
        simp only [StreamW.step] at he
        split at he
        · cases he
          exact ⟨h1, Or.inr ⟨rfl, hx.2⟩⟩
        · cases he
      | cons x xs => simp [done] at hx
    · simp [done] at h3
  | fail e =>
    rcases h2 with ⟨hr, xs, hx⟩ | ⟨_, h3⟩
    · cases xs <;> simp [done] at hx
    · simp [done] at h3

theorem at_run {ser : Str → Except Bytes Bytes} (es : List (StreamEv Str)) {w w' : StreamW Str} {rest : List (StreamEv Str)}
    (h : At w (done es ++ rest)) (he : w.run ser es = some w') : At w' rest := by
  induction es generalizing w with
  | nil =>
    simp only [StreamW.run, Option.some.injEq] at he
    subst he
    exact h
  | cons e es ih =>
    simp only [StreamW.run] at he
    cases hs : w.step ser e with
    | none => rw [hs] at he; cases he
    | some w1 =>
      rw [hs] at he
      refine ih (at_step (e := e) ?_ hs) he
      rw [← List.append_assoc, ← done_append]
      exact h

/-- The task goes on by itself. -/
theorem at_finish {ser : Str → Except Bytes Bytes} (xs : List (Signal Str Bytes)) {w : StreamW Str}
    (h1 : w.outs.senders = 1) (hr : w.impl = .running) (hk : w.kept = false) :
    ∃ w', w.run ser (xs.map (fun x => .use (.send x)) ++ [.ret true]) = some w' ∧ w'.impl = .returned := by
  induction xs generalizing w with
  | nil => exact ⟨{ w with impl := .returned, kept := true }, by simp [StreamW.run, StreamW.step, hr, h1], rfl⟩
  | cons x xs ih =>
    have hs : w.step ser (.use (.send x)) = some { w with outs := { w.outs with queue := w.outs.queue ++ [x] } } := by
      simp [StreamW.step, Chan.use, h1]
    obtain ⟨w', h2, h3⟩ := ih (w := { w with outs := { w.outs with queue := w.outs.queue ++ [x] } }) h1 hr hk
    refine ⟨w', ?_, h3⟩
    simp only [List.map_cons, List.cons_append, StreamW.run, hs]
    exact h2

theorem start_at (s : Str) : At StreamW.start (chars s) := ⟨rfl, Or.inl ⟨rfl, _, chars_eq s⟩⟩

/-- What the caller of `chars` is to be told. -/
theorem chars_said (ser : Str → Except Bytes Bytes) (s : Str) :
    (upToEnd (charsSent s)).map (message ser) = s.map fun c => said ser [c] := by
  rw [upToEnd_chars, List.map_map]
  apply List.map_congr_left
  intro c _
  simp only [Function.comp, message, said]
  cases ser [c] <;> rfl

/-- **C183** `chars` streams the characters of its argument, one string for each, in order, and then completion. -/
theorem chars_streams (ser : Str → Except Bytes Bytes) (s : Str) (es : List (StreamEv Str)) {w : StreamW Str}
    {rest : List (StreamEv Str)} (hd : chars s = done es ++ rest) (he : StreamW.start.run ser es = some w) :
    (∃ more, s.map (fun c => said ser [c]) ++ [.complete] = w.out ++ more) ∧
    (w.done = true → w.out = s.map (fun c => said ser [c]) ++ [.complete]) := by
  have ha := at_run es (rest := rest) (by rw [← hd]; exact start_at s) he
  have hi := sinv ser es he
  have hs : streamSent es ++ streamSent rest = charsSent s := by
    rw [← sent_done es, ← streamSent_append, ← hd, chars_eq, sent_sends]
  rcases ha.2 with ⟨hr, _⟩ | ⟨hr, hn⟩
  · obtain ⟨h1, h2, _⟩ := hi.running hr
    rw [h1, h2]
    exact ⟨⟨_, rfl⟩, fun h => nomatch h⟩
  · subst hn
    have hs : streamSent es = charsSent s := by simpa [streamSent] using hs
    have hp := stream_wrapper_partial ser es he hr
    rw [hs, chars_said] at hp
    refine ⟨?_, hp.2⟩
    cases hd : w.done with
    | true => exact ⟨[], by rw [hp.2 hd, List.append_nil]⟩
    | false =>
      obtain ⟨m, hm⟩ := hp.1 hd
      exact ⟨m ++ [.complete], by rw [hm, List.append_assoc]⟩

/-- **C183** Nothing else is needed for that. -/
theorem chars_ends (ser : Str → Except Bytes Bytes) (s : Str) (es : List (StreamEv Str)) {w : StreamW Str}
    {rest : List (StreamEv Str)} (hd : chars s = done es ++ rest) (he : StreamW.start.run ser es = some w) :
    ∃ n w', StreamW.start.run ser (es ++ (rest ++ List.replicate n .pump)) = some w' ∧ w'.done = true ∧
      w'.out = s.map (fun c => said ser [c]) ++ [.complete] := by
  have ha := at_run es (rest := rest) (by rw [← hd]; exact start_at s) he
  have hs : streamSent es ++ streamSent rest = charsSent s := by
    rw [← sent_done es, ← streamSent_append, ← hd, chars_eq, sent_sends]
  have hw : ∃ w1, StreamW.start.run ser (es ++ rest) = some w1 ∧ w1.impl = .returned := by
    rcases ha.2 with ⟨hr, xs, hx⟩ | ⟨hr, hn⟩
    · obtain ⟨w1, h1, h2⟩ := at_finish (ser := ser) xs ha.1 hr ((sinv ser es he).running hr).2.2.2
      refine ⟨w1, ?_, h2⟩
      rw [streamRun_append, he, hx]
      exact h1
    · subst hn
      exact ⟨w, by rw [List.append_nil]; exact he, hr⟩
  obtain ⟨w1, h1, h2⟩ := hw
  have hc : streamSent (es ++ rest) = charsSent s := by rw [streamSent_append, hs]
  obtain ⟨n, w', h3, h4, h5⟩ := stream_wrapper_ends_partial ser (es ++ rest) h1 h2
    (Or.inl (by rw [hc, charsSent, completes_append]; simp [completes]))
  rw [hc, chars_said] at h5
  refine ⟨n, w', ?_, h4, h5⟩
  rw [← List.append_assoc]
  exact h3

/-! ## `reverse` -/

/-- What `reverse` sends for what it reads. -/
def reply (txt : Bytes → Bytes) : Got Str → Signal Str Bytes
  | .item s => .ok s.reverse
  | .error e => .err (txt e)
  | _ => .complete

/-- What is known after any run: `s` was sent. -/
def Sent (txt : Bytes → Bytes) (s : List (Signal Str Bytes)) (r : Rev) : Prop :=
  match r.phase with
  | .reading => s = (readItems r.w.read).map (reply txt) ∧ r.w.impl = .running ∧ r.w.outs.senders = 1
  | .sending x => s ++ [x] = (readItems r.w.read).map (reply txt) ∧ r.w.impl = .running ∧ r.w.outs.senders = 1
  | .completing =>
    s = (readItems r.w.read).map (reply txt) ∧ r.w.impl = .running ∧ r.w.outs.senders = 1 ∧ Got.ended ∈ r.w.read
  | .returning =>
    s = (readItems r.w.read).map (reply txt) ++ [.complete] ∧ r.w.impl = .running ∧ r.w.outs.senders = 1 ∧ Got.ended ∈ r.w.read
  | .dropping => s = (readItems r.w.read).map (reply txt) ++ [.complete] ∧ r.w.outs.senders = 1 ∧ Got.ended ∈ r.w.read
  | .gone => s = (readItems r.w.read).map (reply txt) ++ [.complete] ∧ Got.ended ∈ r.w.read

theorem sent_same {txt : Bytes → Bytes} {s : List (Signal Str Bytes)} {r : Rev} (h : Sent txt s r) (w : ChannelW Str Str)
    (h1 : w.read = r.w.read) (h2 : w.impl = r.w.impl) (h3 : w.outs.senders = r.w.outs.senders) :
    Sent txt s { r with w := w } := by
  unfold Sent at *
  simp only [h1, h2, h3]
  exact h

theorem fin_keeps {de : Bytes → Except Bytes Str} (w : ChannelW Str Str) :
    (w.forwardIn de).read = w.read ∧ (w.forwardIn de).impl = w.impl ∧ (w.forwardIn de).outs = w.outs ∧
      (w.forwardIn de).input.senders = w.input.senders := by
  have h := next_senders w.input
  unfold ChannelW.forwardIn
  split <;> rename_i hc <;> first | exact ⟨rfl, rfl, rfl, rfl⟩ | (rw [hc] at h; exact ⟨rfl, rfl, rfl, h⟩)

theorem fout_keeps {ser : Str → Except Bytes Bytes} (w : ChannelW Str Str) :
    (w.forwardOut ser).read = w.read ∧ (w.forwardOut ser).impl = w.impl ∧
      (w.forwardOut ser).outs.senders = w.outs.senders ∧ (w.forwardOut ser).input = w.input := by
  have h := next_senders w.outs
  unfold ChannelW.forwardOut
  split <;> rename_i hc <;> rw [hc] at h <;> first | exact ⟨rfl, rfl, h, rfl⟩ | exact ⟨rfl, rfl, rfl, rfl⟩

/-- Whether the caller's stream was dropped. -/
def hung : List RevEv → Bool
  | [] => false
  | .hangup :: _ => true
  | _ :: es => hung es

/-- A step of the component is one of the wrapper. -/
theorem rev_step {txt : Bytes → Bytes} {de : Bytes → Except Bytes Str} {ser : Str → Except Bytes Bytes} {r r' : Rev}
    {s : List (Signal Str Bytes)} {e : RevEv} (h : Sent txt s r) (he : r.step txt de ser e = some r') :
    ∃ c, r.w.step de ser c = some r'.w ∧ channelArrived [c] = arrived [e] ∧ Sent txt (s ++ channelSent [c]) r' ∧
      (r.w.input.senders ≤ 1 → (hung [e] = true → r'.w.input.senders = 0) ∧ r'.w.input.senders ≤ r.w.input.senders) := by
  cases e with
  | arrive x =>
    simp only [Rev.step, Option.map_eq_some_iff] at he
    obtain ⟨w, hw, rfl⟩ := he
    refine ⟨.arrive x, hw, rfl, ?_⟩
    simp only [ChannelW.step, Option.map_eq_some_iff] at hw
    obtain ⟨c, hc, rfl⟩ := hw
    have hu := (use_spec hc).1 x rfl
    refine ⟨?_, fun _ => ⟨(fun h => nomatch h), Nat.le_of_eq hu.2.2⟩⟩
    simp only [channelSent, List.append_nil]
    exact sent_same h _ rfl rfl rfl
  | hangup =>
    simp only [Rev.step, Option.map_eq_some_iff] at he
    obtain ⟨w, hw, rfl⟩ := he
    refine ⟨.hangup, hw, rfl, ?_⟩
    simp only [ChannelW.step, Option.map_eq_some_iff] at hw
    obtain ⟨c, hc, rfl⟩ := hw
    refine ⟨?_, fun h1 => ?_⟩
    · simp only [channelSent, List.append_nil]
      exact sent_same h _ rfl rfl rfl
    · simp only [Chan.use] at hc
      split at hc
      · cases hc
        exact ⟨fun _ => by show r.w.input.senders - 1 = 0; omega, Nat.sub_le _ _⟩
      · cases hc
  | pumpIn =>
    simp only [Rev.step, Option.map_eq_some_iff] at he
    obtain ⟨w, hw, rfl⟩ := he
    refine ⟨.pumpIn, hw, rfl, ?_⟩
    simp only [ChannelW.step] at hw
    split at hw
    · cases hw
    · cases hw
      have hk := fin_keeps (de := de) r.w
      refine ⟨?_, fun _ => ⟨(fun h => nomatch h), Nat.le_of_eq hk.2.2.2⟩⟩
      simp only [channelSent, List.append_nil]
      exact sent_same h _ hk.1 hk.2.1 (by rw [hk.2.2.1])
  | pumpOut =>
    simp only [Rev.step, Option.map_eq_some_iff] at he
    obtain ⟨w, hw, rfl⟩ := he
    refine ⟨.pumpOut, hw, rfl, ?_⟩
    simp only [ChannelW.step] at hw
    split at hw
    · cases hw
    · cases hw
      have hk := fout_keeps (ser := ser) r.w
      refine ⟨?_, fun _ => ⟨(fun h => nomatch h), Nat.le_of_eq (by rw [hk.2.2.2])⟩⟩
      simp only [channelSent, List.append_nil]
      exact sent_same h _ hk.1 hk.2.1 hk.2.2.1
  | task =>
    simp only [Rev.step, Rev.task] at he
    split at he <;> rename_i hp <;> simp only [Sent, hp] at h
    · simp only [Option.map_eq_some_iff] at he
      obtain ⟨w, hw, rfl⟩ := he
      refine ⟨.read, hw, rfl, ?_⟩
      simp only [ChannelW.step, Option.some.injEq] at hw
      subst hw
      refine ⟨?_, fun _ => ⟨(fun h => nomatch h), Nat.le_refl _⟩⟩
      simp only [channelSent, List.append_nil]
      obtain ⟨h1, h2, h3⟩ := h
      cases hg : r.w.inputs.next.1 with
      | item v => simp [Sent, react, readItems_append, readItems, reply, h1, h2, h3]
      | error v => simp [Sent, react, readItems_append, readItems, reply, h1, h2, h3]
      | ended => simp [Sent, react, readItems_append, readItems, h1, h2, h3]
      | pending => simp [Sent, react, readItems_append, readItems, h1, h2, h3]
    · rename_i x
      simp only [Option.map_eq_some_iff] at he
      obtain ⟨w, hw, rfl⟩ := he
      refine ⟨.use (.send x), hw, rfl, ?_⟩
      simp only [ChannelW.step, Option.map_eq_some_iff] at hw
      obtain ⟨c, hc, rfl⟩ := hw
      have hu := (use_spec hc).1 x rfl
      refine ⟨?_, fun _ => ⟨(fun h => nomatch h), Nat.le_refl _⟩⟩
      exact ⟨h.1, h.2.1, hu.2.2.trans h.2.2⟩
    · simp only [Option.map_eq_some_iff] at he
      obtain ⟨w, hw, rfl⟩ := he
      refine ⟨.use (.send .complete), hw, rfl, ?_⟩
      simp only [ChannelW.step, Option.map_eq_some_iff] at hw
      obtain ⟨c, hc, rfl⟩ := hw
      have hu := (use_spec hc).1 .complete rfl
      refine ⟨?_, fun _ => ⟨(fun h => nomatch h), Nat.le_refl _⟩⟩
      exact ⟨by rw [h.1]; rfl, h.2.1, hu.2.2.trans h.2.2.1, h.2.2.2⟩
    · simp only [Option.map_eq_some_iff] at he
      obtain ⟨w, hw, rfl⟩ := he
      refine ⟨.ret, hw, rfl, ?_⟩
      simp only [ChannelW.step, h.2.1, if_true, Option.some.injEq] at hw
      subst hw
      refine ⟨?_, fun _ => ⟨(fun h => nomatch h), Nat.le_refl _⟩⟩
      simp only [channelSent, List.append_nil]
      exact ⟨h.1, h.2.2.1, h.2.2.2⟩
    · simp only [Option.map_eq_some_iff] at he
      obtain ⟨w, hw, rfl⟩ := he
      refine ⟨.use .drop, hw, rfl, ?_⟩
      simp only [ChannelW.step, Option.map_eq_some_iff] at hw
      obtain ⟨c, hc, rfl⟩ := hw
      refine ⟨?_, fun _ => ⟨(fun h => nomatch h), Nat.le_refl _⟩⟩
      simp only [channelSent, List.append_nil]
      exact ⟨h.1, h.2.2⟩
    · cases he

theorem arrived_cons (e : RevEv) (es : List RevEv) : arrived (e :: es) = arrived [e] ++ arrived es := by
  cases e <;> rfl

theorem hung_cons (e : RevEv) (es : List RevEv) : hung (e :: es) = (hung [e] || hung es) := by
  cases e <;> simp [hung]

theorem rev_run {txt : Bytes → Bytes} {de : Bytes → Except Bytes Str} {ser : Str → Except Bytes Bytes} (es : List RevEv) {r r' : Rev}
    {cs : List (ChannelEv Str)} (h0 : ChannelW.start.run de ser cs = some r.w) (h : Sent txt (channelSent cs) r)
    (hn : r.w.input.senders ≤ 1) (he : r.run txt de ser es = some r') :
    ∃ cs', ChannelW.start.run de ser cs' = some r'.w ∧ Sent txt (channelSent cs') r' ∧
      channelArrived cs' = channelArrived cs ++ arrived es ∧ r'.w.input.senders ≤ r.w.input.senders ∧
      (hung es = true → r'.w.input.senders = 0) := by
  induction es generalizing r cs with
  | nil =>
    simp only [Rev.run, Option.some.injEq] at he
    subst he
    exact ⟨cs, h0, h, by simp [arrived], Nat.le_refl _, (fun h => nomatch h)⟩
  | cons e es ih =>
    simp only [Rev.run] at he
    cases hs : r.step txt de ser e with
    | none => rw [hs] at he; cases he
    | some r1 =>
      rw [hs] at he
      obtain ⟨c, h1, h2, h3, h4⟩ := rev_step h hs
      obtain ⟨h5, h6⟩ := h4 hn
      obtain ⟨cs', h7, h8, h9, h10, h11⟩ := ih (cs := cs ++ [c])
        (by rw [channelRun_append, h0]; simp only [Option.bind_some, ChannelW.run, h1]) (by rw [channelSent_append]; exact h3)
        (by omega) he
      refine ⟨cs', h7, h8, ?_, by omega, ?_⟩
      · rw [h9, channelArrived_append, h2, arrived_cons e es, List.append_assoc]
      · rw [hung_cons]
        intro hh
        cases hg : hung [e] with
        | true => have := h5 hg; omega
        | false => rw [hg] at hh; exact h11 hh

theorem rev_start (txt : Bytes → Bytes) (de : Bytes → Except Bytes Str) (ser : Str → Except Bytes Bytes) (es : List RevEv) {r : Rev}
    (he : Rev.start.run txt de ser es = some r) :
    ∃ cs, ChannelW.start.run de ser cs = some r.w ∧ Sent txt (channelSent cs) r ∧ channelArrived cs = arrived es ∧
      r.w.input.senders ≤ 1 ∧ (hung es = true → r.w.input.senders = 0) := by
  obtain ⟨cs, h1, h2, h3, h4, h5⟩ := rev_run es (cs := []) (r := Rev.start) rfl ⟨rfl, rfl, rfl⟩ (Nat.le_refl _) he
  exact ⟨cs, h1, h2, by simpa [channelArrived] using h3, h4, h5⟩

theorem reply_open (txt : Bytes → Bytes) (l : List (Got Str)) : completes ((readItems l).map (reply txt)) = false := by
  induction l with
  | nil => rfl
  | cons x l ih =>
    cases x with
    | item v => exact (completes_append [Signal.ok v.reverse] _).trans ih
    | error e => exact (completes_append [Signal.err (txt e)] _).trans ih
    | ended => exact ih
    | pending => exact ih

/-- What was sent before the end. -/
theorem sent_open {txt : Bytes → Bytes} {s : List (Signal Str Bytes)} {r : Rev} (h : Sent txt s r) :
    (∃ more, (readItems r.w.read).map (reply txt) = upToEnd s ++ more) ∧
    (completes s = true ∨ r.phase = .gone → upToEnd s = (readItems r.w.read).map (reply txt) ∧ Got.ended ∈ r.w.read) := by
  have ho := reply_open txt r.w.read
  unfold Sent at h
  have hend : s = (readItems r.w.read).map (reply txt) ++ [.complete] → upToEnd s = (readItems r.w.read).map (reply txt) := by
    intro hs
    rw [hs, upToEnd_append _ _ ho]
    simp [upToEnd]
  split at h <;> rename_i hp
  · rw [h.1, upToEnd_self _ ho, ho]
    exact ⟨⟨[], by simp⟩, fun hh => by rcases hh with hh | hh <;> simp_all⟩
  · rename_i x
    have h1 := h.1
    have hc : completes s = false := by
      rw [← h1, completes_append] at ho
      simpa using (Bool.or_eq_false_iff.mp ho).1
    rw [upToEnd_self _ hc, hc, ← h1]
    exact ⟨⟨[x], rfl⟩, fun hh => by rcases hh with hh | hh <;> simp_all⟩
  · rw [h.1, upToEnd_self _ ho, ho]
    exact ⟨⟨[], by simp⟩, fun hh => by rcases hh with hh | hh <;> simp_all⟩
  · rw [hend h.1]
    exact ⟨⟨[], by simp⟩, fun _ => ⟨rfl, h.2.2.2⟩⟩
  · rw [hend h.1]
    exact ⟨⟨[], by simp⟩, fun _ => ⟨rfl, h.2.2⟩⟩
  · rw [hend h.1]
    exact ⟨⟨[], by simp⟩, fun _ => ⟨rfl, h.2⟩⟩

theorem reply_given (txt : Bytes → Bytes) (de : Bytes → Except Bytes Str) (ser : Str → Except Bytes Bytes) (l : List Bytes) :
    ((l.map (given de)).map (reply txt)).map (message ser) = l.map (reversed txt de ser) := by
  simp only [List.map_map]
  apply List.map_congr_left
  intro b _
  simp only [Function.comp, given, reversed]
  cases de b with
  | ok s => rfl
  | error e => rfl

/-- **C183** `reverse` answers each element of its input, in order: with the string in it reversed. It ends after the input
has ended, and then it has answered all of them. -/
theorem reverse_answers (txt : Bytes → Bytes) (de : Bytes → Except Bytes Str) (ser : Str → Except Bytes Bytes) (es : List RevEv)
    {r : Rev} (he : Rev.start.run txt de ser es = some r) :
    (∃ more, (elements (arrived es)).map (reversed txt de ser) = r.w.out ++ more) ∧
    (r.w.outDone = true → r.w.out = (elements (arrived es)).map (reversed txt de ser) ∧ r.w.inDone = true) := by
  obtain ⟨cs, h1, h2, h3, _, _⟩ := rev_start txt de ser es he
  obtain ⟨ho, a, b, hi⟩ := cinv de ser cs h1
  have hin := channel_inputs_partial de ser cs h1
  have hout := channel_outputs_partial de ser cs h1
  have hs := sent_open h2
  rw [h3] at hin
  constructor
  · obtain ⟨m1, hm1⟩ := hin.1
    obtain ⟨m2, hm2⟩ := hs.1
    have : ∃ m3, (upToEnd (channelSent cs)).map (message ser) = r.w.out ++ m3 := by
      cases hd : r.w.outDone with
      | false => exact hout.1 hd
      | true => exact ⟨[], by rw [hout.2 hd, List.append_nil]⟩
    obtain ⟨m3, hm3⟩ := this
    refine ⟨m3 ++ (m2.map (message ser) ++ (m1.map (reply txt)).map (message ser)), ?_⟩
    rw [← reply_given, hm1, List.map_append, List.map_append, hm2, List.map_append, hm3]
    simp only [List.append_assoc]
  · intro hd
    have hc : completes (channelSent cs) = true ∨ r.phase = .gone := by
      obtain ⟨pre, _, _, ⟨rest, hr⟩ | ⟨_, hz⟩⟩ := ho.forwarded hd
      · left
        rw [hr, completes_append]
        simp [completes]
      · right
        unfold Sent at h2
        split at h2 <;> first | assumption | (exfalso; omega)
    obtain ⟨h4, h5⟩ := hs.2 hc
    refine ⟨?_, (hi.ended h5).1⟩
    rw [hout.2 hd, h4, hin.2 h5, reply_given]

/-! The end. -/

theorem rev_append (txt : Bytes → Bytes) (de : Bytes → Except Bytes Str) (ser : Str → Except Bytes Bytes) (r : Rev) (a b : List RevEv) :
    r.run txt de ser (a ++ b) = (r.run txt de ser a).bind fun r' => r'.run txt de ser b := by
  induction a generalizing r with
  | nil => rfl
  | cons e a ih =>
    simp only [List.cons_append, Rev.run]
    cases r.step txt de ser e with
    | none => rfl
    | some r' => exact ih r'

/-- The caller's stream has ended. -/
def Closed (w : ChannelW Str Str) : Prop :=
  w.inDone = true ∨ (∃ x ∈ w.input.queue, ∀ b, x ≠ .ok b) ∨ w.input.senders = 0

def weight : Phase → Nat
  | .reading => 5
  | .sending _ => 7
  | .completing => 4
  | .returning => 3
  | .dropping => 2
  | .gone => 0

def measure (r : Rev) : Nat :=
  4 * r.w.input.queue.length + (if r.w.inDone then 0 else 4) + 3 * r.w.inputs.queue.length + weight r.phase

/-- While the task is not done, something can go on. -/
theorem rev_progress {txt : Bytes → Bytes} {de : Bytes → Except Bytes Str} {ser : Str → Except Bytes Bytes} {r : Rev}
    {s : List (Signal Str Bytes)} (h : Sent txt s r) (hc : Closed r.w) (hz : r.w.inDone = true → r.w.inputs.senders = 0)
    (hp : r.phase ≠ .gone) :
    ∃ e r', (e = .pumpIn ∨ e = .task) ∧ r.step txt de ser e = some r' ∧ measure r' < measure r ∧ Closed r'.w := by
  obtain ⟨w, p⟩ := r
  cases p with
  | gone => exact absurd rfl hp
  | sending x =>
    refine ⟨.task, ⟨{ w with outs := { w.outs with queue := w.outs.queue ++ [x] } }, .reading⟩, Or.inr rfl, ?_, ?_, hc⟩
    · simp only [Sent] at h
      simp [Rev.step, Rev.task, ChannelW.step, Chan.use, h.2.2]
    · simp only [measure, weight]; omega
  | completing =>
    refine ⟨.task, ⟨{ w with outs := { w.outs with queue := w.outs.queue ++ [.complete] } }, .returning⟩, Or.inr rfl, ?_, ?_, hc⟩
    · simp only [Sent] at h
      simp [Rev.step, Rev.task, ChannelW.step, Chan.use, h.2.2]
    · simp only [measure, weight]; omega
  | returning =>
    refine ⟨.task, ⟨{ w with impl := .returned }, .dropping⟩, Or.inr rfl, ?_, ?_, hc⟩
    · simp only [Sent] at h
      simp [Rev.step, Rev.task, ChannelW.step, h.2.1]
    · simp only [measure, weight]; omega
  | dropping =>
    refine ⟨.task, ⟨{ w with outs := { w.outs with senders := w.outs.senders - 1 } }, .gone⟩, Or.inr rfl, ?_, ?_, hc⟩
    · simp only [Sent] at h
      simp [Rev.step, Rev.task, ChannelW.step, Chan.use, h.2.1]
    · simp only [measure, weight]; omega
  | reading =>
    obtain ⟨impl, ⟨iq, is⟩, inDone, ⟨q, n⟩, read, outs, out, outDone⟩ := w
    cases q with
    | cons x q =>
      cases x with
      | ok v =>
        refine ⟨.task, ⟨⟨impl, ⟨iq, is⟩, inDone, ⟨q, n⟩, read ++ [.item v], outs, out, outDone⟩, .sending (.ok v.reverse)⟩, Or.inr rfl, rfl, ?_, hc⟩
        simp only [measure, weight, List.length_cons]; omega
      | err v =>
        refine ⟨.task, ⟨⟨impl, ⟨iq, is⟩, inDone, ⟨q, n⟩, read ++ [.error v], outs, out, outDone⟩, .sending (.err (txt v))⟩, Or.inr rfl, rfl, ?_, hc⟩
        simp only [measure, weight, List.length_cons]; omega
      | complete =>
        refine ⟨.task, ⟨⟨impl, ⟨iq, is⟩, inDone, ⟨q, n⟩, read ++ [.ended], outs, out, outDone⟩, .completing⟩, Or.inr rfl, rfl, ?_, hc⟩
        simp only [measure, weight, List.length_cons]; omega
    | nil =>
      cases inDone with
      | true =>
        have hz : n = 0 := hz rfl
        subst hz
        refine ⟨.task, ⟨⟨impl, ⟨iq, is⟩, true, ⟨[], 0⟩, read ++ [.ended], outs, out, outDone⟩, .completing⟩, Or.inr rfl, rfl, ?_, hc⟩
        simp only [measure, weight]; omega
      | false =>
        cases iq with
        | cons x iq =>
          cases x with
          | ok b =>
            refine ⟨.pumpIn, _, Or.inl rfl, rfl, ?_, ?_⟩
            · simp only [measure, weight, ChannelW.forwardIn, Chan.next, List.length_cons, List.length_append, List.length_nil]
              simp
              omega
            · rcases hc with hc | ⟨x, hx, hn⟩ | hc
              · cases hc
              · refine Or.inr (Or.inl ⟨x, ?_, hn⟩)
                rcases List.mem_cons.mp hx with rfl | hx
                · exact absurd rfl (hn b)
                · exact hx
              · exact Or.inr (Or.inr hc)
          | err b =>
            refine ⟨.pumpIn, _, Or.inl rfl, rfl, ?_, Or.inl rfl⟩
            simp only [measure, weight, ChannelW.forwardIn, Chan.next, List.length_cons, List.length_nil]
            simp
            omega
          | complete =>
            refine ⟨.pumpIn, _, Or.inl rfl, rfl, ?_, Or.inl rfl⟩
            simp only [measure, weight, ChannelW.forwardIn, Chan.next, List.length_cons, List.length_nil]
            simp
            omega
        | nil =>
          have hs : is = 0 := by
            rcases hc with hc | ⟨x, hx, _⟩ | hc
            · cases hc
            · cases hx
            · exact hc
          subst hs
          refine ⟨.pumpIn, _, Or.inl rfl, rfl, ?_, Or.inl rfl⟩
          simp [measure, weight, ChannelW.forwardIn, Chan.next]

theorem rev_gone {txt : Bytes → Bytes} {de : Bytes → Except Bytes Str} {ser : Str → Except Bytes Bytes} (n : Nat) {r : Rev}
    {cs : List (ChannelEv Str)} (h0 : ChannelW.start.run de ser cs = some r.w) (h : Sent txt (channelSent cs) r)
    (hn : r.w.input.senders ≤ 1) (hc : Closed r.w) (hm : measure r ≤ n) :
    ∃ es r', (∀ e ∈ es, e = .pumpIn ∨ e = .task) ∧ r.run txt de ser es = some r' ∧ r'.phase = .gone := by
  induction n generalizing r cs with
  | zero =>
    refine ⟨[], r, (fun e he => nomatch he), rfl, ?_⟩
    simp only [measure] at hm
    cases hp : r.phase <;> simp [hp, weight] at hm
    rfl
  | succ n ih =>
    by_cases hp : r.phase = .gone
    · exact ⟨[], r, (fun e he => nomatch he), rfl, hp⟩
    · obtain ⟨_, a, b, hi⟩ := cinv de ser cs h0
      obtain ⟨e, r1, h1, h2, h3, h4⟩ := rev_progress (de := de) (ser := ser) h hc (fun hd => (hi.closed hd).1) hp
      obtain ⟨c, h5, _, h6, h7⟩ := rev_step h h2
      obtain ⟨es, r', h8, h9, h10⟩ := ih (r := r1) (cs := cs ++ [c])
        (by rw [channelRun_append, h0]; simp only [Option.bind_some, ChannelW.run, h5]) (by rw [channelSent_append]; exact h6)
        (Nat.le_trans (h7 hn).2 hn) h4 (by omega)
      refine ⟨e :: es, r', ?_, ?_, h10⟩
      · intro e' he'
        rcases List.mem_cons.mp he' with rfl | he'
        · exact h1
        · exact h8 e' he'
      · simp only [Rev.run, h2]
        exact h9

theorem rev_pumps {txt : Bytes → Bytes} {de : Bytes → Except Bytes Str} {ser : Str → Except Bytes Bytes} (n : Nat) (r : Rev)
    {w : ChannelW Str Str} (h : r.w.run de ser (List.replicate n .pumpOut) = some w) :
    r.run txt de ser (List.replicate n .pumpOut) = some { r with w := w } := by
  induction n generalizing r with
  | zero =>
    simp only [List.replicate_zero, ChannelW.run, Option.some.injEq] at h
    subst h
    rfl
  | succ n ih =>
    simp only [List.replicate_succ, ChannelW.run] at h
    cases hs : r.w.step de ser .pumpOut with
    | none => rw [hs] at h; cases h
    | some w1 =>
      rw [hs] at h
      simp only [List.replicate_succ, Rev.run, Rev.step, hs, Option.map_some]
      exact ih { r with w := w1 } h

theorem arrived_own (es : List RevEv) (h : ∀ e ∈ es, e = .pumpIn ∨ e = .pumpOut ∨ e = .task) : arrived es = [] := by
  induction es with
  | nil => rfl
  | cons e es ih =>
    rw [arrived_cons, ih fun e' he' => h e' (List.mem_cons_of_mem _ he')]
    rcases h e List.mem_cons_self with rfl | rfl | rfl <;> rfl

theorem arrived_append (a b : List RevEv) : arrived (a ++ b) = arrived a ++ arrived b := by
  induction a with
  | nil => rfl
  | cons e a ih => rw [List.cons_append, arrived_cons, ih, arrived_cons e a, List.append_assoc]

theorem hung_mem {es : List RevEv} (h : RevEv.hangup ∈ es) : hung es = true := by
  induction es with
  | nil => cases h
  | cons e es ih =>
    rcases List.mem_cons.mp h with rfl | h
    · rfl
    · rw [hung_cons, ih h, Bool.or_true]

/-- **C183** Once the input has ended, `reverse` ends by itself. -/
theorem reverse_ends (txt : Bytes → Bytes) (de : Bytes → Except Bytes Str) (ser : Str → Except Bytes Bytes) (es : List RevEv)
    {r : Rev} (he : Rev.start.run txt de ser es = some r) (hc : (∃ x ∈ arrived es, ∀ b, x ≠ .ok b) ∨ .hangup ∈ es) :
    ∃ es' r', (∀ e ∈ es', e = .pumpIn ∨ e = .pumpOut ∨ e = .task) ∧ Rev.start.run txt de ser (es ++ es') = some r' ∧
      r'.w.outDone = true ∧ r'.w.out = (elements (arrived es)).map (reversed txt de ser) := by
  obtain ⟨cs, h1, h2, h3, h4, h5⟩ := rev_start txt de ser es he
  obtain ⟨_, a, b, hi⟩ := cinv de ser cs h1
  have hcl : Closed r.w := by
    rcases hc with ⟨x, hx, hn⟩ | hh
    · cases hd : r.w.inDone with
      | true => exact Or.inl hd
      | false =>
        right; left
        rw [← h3, (hi.open_ hd).1] at hx
        rcases List.mem_append.mp hx with hx | hx
        · obtain ⟨v, _, hv⟩ := List.mem_map.mp hx
          exact absurd hv.symm (hn v)
        · exact ⟨x, hx, hn⟩
    · exact Or.inr (Or.inr (h5 (hung_mem hh)))
  obtain ⟨es1, r1, h6, h7, h8⟩ := rev_gone (measure r) h1 h2 h4 hcl (Nat.le_refl _)
  have hr1 : Rev.start.run txt de ser (es ++ es1) = some r1 := by rw [rev_append, he]; exact h7
  obtain ⟨cs1, g1, g2, g3, _, _⟩ := rev_start txt de ser (es ++ es1) hr1
  have hcomp : completes (channelSent cs1) = true := by
    simp only [Sent, h8] at g2
    rw [g2.1, completes_append]
    simp [completes]
  obtain ⟨n, w', g4, g5, _⟩ := channel_outputs_end_partial de ser cs1 g1 (Or.inl hcomp)
  rw [channelRun_append, g1] at g4
  have g6 := rev_pumps (txt := txt) n r1 g4
  have hall : ∀ e ∈ es1 ++ List.replicate n RevEv.pumpOut, e = .pumpIn ∨ e = .pumpOut ∨ e = .task := by
    intro e hm
    rcases List.mem_append.mp hm with hm | hm
    · rcases h6 e hm with h | h
      · exact Or.inl h
      · exact Or.inr (Or.inr h)
    · exact Or.inr (Or.inl (List.eq_of_mem_replicate hm))
  have hfin : Rev.start.run txt de ser (es ++ (es1 ++ List.replicate n .pumpOut)) = some { r1 with w := w' } := by
    rw [← List.append_assoc, rev_append, hr1]
    exact g6
  refine ⟨es1 ++ List.replicate n .pumpOut, { r1 with w := w' }, hall, hfin, g5, ?_⟩
  have := ((reverse_answers txt de ser _ hfin).2 g5).1
  rw [arrived_append, arrived_own _ hall, List.append_nil] at this
  exact this

/-! ## The program -/

/-- **C183 (partial)** The program prints the strings of a response in order, one on each line, and ends well. Missing: a
response that fails, see `request_failure_refuted`. -/
theorem request_prints_partial (dec : Bytes → Except Bytes Str) (ser : Str → Except Bytes Bytes) (l : List Str) (bs : List Bytes)
    (hs : l.map ser = bs.map .ok) (hd : ∀ s b, ser s = .ok b → dec b = .ok s) :
    listen dec (bs.map .ok ++ [.complete]) = ⟨l.map .text, true⟩ ∧ listen dec (bs.map .ok) = ⟨l.map .text, true⟩ := by
  induction l generalizing bs with
  | nil =>
    cases bs with
    | nil => exact ⟨rfl, rfl⟩
    | cons b bs => cases hs
  | cons s l ih =>
    cases bs with
    | nil => cases hs
    | cons b bs =>
      simp only [List.map_cons, List.cons.injEq] at hs
      obtain ⟨i1, i2⟩ := ih bs hs.2
      have hb := hd s b hs.1
      constructor
      · simp only [List.map_cons, List.cons_append, listen, hb]
        rw [i1]
      · simp only [List.map_cons, listen, hb]
        rw [i2]

/-- **C183** The characters of the argument of `chars`, printed. -/
theorem request_chars (dec : Bytes → Except Bytes Str) (ser : Str → Except Bytes Bytes) (s : Str)
    (hs : ∀ c ∈ s, ∃ b, ser [c] = .ok b) (hd : ∀ t b, ser t = .ok b → dec b = .ok t) (es : List (StreamEv Str)) {w : StreamW Str}
    {rest : List (StreamEv Str)} (hes : chars s = done es ++ rest) (he : StreamW.start.run ser es = some w) (hw : w.done = true) :
    listen dec w.out = ⟨s.map fun c => .text [c], true⟩ := by
  rw [(chars_streams ser s es hes he).2 hw]
  clear hes he
  induction s with
  | nil => rfl
  | cons c s ih =>
    obtain ⟨b, hb⟩ := hs c List.mem_cons_self
    have := ih fun c' hc' => hs c' (List.mem_cons_of_mem _ hc')
    simp only [List.map_cons, List.cons_append, said, hb, listen, hd _ _ hb]
    simp only [said] at this
    rw [this]

/-- **C183** The program prints the answer of an operation with one answer. An argument that cannot be read is an error that
is printed. -/
theorem request_single {β : Type} (dec : Bytes → Except Bytes Str) (ser : Str → Except Bytes Bytes) (de : Bytes → Except Bytes β)
    (task : β → Str) (hd : ∀ t b, ser t = .ok b → dec b = .ok t) (data : Bytes) :
    (∀ v b, de data = .ok v → ser (task v) = .ok b → single dec (answer task de ser data) = ⟨[.text (task v)], true⟩) ∧
    (∀ e, de data = .error e → single dec (answer task de ser data) = ⟨[.error e], true⟩) := by
  constructor
  · intro v b hv hb
    simp only [answer, hv, hb, single, hd _ _ hb]
  · intro e hv
    simp only [answer, hv, single]

/-- **C183** `echo` is answered with its message and `test` with "test", and that is printed. -/
theorem request_echo_test (dec : Bytes → Except Bytes Str) (ser : Str → Except Bytes Bytes) (de : Bytes → Except Bytes Str)
    (de0 : Bytes → Except Bytes Unit) (hd : ∀ t b, ser t = .ok b → dec b = .ok t) (hs : ∀ t, ∃ b, ser t = .ok b) (data : Bytes) :
    (∀ m, de data = .ok m → single dec (answer echo de ser data) = ⟨[.text m], true⟩) ∧
    (de0 data = .ok () → single dec (answer Iota.Reqres.test de0 ser data) = ⟨[.text "test".toList], true⟩) := by
  constructor
  · intro m hm
    obtain ⟨b, hb⟩ := hs m
    exact (request_single dec ser de echo hd data).1 m b hm hb
  · intro h
    obtain ⟨b, hb⟩ := hs (Iota.Reqres.test ())
    have := (request_single dec ser de0 Iota.Reqres.test hd data).1 () b h hb
    rw [this]
    simp [Iota.Reqres.test]

/-- **C183 (refuted)** A stream that fails looks as if it had ended: the error is not printed, and the program ends well. -/
theorem request_failure_refuted (dec : Bytes → Except Bytes Str) (l : List (Signal Bytes Bytes)) (e : Bytes)
    (rest : List (Signal Bytes Bytes)) : listen dec (l ++ .err e :: rest) = listen dec (l ++ .complete :: rest) := by
  induction l with
  | nil => rfl
  | cons x l ih =>
    cases x with
    | ok b =>
      simp only [List.cons_append, listen]
      rw [ih]
    | err _ => rfl
    | complete => rfl

/-- **C183 (refuted)** The program cannot use `reverse`: with `--channel` it sends strings, and `reverse` reads structures
with a field `input`, so that nothing is ever printed for any input that is not empty. -/
theorem request_reverse_refuted (txt : Bytes → Bytes) (dec de : Bytes → Except Bytes Str) (ser : Str → Except Bytes Bytes)
    (hde : ∀ s b, ser s = .ok b → ∃ e, de b = .error e) (lines : List Str) (bs : List Bytes)
    (hb : typed ser lines = bs.map .ok) (es : List RevEv) {r : Rev} (he : Rev.start.run txt de ser es = some r)
    (ha : ∃ more, bs.map .ok ++ [.complete] = arrived es ++ more) : listen dec r.w.out = ⟨[], true⟩ := by
  have hel : ∃ m, bs = elements (arrived es) ++ m := by
    obtain ⟨more, ha⟩ := ha
    generalize arrived es = l at ha
    clear hb he
    induction bs generalizing l with
    | nil =>
      cases l with
      | nil => exact ⟨[], rfl⟩
      | cons x l =>
        simp only [List.map_nil, List.nil_append, List.cons_append, List.cons.injEq] at ha
        rw [← ha.1]
        exact ⟨[], rfl⟩
    | cons b bs ih =>
      cases l with
      | nil => exact ⟨b :: bs, rfl⟩
      | cons x l =>
        simp only [List.map_cons, List.cons_append, List.cons.injEq] at ha
        obtain ⟨m, hm⟩ := ih l ha.2
        rw [← ha.1]
        exact ⟨m, by simp only [elements, List.cons_append, ← hm]⟩
  obtain ⟨m, hm⟩ := hel
  obtain ⟨more, h1⟩ := (reverse_answers txt de ser es he).1
  cases hl : elements (arrived es) with
  | nil =>
    rw [hl] at h1
    simp only [List.map_nil] at h1
    have := (List.append_eq_nil_iff.mp h1.symm).1
    rw [this]
    rfl
  | cons b l =>
    rw [hl] at h1 hm
    cases ho : r.w.out with
    | nil => rfl
    | cons x out =>
      rw [ho] at h1
      simp only [List.map_cons, List.cons_append, List.cons.injEq] at h1
      have hmem : Except.ok b ∈ typed ser lines := by rw [hb, hm]; simp
      obtain ⟨s, _, hs⟩ := List.mem_map.mp hmem
      obtain ⟨e, he⟩ := hde s b hs
      rw [← h1.1]
      simp only [reversed, he]
      rfl

/-! ## Examples -/

/-- Strings as bytes, for the examples. -/
def exSer (s : Str) : Except Bytes Bytes := .ok (s.map fun c => UInt8.ofNat c.toNat)
def exDe (b : Bytes) : Except Bytes Str := if b = [0] then .error [1] else .ok (b.map fun x => Char.ofNat x.toNat)

def exChars : List (StreamEv Str) := chars ['h', 'i'] ++ [.pump, .pump, .pump]

example : done exChars = chars ['h', 'i'] := by decide
example : (StreamW.start.run exSer exChars).map (fun w => (w.out, w.done)) = some ([.ok [104], .ok [105], .complete], true) := by
  decide +kernel

def exRev : List RevEv :=
  [.arrive (.ok [104, 105]), .pumpIn, .task, .task, .pumpOut, .arrive (.ok [0]), .arrive (.ok [111, 104]), .arrive .complete, .pumpIn,
    .pumpIn, .task]

example : (Rev.start.run id exDe exSer exRev).map (fun r => r.w.out) = some [.ok [105, 104]] := by decide +kernel
example : ∃ x ∈ arrived exRev, ∀ b, x ≠ .ok b := ⟨.complete, by decide +kernel, by simp⟩
example : (elements (arrived exRev)).map (reversed id exDe exSer) = [.ok [105, 104], .err [1], .ok [104, 111]] := by decide +kernel
example : (Rev.start.run id exDe exSer (exRev ++ [.task, .task, .task, .pumpIn, .task, .task, .task, .task, .pumpOut, .pumpOut, .pumpOut])).map
    (fun r => (r.w.out, r.w.outDone)) = some ([.ok [105, 104], .err [1], .ok [104, 111]], true) := by decide +kernel
example : listen exDe [.ok [104], .ok [105], .err [7]] = ⟨[.text ['h'], .text ['i']], true⟩ := by decide +kernel

/-- Structures and strings are told apart. -/
def exStruct (b : Bytes) : Except Bytes Str :=
  match b with
  | 0x81 :: b => .ok (b.map fun x => Char.ofNat x.toNat)
  | _ => .error [2]
def exStr (s : Str) : Except Bytes Bytes := .ok (0xd9 :: s.map fun c => UInt8.ofNat c.toNat)

example : ∀ s b, exStr s = .ok b → ∃ e, exStruct b = .error e := by
  intro s b h
  cases h
  exact ⟨[2], rfl⟩

end Iota.Props.Reqres
