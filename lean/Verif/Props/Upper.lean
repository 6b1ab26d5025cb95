import Verif.Props.Customer
import Verif.Spec.Upper

/-! # Properties of a channel that changes every string -/

namespace Iota.Props.Upper
open Iota.Go Iota.Upper Iota.Spec.Upper

/-! ## What stays -/

theorem run_stopped {up : Bytes → Bytes} (l : List In) : ∀ {c : Chan}, (c.crashed = true ∨ c.here = false) → c.run up l = c := by
  induction l with
  | nil => intro c _; rfl
  | cons f l ih =>
    intro c h
    have : c.frame up f = c := by
      unfold Chan.frame
      rcases h with h | h <;> simp [h]
    rw [Chan.run, this, ih h]

/-- The service is at work. -/
structure Live (c : Chan) : Prop where
  here : c.here = true
  crashed : c.crashed = false
  inOpen : c.inClosed = false

theorem results_append (a b : List Out) : results (a ++ b) = results a ++ results b := List.filter_append ..

theorem asked_append (a b : List Out) : asked (a ++ b) = asked a + asked b := by
  induction a with
  | nil => simp [asked]
  | cons o a ih => cases o <;> simp [asked, ih]; omega

/-- What the service makes of a value, apart from asking. -/
def said (up : Bytes → Bytes) : Res Bytes → List Out
  | .ok v => match Transform.string.encode (up v) with
    | .ok d => [.next [] d]
    | .err e => [.error e]
    | .panic => []
  | .err e => [.error e]
  | .panic => []

/-- Is it no value? -/
def bad : Res Bytes → Bool
  | .ok _ => false
  | _ => true

/-- A value comes in. -/
theorem take_live {up : Bytes → Bytes} {c : Chan} {r : Res Bytes} (hr : r ≠ .panic)
    (hu : ∀ v, r = .ok v → ∃ d, Transform.string.encode (up v) = .ok d) :
    (c.take up r).crashed = c.crashed ∧ (c.take up r).here = c.here ∧ (c.take up r).inClosed = c.inClosed ∧ (c.take up r).inN = c.inN ∧
    (c.take up r).sent = c.sent ++ (if c.outClosed then [] else said up r) ∧
    (c.take up r).outClosed = (c.outClosed || bad r) := by
  cases r with
  | panic => exact absurd rfl hr
  | err e =>
    simp only [Chan.take, Chan.outError, said, bad]
    split <;> simp_all
  | ok v =>
    obtain ⟨d, hd⟩ := hu v rfl
    simp only [Chan.take, Chan.outNext, said, hd, Chan.pass, bad]
    split <;> simp_all

theorem more_live {c : Chan} (h : c.crashed = false) :
    c.more.crashed = false ∧ c.more.here = c.here ∧ c.more.inClosed = c.inClosed ∧ c.more.inN = (if c.inN = 0 then 2 else c.inN) ∧
    c.more.outClosed = c.outClosed ∧ c.more.sent = c.sent ++ (if c.inN = 0 then [.ask 2] else []) := by
  simp only [Chan.more, h, Chan.ask]
  by_cases h0 : c.inN = 0 <;> simp [h0, h]

theorem fine_encode {up : Bytes → Bytes} {l : List In} (h : Fine up l) {m d : Bytes} {n k : Bool} (hm : .payload m d n k ∈ l) :
    Transform.string.decode d ≠ .panic ∧
    ∀ v, Transform.string.decode d = .ok v → ∃ b, Transform.string.encode (up v) = .ok b ∧ Transform.string.decode b = .ok (up v) := by
  obtain ⟨h1, h2⟩ := h m d n k hm
  exact ⟨h1, fun v hv => Customer.string_bytes (up v) (h2 v hv)⟩

/-- All there is to know of a step of a service at work. -/
theorem next_live {up : Bytes → Bytes} {c : Chan} (hl : Live c) {d : Bytes} (hr : Transform.string.decode d ≠ .panic)
    (hu : ∀ v, Transform.string.decode d = .ok v → ∃ b, Transform.string.encode (up v) = .ok b) :
    Live (c.inNext up d) ∧
    (c.inNext up d).inN = (if c.inN - 1 = 0 then 2 else c.inN - 1) ∧
    (c.inNext up d).sent = c.sent ++ (if c.outClosed then [] else said up (Transform.string.decode d)) ++ (if c.inN - 1 = 0 then [.ask 2] else []) ∧
    (c.inNext up d).outClosed = (c.outClosed || bad (Transform.string.decode d)) := by
  obtain ⟨h1, h2, h3⟩ := hl
  obtain ⟨t1, t2, t3, t4, t5, t6⟩ := take_live (c := { c with inN := c.inN - 1 }) hr hu
  dsimp only at t1 t2 t3 t4 t5 t6
  obtain ⟨m1, m2, m3, m4, m5, m6⟩ := more_live (c := ({ c with inN := c.inN - 1 } : Chan).take up (Transform.string.decode d)) (by rw [t1, h2])
  have he : c.inNext up d = (({ c with inN := c.inN - 1 } : Chan).take up (Transform.string.decode d)).more := by
    unfold Chan.inNext; simp [h3]
  rw [he]
  refine ⟨⟨by rw [m2, t2, h1], m1, by rw [m3, t3, h3]⟩, by rw [m4, t4], by rw [m6, t5, t4], m5.trans t6⟩

theorem results_ask (b : Prop) [Decidable b] : results (if b then [Out.ask 2] else []) = [] := by split <;> rfl

theorem said_results (up : Bytes → Bytes) (r : Res Bytes) : results (said up r) = said up r := by
  cases r with
  | ok v => simp only [said]; split <;> rfl
  | err e => rfl
  | panic => rfl

/-- A service whose result has ended sends no more results. -/
theorem run_closed {up : Bytes → Bytes} (l : List In) : ∀ {c : Chan}, Live c → Fine up l → c.outClosed = true → results (c.run up l).sent = results c.sent := by
  induction l with
  | nil => intro c _ _ _; rfl
  | cons f l ih =>
    intro c hl hf hc
    have hf' : Fine up l := fun m d n k hm => hf m d n k (List.mem_cons_of_mem _ hm)
    have hfr : c.frame up f = c.handle up f := by simp [Chan.frame, hl.here, hl.crashed]
    rw [Chan.run, hfr]
    have comp : ∀ {c : Chan}, Live c → c.outClosed = true → results (c.inComplete.gone.run up l).sent = results c.sent := by
      intro c hl hc
      rw [run_stopped l (.inr rfl)]
      simp [Chan.inComplete, hl.inOpen, Chan.outComplete, hc, Chan.gone]
    cases f with
    | demand n =>
      exact ih (c := { c with outN := c.outN + n }) ⟨hl.here, hl.crashed, hl.inOpen⟩ hf' hc
    | cancel => exact comp hl hc
    | error e =>
      simp only [Chan.handle]
      rw [run_stopped l (.inr rfl)]
      simp [Chan.inError, hl.inOpen, Chan.outError, hc, Chan.inComplete, Chan.gone]
    | payload m d n k =>
      obtain ⟨g1, g2⟩ := fine_encode hf (m := m) (d := d) (n := n) (k := k) List.mem_cons_self
      obtain ⟨l1, _, l3, l4⟩ := next_live (up := up) hl g1 fun v hv => (g2 v hv).imp fun _ h => h.1
      have hn : Live (if n then c.inNext up d else c) ∧ (if n then c.inNext up d else c).outClosed = true ∧
          results (if n then c.inNext up d else c).sent = results c.sent := by
        split
        · exact ⟨l1, by rw [l4, hc]; rfl, by rw [l3, hc]; simp [results_append, results_ask]⟩
        · exact ⟨hl, hc, rfl⟩
      simp only [Chan.handle, Chan.finish, hn.1.crashed, Bool.false_or]
      cases k with
      | true => rw [if_neg (by simp), comp hn.1 hn.2.1, hn.2.2]
      | false => rw [if_pos (by simp), ih hn.1 hf' hn.2.1, hn.2.2]

theorem sees_append {a b : List Out} {x y : List Seen} (h : SeesAll a x) (h' : SeesAll b y) : SeesAll (a ++ b) (x ++ y) := by
  induction h with
  | nil => exact h'
  | cons h1 _ ih => exact .cons h1 ih

/-- What a service at work, whose result has not ended, sends. -/
theorem run_open {up : Bytes → Bytes} (l : List In) : ∀ {c : Chan}, Live c → Fine up l → c.outClosed = false →
    ∃ os, results (c.run up l).sent = results c.sent ++ os ∧ SeesAll os (answer up l) := by
  induction l with
  | nil => intro c _ _ _; exact ⟨[], by simp [Chan.run], .nil⟩
  | cons f l ih =>
    intro c hl hf hc
    have hf' : Fine up l := fun m d n k hm => hf m d n k (List.mem_cons_of_mem _ hm)
    have hfr : c.frame up f = c.handle up f := by simp [Chan.frame, hl.here, hl.crashed]
    rw [Chan.run, hfr]
    have comp : ∀ {c : Chan}, Live c → c.outClosed = false → results (c.inComplete.gone.run up l).sent = results c.sent ++ [.complete] := by
      intro c hl hc
      rw [run_stopped l (.inr rfl)]
      simp [Chan.inComplete, hl.inOpen, Chan.outComplete, hc, Chan.gone, results]
    cases f with
    | demand n =>
      exact ih (c := { c with outN := c.outN + n }) ⟨hl.here, hl.crashed, hl.inOpen⟩ hf' hc
    | cancel => exact ⟨[.complete], comp hl hc, .cons .complete .nil⟩
    | error e =>
      refine ⟨[.error e], ?_, .cons (.error e) .nil⟩
      simp only [Chan.handle]
      rw [run_stopped l (.inr rfl)]
      simp [Chan.inError, hl.inOpen, Chan.outError, hc, Chan.inComplete, Chan.gone, results]
    | payload m d n k =>
      obtain ⟨g1, g2⟩ := fine_encode hf (m := m) (d := d) (n := n) (k := k) List.mem_cons_self
      cases n with
      | false =>
        simp only [Chan.handle, Chan.finish, hl.crashed, Bool.false_or, Bool.false_eq_true, if_false, answer]
        cases k with
        | true => exact ⟨[.complete], by simpa using comp hl hc, .cons .complete .nil⟩
        | false => simpa using ih hl hf' hc
      | true =>
        obtain ⟨l1, _, l3, l4⟩ := next_live (up := up) hl g1 fun v hv => (g2 v hv).imp fun _ h => h.1
        simp only [Chan.handle, Chan.finish, l1.crashed, Bool.false_or, if_true, answer]
        cases hd : Transform.string.decode d with
        | panic => exact absurd hd g1
        | err e =>
          rw [hd, hc] at l3 l4
          refine ⟨[.error e], ?_, .cons (.error e) .nil⟩
          have hs : results (c.inNext up d).sent = results c.sent ++ [.error e] := by
            rw [l3, results_append, results_append, results_ask]; simp [said]; rfl
          cases k with
          | true =>
            simp only [Bool.not_true, Bool.false_eq_true, if_false]
            rw [run_stopped l (.inr rfl)]
            simp [Chan.inComplete, l1.inOpen, Chan.outComplete, l4, Chan.gone, hs, bad]
          | false =>
            simp only [Bool.not_false, if_true]
            rw [run_closed l l1 hf' (by rw [l4]; rfl), hs]
        | ok v =>
          obtain ⟨b, hb1, hb2⟩ := g2 v hd
          rw [hd, hc] at l3 l4
          have hs : results (c.inNext up d).sent = results c.sent ++ [.next [] b] := by
            rw [l3, results_append, results_append, results_ask]; simp [said, hb1]; rfl
          have ho : (c.inNext up d).outClosed = false := by rw [l4]; rfl
          cases k with
          | true =>
            refine ⟨[.next [] b, .complete], ?_, .cons (.value b _ hb2) (.cons .complete .nil)⟩
            simp only [Bool.not_true, Bool.false_eq_true, if_false]
            rw [comp l1 ho, hs]; simp
          | false =>
            simp only [Bool.not_false, if_true, Bool.false_eq_true, if_false]
            obtain ⟨os, h1, h2⟩ := ih l1 hf' ho
            exact ⟨.next [] b :: os, by rw [h1, hs]; simp, .cons (.value b _ hb2) h2⟩

theorem start_live (n : Nat) : Live (start n) := ⟨rfl, rfl, rfl⟩

/-- **C174** Every string that comes in is sent back in upper case, in order, up to the end of the input, which is passed on, or the first that is no
string, for which an error is sent. Whatever else comes in, nothing more is sent, but demands. -/
theorem strings_changed_partial (up : Bytes → Bytes) (initialN : Nat) (l : List In) (h : Fine up l) :
    SeesAll (results ((start initialN).run up l).sent) (answer up l) := by
  obtain ⟨os, h1, h2⟩ := run_open l (start_live initialN) h rfl
  rw [h1]
  exact h2

theorem said_asked (up : Bytes → Bytes) (r : Res Bytes) : asked (said up r) = 0 := by
  cases r with
  | ok v => simp only [said]; split <;> rfl
  | err e => rfl
  | panic => rfl

/-- The input ends: nothing is asked for. -/
theorem end_asked {c : Chan} : asked c.inComplete.sent = asked c.sent := by
  unfold Chan.inComplete Chan.outComplete
  split
  · rfl
  · split
    · rfl
    · rw [asked_append]; rfl

theorem error_asked {c : Chan} {e : String} : asked (c.inError e).sent = asked c.sent := by
  unfold Chan.inError Chan.outError
  split
  · rfl
  · split
    · rfl
    · rw [asked_append]; rfl

/-- How much more a service at work asks for. -/
theorem run_asked {up : Bytes → Bytes} (l : List In) : ∀ {c : Chan}, Live c → Fine up l → (c.inN = 1 ∨ c.inN = 2) →
    asked (c.run up l).sent = asked c.sent + 2 * ((accepted l + (2 - c.inN)) / 2) := by
  induction l with
  | nil => intro c _ _ h; rcases h with h | h <;> simp [Chan.run, accepted, h]
  | cons f l ih =>
    intro c hl hf hc
    have hf' : Fine up l := fun m d n k hm => hf m d n k (List.mem_cons_of_mem _ hm)
    have hfr : c.frame up f = c.handle up f := by simp [Chan.frame, hl.here, hl.crashed]
    rw [Chan.run, hfr]
    cases f with
    | demand n => exact ih (c := { c with outN := c.outN + n }) ⟨hl.here, hl.crashed, hl.inOpen⟩ hf' hc
    | cancel =>
      simp only [Chan.handle]
      rw [run_stopped l (.inr rfl)]
      show asked c.inComplete.sent = _
      rw [end_asked]
      rcases hc with h | h <;> simp [accepted, h]
    | error e =>
      simp only [Chan.handle]
      rw [run_stopped l (.inr rfl)]
      show asked (c.inError e).inComplete.sent = _
      rw [end_asked, error_asked]
      rcases hc with h | h <;> simp [accepted, h]
    | payload m d n k =>
      obtain ⟨g1, g2⟩ := fine_encode hf (m := m) (d := d) (n := n) (k := k) List.mem_cons_self
      obtain ⟨l1, l2, l3, _⟩ := next_live (up := up) hl g1 fun v hv => (g2 v hv).imp fun _ h => h.1
      have hq : asked (if c.outClosed then [] else said up (Transform.string.decode d)) = 0 := by split; rfl; exact said_asked _ _
      have hn : Live (if n then c.inNext up d else c) ∧
          (n = false ∧ (if n then c.inNext up d else c) = c ∨
           n = true ∧ c.inN = 1 ∧ (if n then c.inNext up d else c).inN = 2 ∧ asked (if n then c.inNext up d else c).sent = asked c.sent + 2 ∨
           n = true ∧ c.inN = 2 ∧ (if n then c.inNext up d else c).inN = 1 ∧ asked (if n then c.inNext up d else c).sent = asked c.sent) := by
        cases n with
        | false => exact ⟨hl, .inl ⟨rfl, rfl⟩⟩
        | true =>
          simp only [if_true]
          refine ⟨l1, .inr ?_⟩
          rw [l3, l2, asked_append, asked_append, hq]
          rcases hc with h | h
          · exact .inl ⟨trivial, h, by simp [h], by simp [h, asked]⟩
          · exact .inr ⟨trivial, h, by simp [h], by simp [h, asked]⟩
      obtain ⟨n1, n2⟩ := hn
      simp only [Chan.handle, Chan.finish, n1.crashed, Bool.false_or, accepted]
      generalize (if n then c.inNext up d else c) = c1 at n1 n2 ⊢
      have n4 : c1.inN = 1 ∨ c1.inN = 2 := by
        rcases n2 with ⟨_, rfl⟩ | ⟨_, _, h, _⟩ | ⟨_, _, h, _⟩
        · exact hc
        · exact .inr h
        · exact .inl h
      cases k with
      | true =>
        rw [if_neg (by simp), run_stopped l (.inr rfl)]
        show asked c1.inComplete.sent = _
        rw [end_asked]
        simp only [if_true]
        rcases n2 with ⟨rfl, rfl⟩ | ⟨rfl, h1, h2, h3⟩ | ⟨rfl, h1, h2, h3⟩
        · rcases hc with h | h <;> simp [h]
        · simp [h1, h3]
        · simp [h1, h3]
      | false =>
        rw [if_pos (by simp), ih n1 hf' n4]
        simp only [Bool.false_eq_true, if_false]
        rcases n2 with ⟨rfl, rfl⟩ | ⟨rfl, h1, h2, h3⟩ | ⟨rfl, h1, h2, h3⟩
        · simp
        · simp only [if_true, h1, h2, h3]; omega
        · simp only [if_true, h1, h2, h3]; omega

/-- **C174** (part) The service asks for two values, and for two more whenever it has taken what it asked for; so as long as the input goes on it is
waiting for one or two, and a caller that sends no more than it was asked for is never stuck. -/
theorem asks_two_by_two (up : Bytes → Bytes) (initialN : Nat) (l : List In) (h : Fine up l) :
    asked ((start initialN).run up l).sent = 2 * (accepted l / 2 + 1) ∧
    accepted l < asked ((start initialN).run up l).sent ∧ asked ((start initialN).run up l).sent ≤ accepted l + 2 := by
  have : asked ((start initialN).run up l).sent = 2 * (accepted l / 2 + 1) := by
    rw [run_asked l (start_live initialN) h (.inr rfl)]
    show 2 + 2 * ((accepted l + (2 - 2)) / 2) = _
    simp; omega
  omega

/-- Without the caller's demand. -/
def zero (c : Chan) : Chan := { c with outN := 0 }

theorem zero_pass (c : Chan) (n : Int) (r : Res Bytes) : zero (({ c with outN := n } : Chan).pass r) = zero (c.pass r) := by cases r <;> rfl

theorem zero_take {up : Bytes → Bytes} (c : Chan) (r : Res Bytes) : zero ((zero c).take up r) = zero (c.take up r) := by
  cases r with
  | panic => rfl
  | err e =>
    show zero (if c.outClosed then _ else _) = zero (if c.outClosed then _ else _)
    split <;> rfl
  | ok v =>
    show zero (if c.outClosed then _ else _) = zero (if c.outClosed then _ else _)
    split
    · rfl
    · exact (zero_pass c _ _).trans (zero_pass c _ _).symm

theorem zero_more (c : Chan) : zero (zero c).more = zero c.more := by
  unfold Chan.more
  show zero (if c.crashed then _ else if c.inN = 0 then _ else _) = _
  split
  · rfl
  · split <;> rfl

theorem more_zero {c c' : Chan} (h : zero c = zero c') : zero c.more = zero c'.more := by rw [← zero_more c, h, zero_more]

theorem zero_next {up : Bytes → Bytes} (c : Chan) (d : Bytes) : zero ((zero c).inNext up d) = zero (c.inNext up d) := by
  unfold Chan.inNext
  show zero (if c.inClosed then _ else _) = _
  split
  · rfl
  · exact more_zero (zero_take ({ c with inN := c.inN - 1 } : Chan) _)

theorem zero_complete (c : Chan) : zero (zero c).inComplete = zero c.inComplete := by
  unfold Chan.inComplete Chan.outComplete
  show zero (if c.inClosed then _ else if c.outClosed then _ else _) = _
  split
  · rfl
  · split <;> rfl

theorem complete_zero {c c' : Chan} (h : zero c = zero c') : zero c.inComplete = zero c'.inComplete := by rw [← zero_complete c, h, zero_complete]

theorem zero_error (c : Chan) (e : String) : zero ((zero c).inError e) = zero (c.inError e) := by
  unfold Chan.inError Chan.outError
  show zero (if c.inClosed then _ else if c.outClosed then _ else _) = _
  split
  · rfl
  · split <;> rfl

theorem gone_zero {c c' : Chan} (h : zero c = zero c') : zero c.gone = zero c'.gone := by
  show ({ zero c with here := false } : Chan) = _
  rw [h]; rfl

theorem finish_zero {c c' : Chan} (h : zero c = zero c') (k : Bool) : zero (c.finish k) = zero (c'.finish k) := by
  have hc : c.crashed = c'.crashed := by rw [show c.crashed = (zero c).crashed from rfl, h]; rfl
  unfold Chan.finish
  rw [hc]
  split
  · exact h
  · exact gone_zero (complete_zero h)

theorem zero_frame {up : Bytes → Bytes} (c : Chan) (f : In) : zero ((zero c).frame up f) = zero (c.frame up f) := by
  unfold Chan.frame
  show zero (if c.crashed || !c.here then _ else _) = _
  split
  · rfl
  · cases f with
    | demand n => rfl
    | cancel => exact gone_zero (zero_complete c)
    | error e => exact gone_zero (complete_zero (zero_error c e))
    | payload m d n k =>
      refine finish_zero ?_ k
      cases n with
      | false => rfl
      | true => exact zero_next c d

theorem run_zero {up : Bytes → Bytes} (l : List In) : ∀ {c c' : Chan}, zero c = zero c' → zero (c.run up l) = zero (c'.run up (calm l)) := by
  induction l with
  | nil => intro c c' h; exact h
  | cons f l ih =>
    intro c c' h
    have step : zero (c.frame up f) = zero (c'.frame up f) := by rw [← zero_frame c, h, zero_frame]
    cases f with
    | demand n =>
      refine ih (Eq.trans ?_ h)
      unfold Chan.frame
      split <;> rfl
    | _ => exact ih step

/-- **C174 is false of the code** where it would have the caller's demand respected: the demand of the caller changes nothing about what is sent. -/
theorem demand_ignored_refuted (up : Bytes → Bytes) (n n' : Nat) (l : List In) :
    ((start n).run up l).sent = ((start n').run up (calm l)).sent := by
  have := run_zero (up := up) l (c := start n) (c' := start n') rfl
  rw [show ((start n).run up l).sent = (zero ((start n).run up l)).sent from rfl, this]
  rfl

/-- **C174 is false of the code**, further: a string whose length is given as nearly 2^32 crashes the guest. -/
theorem long_string_refuted (up : Bytes → Bytes) (n : Nat) : ((start n).run up [.payload [] [0xdb, 0xff, 0xff, 0xff, 0xff] true false]).crashed = true := by
  have : Transform.string.decode [0xdb, 0xff, 0xff, 0xff, 0xff] = .panic := by decide +kernel
  simp only [Chan.run, Chan.frame, start, Chan.ask, Chan.handle, Chan.inNext, this, Chan.take]
  rfl

/-! ## A case -/

/-- Capital letters for small ones. -/
def capitals (s : Bytes) : Bytes := s.map fun b => if 97 ≤ b ∧ b ≤ 122 then b - 32 else b

/-- `ab`, `c` and `d` come in, and then something that is no string, and `e`. The caller has asked for one. -/
def letters : List In :=
  [.payload [] [0xa2, 97, 98] true false, .payload [] [0xa1, 99] true false, .demand 0, .payload [] [0xa1, 100] true false,
   .payload [] [0x05] true false, .payload [] [0xa1, 101] true true]

example : Fine capitals letters ∧ accepted letters = 5 ∧
    answer capitals letters = [.value [65, 66], .value [67], .value [68], .error "bad prefix for string length"] ∧
    ((start 1).run capitals letters).sent = [.ask 2, .next [] [0xa2, 65, 66], .next [] [0xa1, 67], .ask 2, .next [] [0xa1, 68],
      .error "bad prefix for string length", .ask 2] := by
  refine ⟨?_, rfl, by decide +kernel, by decide +kernel⟩
  intro m d n c h
  simp only [letters, List.mem_cons, In.payload.injEq, List.not_mem_nil, or_false, reduceCtorEq, false_or] at h
  rcases h with ⟨_, rfl, _⟩ | ⟨_, rfl, _⟩ | ⟨_, rfl, _⟩ | ⟨_, rfl, _⟩ | ⟨_, rfl, _⟩
  all_goals refine ⟨by decide +kernel, fun v hv => ?_⟩
  · have : Transform.string.decode [0xa2, 97, 98] = .ok [97, 98] := by decide +kernel
    rw [this] at hv; cases hv; decide +kernel
  · have : Transform.string.decode [0xa1, 99] = .ok [99] := by decide +kernel
    rw [this] at hv; cases hv; decide +kernel
  · have : Transform.string.decode [0xa1, 100] = .ok [100] := by decide +kernel
    rw [this] at hv; cases hv; decide +kernel
  · have : Transform.string.decode [5] = .err "bad prefix for string length" := by decide +kernel
    rw [this] at hv; cases hv
  · have : Transform.string.decode [0xa1, 101] = .ok [101] := by decide +kernel
    rw [this] at hv; cases hv; decide +kernel

end Iota.Props.Upper
