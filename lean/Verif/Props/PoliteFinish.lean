import Verif.Props.Polite

/-! # Calls over a connection finish (C146) -/

namespace Iota.Props.PoliteFinish
open Iota.Go Iota.Frames Iota.Registry Iota.Handler Iota.Peers Iota.Spec.Handler Iota.Spec.Polite
open Iota.Props.Handler Iota.Props.Peers Iota.Props.Polite
open Iota.StreamId (Side)

/-! ## Steps -/

theorem run_step {y : Sys} {s : Side} {reg : Reg Unit} {live : Bool} {i : Nat} {t : Task} {o : Out Unit}
    (ht : (y.peer s).tasks[i]? = some t) (h : runTask reg live (y.peer s).st t = .ok o) :
    y.step (.run s reg live i) = some (y.put s { y.peer s with
      st := o.st
      tasks := (y.peer s).tasks.eraseIdx i ++ o.tasks
      jobs := (y.peer s).jobs ++ o.evs.filterMap (jobOf (contents t).2)
      log := (y.peer s).log ++ o.evs.filterMap (producedOf (contents t).1 (contents t).2) }
      (o.evs.filterMap sentOf) false) := by
  simp only [Sys.step, Peer.run, ht, h, Option.map_some]

theorem recv_step {y : Sys} {s : Side} {f : Frame} {o : Out Unit} (hf : (y.wire (other s)).head? = some f)
    (h : handleFrame (H := Unit) (y.peer s).st f = .ok o) :
    y.step (.recv s) = some (y.put s { y.peer s with
      st := o.st, tasks := (y.peer s).tasks ++ o.tasks, log := (y.peer s).log ++ o.evs.filterMap recOf } [] true) := by
  simp only [Sys.step, hf, Option.bind_some, Peer.recv, h, Option.map_some]

theorem answer_step {y : Sys} {s : Side} {i : Nat} {x : Job} (hi : (y.peer s).jobs[i]? = some x) (hk : x.kind = .rr)
    (r : Result) : y.step (.answer s i r) = some (y.put s { y.peer s with
      jobs := (y.peer s).jobs.eraseIdx i, log := (y.peer s).log ++ [.produced x.id x.data x.metadata r] }
      [answerFrame x.id r] false) := by
  simp only [Sys.step, Peer.answer, hi, hk, if_true, Option.map_some]

/-- A frame is read: nothing is sent and no handler starts; a request is work to do. -/
theorem recv_simple {regs : Side → Reg Unit} (hsm : ∀ s, Small (regs s)) {subs : Side → List Nat} {y y' : Sys}
    (hp : Polite regs subs y) (hb : Bounded y) {s : Side} (h : y.step (.recv s) = some y') :
    ∃ f p, (y.wire (other s)).head? = some f ∧ y' = y.put s p [] true ∧ p.calls = (y.peer s).calls ∧
      p.jobs = (y.peer s).jobs ∧
      ((isRequest f = true ∧ p.tasks.length = (y.peer s).tasks.length + 1) ∨
        (isRequest f = false ∧ p.tasks = (y.peer s).tasks)) := by
  simp only [Sys.step, Option.bind_eq_some_iff, Option.map_eq_some_iff] at h
  obtain ⟨f, h1, p, h2, rfl⟩ := h
  refine ⟨f, p, h1, rfl, ?_⟩
  have hg := reach_good (polite_reach hp) hb
  have hw := hg.wire (other s)
  rw [other_other] at hw
  unfold Peer.recv at h2
  rcases head_handled (reg' := regs s) (subs' := subs s) (polite_both hsm hp hb s) (hg.loc s) (hb s) hw h1 with
    ⟨v, k, rfl, _, h3⟩ | ⟨_, _, _, o, _, _, _, hq, _, h3, _, ht, _⟩
  · rw [h3] at h2; cases h2
    exact ⟨rfl, rfl, .inl ⟨rfl, by simp⟩⟩
  · rw [h3] at h2; cases h2
    exact ⟨rfl, rfl, .inr ⟨hq, by simp [ht]⟩⟩

/-- A goroutine runs: it is gone, and either a refusal was sent or one handler started. -/
theorem run_simple {regs : Side → Reg Unit} (hsm : ∀ s, Small (regs s)) {subs : Side → List Nat} {y : Sys}
    (hp : Polite regs subs y) (hb : Bounded y) {s : Side} (live : Bool) {i : Nat} (hi : i < (y.peer s).tasks.length) :
    ∃ p out, y.step (.run s (regs s) live i) = some (y.put s p out false) ∧ p.calls = (y.peer s).calls ∧
      p.tasks.length + 1 = (y.peer s).tasks.length ∧
      ((p.jobs = (y.peer s).jobs ∧ ∃ f, out = [f] ∧ isRequest f = false) ∨ (out = [] ∧ ∃ x, p.jobs = (y.peer s).jobs ++ [x])) := by
  have back : Fair (regs s) (subs (other s)) (y.peer (other s)) (y.peer s) (y.wire (other s)) (y.wire s) := by
    have := polite_both hsm hp hb (other s)
    rwa [other_other] at this
  have hg := reach_good (polite_reach hp) hb
  have ht := List.getElem?_eq_getElem hi
  have htm := List.mem_of_getElem? ht
  generalize (y.peer s).tasks[i] = t at ht htm
  obtain ⟨k, id, d, m, n, rfl⟩ := back.tasks t htm
  obtain ⟨c, hc, hck, _⟩ := (hg.joint s).tasks _ _ _ _ _ htm
  have hkind : k = .rr ∨ k = .fnf := by
    rcases back.kinds c hc with h1 | ⟨h1, _⟩ <;> rw [hck] at h1
    · exact .inl h1
    · exact .inr h1
  have hlen : ((y.peer s).tasks.eraseIdx i).length + 1 = (y.peer s).tasks.length := by
    rw [List.length_eraseIdx_of_lt hi]; omega
  rcases handle_cases (regs s) (hsm s) live (y.peer s).st k hkind id d m n with ⟨msg, h1, _⟩ | ⟨h1, _⟩
  · have hst := run_step ht h1
    refine ⟨_, _, hst, rfl, ?_, .inl ⟨?_, _, rfl, rfl⟩⟩
    · simpa using hlen
    · simp [jobOf]
  · have hjobs : (accept (y.peer s).st k () id d m n).evs = [.invoked k () id d (passedMetadata k m)] := by
      rcases hkind with rfl | rfl <;> rfl
    have htasks : (accept (y.peer s).st k () id d m n).tasks = [] := by rcases hkind with rfl | rfl <;> rfl
    have hst := run_step ht h1
    refine ⟨_, _, hst, rfl, ?_, .inr ⟨?_, ⟨k, id, d, m⟩, ?_⟩⟩
    · simp only [htasks, List.append_nil]; exact hlen
    · simp only [hjobs]; rfl
    · simp only [hjobs]; rfl

/-- A handler answers: it is gone, and one frame was sent. -/
theorem answer_simple {y y' : Sys} {s : Side} {i : Nat} {r : Result} (h : y.step (.answer s i r) = some y') :
    ∃ x p f, (y.peer s).jobs[i]? = some x ∧ x.kind = .rr ∧ y' = y.put s p [f] false ∧ p.calls = (y.peer s).calls ∧
      p.tasks = (y.peer s).tasks ∧ p.jobs = (y.peer s).jobs.eraseIdx i ∧ isRequest f = false := by
  simp only [Sys.step, Option.map_eq_some_iff] at h
  obtain ⟨⟨p, out⟩, h1, rfl⟩ := h
  unfold Peer.answer at h1
  split at h1
  · cases h1
  · rename_i x hx
    split at h1
    · rename_i hk
      cases h1
      exact ⟨x, _, _, hx, hk, rfl, rfl, rfl, rfl, by cases r <;> rfl⟩
    · cases h1

/-! ## How much there is to do -/

/-- How many steps a frame is worth: a request can become a goroutine, a handler and an answer. -/
def weight (f : Frame) : Nat := if isRequest f then 4 else 1

def wireWork (l : List Frame) : Nat := (l.map weight).sum

def peerWork (p : Peer) : Nat := 3 * p.tasks.length + 2 * p.jobs.countP (fun j => j.kind = .rr)

/-- How much is to be done. -/
def work (y : Sys) : Nat :=
  peerWork (y.peer .client) + peerWork (y.peer .server) + wireWork (y.wire .client) + wireWork (y.wire .server)

theorem work_at (y : Sys) (s : Side) :
    work y = peerWork (y.peer s) + peerWork (y.peer (other s)) + wireWork (y.wire s) + wireWork (y.wire (other s)) := by
  cases s <;> simp only [work, other] <;> omega

theorem work_put (y : Sys) (s : Side) (p : Peer) (out : List Frame) (r : Bool) :
    work (y.put s p out r) = peerWork p + peerWork (y.peer (other s)) + (wireWork (y.wire s) + wireWork out) +
      wireWork (if r then (y.wire (other s)).tail else y.wire (other s)) := by
  rw [work_at _ s]
  simp [Sys.put, other_ne, wireWork]

theorem wireWork_head {l : List Frame} {f : Frame} (h : l.head? = some f) : wireWork l = weight f + wireWork l.tail := by
  cases l with
  | nil => cases h
  | cons a l => cases h; simp [wireWork]

theorem countP_erase {α : Type} {p : α → Bool} : ∀ {l : List α} {i : Nat} {x : α}, l[i]? = some x → p x = true →
    l.countP p = (l.eraseIdx i).countP p + 1
  | [], i, x, h, _ => by simp at h
  | a :: l, 0, x, h, hp => by
    simp only [List.getElem?_cons_zero, Option.some.injEq] at h
    subst h
    simp [hp]
  | a :: l, i + 1, x, h, hp => by
    simp only [List.getElem?_cons_succ] at h
    simp only [List.eraseIdx_cons_succ, List.countP_cons, countP_erase h hp]
    omega

/-- Every step that goes on leaves less to do, and no new call. -/
theorem goes_down {regs : Side → Reg Unit} (hsm : ∀ s, Small (regs s)) {subs : Side → List Nat} {y y' : Sys}
    {a : Peers.Act} (hp : Polite regs subs y) (hb : Bounded y) (ha : Goes regs a) (h : y.step a = some y') :
    work y' < work y ∧ ∀ t, (y'.peer t).calls = (y.peer t).calls := by
  have key : ∀ (s : Side) (p : Peer) (out : List Frame) (r : Bool), p.calls = (y.peer s).calls →
      ∀ t, ((y.put s p out r).peer t).calls = (y.peer t).calls := by
    intro s p out r hn t
    rcases eq_or_other s t with rfl | rfl
    · simp only [Sys.put, if_true]; exact hn
    · simp only [Sys.put, if_neg (other_ne s)]
  have zero : wireWork [] = 0 := rfl
  cases a with
  | recv s =>
    obtain ⟨f, p, h1, rfl, hc, hj, h2⟩ := recv_simple hsm hp hb h
    refine ⟨?_, key _ _ _ _ hc⟩
    rw [work_put, work_at y s, if_pos rfl, wireWork_head h1]
    rcases h2 with ⟨hf, ht⟩ | ⟨hf, ht⟩
    · simp only [peerWork, ht, hj, weight, hf, if_true, zero]; omega
    · have hw : weight f = 1 := by simp [weight, hf]
      simp only [peerWork, ht, hj, hw, zero]; omega
  | run s reg live i =>
    have ha : reg = regs s := ha
    subst ha
    have hi : i < (y.peer s).tasks.length := by
      apply Classical.byContradiction
      intro hi
      simp only [Sys.step, Peer.run, List.getElem?_eq_none (Nat.le_of_not_lt hi), Option.map_none] at h
      cases h
    obtain ⟨p, out, h1, hc, hl, h2⟩ := run_simple hsm hp hb live hi
    rw [h1] at h
    cases h
    refine ⟨?_, key _ _ _ _ hc⟩
    rw [work_put, work_at y s]
    rcases h2 with ⟨hj, f, rfl, hf⟩ | ⟨rfl, x, hj⟩
    · have hw : wireWork [f] = 1 := by simp [wireWork, weight, hf]
      simp only [peerWork, hj, hw]; simp; omega
    · have hx : List.countP (fun j : Job => decide (j.kind = .rr)) [x] ≤ 1 := List.countP_le_length
      simp only [peerWork, hj, List.countP_append, zero]; simp at hx ⊢; omega
  | answer s i r =>
    obtain ⟨x, p, f, h1, hk, rfl, hc, ht, hj, hf⟩ := answer_simple h
    refine ⟨?_, key _ _ _ _ hc⟩
    have hw : wireWork [f] = 1 := by simp [wireWork, weight, hf]
    rw [work_put, work_at y s, hw]
    have := countP_erase (p := fun j : Job => decide (j.kind = .rr)) h1 (by simp [hk])
    simp only [peerWork, this, ht, hj]; simp; omega
  | _ => exact absurd ha (by simp [Goes])

/-- Going on is polite, and no result is subscribed to. -/
theorem goes_polite {regs : Side → Reg Unit} {subs : Side → List Nat} {y y' : Sys} {a : Peers.Act}
    (hp : Polite regs subs y) (ha : Goes regs a) (h : y.step a = some y') : Polite regs subs y' := by
  cases a with
  | recv s => exact .step (.recv s) hp trivial h
  | run s reg live i => exact .step (.run s reg live i) hp ha h
  | answer s i r => exact .step (.answer s i r) hp trivial h
  | _ => exact absurd ha (by simp [Goes])

/-! ## Something can be done -/

/-- Nothing is under way. -/
def Idle (y : Sys) : Prop :=
  ∀ s, y.wire s = [] ∧ (y.peer s).tasks = [] ∧ ∀ x ∈ (y.peer s).jobs, x.kind ≠ .rr

theorem goes_on {regs : Side → Reg Unit} (hsm : ∀ s, Small (regs s)) {subs : Side → List Nat} {y : Sys}
    (hp : Polite regs subs y) (hb : Bounded y) : Idle y ∨ ∃ a y', Goes regs a ∧ y.step a = some y' := by
  by_cases h1 : ∃ s, (y.peer s).tasks ≠ []
  · obtain ⟨s, ht⟩ := h1
    obtain ⟨p, out, h2, _⟩ := run_simple hsm hp hb true (List.length_pos_iff.mpr ht)
    exact .inr ⟨.run s (regs s) true 0, _, rfl, h2⟩
  · have ht : ∀ s, (y.peer s).tasks = [] := fun s => Classical.byContradiction fun hne => h1 ⟨s, hne⟩
    by_cases h2 : ∃ s, y.wire s ≠ []
    · obtain ⟨s, hne⟩ := h2
      obtain ⟨f, l, hl⟩ := List.exists_cons_of_ne_nil hne
      have hh : (y.wire (other (other s))).head? = some f := by rw [other_other, hl]; rfl
      obtain ⟨o, ho⟩ := simple_calls_keep_connection_partial hsm hp hb (other s) f hh
      have hst := recv_step hh ho
      exact .inr ⟨.recv (other s), _, trivial, hst⟩
    · have hwire : ∀ s, y.wire s = [] := fun s => Classical.byContradiction fun hne => h2 ⟨s, hne⟩
      by_cases h3 : ∃ s, ∃ x ∈ (y.peer s).jobs, x.kind = .rr
      · obtain ⟨s, x, hx, hk⟩ := h3
        obtain ⟨i, hi⟩ := List.mem_iff_getElem?.mp hx
        have hst := answer_step hi hk (.failure [])
        exact .inr ⟨.answer s i (.failure []), _, trivial, hst⟩
      · exact .inl fun s => ⟨hwire s, ht s, fun x hx hk => h3 ⟨s, x, hx, hk⟩⟩

/-- When nothing is under way, all calls are done with. -/
theorem idle_done {regs : Side → Reg Unit} (hsm : ∀ s, Small (regs s)) {subs : Side → List Nat} {y : Sys}
    (hp : Polite regs subs y) (hb : Bounded y) (hi : Idle y) (s : Side) {j : Nat} {c : Peers.Call}
    (hc : (y.peer s).calls[j]? = some c) : Done subs y s j c := by
  have hr := polite_reach hp
  have hg := reach_good hr hb
  obtain ⟨hw, _, _⟩ := hi s
  obtain ⟨hw', ht', hj'⟩ := hi (other s)
  have hcm := List.mem_of_getElem? hc
  intro hsub
  refine ⟨fun hk => ?_, fun hk => (fire_and_forget_runs_once_partial hsm hp hb s j c hc hk).2 hsub hw ht'⟩
  have h1 : results c.obj (y.peer s).log = 1 := by
    refine (calls_answered_once_partial hsm hp hb s j c hc).2 hsub hk hw hw' ht' fun w hwj hid => ?_
    have hjt := hg.joint (other s)
    rw [other_other] at hjt
    obtain ⟨d, h1, h2, h3, _⟩ := hjt.jobs w hwj
    have := ids_unique (hg.loc s) (hb s) h1 hcm (h3.trans hid)
    subst this
    exact hj' w hwj (h2.symm.trans hk)
  refine ⟨h1, ?_⟩
  obtain ⟨e, he, h2⟩ := List.countP_pos_iff.mp (show 0 < List.countP (isResult c.obj) (y.peer s).log by
    have : List.countP (isResult c.obj) (y.peer s).log = 1 := h1
    omega)
  cases e with
  | delivered i r =>
    have : i = c.obj := beq_iff_eq.mp h2
    subst this
    exact ⟨r, he, responses_reach_own_callers_partial hr hb s c hcm hk r he⟩
  | produced => cases h2

/-! ## Results (C146) -/

theorem goes_run {regs : Side → Reg Unit} (hsm : ∀ s, Small (regs s)) {subs : Side → List Nat} {as : List Peers.Act} :
    ∀ {y y' : Sys}, Polite regs subs y → Bounded y → (∀ a ∈ as, Goes regs a) → runActs y as = some y' →
      Polite regs subs y' ∧ Bounded y' ∧ as.length + work y' ≤ work y := by
  induction as with
  | nil => intro y y' h hb _ hr; cases hr; exact ⟨h, hb, by simp⟩
  | cons a as ih =>
    intro y y' h hb ha hr
    simp only [runActs, Option.bind_eq_some_iff] at hr
    obtain ⟨y1, h1, h2⟩ := hr
    have hga := ha a List.mem_cons_self
    obtain ⟨hlt, hc⟩ := goes_down hsm h hb hga h1
    obtain ⟨h3, h4, h5⟩ := ih (goes_polite h hga h1) (fun s => by rw [hc s]; exact hb s)
      (fun b hb => ha b (List.mem_cons_of_mem _ hb)) h2
    exact ⟨h3, h4, by simp only [List.length_cons]; omega⟩

/-- **C146** Whatever two peers do about the simple calls under way between them, in whatever order, there is an
end of it. When nothing more can be done, every call is done with. For up to `2^30` calls of a peer,
none of them streams or channels. -/
theorem socket_calls_finish {regs : Side → Reg Unit} (hsm : ∀ s, Small (regs s)) {subs : Side → List Nat} {y : Sys}
    (hp : Polite regs subs y) (hb : Bounded y) :
    ∃ n, ∀ as y', (∀ a ∈ as, Goes regs a) → runActs y as = some y' →
      as.length ≤ n ∧
      ((∀ a, Goes regs a → y'.step a = none) →
        ∀ (s : Side) (j : Nat) (c : Peers.Call), (y'.peer s).calls[j]? = some c → Done subs y' s j c) := by
  refine ⟨work y, fun as y' ha hr => ?_⟩
  obtain ⟨h1, h2, h3⟩ := goes_run hsm hp hb ha hr
  refine ⟨by omega, fun hn s j c hc => ?_⟩
  rcases goes_on hsm h1 h2 with hi | ⟨a, y2, hga, hst⟩
  · exact idle_done hsm h1 h2 hi s hc
  · rw [hn a hga] at hst; cases hst

/-- **C146** From wherever two peers are, they can go on, without new calls, until every call is done with. -/
theorem socket_calls_can_finish {regs : Side → Reg Unit} (hsm : ∀ s, Small (regs s)) {subs : Side → List Nat} {y : Sys}
    (hp : Polite regs subs y) (hb : Bounded y) : ∃ as y', (∀ a ∈ as, Goes regs a) ∧ runActs y as = some y' ∧
      (∀ s, (y'.peer s).calls = (y.peer s).calls) ∧
      ∀ (s : Side) (j : Nat) (c : Peers.Call), (y'.peer s).calls[j]? = some c → Done subs y' s j c := by
  generalize hn : work y = n
  induction n using Nat.strongRecOn generalizing y with
  | ind n ih =>
    rcases goes_on hsm hp hb with hi | ⟨a, y1, hga, hst⟩
    · exact ⟨[], y, by simp, rfl, fun _ => rfl, fun s j c hc => idle_done hsm hp hb hi s hc⟩
    · obtain ⟨hlt, hc⟩ := goes_down hsm hp hb hga hst
      obtain ⟨as, y', h1, h2, h3, h4⟩ := ih (work y1) (by omega) (y := y1) (goes_polite hp hga hst)
        (fun s => by rw [hc s]; exact hb s) rfl
      refine ⟨a :: as, y', ?_, ?_, fun s => (h3 s).trans (hc s), h4⟩
      · intro b hb
        rcases List.mem_cons.mp hb with rfl | hb
        · exact hga
        · exact h1 b hb
      · simp only [runActs, hst, Option.bind_some, h2]

/-- The theorems say something: three calls are under way, in both directions. -/
example : ∃ y subs, Polite (fun _ => reg2) subs y ∧ Bounded y ∧ subs .client = [0, 1] ∧ work y = 12 ∧
    (y.peer .client).calls.length = 2 ∧ (y.peer .server).calls.length = 1 := by
  refine ⟨_, _, runActs_polite (as := simple.take 6) .init rfl ?_, by intro s; cases s <;> decide, rfl, rfl, rfl, rfl⟩
  intro n a hn
  match n, hn with
  | 0, hn => cases hn; exact .inl rfl
  | 1, hn => cases hn; exact .inr ⟨rfl, 0, rfl, by decide⟩
  | 2, hn => cases hn; exact .inl rfl
  | 3, hn => cases hn; exact List.not_mem_nil
  | 4, hn => cases hn; show 1 ∉ [0]; decide
  | 5, hn => cases hn; exact List.not_mem_nil
  | n + 6, hn => cases hn

end Iota.Props.PoliteFinish
