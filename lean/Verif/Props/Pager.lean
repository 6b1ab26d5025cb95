import Verif.Model.Pager
import Verif.Spec.Pager
import Verif.Props.Components

/-!
# Reading page by page: what the subscriber sees
-/

namespace Iota.Props.Pager
open Iota.Flux Iota.Pager Iota.Spec.Flux Iota.Spec.Pager Iota.Go

variable {V E : Type}

/-! ## On a host -/

/-- The state with one subscriber. -/
def mk (h : Handlers) (cl : Bool) (n : Int) (vs : List V) (sp : List (Nat × Int)) (pd : List (Nat × Frame)) (log : List (Ev V E V)) :
    State V E V :=
  { subs := [⟨cl, n, none, true, false, .complete, h⟩], current := some 0, callbacks := [], nextFn := 0, values := vs, spawned := sp,
    pending := pd, crashed := false, log := log }

/-- The callbacks in progress of goroutine `g`, above those of others. -/
def fr (g : Nat) (F : List Frame) (B : List (Nat × Frame)) : List (Nat × Frame) := F.map (fun f => (g, f)) ++ B

/-- Another goroutine may still have to return from `OnRequest`. -/
def Base (g : Nat) (B : List (Nat × Frame)) : Prop := B = [] ∨ ∃ b, b ≠ g ∧ B = [(b, .leaf)]

/-- What the history tells. -/
structure Hist (r : Reader V) (log : List (Ev V E V)) (vals : List V) (t : List (Seen E V)) (fi : List Signal) (ask : Bool) : Prop where
  seen : seen 0 log = vals.map .next ++ t
  fins : fins 0 log = fi
  ask : asking log = ask
  flag : flagged r log = vals.any r.stop

/-- Pages that were read, and what remains to be read. -/
structure Cont (r : Reader V) (xs done rest : List V) : Prop where
  reads : ∀ got sig, Reads r.page r.stop rest got sig → Reads r.page r.stop xs (done ++ got) sig
  clean : ∀ v ∈ done, r.stop v = false

theorem Cont.page {r : Reader V} {xs done rest : List V} (h : Cont r xs done rest) (hp : r.page ≤ rest.length)
    (hs : ∀ v ∈ rest.take r.page, r.stop v = false) : Cont r xs (done ++ rest.take r.page) (rest.drop r.page) := by
  refine ⟨fun got sig hr => ?_, fun v hv => ?_⟩
  · rw [List.append_assoc]
    exact h.reads _ _ (.more hp hs hr)
  · rcases List.mem_append.mp hv with hv | hv
    · exact h.clean v hv
    · exact hs v hv

/-- How the subscriber sees the end. -/
def told (h : Handlers) (sg : Signal) : List (Seen E V) :=
  match sg with
  | .complete => if h.onComplete then [.complete] else []
  | _ => []

/-- Where the program can be. -/
inductive Phase (r : Reader V) (h : Handlers) (xs : List V) : State V E V → Nat → Prop
  | first {log w} (hl : Hist r log [] [] [] true) (hw : 10 * xs.length + 23 ≤ w) : Phase r h xs (mk h false 0 xs [] [(0, .leaf)] log) w
  | wait {log w done rest B} (hB : B = [] ∨ ∃ b, B = [(b, .leaf)]) (hc : Cont r xs done rest) (hl : Hist r log done [] [] false)
      (hw : 10 * rest.length + 20 + B.length ≤ w) : Phase r h xs (mk h false r.page rest [(0, (r.page : Int))] B log) w
  | loop {log w done rest g B k} (hB : Base g B) (hc : Cont r xs done rest) (hk : k ≤ rest.length) (hp : k < r.page)
      (hl : Hist r log (done ++ rest.take k) [] [] false) (hw : 10 * (rest.length - k) + 19 + B.length ≤ w) :
      Phase r h xs (mk h false ((r.page : Int) - k) rest []
        (fr g [.respLoop 0 (min r.page rest.length : Nat) k, .unlock 0] B) log) w
  | next {log w done rest g B k} (hB : Base g B) (hc : Cont r xs done rest) (hk : k < rest.length) (hp : k < r.page)
      (hl : Hist r log (done ++ rest.take (k + 1)) [] [] false) (hw : 10 * (rest.length - (k + 1)) + 28 + B.length ≤ w) :
      Phase r h xs (mk h false ((r.page : Int) - (k + 1 : Nat)) rest []
        (fr g [.afterNext 0, .respLoop 0 (min r.page rest.length : Nat) (k + 1 : Nat), .unlock 0] B) log) w
  | ask {log w done rest g B} (hB : Base g B) (hc : Cont r xs done rest) (hk : r.page ≤ rest.length)
      (hl : Hist r log (done ++ rest.take r.page) [] [] true) (hw : 10 * (rest.length - r.page) + 27 + B.length ≤ w) :
      Phase r h xs (mk h false 0 rest [] (fr g [.leaf, .respLoop 0 r.page r.page, .unlock 0] B) log) w
  | asked {log w done rest g B L} (hB : Base g B) (hc : Cont r xs done rest) (hk : r.page ≤ rest.length)
      (hs : ∀ v ∈ rest.take r.page, r.stop v = false) (hL : L = [] ∨ L = [Frame.leaf])
      (hl : Hist r log (done ++ rest.take r.page) [] [] false) (hw : 10 * (rest.length - r.page) + 25 + L.length + B.length ≤ w) :
      Phase r h xs (mk h false r.page rest [(0, (r.page : Int))] (fr g (L ++ [.respLoop 0 r.page r.page, .unlock 0]) B) log) w
  | turn {log w done rest g B} (hB : Base g B) (hc : Cont r xs done rest) (hl : Hist r log done [] [] false)
      (hw : 10 * rest.length + 21 + B.length ≤ w) :
      Phase r h xs (mk h false r.page rest [(0, (r.page : Int))] (fr g [.unlock 0] B) log) w
  | left {log w vals rest g B L} (hB : Base g B) (hr : Reads r.page r.stop xs vals .cancel) (hk : r.page ≤ rest.length)
      (hL : L = [] ∨ L = [Frame.leaf] ∨ L = [Frame.leaf, Frame.leaf])
      (hl : Hist r log vals [] [.cancel] false) (hw : 2 + L.length + B.length ≤ w) :
      Phase r h xs (mk h true 0 rest [] (fr g (L ++ [.respLoop 0 r.page r.page, .unlock 0]) B) log) w
  | sig {log w vals g B S n} (hB : Base g B) (hr : Reads r.page r.stop xs vals .complete) (ho : h.onComplete = true)
      (hS : S = [] ∨ S = [(0, (r.page : Int))]) (hl : Hist r log vals [.complete] [] false) (hw : 3 + 4 * S.length + B.length ≤ w) :
      Phase r h xs (mk h true n [] S (fr g [.afterSig 0 .complete, .unlock 0] B) log) w
  | fin {log w vals g B S n} (hB : Base g B) (hr : Reads r.page r.stop xs vals .complete)
      (hS : S = [] ∨ S = [(0, (r.page : Int))]) (hl : Hist r log vals (told h .complete) [.complete] false)
      (hw : 2 + 4 * S.length + B.length ≤ w) :
      Phase r h xs (mk h true n [] S (fr g [.afterFin 0 .complete, .unlock 0] B) log) w
  | over {log w vals sg rest g B S F n} (hB : B = [] ∨ ∃ b, B = [(b, .leaf)]) (hg : F ≠ [] → Base g B) (hr : Reads r.page r.stop xs vals sg)
      (hF : F = [] ∨ F = [Frame.unlock 0] ∨ F = [Frame.respLoop 0 0 0, .unlock 0] ∧ rest = [] ∧ S = [])
      (hS : S = [] ∨ S = [(0, (r.page : Int))] ∧ rest = []) (hl : Hist r log vals (told h sg) [sg] false)
      (hw : F.length + 4 * S.length + B.length ≤ w) :
      Phase r h xs (mk h true n rest S (fr g F B) log) w

theorem acts_quiet {r : Reader V} {s : State V E V} {a : Action V E} (hq : asking s.log = false) (h : acts r s a = true) :
    (∃ g, a = .ret g) ∨ ∃ g j, a = .start g j := by
  have hi : ∀ g, inRequest g s = false := fun g => by simp [inRequest, hq]
  cases a with
  | ret g => exact Or.inl ⟨g, rfl⟩
  | start g j => exact Or.inr ⟨g, j, rfl⟩
  | request g i n => simp [acts, hi] at h
  | signal g i x => cases x <;> simp [acts, hi] at h
  | subscribe g h => simp [acts] at h
  | notify g => simp [acts] at h
  | onSubscribe g i r k => simp [acts] at h

theorem pop_other {g g' : Nat} (hg : g' ≠ g) (F : List Frame) (B : List (Nat × Frame)) :
    pop g' (fr g F B) = (pop g' B).map fun x => (x.1, fr g F x.2) := by
  induction F with
  | nil => simp [fr]
  | cons f F ih =>
    have he : fr g (f :: F) B = (g, f) :: fr g F B := rfl
    rw [he, pop, if_neg (Ne.symm hg), ih]
    cases pop g' B with
    | none => rfl
    | some x => rfl

theorem pop_base {g' : Nat} {B : List (Nat × Frame)} (hB : B = [] ∨ ∃ b, B = [(b, .leaf)]) {f : Frame} {p : List (Nat × Frame)}
    (h : pop g' B = some (f, p)) : B = [(g', .leaf)] ∧ f = .leaf ∧ p = [] := by
  rcases hB with rfl | ⟨b, rfl⟩
  · cases h
  · unfold pop at h
    split at h
    · rename_i hb
      cases h
      exact ⟨by rw [hb], rfl, rfl⟩
    · cases h

theorem Base.weak {g : Nat} {B : List (Nat × Frame)} (h : Base g B) : B = [] ∨ ∃ b, B = [(b, .leaf)] := by
  rcases h with h | ⟨b, -, h⟩
  · exact Or.inl h
  · exact Or.inr ⟨b, h⟩

/-- A return, when goroutine `g` has callbacks in progress: of `g` or of the other one. -/
theorem ret_cases {c : Cfg V E V} {h : Handlers} {cl : Bool} {n : Int} {vs : List V} {sp : List (Nat × Int)} {g g' : Nat} {f : Frame}
    {F : List Frame} {B : List (Nat × Frame)} {log : List (Ev V E V)} {s' : State V E V} (hB : Base g B)
    (hs : Flux.step c (mk h cl n vs sp (fr g (f :: F) B) log) (.ret g') = some s') :
    (g' = g ∧ proceed c g f (mk h cl n vs sp (fr g F B) log) = some s') ∨
      (B.length = 1 ∧ s' = mk h cl n vs sp (fr g (f :: F) []) log) := by
  have hs' : resume c g' (mk h cl n vs sp (fr g (f :: F) B) log) = some s' := by
    simpa [Flux.step, mk] using hs
  unfold resume at hs'
  by_cases hg : g' = g
  · subst hg
    refine Or.inl ⟨rfl, ?_⟩
    have hp : pop g' (mk h cl n vs sp (fr g' (f :: F) B) log).pending = some (f, fr g' F B) := by
      simp [mk, fr, pop]
    rw [hp] at hs'
    exact hs'
  · right
    have hp : pop g' (mk h cl n vs sp (fr g (f :: F) B) log).pending = (pop g' B).map fun x => (x.1, fr g (f :: F) x.2) :=
      pop_other hg _ _
    rw [hp] at hs'
    cases hb : pop g' B with
    | none => rw [hb] at hs'; cases hs'
    | some x =>
      obtain ⟨f', p⟩ := x
      obtain ⟨h1, h2, h3⟩ := pop_base hB.weak hb
      subst h1 h2 h3
      rw [hb] at hs'
      simp only [Option.map_some, proceed, Option.some.injEq] at hs'
      exact ⟨rfl, hs'.symm⟩

/-- Nothing starts while the lock is held. -/
theorem start_locked {c : Cfg V E V} {h : Handlers} {cl : Bool} {n : Int} {vs : List V} {sp : List (Nat × Int)} {g g' j : Nat}
    {F : List Frame} {B : List (Nat × Frame)} {log : List (Ev V E V)} {p : Int} (hsp : sp = [] ∨ sp = [(0, p)]) (hF : Frame.unlock 0 ∈ F) :
    Flux.step c (mk h cl n vs sp (fr g F B) log) (.start g' j) = none := by
  have hs : Flux.step c (mk h cl n vs sp (fr g F B) log) (.start g' j) = start c g' j (mk h cl n vs sp (fr g F B) log) := by
    simp [Flux.step, mk]
  rw [hs]
  unfold start
  rcases hsp with rfl | rfl
  · simp [mk]
  · cases j with
    | succ j => simp [mk]
    | zero =>
      have hm : ((fr g F B).any fun x => decide (x.2 = Frame.unlock 0)) = true := by
        rw [List.any_eq_true]
        exact ⟨(g, .unlock 0), by simp [fr, hF], by simp⟩
      simp [mk, hm]

/-- The waiting goroutine starts. -/
theorem start_free {c : Cfg V E V} (hc : c.src = .resp) {h : Handlers} {cl : Bool} {n p : Int} {vs : List V} {g j : Nat} {B : List (Nat × Frame)}
    (hB : B = [] ∨ ∃ b, B = [(b, Frame.leaf)]) {log : List (Ev V E V)} {s' : State V E V}
    (hs : Flux.step c (mk h cl n vs [(0, p)] B log) (.start g j) = some s') :
    Base g B ∧ s' = mk h cl n vs [] (fr g [.respLoop 0 (if p < (vs.length : Int) then p else vs.length) 0, .unlock 0] B) (.request 0 p :: log) := by
  have hs' : start c g j (mk h cl n vs [(0, p)] B log) = some s' := by
    simpa [Flux.step, mk] using hs
  unfold start at hs'
  cases j with
  | succ j => simp [mk] at hs'
  | zero =>
    rcases hB with rfl | ⟨b, rfl⟩
    · refine ⟨Or.inl rfl, ?_⟩
      simp [mk, pop, callRequest, hc, push, emit] at hs'
      exact hs'.symm
    · by_cases hb : b = g
      · simp [mk, pop, hb] at hs'
      · refine ⟨Or.inr ⟨b, hb, rfl⟩, ?_⟩
        simp [mk, pop, hb, callRequest, hc, push, emit] at hs'
        exact hs'.symm

theorem Hist.quiet {r : Reader V} {log : List (Ev V E V)} {vals : List V} {t : List (Seen E V)} {fi : List Signal} {q : Bool}
    (h : Hist r log vals t fi q) {e : Ev V E V} (h1 : seenOf 0 e = none) (h2 : finOf 0 e = none)
    (h3 : halts r e = false) (h4 : asking (e :: log) = false) :
    Hist r (e :: log) vals t fi false := by
  refine ⟨?_, ?_, h4, ?_⟩
  · rw [← h.seen]; simp [Spec.Flux.seen, h1]
  · rw [← h.fins]; simp [Spec.Flux.fins, h2]
  · rw [← h.flag]; simp only [flagged, List.any_cons, h3, Bool.false_or]

theorem Hist.next {r : Reader V} {log : List (Ev V E V)} {vals : List V} {fi : List Signal} {q : Bool}
    (h : Hist r log vals [] fi q) (v : V) : Hist r (.onNext 0 v :: .called 0 (.next v) :: log) (vals ++ [v]) [] fi false := by
  have h' : Hist r (.called 0 (.next v) :: log) vals [] fi false := h.quiet rfl rfl rfl rfl
  refine ⟨?_, ?_, rfl, ?_⟩
  · have := h.seen
    simp only [Spec.Flux.seen, List.append_nil] at this
    simp [Spec.Flux.seen, List.filterMap_cons, seenOf, this]
  · have := h.fins
    simp only [Spec.Flux.fins] at this
    simp [Spec.Flux.fins, List.filterMap_cons, finOf, this]
  · have := h'.flag
    simp only [flagged] at this
    simp only [List.any_cons, halts, Bool.false_or] at this
    simp [flagged, List.any_append, halts, ← this, Bool.or_comm]

theorem Hist.request {r : Reader V} {log : List (Ev V E V)} {vals : List V} {t : List (Seen E V)} {fi : List Signal} {q : Bool}
    (h : Hist r log vals t fi q) : Hist r (.onRequest 0 :: log) vals t fi true := by
  refine ⟨?_, ?_, rfl, ?_⟩
  · rw [← h.seen]; simp [Spec.Flux.seen, List.filterMap_cons, seenOf]
  · rw [← h.fins]; simp [Spec.Flux.fins, List.filterMap_cons, finOf]
  · rw [← h.flag]; simp only [flagged, List.any_cons, halts, Bool.false_or]

theorem Hist.complete {r : Reader V} {log : List (Ev V E V)} {vals : List V} {fi : List Signal} {q : Bool}
    (h : Hist r log vals [] fi q) : Hist r (.onComplete 0 :: log) vals [.complete] fi false := by
  refine ⟨?_, ?_, rfl, ?_⟩
  · have := h.seen
    simp only [Spec.Flux.seen, List.append_nil] at this
    simp [Spec.Flux.seen, List.filterMap_cons, seenOf, this]
  · rw [← h.fins]; simp [Spec.Flux.fins, List.filterMap_cons, finOf]
  · rw [← h.flag]; simp only [flagged, List.any_cons, halts, Bool.false_or]

theorem Hist.fin {r : Reader V} {log : List (Ev V E V)} {vals : List V} {t : List (Seen E V)} {q : Bool}
    (h : Hist r log vals t [] q) (sg : Signal) : Hist r (.fin 0 sg :: log) vals t [sg] false := by
  refine ⟨?_, ?_, rfl, ?_⟩
  · rw [← h.seen]; simp [Spec.Flux.seen, List.filterMap_cons, seenOf]
  · have := h.fins
    simp only [Spec.Flux.fins] at this
    simp [Spec.Flux.fins, List.filterMap_cons, finOf, this]
  · rw [← h.flag]; simp only [flagged, List.any_cons, halts, Bool.false_or]

/-! ### What the library does next -/

section
variable {oc oe cl : Bool} {n : Int} {vs : List V} {sp : List (Nat × Int)} {pd : List (Nat × Frame)} {log : List (Ev V E V)}

theorem do_next (host : Bool) {num k : Int} {v : V} (hk : k < num) (hv : vs[k.toNat]? = some v) (g : Nat) :
    proceed (cfg host) g (.respLoop 0 num k) (mk (reader oc oe) false n vs sp pd log) =
      some (mk (reader oc oe) false (n - 1) vs sp ((g, .afterNext 0) :: (g, .respLoop 0 num (k + 1)) :: pd)
        (.onNext 0 v :: .called 0 (.next v) :: log)) := by
  simp [proceed, respRound, hk, hv, mk, tell, callNext, cfg, reader, push, emit, setSub]

theorem do_after (host : Bool) (g : Nat) (hn : n ≠ 0) :
    proceed (cfg host) g (.afterNext 0) (mk (reader oc oe) false n vs sp pd log) = some (mk (reader oc oe) false n vs sp pd log) := by
  simp [proceed, endNext, mk, hn]

theorem do_ask (host : Bool) (g : Nat) :
    proceed (cfg host) g (.afterNext 0) (mk (reader oc oe) false 0 vs sp pd log) =
      some (mk (reader oc oe) false 0 vs sp ((g, .leaf) :: pd) (.onRequest 0 :: log)) := by
  simp [proceed, endNext, mk, handleOnSubscribe, reader, push, emit]

/-- The loop is over and something is left. -/
theorem do_turn (host : Bool) {num : Nat} (hn : num < vs.length) (g : Nat) :
    proceed (cfg host) g (.respLoop 0 num num) (mk (reader oc oe) cl n vs sp pd log) =
      some (mk (reader oc oe) cl n (vs.drop num) sp pd log) := by
  have h1 : ¬ (vs.length - num = 0) := by omega
  have h2 : num ≤ vs.length := by omega
  simp [proceed, respRound, mk, h1, h2]

/-- The loop is over and nothing is left. -/
theorem do_end (host : Bool) {num : Nat} (hn : num = vs.length) (g : Nat) :
    proceed (cfg host) g (.respLoop 0 num num) (mk (reader oc oe) cl n vs sp pd log) =
      some (if cl then mk (reader oc oe) cl n [] sp pd (.called 0 .complete :: log)
        else if oc then mk (reader oc oe) true n [] sp ((g, .afterSig 0 .complete) :: pd) (.onComplete 0 :: .called 0 .complete :: log)
        else mk (reader oc oe) true n [] sp ((g, .afterFin 0 .complete) :: pd) (.fin 0 .complete :: .called 0 .complete :: log)) := by
  subst hn
  cases cl <;> cases oc <;> simp [proceed, respRound, mk, tell, reader, push, emit, setSub, runFinally]

theorem do_sig (host : Bool) (g : Nat) :
    proceed (cfg host) g (.afterSig 0 .complete) (mk (reader oc oe) cl n vs sp pd log) =
      some (mk (reader oc oe) cl n vs sp ((g, .afterFin 0 .complete) :: pd) (.fin 0 .complete :: log)) := by
  simp [proceed, mk, reader, push, emit, setSub, runFinally]

theorem do_fin (host : Bool) (g : Nat) :
    proceed (cfg host) g (.afterFin 0 .complete) (mk (reader oc oe) cl n vs sp pd log) =
      some (mk (reader oc oe) cl n vs sp pd (.done 0 .complete :: log)) := by
  simp [proceed, mk, startLoop, emit, runLoop]

theorem do_leaf (host : Bool) (g : Nat) :
    proceed (cfg host) g .leaf (mk (reader oc oe) cl n vs sp pd log) = some (mk (reader oc oe) cl n vs sp pd log) := rfl

theorem do_unlock (host : Bool) (g : Nat) :
    proceed (cfg host) g (.unlock 0) (mk (reader oc oe) cl n vs sp pd log) = some (mk (reader oc oe) cl n vs sp pd log) := rfl

theorem do_cancel (host : Bool) (g : Nat) :
    Flux.step (cfg host) (mk (reader oc oe) cl n vs sp pd log) (.signal g 0 .cancel) =
      some (mk (reader oc oe) true n vs sp ((g, .leaf) :: pd) (.fin 0 .cancel :: .called 0 .cancel :: log)) := by
  simp [Flux.step, Call.isCancel, signal, mk, tell, reader, push, emit, setSub]

theorem do_request (g : Nat) (p : Int) :
    Flux.step (cfg true) (mk (reader oc oe) cl n vs sp pd log) (.request g 0 p) =
      some (mk (reader oc oe) cl (n + p) vs (sp ++ [(0, p)]) pd (.asked 0 p :: log)) := by
  simp [Flux.step, request, mk, doRequest, emit, setSub, cfg]

end

theorem step_eq {r : Reader V} {c : Cfg V E V} {s s' : State V E V} {a : Action V E} (h : Pager.step r c s a = some s') :
    acts r s a = true ∧ Flux.step c s a = some s' := by
  unfold Pager.step at h
  split at h
  · rename_i ha; exact ⟨ha, h⟩
  · cases h

theorem fr_cons (g : Nat) (f : Frame) (F : List Frame) (B : List (Nat × Frame)) : (g, f) :: fr g F B = fr g (f :: F) B := rfl

/-- A goroutine is in `OnRequest`: it acts, or the other one returns. -/
theorem acts_asking {r : Reader V} {h : Handlers} {cl : Bool} {n : Int} {vs : List V} {sp : List (Nat × Int)} {g : Nat} {f : Frame}
    {pd : List (Nat × Frame)} {log : List (Ev V E V)} {a : Action V E} (hq : asking log = true)
    (ha : acts r (mk h cl n vs sp ((g, f) :: pd) log) a = true) :
    (a = .request g 0 r.page ∧ flagged r log = false) ∨ (a = .signal g 0 .cancel ∧ flagged r log = true) ∨
      (∃ g', g' ≠ g ∧ a = .ret g') ∨ ∃ g' j, a = .start g' j := by
  have hi : ∀ g', inRequest g' (mk h cl n vs sp ((g, f) :: pd) log) = (g == g') := fun g' => by simp [inRequest, mk, hq]
  cases a with
  | ret g' =>
    simp only [acts, hi] at ha
    exact Or.inr (Or.inr (Or.inl ⟨g', by intro e; simp [e] at ha, rfl⟩))
  | start g' j => exact Or.inr (Or.inr (Or.inr ⟨g', j, rfl⟩))
  | request g' i m =>
    simp only [acts, hi, Bool.and_eq_true, beq_iff_eq, Bool.not_eq_true'] at ha
    obtain ⟨⟨⟨rfl, rfl⟩, rfl⟩, hf⟩ := ha
    exact Or.inl ⟨rfl, hf⟩
  | signal g' i x =>
    cases x with
    | cancel =>
      simp only [acts, hi, Bool.and_eq_true, beq_iff_eq] at ha
      obtain ⟨⟨rfl, rfl⟩, hf⟩ := ha
      exact Or.inr (Or.inl ⟨rfl, hf⟩)
    | _ => simp [acts] at ha
  | subscribe g h => simp [acts] at ha
  | notify g => simp [acts] at ha
  | onSubscribe g i r k => simp [acts] at ha

/-- Every step leads from one phase to another, and there is a bound on how many there can be. -/
theorem phase_step {r : Reader V} (hp : 0 < r.page) {oc oe : Bool} {xs : List V} {s s' : State V E V} {w : Nat}
    (h : Phase r (reader oc oe) xs s w) {a : Action V E} (ht : Pager.step r (cfg true) s a = some s') :
    ∃ w', w' < w ∧ Phase r (reader oc oe) xs s' w' := by
  obtain ⟨ha, hs⟩ := step_eq ht
  clear ht
  cases h with
  | first hl hw =>
    rename_i log
    rcases acts_asking hl.ask ha with ⟨rfl, hf⟩ | ⟨rfl, hf⟩ | ⟨g', hg, rfl⟩ | ⟨g', j, rfl⟩
    · rw [do_request] at hs
      cases hs
      refine ⟨w - 1, by omega, ?_⟩
      rw [Int.zero_add]
      refine .wait (Or.inr ⟨0, rfl⟩) (done := []) ⟨fun got sig h => h, by simp⟩ (hl.quiet rfl rfl rfl rfl) ?_
      simp only [List.length_cons, List.length_nil]
      omega
    · rw [hl.flag] at hf
      cases hf
    · have : pop g' [((0 : Nat), Frame.leaf)] = none := by simp [pop, Ne.symm hg]
      simp [Flux.step, mk, resume, this] at hs
    · simp [Flux.step, mk, start] at hs
  | wait hB hc hl hw =>
    rename_i log done rest B
    rcases acts_quiet (by exact hl.ask) ha with ⟨g, rfl⟩ | ⟨g, j, rfl⟩
    · have hs' : resume (cfg true) g (mk (reader oc oe) false r.page rest [(0, (r.page : Int))] B log) = some s' := by
        simpa [Flux.step, mk] using hs
      unfold resume at hs'
      cases hb : pop g B with
      | none => rw [show (mk (reader oc oe) false r.page rest [(0, (r.page : Int))] B log).pending = B from rfl, hb] at hs'; cases hs'
      | some x =>
        obtain ⟨f, p⟩ := x
        obtain ⟨h1, h2, h3⟩ := pop_base hB hb
        rw [show (mk (reader oc oe) false r.page rest [(0, (r.page : Int))] B log).pending = B from rfl, hb] at hs'
        subst h1 h2 h3
        simp only [proceed, Option.some.injEq] at hs'
        subst hs'
        exact ⟨w - 1, by simp at hw; omega, .wait (rest := rest) (B := []) (Or.inl rfl) hc hl (by simp at hw ⊢; omega)⟩
    · obtain ⟨h1, rfl⟩ := start_free rfl hB hs
      refine ⟨w - 1, by omega, ?_⟩
      have he : (if (r.page : Int) < (rest.length : Int) then (r.page : Int) else rest.length) = ((min r.page rest.length : Nat) : Int) := by
        split <;> omega
      rw [he]
      have := Phase.loop (r := r) (h := reader oc oe) (xs := xs) (w := w - 1) (k := 0) (log := .request 0 r.page :: log) h1 hc (by omega) hp
        (by simpa using hl.quiet rfl rfl rfl rfl) (by omega)
      simpa using this
  | loop hB hc hk hpk hl hw =>
    rename_i log done rest g B k
    rcases acts_quiet (by exact hl.ask) ha with ⟨g', rfl⟩ | ⟨g', j, rfl⟩
    · rcases ret_cases hB hs with ⟨rfl, hs⟩ | ⟨hb, rfl⟩
      · rcases Nat.lt_or_ge k rest.length with hlt | hge
        · obtain ⟨v, hv⟩ : ∃ v, rest[k]? = some v := ⟨rest[k], List.getElem?_eq_getElem hlt⟩
          rw [do_next true (k := (k : Int)) (v := v) (by omega) (by simpa using hv)] at hs
          cases hs
          refine ⟨w - 1, by omega, ?_⟩
          have ht : done ++ rest.take (k + 1) = done ++ rest.take k ++ [v] := by
            rw [List.take_add_one, hv]; simp
          have := Phase.next (r := r) (h := reader oc oe) (xs := xs) (w := w - 1) (g := g') (k := k)
            (log := .onNext 0 v :: .called 0 (.next v) :: log) hB hc hlt hpk (by rw [ht]; exact hl.next v) (by omega)
          rw [show (r.page : Int) - (k + 1 : Nat) = (r.page : Int) - k - 1 by omega] at this
          exact this
        · have hke : k = rest.length := by omega
          have hm : min r.page rest.length = rest.length := by omega
          rw [hm, hke, do_end true rfl] at hs
          cases hs
          refine ⟨w - 1, by omega, ?_⟩
          have hr : Reads r.page r.stop xs (done ++ rest) .complete := hc.reads _ _ (.ends (by omega))
          rw [hke, List.take_length] at hl
          have h2 := hl.quiet (e := .called 0 .complete) rfl rfl rfl rfl
          cases oc with
          | true =>
            exact .sig (n := _) (S := []) hB hr rfl (Or.inl rfl) h2.complete (by simp; omega)
          | false =>
            exact .fin (S := []) hB hr (Or.inl rfl) (h2.fin .complete) (by simp; omega)
      · exact ⟨w - 1, by omega, .loop (Or.inl rfl) hc hk hpk hl (by simp; omega)⟩
    · rw [start_locked (p := 0) (Or.inl rfl) (by simp)] at hs
      cases hs
  | next hB hc hk hpk hl hw =>
    rename_i log done rest g B k
    rcases acts_quiet (by exact hl.ask) ha with ⟨g', rfl⟩ | ⟨g', j, rfl⟩
    · rcases ret_cases hB hs with ⟨rfl, hs⟩ | ⟨hb, rfl⟩
      · by_cases hq : k + 1 = r.page
        · rw [show (r.page : Int) - (k + 1 : Nat) = 0 by omega, do_ask] at hs
          cases hs
          refine ⟨w - 1, by omega, ?_⟩
          rw [show min r.page rest.length = r.page by omega, hq]
          exact .ask hB hc (by omega) (by rw [← hq]; exact hl.request) (by omega)
        · rw [do_after true _ (by omega)] at hs
          cases hs
          exact ⟨w - 1, by omega, .loop hB hc (by omega) (by omega) hl (by omega)⟩
      · exact ⟨w - 1, by omega, .next (Or.inl rfl) hc hk hpk hl (by simp; omega)⟩
    · rw [start_locked (p := 0) (Or.inl rfl) (by simp)] at hs
      cases hs
  | ask hB hc hk hl hw =>
    rename_i log done rest g B
    rcases acts_asking hl.ask ha with ⟨rfl, hf⟩ | ⟨rfl, hf⟩ | ⟨g', hg, rfl⟩ | ⟨g', j, rfl⟩
    · rw [do_request] at hs
      cases hs
      refine ⟨w - 1, by omega, ?_⟩
      rw [Int.zero_add]
      rw [hl.flag] at hf
      refine .asked (L := [.leaf]) hB hc hk (fun v hv => ?_) (Or.inr rfl) (hl.quiet rfl rfl rfl rfl) (by simp; omega)
      have := List.any_eq_false.mp hf v (List.mem_append_right _ hv)
      simpa using this
    · rw [do_cancel] at hs
      cases hs
      refine ⟨w - 1, by omega, ?_⟩
      rw [hl.flag, List.any_append] at hf
      have hd : done.any r.stop = false := List.any_eq_false.mpr fun v hv => by simp [hc.clean v hv]
      rw [hd, Bool.false_or, List.any_eq_true] at hf
      exact .left (L := [.leaf, .leaf]) hB (hc.reads _ _ (.stops hk hf)) hk (Or.inr (Or.inr rfl))
        ((hl.quiet (e := .called 0 .cancel) rfl rfl rfl rfl).fin .cancel) (by simp; omega)
    · rcases ret_cases hB hs with ⟨rfl, _⟩ | ⟨hb, rfl⟩
      · exact absurd rfl hg
      · exact ⟨w - 1, by omega, .ask (Or.inl rfl) hc hk hl (by simp; omega)⟩
    · rw [start_locked (p := 0) (Or.inl rfl) (by simp)] at hs
      cases hs
  | asked hB hc hk hst hL hl hw =>
    rename_i log done rest g B L
    rcases acts_quiet (by exact hl.ask) ha with ⟨g', rfl⟩ | ⟨g', j, rfl⟩
    · rcases hL with rfl | rfl
      · rcases ret_cases hB hs with ⟨rfl, hs⟩ | ⟨hb, rfl⟩
        · rcases Nat.lt_or_ge r.page rest.length with hlt | hge
          · rw [do_turn true hlt] at hs
            cases hs
            exact ⟨w - 1, by omega, .turn hB (hc.page hk hst) hl (by simp at hw ⊢; omega)⟩
          · have he : r.page = rest.length := by omega
            rw [do_end true he] at hs
            cases hs
            refine ⟨w - 1, by omega, ?_⟩
            have hc' := hc.page hk hst
            rw [he, List.take_length, List.drop_length] at hc'
            have hr : Reads r.page r.stop xs (done ++ rest) .complete := by
              have := hc'.reads [] .complete (.ends (by simpa using hp))
              simpa using this
            rw [he, List.take_length] at hl
            have h2 := hl.quiet (e := .called 0 .complete) rfl rfl rfl rfl
            cases oc with
            | true => exact .sig hB hr rfl (Or.inr rfl) h2.complete (by simp at hw ⊢; omega)
            | false => exact .fin hB hr (Or.inr rfl) (h2.fin .complete) (by simp at hw ⊢; omega)
        · exact ⟨w - 1, by omega, .asked (L := []) (Or.inl rfl) hc hk hst (Or.inl rfl) hl (by simp at hw ⊢; omega)⟩
      · rcases ret_cases hB hs with ⟨rfl, hs⟩ | ⟨hb, rfl⟩
        · cases hs
          exact ⟨w - 1, by omega, .asked (L := []) hB hc hk hst (Or.inl rfl) hl (by simp at hw ⊢; omega)⟩
        · exact ⟨w - 1, by omega, .asked (L := [.leaf]) (Or.inl rfl) hc hk hst (Or.inr rfl) hl (by simp at hw ⊢; omega)⟩
    · rw [start_locked (Or.inr rfl) (by simp)] at hs
      cases hs
  | turn hB hc hl hw =>
    rename_i log done rest g B
    rcases acts_quiet (by exact hl.ask) ha with ⟨g', rfl⟩ | ⟨g', j, rfl⟩
    · rcases ret_cases hB hs with ⟨rfl, hs⟩ | ⟨hb, rfl⟩
      · cases hs
        exact ⟨w - 1, by omega, .wait (B := B) hB.weak hc hl (by omega)⟩
      · exact ⟨w - 1, by omega, .turn (Or.inl rfl) hc hl (by simp; omega)⟩
    · rw [start_locked (Or.inr rfl) (by simp)] at hs
      cases hs
  | left hB hr hk hL hl hw =>
    rename_i log vals rest g B L
    rcases acts_quiet (by exact hl.ask) ha with ⟨g', rfl⟩ | ⟨g', j, rfl⟩
    · rcases hL with rfl | rfl | rfl
      · rcases ret_cases hB hs with ⟨rfl, hs⟩ | ⟨hb, rfl⟩
        · rcases Nat.lt_or_ge r.page rest.length with hlt | hge
          · rw [do_turn true hlt] at hs
            cases hs
            exact ⟨w - 1, by omega, .over (F := [.unlock 0]) (S := []) hB.weak (fun _ => hB) hr (Or.inr (Or.inl rfl)) (Or.inl rfl) hl
              (by simp at hw ⊢; omega)⟩
          · have he : r.page = rest.length := by omega
            rw [do_end true he] at hs
            cases hs
            exact ⟨w - 1, by omega, .over (F := [.unlock 0]) (S := []) hB.weak (fun _ => hB) hr (Or.inr (Or.inl rfl)) (Or.inl rfl)
              (hl.quiet rfl rfl rfl rfl) (by simp at hw ⊢; omega)⟩
        · exact ⟨w - 1, by omega, .left (L := []) (Or.inl rfl) hr hk (Or.inl rfl) hl (by simp at hw ⊢; omega)⟩
      · rcases ret_cases hB hs with ⟨rfl, hs⟩ | ⟨hb, rfl⟩
        · cases hs
          exact ⟨w - 1, by omega, .left (L := []) hB hr hk (Or.inl rfl) hl (by simp at hw ⊢; omega)⟩
        · exact ⟨w - 1, by omega, .left (L := [.leaf]) (Or.inl rfl) hr hk (Or.inr (Or.inl rfl)) hl (by simp at hw ⊢; omega)⟩
      · rcases ret_cases hB hs with ⟨rfl, hs⟩ | ⟨hb, rfl⟩
        · cases hs
          exact ⟨w - 1, by omega, .left (L := [.leaf]) hB hr hk (Or.inr (Or.inl rfl)) hl (by simp at hw ⊢; omega)⟩
        · exact ⟨w - 1, by omega, .left (L := [.leaf, .leaf]) (Or.inl rfl) hr hk (Or.inr (Or.inr rfl)) hl (by simp at hw ⊢; omega)⟩
    · rw [start_locked (p := 0) (Or.inl rfl) (by simp)] at hs
      cases hs
  | sig hB hr ho hS hl hw =>
    rename_i log vals g B S n
    rcases acts_quiet (by exact hl.ask) ha with ⟨g', rfl⟩ | ⟨g', j, rfl⟩
    · rcases ret_cases hB hs with ⟨rfl, hs⟩ | ⟨hb, rfl⟩
      · rw [do_sig] at hs
        cases hs
        refine ⟨w - 1, by omega, .fin hB hr hS ?_ (by omega)⟩
        have : (told (reader oc oe) .complete : List (Seen E V)) = [.complete] := by
          simp only [told, ho, if_true]
        rw [this]
        exact hl.fin .complete
      · exact ⟨w - 1, by omega, .sig (Or.inl rfl) hr ho hS hl (by simp; omega)⟩
    · rw [start_locked hS (by simp)] at hs
      cases hs
  | fin hB hr hS hl hw =>
    rename_i log vals g B S n
    rcases acts_quiet (by exact hl.ask) ha with ⟨g', rfl⟩ | ⟨g', j, rfl⟩
    · rcases ret_cases hB hs with ⟨rfl, hs⟩ | ⟨hb, rfl⟩
      · rw [do_fin] at hs
        cases hs
        exact ⟨w - 1, by omega, .over (F := [.unlock 0]) hB.weak (fun _ => hB) hr (Or.inr (Or.inl rfl)) (hS.imp id fun h => ⟨h, rfl⟩)
          (hl.quiet rfl rfl rfl rfl) (by simp; omega)⟩
      · exact ⟨w - 1, by omega, .fin (Or.inl rfl) hr hS hl (by simp; omega)⟩
    · rw [start_locked hS (by simp)] at hs
      cases hs
  | over hB hg hr hF hS hl hw =>
    rename_i log vals sg rest g B S F n
    rcases acts_quiet (by exact hl.ask) ha with ⟨g', rfl⟩ | ⟨g', j, rfl⟩
    · rcases hF with rfl | rfl | ⟨rfl, rfl, rfl⟩
      · have hs' : resume (cfg true) g' (mk (reader oc oe) true n rest S B log) = some s' := by
          simpa [Flux.step, mk, fr] using hs
        unfold resume at hs'
        rw [show (mk (reader oc oe) true n rest S B log).pending = B from rfl] at hs'
        cases hb : pop g' B with
        | none => rw [hb] at hs'; cases hs'
        | some x =>
          obtain ⟨f, p⟩ := x
          obtain ⟨h1, h2, h3⟩ := pop_base hB hb
          rw [hb] at hs'
          subst h1 h2 h3
          simp only [proceed, Option.some.injEq] at hs'
          subst hs'
          exact ⟨w - 1, by simp at hw; omega, .over (F := []) (S := S) (B := []) (rest := rest) (g := g) (Or.inl rfl) (fun h => absurd rfl h) hr (Or.inl rfl) hS hl
            (by simp at hw ⊢; omega)⟩
      · rcases ret_cases (hg (by simp)) hs with ⟨rfl, hs⟩ | ⟨hb, rfl⟩
        · cases hs
          exact ⟨w - 1, by simp at hw; omega, .over (F := []) hB (fun h => absurd rfl h) hr (Or.inl rfl) hS hl (by simp at hw ⊢; omega)⟩
        · exact ⟨w - 1, by simp at hw; omega, .over (F := [.unlock 0]) (Or.inl rfl) (fun _ => Or.inl rfl) hr (Or.inr (Or.inl rfl)) hS hl
            (by simp at hw ⊢; omega)⟩
      · rcases ret_cases (hg (by simp)) hs with ⟨rfl, hs⟩ | ⟨hb, rfl⟩
        · have := do_end (E := E) (oc := oc) (oe := oe) (cl := true) (n := n) (vs := ([] : List V)) (sp := []) (pd := fr g' [.unlock 0] B) (log := log)
            true (num := 0) rfl g'
          rw [show ((0 : Nat) : Int) = 0 from rfl] at this
          rw [this] at hs
          cases hs
          exact ⟨w - 1, by simp at hw; omega, .over (F := [.unlock 0]) (S := []) hB (fun _ => hg (by simp)) hr (Or.inr (Or.inl rfl)) (Or.inl rfl)
            (hl.quiet rfl rfl rfl rfl) (by simp at hw ⊢; omega)⟩
        · exact ⟨w - 1, by simp at hw; omega, .over (F := [.respLoop 0 0 0, .unlock 0]) (S := []) (Or.inl rfl) (fun _ => Or.inl rfl) hr
            (Or.inr (Or.inr ⟨rfl, rfl, rfl⟩)) (Or.inl rfl) hl (by simp at hw ⊢; omega)⟩
    · rcases hF with rfl | rfl | ⟨rfl, rfl, rfl⟩
      · rcases hS with rfl | ⟨rfl, rfl⟩
        · simp [Flux.step, mk, start] at hs
        · have hs2 : Flux.step (cfg true) (mk (reader oc oe) true n [] [(0, (r.page : Int))] B log) (.start g' j) = some s' := hs
          obtain ⟨h1, rfl⟩ := start_free rfl hB hs2
          have he : (if (r.page : Int) < (([] : List V).length : Int) then (r.page : Int) else (([] : List V).length : Int)) = 0 := by
            simp only [List.length_nil]
            split <;> omega
          rw [he]
          exact ⟨w - 1, by simp at hw; omega, .over (F := [.respLoop 0 0 0, .unlock 0]) (S := []) h1.weak (fun _ => h1) hr
            (Or.inr (Or.inr ⟨rfl, rfl, rfl⟩)) (Or.inl rfl) (hl.quiet rfl rfl rfl rfl) (by simp at hw ⊢; omega)⟩
      · rw [start_locked (hS.imp id And.left) (by simp)] at hs
        cases hs
      · rw [start_locked (p := 0) (Or.inl rfl) (by simp)] at hs
        cases hs

theorem ret_go {r : Reader V} {c : Cfg V E V} {h : Handlers} {cl : Bool} {n : Int} {vs : List V} {sp : List (Nat × Int)} {g : Nat} {f : Frame}
    {F : List Frame} {B : List (Nat × Frame)} {log : List (Ev V E V)} {s' : State V E V} (hq : asking log = false)
    (hs : proceed c g f (mk h cl n vs sp (fr g F B) log) = some s') :
    Pager.step r c (mk h cl n vs sp (fr g (f :: F) B) log) (.ret g) = some s' := by
  have ha : acts r (mk h cl n vs sp (fr g (f :: F) B) log) (.ret g) = true := by simp [acts, inRequest, mk, hq]
  unfold Pager.step
  rw [if_pos ha]
  have hp : pop g (mk h cl n vs sp (fr g (f :: F) B) log).pending = some (f, fr g F B) := by simp [mk, fr, pop]
  have : Flux.step c (mk h cl n vs sp (fr g (f :: F) B) log) (.ret g) = resume c g (mk h cl n vs sp (fr g (f :: F) B) log) := by
    simp [Flux.step, mk]
  rw [this]
  unfold resume
  rw [hp]
  exact hs

theorem start_go {r : Reader V} {c : Cfg V E V} (hc : c.src = .resp) {h : Handlers} {cl : Bool} {n p : Int} {vs : List V}
    {log : List (Ev V E V)} : ∃ s', Pager.step r c (mk h cl n vs [(0, p)] [] log) (.start 0 0) = some s' := by
  simp [Pager.step, acts, Flux.step, mk, start, pop, callRequest, hc]

/-- As long as something is in progress, something can happen. -/
theorem phase_goes {r : Reader V} {oc oe : Bool} {xs : List V} {s : State V E V} {w : Nat} (h : Phase r (reader oc oe) xs s w) :
    (s.pending = [] ∧ s.spawned = []) ∨ ∃ a s', Pager.step r (cfg true) s a = some s' := by
  cases h with
  | first hl hw =>
    refine Or.inr ⟨.request 0 0 r.page, ?_⟩
    unfold Pager.step
    rw [if_pos (by simp [acts, inRequest, mk, hl.ask, hl.flag]), do_request]
    exact ⟨_, rfl⟩
  | wait hB hc hl hw =>
    rcases hB with rfl | ⟨b, rfl⟩
    · obtain ⟨s', hs⟩ := start_go (r := r) (c := cfg true) rfl (h := reader oc oe) (cl := false) (n := r.page) (p := r.page)
      exact Or.inr ⟨_, s', hs⟩
    · exact Or.inr ⟨.ret b, _, ret_go (F := []) (B := []) hl.ask rfl⟩
  | loop hB hc hk hpk hl hw =>
    rename_i log done rest g B k
    rcases Nat.lt_or_ge k rest.length with hlt | hge
    · obtain ⟨v, hv⟩ : ∃ v, rest[k]? = some v := ⟨rest[k], List.getElem?_eq_getElem hlt⟩
      exact Or.inr ⟨_, _, ret_go hl.ask (do_next true (k := (k : Int)) (v := v) (by omega) (by simpa using hv) g)⟩
    · have hke : k = rest.length := by omega
      rw [show min r.page rest.length = rest.length by omega, hke]
      exact Or.inr ⟨_, _, ret_go hl.ask (do_end true rfl g)⟩
  | next hB hc hk hpk hl hw =>
    rename_i log done rest g B k
    by_cases hq : k + 1 = r.page
    · rw [show (r.page : Int) - (k + 1 : Nat) = 0 by omega]
      exact Or.inr ⟨_, _, ret_go hl.ask (do_ask true g)⟩
    · exact Or.inr ⟨_, _, ret_go hl.ask (do_after true g (by omega))⟩
  | ask hB hc hk hl hw =>
    rename_i log done rest g B
    right
    cases hf : flagged r log with
    | false =>
      refine ⟨.request g 0 r.page, ?_⟩
      unfold Pager.step
      rw [if_pos (by simp [acts, inRequest, mk, fr, hl.ask, hf]), do_request]
      exact ⟨_, rfl⟩
    | true =>
      refine ⟨.signal g 0 .cancel, ?_⟩
      unfold Pager.step
      rw [if_pos (by simp [acts, inRequest, mk, fr, hl.ask, hf]), do_cancel]
      exact ⟨_, rfl⟩
  | asked hB hc hk hst hL hl hw =>
    rename_i log done rest g B L
    right
    rcases hL with rfl | rfl
    · rcases Nat.lt_or_ge r.page rest.length with hlt | hge
      · exact ⟨_, _, ret_go hl.ask (do_turn true hlt g)⟩
      · exact ⟨_, _, ret_go hl.ask (do_end true (by omega) g)⟩
    · exact ⟨_, _, ret_go hl.ask (do_leaf true g)⟩
  | turn hB hc hl hw => exact Or.inr ⟨_, _, ret_go hl.ask (do_unlock true _)⟩
  | left hB hr hk hL hl hw =>
    rename_i log vals rest g B L
    right
    rcases hL with rfl | rfl | rfl
    · rcases Nat.lt_or_ge r.page rest.length with hlt | hge
      · exact ⟨_, _, ret_go hl.ask (do_turn true hlt g)⟩
      · exact ⟨_, _, ret_go hl.ask (do_end true (by omega) g)⟩
    · exact ⟨_, _, ret_go hl.ask (do_leaf true g)⟩
    · exact ⟨_, _, ret_go hl.ask (do_leaf true g)⟩
  | sig hB hr ho hS hl hw => exact Or.inr ⟨_, _, ret_go hl.ask (do_sig true _)⟩
  | fin hB hr hS hl hw => exact Or.inr ⟨_, _, ret_go hl.ask (do_fin true _)⟩
  | over hB hg hr hF hS hl hw =>
    rename_i log vals sg rest g B S F n
    rcases hF with rfl | rfl | ⟨rfl, rfl, rfl⟩
    · rcases hB with rfl | ⟨b, rfl⟩
      · rcases hS with rfl | ⟨rfl, rfl⟩
        · exact Or.inl ⟨rfl, rfl⟩
        · obtain ⟨s', hs⟩ := start_go (r := r) (c := cfg true) rfl (h := reader oc oe) (cl := true) (n := n) (p := r.page) (vs := []) (log := log)
          exact Or.inr ⟨_, s', hs⟩
      · exact Or.inr ⟨.ret b, _, ret_go (F := []) (B := []) hl.ask rfl⟩
    · exact Or.inr ⟨_, _, ret_go hl.ask (do_unlock true _)⟩
    · exact Or.inr ⟨_, _, ret_go hl.ask (do_end (num := 0) true rfl g)⟩

theorem begin_phase {r : Reader V} (oc oe : Bool) (xs : List V) :
    Phase r (reader oc oe) xs (begin true oc oe xs : State V E V) (10 * xs.length + 23) := by
  have : (begin true oc oe xs : State V E V) = mk (reader oc oe) false 0 xs [] [(0, .leaf)] [.onRequest 0, .subscribed 0] := by
    simp [begin, subscribe, cfg, handleOnSubscribe, reader, push, emit, addSub, init, mk]
  rw [this]
  exact .first ⟨rfl, rfl, rfl, rfl⟩ (Nat.le_refl _)

theorem phase_run {r : Reader V} (hp : 0 < r.page) {oc oe : Bool} {xs : List V} : ∀ {as : List (Action V E)} {s s' : State V E V} {w : Nat},
    Phase r (reader oc oe) xs s w → Pager.run r (cfg true) s as = some s' → ∃ w', w' + as.length ≤ w ∧ Phase r (reader oc oe) xs s' w'
  | [], s, s', w, h, hr => by cases hr; exact ⟨w, by simp, h⟩
  | a :: as, s, s', w, h, hr => by
    unfold Pager.run at hr
    split at hr
    · cases hr
    · rename_i t ht
      obtain ⟨w1, h1, h2⟩ := phase_step hp h ht
      obtain ⟨w2, h3, h4⟩ := phase_run hp h2 hr
      exact ⟨w2, by simp only [List.length_cons]; omega, h4⟩

/-! ### Reading -/

theorem reads_total {page : Nat} (hp : 0 < page) (stop : V → Bool) : ∀ (k : Nat) (xs : List V), xs.length ≤ k → ∃ got sig, Reads page stop xs got sig
  | 0, xs, h => ⟨xs, _, .ends (by omega)⟩
  | k + 1, xs, h => by
    rcases Nat.lt_or_ge xs.length page with hl | hl
    · exact ⟨_, _, .ends hl⟩
    · by_cases hs : ∃ v ∈ xs.take page, stop v = true
      · exact ⟨_, _, .stops hl hs⟩
      · obtain ⟨got, sig, hr⟩ := reads_total hp stop k (xs.drop page) (by simp; omega)
        refine ⟨_, _, .more hl (fun v hv => ?_) hr⟩
        cases he : stop v with
        | false => rfl
        | true => exact absurd ⟨v, hv, he⟩ hs

/-- What a reader gets is determined. -/
theorem reads_unique {page : Nat} {stop : V → Bool} {xs got got' : List V} {sig sig' : Signal} (h : Reads page stop xs got sig)
    (h' : Reads page stop xs got' sig') : got = got' ∧ sig = sig' := by
  induction h generalizing got' sig' with
  | stops hl hs =>
    cases h' with
    | stops => exact ⟨rfl, rfl⟩
    | more _ hn =>
      obtain ⟨v, hv, he⟩ := hs
      rw [hn v hv] at he
      cases he
    | ends h => omega
  | more hl hn _ ih =>
    cases h' with
    | stops _ hs =>
      obtain ⟨v, hv, he⟩ := hs
      rw [hn v hv] at he
      cases he
    | more _ _ t =>
      obtain ⟨rfl, rfl⟩ := ih t
      exact ⟨rfl, rfl⟩
    | ends h => omega
  | ends hl =>
    cases h' with
    | stops h => omega
    | more h => omega
    | ends => exact ⟨rfl, rfl⟩

theorem reads_page {page : Nat} {stop : V → Bool} {xs got : List V} {sig : Signal} (h : Reads page stop xs got sig) {k : Nat} (hk : k ≤ page) :
    xs.take k <+: got := by
  have ht : ∀ l : List V, l.take k <+: l.take page := fun l => by
    rw [← Nat.min_eq_left hk, ← List.take_take]
    exact List.take_prefix _ _
  cases h with
  | stops => exact ht _
  | more => exact (ht _).trans (List.prefix_append _ _)
  | ends => exact List.take_prefix _ _

theorem values_next (l : List V) (t : List (Seen E V)) : values (l.map .next ++ t) = l ++ values t := by
  simp [values, List.filterMap_append, List.filterMap_map, Function.comp_def]

theorem values_told (h : Handlers) (sg : Signal) : values (told h sg : List (Seen E V)) = [] := by
  unfold told
  cases sg with
  | complete =>
    dsimp only
    split <;> rfl
  | _ => rfl

theorem pre_nil (l : List V) : l ++ [] <+: l := by rw [List.append_nil]; exact List.prefix_refl l

/-- In every phase: what was seen is a part of what will be, and the finalizer was called at most once. -/
theorem phase_sees {r : Reader V} (hp : 0 < r.page) {oc oe : Bool} {xs : List V} {s : State V E V} {w : Nat} (h : Phase r (reader oc oe) xs s w) :
    s.crashed = false ∧ ∃ got sig, Reads r.page r.stop xs got sig ∧ values (seen 0 s.log) <+: got ∧
      (fins 0 s.log = [] ∨ fins 0 s.log = [sig] ∧ seen 0 s.log = got.map .next ++ told (reader oc oe) sig) ∧
      (s.pending = [] → s.spawned = [] → fins 0 s.log = [sig]) := by
  have part : ∀ {log : List (Ev V E V)} {done rest : List V} {k : Nat} {q : Bool}, Cont r xs done rest → k ≤ r.page →
      Hist r log (done ++ rest.take k) [] [] q → ∃ got sig, Reads r.page r.stop xs got sig ∧ values (seen 0 log) <+: got ∧ fins 0 log = [] := by
    intro log done rest k q hc hk hl
    obtain ⟨got, sig, hr⟩ := reads_total hp r.stop _ rest (Nat.le_refl _)
    refine ⟨done ++ got, sig, hc.reads _ _ hr, ?_, hl.fins⟩
    rw [hl.seen, values_next, show values ([] : List (Seen E V)) = [] from rfl, List.append_nil]
    exact (List.prefix_append_right_inj _).mpr (reads_page hr hk)
  refine ⟨by cases h <;> rfl, ?_⟩
  cases h with
  | first hl hw =>
    obtain ⟨got, sig, h1, h2, h3⟩ := part (done := []) (rest := xs) (k := 0) ⟨fun _ _ h => h, by simp⟩ (by omega) (by simpa using hl)
    exact ⟨got, sig, h1, h2, Or.inl h3, fun h => nomatch h⟩
  | wait hB hc hl hw =>
    obtain ⟨got, sig, h1, h2, h3⟩ := part (k := 0) hc (by omega) (by simpa using hl)
    exact ⟨got, sig, h1, h2, Or.inl h3, fun _ h => nomatch h⟩
  | loop hB hc hk hpk hl hw =>
    obtain ⟨got, sig, h1, h2, h3⟩ := part hc (by omega) hl
    exact ⟨got, sig, h1, h2, Or.inl h3, fun h => nomatch h⟩
  | next hB hc hk hpk hl hw =>
    obtain ⟨got, sig, h1, h2, h3⟩ := part hc (by omega) hl
    exact ⟨got, sig, h1, h2, Or.inl h3, fun h => nomatch h⟩
  | ask hB hc hk hl hw =>
    obtain ⟨got, sig, h1, h2, h3⟩ := part hc (by omega) hl
    exact ⟨got, sig, h1, h2, Or.inl h3, fun h => nomatch h⟩
  | asked hB hc hk hst hL hl hw =>
    obtain ⟨got, sig, h1, h2, h3⟩ := part hc (by omega) hl
    exact ⟨got, sig, h1, h2, Or.inl h3, fun _ h => nomatch h⟩
  | turn hB hc hl hw =>
    obtain ⟨got, sig, h1, h2, h3⟩ := part (k := 0) hc (by omega) (by simpa using hl)
    exact ⟨got, sig, h1, h2, Or.inl h3, fun h => nomatch h⟩
  | left hB hr hk hL hl hw =>
    refine ⟨_, _, hr, ?_, Or.inr ⟨hl.fins, hl.seen⟩, fun _ _ => hl.fins⟩
    rw [show (seen 0 (mk (E := E) _ _ _ _ _ _ _).log) = _ from hl.seen, values_next]
    exact pre_nil _
  | sig hB hr ho hS hl hw =>
    refine ⟨_, _, hr, ?_, Or.inl hl.fins, fun h => nomatch h⟩
    rw [show (seen 0 (mk (E := E) _ _ _ _ _ _ _).log) = _ from hl.seen, values_next]
    exact pre_nil _
  | fin hB hr hS hl hw =>
    refine ⟨_, _, hr, ?_, Or.inr ⟨hl.fins, hl.seen⟩, fun _ _ => hl.fins⟩
    rw [show (seen 0 (mk (E := E) _ _ _ _ _ _ _).log) = _ from hl.seen, values_next, values_told]
    exact pre_nil _
  | over hB hg hr hF hS hl hw =>
    refine ⟨_, _, hr, ?_, Or.inr ⟨hl.fins, hl.seen⟩, fun _ _ => hl.fins⟩
    rw [show (seen 0 (mk (E := E) _ _ _ _ _ _ _).log) = _ from hl.seen, values_next, values_told]
    exact pre_nil _

/-- **C167** (safety). On a host, a subscriber that asks for one page after the other of a source that answers with
`SliceResponse`, whatever goroutine runs when: at any time nothing has crashed, it has seen the values of the list in order and
each once, not beyond the page with a value after which it wants no more, and its finalizer was called at most once. -/
theorem pages_in_order (r : Reader V) (hp : 0 < r.page) (oc oe : Bool) (xs : List V) (as : List (Action V E)) (s : State V E V)
    (hr : Pager.run r (cfg true) (begin true oc oe xs) as = some s) :
    s.crashed = false ∧ ∃ got sig, Reads r.page r.stop xs got sig ∧ values (seen 0 s.log) <+: got ∧
      (fins 0 s.log = [] ∨ fins 0 s.log = [sig]) := by
  obtain ⟨w, -, h⟩ := phase_run hp (begin_phase oc oe xs) hr
  obtain ⟨h1, got, sig, h2, h3, h4, -⟩ := phase_sees hp h
  exact ⟨h1, got, sig, h2, h3, h4.imp id And.left⟩

/-- **C167** (the end). When nothing is left to do the subscriber has seen whole pages up to the first one with such a value, and
was told that it cancelled; or all of the list, and was told that it is complete. The finalizer was called exactly once. -/
theorem pages_read (r : Reader V) (hp : 0 < r.page) (oc oe : Bool) (xs : List V) (as : List (Action V E)) (s : State V E V)
    (hr : Pager.run r (cfg true) (begin true oc oe xs) as = some s) (h1 : s.pending = []) (h2 : s.spawned = []) :
    ∃ got sig, Reads r.page r.stop xs got sig ∧ fins 0 s.log = [sig] ∧
      seen 0 s.log = got.map .next ++ if sig = .complete ∧ oc = true then [.complete] else [] := by
  obtain ⟨w, -, h⟩ := phase_run hp (begin_phase oc oe xs) hr
  obtain ⟨-, got, sig, h3, -, h4, h5⟩ := phase_sees hp h
  have h6 := h5 h1 h2
  rcases h4 with h4 | ⟨-, h4⟩
  · rw [h4] at h6
    cases h6
  · refine ⟨got, sig, h3, h6, ?_⟩
    rw [h4]
    congr 1
    cases sig <;> cases oc <;> rfl

/-- **C167** (liveness). As long as something is left to do something can happen, and after `10 * n + 23` steps for a list of
length `n` nothing is left to do. -/
theorem pages_finish (r : Reader V) (hp : 0 < r.page) (oc oe : Bool) (xs : List V) (as : List (Action V E)) (s : State V E V)
    (hr : Pager.run r (cfg true) (begin true oc oe xs) as = some s) :
    as.length ≤ 10 * xs.length + 23 ∧
      ((s.pending = [] ∧ s.spawned = []) ∨ ∃ a s', Pager.step r (cfg true) s a = some s') := by
  obtain ⟨w, h1, h⟩ := phase_run hp (begin_phase oc oe xs) hr
  exact ⟨by omega, phase_goes h⟩

/-! ## The program -/

/-- Reading in pages until a word is too rare misses no frequent word. -/
theorem reads_frequent {xs got : List (Bytes × Nat)} {sig : Signal} (h : Reads frequent.page frequent.stop xs got sig)
    (hs : xs.Pairwise fun a b => b.2 ≤ a.2) : got.filter prints = xs.filter prints := by
  induction h with
  | @stops xs hl hv =>
    obtain ⟨v, hv, he⟩ := hv
    rw [← List.take_append_drop frequent.page xs] at hs
    have hd : (xs.drop frequent.page).filter prints = [] := by
      rw [List.filter_eq_nil_iff]
      intro x hx
      have hle := (List.pairwise_append.mp hs).2.2 v hv x hx
      simp only [frequent, decide_eq_true_eq] at he
      simp only [prints, frequent, Bool.not_eq_true', decide_eq_false_iff_not]
      omega
    conv => rhs; rw [← List.take_append_drop frequent.page xs, List.filter_append, hd, List.append_nil]
  | @more xs got sig hl hn t ih =>
    have hd : (xs.drop frequent.page).Pairwise fun a b => b.2 ≤ a.2 := hs.sublist (List.drop_sublist _ _)
    rw [List.filter_append, ih hd, ← List.filter_append, List.take_append_drop]
  | ends => rfl

theorem counted_words (lower : Bytes → Bytes) (arrange : List (Bytes × Nat) → List (Bytes × Nat)) (hs : Spec.Components.Sorts arrange)
    (ws : List Bytes) (hl : ws.length < 2 ^ 31) : Spec.Components.Frequencies lower ws (counted lower arrange ws) := by
  have key : ∀ (xs ws : List Bytes) (m : List (Bytes × Nat)), Props.Components.Tells lower ws m → (ws ++ xs).length < 2 ^ 31 →
      Props.Components.Tells lower (ws ++ xs) (xs.foldl (fun (c : Components.Comp) w => c.next lower w) ⟨m, false⟩).counts := by
    intro xs
    induction xs with
    | nil => intro ws m h _; simpa using h
    | cons x xs ih =>
      intro ws m h hl
      have hn := Props.Components.tells_next h (by simp at hl; omega) x
      have := ih (ws ++ [x]) _ hn (by simpa using hl)
      have he : Components.Comp.next lower ⟨m, false⟩ x = ⟨(Components.Comp.next lower ⟨m, false⟩ x).counts, false⟩ := by
        have := Props.Components.next_open lower ⟨m, false⟩ x rfl
        revert this
        cases Components.Comp.next lower ⟨m, false⟩ x
        rintro rfl
        rfl
      rw [List.foldl_cons, he]
      simpa using this
  have := key ws [] [] (Props.Components.tells_nil lower) (by simpa using hl)
  exact Props.Components.frequencies_of (by simpa [Components.Comp.init] using this) hs

/-- **C168.** The program that counts the words of a text: when it is over it has printed exactly the words that are not stop
words and occur at least a thousand times, each once and with the number of times it occurs, more frequent ones first, and it has
closed its channel exactly once. It is over after finitely many steps (`pages_finish`). -/
theorem frequent_words (lower : Bytes → Bytes) (arrange : List (Bytes × Nat) → List (Bytes × Nat)) (hs : Spec.Components.Sorts arrange)
    (ws : List Bytes) (hl : ws.length < 2 ^ 31) (as : List (Action (Bytes × Nat) E)) (s : State (Bytes × Nat) E (Bytes × Nat))
    (hr : Pager.run frequent (cfg true) (begin true false false (counted lower arrange ws)) as = some s)
    (h1 : s.pending = []) (h2 : s.spawned = []) :
    (∃ l, Spec.Components.Frequencies lower ws l ∧ (values (seen 0 s.log)).filter prints = l.filter fun p => decide (1000 ≤ p.2)) ∧
      (fins 0 s.log).length = 1 := by
  obtain ⟨got, sig, h3, h4, h5⟩ := pages_read frequent (by decide) false false _ as s hr h1 h2
  have hf := counted_words lower arrange hs ws hl
  refine ⟨⟨_, hf, ?_⟩, by rw [h4]; rfl⟩
  rw [h5, values_next]
  have : values (if sig = .complete ∧ false = true then [Seen.complete] else [] : List (Seen E (Bytes × Nat))) = [] := by simp [values]
  rw [this, List.append_nil, reads_frequent h3 hf.sorted]
  congr 1
  funext p
  simp only [prints, frequent]
  by_cases h : p.2 < 1000
  · simp [h]
  · simp [h, Nat.le_of_not_lt h]

/-! ## In WebAssembly -/

section
variable {oc oe cl : Bool} {n : Int} {vs : List V} {sp : List (Nat × Int)} {pd : List (Nat × Frame)} {log : List (Ev V E V)}

theorem do_nested (g : Nat) (p : Int) :
    Flux.step (cfg false) (mk (reader oc oe) cl n vs sp pd log) (.request g 0 p) =
      some (mk (reader oc oe) cl (n + p) vs sp
        ((g, .respLoop 0 (if p < (vs.length : Int) then p else vs.length) 0) :: (g, .leaf) :: pd) (.request 0 p :: .asked 0 p :: log)) := by
  simp [Flux.step, request, mk, doRequest, emit, setSub, cfg, callRequest, push]
  rfl

end

/-- A return when there is but one goroutine. -/
theorem ret_only {c : Cfg V E V} {h : Handlers} {cl : Bool} {n : Int} {vs : List V} {sp : List (Nat × Int)} {g' : Nat} {f : Frame}
    {F : List Frame} {log : List (Ev V E V)} {s' : State V E V}
    (hs : Flux.step c (mk h cl n vs sp (fr 0 (f :: F) []) log) (.ret g') = some s') :
    proceed c 0 f (mk h cl n vs sp (fr 0 F []) log) = some s' := by
  rcases ret_cases (Or.inl rfl) hs with ⟨rfl, h⟩ | ⟨h, -⟩
  · exact h
  · cases h

theorem start_none {c : Cfg V E V} {h : Handlers} {cl : Bool} {n : Int} {vs : List V} {g j : Nat} {pd : List (Nat × Frame)}
    {log : List (Ev V E V)} : Flux.step c (mk h cl n vs [] pd log) (.start g j) = none := by
  simp [Flux.step, mk, start]

/-- The same page again and again; `k` values were seen in `m` steps. -/
inductive Again (r : Reader V) (h : Handlers) (xs : List V) : State V E V → Nat → Nat → Prop
  | ask {log F j m} (hl : Hist r log (around (xs.take r.page) (r.page * j)) [] [] true) (hm : m ≤ 2 * (r.page * j) + j) :
      Again r h xs (mk h false 0 xs [] (fr 0 (.leaf :: F) []) log) m (r.page * j)
  | loop {log F j k m} (hk : k < r.page) (hl : Hist r log (around (xs.take r.page) (r.page * j + k)) [] [] false)
      (hm : m ≤ 2 * (r.page * j + k) + j + 1) :
      Again r h xs (mk h false ((r.page : Int) - k) xs [] (fr 0 (.respLoop 0 r.page k :: F) []) log) m (r.page * j + k)
  | next {log F j k m} (hk : k < r.page) (hl : Hist r log (around (xs.take r.page) (r.page * j + (k + 1))) [] [] false)
      (hm : m ≤ 2 * (r.page * j + (k + 1)) + j) :
      Again r h xs (mk h false ((r.page : Int) - (k + 1 : Nat)) xs [] (fr 0 (.afterNext 0 :: .respLoop 0 r.page (k + 1 : Nat) :: F) []) log) m
        (r.page * j + (k + 1))

theorem around_clean {l : List V} {stop : V → Bool} (h : ∀ v ∈ l, stop v = false) : ∀ k, (around l k).any stop = false
  | 0 => rfl
  | k + 1 => by
    rw [around, List.any_append, around_clean h k, Bool.false_or]
    cases hv : l[k % l.length]? with
    | none => rfl
    | some v =>
      have := h v (List.mem_of_getElem? hv)
      simp [this]

theorem around_next {xs : List V} {p j k : Nat} {v : V} (hp : p ≤ xs.length) (hk : k < p) (hv : xs[k]? = some v) :
    around (xs.take p) (p * j + (k + 1)) = around (xs.take p) (p * j + k) ++ [v] := by
  rw [← Nat.add_assoc, around]
  congr 1
  have hl : (xs.take p).length = p := by simp; omega
  rw [hl, Nat.mul_add_mod, Nat.mod_eq_of_lt hk, List.getElem?_take_of_lt hk, hv]
  rfl

theorem again_step {r : Reader V} {oc oe : Bool} {xs : List V} (hle : r.page ≤ xs.length)
    (hst : ∀ v ∈ xs.take r.page, r.stop v = false) {s s' : State V E V} {m k : Nat} (h : Again r (reader oc oe) xs s m k) {a : Action V E}
    (ht : Pager.step r (cfg false) s a = some s') (hp : 0 < r.page) : ∃ k', Again r (reader oc oe) xs s' (m + 1) k' := by
  obtain ⟨ha, hs⟩ := step_eq ht
  clear ht
  cases h with
  | ask hl hm =>
    rename_i log F j
    rcases acts_asking hl.ask ha with ⟨rfl, hf⟩ | ⟨rfl, hf⟩ | ⟨g', hg, rfl⟩ | ⟨g', i, rfl⟩
    · rw [do_nested] at hs
      cases hs
      have he : (if (r.page : Int) < (xs.length : Int) then (r.page : Int) else xs.length) = r.page := by split <;> omega
      rw [he, Int.zero_add]
      have := Again.loop (r := r) (h := reader oc oe) (xs := xs) (F := .leaf :: .leaf :: F) (j := j) (k := 0) (m := m + 1)
        (log := .request 0 r.page :: .asked 0 r.page :: log) hp
        ((hl.quiet (e := .asked 0 r.page) rfl rfl rfl rfl).quiet rfl rfl rfl rfl) (by omega)
      rw [show (r.page : Int) - ((0 : Nat) : Int) = r.page by omega] at this
      exact ⟨_, this⟩
    · rw [hl.flag, around_clean hst] at hf
      cases hf
    · rcases ret_cases (Or.inl rfl) hs with ⟨rfl, _⟩ | ⟨h, -⟩
      · exact absurd rfl hg
      · cases h
    · rw [start_none] at hs
      cases hs
  | loop hk hl hm =>
    rename_i log F j k
    rcases acts_quiet (by exact hl.ask) ha with ⟨g', rfl⟩ | ⟨g', i, rfl⟩
    · obtain ⟨v, hv⟩ : ∃ v, xs[k]? = some v := ⟨xs[k]'(by omega), List.getElem?_eq_getElem (by omega)⟩
      have hs := ret_only hs
      rw [do_next false (k := (k : Int)) (v := v) (by omega) (by simpa using hv)] at hs
      cases hs
      have := Again.next (r := r) (h := reader oc oe) (xs := xs) (F := F) (j := j) (k := k) (m := m + 1)
        (log := .onNext 0 v :: .called 0 (.next v) :: log) hk (by rw [around_next hle hk hv]; exact hl.next v) (by omega)
      rw [show (r.page : Int) - (k + 1 : Nat) = (r.page : Int) - k - 1 by omega] at this
      exact ⟨_, this⟩
    · rw [start_none] at hs
      cases hs
  | next hk hl hm =>
    rename_i log F j k
    rcases acts_quiet (by exact hl.ask) ha with ⟨g', rfl⟩ | ⟨g', i, rfl⟩
    · have hs := ret_only hs
      by_cases hq : k + 1 = r.page
      · rw [show (r.page : Int) - (k + 1 : Nat) = 0 by omega, do_ask] at hs
        cases hs
        have he : r.page * j + (k + 1) = r.page * (j + 1) := by rw [hq, Nat.mul_add, Nat.mul_one]
        rw [he] at hl hm
        exact ⟨_, .ask (F := .respLoop 0 r.page (k + 1 : Nat) :: F) (j := j + 1) hl.request (by omega)⟩
      · rw [do_after false _ (by omega)] at hs
        cases hs
        exact ⟨_, .loop (by omega) hl (by omega)⟩
    · rw [start_none] at hs
      cases hs

theorem again_goes {r : Reader V} {oc oe : Bool} {xs : List V} (hle : r.page ≤ xs.length)
    (hst : ∀ v ∈ xs.take r.page, r.stop v = false) {s : State V E V} {m k : Nat} (h : Again r (reader oc oe) xs s m k) :
    ∃ a s', Pager.step r (cfg false) s a = some s' := by
  cases h with
  | ask hl hm =>
    refine ⟨.request 0 0 r.page, ?_⟩
    unfold Pager.step
    rw [if_pos (by simp [acts, inRequest, mk, fr, hl.ask, hl.flag, around_clean hst]), do_nested]
    exact ⟨_, rfl⟩
  | loop hk hl hm =>
    rename_i log F j k
    obtain ⟨v, hv⟩ : ∃ v, xs[k]? = some v := ⟨xs[k]'(by omega), List.getElem?_eq_getElem (by omega)⟩
    exact ⟨_, _, ret_go hl.ask (do_next false (k := (k : Int)) (v := v) (by omega) (by simpa using hv) 0)⟩
  | next hk hl hm =>
    rename_i log F j k
    by_cases hq : k + 1 = r.page
    · rw [show (r.page : Int) - (k + 1 : Nat) = 0 by omega]
      exact ⟨_, _, ret_go hl.ask (do_ask false 0)⟩
    · exact ⟨_, _, ret_go hl.ask (do_after false 0 (by omega))⟩

theorem again_run {r : Reader V} (hp : 0 < r.page) {oc oe : Bool} {xs : List V} (hle : r.page ≤ xs.length)
    (hst : ∀ v ∈ xs.take r.page, r.stop v = false) : ∀ {as : List (Action V E)} {s s' : State V E V} {m k : Nat},
    Again r (reader oc oe) xs s m k → Pager.run r (cfg false) s as = some s' → ∃ k', Again r (reader oc oe) xs s' (m + as.length) k'
  | [], s, s', m, k, h, hr => by cases hr; exact ⟨k, h⟩
  | a :: as, s, s', m, k, h, hr => by
    unfold Pager.run at hr
    split at hr
    · cases hr
    · rename_i t ht
      obtain ⟨k1, h1⟩ := again_step hle hst h ht hp
      obtain ⟨k2, h2⟩ := again_run hp hle hst h1 hr
      refine ⟨k2, ?_⟩
      rw [List.length_cons, show m + (as.length + 1) = m + 1 + as.length by omega]
      exact h2

theorem begin_again {r : Reader V} (oc oe : Bool) (xs : List V) :
    Again r (reader oc oe) xs (begin false oc oe xs : State V E V) 0 (r.page * 0) := by
  have : (begin false oc oe xs : State V E V) = mk (reader oc oe) false 0 xs [] (fr 0 [.leaf] []) [.onRequest 0, .subscribed 0] := by
    simp [begin, subscribe, cfg, handleOnSubscribe, reader, push, emit, addSub, init, mk, fr]
  rw [this]
  exact .ask (F := []) (j := 0) ⟨rfl, rfl, rfl, rfl⟩ (by omega)

/-- **C169 is false for longer lists**: in WebAssembly `Request` calls the source at once, before `SliceResponse` has dropped the page it
just sent. For every list with at least a page, without a value the reader stops at in it, and every run: the subscriber is sent
the first page over and over; it is never told of an end, `Subscribe` never returns, and the calls go on without end. -/
theorem pages_again_refuted (r : Reader V) (hp : 0 < r.page) (oc oe : Bool) (xs : List V) (hle : r.page ≤ xs.length)
    (hst : ∀ v ∈ xs.take r.page, r.stop v = false) (as : List (Action V E)) (s : State V E V)
    (hr : Pager.run r (cfg false) (begin false oc oe xs) as = some s) :
    (∃ k, seen 0 s.log = (around (xs.take r.page) k).map .next ∧ as.length ≤ 3 * k + 1) ∧ fins 0 s.log = [] ∧ s.pending ≠ [] ∧
      ∃ a s', Pager.step r (cfg false) s a = some s' := by
  obtain ⟨k, h⟩ := again_run hp hle hst (begin_again oc oe xs) hr
  rw [Nat.zero_add] at h
  have hj : ∀ j, j ≤ r.page * j := fun j => Nat.le_mul_of_pos_left j hp
  refine ⟨?_, ?_, ?_, again_goes hle hst h⟩
  · cases h with
    | ask hl hm =>
      rename_i log F j
      exact ⟨r.page * j, hl.seen.trans (List.append_nil _), by have := hj j; omega⟩
    | loop hk hl hm =>
      rename_i log F j k
      exact ⟨r.page * j + k, hl.seen.trans (List.append_nil _), by have := hj j; omega⟩
    | next hk hl hm =>
      rename_i log F j k
      exact ⟨r.page * j + (k + 1), hl.seen.trans (List.append_nil _), by have := hj j; omega⟩
  · cases h with
    | ask hl hm => exact hl.fins
    | loop hk hl hm => exact hl.fins
    | next hk hl hm => exact hl.fins
  · cases h <;> exact List.cons_ne_nil _ _

/-- Less than a page. -/
inductive Short (r : Reader V) (h : Handlers) (xs : List V) : State V E V → Nat → Prop
  | first {log w} (hl : Hist r log [] [] [] true) (hw : 2 * xs.length + 6 ≤ w) : Short r h xs (mk h false 0 xs [] (fr 0 [.leaf] []) log) w
  | loop {log k w} (hk : k ≤ xs.length) (hl : Hist r log (xs.take k) [] [] false) (hw : 2 * (xs.length - k) + 5 ≤ w) :
      Short r h xs (mk h false ((r.page : Int) - k) xs [] (fr 0 [.respLoop 0 xs.length k, .leaf, .leaf] []) log) w
  | next {log k w} (hk : k < xs.length) (hl : Hist r log (xs.take (k + 1)) [] [] false) (hw : 2 * (xs.length - (k + 1)) + 6 ≤ w) :
      Short r h xs (mk h false ((r.page : Int) - (k + 1 : Nat)) xs []
        (fr 0 [.afterNext 0, .respLoop 0 xs.length (k + 1 : Nat), .leaf, .leaf] []) log) w
  | sig {log n w} (ho : h.onComplete = true) (hl : Hist r log xs [.complete] [] false) (hw : 4 ≤ w) :
      Short r h xs (mk h true n [] [] (fr 0 [.afterSig 0 .complete, .leaf, .leaf] []) log) w
  | fin {log n w} (hl : Hist r log xs (told h .complete) [.complete] false) (hw : 3 ≤ w) :
      Short r h xs (mk h true n [] [] (fr 0 [.afterFin 0 .complete, .leaf, .leaf] []) log) w
  | over {log n L w} (hL : L = [] ∨ L = [Frame.leaf] ∨ L = [Frame.leaf, Frame.leaf])
      (hl : Hist r log xs (told h .complete) [.complete] false) (hw : L.length ≤ w) : Short r h xs (mk h true n [] [] (fr 0 L []) log) w

theorem short_step {r : Reader V} {oc oe : Bool} {xs : List V} (hlt : xs.length < r.page) {s s' : State V E V} {w : Nat}
    (h : Short r (reader oc oe) xs s w) {a : Action V E} (ht : Pager.step r (cfg false) s a = some s') :
    ∃ w', w' < w ∧ Short r (reader oc oe) xs s' w' := by
  obtain ⟨ha, hs⟩ := step_eq ht
  clear ht
  cases h with
  | first hl hw =>
    rename_i log
    rcases acts_asking hl.ask ha with ⟨rfl, hf⟩ | ⟨rfl, hf⟩ | ⟨g', hg, rfl⟩ | ⟨g', i, rfl⟩
    · rw [do_nested] at hs
      cases hs
      have he : (if (r.page : Int) < (xs.length : Int) then (r.page : Int) else xs.length) = xs.length := by split <;> omega
      rw [he, Int.zero_add]
      have := Short.loop (r := r) (h := reader oc oe) (xs := xs) (k := 0) (w := w - 1)
        (log := .request 0 r.page :: .asked 0 r.page :: log) (by omega)
        (by simpa using (hl.quiet (e := .asked 0 r.page) rfl rfl rfl rfl).quiet rfl rfl rfl rfl) (by omega)
      rw [show (r.page : Int) - ((0 : Nat) : Int) = r.page by omega] at this
      exact ⟨_, by omega, this⟩
    · rw [hl.flag] at hf
      cases hf
    · rcases ret_cases (Or.inl rfl) hs with ⟨rfl, _⟩ | ⟨h, -⟩
      · exact absurd rfl hg
      · cases h
    · rw [start_none] at hs
      cases hs
  | loop hk hl hw =>
    rename_i log k
    rcases acts_quiet (by exact hl.ask) ha with ⟨g', rfl⟩ | ⟨g', i, rfl⟩
    · have hs := ret_only hs
      rcases Nat.lt_or_ge k xs.length with h1 | h1
      · obtain ⟨v, hv⟩ : ∃ v, xs[k]? = some v := ⟨xs[k]'h1, List.getElem?_eq_getElem h1⟩
        rw [do_next false (k := (k : Int)) (v := v) (by omega) (by simpa using hv)] at hs
        cases hs
        have ht : xs.take (k + 1) = xs.take k ++ [v] := by rw [List.take_add_one, hv]; rfl
        have := Short.next (r := r) (h := reader oc oe) (xs := xs) (k := k) (w := w - 1)
          (log := .onNext 0 v :: .called 0 (.next v) :: log) h1 (by rw [ht]; exact hl.next v) (by omega)
        rw [show (r.page : Int) - (k + 1 : Nat) = (r.page : Int) - k - 1 by omega] at this
        exact ⟨_, by omega, this⟩
      · have hke : k = xs.length := by omega
        rw [hke, do_end false rfl] at hs
        cases hs
        rw [hke, List.take_length] at hl
        have h2 := hl.quiet (e := .called 0 .complete) rfl rfl rfl rfl
        cases oc with
        | true => exact ⟨w - 1, by omega, .sig rfl h2.complete (by omega)⟩
        | false => exact ⟨w - 1, by omega, .fin (h2.fin .complete) (by omega)⟩
    · rw [start_none] at hs
      cases hs
  | next hk hl hw =>
    rename_i log k
    rcases acts_quiet (by exact hl.ask) ha with ⟨g', rfl⟩ | ⟨g', i, rfl⟩
    · have hs := ret_only hs
      rw [do_after false _ (by omega)] at hs
      cases hs
      exact ⟨w - 1, by omega, .loop (by omega) hl (by omega)⟩
    · rw [start_none] at hs
      cases hs
  | sig ho hl hw =>
    rcases acts_quiet (by exact hl.ask) ha with ⟨g', rfl⟩ | ⟨g', i, rfl⟩
    · have hs := ret_only hs
      rw [do_sig] at hs
      cases hs
      refine ⟨w - 1, by omega, .fin ?_ (by omega)⟩
      have : (told (reader oc oe) .complete : List (Seen E V)) = [.complete] := by
        simp only [told, ho, if_true]
      rw [this]
      exact hl.fin .complete
    · rw [start_none] at hs
      cases hs
  | fin hl hw =>
    rcases acts_quiet (by exact hl.ask) ha with ⟨g', rfl⟩ | ⟨g', i, rfl⟩
    · have hs := ret_only hs
      rw [do_fin] at hs
      cases hs
      exact ⟨w - 1, by omega, .over (L := [.leaf, .leaf]) (Or.inr (Or.inr rfl)) (hl.quiet rfl rfl rfl rfl) (by simp; omega)⟩
    · rw [start_none] at hs
      cases hs
  | over hL hl hw =>
    rcases acts_quiet (by exact hl.ask) ha with ⟨g', rfl⟩ | ⟨g', i, rfl⟩
    · rcases hL with rfl | rfl | rfl
      · simp [Flux.step, mk, resume, fr, pop] at hs
      · have hs := ret_only hs
        cases hs
        exact ⟨w - 1, by simp at hw; omega, .over (L := []) (Or.inl rfl) hl (by simp)⟩
      · have hs := ret_only hs
        cases hs
        exact ⟨w - 1, by simp at hw; omega, .over (L := [.leaf]) (Or.inr (Or.inl rfl)) hl (by simp at hw ⊢; omega)⟩
    · rw [start_none] at hs
      cases hs

theorem short_goes {r : Reader V} {oc oe : Bool} {xs : List V} (hlt : xs.length < r.page) {s : State V E V} {w : Nat}
    (h : Short r (reader oc oe) xs s w) : s.pending = [] ∨ ∃ a s', Pager.step r (cfg false) s a = some s' := by
  cases h with
  | first hl hw =>
    refine Or.inr ⟨.request 0 0 r.page, ?_⟩
    unfold Pager.step
    rw [if_pos (by simp [acts, inRequest, mk, fr, hl.ask, hl.flag]), do_nested]
    exact ⟨_, rfl⟩
  | loop hk hl hw =>
    rename_i log k
    rcases Nat.lt_or_ge k xs.length with h1 | h1
    · obtain ⟨v, hv⟩ : ∃ v, xs[k]? = some v := ⟨xs[k]'h1, List.getElem?_eq_getElem h1⟩
      exact Or.inr ⟨_, _, ret_go hl.ask (do_next false (k := (k : Int)) (v := v) (by omega) (by simpa using hv) 0)⟩
    · rw [show k = xs.length by omega]
      exact Or.inr ⟨_, _, ret_go hl.ask (do_end false rfl 0)⟩
  | next hk hl hw => exact Or.inr ⟨_, _, ret_go hl.ask (do_after false 0 (by omega))⟩
  | sig ho hl hw => exact Or.inr ⟨_, _, ret_go hl.ask (do_sig false 0)⟩
  | fin hl hw => exact Or.inr ⟨_, _, ret_go hl.ask (do_fin false 0)⟩
  | over hL hl hw =>
    rcases hL with rfl | rfl | rfl
    · exact Or.inl rfl
    · exact Or.inr ⟨_, _, ret_go hl.ask (do_leaf false 0)⟩
    · exact Or.inr ⟨_, _, ret_go hl.ask (do_leaf false 0)⟩

theorem short_run {r : Reader V} {oc oe : Bool} {xs : List V} (hlt : xs.length < r.page) :
    ∀ {as : List (Action V E)} {s s' : State V E V} {w : Nat},
    Short r (reader oc oe) xs s w → Pager.run r (cfg false) s as = some s' → ∃ w', w' + as.length ≤ w ∧ Short r (reader oc oe) xs s' w'
  | [], s, s', w, h, hr => by cases hr; exact ⟨w, by simp, h⟩
  | a :: as, s, s', w, h, hr => by
    unfold Pager.run at hr
    split at hr
    · cases hr
    · rename_i t ht
      obtain ⟨w1, h1, h2⟩ := short_step hlt h ht
      obtain ⟨w2, h3, h4⟩ := short_run hlt h2 hr
      exact ⟨w2, by simp only [List.length_cons]; omega, h4⟩

/-- **C169**, part of the claim: in WebAssembly a list that is shorter than a page is read to its end. In every run something can
happen until all calls have returned, after at most `2 * n + 6` steps, and then the subscriber has seen all of the list, and its
finalizer was called once. Missing: longer lists, for which this is false. -/
theorem short_read_partial (r : Reader V) (oc oe : Bool) (xs : List V) (hlt : xs.length < r.page) (as : List (Action V E)) (s : State V E V)
    (hr : Pager.run r (cfg false) (begin false oc oe xs) as = some s) :
    as.length ≤ 2 * xs.length + 6 ∧ (s.pending = [] ∨ ∃ a s', Pager.step r (cfg false) s a = some s') ∧
      (s.pending = [] → Reads r.page r.stop xs xs .complete ∧ fins 0 s.log = [.complete] ∧
        seen 0 s.log = xs.map .next ++ if oc then [.complete] else []) := by
  have hb : (begin false oc oe xs : State V E V) = mk (reader oc oe) false 0 xs [] (fr 0 [.leaf] []) [.onRequest 0, .subscribed 0] := by
    simp [begin, subscribe, cfg, handleOnSubscribe, reader, push, emit, addSub, init, mk, fr]
  have h0 : Short r (reader oc oe) xs (begin false oc oe xs : State V E V) (2 * xs.length + 6) := by
    rw [hb]
    exact .first ⟨rfl, rfl, rfl, rfl⟩ (Nat.le_refl _)
  obtain ⟨w, h1, h2⟩ := short_run hlt h0 hr
  refine ⟨by omega, short_goes hlt h2, fun he => ⟨.ends hlt, ?_⟩⟩
  cases h2 with
  | over hL hl hw =>
    refine ⟨hl.fins, ?_⟩
    have := hl.seen
    rw [show (told (reader oc oe) .complete : List (Seen E V)) = if oc then [.complete] else [] from rfl] at this
    exact this
  | _ => cases he

/-- In WebAssembly, less than a page. -/
example : (Pager.run (E := String) ⟨4, fun n => decide (n < 10)⟩ (cfg false) (begin false true true [30, 20, 1])
    [.request 0 0 4, .ret 0, .ret 0, .ret 0, .ret 0, .ret 0, .ret 0, .ret 0, .ret 0, .ret 0, .ret 0, .ret 0]).map
      (fun s => (seen 0 s.log, fins 0 s.log, s.pending.length)) =
    some ([.next 30, .next 20, .next 1, .complete], [.complete], 0) := by decide

/-- Two numbers at a time, until there is one below ten. -/
def two : Reader Nat := ⟨2, fun n => decide (n < 10)⟩

/-- On a host: the second page has a small number and is the last one read. -/
example : (Pager.run (E := String) two (cfg true) (begin true true true [30, 20, 11, 5, 3, 2])
    [.request 0 0 2, .start 1 0, .ret 1, .ret 0, .ret 1, .ret 1, .ret 1, .request 1 0 2, .ret 1, .ret 1, .ret 1,
     .start 2 0, .ret 2, .ret 2, .ret 2, .ret 2, .signal 2 0 .cancel, .ret 2, .ret 2, .ret 2, .ret 2]).map
      (fun s => (seen 0 s.log, fins 0 s.log, s.pending.length, s.spawned.length)) =
    some ([.next 30, .next 20, .next 11, .next 5], [.cancel], 0, 0) := by decide

/-- On a host: all of the list, which ends with a page. -/
example : (Pager.run (E := String) two (cfg true) (begin true true true [30, 20])
    [.request 0 0 2, .ret 0, .start 1 0, .ret 1, .ret 1, .ret 1, .ret 1, .request 1 0 2, .ret 1, .ret 1, .ret 1, .ret 1, .ret 1,
     .start 0 0, .ret 0, .ret 0]).map
      (fun s => (seen 0 s.log, fins 0 s.log, s.pending.length, s.spawned.length)) =
    some ([.next 30, .next 20, .complete], [.complete], 0, 0) := by decide

/-- In WebAssembly: the first page once more. -/
example : (Pager.run (E := String) two (cfg false) (begin false true true [30, 20, 11])
    [.request 0 0 2, .ret 0, .ret 0, .ret 0, .ret 0, .request 0 0 2, .ret 0, .ret 0, .ret 0, .ret 0, .request 0 0 2, .ret 0]).map
      (fun s => (seen 0 s.log, fins 0 s.log, s.pending.length)) =
    some ([.next 30, .next 20, .next 30, .next 20, .next 30], [], 10) := by decide

/-- A list in order of frequency is read until it has a rare word. -/
example : Reads 2 two.stop [30, 20, 11, 5, 3, 2] [30, 20, 11, 5] .cancel :=
  .more (xs := [30, 20, 11, 5, 3, 2]) (by decide) (by decide) (.stops (by decide) (by decide))

end Iota.Props.Pager
