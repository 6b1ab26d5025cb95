import Verif.Model.SlicePager
import Verif.Props.Pager

/-!
# A slice read page by page: what the subscriber sees
-/

namespace Iota.Props.SlicePager
open Iota.Flux Iota.Pager Iota.SlicePager Iota.Spec.Flux Iota.Spec.Pager Iota.Props.Pager

variable {V E : Type}

/-- Where the program can be, on a host. -/
inductive Phase (r : Reader V) (h : Handlers) (xs : List V) : State V E V → Nat → Prop
  | first {log w} (hl : Hist r log [] [] [] true) (hw : 10 * xs.length + 23 ≤ w) : Phase r h xs (mk h false 0 xs [] [(0, .leaf)] log) w
  | wait {log w done rest B} (hB : B = [] ∨ ∃ b, B = [(b, .leaf)]) (hc : Cont r xs done rest) (hl : Hist r log done [] [] false)
      (hw : 10 * rest.length + 20 + B.length ≤ w) : Phase r h xs (mk h false r.page rest [(0, (r.page : Int))] B log) w
  | loop {log w done rest g B k} (hB : Base g B) (hc : Cont r xs done rest) (hk : k ≤ rest.length) (hp : k < r.page)
      (hl : Hist r log (done ++ rest.take k) [] [] false) (hw : 10 * (rest.length - k) + 19 + B.length ≤ w) :
      Phase r h xs (mk h false ((r.page : Int) - k) (rest.drop k) []
        (fr g [.sliceLoop 0 ((r.page : Int) - k), .unlock 0] B) log) w
  | next {log w done rest g B k} (hB : Base g B) (hc : Cont r xs done rest) (hk : k < rest.length) (hp : k < r.page)
      (hl : Hist r log (done ++ rest.take (k + 1)) [] [] false) (hw : 10 * (rest.length - (k + 1)) + 28 + B.length ≤ w) :
      Phase r h xs (mk h false ((r.page : Int) - (k + 1 : Nat)) (rest.drop (k + 1)) []
        (fr g [.afterNext 0, .sliceLoop 0 ((r.page : Int) - (k + 1 : Nat)), .unlock 0] B) log) w
  | ask {log w done rest g B} (hB : Base g B) (hc : Cont r xs done rest) (hk : r.page ≤ rest.length)
      (hl : Hist r log (done ++ rest.take r.page) [] [] true) (hw : 10 * (rest.length - r.page) + 27 + B.length ≤ w) :
      Phase r h xs (mk h false 0 (rest.drop r.page) [] (fr g [.leaf, .sliceLoop 0 0, .unlock 0] B) log) w
  | asked {log w done rest g B L} (hB : Base g B) (hc : Cont r xs done rest) (hk : r.page ≤ rest.length)
      (hs : ∀ v ∈ rest.take r.page, r.stop v = false) (hL : L = [] ∨ L = [Frame.leaf])
      (hl : Hist r log (done ++ rest.take r.page) [] [] false) (hw : 10 * (rest.length - r.page) + 25 + L.length + B.length ≤ w) :
      Phase r h xs (mk h false r.page (rest.drop r.page) [(0, (r.page : Int))] (fr g (L ++ [.sliceLoop 0 0, .unlock 0]) B) log) w
  | turn {log w done rest g B} (hB : Base g B) (hc : Cont r xs done rest) (hl : Hist r log done [] [] false)
      (hw : 10 * rest.length + 21 + B.length ≤ w) :
      Phase r h xs (mk h false r.page rest [(0, (r.page : Int))] (fr g [.unlock 0] B) log) w
  | left {log w vals rest g B L} (hB : Base g B) (hr : Reads r.page r.stop xs vals .cancel)
      (hL : L = [] ∨ L = [Frame.leaf] ∨ L = [Frame.leaf, Frame.leaf])
      (hl : Hist r log vals [] [.cancel] false) (hw : 2 + L.length + B.length ≤ w) :
      Phase r h xs (mk h true 0 rest [] (fr g (L ++ [.sliceLoop 0 0, .unlock 0]) B) log) w
  | sig {log w vals g B S n} (hB : Base g B) (hr : Reads r.page r.stop xs vals .complete) (ho : h.onComplete = true)
      (hS : S = [] ∨ S = [(0, (r.page : Int))]) (hl : Hist r log vals [.complete] [] false) (hw : 3 + 4 * S.length + B.length ≤ w) :
      Phase r h xs (mk h true n [] S (fr g [.afterSig 0 .complete, .unlock 0] B) log) w
  | fin {log w vals g B S n} (hB : Base g B) (hr : Reads r.page r.stop xs vals .complete)
      (hS : S = [] ∨ S = [(0, (r.page : Int))]) (hl : Hist r log vals (told h .complete) [.complete] false)
      (hw : 2 + 4 * S.length + B.length ≤ w) :
      Phase r h xs (mk h true n [] S (fr g [.afterFin 0 .complete, .unlock 0] B) log) w
  | over {log w vals sg rest g B S F n} (hB : B = [] ∨ ∃ b, B = [(b, .leaf)]) (hg : F ≠ [] → Base g B) (hr : Reads r.page r.stop xs vals sg)
      (hF : F = [] ∨ F = [Frame.unlock 0] ∨ F = [Frame.sliceLoop 0 r.page, .unlock 0] ∧ rest = [] ∧ S = [])
      (hS : S = [] ∨ S = [(0, (r.page : Int))] ∧ rest = []) (hl : Hist r log vals (told h sg) [sg] false)
      (hw : F.length + 4 * S.length + B.length ≤ w) :
      Phase r h xs (mk h true n rest S (fr g F B) log) w
theorem drop_at {l : List V} {k : Nat} {v : V} (h : l[k]? = some v) : l.drop k = v :: l.drop (k + 1) := by
  obtain ⟨hk, rfl⟩ := List.getElem?_eq_some_iff.mp h
  exact List.drop_eq_getElem_cons hk

section
variable {oc oe cl : Bool} {n : Int} {vs : List V} {sp : List (Nat × Int)} {pd : List (Nat × Frame)} {log : List (Ev V E V)}

theorem do_next (host : Bool) {m : Int} {v : V} (hm : 0 < m) (g : Nat) :
    proceed (src host) g (.sliceLoop 0 m) (mk (reader oc oe) false n (v :: vs) sp pd log) =
      some (mk (reader oc oe) false (n - 1) vs sp ((g, .afterNext 0) :: (g, .sliceLoop 0 (m - 1)) :: pd)
        (.onNext 0 v :: .called 0 (.next v) :: log)) := by
  simp [proceed, sliceRound, hm, mk, tell, callNext, src, reader, push, emit, setSub]

theorem do_after (host : Bool) (g : Nat) (hn : n ≠ 0) :
    proceed (src host) g (.afterNext 0) (mk (reader oc oe) false n vs sp pd log) = some (mk (reader oc oe) false n vs sp pd log) := by
  simp [proceed, endNext, mk, hn]

theorem do_ask (host : Bool) (g : Nat) :
    proceed (src host) g (.afterNext 0) (mk (reader oc oe) false 0 vs sp pd log) =
      some (mk (reader oc oe) false 0 vs sp ((g, .leaf) :: pd) (.onRequest 0 :: log)) := by
  simp [proceed, endNext, mk, handleOnSubscribe, reader, push, emit]

/-- The loop is over and something is left. -/
theorem do_turn (host : Bool) {v : V} (g : Nat) :
    proceed (src host) g (.sliceLoop 0 0) (mk (reader oc oe) cl n (v :: vs) sp pd log) =
      some (mk (reader oc oe) cl n (v :: vs) sp pd log) := by
  simp [proceed, sliceRound, mk]

/-- Nothing is left. -/
theorem do_end (host : Bool) {m : Int} (g : Nat) :
    proceed (src host) g (.sliceLoop 0 m) (mk (reader oc oe) cl n [] sp pd log) =
      some (if cl then mk (reader oc oe) cl n [] sp pd (.called 0 .complete :: log)
        else if oc then mk (reader oc oe) true n [] sp ((g, .afterSig 0 .complete) :: pd) (.onComplete 0 :: .called 0 .complete :: log)
        else mk (reader oc oe) true n [] sp ((g, .afterFin 0 .complete) :: pd) (.fin 0 .complete :: .called 0 .complete :: log)) := by
  cases cl <;> cases oc <;> simp [proceed, sliceRound, mk, tell, reader, push, emit, setSub, runFinally]

theorem do_sig (host : Bool) (g : Nat) :
    proceed (src host) g (.afterSig 0 .complete) (mk (reader oc oe) cl n vs sp pd log) =
      some (mk (reader oc oe) cl n vs sp ((g, .afterFin 0 .complete) :: pd) (.fin 0 .complete :: log)) := by
  simp [proceed, mk, reader, push, emit, setSub, runFinally]

theorem do_fin (host : Bool) (g : Nat) :
    proceed (src host) g (.afterFin 0 .complete) (mk (reader oc oe) cl n vs sp pd log) =
      some (mk (reader oc oe) cl n vs sp pd (.done 0 .complete :: log)) := by
  simp [proceed, mk, startLoop, emit, runLoop]

theorem do_leaf (host : Bool) (g : Nat) :
    proceed (src host) g .leaf (mk (reader oc oe) cl n vs sp pd log) = some (mk (reader oc oe) cl n vs sp pd log) := rfl

theorem do_unlock (host : Bool) (g : Nat) :
    proceed (src host) g (.unlock 0) (mk (reader oc oe) cl n vs sp pd log) = some (mk (reader oc oe) cl n vs sp pd log) := rfl

theorem do_cancel (host : Bool) (g : Nat) :
    Flux.step (src host) (mk (reader oc oe) cl n vs sp pd log) (.signal g 0 .cancel) =
      some (mk (reader oc oe) true n vs sp ((g, .leaf) :: pd) (.fin 0 .cancel :: .called 0 .cancel :: log)) := by
  simp [Flux.step, Call.isCancel, signal, mk, tell, reader, push, emit, setSub]

theorem do_request (g : Nat) (p : Int) :
    Flux.step (src true) (mk (reader oc oe) cl n vs sp pd log) (.request g 0 p) =
      some (mk (reader oc oe) cl (n + p) vs (sp ++ [(0, p)]) pd (.asked 0 p :: log)) := by
  simp [Flux.step, request, mk, doRequest, emit, setSub, src]

end

/-- The waiting goroutine starts. -/
theorem start_free {c : Cfg V E V} (hc : c.src = .slice) {h : Handlers} {cl : Bool} {n p : Int} {vs : List V} {g j : Nat} {B : List (Nat × Frame)}
    (hB : B = [] ∨ ∃ b, B = [(b, Frame.leaf)]) {log : List (Ev V E V)} {s' : State V E V}
    (hs : Flux.step c (mk h cl n vs [(0, p)] B log) (.start g j) = some s') :
    Base g B ∧ s' = mk h cl n vs [] (fr g [.sliceLoop 0 p, .unlock 0] B) (.request 0 p :: log) := by
  have hs' : start c g j (mk h cl n vs [(0, p)] B log) = some s' := by
    simpa [Flux.step, mk] using hs
  unfold start at hs'
  cases j with
  | succ j => simp [mk] at hs'
  | zero =>
    rcases hB with rfl | ⟨b, rfl⟩
    · refine ⟨Or.inl rfl, ?_⟩
      simp [mk, pop, callRequest, hc, push, emit] at hs'
      exact hs'.symm
    · by_cases hb : b = g
      · simp [mk, pop, hb] at hs'
      · refine ⟨Or.inr ⟨b, hb, rfl⟩, ?_⟩
        simp [mk, pop, hb, callRequest, hc, push, emit] at hs'
        exact hs'.symm

/-- Every step leads from one phase to another, and there is a bound on how many there can be. -/
theorem phase_step {r : Reader V} (hp : 0 < r.page) {oc oe : Bool} {xs : List V} {s s' : State V E V} {w : Nat}
    (h : Phase r (reader oc oe) xs s w) {a : Action V E} (ht : Pager.step r (src true) s a = some s') :
    ∃ w', w' < w ∧ Phase r (reader oc oe) xs s' w' := by
  obtain ⟨ha, hs⟩ := step_eq ht
  clear ht
  cases h with
  | first hl hw =>
    rename_i log
    rcases acts_asking hl.ask ha with ⟨rfl, hf⟩ | ⟨rfl, hf⟩ | ⟨g', hg, rfl⟩ | ⟨g', j, rfl⟩
    · rw [do_request] at hs
      cases hs
      refine ⟨w - 1, by omega, ?_⟩
      rw [Int.zero_add]
      refine .wait (Or.inr ⟨0, rfl⟩) (done := []) ⟨fun got sig h => h, by simp⟩ (hl.quiet rfl rfl rfl rfl) ?_
      simp only [List.length_cons, List.length_nil]
      omega
    · rw [hl.flag] at hf
      cases hf
    · have : pop g' [((0 : Nat), Frame.leaf)] = none := by simp [pop, Ne.symm hg]
      simp [Flux.step, mk, resume, this] at hs
    · simp [Flux.step, mk, start] at hs
  | wait hB hc hl hw =>
    rename_i log done rest B
    rcases acts_quiet (by exact hl.ask) ha with ⟨g, rfl⟩ | ⟨g, j, rfl⟩
    · have hs' : resume (src true) g (mk (reader oc oe) false r.page rest [(0, (r.page : Int))] B log) = some s' := by
        simpa [Flux.step, mk] using hs
      unfold resume at hs'
      cases hb : pop g B with
      | none => rw [show (mk (reader oc oe) false r.page rest [(0, (r.page : Int))] B log).pending = B from rfl, hb] at hs'; cases hs'
      | some x =>
        obtain ⟨f, p⟩ := x
        obtain ⟨h1, h2, h3⟩ := pop_base hB hb
        rw [show (mk (reader oc oe) false r.page rest [(0, (r.page : Int))] B log).pending = B from rfl, hb] at hs'
        subst h1 h2 h3
        simp only [proceed, Option.some.injEq] at hs'
        subst hs'
        exact ⟨w - 1, by simp at hw; omega, .wait (rest := rest) (B := []) (Or.inl rfl) hc hl (by simp at hw ⊢; omega)⟩
    · obtain ⟨h1, rfl⟩ := start_free rfl hB hs
      refine ⟨w - 1, by omega, ?_⟩
      have := Phase.loop (r := r) (h := reader oc oe) (xs := xs) (w := w - 1) (k := 0) (log := .request 0 r.page :: log) h1 hc (by omega) hp
        (by simpa using hl.quiet rfl rfl rfl rfl) (by omega)
      simpa using this
  | loop hB hc hk hpk hl hw =>
    rename_i log done rest g B k
    rcases acts_quiet (by exact hl.ask) ha with ⟨g', rfl⟩ | ⟨g', j, rfl⟩
    · rcases ret_cases hB hs with ⟨rfl, hs⟩ | ⟨hb, rfl⟩
      · rcases Nat.lt_or_ge k rest.length with hlt | hge
        · obtain ⟨v, hv⟩ : ∃ v, rest[k]? = some v := ⟨rest[k], List.getElem?_eq_getElem hlt⟩
          rw [drop_at hv, do_next true (by omega)] at hs
          cases hs
          refine ⟨w - 1, by omega, ?_⟩
          have ht : done ++ rest.take (k + 1) = done ++ rest.take k ++ [v] := by
            rw [List.take_add_one, hv]; simp
          have := Phase.next (r := r) (h := reader oc oe) (xs := xs) (w := w - 1) (g := g') (k := k)
            (log := .onNext 0 v :: .called 0 (.next v) :: log) hB hc hlt hpk (by rw [ht]; exact hl.next v) (by omega)
          rw [show (r.page : Int) - (k + 1 : Nat) = (r.page : Int) - k - 1 by omega] at this
          exact this
        · have hke : k = rest.length := by omega
          rw [show rest.drop k = [] by simp [hke], do_end true] at hs
          cases hs
          refine ⟨w - 1, by omega, ?_⟩
          have hr : Reads r.page r.stop xs (done ++ rest) .complete := hc.reads _ _ (.ends (by omega))
          rw [hke, List.take_length] at hl
          have h2 := hl.quiet (e := .called 0 .complete) rfl rfl rfl rfl
          cases oc with
          | true =>
            exact .sig (n := _) (S := []) hB hr rfl (Or.inl rfl) h2.complete (by simp; omega)
          | false =>
            exact .fin (S := []) hB hr (Or.inl rfl) (h2.fin .complete) (by simp; omega)
      · exact ⟨w - 1, by omega, .loop (Or.inl rfl) hc hk hpk hl (by simp; omega)⟩
    · rw [start_locked (p := 0) (Or.inl rfl) (by simp)] at hs
      cases hs
  | next hB hc hk hpk hl hw =>
    rename_i log done rest g B k
    rcases acts_quiet (by exact hl.ask) ha with ⟨g', rfl⟩ | ⟨g', j, rfl⟩
    · rcases ret_cases hB hs with ⟨rfl, hs⟩ | ⟨hb, rfl⟩
      · by_cases hq : k + 1 = r.page
        · rw [show (r.page : Int) - (k + 1 : Nat) = 0 by omega, do_ask] at hs
          cases hs
          refine ⟨w - 1, by omega, ?_⟩
          rw [hq]
          exact .ask hB hc (by omega) (by rw [← hq]; exact hl.request) (by omega)
        · rw [do_after true _ (by omega)] at hs
          cases hs
          exact ⟨w - 1, by omega, .loop hB hc (by omega) (by omega) hl (by omega)⟩
      · exact ⟨w - 1, by omega, .next (Or.inl rfl) hc hk hpk hl (by simp; omega)⟩
    · rw [start_locked (p := 0) (Or.inl rfl) (by simp)] at hs
      cases hs
  | ask hB hc hk hl hw =>
    rename_i log done rest g B
    rcases acts_asking hl.ask ha with ⟨rfl, hf⟩ | ⟨rfl, hf⟩ | ⟨g', hg, rfl⟩ | ⟨g', j, rfl⟩
    · rw [do_request] at hs
      cases hs
      refine ⟨w - 1, by omega, ?_⟩
      rw [Int.zero_add]
      rw [hl.flag] at hf
      refine .asked (L := [.leaf]) hB hc hk (fun v hv => ?_) (Or.inr rfl) (hl.quiet rfl rfl rfl rfl) (by simp; omega)
      have := List.any_eq_false.mp hf v (List.mem_append_right _ hv)
      simpa using this
    · rw [do_cancel] at hs
      cases hs
      refine ⟨w - 1, by omega, ?_⟩
      rw [hl.flag, List.any_append] at hf
      have hd : done.any r.stop = false := List.any_eq_false.mpr fun v hv => by simp [hc.clean v hv]
      rw [hd, Bool.false_or, List.any_eq_true] at hf
      exact .left (L := [.leaf, .leaf]) hB (hc.reads _ _ (.stops hk hf)) (Or.inr (Or.inr rfl))
        ((hl.quiet (e := .called 0 .cancel) rfl rfl rfl rfl).fin .cancel) (by simp; omega)
    · rcases ret_cases hB hs with ⟨rfl, _⟩ | ⟨hb, rfl⟩
      · exact absurd rfl hg
      · exact ⟨w - 1, by omega, .ask (Or.inl rfl) hc hk hl (by simp; omega)⟩
    · rw [start_locked (p := 0) (Or.inl rfl) (by simp)] at hs
      cases hs
  | asked hB hc hk hst hL hl hw =>
    rename_i log done rest g B L
    rcases acts_quiet (by exact hl.ask) ha with ⟨g', rfl⟩ | ⟨g', j, rfl⟩
    · rcases hL with rfl | rfl
      · rcases ret_cases hB hs with ⟨rfl, hs⟩ | ⟨hb, rfl⟩
        · rcases Nat.lt_or_ge r.page rest.length with hlt | hge
          · obtain ⟨v, vs, hv⟩ : ∃ v vs, rest.drop r.page = v :: vs :=
              List.exists_cons_of_ne_nil (by rw [ne_eq, List.drop_eq_nil_iff]; omega)
            have hc' := hc.page hk hst
            have hlen : (rest.drop r.page).length = rest.length - r.page := List.length_drop
            rw [hv] at hs hc' hlen
            rw [do_turn true] at hs
            cases hs
            exact ⟨w - 1, by omega, .turn hB hc' hl (by rw [hlen]; simp at hw; omega)⟩
          · have he : r.page = rest.length := by omega
            rw [show rest.drop r.page = [] by simp [he], do_end true] at hs
            cases hs
            refine ⟨w - 1, by omega, ?_⟩
            have hc' := hc.page hk hst
            rw [he, List.take_length, List.drop_length] at hc'
            have hr : Reads r.page r.stop xs (done ++ rest) .complete := by
              have := hc'.reads [] .complete (.ends (by simpa using hp))
              simpa using this
            rw [he, List.take_length] at hl
            have h2 := hl.quiet (e := .called 0 .complete) rfl rfl rfl rfl
            cases oc with
            | true => exact .sig hB hr rfl (Or.inr rfl) h2.complete (by simp at hw ⊢; omega)
            | false => exact .fin hB hr (Or.inr rfl) (h2.fin .complete) (by simp at hw ⊢; omega)
        · exact ⟨w - 1, by omega, .asked (L := []) (Or.inl rfl) hc hk hst (Or.inl rfl) hl (by simp at hw ⊢; omega)⟩
      · rcases ret_cases hB hs with ⟨rfl, hs⟩ | ⟨hb, rfl⟩
        · cases hs
          exact ⟨w - 1, by omega, .asked (L := []) hB hc hk hst (Or.inl rfl) hl (by simp at hw ⊢; omega)⟩
        · exact ⟨w - 1, by omega, .asked (L := [.leaf]) (Or.inl rfl) hc hk hst (Or.inr rfl) hl (by simp at hw ⊢; omega)⟩
    · rw [start_locked (Or.inr rfl) (by simp)] at hs
      cases hs
  | turn hB hc hl hw =>
    rename_i log done rest g B
    rcases acts_quiet (by exact hl.ask) ha with ⟨g', rfl⟩ | ⟨g', j, rfl⟩
    · rcases ret_cases hB hs with ⟨rfl, hs⟩ | ⟨hb, rfl⟩
      · cases hs
        exact ⟨w - 1, by omega, .wait (B := B) hB.weak hc hl (by omega)⟩
      · exact ⟨w - 1, by omega, .turn (Or.inl rfl) hc hl (by simp; omega)⟩
    · rw [start_locked (Or.inr rfl) (by simp)] at hs
      cases hs
  | left hB hr hL hl hw =>
    rename_i log vals rest g B L
    rcases acts_quiet (by exact hl.ask) ha with ⟨g', rfl⟩ | ⟨g', j, rfl⟩
    · rcases hL with rfl | rfl | rfl
      · rcases ret_cases hB hs with ⟨rfl, hs⟩ | ⟨hb, rfl⟩
        · cases rest with
          | cons v vs =>
            rw [do_turn true] at hs
            cases hs
            exact ⟨w - 1, by omega, .over (F := [.unlock 0]) (S := []) hB.weak (fun _ => hB) hr (Or.inr (Or.inl rfl)) (Or.inl rfl) hl
              (by simp at hw ⊢; omega)⟩
          | nil =>
            rw [do_end true] at hs
            cases hs
            exact ⟨w - 1, by omega, .over (F := [.unlock 0]) (S := []) hB.weak (fun _ => hB) hr (Or.inr (Or.inl rfl)) (Or.inl rfl)
              (hl.quiet rfl rfl rfl rfl) (by simp at hw ⊢; omega)⟩
        · exact ⟨w - 1, by omega, .left (L := []) (Or.inl rfl) hr (Or.inl rfl) hl (by simp at hw ⊢; omega)⟩
      · rcases ret_cases hB hs with ⟨rfl, hs⟩ | ⟨hb, rfl⟩
        · cases hs
          exact ⟨w - 1, by omega, .left (L := []) hB hr (Or.inl rfl) hl (by simp at hw ⊢; omega)⟩
        · exact ⟨w - 1, by omega, .left (L := [.leaf]) (Or.inl rfl) hr (Or.inr (Or.inl rfl)) hl (by simp at hw ⊢; omega)⟩
      · rcases ret_cases hB hs with ⟨rfl, hs⟩ | ⟨hb, rfl⟩
        · cases hs
          exact ⟨w - 1, by omega, .left (L := [.leaf]) hB hr (Or.inr (Or.inl rfl)) hl (by simp at hw ⊢; omega)⟩
        · exact ⟨w - 1, by omega, .left (L := [.leaf, .leaf]) (Or.inl rfl) hr (Or.inr (Or.inr rfl)) hl (by simp at hw ⊢; omega)⟩
    · rw [start_locked (p := 0) (Or.inl rfl) (by simp)] at hs
      cases hs
  | sig hB hr ho hS hl hw =>
    rename_i log vals g B S n
    rcases acts_quiet (by exact hl.ask) ha with ⟨g', rfl⟩ | ⟨g', j, rfl⟩
    · rcases ret_cases hB hs with ⟨rfl, hs⟩ | ⟨hb, rfl⟩
      · rw [do_sig] at hs
        cases hs
        refine ⟨w - 1, by omega, .fin hB hr hS ?_ (by omega)⟩
        have : (told (reader oc oe) .complete : List (Seen E V)) = [.complete] := by
          simp only [told, ho, if_true]
        rw [this]
        exact hl.fin .complete
      · exact ⟨w - 1, by omega, .sig (Or.inl rfl) hr ho hS hl (by simp; omega)⟩
    · rw [start_locked hS (by simp)] at hs
      cases hs
  | fin hB hr hS hl hw =>
    rename_i log vals g B S n
    rcases acts_quiet (by exact hl.ask) ha with ⟨g', rfl⟩ | ⟨g', j, rfl⟩
    · rcases ret_cases hB hs with ⟨rfl, hs⟩ | ⟨hb, rfl⟩
      · rw [do_fin] at hs
        cases hs
        exact ⟨w - 1, by omega, .over (F := [.unlock 0]) hB.weak (fun _ => hB) hr (Or.inr (Or.inl rfl)) (hS.imp id fun h => ⟨h, rfl⟩)
          (hl.quiet rfl rfl rfl rfl) (by simp; omega)⟩
      · exact ⟨w - 1, by omega, .fin (Or.inl rfl) hr hS hl (by simp; omega)⟩
    · rw [start_locked hS (by simp)] at hs
      cases hs
  | over hB hg hr hF hS hl hw =>
    rename_i log vals sg rest g B S F n
    rcases acts_quiet (by exact hl.ask) ha with ⟨g', rfl⟩ | ⟨g', j, rfl⟩
    · rcases hF with rfl | rfl | ⟨rfl, rfl, rfl⟩
      · have hs' : resume (src true) g' (mk (reader oc oe) true n rest S B log) = some s' := by
          simpa [Flux.step, mk, fr] using hs
        unfold resume at hs'
        rw [show (mk (reader oc oe) true n rest S B log).pending = B from rfl] at hs'
        cases hb : pop g' B with
        | none => rw [hb] at hs'; cases hs'
        | some x =>
          obtain ⟨f, p⟩ := x
          obtain ⟨h1, h2, h3⟩ := pop_base hB hb
          rw [hb] at hs'
          subst h1 h2 h3
          simp only [proceed, Option.some.injEq] at hs'
          subst hs'
          exact ⟨w - 1, by simp at hw; omega, .over (F := []) (S := S) (B := []) (rest := rest) (g := g) (Or.inl rfl) (fun h => absurd rfl h) hr (Or.inl rfl) hS hl
            (by simp at hw ⊢; omega)⟩
      · rcases ret_cases (hg (by simp)) hs with ⟨rfl, hs⟩ | ⟨hb, rfl⟩
        · cases hs
          exact ⟨w - 1, by simp at hw; omega, .over (F := []) hB (fun h => absurd rfl h) hr (Or.inl rfl) hS hl (by simp at hw ⊢; omega)⟩
        · exact ⟨w - 1, by simp at hw; omega, .over (F := [.unlock 0]) (Or.inl rfl) (fun _ => Or.inl rfl) hr (Or.inr (Or.inl rfl)) hS hl
            (by simp at hw ⊢; omega)⟩
      · rcases ret_cases (hg (by simp)) hs with ⟨rfl, hs⟩ | ⟨hb, rfl⟩
        · rw [do_end true] at hs
          cases hs
          exact ⟨w - 1, by simp at hw; omega, .over (F := [.unlock 0]) (S := []) hB (fun _ => hg (by simp)) hr (Or.inr (Or.inl rfl)) (Or.inl rfl)
            (hl.quiet rfl rfl rfl rfl) (by simp at hw ⊢; omega)⟩
        · exact ⟨w - 1, by simp at hw; omega, .over (F := [.sliceLoop 0 r.page, .unlock 0]) (S := []) (Or.inl rfl) (fun _ => Or.inl rfl) hr
            (Or.inr (Or.inr ⟨rfl, rfl, rfl⟩)) (Or.inl rfl) hl (by simp at hw ⊢; omega)⟩
    · rcases hF with rfl | rfl | ⟨rfl, rfl, rfl⟩
      · rcases hS with rfl | ⟨rfl, rfl⟩
        · simp [Flux.step, mk, start] at hs
        · have hs2 : Flux.step (src true) (mk (reader oc oe) true n [] [(0, (r.page : Int))] B log) (.start g' j) = some s' := hs
          obtain ⟨h1, rfl⟩ := start_free rfl hB hs2
          exact ⟨w - 1, by simp at hw; omega, .over (F := [.sliceLoop 0 r.page, .unlock 0]) (S := []) h1.weak (fun _ => h1) hr
            (Or.inr (Or.inr ⟨rfl, rfl, rfl⟩)) (Or.inl rfl) (hl.quiet rfl rfl rfl rfl) (by simp at hw ⊢; omega)⟩
      · rw [start_locked (hS.imp id And.left) (by simp)] at hs
        cases hs
      · rw [start_locked (p := 0) (Or.inl rfl) (by simp)] at hs
        cases hs

theorem start_go {r : Reader V} {c : Cfg V E V} (hc : c.src = .slice) {h : Handlers} {cl : Bool} {n p : Int} {vs : List V}
    {log : List (Ev V E V)} : ∃ s', Pager.step r c (mk h cl n vs [(0, p)] [] log) (.start 0 0) = some s' := by
  simp [Pager.step, acts, Flux.step, mk, start, pop, callRequest, hc]

/-- As long as something is in progress, something can happen. -/
theorem phase_goes {r : Reader V} {oc oe : Bool} {xs : List V} {s : State V E V} {w : Nat} (h : Phase r (reader oc oe) xs s w) :
    (s.pending = [] ∧ s.spawned = []) ∨ ∃ a s', Pager.step r (src true) s a = some s' := by
  cases h with
  | first hl hw =>
    refine Or.inr ⟨.request 0 0 r.page, ?_⟩
    unfold Pager.step
    rw [if_pos (by simp [acts, inRequest, mk, hl.ask, hl.flag]), do_request]
    exact ⟨_, rfl⟩
  | wait hB hc hl hw =>
    rcases hB with rfl | ⟨b, rfl⟩
    · obtain ⟨s', hs⟩ := start_go (r := r) (c := src true) rfl (h := reader oc oe) (cl := false) (n := r.page) (p := r.page)
      exact Or.inr ⟨_, s', hs⟩
    · exact Or.inr ⟨.ret b, _, ret_go (F := []) (B := []) hl.ask rfl⟩
  | loop hB hc hk hpk hl hw =>
    rename_i log done rest g B k
    rcases Nat.lt_or_ge k rest.length with hlt | hge
    · obtain ⟨v, hv⟩ : ∃ v, rest[k]? = some v := ⟨rest[k], List.getElem?_eq_getElem hlt⟩
      rw [drop_at hv]
      exact Or.inr ⟨_, _, ret_go hl.ask (do_next true (by omega) g)⟩
    · rw [show rest.drop k = [] by simp; omega]
      exact Or.inr ⟨_, _, ret_go hl.ask (do_end true g)⟩
  | next hB hc hk hpk hl hw =>
    rename_i log done rest g B k
    by_cases hq : k + 1 = r.page
    · rw [show (r.page : Int) - (k + 1 : Nat) = 0 by omega]
      exact Or.inr ⟨_, _, ret_go hl.ask (do_ask true g)⟩
    · exact Or.inr ⟨_, _, ret_go hl.ask (do_after true g (by omega))⟩
  | ask hB hc hk hl hw =>
    rename_i log done rest g B
    right
    cases hf : flagged r log with
    | false =>
      refine ⟨.request g 0 r.page, ?_⟩
      unfold Pager.step
      rw [if_pos (by simp [acts, inRequest, mk, fr, hl.ask, hf]), do_request]
      exact ⟨_, rfl⟩
    | true =>
      refine ⟨.signal g 0 .cancel, ?_⟩
      unfold Pager.step
      rw [if_pos (by simp [acts, inRequest, mk, fr, hl.ask, hf]), do_cancel]
      exact ⟨_, rfl⟩
  | asked hB hc hk hst hL hl hw =>
    rename_i log done rest g B L
    right
    rcases hL with rfl | rfl
    · cases rest.drop r.page with
      | nil => exact ⟨_, _, ret_go hl.ask (do_end true g)⟩
      | cons v vs => exact ⟨_, _, ret_go hl.ask (do_turn true g)⟩
    · exact ⟨_, _, ret_go hl.ask (do_leaf true g)⟩
  | turn hB hc hl hw => exact Or.inr ⟨_, _, ret_go hl.ask (do_unlock true _)⟩
  | left hB hr hL hl hw =>
    rename_i log vals rest g B L
    right
    rcases hL with rfl | rfl | rfl
    · cases rest with
      | nil => exact ⟨_, _, ret_go hl.ask (do_end true g)⟩
      | cons v vs => exact ⟨_, _, ret_go hl.ask (do_turn true g)⟩
    · exact ⟨_, _, ret_go hl.ask (do_leaf true g)⟩
    · exact ⟨_, _, ret_go hl.ask (do_leaf true g)⟩
  | sig hB hr ho hS hl hw => exact Or.inr ⟨_, _, ret_go hl.ask (do_sig true _)⟩
  | fin hB hr hS hl hw => exact Or.inr ⟨_, _, ret_go hl.ask (do_fin true _)⟩
  | over hB hg hr hF hS hl hw =>
    rename_i log vals sg rest g B S F n
    rcases hF with rfl | rfl | ⟨rfl, rfl, rfl⟩
    · rcases hB with rfl | ⟨b, rfl⟩
      · rcases hS with rfl | ⟨rfl, rfl⟩
        · exact Or.inl ⟨rfl, rfl⟩
        · obtain ⟨s', hs⟩ := start_go (r := r) (c := src true) rfl (h := reader oc oe) (cl := true) (n := n) (p := r.page) (vs := []) (log := log)
          exact Or.inr ⟨_, s', hs⟩
      · exact Or.inr ⟨.ret b, _, ret_go (F := []) (B := []) hl.ask rfl⟩
    · exact Or.inr ⟨_, _, ret_go hl.ask (do_unlock true _)⟩
    · exact Or.inr ⟨_, _, ret_go hl.ask (do_end true g)⟩

theorem begin_phase {r : Reader V} (oc oe : Bool) (xs : List V) :
    Phase r (reader oc oe) xs (SlicePager.begin true oc oe xs : State V E V) (10 * xs.length + 23) := by
  have : (SlicePager.begin true oc oe xs : State V E V) = mk (reader oc oe) false 0 xs [] [(0, .leaf)] [.onRequest 0, .subscribed 0] := by
    simp [SlicePager.begin, subscribe, src, handleOnSubscribe, reader, push, emit, addSub, init, mk]
  rw [this]
  exact .first ⟨rfl, rfl, rfl, rfl⟩ (Nat.le_refl _)

theorem phase_run {r : Reader V} (hp : 0 < r.page) {oc oe : Bool} {xs : List V} : ∀ {as : List (Action V E)} {s s' : State V E V} {w : Nat},
    Phase r (reader oc oe) xs s w → Pager.run r (src true) s as = some s' → ∃ w', w' + as.length ≤ w ∧ Phase r (reader oc oe) xs s' w'
  | [], s, s', w, h, hr => by cases hr; exact ⟨w, by simp, h⟩
  | a :: as, s, s', w, h, hr => by
    unfold Pager.run at hr
    split at hr
    · cases hr
    · rename_i t ht
      obtain ⟨w1, h1, h2⟩ := phase_step hp h ht
      obtain ⟨w2, h3, h4⟩ := phase_run hp h2 hr
      exact ⟨w2, by simp only [List.length_cons]; omega, h4⟩

/-- In every phase: what was seen is a part of what will be, and the finalizer was called at most once. -/
theorem phase_sees {r : Reader V} (hp : 0 < r.page) {oc oe : Bool} {xs : List V} {s : State V E V} {w : Nat} (h : Phase r (reader oc oe) xs s w) :
    s.crashed = false ∧ ∃ got sig, Reads r.page r.stop xs got sig ∧ values (seen 0 s.log) <+: got ∧
      (fins 0 s.log = [] ∨ fins 0 s.log = [sig] ∧ seen 0 s.log = got.map .next ++ told (reader oc oe) sig) ∧
      (s.pending = [] → s.spawned = [] → fins 0 s.log = [sig]) := by
  have part : ∀ {log : List (Ev V E V)} {done rest : List V} {k : Nat} {q : Bool}, Cont r xs done rest → k ≤ r.page →
      Hist r log (done ++ rest.take k) [] [] q → ∃ got sig, Reads r.page r.stop xs got sig ∧ values (seen 0 log) <+: got ∧ fins 0 log = [] := by
    intro log done rest k q hc hk hl
    obtain ⟨got, sig, hr⟩ := reads_total hp r.stop _ rest (Nat.le_refl _)
    refine ⟨done ++ got, sig, hc.reads _ _ hr, ?_, hl.fins⟩
    rw [hl.seen, values_next, show values ([] : List (Seen E V)) = [] from rfl, List.append_nil]
    exact (List.prefix_append_right_inj _).mpr (reads_page hr hk)
  refine ⟨by cases h <;> rfl, ?_⟩
  cases h with
  | first hl hw =>
    obtain ⟨got, sig, h1, h2, h3⟩ := part (done := []) (rest := xs) (k := 0) ⟨fun _ _ h => h, by simp⟩ (by omega) (by simpa using hl)
    exact ⟨got, sig, h1, h2, Or.inl h3, fun h => nomatch h⟩
  | wait hB hc hl hw =>
    obtain ⟨got, sig, h1, h2, h3⟩ := part (k := 0) hc (by omega) (by simpa using hl)
    exact ⟨got, sig, h1, h2, Or.inl h3, fun _ h => nomatch h⟩
  | loop hB hc hk hpk hl hw =>
    obtain ⟨got, sig, h1, h2, h3⟩ := part hc (by omega) hl
    exact ⟨got, sig, h1, h2, Or.inl h3, fun h => nomatch h⟩
  | next hB hc hk hpk hl hw =>
    obtain ⟨got, sig, h1, h2, h3⟩ := part hc (by omega) hl
    exact ⟨got, sig, h1, h2, Or.inl h3, fun h => nomatch h⟩
  | ask hB hc hk hl hw =>
    obtain ⟨got, sig, h1, h2, h3⟩ := part hc (by omega) hl
    exact ⟨got, sig, h1, h2, Or.inl h3, fun h => nomatch h⟩
  | asked hB hc hk hst hL hl hw =>
    obtain ⟨got, sig, h1, h2, h3⟩ := part hc (by omega) hl
    exact ⟨got, sig, h1, h2, Or.inl h3, fun _ h => nomatch h⟩
  | turn hB hc hl hw =>
    obtain ⟨got, sig, h1, h2, h3⟩ := part (k := 0) hc (by omega) (by simpa using hl)
    exact ⟨got, sig, h1, h2, Or.inl h3, fun h => nomatch h⟩
  | left hB hr hL hl hw =>
    refine ⟨_, _, hr, ?_, Or.inr ⟨hl.fins, hl.seen⟩, fun _ _ => hl.fins⟩
    rw [show (seen 0 (mk (E := E) _ _ _ _ _ _ _).log) = _ from hl.seen, values_next]
    exact pre_nil _
  | sig hB hr ho hS hl hw =>
    refine ⟨_, _, hr, ?_, Or.inl hl.fins, fun h => nomatch h⟩
    rw [show (seen 0 (mk (E := E) _ _ _ _ _ _ _).log) = _ from hl.seen, values_next]
    exact pre_nil _
  | fin hB hr hS hl hw =>
    refine ⟨_, _, hr, ?_, Or.inr ⟨hl.fins, hl.seen⟩, fun _ _ => hl.fins⟩
    rw [show (seen 0 (mk (E := E) _ _ _ _ _ _ _).log) = _ from hl.seen, values_next, values_told]
    exact pre_nil _
  | over hB hg hr hF hS hl hw =>
    refine ⟨_, _, hr, ?_, Or.inr ⟨hl.fins, hl.seen⟩, fun _ _ => hl.fins⟩
    rw [show (seen 0 (mk (E := E) _ _ _ _ _ _ _).log) = _ from hl.seen, values_next, values_told]
    exact pre_nil _

/-! ## In WebAssembly -/

section
variable {oc oe cl : Bool} {n : Int} {vs : List V} {sp : List (Nat × Int)} {pd : List (Nat × Frame)} {log : List (Ev V E V)}

theorem do_nested (g : Nat) (p : Int) :
    Flux.step (src false) (mk (reader oc oe) cl n vs sp pd log) (.request g 0 p) =
      some (mk (reader oc oe) cl (n + p) vs sp ((g, .sliceLoop 0 p) :: (g, .leaf) :: pd) (.request 0 p :: .asked 0 p :: log)) := by
  simp [Flux.step, request, mk, doRequest, emit, setSub, src, callRequest, push]

end

/-- Calls in which nothing is left to be sent. -/
def Idle (T : List Frame) : Prop := ∀ f ∈ T, f = .leaf ∨ f = .sliceLoop 0 0

theorem Idle.cons {T : List Frame} (h : Idle T) {f : Frame} (hf : f = .leaf ∨ f = .sliceLoop 0 0) : Idle (f :: T) := by
  intro x hx
  rcases List.mem_cons.mp hx with rfl | hx
  · exact hf
  · exact h x hx

theorem Idle.tail {T : List Frame} {f : Frame} (h : Idle (f :: T)) : Idle T := fun x hx => h x (List.mem_cons_of_mem _ hx)

/-- Where the program can be, in WebAssembly: one page is sent within the call that asks for it. -/
inductive Nest (r : Reader V) (h : Handlers) (xs : List V) : State V E V → Nat → Prop
  | ask {log w done rest T} (hT : Idle T) (hq : done = [] ∧ rest = xs ∨ ∃ d p, done = d ++ p.take r.page ∧ rest = p.drop r.page ∧
      r.page ≤ p.length ∧ Cont r xs d p) (hl : Hist r log done [] [] true) (hw : 6 * rest.length + 9 + T.length ≤ w) :
      Nest r h xs (mk h false 0 rest [] (fr 0 (.leaf :: T) []) log) w
  | loop {log w done rest T k} (hT : Idle T) (hc : Cont r xs done rest) (hk : k ≤ rest.length) (hp : k < r.page)
      (hl : Hist r log (done ++ rest.take k) [] [] false) (hw : 6 * (rest.length - k) + 6 + T.length ≤ w) :
      Nest r h xs (mk h false ((r.page : Int) - k) (rest.drop k) [] (fr 0 (.sliceLoop 0 ((r.page : Int) - k) :: T) []) log) w
  | next {log w done rest T k} (hT : Idle T) (hc : Cont r xs done rest) (hk : k < rest.length) (hp : k < r.page)
      (hl : Hist r log (done ++ rest.take (k + 1)) [] [] false) (hw : 6 * (rest.length - (k + 1)) + 11 + T.length ≤ w) :
      Nest r h xs (mk h false ((r.page : Int) - (k + 1 : Nat)) (rest.drop (k + 1)) []
        (fr 0 (.afterNext 0 :: .sliceLoop 0 ((r.page : Int) - (k + 1 : Nat)) :: T) []) log) w
  | sig {log w vals T n} (hT : Idle T) (hr : Reads r.page r.stop xs vals .complete) (ho : h.onComplete = true)
      (hl : Hist r log vals [.complete] [] false) (hw : 2 + T.length ≤ w) :
      Nest r h xs (mk h true n [] [] (fr 0 (.afterSig 0 .complete :: T) []) log) w
  | fin {log w vals T n} (hT : Idle T) (hr : Reads r.page r.stop xs vals .complete)
      (hl : Hist r log vals (told h .complete) [.complete] false) (hw : 1 + T.length ≤ w) :
      Nest r h xs (mk h true n [] [] (fr 0 (.afterFin 0 .complete :: T) []) log) w
  | over {log w vals sg rest T n} (hT : Idle T) (hr : Reads r.page r.stop xs vals sg)
      (hl : Hist r log vals (told h sg) [sg] false) (hw : T.length ≤ w) :
      Nest r h xs (mk h true n rest [] (fr 0 T []) log) w

theorem nest_step {r : Reader V} (hp : 0 < r.page) {oc oe : Bool} {xs : List V} {s s' : State V E V} {w : Nat}
    (h : Nest r (reader oc oe) xs s w) {a : Action V E} (ht : Pager.step r (src false) s a = some s') :
    ∃ w', w' < w ∧ Nest r (reader oc oe) xs s' w' := by
  obtain ⟨ha, hs⟩ := step_eq ht
  clear ht
  cases h with
  | ask hT hq hl hw =>
    rename_i log done rest T
    rcases acts_asking hl.ask ha with ⟨rfl, hf⟩ | ⟨rfl, hf⟩ | ⟨g', hg, rfl⟩ | ⟨g', j, rfl⟩
    · rw [do_nested] at hs
      cases hs
      rw [hl.flag] at hf
      have hc : Cont r xs done rest := by
        rcases hq with ⟨rfl, rfl⟩ | ⟨d, p, rfl, rfl, h1, h2⟩
        · exact ⟨fun got sig h => h, by simp⟩
        · refine h2.page h1 fun v hv => ?_
          have := List.any_eq_false.mp hf v (List.mem_append_right _ hv)
          simpa using this
      have := Nest.loop (r := r) (h := reader oc oe) (xs := xs) (w := w - 1) (k := 0) (T := .leaf :: .leaf :: T)
        (log := .request 0 r.page :: .asked 0 r.page :: log) ((hT.cons (Or.inl rfl)).cons (Or.inl rfl)) hc (by omega) hp
        (by simpa using (hl.quiet (e := .asked 0 r.page) rfl rfl rfl rfl).quiet rfl rfl rfl rfl)
        (by simp only [List.length_cons]; omega)
      rw [show (r.page : Int) - ((0 : Nat) : Int) = r.page by omega] at this
      rw [Int.zero_add]
      exact ⟨w - 1, by omega, this⟩
    · rw [do_cancel] at hs
      cases hs
      rw [hl.flag] at hf
      rcases hq with ⟨rfl, rfl⟩ | ⟨d, p, rfl, rfl, h1, h2⟩
      · cases hf
      · rw [List.any_append] at hf
        have hd : d.any r.stop = false := List.any_eq_false.mpr fun v hv => by simp [h2.clean v hv]
        rw [hd, Bool.false_or, List.any_eq_true] at hf
        exact ⟨w - 1, by omega, .over (T := .leaf :: .leaf :: T) ((hT.cons (Or.inl rfl)).cons (Or.inl rfl)) (h2.reads _ _ (.stops h1 hf))
          ((hl.quiet (e := .called 0 .cancel) rfl rfl rfl rfl).fin .cancel) (by simp only [List.length_cons]; omega)⟩
    · rcases ret_cases (Or.inl rfl) hs with ⟨rfl, _⟩ | ⟨h, -⟩
      · exact absurd rfl hg
      · cases h
    · rw [start_none] at hs
      cases hs
  | loop hT hc hk hpk hl hw =>
    rename_i log done rest T k
    rcases acts_quiet (by exact hl.ask) ha with ⟨g', rfl⟩ | ⟨g', j, rfl⟩
    · have hs := ret_only hs
      rcases Nat.lt_or_ge k rest.length with hlt | hge
      · obtain ⟨v, hv⟩ : ∃ v, rest[k]? = some v := ⟨rest[k], List.getElem?_eq_getElem hlt⟩
        rw [drop_at hv, do_next false (by omega)] at hs
        cases hs
        have ht : done ++ rest.take (k + 1) = done ++ rest.take k ++ [v] := by
          rw [List.take_add_one, hv]; simp
        have := Nest.next (r := r) (h := reader oc oe) (xs := xs) (w := w - 1) (k := k) (T := T)
          (log := .onNext 0 v :: .called 0 (.next v) :: log) hT hc hlt hpk (by rw [ht]; exact hl.next v) (by omega)
        rw [show (r.page : Int) - (k + 1 : Nat) = (r.page : Int) - k - 1 by omega] at this
        exact ⟨w - 1, by omega, this⟩
      · have hke : k = rest.length := by omega
        rw [show rest.drop k = [] by simp [hke], do_end false] at hs
        cases hs
        have hr : Reads r.page r.stop xs (done ++ rest) .complete := hc.reads _ _ (.ends (by omega))
        rw [hke, List.take_length] at hl
        have h2 := hl.quiet (e := .called 0 .complete) rfl rfl rfl rfl
        cases oc with
        | true => exact ⟨w - 1, by omega, .sig (T := T) hT hr rfl h2.complete (by omega)⟩
        | false => exact ⟨w - 1, by omega, .fin (T := T) hT hr (h2.fin .complete) (by omega)⟩
    · rw [start_none] at hs
      cases hs
  | next hT hc hk hpk hl hw =>
    rename_i log done rest T k
    rcases acts_quiet (by exact hl.ask) ha with ⟨g', rfl⟩ | ⟨g', j, rfl⟩
    · have hs := ret_only hs
      by_cases hq : k + 1 = r.page
      · rw [show (r.page : Int) - (k + 1 : Nat) = 0 by omega, do_ask] at hs
        cases hs
        rw [hq] at hl ⊢
        have hlen : (rest.drop r.page).length = rest.length - r.page := List.length_drop
        exact ⟨w - 1, by omega, .ask (T := .sliceLoop 0 0 :: T) (hT.cons (Or.inr rfl)) (Or.inr ⟨done, rest, rfl, rfl, by omega, hc⟩)
          hl.request (by rw [hlen]; simp only [List.length_cons]; omega)⟩
      · rw [do_after false _ (by omega)] at hs
        cases hs
        exact ⟨w - 1, by omega, .loop hT hc (by omega) (by omega) hl (by omega)⟩
    · rw [start_none] at hs
      cases hs
  | sig hT hr ho hl hw =>
    rename_i log vals T n
    rcases acts_quiet (by exact hl.ask) ha with ⟨g', rfl⟩ | ⟨g', j, rfl⟩
    · have hs := ret_only hs
      rw [do_sig] at hs
      cases hs
      refine ⟨w - 1, by omega, .fin (T := T) hT hr ?_ (by omega)⟩
      have : (told (reader oc oe) .complete : List (Seen E V)) = [.complete] := by
        simp only [told, ho, if_true]
      rw [this]
      exact hl.fin .complete
    · rw [start_none] at hs
      cases hs
  | fin hT hr hl hw =>
    rename_i log vals T n
    rcases acts_quiet (by exact hl.ask) ha with ⟨g', rfl⟩ | ⟨g', j, rfl⟩
    · have hs := ret_only hs
      rw [do_fin] at hs
      cases hs
      exact ⟨w - 1, by omega, .over (T := T) hT hr (hl.quiet rfl rfl rfl rfl) (by omega)⟩
    · rw [start_none] at hs
      cases hs
  | over hT hr hl hw =>
    rename_i log vals sg rest T n
    rcases acts_quiet (by exact hl.ask) ha with ⟨g', rfl⟩ | ⟨g', j, rfl⟩
    · cases T with
      | nil => simp [Flux.step, mk, resume, fr, pop] at hs
      | cons f T =>
        simp only [List.length_cons] at hw
        have hs := ret_only hs
        rcases hT f (List.mem_cons_self) with rfl | rfl
        · cases hs
          exact ⟨w - 1, by omega, .over (T := T) hT.tail hr hl (by omega)⟩
        · cases rest with
          | nil =>
            rw [do_end false] at hs
            cases hs
            exact ⟨w - 1, by omega, .over (T := T) hT.tail hr (hl.quiet rfl rfl rfl rfl) (by omega)⟩
          | cons v vs =>
            rw [do_turn false] at hs
            cases hs
            exact ⟨w - 1, by omega, .over (T := T) hT.tail hr hl (by omega)⟩
    · rw [start_none] at hs
      cases hs

theorem nest_goes {r : Reader V} {oc oe : Bool} {xs : List V} {s : State V E V} {w : Nat} (h : Nest r (reader oc oe) xs s w) :
    s.pending = [] ∨ ∃ a s', Pager.step r (src false) s a = some s' := by
  cases h with
  | ask hT hq hl hw =>
    rename_i log done rest T
    right
    cases hf : flagged r log with
    | false =>
      refine ⟨.request 0 0 r.page, ?_⟩
      unfold Pager.step
      rw [if_pos (by simp [acts, inRequest, mk, fr, hl.ask, hf]), do_nested]
      exact ⟨_, rfl⟩
    | true =>
      refine ⟨.signal 0 0 .cancel, ?_⟩
      unfold Pager.step
      rw [if_pos (by simp [acts, inRequest, mk, fr, hl.ask, hf]), do_cancel]
      exact ⟨_, rfl⟩
  | loop hT hc hk hpk hl hw =>
    rename_i log done rest T k
    rcases Nat.lt_or_ge k rest.length with hlt | hge
    · obtain ⟨v, hv⟩ : ∃ v, rest[k]? = some v := ⟨rest[k], List.getElem?_eq_getElem hlt⟩
      rw [drop_at hv]
      exact Or.inr ⟨_, _, ret_go hl.ask (do_next false (by omega) 0)⟩
    · rw [show rest.drop k = [] by simp; omega]
      exact Or.inr ⟨_, _, ret_go hl.ask (do_end false 0)⟩
  | next hT hc hk hpk hl hw =>
    rename_i log done rest T k
    by_cases hq : k + 1 = r.page
    · rw [show (r.page : Int) - (k + 1 : Nat) = 0 by omega]
      exact Or.inr ⟨_, _, ret_go hl.ask (do_ask false 0)⟩
    · exact Or.inr ⟨_, _, ret_go hl.ask (do_after false 0 (by omega))⟩
  | sig hT hr ho hl hw => exact Or.inr ⟨_, _, ret_go hl.ask (do_sig false _)⟩
  | fin hT hr hl hw => exact Or.inr ⟨_, _, ret_go hl.ask (do_fin false _)⟩
  | over hT hr hl hw =>
    rename_i log vals sg rest T n
    cases T with
    | nil => exact Or.inl rfl
    | cons f T =>
      right
      rcases hT f (List.mem_cons_self) with rfl | rfl
      · exact ⟨_, _, ret_go hl.ask (do_leaf false 0)⟩
      · cases rest with
        | nil => exact ⟨_, _, ret_go hl.ask (do_end false 0)⟩
        | cons v vs => exact ⟨_, _, ret_go hl.ask (do_turn false 0)⟩

theorem begin_nest {r : Reader V} (oc oe : Bool) (xs : List V) :
    Nest r (reader oc oe) xs (SlicePager.begin false oc oe xs : State V E V) (6 * xs.length + 9) := by
  have : (SlicePager.begin false oc oe xs : State V E V) =
      mk (reader oc oe) false 0 xs [] (fr 0 [.leaf] []) [.onRequest 0, .subscribed 0] := by
    simp [SlicePager.begin, subscribe, src, handleOnSubscribe, reader, push, emit, addSub, init, mk, fr]
  rw [this]
  exact .ask (T := []) (by simp [Idle]) (Or.inl ⟨rfl, rfl⟩) ⟨rfl, rfl, rfl, rfl⟩ (by simp)

theorem nest_run {r : Reader V} (hp : 0 < r.page) {oc oe : Bool} {xs : List V} : ∀ {as : List (Action V E)} {s s' : State V E V} {w : Nat},
    Nest r (reader oc oe) xs s w → Pager.run r (src false) s as = some s' → ∃ w', w' + as.length ≤ w ∧ Nest r (reader oc oe) xs s' w'
  | [], s, s', w, h, hr => by cases hr; exact ⟨w, by simp, h⟩
  | a :: as, s, s', w, h, hr => by
    unfold Pager.run at hr
    split at hr
    · cases hr
    · rename_i t ht
      obtain ⟨w1, h1, h2⟩ := nest_step hp h ht
      obtain ⟨w2, h3, h4⟩ := nest_run hp h2 hr
      exact ⟨w2, by simp only [List.length_cons]; omega, h4⟩

theorem nest_sees {r : Reader V} (hp : 0 < r.page) {oc oe : Bool} {xs : List V} {s : State V E V} {w : Nat} (h : Nest r (reader oc oe) xs s w) :
    s.crashed = false ∧ s.spawned = [] ∧ ∃ got sig, Reads r.page r.stop xs got sig ∧ values (seen 0 s.log) <+: got ∧
      (fins 0 s.log = [] ∨ fins 0 s.log = [sig] ∧ seen 0 s.log = got.map .next ++ told (reader oc oe) sig) ∧
      (s.pending = [] → fins 0 s.log = [sig]) := by
  have part : ∀ {log : List (Ev V E V)} {done rest : List V} {k : Nat} {q : Bool}, Cont r xs done rest → k ≤ r.page →
      Hist r log (done ++ rest.take k) [] [] q → ∃ got sig, Reads r.page r.stop xs got sig ∧ values (seen 0 log) <+: got ∧ fins 0 log = [] := by
    intro log done rest k q hc hk hl
    obtain ⟨got, sig, hr⟩ := reads_total hp r.stop _ rest (Nat.le_refl _)
    refine ⟨done ++ got, sig, hc.reads _ _ hr, ?_, hl.fins⟩
    rw [hl.seen, values_next, show values ([] : List (Seen E V)) = [] from rfl, List.append_nil]
    exact (List.prefix_append_right_inj _).mpr (reads_page hr hk)
  refine ⟨by cases h <;> rfl, by cases h <;> rfl, ?_⟩
  cases h with
  | ask hT hq hl hw =>
    rcases hq with ⟨rfl, rfl⟩ | ⟨d, p, rfl, rfl, h1, h2⟩
    · obtain ⟨got, sig, h1, h2, h3⟩ := part (done := []) (k := 0) ⟨fun _ _ h => h, by simp⟩ (by omega) (by simpa using hl)
      exact ⟨got, sig, h1, h2, Or.inl h3, fun h => nomatch h⟩
    · obtain ⟨got, sig, h1, h2, h3⟩ := part h2 (Nat.le_refl _) hl
      exact ⟨got, sig, h1, h2, Or.inl h3, fun h => nomatch h⟩
  | loop hT hc hk hpk hl hw =>
    obtain ⟨got, sig, h1, h2, h3⟩ := part hc (by omega) hl
    exact ⟨got, sig, h1, h2, Or.inl h3, fun h => nomatch h⟩
  | next hT hc hk hpk hl hw =>
    obtain ⟨got, sig, h1, h2, h3⟩ := part hc (by omega) hl
    exact ⟨got, sig, h1, h2, Or.inl h3, fun h => nomatch h⟩
  | sig hT hr ho hl hw =>
    refine ⟨_, _, hr, ?_, Or.inl hl.fins, fun h => nomatch h⟩
    rw [show (seen 0 (mk (E := E) _ _ _ _ _ _ _).log) = _ from hl.seen, values_next]
    exact pre_nil _
  | fin hT hr hl hw =>
    refine ⟨_, _, hr, ?_, Or.inr ⟨hl.fins, hl.seen⟩, fun _ => hl.fins⟩
    rw [show (seen 0 (mk (E := E) _ _ _ _ _ _ _).log) = _ from hl.seen, values_next, values_told]
    exact pre_nil _
  | over hT hr hl hw =>
    refine ⟨_, _, hr, ?_, Or.inr ⟨hl.fins, hl.seen⟩, fun _ => hl.fins⟩
    rw [show (seen 0 (mk (E := E) _ _ _ _ _ _ _).log) = _ from hl.seen, values_next, values_told]
    exact pre_nil _

/-! ## Both -/

/-- On a host and in WebAssembly. -/
theorem sees (host : Bool) (r : Reader V) (hp : 0 < r.page) (oc oe : Bool) (xs : List V) (as : List (Action V E)) (s : State V E V)
    (hr : Pager.run r (src host) (SlicePager.begin host oc oe xs) as = some s) :
    s.crashed = false ∧ ∃ got sig, Reads r.page r.stop xs got sig ∧ values (seen 0 s.log) <+: got ∧
      (fins 0 s.log = [] ∨ fins 0 s.log = [sig] ∧ seen 0 s.log = got.map .next ++ told (reader oc oe) sig) ∧
      (s.pending = [] → s.spawned = [] → fins 0 s.log = [sig]) := by
  cases host with
  | true =>
    obtain ⟨w, -, h⟩ := phase_run hp (begin_phase oc oe xs) hr
    exact phase_sees hp h
  | false =>
    obtain ⟨w, -, h⟩ := nest_run hp (begin_nest oc oe xs) hr
    obtain ⟨h1, -, got, sig, h2, h3, h4, h5⟩ := nest_sees hp h
    exact ⟨h1, got, sig, h2, h3, h4, fun h _ => h5 h⟩

/-- **C172** (safety). A subscriber that asks for one page after the other of `FromSlice`, on a host whatever goroutine runs when,
and in WebAssembly, where each page is sent within the call that asks for it: at any time nothing has crashed, it has seen the
values of the list in order and each once, not beyond the page with a value after which it wants no more, and its finalizer was
called at most once. -/
theorem pages_in_order (host : Bool) (r : Reader V) (hp : 0 < r.page) (oc oe : Bool) (xs : List V) (as : List (Action V E)) (s : State V E V)
    (hr : Pager.run r (src host) (SlicePager.begin host oc oe xs) as = some s) :
    s.crashed = false ∧ ∃ got sig, Reads r.page r.stop xs got sig ∧ values (seen 0 s.log) <+: got ∧
      (fins 0 s.log = [] ∨ fins 0 s.log = [sig]) := by
  obtain ⟨h1, got, sig, h2, h3, h4, -⟩ := sees host r hp oc oe xs as s hr
  exact ⟨h1, got, sig, h2, h3, h4.imp id And.left⟩

/-- **C172** (the end). When nothing is left to do the subscriber has seen whole pages up to the first one with such a value, and
was told that it cancelled; or all of the list, and was told that it is complete. The finalizer was called exactly once. It is the
same on a host and in WebAssembly, since what is read of a list is determined (`reads_unique`). -/
theorem pages_read (host : Bool) (r : Reader V) (hp : 0 < r.page) (oc oe : Bool) (xs : List V) (as : List (Action V E)) (s : State V E V)
    (hr : Pager.run r (src host) (SlicePager.begin host oc oe xs) as = some s) (h1 : s.pending = []) (h2 : s.spawned = []) :
    ∃ got sig, Reads r.page r.stop xs got sig ∧ fins 0 s.log = [sig] ∧
      seen 0 s.log = got.map .next ++ if sig = .complete ∧ oc = true then [.complete] else [] := by
  obtain ⟨-, got, sig, h3, -, h4, h5⟩ := sees host r hp oc oe xs as s hr
  have h6 := h5 h1 h2
  rcases h4 with h4 | ⟨-, h4⟩
  · rw [h4] at h6
    cases h6
  · refine ⟨got, sig, h3, h6, ?_⟩
    rw [h4]
    congr 1
    cases sig <;> cases oc <;> rfl

/-- **C172** (liveness). As long as something is left to do something can happen, and after `10 * n + 23` steps for a list of
length `n` nothing is left to do. -/
theorem pages_finish (host : Bool) (r : Reader V) (hp : 0 < r.page) (oc oe : Bool) (xs : List V) (as : List (Action V E)) (s : State V E V)
    (hr : Pager.run r (src host) (SlicePager.begin host oc oe xs) as = some s) :
    as.length ≤ 10 * xs.length + 23 ∧
      ((s.pending = [] ∧ s.spawned = []) ∨ ∃ a s', Pager.step r (src host) s a = some s') := by
  cases host with
  | true =>
    obtain ⟨w, h1, h⟩ := phase_run hp (begin_phase oc oe xs) hr
    exact ⟨by omega, phase_goes h⟩
  | false =>
    obtain ⟨w, h1, h⟩ := nest_run hp (begin_nest oc oe xs) hr
    exact ⟨by omega, (nest_goes h).imp (fun h' => ⟨h', (nest_sees hp h).2.1⟩) id⟩

/-- **C172**, the program: read to the end, two at a time, the subscriber sees all of the list. -/
theorem all_pairs (host : Bool) (xs : List Nat) (as : List (Action Nat E)) (s : State Nat E Nat)
    (hr : Pager.run pairs (src host) (SlicePager.begin host true true xs) as = some s) (h1 : s.pending = []) (h2 : s.spawned = []) :
    seen 0 s.log = xs.map .next ++ [.complete] ∧ fins 0 s.log = [.complete] := by
  have all : ∀ {xs got : List Nat} {sig}, Reads pairs.page pairs.stop xs got sig → got = xs ∧ sig = .complete := by
    intro xs got sig h
    induction h with
    | stops _ hs =>
      obtain ⟨v, -, hv⟩ := hs
      cases hv
    | more _ _ _ ih =>
      obtain ⟨rfl, rfl⟩ := ih
      exact ⟨List.take_append_drop _ _, rfl⟩
    | ends => exact ⟨rfl, rfl⟩
  obtain ⟨got, sig, h3, h4, h5⟩ := pages_read host pairs (by decide) true true xs as s hr h1 h2
  obtain ⟨rfl, rfl⟩ := all h3
  exact ⟨by simpa using h5, h4⟩

/-- On a host: the program. -/
example : (Pager.run (E := String) pairs (src true) (SlicePager.begin true true true [0, 1, 2])
    [.request 0 0 2, .start 1 0, .ret 1, .ret 0, .ret 1, .ret 1, .ret 1, .request 1 0 2, .ret 1, .ret 1, .ret 1,
     .start 0 0, .ret 0, .ret 0, .ret 0, .ret 0, .ret 0, .ret 0]).map
      (fun s => (seen 0 s.log, fins 0 s.log, s.pending.length, s.spawned.length)) =
    some ([.next 0, .next 1, .next 2, .complete], [.complete], 0, 0) := by decide

/-- In WebAssembly: the program. -/
example : (Pager.run (E := String) pairs (src false) (SlicePager.begin false true true [0, 1, 2])
    [.request 0 0 2, .ret 0, .ret 0, .ret 0, .ret 0, .request 0 0 2, .ret 0, .ret 0, .ret 0, .ret 0, .ret 0,
     .ret 0, .ret 0, .ret 0, .ret 0, .ret 0]).map
      (fun s => (seen 0 s.log, fins 0 s.log, s.pending.length, s.spawned.length)) =
    some ([.next 0, .next 1, .next 2, .complete], [.complete], 0, 0) := by decide

/-- In WebAssembly: a page with a small number is the last one read. -/
example : (Pager.run (E := String) two (src false) (SlicePager.begin false true true [30, 5, 3])
    [.request 0 0 2, .ret 0, .ret 0, .ret 0, .ret 0, .signal 0 0 .cancel, .ret 0, .ret 0, .ret 0, .ret 0, .ret 0]).map
      (fun s => (seen 0 s.log, fins 0 s.log, s.pending.length, s.spawned.length)) =
    some ([.next 30, .next 5], [.cancel], 0, 0) := by decide

end Iota.Props.SlicePager
