import Verif.Spec.Maps

/-!
# C171: publishers that are mapped several times
-/

namespace Iota.Props.Maps
open Iota.Maps Iota.Spec.Maps

variable {σ E C S T D : Type}

/-- Two transformations in order. -/
def andThen (a : S → Except E T) (b : T → Except E D) (v : S) : Except E D :=
  match a v with
  | .ok t => b t
  | .error e => .error e

theorem flux_sub_sub (a : S → Except E T) (b : T → Except E D) (sub : FluxSub σ E C D) :
    fluxSub a (fluxSub b sub) = fluxSub (andThen a b) sub := by
  unfold fluxSub
  congr 2
  funext v s
  simp only [fluxNext, andThen]
  cases h : a v with
  | error e => rfl
  | ok t => rfl

theorem mono_sub_sub (a : S → Except E T) (b : T → Except E D) (sub : MonoSub σ E C D) :
    monoSub a (monoSub b sub) = monoSub (andThen a b) sub := by
  unfold monoSub
  congr 2
  funext v s
  simp only [monoSuccess, andThen]
  cases h : a v with
  | error e => rfl
  | ok t => rfl

theorem composed_andThen (a : S → Except E T) (rest : Txs E T D) : composed (.more a rest) = andThen a (composed rest) := by
  funext v
  simp only [composed, andThen]
  cases a v <;> rfl

theorem flux_map_map (f : Flux σ E C S) (a : S → Except E T) (b : T → Except E D) : (f.map a).map b = f.map (andThen a b) := by
  simp only [Flux.map, flux_sub_sub]

theorem mapGet_andThen (a : S → Except E T) (b : T → Except E D) (r : Except E S) : mapGet b (mapGet a r) = mapGet (andThen a b) r := by
  cases r with
  | error e => rfl
  | ok v => simp only [mapGet, andThen]; cases a v <;> rfl

theorem mono_map_map (m : Mono σ E C S) (a : S → Except E T) (b : T → Except E D) : (m.map a).map b = m.map (andThen a b) := by
  simp only [Mono.map, mono_sub_sub, mapGet_andThen]

/-- **C171** For every flux, whatever it does, and any number of transformations: mapping it with one after the other is the
same, in everything that any of its methods does to anybody, as mapping it once with all of them in order. -/
theorem flux_maps {S D : Type} (txs : Txs E S D) : ∀ f : Flux σ E C S, f.maps txs = f.map (composed txs) := by
  induction txs with
  | one tx => intro f; rfl
  | more tx rest ih => intro f; rw [Flux.maps, ih, flux_map_map, composed_andThen]

/-- **C171** The same for monos. -/
theorem mono_maps {S D : Type} (txs : Txs E S D) : ∀ m : Mono σ E C S, m.maps txs = m.map (composed txs) := by
  induction txs with
  | one tx => intro m; rfl
  | more tx rest ih => intro m; rw [Mono.maps, ih, mono_map_map, composed_andThen]

/-- **C171** Mapping with a transformation that changes nothing changes nothing for a subscriber that takes values. -/
theorem flux_map_ok (f : Flux σ E C D) (sub : FluxSub σ E C D) (h : sub.onNext.isSome = true) :
    (f.map .ok).subscribe sub = f.subscribe sub ∧ (f.map .ok).async = f.async ∧ (f.map .ok).notify = f.notify ∧
    (f.map .ok).subscription = f.subscription := by
  obtain ⟨n, hn⟩ := Option.isSome_iff_exists.mp h
  obtain ⟨a, b, c, d, e, g⟩ := sub
  simp only at hn
  subst hn
  exact ⟨rfl, rfl, rfl, rfl⟩

theorem mono_map_ok (m : Mono σ E C D) (sub : MonoSub σ E C D) (h : sub.onSuccess.isSome = true) :
    (m.map .ok).subscribe sub = m.subscribe sub ∧ (m.map .ok).async = m.async ∧ (m.map .ok).notify = m.notify ∧ (m.map .ok).get = m.get := by
  obtain ⟨n, hn⟩ := Option.isSome_iff_exists.mp h
  obtain ⟨a, b, c, d⟩ := sub
  simp only at hn
  subst hn
  refine ⟨rfl, rfl, rfl, ?_⟩
  funext s
  simp only [Mono.map, mapGet]
  cases m.get s <;> rfl

/-- **C171** A value that is there, mapped any number of times: subscribers, `Block` and `Get` are given what the
transformations make of it, or the first error. -/
theorem just_maps {S D : Type} (txs : Txs E S D) (v : S) (sub : MonoSub σ E C D) (s : σ) :
    ((Mono.just v).maps txs).subscribe sub s =
      (match composed txs v with
        | .ok d => fire sub.onSuccess d s
        | .error e => fire sub.onError e s) ∧
    ((Mono.just v : Mono (MVars E D) E C S).maps txs).block = some (composed txs v) ∧
    ((Mono.just v : Mono σ E C S).maps txs).get s = composed txs v := by
  refine ⟨?_, ?_, ?_⟩
  · rw [mono_maps]
    simp only [Mono.map, Mono.just, fire, monoSub, monoSuccess]
    cases composed txs v <;> rfl
  · rw [mono_maps]
    show MVars.result (monoSuccess (composed txs) monoBlockSub v ⟨none, 0⟩) = some (composed txs v)
    unfold monoSuccess
    cases composed txs v <;> rfl
  · rw [mono_maps]; rfl

/-- **C171** An error, mapped any number of times, stays that error. -/
theorem error_maps {S D : Type} (txs : Txs E S D) (e : E) (sub : MonoSub σ E C D) (s : σ) :
    ((Mono.error e).maps txs).subscribe sub s = fire sub.onError e s ∧
    ((Mono.error e : Mono (MVars E D) E C S).maps txs).block = some (.error e) ∧
    ((Mono.error e : Mono σ E C S).maps txs).get s = .error e := by
  refine ⟨?_, ?_, ?_⟩ <;> rw [mono_maps] <;> rfl

/-- **C171** A flux that is an error, mapped any number of times: subscribers are told this error and nothing else, and those who asked to be
notified are told that it has failed. -/
theorem flux_error_maps {S D : Type} (txs : Txs E S D) (e : E) (sub : FluxSub σ E C D) (fn : Signal → σ → σ) (s : σ) :
    ((Flux.error e).maps txs).subscribe sub s = fire sub.onError e s ∧
    ((Flux.error e : Flux σ E C S).maps txs).notify fn s = fn .error s := by
  rw [flux_maps]; exact ⟨rfl, rfl⟩

/-- **C171 is false of the code**: `Block` of a flux that is an error returns it at once; if the flux is mapped, however often
and with whatever, `Block` calls the subscriber's `OnError` and then waits forever. -/
theorem block_error_refuted {S D : Type} (txs : Txs E S D) (e : E) (sub : FluxSub σ E C D) (s : σ) :
    ((Flux.error e : Flux (σ × Vars E) E C S).maps txs).block sub s = (fire sub.onError e s, .waits) := by
  rw [Flux.block, (flux_error_maps txs e _ (fun _ => id) _).1]
  rfl

/-- **C171 is false of the code**, further: if a transformation of a value that is there fails, those who subscribe and those
who call `Get` are given the error, but those who asked to be notified are told that it has completed. -/
theorem notify_maps_refuted {S D : Type} (txs : Txs E S D) (v : S) (e : E) (h : composed txs v = .error e) (fn : Signal → σ → σ)
    (sub : MonoSub σ E C D) (s : σ) :
    ((Mono.just v : Mono σ E C S).maps txs).notify fn s = fn .complete s ∧
    ((Mono.just v : Mono σ E C S).maps txs).get s = .error e ∧
    ((Mono.just v : Mono σ E C S).maps txs).subscribe sub s = fire sub.onError e s := by
  refine ⟨by rw [mono_maps]; rfl, ?_, ?_⟩
  · rw [(just_maps (σ := σ) txs v sub s).2.2, h]
  · rw [(just_maps (σ := σ) txs v sub s).1, h]

/-- Each value that cannot be transformed closes `done` once. -/
theorem values_close {S D : Type} (tx : S → Except E D) (sub : FluxSub σ E C D) (vs : List S) : ∀ s : σ × Vars E,
    (vs.foldl (fun s v => fire (fluxSub tx (blockSub sub)).onNext v s) s).2.closes = s.2.closes + vs.countP (fun v => (tx v).toOption.isNone) ∧
    (vs.countP (fun v => (tx v).toOption.isNone) = 0 → (vs.foldl (fun s v => fire (fluxSub tx (blockSub sub)).onNext v s) s).2.err = s.2.err) := by
  induction vs with
  | nil => intro s; exact ⟨rfl, fun _ => rfl⟩
  | cons v vs ih =>
    intro s
    rw [List.foldl_cons, List.countP_cons]
    obtain ⟨h1, h2⟩ := ih (fire (fluxSub tx (blockSub sub)).onNext v s)
    have hv : (fire (fluxSub tx (blockSub sub)).onNext v s).2.closes = s.2.closes + (if (tx v).toOption.isNone = true then 1 else 0) ∧
        ((tx v).toOption.isNone = false → (fire (fluxSub tx (blockSub sub)).onNext v s).2.err = s.2.err) := by
      simp only [fire, fluxSub, fluxNext]
      cases tx v with
      | error e => exact ⟨rfl, fun h => by cases h⟩
      | ok d =>
        simp only [blockSub]
        cases sub.onNext with
        | none => exact ⟨rfl, fun _ => rfl⟩
        | some f => exact ⟨rfl, fun _ => rfl⟩
    refine ⟨by rw [h1, hv.1]; omega, fun h => ?_⟩
    have h0 : (tx v).toOption.isNone = false := by
      cases hx : (tx v).toOption.isNone with
      | false => rfl
      | true => rw [hx] at h; simp at h
    rw [h2 (by omega), hv.2 h0]

/-- **C171** (part) `Block` of a flux of values, mapped any number of times with transformations that do not fail for these values, returns when the flux
has ended, with the error the flux ended with, if any. **C171 is false of the code** if some fails: `done` is closed again when the flux ends,
which panics. -/
theorem block_values {S D : Type} (txs : Txs E S D) (vs : List S) (last : Option E) (sub : FluxSub σ E C D) (s : σ) :
    (((Flux.emits vs last : Flux (σ × Vars E) E C S).maps txs).block sub s).2 =
      if vs.countP (fun v => (composed txs v).toOption.isNone) = 0 then .returns last else .panics := by
  rw [flux_maps]
  obtain ⟨h1, h2⟩ := values_close (composed txs) sub vs (s, ⟨none, 0⟩)
  simp only [Flux.block, Flux.map, Flux.emits]
  generalize vs.foldl (fun s v => fire (fluxSub (composed txs) (blockSub sub)).onNext v s) (s, ⟨none, 0⟩) = t at h1 h2
  simp only [Nat.zero_add] at h1
  cases last with
  | none =>
    have e1 : (fire (fluxSub (composed txs) (blockSub sub)).fin .complete (fire (fluxSub (composed txs) (blockSub sub)).onComplete () t)).2 =
        { t.2 with closes := t.2.closes + 1 } := by
      simp only [fire, fluxSub, blockSub]
      cases sub.onComplete <;> rfl
    simp only [e1, Vars.result, h1]
    generalize vs.countP (fun v => (composed txs v).toOption.isNone) = k at h1 h2
    by_cases h : k = 0
    · subst h; simp [h2 rfl]
    · rw [if_neg (by omega), if_neg (by omega), if_neg h]
  | some e =>
    simp only [fire, fluxSub, blockSub, Vars.result, h1]
    generalize vs.countP (fun v => (composed txs v).toOption.isNone) = k at h1 h2
    by_cases h : k = 0
    · subst h; simp
    · rw [if_neg (by omega), if_neg (by omega), if_neg h]

/-- Half of a number, and half of that: two transformations that fail for odd numbers. -/
def halves : Txs String Nat Nat :=
  .more (fun n => if n % 2 = 0 then .ok (n / 2) else .error "odd") (.one fun n => if n % 2 = 0 then .ok (n / 2) else .error "odd again")

/-- `Block` of 12 and 20 returns; that of 12 and 14 panics. -/
example : (((Flux.emits [12, 20] (some "broken") : Flux (List Nat × Vars String) String Unit Nat).maps halves).block
      ⟨some fun n s => s ++ [n], none, none, none, none, false⟩ []) = ([3, 5], .returns (some "broken")) ∧
    (((Flux.emits [12, 14] none : Flux (List Nat × Vars String) String Unit Nat).maps halves).block
      ⟨some fun n s => s ++ [n], none, none, none, none, false⟩ []) = ([3], .panics) := ⟨rfl, rfl⟩

/-- Twelve goes through both, fourteen fails at the second, and a subscriber of a mapped flux of 12, 14, 16 and then the end
is told 3, the second error with its end, 4, and the end. -/
example : ((Mono.just 12 : Mono (MVars String Nat) String Unit Nat).maps halves).block = some (.ok 3) ∧
    ((Mono.just 14 : Mono (MVars String Nat) String Unit Nat).maps halves).block = some (.error "odd again") ∧
    ((⟨fun sub s => fire sub.fin .complete (fire sub.onComplete () (fire sub.onNext 16 (fire sub.onNext 14 (fire sub.onNext 12 s)))),
      id, fun _ => id, none⟩ : Flux (List String) String Unit Nat).maps halves).subscribe
      ⟨some fun n s => s ++ [toString n], some fun _ s => s ++ ["end"], some fun e s => s ++ [e], none,
        some fun g s => s ++ [if g = .error then "failed" else "done"], false⟩ [] =
      ["3", "odd again", "failed", "4", "end", "done"] := ⟨rfl, rfl, by decide +kernel⟩

end Iota.Props.Maps
