import Verif.Spec.RustSocket

/-!
# The Rust socket: lemmas
-/

namespace Iota.Lemmas.RustSocket
open Iota.Go Iota.Frames Iota.Rust Iota.Spec.RustSocket

/-! ## Tables -/

theorem mapGet_remove_self (m : List (UInt32 × Nat)) (k : UInt32) : mapGet (mapRemove m k) k = none := by
  simp [mapGet, mapRemove, List.find?_filter]

theorem mapGet_remove_other {m : List (UInt32 × Nat)} {k k' : UInt32} (h : k ≠ k') :
    mapGet (mapRemove m k') k = mapGet m k := by
  simp only [mapGet, mapRemove, List.find?_filter]
  congr 1
  congr 1
  funext x
  by_cases hx : x.1 = k
  · simp [hx, h]
  · simp [hx]

theorem mem_remove {m : List (UInt32 × Nat)} {k : UInt32} {x : UInt32 × Nat} : x ∈ mapRemove m k ↔ x ∈ m ∧ x.1 ≠ k := by
  simp [mapRemove]

theorem mapGet_append_miss {m : List (UInt32 × Nat)} {k k' : UInt32} {v : Nat} (h : k ≠ k') :
    mapGet (m ++ [(k', v)]) k = mapGet m k := by
  simp [mapGet, List.find?_append, Ne.symm h]

theorem mapGet_insert_self (m : List (UInt32 × Nat)) (k : UInt32) (v : Nat) : mapGet (mapInsert m k v) k = some v := by
  have h := mapGet_remove_self m k
  simp only [mapGet, Option.map_eq_none_iff] at h
  simp [mapInsert, mapGet, List.find?_append, h]

theorem mapGet_insert_other {m : List (UInt32 × Nat)} {k k' : UInt32} {v : Nat} (h : k ≠ k') :
    mapGet (mapInsert m k' v) k = mapGet m k := by
  rw [mapInsert, mapGet_append_miss h, mapGet_remove_other h]

theorem mapGet_mem {m : List (UInt32 × Nat)} {k : UInt32} {v : Nat} (h : mapGet m k = some v) : (k, v) ∈ m := by
  simp only [mapGet, Option.map_eq_some_iff] at h
  obtain ⟨x, h1, h2⟩ := h
  have h3 := List.find?_some h1
  have h4 := List.mem_of_find?_eq_some h1
  simp only [decide_eq_true_eq] at h3
  rw [← h3, ← h2]
  exact h4

/-! ## One waiting caller -/

/-- Channel `i` belongs to stream `sid` and has received `g`; `active` tells whether it still waits. -/
structure Obs (s : Sock) (sid : UInt32) (i : Nat) (w : Wait) (g : List Signal) (active : Bool) : Prop where
  wf : ∀ x ∈ s.handlers, x.2 < s.sinks.length
  sink : ∃ k, s.sinks[i]? = some k ∧ k.wait = w ∧ (k.live = true → k.got = g) ∧ k.closed = !active
  own : ∀ x ∈ s.handlers, x.2 = i → x.1 = sid ∧ active = true
  mine : active = true → mapGet s.handlers sid = some i
  later : sid.toNat < s.next.toNat ∨ sid.toNat % 2 ≠ s.next.toNat % 2

/-- The parts of the state `Obs` looks at. -/
theorem Obs.congr {s s' : Sock} {sid : UInt32} {i : Nat} {w : Wait} {g : List Signal} {a : Bool}
    (h : Obs s sid i w g a) (h1 : s'.handlers = s.handlers) (h2 : s'.sinks = s.sinks) (h3 : s'.next = s.next) :
    Obs s' sid i w g a :=
  ⟨by rw [h1, h2]; exact h.wf, by rw [h2]; exact h.sink, by rw [h1]; exact h.own, by rw [h1]; exact h.mine,
    by rw [h3]; exact h.later⟩

theorem runTask_core {s s' : Sock} {t : Nat} {y : Yield} {k : Rust.Task} (h : s.runTask t y k = some s') :
    s'.handlers = s.handlers ∧ s'.sinks = s.sinks ∧ s'.next = s.next := by
  cases k <;> simp only [Sock.runTask] at h
  case feed sid q first n =>
    split at h
    · split at h
      · cases h; exact ⟨rfl, rfl, rfl⟩
      · split at h
        · cases h
        · cases h; exact ⟨rfl, rfl, rfl⟩
    · cases y <;> simp only at h
      · split at h <;> · cases h; exact ⟨rfl, rfl, rfl⟩
      · cases h; exact ⟨rfl, rfl, rfl⟩
      · cases h; exact ⟨rfl, rfl, rfl⟩
  case rsStart => cases h; exact ⟨rfl, rfl, rfl⟩
  case rcStart => cases h; exact ⟨rfl, rfl, rfl⟩
  all_goals
    cases y <;> simp only at h <;> first | (cases h; exact ⟨rfl, rfl, rfl⟩) | cases h

theorem remove_other {s : Sock} {sid sid' : UInt32} {i : Nat} {w : Wait} {g : List Signal} {a : Bool}
    (h : Obs s sid i w g a) (hne : sid' ≠ sid) : Obs (s.remove sid') sid i w g a := by
  unfold Sock.remove
  split
  · exact h
  · rename_i j hj
    have hji : j ≠ i := fun e => hne (h.own _ (mapGet_mem hj) e).1
    obtain ⟨k, h1, h2, h3, h4⟩ := h.sink
    refine ⟨fun x hx => ?_, ⟨k, ?_, h2, h3, h4⟩, fun x hx => h.own x (mem_remove.mp hx).1, fun ha => ?_, h.later⟩
    · simp only [Sock.close, List.length_modify]
      exact h.wf x (mem_remove.mp hx).1
    · simp [Sock.close, List.getElem?_modify, hji, h1]
    · simp only [Sock.close]
      rw [mapGet_remove_other (Ne.symm hne), h.mine ha]

theorem remove_self {s : Sock} {sid : UInt32} {i : Nat} {w : Wait} {g : List Signal}
    (h : Obs s sid i w g true) : Obs (s.remove sid) sid i w g false := by
  unfold Sock.remove
  rw [h.mine rfl]
  obtain ⟨k, h1, h2, h3, h4⟩ := h.sink
  refine ⟨fun x hx => ?_, ⟨{ k with closed := true }, ?_, h2, h3, rfl⟩, fun x hx e => ?_, fun ha => (nomatch ha), h.later⟩
  · simp only [Sock.close, List.length_modify]
    exact h.wf x (mem_remove.mp hx).1
  · simp [Sock.close, h1]
  · have := (mem_remove.mp hx)
    exact absurd (h.own x this.1 e).1 this.2

theorem remove_none {s : Sock} {sid : UInt32} (h : mapGet s.handlers sid = none) : s.remove sid = s := by
  unfold Sock.remove
  rw [h]

theorem remove_sinks_length (s : Sock) (sid : UInt32) : (s.remove sid).sinks.length = s.sinks.length := by
  unfold Sock.remove
  split
  · rfl
  · simp [Sock.close]

theorem remove_handlers {s : Sock} {sid : UInt32} {x : UInt32 × Nat} (h : x ∈ (s.remove sid).handlers) : x ∈ s.handlers := by
  unfold Sock.remove at h
  split at h
  · exact h
  · exact (mem_remove.mp h).1

theorem remove_next (s : Sock) (sid : UInt32) : (s.remove sid).next = s.next := by
  unfold Sock.remove
  split <;> rfl

theorem register_other {s : Sock} {sid sid' : UInt32} {i : Nat} {w w' : Wait} {g f : List Signal} {a : Bool}
    (h : Obs s sid i w g a) (hne : sid' ≠ sid) : Obs (s.register sid' w' f) sid i w g a := by
  have hr := remove_other h hne
  obtain ⟨k, h1, h2, h3, h4⟩ := hr.sink
  have hi : i < s.sinks.length := by
    obtain ⟨k, h1, -⟩ := h.sink
    exact (List.getElem?_eq_some_iff.mp h1).1
  refine ⟨fun x hx => ?_, ⟨k, ?_, h2, h3, h4⟩, fun x hx e => ?_, fun ha => ?_, by simpa [Sock.register, remove_next] using h.later⟩
  · simp only [Sock.register, mapInsert, List.mem_append, mem_remove, List.mem_singleton, List.length_append,
      remove_sinks_length, List.length_singleton] at hx ⊢
    rcases hx with hx | rfl
    · have := h.wf x hx.1
      omega
    · omega
  · simp only [Sock.register]
    rw [List.getElem?_append_left (by rw [remove_sinks_length]; exact hi)]
    exact h1
  · simp only [Sock.register, mapInsert, List.mem_append, mem_remove, List.mem_singleton] at hx
    rcases hx with hx | rfl
    · exact h.own x hx.1 e
    · simp only at e
      omega
  · simp only [Sock.register]
    rw [mapGet_insert_other (Ne.symm hne), h.mine ha]

/-- A new call, or a new channel of the peer. -/
theorem register_new {s : Sock} {sid : UInt32} {w : Wait} {f : List Signal} (hwf : ∀ x ∈ s.handlers, x.2 < s.sinks.length)
    (hl : sid.toNat < s.next.toNat ∨ sid.toNat % 2 ≠ s.next.toNat % 2) : Obs (s.register sid w f) sid s.sinks.length w f true := by
  refine ⟨fun x hx => ?_, ⟨⟨w, true, f, false⟩, ?_, rfl, fun _ => rfl, rfl⟩, fun x hx e => ?_, fun _ => ?_,
    by simpa [Sock.register, remove_next] using hl⟩
  · simp only [Sock.register, mapInsert, List.mem_append, mem_remove, List.mem_singleton, List.length_append,
      remove_sinks_length, List.length_singleton] at hx ⊢
    rcases hx with hx | rfl
    · have := hwf x hx.1
      omega
    · omega
  · simp only [Sock.register]
    rw [List.getElem?_append_right (by rw [remove_sinks_length]; omega)]
    simp [remove_sinks_length]
  · simp only [Sock.register, mapInsert, List.mem_append, mem_remove, List.mem_singleton] at hx
    rcases hx with hx | rfl
    · have := hwf x hx.1
      omega
    · exact ⟨rfl, rfl⟩
  · simp only [Sock.register]
    exact mapGet_insert_self _ _ _

theorem put_other {s : Sock} {sid : UInt32} {i j : Nat} {w : Wait} {g : List Signal} {a : Bool} {x : Signal}
    (h : Obs s sid i w g a) (hne : j ≠ i) : Obs (s.put j x) sid i w g a := by
  obtain ⟨k, h1, h2, h3, h4⟩ := h.sink
  refine ⟨?_, ⟨k, by simp [Sock.put, List.getElem?_modify, hne, h1], h2, h3, h4⟩, h.own, h.mine, h.later⟩
  simpa [Sock.put] using h.wf

theorem put_self {s : Sock} {sid : UInt32} {i : Nat} {w : Wait} {g : List Signal} {a : Bool} (x : Signal)
    (h : Obs s sid i w g a) : Obs (s.put i x) sid i w (g ++ [x]) a := by
  obtain ⟨k, h1, h2, h3, h4⟩ := h.sink
  refine ⟨by simpa [Sock.put] using h.wf, ⟨if k.live then { k with got := k.got ++ [x] } else k, ?_, ?_, ?_, ?_⟩, h.own,
    h.mine, h.later⟩
  · simp [Sock.put, h1]
  · split <;> exact h2
  · split
    · rename_i hl
      intro _
      simp [h3 hl]
    · rename_i hl
      intro h
      exact absurd h hl
  · split <;> exact h4

/-- When the receiving end is gone, what it should have received does not matter. -/
theorem Obs.dead {s : Sock} {sid : UInt32} {i : Nat} {w : Wait} {g g' : List Signal} {a : Bool} (h : Obs s sid i w g a)
    {k : Sink} (hk : s.sinks[i]? = some k) (hl : ¬ k.live = true) : Obs s sid i w g' a := by
  obtain ⟨k', h1, h2, -, h4⟩ := h.sink
  rw [hk] at h1
  cases h1
  exact ⟨h.wf, ⟨k, hk, h2, fun h => absurd h hl, h4⟩, h.own, h.mine, h.later⟩

/-- Whether a channel is for a single result. -/
def isSingle (w : Wait) : Bool := w = .rr

/-- What an action means to the stream `sid`. -/
def seenBy (w : Wait) (sid : UInt32) : SockAct → List Signal × Bool
  | .recv f => if f.streamID = sid then meaning (isSingle w) f else ([], false)
  | _ => ([], false)

/-- A handler other than that of channel `i` leaves. -/
theorem remove_foreign {s s' : Sock} {sid sid' : UInt32} {i j : Nat} {w : Wait} {g : List Signal} {a : Bool}
    (hs : Obs s sid i w g a) (hj : mapGet s.handlers sid' = some j) (hji : j ≠ i) (he : s'.handlers = s.handlers)
    (h : Obs s' sid i w g a) : Obs (s'.remove sid') sid i w g a := by
  by_cases hv : sid' = sid
  · subst hv
    cases a with
    | true => rw [hs.mine rfl] at hj; cases hj; exact absurd rfl hji
    | false =>
      unfold Sock.remove
      rw [he, hj]
      obtain ⟨k, h1, h2, h3, h4⟩ := h.sink
      refine ⟨fun x hx => ?_, ⟨k, ?_, h2, h3, h4⟩, fun x hx => h.own x ?_, fun ha => (nomatch ha), h.later⟩
      · simp only [Sock.close, List.length_modify]
        exact h.wf x (by rw [he]; exact (mem_remove.mp hx).1)
      · simp [Sock.close, List.getElem?_modify, hji, h1]
      · rw [he]; exact (mem_remove.mp hx).1
  · exact remove_other h hv

theorem payload_other {s : Sock} {sid : UInt32} {i : Nat} {w : Wait} {g : List Signal} {a : Bool} {v : Payload}
    (h : Obs s sid i w g a) (hne : v.streamID ≠ sid ∨ a = false) : Obs (s.onPayload v) sid i w g a := by
  unfold Sock.onPayload
  split
  · exact h
  · rename_i j hj
    have hji : j ≠ i := by
      intro e
      have := h.own _ (mapGet_mem hj) e
      rcases hne with hn | hn
      · exact hn this.1
      · rw [hn] at this; exact nomatch this.2
    have hrm : ∀ s' : Sock, Obs s' sid i w g a → s'.handlers = s.handlers → Obs (s'.remove v.streamID) sid i w g a :=
      fun s' hs' he => remove_foreign h hj hji he hs'
    split
    · exact h
    · rename_i k hk
      split
      · apply hrm
        · split
          · exact put_other h hji
          · exact h
        · split <;> rfl
      · split
        · apply hrm
          · split
            · split
              · exact put_other h hji
              · exact h.congr rfl rfl rfl
            · exact h
          · split
            · split <;> rfl
            · rfl
        · split
          · split
            · exact put_other h hji
            · exact h.congr rfl rfl rfl
          · exact h

theorem payload_self {s : Sock} {i : Nat} {w : Wait} {g : List Signal} {v : Payload}
    (h : Obs s v.streamID i w g true) :
    Obs (s.onPayload v) v.streamID i w (g ++ if v.next then [.ok v.metadata v.data] else []) (!(isSingle w || v.complete)) := by
  obtain ⟨k, h1, h2, h3, h4⟩ := h.sink
  unfold Sock.onPayload
  rw [h.mine rfl]
  simp only [h1, h2]
  have hput : Obs (if v.next = true then if k.live = true then s.put i (.ok v.metadata v.data) else s.send (.cancel ⟨v.streamID⟩)
      else s) v.streamID i w (g ++ if v.next then [.ok v.metadata v.data] else []) true := by
    split
    · split
      · exact put_self _ h
      · rename_i hl
        exact (h.dead h1 hl).congr rfl rfl rfl
    · simpa using h
  cases w with
  | rr =>
    simp only [isSingle, decide_true, Bool.true_or, Bool.not_true]
    apply remove_self
    split
    · exact put_self _ h
    · simpa using h
  | rs =>
    simp only [isSingle, Bool.or_comm, reduceCtorEq, decide_false, Bool.or_false]
    by_cases hc : v.complete = true
    · simp only [hc, if_true, Bool.not_true]
      exact remove_self hput
    · simp only [hc, Bool.false_eq_true, if_false, Bool.not_false]
      exact hput
  | rc =>
    simp only [isSingle, Bool.or_comm, reduceCtorEq, decide_false, Bool.or_false]
    by_cases hc : v.complete = true
    · simp only [hc, if_true, Bool.not_true]
      exact remove_self hput
    · simp only [hc, Bool.false_eq_true, if_false, Bool.not_false]
      exact hput

theorem cancel_other {s s' : Sock} {sid sid' : UInt32} {i : Nat} {w : Wait} {g : List Signal} {a : Bool}
    (h : Obs s sid i w g a) (hne : sid' ≠ sid ∨ a = false) (hr : s.onCancel sid' = .ok s') : Obs s' sid i w g a := by
  unfold Sock.onCancel at hr
  split at hr
  · cases hr; exact h
  · rename_i j hj
    have hji : j ≠ i := by
      intro e
      have := h.own _ (mapGet_mem hj) e
      rcases hne with hn | hn
      · exact hn this.1
      · rw [hn] at this; exact nomatch this.2
    split at hr
    · cases hr; exact h
    · split at hr
      · split at hr
        · cases hr
          exact remove_foreign h hj hji rfl (put_other h hji)
        · cases hr
      · cases hr
        exact remove_foreign h hj hji rfl h

theorem cancel_self {s s' : Sock} {sid : UInt32} {i : Nat} {w : Wait} {g : List Signal}
    (h : Obs s sid i w g true) (hr : s.onCancel sid = .ok s') :
    Obs s' sid i w (g ++ if isSingle w then [.err canceled (lit "Request cancelled")] else []) false := by
  obtain ⟨k, h1, h2, h3, h4⟩ := h.sink
  unfold Sock.onCancel at hr
  rw [h.mine rfl] at hr
  simp only [h1, h2] at hr
  cases w with
  | rr =>
    simp only at hr
    split at hr
    · cases hr
      exact remove_self (put_self _ h)
    · cases hr
  | rs => cases hr; simpa [isSingle] using remove_self h
  | rc => cases hr; simpa [isSingle] using remove_self h

theorem error_other {s s' : Sock} {sid sid' code : UInt32} {msg : Bytes} {i : Nat} {w : Wait} {g : List Signal} {a : Bool}
    (h : Obs s sid i w g a) (hne : sid' ≠ sid ∨ a = false) (hr : s.onError sid' code msg = .ok s') :
    Obs s' sid i w g a := by
  unfold Sock.onError at hr
  split at hr
  · cases hr; exact h
  · rename_i j hj
    have hji : j ≠ i := by
      intro e
      have := h.own _ (mapGet_mem hj) e
      rcases hne with hn | hn
      · exact hn this.1
      · rw [hn] at this; exact nomatch this.2
    split at hr
    · cases hr; exact h
    · split at hr
      · cases hr
        exact remove_foreign h hj hji rfl (put_other h hji)
      · cases hr

theorem error_self {s s' : Sock} {sid code : UInt32} {msg : Bytes} {i : Nat} {w : Wait} {g : List Signal}
    (h : Obs s sid i w g true) (hr : s.onError sid code msg = .ok s') : Obs s' sid i w (g ++ [.err code msg]) false := by
  obtain ⟨k, h1, h2, h3, h4⟩ := h.sink
  unfold Sock.onError at hr
  rw [h.mine rfl] at hr
  simp only [h1] at hr
  split at hr
  · cases hr
    exact remove_self (put_self _ h)
  · cases hr

theorem requestN_core (s : Sock) (sid n : UInt32) : (s.onRequestN sid n).handlers = s.handlers ∧
    (s.onRequestN sid n).sinks = s.sinks ∧ (s.onRequestN sid n).next = s.next := by
  unfold Sock.onRequestN
  split
  · exact ⟨rfl, rfl, rfl⟩
  · split <;> exact ⟨rfl, rfl, rfl⟩

theorem errorText_eq (d : Bytes) : errorText d = text d := by
  unfold errorText text
  cases d <;> rfl

theorem recv_obs {s s' : Sock} {f : Frame} {sid : UInt32} {i : Nat} {w : Wait} {g : List Signal} {a : Bool}
    (h : Obs s sid i w g a) (hc : opensChannel sid (.recv f) = false) (hr : s.processOnce f = .ok s') :
    Obs s' sid i w (g ++ if a then (seenBy w sid (.recv f)).1 else []) (a && !(seenBy w sid (.recv f)).2) := by
  cases f with
  | request v =>
    have e : seenBy w sid (.recv (.request v)) = ([], false) := by
      simp only [seenBy, meaning]; split <;> rfl
    rw [e]
    simp only [ite_self, List.append_nil, Bool.not_false, Bool.and_true]
    simp only [Sock.processOnce] at hr
    split at hr
    · cases hr; exact h.congr rfl rfl rfl
    · rename_i h1
      split at hr
      · cases hr; exact h.congr rfl rfl rfl
      · rename_i h2
        split at hr
        · cases hr; exact h.congr rfl rfl rfl
        · rename_i h3
          cases hr
          have hne : v.streamID ≠ sid := by
            intro he
            simp [opensChannel, he, h1, h2, h3] at hc
          exact (register_other (w' := .rc) (f := [.ok v.metadata v.data]) h hne).congr rfl rfl rfl
  | requestN v =>
    have e : seenBy w sid (.recv (.requestN v)) = ([], false) := by
      simp only [seenBy, meaning]; split <;> rfl
    rw [e]
    simp only [ite_self, List.append_nil, Bool.not_false, Bool.and_true]
    simp only [Sock.processOnce] at hr
    cases hr
    obtain ⟨h1, h2, h3⟩ := requestN_core s v.streamID v.n
    exact h.congr h1 h2 h3
  | payload v =>
    simp only [Sock.processOnce] at hr
    cases hr
    by_cases hv : v.streamID = sid
    · subst hv
      cases a with
      | true => simpa [seenBy, meaning, Frame.streamID] using payload_self h
      | false => simpa using payload_other h (Or.inr rfl)
    · have e : seenBy w sid (.recv (.payload v)) = ([], false) := by
        simp [seenBy, Frame.streamID, hv]
      rw [e]
      simpa using payload_other h (Or.inl hv)
  | cancel v =>
    simp only [Sock.processOnce] at hr
    by_cases hv : v.streamID = sid
    · subst hv
      cases a with
      | true => simpa [seenBy, meaning, Frame.streamID, canceled, lit] using cancel_self h hr
      | false => simpa using cancel_other h (Or.inr rfl) hr
    · have e : seenBy w sid (.recv (.cancel v)) = ([], false) := by
        simp [seenBy, Frame.streamID, hv]
      rw [e]
      simpa using cancel_other h (Or.inl hv) hr
  | error v =>
    simp only [Sock.processOnce] at hr
    by_cases hv : v.streamID = sid
    · subst hv
      cases a with
      | true => simpa [seenBy, meaning, Frame.streamID, errorText_eq] using error_self h hr
      | false => simpa using error_other h (Or.inr rfl) hr
    · have e : seenBy w sid (.recv (.error v)) = ([], false) := by
        simp [seenBy, Frame.streamID, hv]
      rw [e]
      simpa using error_other h (Or.inl hv) hr

theorem draw_toNat {n : UInt32} (h : n.toNat + 2 < 2 ^ 32) : (n + 2).toNat = n.toNat + 2 := by
  rw [UInt32.toNat_add]
  exact Nat.mod_eq_of_lt h

theorem call_obs {s : Sock} {m : Method} {md d : Bytes} {sid : UInt32} {i : Nat} {w : Wait} {g : List Signal} {a : Bool}
    (h : Obs s sid i w g a) (hn : s.next.toNat + 2 < 2 ^ 32) : Obs (s.request m md d) sid i w g a := by
  have hd : Obs s.draw sid i w g a := ⟨h.wf, h.sink, h.own, h.mine, by
    have := h.later
    simp only [Sock.draw, draw_toNat hn]
    omega⟩
  have hne : s.next ≠ sid := fun e => by have := h.later; rw [e] at this; omega
  cases m with
  | fnf => exact hd.congr rfl rfl rfl
  | rr => exact (register_other (w' := .rr) (f := []) hd hne).congr rfl rfl rfl
  | rs => exact (register_other (w' := .rs) (f := []) hd hne).congr rfl rfl rfl
  | rc => exact (register_other (w' := .rc) (f := []) hd hne).congr rfl rfl rfl

theorem call_next (s : Sock) (m : Method) (md d : Bytes) : (s.request m md d).next = s.next + 2 := by
  cases m <;> simp [Sock.request, Sock.draw, Sock.send, Sock.spawn, Sock.register, remove_next]

theorem drop_obs {s : Sock} {j : Nat} {sid : UInt32} {i : Nat} {w : Wait} {g : List Signal} {a : Bool}
    (h : Obs s sid i w g a) :
    Obs { s with sinks := s.sinks.modify j fun k => { k with live := false } } sid i w g a := by
  obtain ⟨k, h1, h2, h3, h4⟩ := h.sink
  refine ⟨by simpa using h.wf, ?_, h.own, h.mine, h.later⟩
  by_cases e : j = i
  · subst e
    exact ⟨{ k with live := false }, by simp [h1], h2, fun h => (nomatch h), h4⟩
  · exact ⟨k, by simp [List.getElem?_modify, e, h1], h2, h3, h4⟩

theorem processOnce_next {s s' : Sock} {f : Frame} (h : s.processOnce f = .ok s') : s'.next = s.next := by
  cases f with
  | request v =>
    simp only [Sock.processOnce] at h
    split at h
    · cases h; rfl
    · split at h
      · cases h; rfl
      · split at h
        · cases h; rfl
        · cases h; simp [Sock.spawn, Sock.register, remove_next]
  | requestN v =>
    simp only [Sock.processOnce] at h
    cases h
    exact (requestN_core s _ _).2.2
  | payload v =>
    simp only [Sock.processOnce] at h
    cases h
    unfold Sock.onPayload
    split
    · rfl
    · split
      · rfl
      · split
        · rw [remove_next]; split <;> rfl
        · split
          · rw [remove_next]
            split
            · split <;> rfl
            · rfl
          · split
            · split <;> rfl
            · rfl
  | cancel v =>
    simp only [Sock.processOnce, Sock.onCancel] at h
    split at h
    · cases h; rfl
    · split at h
      · cases h; rfl
      · split at h
        · split at h
          · cases h; simp [remove_next, Sock.put]
          · cases h
        · cases h; simp [remove_next]
  | error v =>
    simp only [Sock.processOnce, Sock.onError] at h
    split at h
    · cases h; rfl
    · split at h
      · cases h; rfl
      · split at h
        · cases h; simp [remove_next, Sock.put]
        · cases h

theorem outcome_fold (w : Wait) (sid : UInt32) (a : SockAct) (as : List SockAct) :
    outcome (isSingle w) (arrived sid (a :: as)) =
      if (seenBy w sid a).2 then ((seenBy w sid a).1, true)
      else ((seenBy w sid a).1 ++ (outcome (isSingle w) (arrived sid as)).1, (outcome (isSingle w) (arrived sid as)).2) := by
  cases a with
  | recv f =>
    simp only [arrived, seenBy]
    split
    · simp [outcome]
    · simp
  | _ => simp [arrived, seenBy]

theorem run_obs (as : List SockAct) : ∀ {s s' : Sock} {sid : UInt32} {i : Nat} {w : Wait} {g : List Signal} {a : Bool},
    Obs s sid i w g a → s.next.toNat + 2 * drawn as < 2 ^ 32 → (∀ x ∈ as, opensChannel sid x = false) →
    s.run as = some (.ok s') →
    Obs s' sid i w (g ++ if a then (outcome (isSingle w) (arrived sid as)).1 else [])
      (a && !(outcome (isSingle w) (arrived sid as)).2) := by
  induction as with
  | nil =>
    intro s s' sid i w g a h _ _ hr
    simp only [Sock.run] at hr
    cases hr
    simpa [arrived, outcome] using h
  | cons x as ih =>
    intro s s' sid i w g a h hn hc hr
    have hcx := hc x (by simp)
    have hc' : ∀ y ∈ as, opensChannel sid y = false := fun y hy => hc y (List.mem_cons_of_mem _ hy)
    have key : ∃ s1, s1.run as = some (.ok s') ∧ s1.next.toNat + 2 * drawn as < 2 ^ 32 ∧
        Obs s1 sid i w (g ++ if a then (seenBy w sid x).1 else []) (a && !(seenBy w sid x).2) := by
      cases x with
      | recv f =>
        simp only [Sock.run, Sock.step] at hr
        cases hp : s.processOnce f with
        | panic => rw [hp] at hr; cases hr
        | err e => rw [hp] at hr; cases hr
        | ok s1 =>
          rw [hp] at hr
          exact ⟨s1, hr, by rw [processOnce_next hp]; simpa [drawn] using hn, recv_obs h hcx hp⟩
      | call m md d =>
        simp only [Sock.run, Sock.step] at hr
        simp only [drawn] at hn
        refine ⟨_, hr, ?_, ?_⟩
        · rw [call_next, draw_toNat (by omega)]
          omega
        · simpa [seenBy] using call_obs (m := m) (md := md) (d := d) h (by omega)
      | drop j =>
        simp only [Sock.run, Sock.step] at hr
        exact ⟨_, hr, by simpa [drawn] using hn, by simpa [seenBy] using drop_obs (j := j) h⟩
      | task t y =>
        simp only [Sock.run, Sock.step] at hr
        cases ht : s.tasks[t]? with
        | none => rw [ht] at hr; cases hr
        | some k =>
          cases k with
          | none => rw [ht] at hr; cases hr
          | some k =>
            rw [ht] at hr
            simp only at hr
            cases hk : s.runTask t y k with
            | none => rw [hk] at hr; cases hr
            | some s1 =>
              rw [hk] at hr
              obtain ⟨h1, h2, h3⟩ := runTask_core hk
              exact ⟨s1, hr, by rw [h3]; simpa [drawn] using hn, by simpa [seenBy] using h.congr h1 h2 h3⟩
    obtain ⟨s1, hr1, hn1, ho⟩ := key
    have := ih ho hn1 hc' hr1
    rw [outcome_fold]
    cases a with
    | false => simpa using this
    | true =>
      cases hb : (seenBy w sid x).2 with
      | true => simpa [hb] using this
      | false => simpa [hb] using this

/-! ## C71: stream ids -/

/-- The first id. -/
def firstId (guest : Bool) : Nat := if guest then 2 else 1

theorem step_next {s s' : Sock} {a : SockAct} (h : s.step a = some (.ok s')) :
    s'.next = s.next + UInt32.ofNat (2 * drawn [a]) := by
  cases a with
  | recv f => simp only [Sock.step, Option.some.injEq] at h; simp [processOnce_next h, drawn]
  | call m md d =>
    simp only [Sock.step, Option.some.injEq] at h
    cases h
    simp [call_next, drawn]
  | drop j =>
    simp only [Sock.step, Option.some.injEq] at h
    cases h
    simp [drawn]
  | task t y =>
    simp only [Sock.step] at h
    split at h
    · rename_i k hk
      cases hx : s.runTask t y k with
      | none => rw [hx] at h; cases h
      | some s1 =>
        rw [hx] at h
        cases h
        simp [(runTask_core hx).2.2, drawn]
    · cases h

theorem run_cons {s s' : Sock} {a : SockAct} {as : List SockAct} (h : s.run (a :: as) = some (.ok s')) :
    ∃ s1, s.step a = some (.ok s1) ∧ s1.run as = some (.ok s') := by
  simp only [Sock.run] at h
  split at h
  · cases h
  · cases h
  · cases h
  · rename_i s1 hs
    exact ⟨s1, hs, h⟩

theorem drawn_cons (a : SockAct) (as : List SockAct) : drawn (a :: as) = drawn [a] + drawn as := by
  cases a <;> simp [drawn]
  omega

theorem run_next (as : List SockAct) : ∀ {s s' : Sock}, s.run as = some (.ok s') →
    s'.next = s.next + UInt32.ofNat (2 * drawn as) := by
  induction as with
  | nil => intro s s' h; simp only [Sock.run] at h; cases h; simp [drawn]
  | cons a as ih =>
    intro s s' h
    obtain ⟨s1, h1, h2⟩ := run_cons h
    rw [ih h2, step_next h1, drawn_cons a as, Nat.mul_add, UInt32.ofNat_add, UInt32.add_assoc]

/-- The id of the next call is the first id plus two for each earlier call, modulo 2^32. -/
theorem next_id (guest : Bool) (as : List SockAct) (s : Sock) (h : (Sock.init guest).run as = some (.ok s)) :
    s.next = UInt32.ofNat (firstId guest + 2 * drawn as) := by
  rw [run_next as h, UInt32.ofNat_add]
  cases guest <;> rfl

end Iota.Lemmas.RustSocket
