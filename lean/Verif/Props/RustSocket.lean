import Verif.Lemmas.RustSocket
import Verif.Props.StreamId
import Verif.Props.RustFrames

/-!
# C71 – C73: the Rust socket
-/

namespace Iota.Props.RustSocket
open Iota.Go Iota.Frames Iota.Rust Iota.Spec.RustSocket Iota.Lemmas.RustSocket

/-! ## C71: stream ids -/

/-- The least number of calls after which ids repeat. -/
def idLimit (guest : Bool) : Nat := if guest then 2 ^ 30 - 1 else 2 ^ 30

/-- **C71 (partial)** Full statement: each call made through a Rust socket has its own stream id, which is not zero and
which the peer never uses for a call of its own. Proved for the first 2^30 calls (2^30-1 for a guest), whatever else
happens in between: two calls have different ids; an id is not zero, keeps its value on the wire, is even for a guest and
odd for a host. Missing: sockets that live longer (`ids_repeat_refuted`). -/
theorem ids_unique_partial (guest : Bool) (as bs : List SockAct) (m : Method) (md d : Bytes) (s1 s2 : Sock)
    (h1 : (Sock.init guest).run as = some (.ok s1)) (h2 : s1.run (.call m md d :: bs) = some (.ok s2))
    (hn : drawn as + 1 + drawn bs < idLimit guest) :
    s1.next ≠ s2.next ∧ s1.next ≠ 0 ∧ s1.next.toNat < 2 ^ 31 ∧ s1.next.toNat % 2 = if guest then 0 else 1 := by
  have e1 := next_id guest as s1 h1
  have e2 := run_next _ h2
  have t1 : s1.next.toNat = firstId guest + 2 * drawn as := by
    rw [e1]
    cases guest <;> simp [firstId, idLimit] at hn ⊢ <;> omega
  have t2 : s2.next.toNat = s1.next.toNat + 2 * (drawn bs + 1) := by
    rw [e2, UInt32.toNat_add, t1]
    cases guest <;> simp [firstId, idLimit, drawn] at hn ⊢ <;> omega
  refine ⟨fun e => ?_, fun e => ?_, ?_, ?_⟩
  · rw [e] at t2; omega
  · rw [e] at t1
    cases guest <;> simp [firstId] at t1 <;> omega
  · rw [t1]
    cases guest <;> simp [firstId, idLimit] at hn ⊢ <;> omega
  · rw [t1]
    cases guest <;> simp [firstId] <;> omega

theorem run_calls (n : Nat) : ∀ s : Sock, ∃ s', s.run (List.replicate n (.call .fnf [] [])) = some (.ok s') := by
  induction n with
  | zero => exact fun s => ⟨s, rfl⟩
  | succ n ih =>
    intro s
    obtain ⟨s', h⟩ := ih (s.request .fnf [] [])
    exact ⟨s', by simpa [List.replicate_succ, Sock.run, Sock.step] using h⟩

theorem drawn_calls (n : Nat) : drawn (List.replicate n (.call .fnf [] [])) = n := by
  induction n with
  | zero => rfl
  | succ n ih => simp [List.replicate_succ, drawn, ih]

/-- **C71 is false of the code** for a socket that lives long: after 2^30 calls the peer is sent the first id again, and
just before that, a guest sends its peer a request with stream id zero, which RSocket reserves for the connection. (The
Go generators skip ids in use and start over.) -/
theorem ids_repeat_refuted : ∃ (as : List SockAct) (s : Sock), (Sock.init true).run as = some (.ok s) ∧
    drawn as = 2 ^ 30 ∧ Rust.streamId (Rust.newHeader s.next tRequestResponse 0) = 2 ∧
    Rust.streamId (Rust.newHeader (Sock.init true).next tRequestResponse 0) = 2 := by
  obtain ⟨s, h⟩ := run_calls (2 ^ 30) (Sock.init true)
  refine ⟨_, s, h, drawn_calls _, ?_, ?_⟩
  · have e := next_id true _ s h
    rw [drawn_calls] at e
    rw [e]
    decide
  · decide

theorem zero_id_refuted : ∃ (as : List SockAct) (s : Sock), (Sock.init true).run as = some (.ok s) ∧
    drawn as = 2 ^ 30 - 1 ∧ Rust.streamId (Rust.newHeader s.next tRequestResponse 0) = 0 := by
  obtain ⟨s, h⟩ := run_calls (2 ^ 30 - 1) (Sock.init true)
  refine ⟨_, s, h, drawn_calls _, ?_⟩
  have e := next_id true _ s h
  rw [drawn_calls] at e
  rw [e]
  decide

/-! ## C72: results reach their caller -/

/-- Every entry of the table names a channel. -/
def WF (s : Sock) : Prop := ∀ x ∈ s.handlers, x.2 < s.sinks.length

theorem WF.remove {s : Sock} (h : WF s) (sid : UInt32) : WF (s.remove sid) := fun x hx => by
  rw [remove_sinks_length]; exact h x (remove_handlers hx)

theorem WF.register {s : Sock} (h : WF s) (sid : UInt32) (w : Wait) (f : List Signal) : WF (s.register sid w f) := by
  intro x hx
  simp only [Sock.register, mapInsert, List.mem_append, mem_remove, List.mem_singleton, List.length_append,
    remove_sinks_length, List.length_singleton] at hx ⊢
  rcases hx with hx | rfl
  · have := h x hx.1
    omega
  · omega

theorem WF.congr {s s' : Sock} (h : WF s) (h1 : s'.handlers = s.handlers) (h2 : s'.sinks.length = s.sinks.length) : WF s' := by
  intro x hx
  rw [h2]
  exact h x (h1 ▸ hx)

theorem WF.put {s : Sock} (h : WF s) (i : Nat) (x : Signal) : WF (s.put i x) := h.congr rfl (by simp [Sock.put])

theorem WF.send {s : Sock} (h : WF s) (f : Frame) : WF (s.send f) := h.congr rfl rfl

theorem WF.process {s s' : Sock} {f : Frame} (h : WF s) (hr : s.processOnce f = .ok s') : WF s' := by
  cases f with
  | request v =>
    simp only [Sock.processOnce] at hr
    split at hr
    · cases hr; exact h.congr rfl rfl
    · split at hr
      · cases hr; exact h.congr rfl rfl
      · split at hr
        · cases hr; exact h.congr rfl rfl
        · cases hr; exact (h.register _ _ _).congr rfl rfl
  | requestN v =>
    simp only [Sock.processOnce] at hr
    cases hr
    obtain ⟨h1, h2, -⟩ := requestN_core s v.streamID v.n
    exact h.congr h1 (by rw [h2])
  | payload v =>
    simp only [Sock.processOnce] at hr
    cases hr
    unfold Sock.onPayload
    split
    · exact h
    · split
      · exact h
      · split
        · apply WF.remove
          split
          · exact h.put _ _
          · exact h
        · split
          · apply WF.remove
            split
            · split
              · exact h.put _ _
              · exact h.send _
            · exact h
          · split
            · split
              · exact h.put _ _
              · exact h.send _
            · exact h
  | cancel v =>
    simp only [Sock.processOnce, Sock.onCancel] at hr
    split at hr
    · cases hr; exact h
    · split at hr
      · cases hr; exact h
      · split at hr
        · split at hr
          · cases hr; exact (h.put _ _).remove _
          · cases hr
        · cases hr; exact h.remove _
  | error v =>
    simp only [Sock.processOnce, Sock.onError] at hr
    split at hr
    · cases hr; exact h
    · split at hr
      · cases hr; exact h
      · split at hr
        · cases hr; exact (h.put _ _).remove _
        · cases hr

theorem WF.call {s : Sock} (h : WF s) (m : Method) (md d : Bytes) : WF (s.request m md d) := by
  have hd : WF s.draw := h.congr rfl rfl
  cases m with
  | fnf => exact hd.send _
  | rr => exact (hd.register _ _ _).send _
  | rs => exact (hd.register _ _ _).send _
  | rc => exact (hd.register s.next .rc []).congr rfl rfl

theorem WF.step {s s' : Sock} {a : SockAct} (h : WF s) (hr : s.step a = some (.ok s')) : WF s' := by
  cases a with
  | recv f => simp only [Sock.step, Option.some.injEq] at hr; exact h.process hr
  | call m md d => simp only [Sock.step, Option.some.injEq] at hr; cases hr; exact h.call m md d
  | drop j => simp only [Sock.step, Option.some.injEq] at hr; cases hr; exact h.congr rfl (by simp)
  | task t y =>
    simp only [Sock.step] at hr
    split at hr
    · rename_i k hk
      cases hx : s.runTask t y k with
      | none => rw [hx] at hr; cases hr
      | some s1 =>
        rw [hx] at hr
        cases hr
        obtain ⟨h1, h2, -⟩ := runTask_core hx
        exact h.congr h1 (by rw [h2])
    · cases hr

theorem WF.run (as : List SockAct) : ∀ {s s' : Sock}, WF s → s.run as = some (.ok s') → WF s' := by
  induction as with
  | nil => intro s s' h hr; simp only [Sock.run] at hr; cases hr; exact h
  | cons a as ih =>
    intro s s' h hr
    obtain ⟨s1, h1, h2⟩ := run_cons hr
    exact ih (h.step h1) h2

/-- The kind of channel a call waits on. -/
def waitOf : Method → Wait
  | .rr => .rr
  | .rs => .rs
  | .rc => .rc
  | .fnf => .rr

theorem call_new {s : Sock} (h : WF s) (m : Method) (hm : m ≠ .fnf) (md d : Bytes) (hn : s.next.toNat + 2 < 2 ^ 32) :
    Obs (s.request m md d) s.next s.sinks.length (waitOf m) [] true := by
  have hd : WF s.draw := h.congr rfl rfl
  have hl : s.next.toNat < s.draw.next.toNat ∨ s.next.toNat % 2 ≠ s.draw.next.toNat % 2 := by
    simp only [Sock.draw, draw_toNat hn]; omega
  cases m with
  | fnf => exact absurd rfl hm
  | rr => exact (register_new (w := .rr) hd hl).congr rfl rfl rfl
  | rs => exact (register_new (w := .rs) hd hl).congr rfl rfl rfl
  | rc => exact (register_new (w := .rc) hd hl).congr rfl rfl rfl

/-- **C72 (partial)** Full statement: a caller waiting on a Rust socket gets exactly the results the frames on its stream
bring, in order, and learns that the stream has ended exactly when they say so. Proved for every call, every history
before it, and everything that happens after it (frames of all streams, other calls, handlers, cancelled waits), for the
first 2^31-2 calls, as long as the peer does not open a channel under the id of the call (`stolen_refuted`). -/
theorem caller_outcome_partial (guest : Bool) (as bs : List SockAct) (m : Method) (hm : m ≠ .fnf) (md d : Bytes)
    (s1 s : Sock) (h1 : (Sock.init guest).run as = some (.ok s1)) (h2 : s1.run (.call m md d :: bs) = some (.ok s))
    (hn : drawn as + drawn bs + 2 < 2 ^ 31) (hc : ∀ x ∈ bs, opensChannel s1.next x = false)
    (k : Sink) (hk : s.sinks[s1.sinks.length]? = some k) (hl : k.live = true) :
    (k.got, k.closed) = outcome (m = .rr) (arrived s1.next bs) := by
  have hw : WF s1 := WF.run as (by intro x hx; cases hx) h1
  have e1 : s1.next.toNat = firstId guest + 2 * drawn as := by
    rw [next_id guest as s1 h1]
    cases guest <;> simp [firstId] <;> omega
  have hf : firstId guest ≤ 2 := by cases guest <;> simp [firstId]
  have hr : (s1.request m md d).run bs = some (.ok s) := by simpa [Sock.run, Sock.step] using h2
  have hnew := call_new hw m hm md d (by omega)
  have := run_obs bs hnew (by rw [call_next, draw_toNat (by omega)]; omega) hc hr
  obtain ⟨k', g1, g2, g3, g4⟩ := this.sink
  rw [hk] at g1
  cases g1
  have hsingle : isSingle (waitOf m) = decide (m = .rr) := by cases m <;> first | rfl | exact absurd rfl hm
  rw [hsingle] at g3 g4
  rw [g3 hl, g4]
  simp

/-- A stream, with another call in between. -/
example : ∃ s, (Sock.init true).run [.call .rs [] [7], .call .rr [] [8], .recv (.payload ⟨2, [], [1], false, false, true⟩),
      .recv (.payload ⟨4, [], [9], false, true, true⟩), .recv (.payload ⟨2, [], [2], false, true, true⟩)] = some (.ok s) ∧
    s.sinks.map (fun k => (k.got, k.closed)) = [([.ok [] [1], .ok [] [2]], true), ([.ok [] [9]], true)] :=
  ⟨_, rfl, by decide⟩

/-- **C72 is false of the code** when the peer opens a channel under the id of a pending call: the answer to the call goes
to the handler of that channel, and the caller is told that its request failed. -/
theorem stolen_refuted : ∃ (s : Sock), (Sock.init true).run [.call .rr [] [7],
      .recv (.request ⟨tRequestChannel, 2, [], [5], false, false, 1⟩),
      .recv (.payload ⟨2, [], [42], false, true, true⟩)] = some (.ok s) ∧
    s.sinks.map (fun k => (k.wait, k.got, k.closed)) = [(.rr, [], true), (.rc, [.ok [] [5], .ok [] [42]], true)] :=
  ⟨_, rfl, by decide⟩

/-- **C72 is false of the code** for answers sent in fragments: the fragments that the Go library makes of an answer are
dropped one by one, and the caller is told that its request failed. -/
theorem fragments_refuted : ∃ (p : Payload) (fs : List Payload) (s : Sock), p.streamID = 2 ∧ p.next = true ∧
    p.fragment 16 9 = some fs ∧ fs.length = 3 ∧
    (Sock.init true).run (.call .rr [] [7] :: fs.map fun f => .recv (.payload f)) = some (.ok s) ∧
    s.sinks.map (fun k => (k.got, k.closed)) = [([], true)] :=
  ⟨⟨2, [], List.replicate 25 1, false, true, true⟩, _, _, rfl, rfl, rfl, rfl, rfl, by decide⟩

/-! ## C73: frames from the peer cannot crash a Rust socket -/

/-- A frame crashes the socket exactly when it is an error (or, for a single result, a cancellation) for a waiting call
whose result nobody waits for any more. -/
theorem process_crashes_iff (s : Sock) (f : Frame) : s.processOnce f = .panic ↔
    ∃ i k, mapGet s.handlers f.streamID = some i ∧ s.sinks[i]? = some k ∧ k.live = false ∧
      ((∃ v, f = .error v) ∨ (∃ v, f = .cancel v) ∧ k.wait = .rr) := by
  cases f with
  | request v =>
    simp only [Sock.processOnce]
    split
    · simp
    · split
      · simp
      · split <;> simp
  | requestN v => simp [Sock.processOnce]
  | payload v => simp [Sock.processOnce]
  | cancel v =>
    simp only [Sock.processOnce, Sock.onCancel, Frame.streamID]
    cases h1 : mapGet s.handlers v.streamID with
    | none => simp
    | some i =>
      cases h2 : s.sinks[i]? with
      | none => simp [h2]
      | some k =>
        cases h3 : k.wait <;> cases h4 : k.live <;> simp [h2, h3, h4]
  | error v =>
    simp only [Sock.processOnce, Sock.onError, Frame.streamID]
    cases h1 : mapGet s.handlers v.streamID with
    | none => simp
    | some i =>
      cases h2 : s.sinks[i]? with
      | none => simp [h2]
      | some k => cases h4 : k.live <;> simp [h2, h4]

/-- Nobody gave up waiting. -/
def patient : SockAct → Bool
  | .drop _ => false
  | _ => true

theorem live_modify {l : List Sink} {i : Nat} {f : Sink → Sink} (h : ∀ k ∈ l, k.live = true)
    (hf : ∀ k, (f k).live = k.live) : ∀ k ∈ l.modify i f, k.live = true := by
  intro k hk
  obtain ⟨j, hj⟩ := List.mem_iff_getElem?.mp hk
  rw [List.getElem?_modify] at hj
  cases hlj : l[j]? with
  | none => rw [hlj] at hj; cases hj
  | some k' =>
    rw [hlj] at hj
    have := h k' (List.mem_of_getElem? hlj)
    by_cases hij : i = j
    · simp [hij] at hj
      rw [← hj, hf]; exact this
    · simp [hij] at hj
      rw [← hj]; exact this

/-- All channels have their receiving end. -/
def AllLive (s : Sock) : Prop := ∀ k ∈ s.sinks, k.live = true

theorem AllLive.put {s : Sock} (h : AllLive s) (i : Nat) (x : Signal) : AllLive (s.put i x) :=
  live_modify h fun k => by split <;> rfl

theorem AllLive.remove {s : Sock} (h : AllLive s) (sid : UInt32) : AllLive (s.remove sid) := by
  unfold Sock.remove
  split
  · exact h
  · exact live_modify h fun k => rfl

theorem AllLive.register {s : Sock} (h : AllLive s) (sid : UInt32) (w : Wait) (f : List Signal) :
    AllLive (s.register sid w f) := by
  intro k hk
  simp only [Sock.register, List.mem_append, List.mem_singleton] at hk
  rcases hk with hk | rfl
  · exact h.remove sid k hk
  · rfl

theorem AllLive.process {s s' : Sock} {f : Frame} (h : AllLive s) (hr : s.processOnce f = .ok s') : AllLive s' := by
  cases f with
  | request v =>
    simp only [Sock.processOnce] at hr
    split at hr
    · cases hr; exact h
    · split at hr
      · cases hr; exact h
      · split at hr
        · cases hr; exact h
        · cases hr; exact h.register _ _ _
  | requestN v =>
    simp only [Sock.processOnce] at hr
    cases hr
    have h2 := (requestN_core s v.streamID v.n).2.1
    unfold AllLive
    rw [h2]; exact h
  | payload v =>
    simp only [Sock.processOnce] at hr
    cases hr
    unfold Sock.onPayload
    split
    · exact h
    · split
      · exact h
      · split
        · apply AllLive.remove
          split
          · exact h.put _ _
          · exact h
        · split
          · apply AllLive.remove
            split
            · split
              · exact h.put _ _
              · exact h
            · exact h
          · split
            · split
              · exact h.put _ _
              · exact h
            · exact h
  | cancel v =>
    simp only [Sock.processOnce, Sock.onCancel] at hr
    split at hr
    · cases hr; exact h
    · split at hr
      · cases hr; exact h
      · split at hr
        · split at hr
          · cases hr; exact (h.put _ _).remove _
          · cases hr
        · cases hr; exact h.remove _
  | error v =>
    simp only [Sock.processOnce, Sock.onError] at hr
    split at hr
    · cases hr; exact h
    · split at hr
      · cases hr; exact h
      · split at hr
        · cases hr; exact (h.put _ _).remove _
        · cases hr

theorem process_not_err (s : Sock) (f : Frame) (e : String) : s.processOnce f ≠ .err e := by
  cases f with
  | request v =>
    simp only [Sock.processOnce]
    split
    · simp
    · split
      · simp
      · split <;> simp
  | requestN v => simp [Sock.processOnce]
  | payload v => simp [Sock.processOnce]
  | cancel v =>
    simp only [Sock.processOnce, Sock.onCancel]
    split
    · simp
    · split
      · simp
      · split
        · split <;> simp
        · simp
  | error v =>
    simp only [Sock.processOnce, Sock.onError]
    split
    · simp
    · split
      · simp
      · split <;> simp

/-- **C73 (partial)** Full statement: no sequence of frames from the peer crashes a Rust socket. Proved for all frames in
all orders, interleaved with anything else, as long as all callers keep waiting for their results. -/
theorem no_crash_partial (as : List SockAct) : ∀ (s : Sock), AllLive s → (∀ a ∈ as, patient a = true) →
    s.run as ≠ some .panic := by
  induction as with
  | nil => intro s _ _ h; simp [Sock.run] at h
  | cons a as ih =>
    intro s hl hp h
    have hp' : ∀ a ∈ as, patient a = true := fun x hx => hp x (List.mem_cons_of_mem _ hx)
    cases a with
    | recv f =>
      simp only [Sock.run, Sock.step] at h
      cases hr : s.processOnce f with
      | panic =>
        obtain ⟨i, k, -, h2, h3, -⟩ := (process_crashes_iff s f).mp hr
        rw [hl k (List.mem_of_getElem? h2)] at h3
        cases h3
      | err e => exact process_not_err s f e hr
      | ok s1 =>
        rw [hr] at h
        exact ih s1 (hl.process hr) hp' h
    | call m md d =>
      simp only [Sock.run, Sock.step] at h
      refine ih _ ?_ hp' h
      have hd : AllLive s.draw := hl
      cases m with
      | fnf => exact hd
      | rr => exact hd.register _ _ _
      | rs => exact hd.register _ _ _
      | rc => exact hd.register s.next .rc []
    | drop j => exact nomatch hp (.drop j) (by simp)
    | task t y =>
      simp only [Sock.run, Sock.step] at h
      cases ht : s.tasks[t]? with
      | none => rw [ht] at h; cases h
      | some k =>
        cases k with
        | none => rw [ht] at h; cases h
        | some k =>
          rw [ht] at h
          simp only at h
          cases hk : s.runTask t y k with
          | none => rw [hk] at h; cases h
          | some s1 =>
            rw [hk] at h
            refine ih s1 ?_ hp' h
            unfold AllLive
            rw [(runTask_core hk).2.1]; exact hl

/-- **C73 is false of the code**: a caller that stops waiting (a timeout, say), and an error from the peer afterwards,
crash the socket. -/
theorem crash_refuted : (Sock.init true).run [.call .rr [] [7], .drop 0, .recv (.error ⟨2, 513, [1]⟩)] = some .panic ∧
    (Sock.init true).run [.call .rs [] [7], .drop 0, .recv (.error ⟨2, 513, [1]⟩)] = some .panic := ⟨rfl, rfl⟩

end Iota.Props.RustSocket
