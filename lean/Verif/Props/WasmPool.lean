import Verif.Model.WasmPool
import Verif.Props.Framing

/-! # C65: a frame from a guest keeps its contents until it is handled -/

namespace Iota.Props.WasmPool
open Iota.Go Iota.Frames Iota.Framing Iota.WasmPool Iota.Props.Framing

/-- Every array belongs to one buffer; queued buffers contain what was written to them. -/
structure Inv (s : Pool) : Prop where
  nodup : (s.pool ++ s.queue.map Item.arr).Nodup
  bound : ∀ a ∈ s.pool ++ s.queue.map Item.arr, a < s.arrays.length
  queue : ∀ it ∈ s.queue, s.contents it = it.bytes
  jobs : ∀ j ∈ s.jobs, decodeFrame j.item.bytes = .ok j.frame ∧ j.item.arr < s.arrays.length
  log : ∀ e ∈ s.log, (∀ v, e.2 ≠ .request v) → decodeFrame e.1 = .ok e.2

theorem contents_append {s : Pool} {x : List Bytes} {it : Item} (h : it.arr < s.arrays.length) :
    (((s.arrays ++ x)[it.arr]?).getD []).take it.len = s.contents it := by
  rw [List.getElem?_append_left h]; rfl

theorem contents_set {s : Pool} {a : Nat} {x : Bytes} {it : Item} (h : it.arr ≠ a) :
    (((s.arrays.set a x)[it.arr]?).getD []).take it.len = s.contents it := by
  rw [List.getElem?_set_ne (Ne.symm h)]; rfl

theorem fresh_inv {s : Pool} (hi : Inv s) (p : Bytes) (e : Nat) : Inv (s.fresh p e) := by
  refine ⟨?_, ?_, ?_, ?_, hi.log⟩
  · show (s.pool ++ (s.queue ++ [_]).map Item.arr).Nodup
    rw [List.map_append, ← List.append_assoc]
    refine List.nodup_append.mpr ⟨hi.nodup, by simp, ?_⟩
    intro a ha b hb
    simp only [List.map_cons, List.map_nil, List.mem_singleton] at hb
    have := hi.bound a ha
    omega
  · intro a ha
    have ha' : a ∈ (s.pool ++ s.queue.map Item.arr) ∨ a = s.arrays.length := by
      simp only [Pool.fresh, List.map_append, List.mem_append, List.map_cons, List.map_nil, List.mem_singleton] at ha
      rcases ha with ha | ha | ha
      · exact Or.inl (by simp [ha])
      · exact Or.inl (List.mem_append.mpr (Or.inr ha))
      · exact Or.inr ha
    show a < (s.arrays ++ [_]).length
    rw [List.length_append]
    rcases ha' with ha | ha
    · have := hi.bound a ha; simp; omega
    · simp [ha]
  · intro it hit
    simp only [Pool.fresh, List.mem_append, List.mem_singleton] at hit
    show (((s.arrays ++ [p ++ List.replicate e 0])[it.arr]?).getD []).take it.len = _
    rcases hit with hit | rfl
    · rw [contents_append (hi.bound _ (List.mem_append.mpr (Or.inr (List.mem_map.mpr ⟨it, hit, rfl⟩)))), hi.queue it hit]
    · simp
  · intro j hj
    have := hi.jobs j hj
    exact ⟨this.1, by show j.item.arr < (s.arrays ++ [_]).length; simp; omega⟩

theorem mem_of_eraseIdx {α : Type} {l : List α} {i : Nat} {x : α} (h : x ∈ l.eraseIdx i) : x ∈ l :=
  (List.eraseIdx_sublist l i).mem h

theorem erase_inv {s : Pool} (hi : Inv s) (i : Nat) : Inv { s with pool := s.pool.eraseIdx i } := by
  refine ⟨?_, ?_, hi.queue, hi.jobs, hi.log⟩
  · exact List.Sublist.nodup ((List.eraseIdx_sublist _ _).append (List.Sublist.refl _)) hi.nodup
  · intro a ha
    apply hi.bound a
    simp only [List.mem_append] at ha ⊢
    rcases ha with ha | ha
    · exact Or.inl (mem_of_eraseIdx ha)
    · exact Or.inr ha

theorem nodup_eraseIdx_not_mem {l : List Nat} {i a : Nat} (h : l[i]? = some a) (hn : l.Nodup) : a ∉ l.eraseIdx i := by
  induction l generalizing i with
  | nil => simp at h
  | cons x l ih =>
    rw [List.nodup_cons] at hn
    cases i with
    | zero => simp at h; subst h; simpa using hn.1
    | succ i =>
      simp only [List.getElem?_cons_succ] at h
      simp only [List.eraseIdx_cons_succ, List.mem_cons, not_or]
      refine ⟨?_, ih h hn.2⟩
      intro hx; subst hx; exact hn.1 (List.mem_of_getElem? h)

theorem push_inv {s : Pool} (hi : Inv s) (p : Bytes) (g : Option Nat) (e : Nat) : Inv (s.push p g e) := by
  unfold Pool.push
  cases g with
  | none => exact fresh_inv hi p e
  | some i =>
    cases ha : s.pool[i]? with
    | none => simp only [ha]; exact fresh_inv hi p e
    | some a =>
      simp only [ha]
      have hmem : a ∈ s.pool := List.mem_of_getElem? ha
      have hq : ∀ it ∈ s.queue, it.arr ≠ a := by
        intro it hit he
        exact (List.nodup_append.mp hi.nodup).2.2 a hmem it.arr (List.mem_map.mpr ⟨it, hit, rfl⟩) he.symm
      have hab : a < s.arrays.length := hi.bound a (by simp [hmem])
      split
      · rename_i hfit
        have hi2 := erase_inv hi i
        refine ⟨?_, ?_, ?_, ?_, hi.log⟩
        · show (s.pool.eraseIdx i ++ (s.queue ++ [_]).map Item.arr).Nodup
          rw [List.map_append, ← List.append_assoc]
          refine List.nodup_append.mpr ⟨hi2.nodup, by simp, ?_⟩
          intro x hx b hb
          simp only [List.map_cons, List.map_nil, List.mem_singleton] at hb
          subst hb
          simp only [List.mem_append] at hx
          intro hxb; subst hxb
          rcases hx with hx | hx
          · exact nodup_eraseIdx_not_mem ha (List.nodup_append.mp hi.nodup).1 hx
          · obtain ⟨it, hit, he⟩ := List.mem_map.mp hx
            exact hq it hit he
        · intro x hx
          show x < (s.arrays.set a _).length
          rw [List.length_set]
          simp only [List.map_append, List.mem_append, List.map_cons, List.map_nil, List.mem_singleton] at hx
          rcases hx with hx | hx | hx
          · exact hi.bound x (by simp [mem_of_eraseIdx hx])
          · exact hi.bound x (List.mem_append.mpr (Or.inr hx))
          · omega
        · intro it hit
          simp only [List.mem_append, List.mem_singleton] at hit
          show (((s.arrays.set a _)[it.arr]?).getD []).take it.len = _
          rcases hit with hit | rfl
          · rw [contents_set (hq it hit), hi.queue it hit]
          · rw [List.getElem?_set_self hab]; simp
        · intro j hj
          have := hi.jobs j hj
          exact ⟨this.1, by show j.item.arr < (s.arrays.set a _).length; rw [List.length_set]; exact this.2⟩
      · exact fresh_inv (erase_inv hi i) p e

/-- Taking the first item off the queue. -/
theorem shift_inv {s : Pool} (hi : Inv s) {it : Item} {q : List Item} (hq : s.queue = it :: q) :
    Inv { s with queue := q, pool := s.pool ++ [it.arr] } := by
  have h1 := hi.nodup
  have h2 := hi.bound
  rw [hq] at h1 h2
  refine ⟨?_, ?_, ?_, hi.jobs, hi.log⟩
  · show (s.pool ++ [it.arr] ++ q.map Item.arr).Nodup
    simpa [List.append_assoc] using h1
  · intro a ha
    apply h2 a
    simp only [List.mem_append, List.map_cons, List.mem_cons, List.mem_singleton, List.not_mem_nil, or_false] at ha ⊢
    rcases ha with (ha | ha) | ha
    · exact Or.inl ha
    · exact Or.inr (Or.inl ha)
    · exact Or.inr (Or.inr ha)
  · intro x hx; exact hi.queue x (by rw [hq]; simp [hx])

theorem recv_inv {s s' : Pool} (hi : Inv s) (h : s.recv = .ok s') : Inv s' := by
  unfold Pool.recv at h
  cases hq : s.queue with
  | nil => simp only [hq] at h; cases h; exact hi
  | cons it q =>
    simp only [hq] at h
    have hs := shift_inv hi hq
    have hc : s.contents it = it.bytes := hi.queue it (by rw [hq]; simp)
    have hb : it.arr < s.arrays.length := hi.bound _ (by rw [hq]; simp)
    rw [hc] at h
    cases hd : decodeFrame it.bytes with
    | panic => rw [hd] at h; cases h
    | err m => rw [hd] at h; cases h; exact hs
    | ok f =>
      rw [hd] at h
      cases h
      have hlog : ∀ f', f = f' → (∀ v, f' ≠ .request v) →
          ∀ e ∈ s.log ++ [(it.bytes, f')], (∀ v, e.2 ≠ .request v) → decodeFrame e.1 = .ok e.2 := by
        intro f' hf' _ e he hne
        simp only [List.mem_append, List.mem_singleton] at he
        rcases he with he | rfl
        · exact hi.log e he hne
        · rw [hd, hf']
      cases f with
      | request v =>
        refine ⟨hs.nodup, hs.bound, hs.queue, ?_, hs.log⟩
        intro j hj
        simp only [Pool.act, List.mem_append, List.mem_singleton] at hj
        rcases hj with hj | rfl
        · exact hs.jobs j hj
        · exact ⟨hd, hb⟩
      | cancel v => exact ⟨hs.nodup, hs.bound, hs.queue, hs.jobs, hlog _ rfl (fun _ h => nomatch h)⟩
      | error v => exact ⟨hs.nodup, hs.bound, hs.queue, hs.jobs, hlog _ rfl (fun _ h => nomatch h)⟩
      | requestN v => exact ⟨hs.nodup, hs.bound, hs.queue, hs.jobs, hlog _ rfl (fun _ h => nomatch h)⟩
      | payload v => exact ⟨hs.nodup, hs.bound, hs.queue, hs.jobs, hlog _ rfl (fun _ h => nomatch h)⟩

/-- All jobs are requests. -/
def Requests (s : Pool) : Prop := ∀ j ∈ s.jobs, ∃ v, j.frame = .request v

theorem job_inv {s : Pool} (hi : Inv s) (hr : Requests s) (i : Nat) : Inv (s.job i) := by
  unfold Pool.job
  cases hj : s.jobs[i]? with
  | none => exact hi
  | some j =>
    simp only [hj]
    refine ⟨hi.nodup, hi.bound, hi.queue, fun x hx => hi.jobs x (mem_of_eraseIdx hx), ?_⟩
    intro e he hne
    simp only [List.mem_append, List.mem_singleton] at he
    rcases he with he | rfl
    · exact hi.log e he hne
    · obtain ⟨v, hv⟩ := hr j (List.mem_of_getElem? hj)
      rw [hv] at hne
      exact absurd rfl (hne _)

theorem push_jobs (s : Pool) (p : Bytes) (g : Option Nat) (e : Nat) : (s.push p g e).jobs = s.jobs := by
  unfold Pool.push
  cases g with
  | none => rfl
  | some i =>
    cases ha : s.pool[i]? with
    | none => simp only [ha]; rfl
    | some a =>
      simp only [ha]
      split <;> rfl

theorem push_log (s : Pool) (p : Bytes) (g : Option Nat) (e : Nat) : (s.push p g e).log = s.log := by
  unfold Pool.push
  cases g with
  | none => rfl
  | some i =>
    cases ha : s.pool[i]? with
    | none => simp only [ha]; rfl
    | some a =>
      simp only [ha]
      split <;> rfl

theorem recv_jobs {s s' : Pool} (h : s.recv = .ok s') : ∀ j ∈ s'.jobs, j ∈ s.jobs ∨
    ∃ it q v, s.queue = it :: q ∧ j = ⟨it, .request v⟩ := by
  unfold Pool.recv at h
  cases hq : s.queue with
  | nil => simp only [hq] at h; cases h; exact fun j hj => Or.inl hj
  | cons it q =>
    simp only [hq] at h
    cases hd : decodeFrame (s.contents it) with
    | panic => rw [hd] at h; cases h
    | err m => rw [hd] at h; cases h; exact fun j hj => Or.inl hj
    | ok f =>
      rw [hd] at h
      cases h
      intro j hj
      cases f with
      | request v =>
        simp only [Pool.act, List.mem_append, List.mem_singleton] at hj
        rcases hj with hj | rfl
        · exact Or.inl hj
        · exact Or.inr ⟨it, q, v, rfl, rfl⟩
      | cancel v => exact Or.inl hj
      | error v => exact Or.inl hj
      | requestN v => exact Or.inl hj
      | payload v => exact Or.inl hj

theorem requests_step {s s' : Pool} {a : Act} (hr : Requests s) (h : s.step a = .ok s') : Requests s' := by
  cases a with
  | push p g e => cases h; intro j hj; rw [push_jobs] at hj; exact hr j hj
  | recv =>
    intro j hj
    rcases recv_jobs h j hj with h1 | ⟨it, q, v, _, rfl⟩
    · exact hr j h1
    · exact ⟨v, rfl⟩
  | job i =>
    cases h
    unfold Pool.job
    cases hj : s.jobs[i]? with
    | none => exact hr
    | some j => simp only [hj]; exact fun x hx => hr x (mem_of_eraseIdx hx)

theorem step_inv {s s' : Pool} {a : Act} (hi : Inv s) (hr : Requests s) (h : s.step a = .ok s') : Inv s' := by
  cases a with
  | push p g e => cases h; exact push_inv hi p g e
  | recv => exact recv_inv hi h
  | job i => cases h; exact job_inv hi hr i

theorem run_inv (acts : List Act) : ∀ {s s' : Pool}, Inv s → Requests s → s.run acts = .ok s' → Inv s' := by
  induction acts with
  | nil => intro s s' hi _ h; cases h; exact hi
  | cons a as ih =>
    intro s s' hi hr h
    rw [Pool.run] at h
    cases hs : s.step a with
    | ok x => rw [hs] at h; exact ih (step_inv hi hr hs) (requests_step hr hs) h
    | err m => rw [hs] at h; cases h
    | panic => rw [hs] at h; cases h

theorem init_inv : Inv {} := ⟨by simp, by simp, by simp, by simp, by simp⟩

/-- **C65**, part of the claim: in every run, whatever buffers the pool hands out, frames other than requests are
acted upon exactly as they were handed over. -/
theorem other_frames_intact_partial (acts : List Act) (s : Pool) (h : Pool.run {} acts = .ok s)
    (raw : Bytes) (f : Frame) (hm : (raw, f) ∈ s.log) (hf : ∀ v, f ≠ .request v) : decodeFrame raw = .ok f :=
  (run_inv acts init_inv (fun _ h => nomatch h) h).log _ hm hf

/-- No buffer is written to while the goroutine of a request in it has yet to run. -/
def Gentle : Pool → List Act → Prop
  | _, [] => True
  | s, a :: as => (∀ p i e x, a = .push p (some i) e → s.pool[i]? = some x → ∀ j ∈ s.jobs, j.item.arr ≠ x) ∧
      ∀ s', s.step a = .ok s' → Gentle s' as

structure Inv2 (s : Pool) : Prop where
  jobs : ∀ j ∈ s.jobs, s.contents j.item = j.item.bytes
  log : ∀ e ∈ s.log, decodeFrame e.1 = .ok e.2

theorem fresh_contents {s : Pool} {p : Bytes} {e : Nat} {it : Item} (h : it.arr < s.arrays.length) :
    (s.fresh p e).contents it = s.contents it := contents_append h

theorem push_inv2 {s : Pool} (hi : Inv s) (h2 : Inv2 s) {p : Bytes} {g : Option Nat} {e : Nat}
    (hg : ∀ i x, g = some i → s.pool[i]? = some x → ∀ j ∈ s.jobs, j.item.arr ≠ x) : Inv2 (s.push p g e) := by
  refine ⟨?_, by rw [push_log]; exact h2.log⟩
  intro j hj
  rw [push_jobs] at hj
  have hb := (hi.jobs j hj).2
  rw [← h2.jobs j hj]
  unfold Pool.push
  cases g with
  | none => exact fresh_contents hb
  | some i =>
    cases ha : s.pool[i]? with
    | none => simp only [ha]; exact fresh_contents hb
    | some a =>
      simp only [ha]
      split
      · exact contents_set (hg i a rfl ha j hj)
      · exact fresh_contents (s := { s with pool := s.pool.eraseIdx i }) hb

theorem recv_inv2 {s s' : Pool} (hi : Inv s) (h2 : Inv2 s) (h : s.recv = .ok s') : Inv2 s' := by
  have hj := recv_jobs h
  have ha : s'.arrays = s.arrays := by
    unfold Pool.recv at h
    split at h
    · cases h; rfl
    · rename_i it q _
      split at h
      · rename_i f _
        cases h
        cases f <;> rfl
      · cases h; rfl
      · cases h
  refine ⟨?_, ?_⟩
  · intro j hj'
    have hc : s'.contents j.item = s.contents j.item := by simp only [Pool.contents, ha]
    rw [hc]
    rcases hj j hj' with h1 | ⟨it, q, v, hq, rfl⟩
    · exact h2.jobs j h1
    · exact hi.queue it (by rw [hq]; simp)
  · unfold Pool.recv at h
    cases hq : s.queue with
    | nil => simp only [hq] at h; cases h; exact h2.log
    | cons it q =>
      simp only [hq] at h
      have hc : s.contents it = it.bytes := hi.queue it (by rw [hq]; simp)
      rw [hc] at h
      cases hd : decodeFrame it.bytes with
      | panic => rw [hd] at h; cases h
      | err m => rw [hd] at h; cases h; exact h2.log
      | ok f =>
        rw [hd] at h
        cases h
        have hlog : ∀ e ∈ s.log ++ [(it.bytes, f)], decodeFrame e.1 = .ok e.2 := by
          intro e he
          simp only [List.mem_append, List.mem_singleton] at he
          rcases he with he | rfl
          · exact h2.log e he
          · exact hd
        cases f with
        | request v => exact h2.log
        | cancel v => exact hlog
        | error v => exact hlog
        | requestN v => exact hlog
        | payload v => exact hlog

theorem job_inv2 {s : Pool} (hi : Inv s) (h2 : Inv2 s) (i : Nat) : Inv2 (s.job i) := by
  unfold Pool.job
  cases hj : s.jobs[i]? with
  | none => exact h2
  | some j =>
    simp only [hj]
    have hm := List.mem_of_getElem? hj
    refine ⟨fun x hx => h2.jobs x (mem_of_eraseIdx hx), ?_⟩
    intro e he
    simp only [List.mem_append, List.mem_singleton] at he
    rcases he with he | rfl
    · exact h2.log e he
    · have hd := (hi.jobs j hm).1
      show decodeFrame j.item.bytes = .ok (seen j.frame (s.contents j.item))
      rw [h2.jobs j hm, seen_same hd, hd]

theorem run_inv2 (acts : List Act) : ∀ {s s' : Pool}, Inv s → Requests s → Inv2 s → Gentle s acts →
    s.run acts = .ok s' → Inv2 s' := by
  induction acts with
  | nil => intro s s' _ _ hi _ h; cases h; exact hi
  | cons a as ih =>
    intro s s' hi hr h2 hg h
    rw [Pool.run] at h
    cases hs : s.step a with
    | ok x =>
      rw [hs] at h
      refine ih (step_inv hi hr hs) (requests_step hr hs) ?_ (hg.2 x hs) h
      cases a with
      | push p g e => cases hs; exact push_inv2 hi h2 (fun i y he => hg.1 p i e y (by rw [he]))
      | recv => exact recv_inv2 hi h2 hs
      | job i => cases hs; exact job_inv2 hi h2 i
    | err m => rw [hs] at h; cases h
    | panic => rw [hs] at h; cases h

/-- **C65**, part of the claim: as long as the pool does not hand out the buffer of a request whose goroutine has
yet to run, every frame is acted upon as it was handed over. Missing: any other behaviour of the pool. -/
theorem requests_intact_partial (acts : List Act) (s : Pool) (h : Pool.run {} acts = .ok s) (hg : Gentle {} acts)
    (raw : Bytes) (f : Frame) (hm : (raw, f) ∈ s.log) : decodeFrame raw = .ok f :=
  (run_inv2 acts init_inv (fun _ h => nomatch h) ⟨by simp, by simp⟩ hg h).log _ hm

/-- The image of a request with one byte of data. -/
def call (id b : UInt8) : Bytes := [0, 0, 0, id, 16, 0, b]

/-- The goroutine of the first request runs before its buffer is used again. -/
def politeRun : List Act := [.push (call 1 7) none 57, .recv, .job 0, .push (call 3 8) (some 0) 0, .recv, .job 0]

example : ∃ s, Pool.run {} politeRun = .ok s ∧ s.log.length = 2 ∧ s.arrays.length = 1 := ⟨_, rfl, by decide, by decide⟩

example : Gentle {} politeRun := by
  simp only [politeRun, Gentle, Pool.step]
  refine ⟨by simp, fun s' h => ?_⟩
  cases h
  refine ⟨by simp, fun s' h => ?_⟩
  have h := (show Res.ok _ = Res.ok s' from h)
  cases h
  refine ⟨by simp, fun s' h => ?_⟩
  cases h
  refine ⟨?_, fun s' h => ?_⟩
  · intro p i e x _ _ j hj
    exact absurd hj (fun h => nomatch h)
  · cases h
    refine ⟨by simp, fun s' h => ?_⟩
    have h := (show Res.ok _ = Res.ok s' from h)
    cases h
    exact ⟨by simp, fun _ _ => trivial⟩

/-- **C65** is false: a second frame arrives before the goroutine of a request runs, its bytes go to the same
buffer, and the handler of the first request is given the data of the second. -/
theorem request_overwritten_refuted : ∃ s : Pool,
    Pool.run {} [.push (call 1 7) none 57, .recv, .push (call 3 8) (some 0) 0, .job 0] = .ok s ∧
      decodeFrame (call 1 7) = .ok (.request ⟨4, 1, [], [7], false, true, 1⟩) ∧
      s.log = [(call 1 7, .request ⟨4, 1, [], [8], false, true, 1⟩)] := ⟨_, rfl, rfl, by decide⟩

end Iota.Props.WasmPool
