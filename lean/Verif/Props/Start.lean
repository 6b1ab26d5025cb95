import Verif.Model.Start
import Verif.Props.Registry
import Verif.Props.WasmRecv

/-!
# C107 to C110: how a module is started
-/

namespace Iota.Props.Start
open Iota.Go Iota.Operations Iota.Wasm Iota.Start Iota.Props.Wasm Iota.Props.WasmRecv Iota.Spec.Framing Iota.Props.Framing

/-! ## What a module built with the Go library does -/

/-- `__wasmrs_op_list_request` of the Go library: the table is made in memory and handed over.
/repo/go/transport/wasmrs/guest/guest.go:63-89 -/
def handOver (ptr : Nat) (bs : Bytes) : List Start.Act := [.write ptr bs, .opList ptr bs.length]

/-- Sending frames from the buffer at `ptr`: each is put there with its length and handed over. guest.go:562-569 -/
def sendFrames (ptr : Nat) : List Bytes → List Start.Act
  | [] => []
  | m :: ms => .write ptr (packet m) :: .send (packet m).length :: sendFrames ptr ms

theorem memRead_written {mem bs : Bytes} {ptr : Nat} (h : ptr + bs.length ≤ mem.length) :
    memRead (mem.take ptr ++ bs ++ mem.drop (ptr + bs.length)) ptr bs.length = bs := by
  have hl : (mem.take ptr).length = ptr := by simp; omega
  unfold memRead
  rw [if_pos (by simp; omega), List.append_assoc, List.drop_left' hl, List.take_left]

theorem written_length {mem bs : Bytes} {ptr : Nat} (h : ptr + bs.length ≤ mem.length) :
    (mem.take ptr ++ bs ++ mem.drop (ptr + bs.length)).length = mem.length := by
  simp; omega

theorem run_append (i : Inst) (as bs : List Start.Act) : i.run (as ++ bs) =
    match i.run as with
    | .ok i' => i'.run bs
    | r => r := by
  induction as generalizing i with
  | nil => rfl
  | cons a as ih =>
    simp only [List.cons_append, Inst.run]
    cases i.act a with
    | ok i' => exact ih i'
    | err => rfl
    | stuck => rfl
    | panic => rfl

theorem handOver_ok {i : Inst} {ptr : Nat} {bs : Bytes} {t : Table} (h : ptr + bs.length ≤ i.mem.length)
    (ht : fromBytes bs = .ok t) :
    i.run (handOver ptr bs) =
      .ok { i with mem := i.mem.take ptr ++ bs ++ i.mem.drop (ptr + bs.length), ops := t } := by
  simp only [handOver, Inst.run, Inst.act, if_pos h, Inst.opList, memRead_written h, ht]

theorem handOver_err {i : Inst} {ptr : Nat} {bs : Bytes} {e : String} (h : ptr + bs.length ≤ i.mem.length)
    (ht : fromBytes bs = .err e) :
    i.run (handOver ptr bs) =
      .ok { i with mem := i.mem.take ptr ++ bs ++ i.mem.drop (ptr + bs.length), ops := [] } := by
  simp only [handOver, Inst.run, Inst.act, if_pos h, Inst.opList, memRead_written h, ht]

/-- A module that exports the three functions, starts, and is initialised as `i`. -/
structure Starts (m : Module) (i : Inst) : Prop where
  init : m.hasInit = true
  send : m.hasSend = true
  list : m.hasList = true
  runs : ∃ mem, runStart m.mem m.start = some mem ∧ (⟨mem, 0, 0, [], []⟩ : Inst).run m.init = .ok i

theorem Starts.result {m : Module} {i : Inst} (hm : Starts m i) : (Start.Host.new.instantiate m).2 = i.run m.list := by
  obtain ⟨mem, h1, h2⟩ := hm.runs
  rw [Start.Host.instantiate, if_neg (by simp [Start.Host.new]), h1]
  dsimp only
  rw [newInstance, if_neg (by simp [hm.init]), if_neg (by simp [hm.send]), h2]
  dsimp only
  rw [if_pos hm.list]

/-! ## C107: the operations of an instance -/

/-- **C107**, part of the claim: for every history of exports and imports of a module, whatever the module does
before it is asked for its operations (provided that does not fail), the instance has the operations of the module:
each exported operation is there, and the index of each is that of the handler exported under this name and kind. What
else the instance had is as it was.
Missing: names of 2^16 bytes or more and tables of 4 GiB, and tables that the host does not understand
(`unknown_table_refuted`). -/
theorem start_operations_partial {H : Type} (es : List (Registry.Ev H))
    (hn : ∀ o ∈ Registry.operationList (Registry.run es), o.ns.length < 2 ^ 16 ∧ o.op.length < 2 ^ 16)
    (hs : 10 + ((Registry.operationList (Registry.run es)).map fun o => 12 + o.ns.length + o.op.length).sum < 2 ^ 32) :
    ∃ bs, toBytes (Registry.operationList (Registry.run es)) = .ok bs ∧
      ∀ (m : Module) (i : Inst) (ptr : Nat), Starts m i → m.list = handOver ptr bs → ptr + bs.length ≤ i.mem.length →
        ∃ i', (Start.Host.new.instantiate m).2 = .ok i' ∧ i'.recvCh = i.recvCh ∧ i'.sendPtr = i.sendPtr ∧ i'.recvPtr = i.recvPtr ∧
          (∀ k x h, .exp k x h ∈ es → ∃ o ∈ i'.ops, o.type = k.code ∧ o.direction = 1 ∧ o.ns = x.ns ∧ o.op = x.op) ∧
          (∀ o ∈ i'.ops, o.direction = 1 → ∃ k h, o.type = k.code ∧ .exp k ⟨o.ns, o.op⟩ h ∈ es ∧
            Registry.getHandler (Registry.run es) k o.index = some h) := by
  obtain ⟨t, ⟨bs, h1, h2⟩, h3, h4⟩ := Registry.advertised_index_reaches_handler es hn hs
  refine ⟨bs, h1, fun m i ptr hm e6 e7 => ?_⟩
  refine ⟨{ i with mem := i.mem.take ptr ++ bs ++ i.mem.drop (ptr + bs.length), ops := t }, ?_, rfl, rfl, rfl, h3, ?_⟩
  · rw [hm.result, e6, handOver_ok e7 h2]
  · intro o ho hd
    obtain ⟨k, h, a, b, c, _⟩ := h4 o ho hd
    exact ⟨k, h, a, b, c⟩

/-- **C107** does not hold for a table that the host cannot read, for example one of another version: the instance
starts, without an error, and has no operations. -/
theorem unknown_table_refuted (bs : Bytes) (e : String) (hb : fromBytes bs = .err e) (m : Module) (i : Inst) (ptr : Nat)
    (hm : Starts m i) (hl : m.list = handOver ptr bs) (hp : ptr + bs.length ≤ i.mem.length) :
    ∃ i', (Start.Host.new.instantiate m).2 = .ok i' ∧ i'.ops = [] :=
  ⟨_, by rw [hm.result, hl, handOver_err hp hb], rfl⟩

/-- A module with one exported function, `ab.c`, that starts with two stores. -/
def sample (mem : Bytes) (bs : Bytes) (frames : List Bytes) : Module :=
  ⟨true, true, true, mem, [.write 0 [1, 2]], .initBuffers 4 60 :: sendFrames 60 frames, handOver 8 bs⟩

def sampleTable : Table := [⟨0, 1, 1, [0x61, 0x62], [0x63]⟩]

def sampleBytes : Bytes := magic ++ [0, 1, 0, 0, 0, 1, 1, 1, 0, 0, 0, 0, 0, 2, 0x61, 0x62, 0, 1, 0x63, 0, 0]

example : toBytes (Registry.operationList (Registry.run [.exp .rr ⟨[0x61, 0x62], [0x63]⟩ "h"])) = .ok sampleBytes ∧
    (match (Start.Host.new.instantiate (sample (List.replicate 100 0) sampleBytes [[7], [8, 9]])).2 with
      | .ok i => decide (i.ops = sampleTable ∧ i.recvCh = [[7], [8, 9]] ∧ i.recvPtr = 60)
      | _ => false) = true := by decide +kernel

/-- The witness of `unknown_table_refuted`: the same table with version 2. -/
example : fromBytes (magic ++ [0, 2] ++ sampleBytes.drop 6) = .err "Unknown operation table version" ∧
    (match (Start.Host.new.instantiate (sample (List.replicate 100 0) (magic ++ [0, 2] ++ sampleBytes.drop 6) [])).2 with
      | .ok i => decide (i.ops = [])
      | _ => false) = true := by decide +kernel

/-! ## C108: the start of a module ends -/

theorem hostLoop_count (fuel : Nat) (b : Bytes) : 3 * (hostLoop fuel b).1.length ≤ b.length := by
  induction fuel generalizing b with
  | zero => simp [hostLoop]
  | succ n ih =>
    rw [hostLoop]
    split
    · simp
    · split
      · simp
      · split
        · simp; omega
        · have := ih ((b.drop 3).drop (beNat (b.take 3)))
          simp only [List.length_drop, List.length_cons] at *
          omega

theorem memRead_length (mem : Bytes) (ptr size : Nat) : (memRead mem ptr size).length ≤ size := by
  unfold memRead
  split
  · simp; omega
  · simp

/-- How many bytes the actions hand over in all. -/
def handed : List Start.Act → Nat
  | [] => 0
  | .send pos :: as => pos + handed as
  | _ :: as => handed as

theorem handed_append (as bs : List Start.Act) : handed (as ++ bs) = handed as + handed bs := by
  induction as with
  | nil => simp [handed]
  | cons a as ih => cases a <;> simp [handed, ih] <;> omega

theorem run_no_panic (i : Inst) (as : List Start.Act) : i.run as ≠ .panic := by
  induction as generalizing i with
  | nil => simp [Inst.run]
  | cons a as ih =>
    have ha : i.act a ≠ .panic := by
      cases a with
      | write p bs => simp only [Inst.act]; split <;> simp
      | initBuffers s r => simp [Inst.act]
      | opList p n => simp only [Inst.act, Inst.opList]; split <;> simp
      | send n =>
        simp only [Inst.act, Inst.hostSend]
        split
        · simp
        · split <;> simp
      | trap => simp [Inst.act]
    rw [Inst.run]
    cases h : i.act a with
    | ok i' => exact ih i'
    | err => simp
    | stuck => simp
    | panic => exact absurd h ha

theorem run_no_stuck (i : Inst) (as : List Start.Act) (h : 3 * i.recvCh.length + handed as ≤ 302) :
    i.run as ≠ .stuck ∧ ∀ i', i.run as = .ok i' → 3 * i'.recvCh.length ≤ 3 * i.recvCh.length + handed as := by
  induction as generalizing i with
  | nil => simp [Inst.run]
  | cons a as ih =>
    have ha : i.act a ≠ .stuck ∧ ∀ i', i.act a = .ok i' →
        3 * i'.recvCh.length + handed as ≤ 3 * i.recvCh.length + handed (a :: as) := by
      cases a with
      | write p bs => simp only [Inst.act, handed]; split <;> simp; try (intro i' e; subst e; simp)
      | initBuffers s r => simp [Inst.act, handed]
      | opList p n =>
        simp only [Inst.act, Inst.opList, handed]; split <;> simp <;> (intro i' e; subst e; simp)
      | send n =>
        have h1 := hostLoop_count (n + 1) (memRead i.mem i.recvPtr n)
        have h2 := memRead_length i.mem i.recvPtr n
        simp only [handed] at h
        simp only [Inst.act, Inst.hostSend, handed]
        rw [if_neg (by unfold queueCap; omega)]
        split
        · simp; omega
        · simp
      | trap => simp [Inst.act]
    rw [Inst.run]
    cases h' : i.act a with
    | ok i' =>
      have h3 := ha.2 i' h'
      have := ih i' (by omega)
      refine ⟨this.1, fun i'' e => ?_⟩
      have := this.2 i'' e
      omega
    | err => simp
    | stuck => exact absurd h' ha.1
    | panic => simp

/-- **C108**, part of the claim: to start a module that exports `__wasmrs_op_list_request` gives an instance
or an error, whatever the module does, if it hands over at most 302 bytes of frames meanwhile. Missing: see `no_list_refuted` and
`many_frames_refuted`. -/
theorem start_returns_partial (h : Start.Host) (m : Module) (hl : m.hasList = true) (hb : handed m.init + handed m.list ≤ 302) :
    (∃ i, (h.instantiate m).2 = .ok i) ∨ (h.instantiate m).2 = .err := by
  unfold Start.Host.instantiate
  split
  · exact .inr rfl
  · split
    · exact .inr rfl
    · rename_i mem _
      dsimp only
      unfold newInstance
      split
      · exact .inr rfl
      · split
        · exact .inr rfl
        · have h1 := run_no_stuck (⟨mem, 0, 0, [], []⟩ : Inst) m.init (by simp; omega)
          have h2 := run_no_panic (⟨mem, 0, 0, [], []⟩ : Inst) m.init
          cases h3 : (⟨mem, 0, 0, [], []⟩ : Inst).run m.init with
          | ok i =>
            simp only [hl, if_true]
            have h4 := h1.2 i h3
            simp only [List.length_nil] at h4
            have h5 := run_no_stuck i m.list (by omega)
            have h6 := run_no_panic i m.list
            cases h7 : i.run m.list with
            | ok i' => exact .inl ⟨i', rfl⟩
            | err => exact .inr rfl
            | stuck => exact absurd h7 h5.1
            | panic => exact absurd h7 h6
          | err => exact .inr rfl
          | stuck => exact absurd h3 h1.1
          | panic => exact absurd h3 h2

example : handed (sample [] sampleBytes [[7], [8, 9]]).init + handed (sample [] sampleBytes [[7], [8, 9]]).list = 9 := by decide

/-- A module without `__wasmrs_init` or `__wasmrs_send` is an error, whatever else it does. -/
theorem missing_function_err (h : Start.Host) (m : Module) (hm : m.hasInit = false ∨ m.hasSend = false) :
    (h.instantiate m).2 = .err := by
  unfold Start.Host.instantiate
  split
  · rfl
  · split
    · rfl
    · dsimp only
      unfold newInstance
      split
      · rfl
      · rename_i h1
        rcases hm with hm | hm
        · exact absurd hm h1
        · rw [if_pos hm]

/-- **C108** is false of the code: each module that is initialised well but does not export `__wasmrs_op_list_request` ends
the program of the host. -/
theorem no_list_refuted (m : Module) (mem : Bytes) (i : Inst) (h1 : m.hasInit = true) (h2 : m.hasSend = true)
    (h3 : m.hasList = false) (h4 : runStart m.mem m.start = some mem)
    (h5 : (⟨mem, 0, 0, [], []⟩ : Inst).run m.init = .ok i) : (Start.Host.new.instantiate m).2 = .panic := by
  rw [Start.Host.instantiate, if_neg (by simp [Start.Host.new]), h4]
  dsimp only
  rw [newInstance, if_neg (by simp [h1]), if_neg (by simp [h2]), h5]
  dsimp only
  rw [if_neg (by simp [h3])]

example : (Start.Host.new.instantiate ⟨true, true, false, [0, 0], [.write 0 [1]], [.initBuffers 0 1], []⟩).2 = .panic := by decide

/-! ## C109: frames sent while a module starts -/

theorem sendFrames_run (i : Inst) (ms : List Bytes) (hm : ∀ m ∈ ms, m.length < 2 ^ 24 ∧ i.recvPtr + m.length + 3 ≤ i.mem.length) :
    (i.recvCh.length + ms.length ≤ 100 → ∃ mem, mem.length = i.mem.length ∧
      i.run (sendFrames i.recvPtr ms) = .ok { i with mem := mem, recvCh := i.recvCh ++ ms }) ∧
    (i.recvCh.length ≤ 100 → 100 < i.recvCh.length + ms.length → i.run (sendFrames i.recvPtr ms) = .stuck) := by
  induction ms generalizing i with
  | nil => exact ⟨fun _ => ⟨i.mem, rfl, by simp [sendFrames, Inst.run]⟩, fun h1 h2 => by simp at h2; omega⟩
  | cons m ms ih =>
    have h1 := hm m (by simp)
    have hp : i.recvPtr + (packet m).length ≤ i.mem.length := by rw [packet_length]; omega
    have hw : i.run (sendFrames i.recvPtr (m :: ms)) =
        match ({ i with mem := i.mem.take i.recvPtr ++ packet m ++ i.mem.drop (i.recvPtr + (packet m).length) } : Inst).hostSend
          (packet m).length with
        | .ok i' => i'.run (sendFrames i.recvPtr ms)
        | r => r := by
      simp only [sendFrames, Inst.run, Inst.act, if_pos hp]
      rfl
    have hl : hostLoop ((packet m).length + 1) (packet m) = ([m], true) := by
      have := hostLoop_packet (packet m).length m [] h1.1
      rw [List.append_nil, List.append_nil] at this
      rw [this]
      cases hn : (packet m).length with
      | zero => simp [packet_length] at hn
      | succ n => rfl
    have hlen := written_length hp
    simp only [Inst.hostSend, memRead_written hp, hl] at hw
    rw [hw]
    by_cases hc : i.recvCh.length + 1 > queueCap
    · simp only [List.length_singleton, if_pos hc]
      unfold queueCap at hc
      refine ⟨fun h => ?_, fun _ _ => by simp⟩
      simp at h; omega
    · simp only [List.length_singleton, if_neg hc, if_true]
      unfold queueCap at hc
      have := ih { i with mem := i.mem.take i.recvPtr ++ packet m ++ i.mem.drop (i.recvPtr + (packet m).length), recvCh := i.recvCh ++ [m] }
        (fun x hx => by
          have := hm x (by simp [hx])
          simp only [hlen]; exact this)
      simp only [hlen, List.length_append, List.length_singleton, List.length_cons, List.length_nil] at this ⊢
      refine ⟨fun h => ?_, fun h h' => this.2 (by omega) (by omega)⟩
      obtain ⟨mem, e1, e2⟩ := this.1 (by omega)
      exact ⟨mem, e1, by rw [e2]; simp⟩

/-- **C109**, part of the claim: the frames that a module sends while it starts, each from the buffer it announced, are
all in the queue of the instance when the start returns, in the order in which they were sent, and nothing else is.
Missing: more than 100 of them, see `many_frames_refuted`. -/
theorem start_frames_partial (m : Module) (mem : Bytes) (s r : Nat) (fs gs : List Bytes) (bs : Bytes) (t : Table) (ptr : Nat)
    (h1 : m.hasInit = true) (h2 : m.hasSend = true) (h3 : m.hasList = true) (h4 : runStart m.mem m.start = some mem)
    (h5 : m.init = .initBuffers s r :: sendFrames r fs) (h6 : m.list = sendFrames r gs ++ handOver ptr bs)
    (hf : ∀ f ∈ fs ++ gs, f.length < 2 ^ 24 ∧ r + f.length + 3 ≤ mem.length)
    (hb : fromBytes bs = .ok t) (hp : ptr + bs.length ≤ mem.length) (hn : fs.length + gs.length ≤ 100) :
    ∃ i, (Start.Host.new.instantiate m).2 = .ok i ∧ i.recvCh = fs ++ gs ∧ i.ops = t ∧ i.sendPtr = s ∧ i.recvPtr = r := by
  obtain ⟨mem1, e1, e2⟩ := (sendFrames_run ⟨mem, s, r, [], []⟩ fs (fun f h => hf f (by simp [h]))).1 (by simp; omega)
  obtain ⟨mem2, e3, e4⟩ := (sendFrames_run ⟨mem1, s, r, [], fs⟩ gs (fun f h => by
    have := hf f (by simp [h]); dsimp only at e1 ⊢; rw [e1]; exact this)).1 (by simpa using hn)
  have hm : Starts m ⟨mem1, s, r, [], fs⟩ := by
    refine ⟨h1, h2, h3, mem, h4, ?_⟩
    rw [h5, Inst.run]
    simp only [Inst.act]
    simpa using e2
  dsimp only at e1 e3 e4
  refine ⟨_, by rw [hm.result, h6, run_append, e4]; exact handOver_ok (by dsimp only; rw [e3, e1]; exact hp) hb, rfl, rfl, rfl, rfl⟩

/-- **C108** and **C109** are false of the code for a module that sends more than 100 frames while it is
initialised: nothing takes frames from the queue before the start returns, and the start never returns. -/
theorem many_frames_refuted (m : Module) (mem : Bytes) (s r : Nat) (fs : List Bytes) (as : List Start.Act)
    (h1 : m.hasInit = true) (h2 : m.hasSend = true) (h4 : runStart m.mem m.start = some mem)
    (h5 : m.init = .initBuffers s r :: (sendFrames r fs ++ as))
    (hf : ∀ f ∈ fs, f.length < 2 ^ 24 ∧ r + f.length + 3 ≤ mem.length) (hn : 100 < fs.length) :
    (Start.Host.new.instantiate m).2 = .stuck := by
  have e := (sendFrames_run ⟨mem, s, r, [], []⟩ fs hf).2 (by simp) (by simpa using hn)
  rw [Start.Host.instantiate, if_neg (by simp [Start.Host.new]), h4]
  dsimp only
  rw [newInstance, if_neg (by simp [h1]), if_neg (by simp [h2]), h5, Inst.run]
  simp only [Inst.act, run_append]
  dsimp only at e
  rw [e]

example : (Start.Host.new.instantiate (sample (List.replicate 100 0) sampleBytes (List.replicate 101 [5]))).2 = .stuck := by
  decide +kernel

/-! ## C110: several modules in one host -/

/-- Modules started one after the other, with what the starts gave. -/
def all : Start.Host → List Module → Start.Host × List (Ret Inst)
  | h, [] => (h, [])
  | h, m :: ms => ((all (h.instantiate m).1 ms).1, (h.instantiate m).2 :: (all (h.instantiate m).1 ms).2)

/-- The start functions of a module run to their end. -/
def Loads (m : Module) : Prop := ∃ mem, runStart m.mem m.start = some mem

theorem instantiate_used {h : Start.Host} (hu : h.used = true) (m : Module) : h.instantiate m = (h, .err) := by
  rw [Start.Host.instantiate, if_pos hu]

theorem all_used {h : Start.Host} (hu : h.used = true) (ms : List Module) :
    all h ms = (h, List.replicate ms.length .err) := by
  induction ms with
  | nil => rfl
  | cons m ms ih => simp [all, instantiate_used hu, ih, List.replicate_succ]

theorem instantiate_not_loads {m : Module} (hm : ¬ Loads m) : Start.Host.new.instantiate m = (Start.Host.new, .err) := by
  rw [Start.Host.instantiate, if_neg (by simp [Start.Host.new])]
  cases h : runStart m.mem m.start with
  | none => rfl
  | some mem => exact absurd ⟨mem, h⟩ hm

/-- **C110**, part of the claim: modules whose start functions fail leave the host as it was, so that it starts
a module after them just as a new host does. Missing: modules after one that was loaded, see `second_module_refuted`. -/
theorem first_module_partial (ms : List Module) (hs : ∀ m ∈ ms, ¬ Loads m) (m : Module) :
    ((all Start.Host.new ms).1.instantiate m) = Start.Host.new.instantiate m ∧
      (all Start.Host.new ms).2 = List.replicate ms.length .err := by
  have : all Start.Host.new ms = (Start.Host.new, List.replicate ms.length .err) := by
    induction ms with
    | nil => rfl
    | cons x ms ih =>
      simp [all, instantiate_not_loads (hs x (by simp)), ih (fun y hy => hs y (by simp [hy])), List.replicate_succ]
  rw [this]
  exact ⟨rfl, rfl⟩

/-- **C110** is false of the code: once a module was loaded, even if its start failed later, no module starts in this host
any more. All get the same name, and the name is never given back. -/
theorem second_module_refuted (m : Module) (hm : Loads m) (ms : List Module) :
    (all Start.Host.new (m :: ms)).2 = (Start.Host.new.instantiate m).2 :: List.replicate ms.length .err := by
  obtain ⟨mem, hm⟩ := hm
  have : (Start.Host.new.instantiate m).1.used = true := by
    rw [Start.Host.instantiate, if_neg (by simp [Start.Host.new]), hm]
  simp only [all, all_used this]

example : Loads (sample (List.replicate 100 0) sampleBytes []) := ⟨_, rfl⟩

example : ¬ Loads ⟨true, true, true, [0], [.write 0 [1], .send 1], [], []⟩ := by rintro ⟨_, h⟩; cases h

/-- A module whose start functions call a function of the host does not start: there is no instance yet. -/
theorem start_calls_host (h : Start.Host) (m : Module) (as : List Start.Act) (a : Start.Act) (bs : List Start.Act)
    (he : m.start = as ++ a :: bs) (ha : ∀ p x, a ≠ .write p x) : (h.instantiate m).2 = .err := by
  have : ∀ mem, runStart mem (as ++ a :: bs) = none := by
    clear he
    induction as with
    | nil => intro mem; cases a <;> simp_all [runStart]
    | cons x xs ih =>
      intro mem
      cases x <;> simp only [List.cons_append, runStart]
      split
      · exact ih _
      · rfl
  unfold Start.Host.instantiate
  split
  · rfl
  · rw [he, this]

end Iota.Props.Start
