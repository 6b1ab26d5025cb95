import Verif.Model.RustGuest
import Verif.Props.RustFrames
import Verif.Props.RustOperations
import Verif.Props.Wasm
import Verif.Spec.Handler
import Verif.Spec.WasmDispatch

/-! # C90–C93: a WebAssembly module written in Rust -/

namespace Iota.Props.RustGuest
open Iota.Go Iota.Frames Iota.Spec.Framing
open Iota.Props.Framing (packet_length)
open Iota.Props.Wasm (take3_packet drop3_packet beNat_len stream_length)

/-! ## Cutting frames out of a buffer -/

theorem beNat_zero_cons (l : Bytes) : beNat (0 :: l) = beNat l := by simp [beNat]

theorem beNat3_lt {l : Bytes} (h : l.length = 3) : beNat l < 2 ^ 24 := by
  have := Go.beNat_lt l; rw [h] at this; simpa using this

/-- **C90** `read_frame` gives a frame exactly when the bytes begin with a packet: the frame is its body, whole. -/
theorem readFrame_iff (s m r : Bytes) :
    Rust.readFrame s = some (m, r) ↔ m.length < 2 ^ 24 ∧ s = packet m ++ r := by
  constructor
  · intro h
    unfold Rust.readFrame at h
    split at h
    · rename_i h3
      split at h
      · rename_i hn
        rw [beNat_zero_cons] at h hn
        simp only [Option.some.injEq, Prod.mk.injEq] at h
        obtain ⟨rfl, rfl⟩ := h
        have hlt := beNat3_lt (l := s.take 3) (by simp; omega)
        have hl : ((s.drop 3).take (beNat (s.take 3))).length = beNat (s.take 3) := by
          rw [List.length_take]; omega
        refine ⟨by omega, ?_⟩
        have hb : beBytes 3 (beNat (s.take 3)) = s.take 3 := by
          have := Go.beBytes_beNat (s.take 3)
          rwa [show (s.take 3).length = 3 by simp; omega] at this
        rw [packet, hl, hb, List.append_assoc, List.take_append_drop, List.take_append_drop]
      · cases h
    · cases h
  · rintro ⟨hm, rfl⟩
    unfold Rust.readFrame
    rw [if_pos (by simp [packet_length]; omega), take3_packet, drop3_packet, beNat_zero_cons, beNat_len hm,
      if_pos (by simp), List.take_left, List.drop_left]

example : Rust.readFrame ([0, 0, 2, 7, 8] ++ [9]) = some ([7, 8], [9]) ∧ Rust.readFrame [0, 0, 2, 7] = none := by decide

theorem readLoop_stream (ms : List Bytes) (hm : ∀ m ∈ ms, m.length < 2 ^ 24) (r : Bytes) :
    ∀ fuel, ms.length < fuel → Rust.readLoop fuel (stream ms).length (stream ms ++ r) = some ms := by
  induction ms with
  | nil =>
    intro fuel hf
    cases fuel with
    | zero => simp at hf
    | succ n => rfl
  | cons m ms ih =>
    intro fuel hf
    cases fuel with
    | zero => simp at hf
    | succ n =>
      have h := hm m (by simp)
      have ih := ih (fun x hx => hm x (by simp [hx])) n (by simp at hf; omega)
      have hl : (stream (m :: ms)).length = (m.length + 2 + (stream ms).length) + 1 := by
        simp [stream, packet_length]; omega
      have hr : Rust.readFrame (stream (m :: ms) ++ r) = some (m, stream ms ++ r) :=
        (readFrame_iff _ _ _).2 ⟨h, by rw [stream, List.append_assoc]⟩
      rw [hl, Rust.readLoop, hr]
      simp only
      rw [show m.length + 2 + (stream ms).length + 1 - ((stream (m :: ms) ++ r).length - (stream ms ++ r).length) =
        (stream ms).length by simp [stream, packet_length], ih]
      rfl

/-- **C90** A module written in Rust reads out of its buffer exactly the frames that were written there, in order. -/
theorem rust_guest_reads (ms : List Bytes) (hm : ∀ m ∈ ms, m.length < 2 ^ 24) (r : Bytes) :
    Rust.readFrames (stream ms ++ r) (stream ms).length = some ms :=
  readLoop_stream ms hm r _ (by have := stream_length ms; simp; omega)

theorem readLoop_of_guestLoop : ∀ fuel todo buf ms, Wasm.guestLoop fuel todo buf = (ms, true) →
    Rust.readLoop fuel todo buf = some ms := by
  intro fuel
  induction fuel with
  | zero => intro todo buf ms h; simp [Wasm.guestLoop] at h
  | succ n ih =>
    intro todo buf ms h
    cases todo with
    | zero =>
      simp only [Wasm.guestLoop, Prod.mk.injEq, and_true] at h
      subst h; rfl
    | succ t =>
      rw [Wasm.guestLoop] at h
      split at h
      · simp at h
      split at h
      · simp at h
      split at h
      · simp at h
      rename_i h1 h2 h3
      rw [Rust.readLoop]
      have hr : Rust.readFrame buf = some ((buf.drop 3).take (beNat (buf.take 3)), buf.drop (3 + beNat (buf.take 3))) := by
        unfold Rust.readFrame
        rw [if_pos (by omega), beNat_zero_cons, if_pos (by simp; omega), List.drop_drop]
      rw [hr]
      simp only
      rw [show buf.length - (buf.drop (3 + beNat (buf.take 3))).length = 3 + beNat (buf.take 3) by simp; omega]
      simp only [Prod.mk.injEq] at h
      rw [ih _ _ _ (Prod.ext rfl h.2 :
        Wasm.guestLoop n _ (buf.drop (3 + beNat (buf.take 3))) = (_, true))]
      rw [← h.1]; rfl

/-- **C90** Whatever a module written in Go reads out of its buffer without a trap, a module written in Rust reads the
same: C44 and C45, which are about the Go host and the bytes in the buffer, hold with a Rust module too. -/
theorem rust_guest_reads_as_go (mem : Bytes) (n : Nat) (ms : List Bytes) (h : Wasm.guestSend mem n = (ms, true)) :
    Rust.readFrames mem n = some ms := readLoop_of_guestLoop _ _ _ _ h

example : Wasm.guestSend (stream [[0, 0, 0, 1, 0x24, 0]] ++ [1, 2]) 9 = ([[0, 0, 0, 1, 0x24, 0]], true) := by decide

/-- The socket handles frames one after the other, as `Sock.run` of their arrivals; a crash is a crash. -/
theorem takeFrames_run (fs : List Frame) (bs : List Bytes) (hb : bs.map Rust.decode = fs.map .ok) :
    ∀ (s : Rust.Sock) (e : List Frame),
      (∀ s', s.run (fs.map .recv) = some (.ok s') → Rust.takeFrames bs (s, e) = .ok (s', e)) ∧
      (s.run (fs.map .recv) = some .panic → Rust.takeFrames bs (s, e) = .panic) := by
  induction fs generalizing bs with
  | nil =>
    intro s e
    cases bs with
    | nil =>
      refine ⟨fun s' h => ?_, fun h => ?_⟩
      · simp only [List.map_nil, Rust.Sock.run, Option.some.injEq, Res.ok.injEq] at h; subst h; rfl
      · simp [Rust.Sock.run] at h
    | cons b bs => simp at hb
  | cons f fs ih =>
    intro s e
    cases bs with
    | nil => simp at hb
    | cons b bs =>
      simp only [List.map_cons, List.cons.injEq] at hb
      rw [Rust.takeFrames, hb.1]
      simp only [List.map_cons, Rust.Sock.run, Rust.Sock.step]
      cases hp : s.processOnce f with
      | ok t => exact ih bs hb.2 t e
      | err x => simp
      | panic => exact ⟨fun _ h => (by simp at h), fun _ => rfl⟩

/-- The same frames one by one. -/
def AllSame : List Frame → List Frame → Prop
  | [], [] => True
  | f :: fs, g :: gs => Spec.Interop.Same f g ∧ AllSame fs gs
  | _, _ => False

/-- **C90** The frames a Go host writes for a Rust module, whatever else is in the buffer, arrive at the module's socket:
the same frames, in order, each once. -/
theorem rust_guest_takes (fs : List Frame) (hl : ∀ f ∈ fs, Frames.Legal f ∧ f.size < 2 ^ 24)
    (ht : ∀ f ∈ fs, Rust.isUtf8 (RustFrames.text f) = true) (r : Bytes) :
    ∃ gs, AllSame (fs.map Frames.dropRequestFollows) gs ∧
      ∀ (s : Rust.Sock) (e : List Frame),
        (∀ s', s.run (gs.map .recv) = some (.ok s') → Rust.sendFrame (stream (fs.map Framing.image) ++ r)
          (stream (fs.map Framing.image)).length (s, e) = .ok (s', e)) ∧
        (s.run (gs.map .recv) = some .panic → Rust.sendFrame (stream (fs.map Framing.image) ++ r)
          (stream (fs.map Framing.image)).length (s, e) = .panic) := by
  have key : ∀ fs : List Frame, (∀ f ∈ fs, Frames.Legal f ∧ f.size < 2 ^ 24) →
      (∀ f ∈ fs, Rust.isUtf8 (RustFrames.text f) = true) →
      ∃ gs, AllSame (fs.map Frames.dropRequestFollows) gs ∧
        (fs.map Framing.image).map Rust.decode = gs.map .ok := by
    intro fs
    induction fs with
    | nil => intro _ _; exact ⟨[], trivial, rfl⟩
    | cons f fs ih =>
      intro hl ht
      obtain ⟨gs, h1, h2⟩ := ih (fun f hf => hl f (by simp [hf])) (fun f hf => ht f (by simp [hf]))
      have hf := (hl f (by simp)).1
      obtain ⟨g, h3, h4⟩ := (RustFrames.rust_to_go_partial f hf).2 (ht f (by simp))
      rw [RustFrames.rust_encode_wire f hf] at h3
      refine ⟨g :: gs, ⟨h4, h1⟩, ?_⟩
      simp only [List.map_cons]
      rw [h2, Framing.image, h3]
  obtain ⟨gs, h1, h2⟩ := key fs hl ht
  refine ⟨gs, h1, fun s e => ?_⟩
  have hr : Rust.readFrames (stream (fs.map Framing.image) ++ r) (stream (fs.map Framing.image)).length =
      some (fs.map Framing.image) := by
    refine rust_guest_reads _ (fun m hm => ?_) r
    obtain ⟨f, hf, rfl⟩ := List.mem_map.1 hm
    rw [Framing.image_length (hl f hf).1]; exact (hl f hf).2
  rw [Rust.sendFrame, hr]
  exact takeFrames_run gs _ h2 s e

example : (∀ f ∈ [Frame.cancel ⟨3⟩, .requestN ⟨5, 10⟩], Frames.Legal f ∧ f.size < 2 ^ 24) ∧
    ∀ f ∈ [Frame.cancel ⟨3⟩, .requestN ⟨5, 10⟩], Rust.isUtf8 (RustFrames.text f) = true := by decide +kernel

/-! ## The Rust host -/

theorem toU24_len {n : Nat} (h : n < 2 ^ 24) : Rust.toU24 (UInt32.ofNat n) = beBytes 3 n := by
  rw [Rust.toU24, be32, beBytes4_drop, show (UInt32.ofNat n).toNat = n by simp; omega]

theorem hostWrite_small (mem : Bytes) (start : Nat) (f : Frame) (h : (Rust.encode f).length ≤ 4089) :
    Rust.hostWrite mem start f = .ok (mem.take start ++ packet (Rust.encode f) ++
      mem.drop (start + (3 + (Rust.encode f).length)), 3 + (Rust.encode f).length) := by
  have e : Rust.toU24 (UInt32.ofNat (Rust.encode f).length) ++ Rust.encode f = packet (Rust.encode f) := by
    rw [toU24_len (by omega), packet]
  have pl := packet_length (Rust.encode f)
  unfold Rust.hostWrite
  rw [e, if_pos (by rw [pl]; unfold Rust.assumedSize; omega), pl, Nat.add_comm _ 3]

/-- **C90 (partial)** The Rust host: a frame of up to 1021 bytes is written into the buffer of the module and nowhere
else, and the module reads exactly that frame. -/
theorem rust_host_write_partial (mem : Bytes) (start : Nat) (f : Frame) (hs : start + Rust.requestedSize ≤ mem.length)
    (hf : 3 + (Rust.encode f).length ≤ Rust.requestedSize) :
    ∃ mem' n, Rust.hostWrite mem start f = .ok (mem', n) ∧ mem'.length = mem.length ∧
      mem'.take start = mem.take start ∧
      mem'.drop (start + Rust.requestedSize) = mem.drop (start + Rust.requestedSize) ∧
      Rust.readFrames ((mem'.drop start).take Rust.requestedSize) n = some [Rust.encode f] := by
  have hq : Rust.requestedSize = 1024 := rfl
  have pl := packet_length (Rust.encode f)
  have h0 : (mem.take start).length = start := by rw [List.length_take]; omega
  refine ⟨_, _, hostWrite_small mem start f (by omega), ?_, ?_, ?_, ?_⟩
  · simp only [List.length_append, List.length_take, List.length_drop, pl]; omega
  · rw [List.append_assoc, List.take_left' h0]
  · rw [show start + Rust.requestedSize = (mem.take start ++ packet (Rust.encode f)).length +
        (Rust.requestedSize - (3 + (Rust.encode f).length)) by rw [List.length_append, h0, pl]; omega,
      ← List.drop_drop, List.drop_left, List.drop_drop]
    congr 1
    rw [List.length_append, h0, pl]; omega
  · rw [List.append_assoc, List.drop_left' h0, List.take_append, List.take_of_length_le (by rw [pl]; omega)]
    have h := rust_guest_reads [Rust.encode f] (by simp; omega)
      ((mem.drop (start + (3 + (Rust.encode f).length))).take (Rust.requestedSize - (packet (Rust.encode f)).length))
    simp only [stream, List.append_nil] at h
    rw [pl, Nat.add_comm _ 3] at h
    rw [pl, Nat.add_comm _ 3]
    exact h

example : 3 + (Rust.encode (.request ⟨tRequestResponse, 7, [1, 2, 3], [4, 5], false, false, 0⟩)).length ≤
    Rust.requestedSize := by decide

/-- **C90 is false of the code**: the Rust host asks the module for buffers of 1024 bytes but takes them to have 4092. A
longer frame is written over whatever follows the buffer, and the module cannot read it: it answers with an error for
stream 0 and the request is lost. -/
theorem rust_host_overrun_refuted (mem : Bytes) (start : Nat) (f : Frame)
    (h1 : Rust.requestedSize < 3 + (Rust.encode f).length) (h2 : 3 + (Rust.encode f).length ≤ Rust.assumedSize)
    (hs : start + 4092 ≤ mem.length) (s : Rust.Sock) :
    ∃ mem' n, Rust.hostWrite mem start f = .ok (mem', n) ∧
      (mem'.drop (start + Rust.requestedSize)).take (n - Rust.requestedSize) =
        (packet (Rust.encode f)).drop Rust.requestedSize ∧
      (packet (Rust.encode f)).drop Rust.requestedSize ≠ [] ∧
      Rust.sendFrame ((mem'.drop start).take Rust.requestedSize) n (s, []) =
        .ok (s, [.error ⟨0, 0, Rust.lit "Could not read local buffer"⟩]) := by
  have hq : Rust.requestedSize = 1024 := rfl
  have ha : Rust.assumedSize = 4092 := rfl
  have pl := packet_length (Rust.encode f)
  have h0 : (mem.take start).length = start := by rw [List.length_take]; omega
  refine ⟨_, _, hostWrite_small mem start f (by omega), ?_, ?_, ?_⟩
  · rw [List.append_assoc, ← List.drop_drop, List.drop_left' h0,
      List.drop_append_of_le_length (by rw [pl]; omega), List.take_left' (by rw [List.length_drop, pl]; omega)]
  · intro h
    have := congrArg List.length h
    rw [List.length_drop, pl] at this
    simp at this; omega
  · rw [List.append_assoc, List.drop_left' h0, List.take_append_of_le_length (by rw [pl]; omega)]
    have hr : Rust.readFrames ((packet (Rust.encode f)).take Rust.requestedSize) (3 + (Rust.encode f).length) = none := by
      unfold Rust.readFrames
      rw [show 3 + (Rust.encode f).length = (Rust.encode f).length + 2 + 1 by omega, Rust.readLoop]
      have hn : Rust.readFrame ((packet (Rust.encode f)).take Rust.requestedSize) = none := by
        cases hc : Rust.readFrame ((packet (Rust.encode f)).take Rust.requestedSize) with
        | none => rfl
        | some x =>
          exfalso
          obtain ⟨h3, h4⟩ := (readFrame_iff _ x.1 x.2).1 hc
          have h5 := congrArg (List.take 3) h4
          rw [take3_packet, List.take_take, show min 3 Rust.requestedSize = 3 by rw [hq]; rfl,
            ← List.append_nil (packet (Rust.encode f)), take3_packet] at h5
          have h6 := congrArg beNat h5
          rw [beNat_len h3, beNat_len (by omega)] at h6
          have h7 := congrArg List.length h4
          rw [List.length_take, pl, List.length_append, packet_length] at h7
          omega
      rw [hn]
    rw [Rust.sendFrame, hr]
    rfl

/-- Such frames are legal: here one with 2000 bytes of data. -/
theorem overrun_example : Frames.Legal (.payload ⟨1, [], List.replicate 2000 7, false, true, true⟩) ∧
    Rust.requestedSize < 3 + (Rust.encode (.payload ⟨1, [], List.replicate 2000 7, false, true, true⟩)).length ∧
    3 + (Rust.encode (.payload ⟨1, [], List.replicate 2000 7, false, true, true⟩)).length ≤ Rust.assumedSize := by
  generalize hd : List.replicate 2000 (7 : UInt8) = d
  have hl : d.length = 2000 := by rw [← hd, List.length_replicate]
  clear hd
  have h : Frames.Legal (.payload ⟨1, [], d, false, true, true⟩) := by
    simp [Frames.Legal, hl]
  have hs : Frame.size (.payload ⟨1, [], d, false, true, true⟩) = 2006 := by
    simp [Frame.size, Payload.size, headerLen, hl, u32len]
  obtain ⟨b, hb⟩ : ∃ b : Bytes, b.length = 2006 := ⟨List.replicate 2006 0, List.length_replicate⟩
  have e := (RustFrames.same_bytes _ h b (by omega)).1
  rw [e, hs]
  exact ⟨h, by decide, by decide⟩

/-- **C90 is false of the code**: a frame that does not fit the 4092 bytes stops the task of the Rust host that writes
frames; nothing is sent from then on. -/
theorem rust_host_too_large_refuted (mem : Bytes) (start : Nat) (f : Frame)
    (h : Rust.assumedSize < 3 + (Rust.encode f).length) (h24 : (Rust.encode f).length < 2 ^ 24) :
    Rust.hostWrite mem start f = .panic := by
  unfold Rust.hostWrite
  rw [toU24_len h24, if_neg (by simp; omega)]

/-! ## C91: from the module to the host -/

/-- **C91 (partial)** A frame that fits the module's buffer with its length reaches the host, whether this is written in
Rust or Go: it gets exactly this frame, and the memory beyond is left alone. -/
theorem rust_guest_sends_partial (mem : Bytes) (cap : Nat) (m : Bytes) (h : 3 + m.length ≤ cap) (hm : m.length < 2 ^ 24) :
    ∃ mem' n, Rust.sendHostFrame mem cap m = (mem', n) ∧ mem'.drop cap = mem.drop cap ∧
      Rust.hostRead mem' n = some m ∧ Wasm.hostSend mem' n = ([m], true) := by
  have pl := packet_length m
  have e : Rust.sendHostFrame mem cap m = (packet m ++ mem.drop (3 + m.length), 3 + m.length) := by
    rw [Rust.sendHostFrame, if_neg (by omega), if_neg (by omega), toU24_len hm]; rfl
  have ht : (packet m ++ mem.drop (3 + m.length)).take (3 + m.length) = packet m := List.take_left' (by rw [pl]; omega)
  refine ⟨_, _, e, ?_, ?_, ?_⟩
  · rw [show cap = (packet m).length + (cap - (3 + m.length)) by rw [pl]; omega, ← List.drop_drop, List.drop_left,
      List.drop_drop]
    congr 1
    rw [pl]; omega
  · rw [Rust.hostRead, ht, (readFrame_iff (packet m) m []).2 ⟨hm, by simp⟩]; rfl
  · rw [Wasm.hostSend, ht]
    have t3 : (packet m).take 3 = beBytes 3 m.length := by
      have := take3_packet m []; rwa [List.append_nil] at this
    have d3 : (packet m).drop 3 = m := by
      have := drop3_packet m []; rwa [List.append_nil, List.append_nil] at this
    rw [show (packet m ++ mem.drop (3 + m.length)).length + 1 = ((packet m ++ mem.drop (3 + m.length)).length - 1 + 1) + 1 by
      simp [pl]; omega]
    rw [Wasm.hostLoop, if_neg (by omega), if_neg (by omega), t3, d3, beNat_len hm, if_neg (by omega),
      List.drop_eq_nil_of_le (Nat.le_refl _), Wasm.hostLoop]
    rfl

example : 3 + [(1 : UInt8), 2, 3].length ≤ 1024 := by decide

/-- **C91 is false of the code**: a frame longer than the buffer is dropped, and the host called with no bytes at all: the
Rust host answers with a trap, the Go host with nothing. Neither side learns of the loss. -/
theorem rust_guest_drops_refuted (mem : Bytes) (cap : Nat) (m : Bytes) (h : cap < m.length) :
    ∃ mem' n, Rust.sendHostFrame mem cap m = (mem', n) ∧ Rust.hostRead mem' n = none ∧
      Wasm.hostSend mem' n = ([], true) :=
  ⟨mem, 0, by rw [Rust.sendHostFrame, if_pos h], by simp [Rust.hostRead, Rust.readFrame],
    by simp [Wasm.hostSend, Wasm.hostLoop]⟩

/-- **C91 is false of the code**: a frame that fits the buffer only without its length moves the buffer, of which the host
is not told: the host reads what was there before. Here that is the previous frame, which the host gets a second time. -/
theorem rust_guest_stale_refuted (mem : Bytes) (cap : Nat) (old m : Bytes) (h1 : m.length ≤ cap)
    (h2 : cap < 3 + m.length) (h3 : old.length ≤ m.length) (hm : old.length < 2 ^ 24) (hc : 3 + old.length ≤ cap) :
    ∃ mem1 n1 mem2 n2, Rust.sendHostFrame mem cap old = (mem1, n1) ∧ Rust.sendHostFrame mem1 cap m = (mem2, n2) ∧
      Rust.hostRead mem1 n1 = some old ∧ Rust.hostRead mem2 n2 = some old := by
  obtain ⟨mem1, n1, e1, _, e2, _⟩ := rust_guest_sends_partial mem cap old hc hm
  refine ⟨mem1, n1, mem1, 3 + m.length, e1, by rw [Rust.sendHostFrame, if_neg (by omega), if_pos (by omega)], e2, ?_⟩
  rw [Rust.sendHostFrame, if_neg (by omega), if_neg (by omega), toU24_len hm] at e1
  simp only [Prod.mk.injEq] at e1
  rw [← e1.1, Rust.hostRead]
  have pl := packet_length old
  rw [show beBytes 3 old.length ++ old ++ mem.drop (3 + old.length) = packet old ++ mem.drop (3 + old.length) by rfl,
    List.take_append, List.take_of_length_le (by rw [pl]; omega), (readFrame_iff _ _ _).2 ⟨hm, rfl⟩]
  rfl

example : (List.replicate 1022 (7 : UInt8)).length ≤ 1024 ∧ 1024 < 3 + (List.replicate 1022 (7 : UInt8)).length ∧
    [(1 : UInt8), 2].length ≤ (List.replicate 1022 (7 : UInt8)).length := by
  rw [List.length_replicate]; decide

/-! ## C92: handlers -/

/-- The registrations among what a module does while it starts. -/
def registrations {H : Type} : List (Rust.Setup H) → List (Rust.Method × Bytes × Bytes × H)
  | [] => []
  | .register k ns op h :: l => (k, ns, op, h) :: registrations l
  | .addImport _ :: l => registrations l

/-- The numbers of the kinds of request in an operation list, which both languages have to agree on:
`go/operations/operatons.go:22-27`. -/
def kindNumber : Rust.Method → UInt8
  | .rr => 1
  | .fnf => 2
  | .rs => 3
  | .rc => 4

theorem number_eq (k : Rust.Method) : k.number = kindNumber k := by cases k <;> rfl

/-- A module whose `i`-th export is the `i`-th registration, with an index that leads to its handler. -/
def Right {H : Type} (m : Rust.Module H) (rs : List (Rust.Method × Bytes × Bytes × H)) : Prop :=
  m.ops.exports.length = rs.length ∧
  (∀ (k : Rust.Method), (m.handlers k).length ≤ rs.length) ∧
  ∀ (i : Nat) k ns op h, rs[i]? = some (k, ns, op, h) → ∃ o : Rust.Op, m.ops.exports[i]? = some o ∧
    o.kind = kindNumber k ∧ o.ns = ns ∧ o.op = op ∧ m.handler k o.index = some h

theorem handler_append {H : Type} (m : Rust.Module H) (k' k : Rust.Method) (ns op : Bytes) (h' h : H) (i : UInt32)
    (e : m.handler k i = some h) : (m.register k' ns op h').handler k i = some h := by
  simp only [Rust.Module.handler, Rust.Module.register] at e ⊢
  split
  · rename_i hk
    subst hk
    obtain ⟨x, hx, e⟩ := Option.map_eq_some_iff.1 e
    rw [List.getElem?_append_left (by exact (List.getElem?_eq_some_iff.1 hx).1), hx]
    exact congrArg some e
  · exact e

theorem right_register {H : Type} (m : Rust.Module H) (rs : List (Rust.Method × Bytes × Bytes × H)) (hm : Right m rs)
    (k : Rust.Method) (ns op : Bytes) (h : H) (hn : rs.length < 2 ^ 32) :
    Right (m.register k ns op h) (rs ++ [(k, ns, op, h)]) := by
  obtain ⟨h1, h2, h3⟩ := hm
  refine ⟨by simp [Rust.Module.register, Rust.addExport, h1], fun k' => ?_, ?_⟩
  · simp only [Rust.Module.register]
    split <;> have := h2 k <;> have := h2 k' <;> simp <;> omega
  · intro i k' ns' op' h' hi
    by_cases hlt : i < rs.length
    · rw [List.getElem?_append_left hlt] at hi
      obtain ⟨o, ho, e1, e2, e3, e4⟩ := h3 i k' ns' op' h' hi
      refine ⟨o, ?_, e1, e2, e3, handler_append _ _ _ _ _ _ _ _ e4⟩
      simp only [Rust.Module.register, Rust.addExport]
      rw [List.getElem?_append_left (by omega), ho]
    · have hi' := (List.getElem?_eq_some_iff.1 hi).1
      simp only [List.length_append, List.length_singleton] at hi'
      obtain rfl : i = rs.length := by omega
      simp only [List.getElem?_concat_length, Option.some.injEq, Prod.mk.injEq] at hi
      obtain ⟨rfl, rfl, rfl, rfl⟩ := hi
      refine ⟨⟨UInt32.ofNat (m.handlers k).length, k.number, ns, op⟩, ?_, rfl, rfl, rfl, ?_⟩
      · simp only [Rust.Module.register, Rust.addExport]
        rw [← h1, List.getElem?_concat_length]
      · have := h2 k
        simp only [Rust.Module.handler, Rust.Module.register, if_true]
        rw [show (UInt32.ofNat (m.handlers k).length).toNat = (m.handlers k).length by simp; omega,
          List.getElem?_concat_length]
        rfl

theorem right_setup {H : Type} (l : List (Rust.Setup H)) : ∀ (m : Rust.Module H) rs, Right m rs →
    rs.length + (registrations l).length ≤ 2 ^ 32 → Right (m.setup l) (rs ++ registrations l) := by
  induction l with
  | nil => intro m rs h _; simpa [registrations, Rust.Module.setup] using h
  | cons a l ih =>
    intro m rs h hn
    cases a with
    | register k ns op x =>
      simp only [registrations, List.length_cons] at hn
      have := ih (m.register k ns op x) _ (right_register m rs h k ns op x (by omega)) (by simp; omega)
      simpa [registrations, Rust.Module.setup] using this
    | addImport o =>
      exact ih (m.addImport o) rs h hn

/-- **C92** Whatever a module registers and imports while it starts, its operation list has one export for each
registration, in order, of its kind and names, and the index there leads to the handler that was registered. -/
theorem rust_exports {H : Type} (l : List (Rust.Setup H)) (hn : (registrations l).length ≤ 2 ^ 32) :
    (Rust.Module.empty.setup l : Rust.Module H).ops.exports.length = (registrations l).length ∧
    ∀ (i : Nat) k ns op h, (registrations l)[i]? = some (k, ns, op, h) →
      ∃ o : Rust.Op, (Rust.Module.empty.setup l : Rust.Module H).ops.exports[i]? = some o ∧
        o.kind = kindNumber k ∧ o.ns = ns ∧ o.op = op ∧ (Rust.Module.empty.setup l : Rust.Module H).handler k o.index = some h := by
  have := right_setup l Rust.Module.empty [] ⟨rfl, fun _ => by simp [Rust.Module.empty], by simp⟩ (by simpa using hn)
  simp only [List.nil_append] at this
  exact ⟨this.1, this.2.2⟩

/-- **C92** Metadata of four bytes or more, as a Rust caller and a Go caller write it, is read as the index they wrote;
shorter metadata crashes. -/
theorem parse_metadata (i : UInt32) (r : Bytes) : Rust.parseMetadata (be32 i ++ r) = .ok i := by
  rw [Rust.parseMetadata, sliceTo, if_pos (by simp), List.take_left' (by simp), Res.ok_bind, Rust.fromU32,
    if_pos (by simp), be32, beNat_beBytes_of_lt (by simpa using i.toNat_lt)]
  simp

theorem parse_metadata_panics (md : Bytes) : Rust.parseMetadata md = .panic ↔ md.length < 4 := by
  unfold Rust.parseMetadata sliceTo
  by_cases h : 4 ≤ md.length
  · rw [if_pos h, Res.ok_bind, Rust.fromU32, if_pos (by simp; omega)]
    simp; omega
  · rw [if_neg h]
    simp [Res.panic_bind]; omega

/-- **C92** What a Rust caller writes as metadata, a Go peer reads as this index and no parent stream. -/
theorem rust_metadata_to_go (i : UInt32) :
    Spec.Handler.opIndex (Rust.encodeMetadata i) = some i.toNat ∧ Spec.WasmDispatch.parentOf (Rust.encodeMetadata i) = 0 := by
  have h : Rust.encodeMetadata i = be32 i ++ [0, 0, 0, 0] := rfl
  obtain ⟨a, b, c, d, e⟩ : ∃ a b c d, be32 i = [a, b, c, d] := ⟨_, _, _, _, rfl⟩
  have hb : beNat (be32 i) = i.toNat := by rw [be32, beNat_beBytes_of_lt (by simpa using i.toNat_lt)]
  rw [h, e]
  rw [e] at hb
  refine ⟨?_, rfl⟩
  rw [← hb]
  simp [Spec.Handler.opIndex, beNat]
  omega

/-- **C92** A request made with the advertised index, by a Rust or a Go caller (`r` is then the parent's id), runs the
handler registered under the name, with the data of the request. -/
theorem rust_call_reaches {H : Type} (l : List (Rust.Setup H)) (hn : (registrations l).length ≤ 2 ^ 32)
    (n : Nat) (k : Rust.Method) (ns op : Bytes) (h : H) (hr : (registrations l)[n]? = some (k, ns, op, h)) (data r : Bytes) :
    ∃ o : Rust.Op, (Rust.Module.empty.setup l : Rust.Module H).ops.exports[n]? = some o ∧ o.ns = ns ∧ o.op = op ∧
      o.kind = kindNumber k ∧
      (Rust.Module.empty.setup l : Rust.Module H).serve k (be32 o.index ++ r) data = .ok (.run h o.index data) := by
  obtain ⟨o, h1, h2, h3, h4, h5⟩ := (rust_exports l hn).2 n k ns op h hr
  refine ⟨o, h1, h3, h4, h2, ?_⟩
  unfold Rust.Module.serve
  rw [parse_metadata, Res.ok_bind, h5]
  rfl

example : registrations [.addImport ⟨0, 1, [9], [9]⟩, .register .rr [1] [2] "a", .register .rs [1] [3] "b",
    .register .rr [1] [4] "c"] = [(.rr, [1], [2], "a"), (.rs, [1], [3], "b"), (.rr, [1], [4], "c")] ∧
    (Rust.Module.empty.setup [.addImport ⟨0, 1, [9], [9]⟩, .register .rr [1] [2] "a", .register .rs [1] [3] "b",
    .register .rr [1] [4] "c"]).serve .rr (be32 1) [5] = .ok (.run "c" 1 [5]) := ⟨rfl, by decide⟩

/-- **C92** A Go host that reads the module's list finds each registration in it under its names with that index. -/
theorem rust_exports_to_go {H : Type} (l : List (Rust.Setup H)) (hn : (registrations l).length ≤ 2 ^ 32)
    (hv : ∀ o ∈ (Rust.Module.empty.setup l : Rust.Module H).ops.exports ++ (Rust.Module.empty.setup l : Rust.Module H).ops.imports,
      RustOperations.Valid o)
    (hc : (Rust.Module.empty.setup l : Rust.Module H).ops.imports.length +
      (Rust.Module.empty.setup l : Rust.Module H).ops.exports.length < 2 ^ 32)
    (n : Nat) (k : Rust.Method) (ns op : Bytes) (h : H) (hr : (registrations l)[n]? = some (k, ns, op, h)) :
    ∃ t i, Operations.fromBytes (Rust.encodeOps (Rust.Module.empty.setup l : Rust.Module H).ops) = .ok t ∧
      t[n]? = some ⟨i, kindNumber k, 1, ns, op⟩ ∧
      ∀ data r, (Rust.Module.empty.setup l : Rust.Module H).serve k (be32 i ++ r) data = .ok (.run h i data) := by
  have e := RustOperations.rust_to_go_partial _ hv hc []
  rw [List.append_nil] at e
  obtain ⟨o, h1, h2, h3, h4, h5⟩ := (rust_exports l hn).2 n k ns op h hr
  refine ⟨_, o.index, e, ?_, fun data r => ?_⟩
  · rw [List.getElem?_append_left (by
      rw [List.length_map]; exact (List.getElem?_eq_some_iff.1 h1).1), List.getElem?_map, h1, ← h2, ← h3, ← h4]
    rfl
  · unfold Rust.Module.serve
    rw [parse_metadata, Res.ok_bind, h5]
    rfl

/-! ## C93: requests that crash -/

/-- **C93 (partial)** A request crashes a Rust module exactly if its metadata has less than four bytes; with four or more it
runs a handler or is answered with an error. -/
theorem rust_serve_partial {H : Type} (m : Rust.Module H) (k : Rust.Method) (md data : Bytes) :
    (m.serve k md data = .panic ↔ md.length < 4) ∧
    (4 ≤ md.length → (∃ h i, m.serve k md data = .ok (.run h i data) ∧ m.handler k i = some h ∧ i.toNat = beNat (md.take 4)) ∨
      (m.serve k md data = .ok (.error (Rust.lit "No handler found")) ∧
        (m.handlers k).length ≤ beNat (md.take 4))) := by
  by_cases hl : md.length < 4
  · refine ⟨?_, fun h => absurd h (by omega)⟩
    rw [Rust.Module.serve, (parse_metadata_panics md).2 hl]
    simp [hl, Res.panic_bind]
  · obtain ⟨a, b, hm, ha⟩ := exists_split md (show 4 ≤ md.length by omega)
    have hb : be32 (UInt32.ofNat (beNat a)) = a := by
      have h1 := Go.beNat_lt a
      rw [ha] at h1
      rw [be32, show (UInt32.ofNat (beNat a)).toNat = beNat a by simp; omega]
      have := Go.beBytes_beNat a
      rwa [ha] at this
    have hp : Rust.parseMetadata md = .ok (UInt32.ofNat (beNat a)) := by
      rw [hm]; conv => lhs; rw [← hb]
      exact parse_metadata _ _
    have ht : md.take 4 = a := by rw [hm, ← ha, List.take_left]
    have hn : (UInt32.ofNat (beNat a)).toNat = beNat a := by
      have h1 := Go.beNat_lt a
      rw [ha] at h1
      simp; omega
    unfold Rust.Module.serve
    rw [hp, Res.ok_bind, ht]
    cases hh : m.handler k (UInt32.ofNat (beNat a)) with
    | none =>
      refine ⟨by simp [hl], fun _ => Or.inr ⟨rfl, ?_⟩⟩
      simp only [Rust.Module.handler, Option.map_eq_none_iff, List.getElem?_eq_none_iff, hn] at hh
      exact hh
    | some h => exact ⟨by simp [hl], fun _ => Or.inl ⟨h, _, rfl, hh, hn⟩⟩

/-- **C93 is false of the code**: a legal request without metadata crashes every Rust module, whatever it registered. -/
theorem rust_request_crash_refuted : ∃ f, Frames.Legal (.request f) ∧ Rust.isUtf8 (RustFrames.text (.request f)) = true ∧
    ∀ (H : Type) (m : Rust.Module H), m.serve .rr f.metadata f.data = .panic :=
  ⟨⟨tRequestResponse, 1, [], [], false, false, 0⟩, by decide, by decide +kernel,
    fun _ m => (rust_serve_partial m .rr [] []).1.2 (by decide)⟩

/-- **C93 is false of the code**: the later elements of a channel have no metadata when the caller is written in Go (`WasmCaller`),
as the protocol wants; the first of these crashes the task that feeds the handler of a Rust module. -/
theorem rust_channel_crash_refuted (md data : Bytes) : Rust.channelElement md data = .panic ↔ md.length < 4 := by
  rw [Rust.channelElement, ← parse_metadata_panics]
  cases Rust.parseMetadata md with
  | ok i => simp [Res.ok_bind]
  | err e => simp [Res.err_bind]
  | panic => simp [Res.panic_bind]

end Iota.Props.RustGuest
