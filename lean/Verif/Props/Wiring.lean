import Verif.Spec.Wiring
import Verif.Props.Components

/-!
# C170: components wired to one another
-/

namespace Iota.Props.Wiring
open Iota.Go Iota.Msgpack Iota.Registry Iota.Components Iota.Wiring Iota.Spec.Components Iota.Spec.Wiring Iota.Props.Components

theorem value_text : valuePort = text "value" := by decide +kernel
theorem name_text : namePort = text "name" := by decide +kernel
theorem message_text : messagePort = text "message" := by decide +kernel
theorem strings_text : stringsPort = text "strings" := by decide +kernel

/-- What is sent on to the next component of one text and the end. -/
theorem relays_gives {port inPort v : Bytes} {s : Sink} (h : Gives port v s) (hl : inPort.length < 2 ^ 16) :
    ∃ md d, relays port inPort s.out = .ok [.next md d] ∧ PortIO.encode ⟨inPort, [], true, true⟩ = .ok md ∧
      Transform.string.decode d = .ok v := by
  obtain ⟨md, d, rfl, h1, h2⟩ := h
  obtain ⟨md', m1, _⟩ := port_bytes inPort true true hl
  refine ⟨md', d, ?_, m1, h2⟩
  simp [relays, relay, h1, m1, Res.bind]

/-- **C170** (part) However many values come out of the port, mixed with those of other ports, each is sent on to the port of the next component, in order; the end
and errors are not. -/
theorem sent_on_in_order (port inPort : Bytes) (hl : inPort.length < 2 ^ 16) (outs : List (Bytes × Bytes × Bool)) (tail : List Out)
    (ht : ∀ o ∈ tail, o = .complete ∨ ∃ e, o = .error e)
    (hm : ∀ x ∈ outs, ∃ p, PortIO.decode x.1 = .ok p ∧ p.data = [] ∧ p.complete = true ∧ p.next = true ∧ (p.port = port ↔ x.2.2 = true)) :
    ∃ md, PortIO.encode ⟨inPort, [], true, true⟩ = .ok md ∧
      relays port inPort (outs.map (fun x => .next x.1 x.2.1) ++ tail) = .ok ((outs.filter fun x => x.2.2).map fun x => .next md x.2.1) := by
  obtain ⟨md, m1, _⟩ := port_bytes inPort true true hl
  refine ⟨md, m1, ?_⟩
  induction outs with
  | nil =>
    induction tail with
    | nil => rfl
    | cons o tail ih =>
      have := ih fun o ho => ht o (List.mem_cons_of_mem _ ho)
      rcases ht o List.mem_cons_self with rfl | ⟨e, rfl⟩ <;> simp_all [relays, relay, Res.bind]
  | cons x outs ih =>
    have hi := ih fun y hy => hm y (List.mem_cons_of_mem _ hy)
    obtain ⟨p, h1, h2, h3, h4, h5⟩ := hm x List.mem_cons_self
    obtain ⟨m, d, b⟩ := x
    dsimp only at h1 h5
    simp only [List.map_cons, List.cons_append, relays, hi, relay, h1]
    cases b with
    | true =>
      rw [if_pos (h5.mpr rfl)]
      have : ({ p with port := inPort } : PortIO) = ⟨inPort, [], true, true⟩ := by rw [h2, h3, h4]
      rw [this, m1]
      simp [Res.bind]
    | false =>
      rw [if_neg (fun h => by cases h5.mp h)]
      simp [Res.bind]

/-- Two values of the port `p`, one of another, and the end. -/
example : ∃ a b, PortIO.encode ⟨[112], [], true, true⟩ = .ok a ∧ PortIO.encode ⟨[113], [], true, true⟩ = .ok b ∧
    ∃ md, PortIO.encode ⟨[110], [], true, true⟩ = .ok md ∧
    relays [112] [110] [.next a [1], .next b [2], .next a [3], .complete] = .ok [.next md [1], .next md [3]] :=
  ⟨_, _, rfl, rfl, _, rfl, by decide +kernel⟩

/-- A component that is sent one value gives one text. -/
theorem single_gives {α : Type} (c : Single α) {md d : Bytes} {v : α} (hm : PortIO.encode ⟨c.inPort, [], true, true⟩ = .ok md)
    (hd : c.parse d = .ok v) (hi : c.inPort.length < 2 ^ 16) (ho : c.outPort.length < 2 ^ 16) (hv : (c.value v).length < 2 ^ 31)
    (rest : List In) (hr : rest = [] ∨ rest = [.complete]) :
    ∃ t, single c (.next md d :: rest) = .ok t ∧ Gives c.outPort (c.value v) t := by
  obtain ⟨md', m1, m2⟩ := port_bytes c.inPort true true hi
  rw [hm] at m1
  cases m1
  obtain ⟨ma, da, s, a1, a2, a3⟩ := answer_open c hv ho
  have hst : SState.init.step c (.next md d) = .ok s := by
    rw [← a1]
    simp [SState.step, SState.init, m2, SState.onPort, hd]
  rcases hr with rfl | rfl
  · exact ⟨s.sink, by simp [single, SState.run, hst, Res.bind], ma, da, a2, a3⟩
  · refine ⟨s.sink, ?_, ma, da, a2, a3⟩
    simp only [single, SState.run, hst, Res.bind]
    cases hin : s.inClosed <;> simp [SState.step, hin]

/-- **C170** For every chain of components that make a text of a text, of any length: if a text comes out of the port that the
first one is fed from, what comes out of the last one is exactly the text that all of them together make of it, as the last
message of its port, and then the end. -/
theorem chain_through (cs : List (Single Bytes)) : ∀ (port v : Bytes) (s : Sink), (∀ c ∈ cs, c.parse = Transform.string.decode) →
    Fit cs v → Gives port v s → ∃ t, chain port s cs = .ok t ∧ Gives (lastPort port cs) (through cs v) t := by
  induction cs with
  | nil => intro port v s _ _ h; exact ⟨s, rfl, h⟩
  | cons c cs ih =>
    intro port v s hp hf h
    obtain ⟨f1, f2, f3, f4⟩ := hf
    obtain ⟨md, d, r1, r2, r3⟩ := relays_gives h f2
    obtain ⟨t, t1, t2⟩ := single_gives c r2 (by rw [hp c (.head _)]; exact r3) f2 f3 f1 [] (.inl rfl)
    obtain ⟨u, u1, u2⟩ := ih c.outPort (c.value v) t (fun x hx => hp x (.tail _ hx)) f4 t2
    exact ⟨u, by simp only [chain, r1, Res.bind, t1]; exact u1, u2⟩

/-- A call is answered by the operation with the index in its metadata. -/
theorem call_names {reg : Reg Handler} {md : Bytes} {op : UInt32} (h : Names md op) {f : Handler}
    (hh : getHandler reg .rc op = some f) (ins : List In) : call reg md ins = f ins := by
  obtain ⟨rest, rfl, hr⟩ := h
  have hl : ¬ (be32 op ++ rest).length < 8 := by simp [be32]; omega
  have hu : getU32 (be32 op ++ rest) = .ok op := getU32_be32_append op rest
  simp only [call, if_neg hl, hu, Res.bind, hh]

theorem guest_concat (lib : Lib) (fuel : Nat) (lower : Bytes → Bytes) (arrange : List (Bytes × Nat) → List (Bytes × Nat)) :
    getHandler (guestMain lib fuel lower arrange) .rc 0 = some (single (concat lib fuel)) := by
  simp [getHandler, guestMain, exportOp, upd, Reg.init]

theorem guest_greeter (lib : Lib) (fuel : Nat) (lower : Bytes → Bytes) (arrange : List (Bytes × Nat) → List (Bytes × Nat)) :
    getHandler (guestMain lib fuel lower arrange) .rc 1 = some (single greeter) := by
  simp [getHandler, guestMain, exportOp, upd, Reg.init]

/-- What the first component gives, if it is the one that the host calls. -/
theorem first_gives (lib : Lib) (l r : Bytes) (h : l.length + r.length < 2 ^ 30) :
    ∃ f0, ∀ fuel, f0 ≤ fuel → ∀ (reg : Reg Handler) (md1 : Bytes) (op : UInt32), Names md1 op →
      getHandler reg .rc op = some (single (concat lib fuel)) → ∀ (md2 : Bytes) (lost : Nat),
      ∃ s, Gives (text "value") (l ++ text " " ++ r) s ∧ hostMain reg md1 md2 lost l r = second reg md2 lost s := by
  obtain ⟨d, d1, f0, d2⟩ := strings_bytes lib l r h
  refine ⟨f0, fun fuel hf reg md1 op hn hh md2 lost => ?_⟩
  obtain ⟨md, m1, _⟩ := port_bytes stringsPort true true (by decide)
  obtain ⟨t, t1, t2⟩ := single_gives (concat lib fuel) (v := (l, r)) m1 (d2 fuel hf) (by show stringsPort.length < _; decide)
    (by show valuePort.length < _; decide) (by show (l ++ [32] ++ r).length < _; simp; omega) [.complete] (.inr rfl)
  refine ⟨t, ?_, ?_⟩
  · rw [← value_text, show text " " = [32] by decide +kernel]; exact t2
  · simp only [hostMain, d1, m1, Res.bind, call_names hn hh, t1]

/-- What is printed of one text from the port. -/
theorem prints_gives {port v : Bytes} {s : Sink} (h : Gives port v s) : prints port s.out = .ok [v] ∧ s.closed = true := by
  obtain ⟨md, d, rfl, h1, h2⟩ := h
  exact ⟨by simp [prints, print, h1, h2, Res.bind], rfl⟩

/-- **C170** The host that calls `Concat` and sends what comes out of it on to `Greeter`, under the indexes that the guest has
given them: for any two strings it prints exactly the line "Hello, ", the first string, a space and the second, and ends, if
the value comes after the second call has asked for its input. -/
theorem wired_partial (lib : Lib) (lower : Bytes → Bytes) (arrange : List (Bytes × Nat) → List (Bytes × Nat)) (l r : Bytes)
    (h : l.length + r.length < 2 ^ 30) :
    ∃ f0, ∀ fuel, f0 ≤ fuel → ∀ (md1 md2 : Bytes), Names md1 0 → Names md2 1 →
      hostMain (guestMain lib fuel lower arrange) md1 md2 0 l r = .ok ⟨[text "Hello, " ++ l ++ text " " ++ r], true⟩ := by
  obtain ⟨f0, hf⟩ := first_gives lib l r h
  refine ⟨f0, fun fuel hfu md1 md2 h1 h2 => ?_⟩
  obtain ⟨s, s1, s2⟩ := hf fuel hfu _ md1 0 h1 (guest_concat lib fuel lower arrange) md2 0
  rw [s2]
  obtain ⟨md, d, r1, r2, r3⟩ := relays_gives s1 (inPort := namePort) (by decide)
  have hlen : text " " = [32] := by decide +kernel
  obtain ⟨t, t1, t2⟩ := single_gives greeter r2 r3 (by decide) (by decide)
    (by show ([72, 101, 108, 108, 111, 44, 32] ++ (l ++ text " " ++ r)).length < _; rw [hlen]; simp; omega) [] (.inl rfl)
  obtain ⟨p1, p2⟩ := prints_gives (port := messagePort) t2
  have hv : greeter.value (l ++ text " " ++ r) = text "Hello, " ++ l ++ text " " ++ r := by
    rw [show text "Hello, " = [72, 101, 108, 108, 111, 44, 32] by decide +kernel]
    show [72, 101, 108, 108, 111, 44, 32] ++ (l ++ text " " ++ r) = _
    simp
  rw [hv] at p1
  simp only [second, value_text, r1, Res.bind, List.drop_zero, call_names h2 (guest_greeter lib fuel lower arrange), t1, p1, p2]

/-- A component that is sent nothing for its port gives nothing, and its result does not end. -/
theorem single_silent {α : Type} (c : Single α) {inPort d md : Bytes} (hm : PortIO.encode ⟨inPort, [], true, true⟩ = .ok md)
    (hi : inPort.length < 2 ^ 16) (hne : inPort ≠ c.inPort) (lost : Nat) :
    single c ([In.next md d].drop lost) = .ok Sink.new := by
  obtain ⟨md', m1, m2⟩ := port_bytes inPort true true hi
  rw [hm] at m1
  cases m1
  rcases lost with _ | lost
  · simp [single, SState.run, SState.step, SState.init, m2, hne, Res.bind]
  · simp [single, SState.run, SState.init, Res.bind]

/-- **C170 is false of the code**: both calls carry the metadata of zeros, so both reach `Concat`. Whatever the strings are and
however the two calls interleave, the host prints nothing and never ends. -/
theorem wired_refuted (lib : Lib) (lower : Bytes → Bytes) (arrange : List (Bytes × Nat) → List (Bytes × Nat)) (l r : Bytes)
    (h : l.length + r.length < 2 ^ 30) :
    ∃ f0, ∀ fuel, f0 ≤ fuel → ∀ lost,
      hostMain (guestMain lib fuel lower arrange) zeros zeros lost l r = .ok ⟨[], false⟩ := by
  obtain ⟨f0, hf⟩ := first_gives lib l r h
  refine ⟨f0, fun fuel hfu lost => ?_⟩
  have hz : Names zeros 0 := ⟨[0, 0, 0, 0], by decide, by decide⟩
  obtain ⟨s, s1, s2⟩ := hf fuel hfu _ zeros 0 hz (guest_concat lib fuel lower arrange) zeros lost
  rw [s2]
  obtain ⟨md, d, r1, r2, _⟩ := relays_gives s1 (inPort := namePort) (by decide)
  have hs := single_silent (concat lib fuel) (d := d) r2 (by decide) (by show namePort ≠ stringsPort; decide) lost
  simp only [second, value_text, r1, Res.bind, call_names hz (guest_concat lib fuel lower arrange), hs, Sink.new, prints]

/-- **C170 is false of the code**, further: if the value comes before the second call has asked for its input, it is lost, and
the host never ends either, even if the second call names `Greeter`. -/
theorem wired_lost_refuted (lib : Lib) (lower : Bytes → Bytes) (arrange : List (Bytes × Nat) → List (Bytes × Nat)) (l r : Bytes)
    (h : l.length + r.length < 2 ^ 30) :
    ∃ f0, ∀ fuel, f0 ≤ fuel → ∀ (md1 md2 : Bytes), Names md1 0 → Names md2 1 → ∀ lost, 0 < lost →
      hostMain (guestMain lib fuel lower arrange) md1 md2 lost l r = .ok ⟨[], false⟩ := by
  obtain ⟨f0, hf⟩ := first_gives lib l r h
  refine ⟨f0, fun fuel hfu md1 md2 h1 h2 lost hl => ?_⟩
  obtain ⟨s, s1, s2⟩ := hf fuel hfu _ md1 0 h1 (guest_concat lib fuel lower arrange) md2 lost
  rw [s2]
  obtain ⟨md, d, r1, r2, _⟩ := relays_gives s1 (inPort := namePort) (by decide)
  obtain ⟨lost, rfl⟩ : ∃ k, lost = k + 1 := ⟨lost - 1, by omega⟩
  have hs : single greeter ([In.next md d].drop (lost + 1)) = .ok Sink.new := by simp [single, SState.run, SState.init, Res.bind]
  simp only [second, value_text, r1, Res.bind, call_names h2 (guest_greeter lib fuel lower arrange), hs, Sink.new, prints]

/-- Metadata that names an operation which is not exported is refused, and the host ends without a line. -/
example (lib : Lib) : second (guestMain lib 9 id id) [0, 0, 0, 7, 0, 0, 0, 0] 0 ⟨true, [.complete]⟩ = .ok ⟨[], true⟩ := by
  simp [second, relays, relay, Res.bind, call, getU32, beNat, getHandler, guestMain, exportOp, upd, Reg.init, prints, print]

/-- Two greeters, one fed from the other: "Bo" becomes "Hello, Hello, Bo". -/
example : chain namePort ⟨true, [.next [1, 0, 4, 110, 97, 109, 101] [0xa2, 66, 111], .complete]⟩ [greeter, greeter] =
    .ok ⟨true, [.next [1, 0, 7, 109, 101, 115, 115, 97, 103, 101]
      [0xb0, 72, 101, 108, 108, 111, 44, 32, 72, 101, 108, 108, 111, 44, 32, 66, 111], .complete]⟩ := by decide +kernel

end Iota.Props.Wiring
