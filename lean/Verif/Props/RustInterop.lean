import Verif.Props.RustSocket
import Verif.Props.Handler
import Verif.Props.FluxSlice

/-!
# C80, C81: Rust and Go at the two ends of a connection

A Go wasm host draws ids from `ServerStreamIDs` (`/repo/go/transport/wasmrs/host/instance.go:33`), a Go guest from
`ClientStreamIDs` (`guest/caller.go:19`). A Rust guest starts at 2 (`wasmrs-guest/src/guest.rs:48`,
`wasmrs/src/socket.rs:72-77`), a Rust host at 1 (`wasmrs-host/src/host.rs:35`).
-/

namespace Iota.Props.RustInterop
open Go Iota.Frames Iota.Rust Iota.Lemmas.RustSocket Iota.Props.RustSocket Iota.StreamId Iota.Props.StreamId Iota.Spec.RustSocket

/-! ## C80: ids of the two ends -/

/-- **C80** (part) Two Rust sockets at the two ends of a connection never use the same id for a call, however long they
live: their next ids differ at any two moments. For two Go ends this is `sides_disjoint`.

Missing: ends in different languages, `mixed_ids_refuted`. -/
theorem rust_ids_disjoint_partial (as bs : List SockAct) (g h : Sock) (hg : (Sock.init true).run as = some (.ok g))
    (hh : (Sock.init false).run bs = some (.ok h)) : g.next ≠ h.next ∧ g.next &&& 0x7fffffff ≠ h.next &&& 0x7fffffff := by
  have e1 := next_id true as g hg
  have e2 := next_id false bs h hh
  have t1 : g.next.toNat % 2 = 0 := by
    rw [e1, UInt32.toNat_ofNat']; simp only [firstId]; simp
  have t2 : h.next.toNat % 2 = 1 := by
    rw [e2, UInt32.toNat_ofNat']; simp only [firstId]; simp
  refine ⟨fun e => by rw [e] at t1; omega, fun e => ?_⟩
  have e := congrArg UInt32.toNat e
  simp only [UInt32.toNat_and] at e
  have m : (0x7fffffff : UInt32).toNat = 2 ^ 31 - 1 := rfl
  rw [m, Nat.and_two_pow_sub_one_eq_mod, Nat.and_two_pow_sub_one_eq_mod] at e
  omega

/-- **C80** fails for ends in different languages: a Rust guest and a Go host use the same id for their n-th call, for
every n, and so do a Rust host and a Go guest. -/
theorem mixed_ids_refuted (n : Nat) (h0 : 0 < n) (hn : n < 2 ^ 30) :
    (∃ (as : List SockAct) (r : Sock) (s : StreamId.State) (e : Nat × UInt32 × Bool), (Sock.init true).run as = some (.ok r) ∧
      drawn as = n - 1 ∧ Reach .server s ∧ s.draws = n ∧ s.out.head? = some e ∧ e.2.1 = r.next) ∧
    (∃ (as : List SockAct) (r : Sock) (s : StreamId.State) (e : Nat × UInt32 × Bool), (Sock.init false).run as = some (.ok r) ∧
      drawn as = n - 1 ∧ Reach .client s ∧ s.draws = n ∧ s.out.head? = some e ∧ e.2.1 = r.next) := by
  constructor
  · obtain ⟨r, hr⟩ := run_calls (n - 1) (Sock.init true)
    obtain ⟨s, h1, h2, _, _, _, h6⟩ := reach_draws .server n (by omega)
    obtain ⟨e, h7, h8⟩ := h6 h0
    refine ⟨_, r, s, e, hr, drawn_calls _, h1, h2, h7, UInt32.toNat_inj.mp ?_⟩
    rw [h8, next_id true _ r hr, drawn_calls, UInt32.toNat_ofNat']
    simp only [idOf, firstId]; simp; omega
  · obtain ⟨r, hr⟩ := run_calls (n - 1) (Sock.init false)
    obtain ⟨s, h1, h2, _, _, _, h6⟩ := reach_draws .client n (by omega)
    obtain ⟨e, h7, h8⟩ := h6 h0
    refine ⟨_, r, s, e, hr, drawn_calls _, h1, h2, h7, UInt32.toNat_inj.mp ?_⟩
    rw [h8, next_id false _ r hr, drawn_calls, UInt32.toNat_ofNat']
    simp only [idOf, firstId]; simp; omega

/-- What comes of it: a Rust guest makes its first call, of a stream, and a Go host its first, of a channel, both under
id 2. The request of the host takes the place of the call in the table of the guest; the caller is left without an
outcome, and the element the host answers with goes to the input of the channel. -/
theorem mixed_call_lost_refuted : ∃ s, (Sock.init true).run [.call .rs [] [1],
      .recv (.request { frameType := tRequestChannel, streamID := 2, metadata := [], data := [], follows := false, complete := false, initialN := 1 }), .recv (.payload ⟨2, [], [7], false, true, true⟩)] = some (.ok s) ∧
    (s.sinks[0]?.map fun k => (k.got, k.closed)) = some ([], true) ∧
    (s.sinks[1]?.map fun k => (k.got, k.closed)) = some ([.ok [] [], .ok [] [7]], true) := ⟨_, rfl, by decide, by decide⟩

end Iota.Props.RustInterop
