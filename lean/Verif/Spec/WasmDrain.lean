import Verif.Spec.WasmOnce

/-!
# Specification: streams go on until everything has arrived

Runs in which callers of streams only ask for more, and what is there when nothing is under way any more.
-/

namespace Iota.Spec.WasmDrain
open Iota.Go Iota.Frames Iota.Registry Iota.WasmDispatch Iota.WasmCalls Iota.Spec.WasmCalls Iota.Spec.WasmStreams Iota.Spec.WasmOnce
open Iota.Spec.Caller (Sig meaning)

/-- A signal that fits into a frame. -/
def FitsSig : Sig → Prop
  | .next d m => m.length < 2 ^ 24 ∧ m.length + d.length + 9 < 2 ^ 32
  | .complete => True
  | .error m => m.length + 10 < 2 ^ 32

/-- What is done is mild: what is sent fits into frames; after its request the proxy of a stream only asks for more
(`/repo/go/proxy/flux.go:111-116`), at the ends that `ask` allows to; the handler of a stream sends the signals of its flux
(`/repo/go/transport/wasmrs/host/instance.go:517-535`, `/repo/go/transport/wasmrs/guest/guest.go:377-395`), which has a subscription. -/
def Mild (ask : End → Prop) : WasmCalls.Act → Prop
  | .call _ _ d m _ => m.length < 2 ^ 24 ∧ m.length + d.length + 13 < 2 ^ 32
  | .own e _ f => ask e ∧ ∃ n, f = .requestN ⟨f.streamID, n⟩
  | .task _ _ live => live = true
  | .answer _ _ r => FitsResult r
  | .emit _ _ f => ∃ s, FitsSig s ∧ f = frameFor f.streamID s
  | _ => True

/-- Runs in which all that is done is mild. -/
inductive Mildly {H : Type} (hs : End → Handlers H) (ask : End → Prop) : WasmCalls.Sys H → (End → List (Said H)) → (End → List Nat) → Prop
  | init : Mildly hs ask WasmCalls.Sys.init (fun _ => []) (fun _ => [])
  | step {y y' : WasmCalls.Sys H} {said : End → List (Said H)} {sent : End → List Nat} (a : WasmCalls.Act) : Mildly hs ask y said sent →
      InOrder y a → (∀ e, ∀ j ∈ startedIn a e, j ∉ sent e) → Mild ask a → y.step hs a = some y' →
      Mildly hs ask y' (fun t => said t ++ saysIn y y' a t) (fun t => sent t ++ startedIn a t)

/-- `n` steps that do something about what is under way, with what was said before and after. -/
inductive Onward {H : Type} (hs : End → Handlers H) : Nat → WasmCalls.Sys H → (End → List (Said H)) → WasmCalls.Sys H → (End → List (Said H)) → Prop
  | done {y : WasmCalls.Sys H} {said : End → List (Said H)} : Onward hs 0 y said y said
  | go {n : Nat} {y y1 y' : WasmCalls.Sys H} {said said' : End → List (Said H)} (a : WasmCalls.Act) : Goes a → Mild (fun _ => True) a → y.step hs a = some y1 →
      Onward hs n y1 (fun t => said t ++ saysIn y y1 a t) y' said' → Onward hs (n + 1) y said y' said'

/-- The call at index `j` of `e` is done with. A stream whose request was sent has been served by one handler, or its subscriber was told that there is none; its subscriber was told
everything that was sent for it. -/
structure Drained {H : Type} (hs : End → Handlers H) (y : WasmCalls.Sys H) (said : End → List (Said H)) (sent : End → List Nat) (e : End) (j : Nat)
    (c : WasmCalls.Call) : Prop where
  single : Done hs y e j c
  served : many c.kind = true → j ∈ sent e → ¬Unknown (hs (other e)) c → handlers c.id (y.node (other e)).jobs = 1
  refused : ∀ o, many c.kind = true → (y.node e).obj j = some o → j ∈ sent e → Unknown (hs (other e)) c →
    signals o (y.node e).peer.log = [.error (Spec.WasmCalls.refusal c.metadata), .complete]
  told : ∀ o, (y.node e).obj j = some o → Tidy (saidUnder c.id (said (other e))) →
    signals o (y.node e).peer.log = (saidUnder c.id (said (other e))).flatMap meaning

end Iota.Spec.WasmDrain
