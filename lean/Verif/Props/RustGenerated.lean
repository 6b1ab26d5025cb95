import Verif.Model.RustGenerated
import Verif.Props.RustCall
import Verif.Props.RustPair

/-!
# C200: generated Rust code in a host and its guest
-/

namespace Iota.Props.RustGenerated
open Iota.Go Iota.Frames Iota.Rust Iota.Spec.RustPair Iota.Spec.RustSocket Iota.Props.RustPair
open Iota.Spec.Msgpack Iota.Spec.Reader Iota.RustInputs Iota.RustOnce Iota.RustClient Iota.RustCall Iota.RustGenerated Iota.Props.RustClient

/-! ## Specification -/

/-- The end with this history serves the operation with this index by the wrapper: what the task of a request for it yields first is what a run of the wrapper
on the data of the request answers. -/
def Serves (e : Bool) (history : List SockAct) (index : Nat) (gives : Bytes → Yield → Prop) : Prop :=
  ∀ as bs v s, history = as ++ .recv (.request v) :: bs → v.frameType = tRequestResponse → beNat (v.metadata.take 4) = index →
    (Sock.init e).run as = some (.ok s) → ∀ y, (yields s.tasks.length bs).head? = some y → gives v.data y

/-- What the client is told: the value that the implementation returned for the arguments, if it takes at most 100 KiB; an error if it takes more; or the text of the
error that it returned. -/
inductive Told (ser : Val → Bytes) (msg : Bytes) (impl : Impl (List Val) Val) (vs : List Val) : Signal → Prop
  | value {v : Val} {b : Bytes} (hr : impl vs (.ok v)) (hs : (ser v).length ≤ 102400) (ho : ∃ f0, ∀ f, f0 ≤ f → output f b = some v) : Told ser msg impl vs (.ok [] b)
  | large {v : Val} (hr : impl vs (.ok v)) (hs : 102400 < (ser v).length) : Told ser msg impl vs (.err 513 (text msg))
  | error {e : Bytes} (hr : impl vs (.error e)) : Told ser msg impl vs (.err 513 (text e))

/-! ## C200 -/

/-- **C200** For all operations that answer once, all arguments that take at most 100 KiB, all serializers of MessagePack and all runs of a Rust host and guest of
which the other end serves the operation by its generated wrapper: what the generated client is told is what the implementation returned for exactly the
arguments, at most once, and once when every frame is processed and no task is left. -/
theorem rust_generated_call (ser : Val → Bytes) (index : Nat) (hi : index < 2 ^ 32) (params : List Bytes) (hn : params.Nodup) (vs : List Val)
    (hl : params.length = vs.length) (hw : Writer ser (.map (entries params vs))) (hsz : (ser (.map (entries params vs))).length ≤ 102400)
    (msg msg' : Bytes) (impl : Impl (List Val) Val) (himpl : ∀ xs v, impl xs (.ok v) → Writer ser v) :
    ∃ md d f0, call ser false index (.map (entries params vs)) = .asks .rr md d ∧ ∀ f, f0 ≤ f → ∀ (p : Pair) (H : Bool → List SockAct), Runs p H → Few H →
      ∀ (e : Bool) (as bs : List SockAct) (s1 : Sock), Serves (!e) (H (!e)) index (Gives (de f params msg) (wrap ser msg') impl) →
        H e = as ++ .call .rr md d :: bs → (Sock.init e).run as = some (.ok s1) → ∀ k, (p.sock e).sinks[s1.sinks.length]? = some k → k.live = true →
        (∀ g ∈ k.got, Told ser msg' impl vs g) ∧ k.got.length ≤ 1 ∧ (Settled p → k.closed = true ∧ k.got.length = 1) := by
  obtain ⟨md, d, h1, h2, h3, f0, h4⟩ := (RustCall.rust_call ser index hi params hn vs hl hw msg msg').2 hsz
  refine ⟨md, d, f0, h1, fun f hf p H hr hfew e as bs s1 hserves hH hrun k hk hlive => ?_⟩
  have c : Made p H e as bs .rr md d s1 := ⟨hr, hfew, hH, hrun⟩
  have hset := fun hs => rust_calls_settle hr hfew hs e as bs .rr (.inl rfl) md d hH s1 hrun k hk hlive
  obtain ⟨hA, hB⟩ := rust_callers_told hr hfew e as bs .rr (.inl rfl) md d hH s1 hrun k hk hlive
  have key : (∀ g ∈ k.got, Told ser msg' impl vs g) ∧ k.got.length ≤ 1 := by
    by_cases hex : ∃ v, SockAct.recv (.request v) ∈ H (!e) ∧ v.streamID = s1.next
    · obtain ⟨v, hv, hvs⟩ := hex
      obtain ⟨as', bs', hH'⟩ := List.append_of_mem hv
      have hrn := (Runs.each hr (!e)).1
      rw [hH'] at hrn
      obtain ⟨s2, h5, _⟩ := run_split as' _ hrn
      obtain ⟨n, hn'⟩ := (hA as' bs' v s2 hH' hvs h5).1
      obtain ⟨u, hu, u1, u2, u3, u4⟩ := c.request (by simp)
      have hvu : v = u := by
        have hmem : Frame.request v ∈ (p.sock e).out := by
          have hr' := (Runs.each hr (!e)).2.1
          simp only [Bool.not_not] at hr'
          refine List.mem_of_mem_take (i := p.read (!e)) ?_
          rw [← hr', hH', recvs_append]
          exact List.mem_append_right _ (List.mem_cons_self)
        have := c.only hu u1 hmem rfl hvs
        cases this
        rfl
      subst hvu
      have hsv := hserves as' bs' v s2 hH' u4 (by rw [u2]; exact h3) h5
      cases hy : yields s2.tasks.length bs' with
      | nil =>
        rw [hy] at hn'
        simp only [List.take_nil, told, if_true, toldOne, Prod.mk.injEq] at hn'
        simp [hn'.1]
      | cons y ys =>
        rw [hy] at hn' hsv
        obtain ⟨a, evs, w, hrw, hya⟩ := hsv y rfl
        rw [u3] at hrw
        cases n with
        | zero =>
          simp only [List.take_zero, told, if_true, toldOne, Prod.mk.injEq] at hn'
          simp [hn'.1]
        | succ n =>
          obtain ⟨g1, g2, _⟩ := h4 f hf evs w hrw.request (fun v hv => by obtain ⟨x, _, hx⟩ := hrw.returns _ hv; exact himpl x v hx) hrw.runs
          have hacts : ∀ r, Ev.ret r ∈ evs → impl vs r := by
            intro r hret
            obtain ⟨x, hx, hix⟩ := hrw.returns r hret
            rcases g1 with g1 | g1
            · rw [g1] at hx; cases hx
            · rw [g1] at hx; cases List.mem_singleton.mp hx; exact hix
          have hres := g2 a hrw.answer
          subst hya
          simp only [List.take_succ_cons, told, if_true] at hn'
          cases hres with
          | value hret hs ho =>
            simp only [yielded, toldOne, Prod.mk.injEq] at hn'
            rw [hn'.1]
            exact ⟨fun g hg => by cases List.mem_singleton.mp hg; exact .value (hacts _ hret) hs ho, Nat.le_refl _⟩
          | large hret hs =>
            simp only [yielded, toldOne, Prod.mk.injEq] at hn'
            rw [hn'.1]
            exact ⟨fun g hg => by cases List.mem_singleton.mp hg; exact .large (hacts _ hret) hs, Nat.le_refl _⟩
          | error hret =>
            simp only [yielded, toldOne, Prod.mk.injEq] at hn'
            rw [hn'.1]
            exact ⟨fun g hg => by cases List.mem_singleton.mp hg; exact .error (hacts _ hret), Nat.le_refl _⟩
    · have := hB (fun v hv hs => hex ⟨v, hv, hs⟩)
      simp [this.1]
  exact ⟨key.1, key.2, fun hs => ⟨(hset hs).1, (hset hs).2 rfl⟩⟩

/-! ### Cases -/

/-- Adds two numbers; for others anything small may come. -/
def add : Impl (List Val) Val := fun xs r => (xs = [.int 3, .int 4] ∧ r = .ok (.int 7)) ∨ (xs ≠ [.int 3, .int 4] ∧ r = .error [1])

theorem add_writes (xs : List Val) (v : Val) (h : add xs (.ok v)) : Writer RustCall.tiny v := by
  rcases h with ⟨_, h⟩ | ⟨_, h⟩
  · cases h; exact .posfix (n := 7) (by decide)
  · cases h

example := rust_generated_call RustCall.tiny 7 (by decide) [[97], [98]] (by decide) [.int 3, .int 4] rfl RustCall.tiny_args (by decide +kernel) [33] [34] add
  add_writes

def args : Bytes := [0x82, 0xa1, 97, 3, 0xa1, 98, 4]

/-- The host calls `add(3, 4)`, and the guest answers 7. -/
def session : List PairAct :=
  [.own false (.call .rr [0, 0, 0, 7, 0, 0, 0, 0] args), .take true, .own true (.task 0 (.ok [] [7])), .take false]

theorem session_ok : (play Pair.init (fun _ => []) session).isSome = true := by decide +kernel

def evs : List (Ev Val) := [.arrive (.ok args), .poll, .ret (.ok (.int 7)), .take]

theorem gives_seven : Gives (de 20 [[97], [98]] [33]) (wrap RustCall.tiny [34]) add args (.ok [] [7]) := by
  refine ⟨.ok [7], evs, ⟨some (.ok args), .done, [[.int 3, .int 4]], some (.ok [7]), true, some (.ok [7]), false⟩, ⟨?_, ?_, ?_, rfl⟩, rfl⟩
  · rfl
  · intro r hr; simpa [evs] using hr
  · intro r hr
    have : r = .ok (.int 7) := by simpa [evs] using hr
    exact ⟨_, List.mem_singleton_self _, .inl ⟨rfl, this⟩⟩

def after : Pair × (Bool → List SockAct) := (play Pair.init (fun _ => []) session).get session_ok

theorem heard : after.2 true = [.recv (.request ⟨tRequestResponse, 1, [0, 0, 0, 7, 0, 0, 0, 0], args, false, false, 0⟩), .task 0 (.ok [] [7])] := by
  decide +kernel

example : Runs after.1 after.2 ∧ Few after.2 ∧ Settled after.1 ∧
    Serves true (after.2 true) 7 (Gives (de 20 [[97], [98]] [33]) (wrap RustCall.tiny [34]) add) ∧
    after.2 false = [] ++ .call .rr [0, 0, 0, 7, 0, 0, 0, 0] args :: (after.2 false).tail ∧
    (after.1.sock false).sinks.map (fun k => (k.live, k.got, k.closed)) = [(true, [.ok [] [7]], true)] := by
  refine ⟨play_runs session .init (by simp [after]), by unfold Few; decide +kernel, by unfold Settled; decide +kernel, ?_, by decide +kernel, by decide +kernel⟩
  intro as bs v s h _ _ hr y hy
  rw [heard] at h
  match as, h with
  | [], h =>
    cases h
    cases hr
    cases hy
    exact gives_seven
  | [_], h => cases h
  | _ :: _ :: as, h =>
    have := congrArg List.length h
    simp at this

end Iota.Props.RustGenerated
