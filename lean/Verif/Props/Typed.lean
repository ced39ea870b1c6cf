import Verif.Model.Typed
import Verif.Props.Link
import Verif.Props.Codec
/-! # C90: typed requests -/
namespace Noise
open Spec
variable {ε : Type}

namespace Typed

/-! ## What steps of the nodes keep -/

theorem calls_keep {s s' : Cl.State ε} {a : Cl.Action ε} (hs : Cl.step s a = some s') {i : Nat} {c : Cl.Call} (hc : s.calls[i]? = some c) :
    ∃ c', s'.calls[i]? = some c' ∧ c'.data = c.data := by
  have key : ∀ (l : List (UInt64 × Bytes)), s'.calls.map Cl.Call.nd = s.calls.map Cl.Call.nd ++ l → ∃ c', s'.calls[i]? = some c' ∧ c'.data = c.data := by
    intro l hl
    have h1 : (s.calls.map Cl.Call.nd ++ l)[i]? = some c.nd := by
      rw [List.getElem?_append_left (by have := (List.getElem?_eq_some_iff.1 hc).1; simpa using this), List.getElem?_map, hc]; rfl
    rw [← hl, List.getElem?_map, Option.map_eq_some_iff] at h1
    obtain ⟨c', h1, h2⟩ := h1
    simp only [Cl.Call.nd, Prod.mk.injEq] at h2
    exact ⟨c', h1, h2.2⟩
  cases Cl.eff_step hs with
  | start _ _ e => exact key _ e
  | refused _ _ e => exact key [] (by rw [e, List.append_nil])
  | reqSend _ _ _ e => exact key [] (by rw [e, List.append_nil])
  | send _ e => exact key [] (by rw [e, List.append_nil])
  | route _ _ e => exact key [] (by rw [e, List.append_nil])
  | other _ e => exact key [] (by rw [e, List.append_nil])

theorem w_kinds {s s' : Link.State ε} {a : Link.Action ε} (hs : Link.step s a = some s') :
    s'.w = s.w ∨ ∃ wact, Wk.step s.w wact = some s'.w ∧ ∀ k h d, wact = .send k h d → a = .w wact := by
  cases a with
  | a act =>
    left
    simp only [Link.step, Link.stepA] at hs
    repeat' split at hs
    all_goals first
      | (cases hs; rfl)
      | cases hs
      | (obtain ⟨b', hb, rfl⟩ := Option.map_eq_some_iff.1 hs; rfl)
  | b act =>
    simp only [Link.step, Link.stepB] at hs
    repeat' split at hs
    all_goals try cases hs
    all_goals first
      | (obtain ⟨b', hb, rfl⟩ := Option.map_eq_some_iff.1 hs; exact Or.inl rfl)
      | (obtain ⟨b', hb, hs⟩ := Option.bind_eq_some_iff.1 hs
         obtain ⟨w', hw, rfl⟩ := Option.map_eq_some_iff.1 hs
         exact Or.inr ⟨_, hw, by simp⟩)
  | w act =>
    simp only [Link.step, Link.stepW] at hs
    repeat' split at hs
    all_goals try cases hs
    all_goals first
      | (obtain ⟨b', hb, hs⟩ := Option.bind_eq_some_iff.1 hs
         obtain ⟨w', hw, rfl⟩ := Option.map_eq_some_iff.1 hs
         exact Or.inr ⟨_, hb, fun _ _ _ _ => rfl⟩)
      | (obtain ⟨w', hw, rfl⟩ := Option.map_eq_some_iff.1 hs; exact Or.inr ⟨_, hw, fun _ _ _ _ => rfl⟩)

structure Keep (s s' : Link.State ε) (a : Link.Action ε) : Prop where
  calls : ∀ (i : Nat) (c : Cl.Call), s.a.calls[i]? = some c → ∃ c', s'.a.calls[i]? = some c' ∧ c'.data = c.data
  log : ∀ e ∈ s.a.log, e ∈ s'.a.log
  items : ∀ (k : Nat) (it : Wk.Item), s.w.items[k]? = some it → s'.w.items[k]? = some it
  sends : ∀ k h n d, .sendOk k h n d ∈ s'.w.log → .sendOk k h n d ∈ s.w.log ∨ (a = .w (.send k h d) ∧ ∃ it, s.w.items[k]? = some it)

theorem keep {s s' : Link.State ε} {a : Link.Action ε} (hs : Link.step s a = some s') : Keep s s' a := by
  constructor
  · intro i c hc
    rcases Link.step_kinds hs with ⟨act, a', n, h1, rfl, _⟩ | ⟨h, _⟩
    · exact calls_keep h1 hc
    · rw [h]; exact ⟨c, hc, rfl⟩
  · intro e he
    rcases Link.step_kinds hs with ⟨act, a', n, h1, rfl, _⟩ | ⟨h, _⟩
    · obtain ⟨l, hl⟩ := Cl.log_step h1
      dsimp only
      rw [hl]; exact List.mem_append_left _ he
    · rw [h]; exact he
  · intro k it hk
    rcases w_kinds hs with h | ⟨wact, h, _⟩
    · rw [h]; exact hk
    · obtain ⟨l, hl⟩ := (Link.w_mono h).1
      rw [← hl, List.getElem?_append_left (List.getElem?_eq_some_iff.1 hk).1]; exact hk
  · intro k h n d hm
    rcases w_kinds hs with e | ⟨wact, hw, ha⟩
    · rw [e] at hm; exact Or.inl hm
    · cases Link.weff_step hw with
      | enqueue e1 e2 => rw [e2] at hm; exact Or.inl hm
      | sendOk e0 _ _ e2 =>
        rw [e2] at hm
        rcases List.mem_append.1 hm with hm | hm
        · exact Or.inl hm
        · have := List.mem_singleton.1 hm
          injection this with h1 h2 h3 h4
          subst h1 h2 h4
          exact Or.inr ⟨ha _ _ _ rfl, _, e0⟩
      | sendErr _ _ _ e2 =>
        rw [e2] at hm
        rcases List.mem_append.1 hm with hm | hm
        · exact Or.inl hm
        · have := List.mem_singleton.1 hm; cases this
      | other _ e2 =>
        obtain ⟨es, e2, hne⟩ := e2
        rw [e2] at hm
        rcases List.mem_append.1 hm with hm | hm
        · exact Or.inl hm
        · exact absurd rfl (hne _ hm k h n d)

/-! ## Registrations -/

theorem registered_after (h : List (GoType × Decoder)) (t : GoType) (d : Decoder) : registered (codecAfter h) t d = codecAfter (h ++ [(t, d)]) := by
  rw [codecAfter_append]
  unfold registered
  simp only [Codec.runAll]
  cases (codecAfter h).register t d with
  | none => rfl
  | some x => rfl

theorem validRegs_append (h h' : List (GoType × Decoder)) : ∃ l, validRegs (h ++ h') = validRegs h ++ l := by
  rw [validRegs_eq, validRegs_eq, accepted_append]; exact accepted_prefix _ _

theorem validRegs_keep {h h' : List (GoType × Decoder)} {i : Nat} {x : GoType × Decoder} (hi : (validRegs h)[i]? = some x) : (validRegs (h ++ h'))[i]? = some x := by
  obtain ⟨l, hl⟩ := validRegs_append h h'
  rw [hl, List.getElem?_append_left (List.getElem?_eq_some_iff.1 hi).1]; exact hi

/-- Decoding at a time when only the registrations `h` had been made. -/
theorem decode_at {h h' : List (GoType × Decoder)} (hle : (validRegs (h ++ h')).length ≤ 65536) {i : Nat} (hi : i < 65536) (b : Bytes) :
    (codecAfter h).decode (put16 (UInt16.ofNat i) ++ b) = .err .notRegistered ∨
    ∃ t d, (validRegs (h ++ h'))[i]? = some (t, d) ∧ (codecAfter h).decode (put16 (UInt16.ofNat i) ++ b) = d.run b := by
  have inv := codecInv_after h
  obtain ⟨l, hl⟩ := validRegs_append h h'
  have hle' : (validRegs h).length ≤ 65536 := by rw [hl, List.length_append] at hle; omega
  rw [decode_encoded]
  cases hx : (validRegs h)[i]? with
  | none =>
    left
    rw [inv.de_none]
    have := List.getElem?_eq_none_iff.1 hx
    simp
    omega
  | some x =>
    right
    obtain ⟨t, d⟩ := x
    refine ⟨t, d, validRegs_keep hx, ?_⟩
    rw [inv.de i t d hx (by omega)]

/-! ## The invariant -/

/-- `data` is `u` as encoded by a node that has registered `r`. -/
def EncodedBy (r : List (GoType × Decoder)) (u : Val) (data : Bytes) : Prop :=
  ∃ (i : Nat) (d : Decoder), (validRegs r)[i]? = some (messageType u.ty, d) ∧ data = put16 (UInt16.ofNat i) ++ u.marshalled

theorem EncodedBy.mono {r : List (GoType × Decoder)} {u : Val} {data : Bytes} (h : EncodedBy r u data) (r' : List (GoType × Decoder)) : EncodedBy (r ++ r') u data := by
  obtain ⟨i, d, h1, h2⟩ := h
  exact ⟨i, d, validRegs_keep h1, h2⟩

/-- `x` is what a node that has registered `r` made of `data` at some time. -/
def DecodedBy (r : List (GoType × Decoder)) (data : Bytes) (x : Res Val) : Prop := ∃ h h', r = h ++ h' ∧ x = (codecAfter h).decode data

theorem DecodedBy.mono {r : List (GoType × Decoder)} {data : Bytes} {x : Res Val} (h : DecodedBy r data x) (r' : List (GoType × Decoder)) : DecodedBy (r ++ r') data x := by
  obtain ⟨h1, h2, rfl, e⟩ := h
  exact ⟨h1, h2 ++ r', by rw [List.append_assoc], e⟩

structure Inv (N H : Nat) (s : State ε) : Prop where
  link : Link.Reachable N H s.l
  cA : s.codecA = codecAfter s.regA
  cB : s.codecB = codecAfter s.regB
  asked : ∀ i v, (i, v) ∈ s.asked → ∃ c, s.l.a.calls[i]? = some c ∧ EncodedBy s.regA v c.data
  got : ∀ i r, (i, r) ∈ s.got → ∃ m v, .returned i m ∈ s.l.a.log ∧ (i, v) ∈ s.asked ∧ DecodedBy s.regA m.data r
  seen : ∀ k r, (k, r) ∈ s.seen → ∃ it, s.l.w.items[k]? = some it ∧ DecodedBy s.regB it.msg.data r
  answers : ∀ k j n data it, s.l.w.items[k]? = some it → it.client = 0 → .sendOk k j n data ∈ s.l.w.log → ∃ u, (k, j, u) ∈ s.answers ∧ EncodedBy s.regB u data

theorem Inv.new (N H : Nat) : Inv N H (State.new (ε := ε) N H) := by
  refine ⟨ReachFrom.refl _, rfl, rfl, ?_, ?_, ?_, ?_⟩
  · intro i v h; cases h
  · intro i v h; cases h
  · intro i v h; cases h
  · intro k j n data it h; simp [State.new, Link.State.new, Wk.State.new] at h

/-- A step of the nodes, with what it adds to the answers. -/
theorem Inv.link_step {N H : Nat} {s : State ε} (i : Inv N H s) {l : Link.State ε} {a : Link.Action ε} (hs : Link.step s.l a = some l) (more : List (Nat × Nat × Val))
    (hm : ∀ k h d it, a = .w (.send k h d) → s.l.w.items[k]? = some it → it.client = 0 → ∃ u, (k, h, u) ∈ s.answers ++ more ∧ EncodedBy s.regB u d) :
    Inv N H { s with l := l, answers := s.answers ++ more } := by
  obtain ⟨h1, h2, h3, h4, h5, h6, h7⟩ := i
  have kp := keep hs
  refine ⟨h1.snoc hs, h2, h3, ?_, ?_, ?_, ?_⟩
  · intro i v hv
    obtain ⟨c, hc, e⟩ := h4 i v hv
    obtain ⟨c', hc', e'⟩ := kp.calls i c hc
    exact ⟨c', hc', by rw [e']; exact e⟩
  · intro i r hr
    obtain ⟨m, v, e1, e2, e3⟩ := h5 i r hr
    exact ⟨m, v, kp.log _ e1, e2, e3⟩
  · intro k r hr
    obtain ⟨it, e1, e2⟩ := h6 k r hr
    exact ⟨it, kp.items _ _ e1, e2⟩
  · intro k j n data it hit hcl hsend
    rcases kp.sends k j n data hsend with hold | ⟨ha, it', hit'⟩
    · obtain ⟨it0, h0, _⟩ := ((Wk.SendInv.reach (Link.Base.reach h1).rw).started k j n data hold).2
      have := kp.items k it0 h0
      rw [hit] at this; injection this with this; subst this
      obtain ⟨u, hu, e⟩ := h7 k j n data it h0 hcl hold
      exact ⟨u, List.mem_append_left _ hu, e⟩
    · have := kp.items k it' hit'
      rw [hit] at this; injection this with this; subst this
      exact hm k j data it ha hit' hcl

theorem Inv.step {N H : Nat} {s s' : State ε} {a : Action ε} (i : Inv N H s) (hs : step s a = some s') : Inv N H s' := by
  cases a with
  | registerA t d =>
    simp only [Typed.step, Option.some.injEq] at hs; subst hs
    obtain ⟨h1, h2, h3, h4, h5, h6, h7⟩ := i
    refine ⟨h1, by dsimp only; rw [h2, registered_after], h3, ?_, ?_, h6, h7⟩
    · intro i v hv
      obtain ⟨c, hc, e⟩ := h4 i v hv
      exact ⟨c, hc, e.mono _⟩
    · intro i r hr
      obtain ⟨m, v, e1, e2, e3⟩ := h5 i r hr
      exact ⟨m, v, e1, e2, e3.mono _⟩
  | registerB t d =>
    simp only [Typed.step, Option.some.injEq] at hs; subst hs
    obtain ⟨h1, h2, h3, h4, h5, h6, h7⟩ := i
    refine ⟨h1, h2, by dsimp only; rw [h3, registered_after], h4, h5, ?_, ?_⟩
    · intro k r hr
      obtain ⟨it, e1, e2⟩ := h6 k r hr
      exact ⟨it, e1, e2.mono _⟩
    · intro k j n data it hit hcl hsend
      obtain ⟨u, hu, e⟩ := h7 k j n data it hit hcl hsend
      exact ⟨u, hu, e.mono _⟩
  | ask v =>
    simp only [Typed.step] at hs
    split at hs
    · rename_i data hd
      obtain ⟨l, hl, hs⟩ := Option.map_eq_some_iff.1 hs
      have i' := i.link_step hl [] (by simp)
      rw [List.append_nil] at i'
      split at hs
      · rename_i hlt
        subst hs
        obtain ⟨h1, h2, h3, h4, h5, h6, h7⟩ := i'
        refine ⟨h1, h2, h3, ?_, ?_, h6, h7⟩
        · intro j w hw
          rcases List.mem_append.1 hw with hw | hw
          · exact h4 j w hw
          · have := List.mem_singleton.1 hw
            injection this with e1 e2; subst e1 e2
            have hst : Cl.step s.l.a (.reqStart data) = some l.a := by
              simp only [Link.step, Link.stepA] at hl
              obtain ⟨a', ha, rfl⟩ := Option.map_eq_some_iff.1 hl
              exact ha
            rw [i.cA] at hd
            have henc : EncodedBy s.regA w data := by
              obtain ⟨i, d, e1, e2⟩ := encode_ok (codecInv_after s.regA) hd
              exact ⟨i, d, e1, e2⟩
            cases Cl.eff_step hst with
            | start _ _ e =>
              have h1 := congrArg (fun l => l[s.l.a.calls.length]?) e
              simp only [List.length_map, Nat.sub_self, List.getElem?_cons_zero, Nat.le_refl, List.getElem?_append_right] at h1
              rw [List.getElem?_map, Option.map_eq_some_iff] at h1
              obtain ⟨c, h1, h2⟩ := h1
              simp only [Cl.Call.nd, Prod.mk.injEq] at h2
              exact ⟨c, h1, by rw [h2.2]; exact henc⟩
            | refused _ _ e => rw [e] at hlt; exact absurd hlt (Nat.lt_irrefl _)
            | other _ e => have := congrArg List.length e; simp at this; omega
        · intro j r hr
          obtain ⟨m, v, e1, e2, e3⟩ := h5 j r hr
          exact ⟨m, v, e1, List.mem_append_left _ e2, e3⟩
      · subst hs; exact i'
    · cases hs
  | result j =>
    simp only [Typed.step] at hs
    split at hs
    · rename_i c hc
      split at hs
      · rename_i m hm
        split at hs
        · rename_i hj
          injection hs with hs; subst hs
          obtain ⟨h1, h2, h3, h4, h5, h6, h7⟩ := i
          refine ⟨h1, h2, h3, h4, ?_, h6, h7⟩
          intro i r hr
          rcases List.mem_append.1 hr with hr | hr
          · exact h5 i r hr
          · have := List.mem_singleton.1 hr
            injection this with e1 e2; subst e1 e2
            obtain ⟨⟨j', v⟩, hv, e⟩ := List.mem_map.1 hj
            dsimp only at e; subst e
            exact ⟨m, v, ((Cl.ReqsOK.reach (Link.Base.reach h1).ra).ret _ _).2 ⟨c, hc, hm⟩, hv, s.regA, [], (List.append_nil _).symm, by rw [h2]⟩
        · cases hs
      · cases hs
    · cases hs
  | look k =>
    simp only [Typed.step] at hs
    split at hs
    · rename_i it hit
      injection hs with hs; subst hs
      obtain ⟨h1, h2, h3, h4, h5, h6, h7⟩ := i
      refine ⟨h1, h2, h3, h4, h5, ?_, h7⟩
      intro k' r hr
      rcases List.mem_append.1 hr with hr | hr
      · exact h6 k' r hr
      · have := List.mem_singleton.1 hr
        injection this with e1 e2; subst e1 e2
        exact ⟨it, hit, s.regB, [], (List.append_nil _).symm, by rw [h3]⟩
    · cases hs
  | answer k h u =>
    simp only [Typed.step] at hs
    split at hs
    · rename_i it data hit hd
      split at hs
      · obtain ⟨l, hl, hs⟩ := Option.map_eq_some_iff.1 hs
        subst hs
        refine i.link_step hl _ ?_
        rintro k' h' d it' he _ _
        injection he with he
        injection he with e1 e2 e3
        subst e1 e2 e3
        rw [i.cB] at hd
        obtain ⟨i, d, e1, e2⟩ := encode_ok (codecInv_after s.regB) hd
        exact ⟨u, List.mem_append_right _ (List.mem_singleton.2 rfl), i, d, e1, e2⟩
      · cases hs
    · cases hs
  | link act =>
    simp only [Typed.step] at hs
    split at hs
    · rename_i hal
      obtain ⟨l, hl, hs⟩ := Option.map_eq_some_iff.1 hs
      subst hs
      have i' := i.link_step hl [] ?_
      · rw [List.append_nil] at i'; exact i'
      · rintro k h d it rfl hit hcl
        simp [allowed, hit, hcl] at hal
    · cases hs

theorem Inv.reach {N H : Nat} {s : State ε} (h : Reachable N H s) : Inv N H s := ReachFrom.inv (fun _ _ _ i hs => Inv.step i hs) h (Inv.new N H)

end Typed

/-! ## C90 -/

/-- The two nodes registered the same types in the same order, as far as both got. -/
def SameOrder (r r' : List (GoType × Decoder)) : Prop :=
  ∀ (i : Nat) x y, (validRegs r)[i]? = some x → (validRegs r')[i]? = some y → x.1 = y.1

/-- `x` is what decoding a message `v` should give on a node that registered `r`: the result of its decoder for `v`'s type on `v`'s serialisation, or an error if it does not know this type (yet). -/
def DecodesAs (r : List (GoType × Decoder)) (v : Val) (x : Res Val) : Prop :=
  x = .err .notRegistered ∨ ∃ d, (messageType v.ty, d) ∈ validRegs r ∧ x = d.run v.marshalled

theorem Typed.decodesAs {r r' : List (GoType × Decoder)} (hs : SameOrder r r') (hr : (validRegs r).length ≤ 65536) (hr' : (validRegs r').length ≤ 65536) {u : Val} {data : Bytes} {x : Res Val}
    (he : EncodedBy r u data) (hd : DecodedBy r' data x) : DecodesAs r' u x := by
  obtain ⟨i, d, h1, rfl⟩ := he
  obtain ⟨h, h', rfl, rfl⟩ := hd
  have hi : i < 65536 := Nat.lt_of_lt_of_le (List.getElem?_eq_some_iff.1 h1).1 hr
  rcases decode_at hr' hi u.marshalled with e | ⟨t, d', e1, e2⟩
  · exact Or.inl e
  · have := hs i _ _ h1 e1
    dsimp only at this
    subst this
    exact Or.inr ⟨d', List.mem_of_getElem? e1, e2⟩

/-- C90, what does hold: if the two nodes registered the same types in the same order (at most 65536 of them; one may be ahead of the other), then whatever `RequestMessage(v)` returns is what A's decoder for the type of `u`
makes of `u`, where `u` is what a handler of B sent with `SendMessage` on a context of this very request, and every `DecodeMessage` on that context gave what B's decoder for the type of `v` makes of `v`. In particular no
message is ever taken for one of another type. (Decoding fails if the receiver has not registered the type.) -/
theorem C90_typed_requests_partial (N H : Nat) (s : Typed.State ε) (h : Typed.Reachable N H s) (hb : s.l.a.calls.length < 2 ^ 64 - 1)
    (hA : (validRegs s.regA).length ≤ 65536) (hB : (validRegs s.regB).length ≤ 65536) (hAB : SameOrder s.regA s.regB) (i : Nat) (r : Res Val) (hr : (i, r) ∈ s.got) :
    ∃ v u k j it, (i, v) ∈ s.asked ∧ s.l.w.items[k]? = some it ∧ it.client = 0 ∧ .started k j ∈ s.l.w.log ∧ (k, j, u) ∈ s.answers ∧
      (∀ x, (k, x) ∈ s.seen → DecodesAs s.regB v x) ∧ DecodesAs s.regA u r ∧ ∀ w, r = .ok w → w.ty = messageType u.ty := by
  have inv := Typed.Inv.reach h
  obtain ⟨m, v, hm, hv, hd⟩ := inv.got i r hr
  obtain ⟨c, hc, he⟩ := inv.asked i v hv
  obtain ⟨k, j, e1, e2, e3⟩ := C81_responses_answer_the_request N H s.l inv.link hb i c hc m hm
  obtain ⟨u, hu, hue⟩ := inv.answers k j _ _ _ e1 rfl e3
  have hBA : SameOrder s.regB s.regA := fun i x y h1 h2 => (hAB i y x h2 h1).symm
  have hdec := Typed.decodesAs hBA hB hA hue hd
  refine ⟨v, u, k, j, _, hv, e1, rfl, e2, hu, ?_, hdec, ?_⟩
  · intro x hx
    obtain ⟨it, h1, h2⟩ := inv.seen k x hx
    rw [e1] at h1; injection h1 with h1; subst h1
    exact Typed.decodesAs hAB hA hB he h2
  · rintro w rfl
    rcases hdec with e | ⟨d, h1, h2⟩
    · cases e
    · have k1 := d.typed _ _ h2.symm
      have k2 := accepted_typed [] s.regA (by simp) (messageType u.ty, d) (by rw [← validRegs_eq]; exact h1)
      dsimp only at k2
      rw [k2] at k1
      injection k1 with k1
      exact k1.symm

/-- A connects to B, asks with `v`; B looks at the message and answers with `u`. -/
def typedRun (regA regB : List (GoType × Decoder)) (idA idB : ID) (v u : Val) (dv du : Bytes) : List (Typed.Action ε) :=
  (regA.map fun x => .registerA x.1 x.2) ++ (regB.map fun x => .registerB x.1 x.2) ++
  ((connectOut idB).map fun x => .link (.a x)) ++ ((connectIn idA).map fun x => .link (.b x)) ++ [.ask v] ++
  [.link (.a (.reqSend 0)), .link (.a .writer), .link (.a .writer), .link (.a .writer), .link (.a .writer),
   .link (.b .arrive), .link (.b (.readMsg ⟨1, dv⟩)), .link (.b .main), .link (.b .deliver), .link (.w (.work 0)), .link (.w (.work 0)), .look 0, .answer 0 0 u,
   .link (.b .writer), .link (.b .writer), .link (.b .writer), .link (.b .writer),
   .link (.a .arrive), .link (.a (.readMsg ⟨1, du⟩)), .link (.a .main), .link (.a (.reqTake 0)), .result 0]

theorem Typed.regs_run {as : List (Typed.Action ε)} {s s' : Typed.State ε} (h : runs Typed.step s as = some s') :
    s'.regA = s.regA ++ as.filterMap (fun | .registerA t d => some (t, d) | _ => none) ∧ s'.regB = s.regB ++ as.filterMap (fun | .registerB t d => some (t, d) | _ => none) := by
  induction as generalizing s with
  | nil => cases h; simp
  | cons a as ih =>
    obtain ⟨s1, h1, h2⟩ := runs_cons h
    obtain ⟨e1, e2⟩ := ih h2
    rw [e1, e2]
    cases a <;> simp only [Typed.step] at h1
    case registerA t d => injection h1 with h1; subst h1; simp
    case registerB t d => injection h1 with h1; subst h1; simp
    all_goals
      repeat' split at h1
    all_goals first
      | (cases h1; exact ⟨rfl, rfl⟩)
      | cases h1
      | (obtain ⟨l, _, h1⟩ := Option.map_eq_some_iff.1 h1; (try split at h1) <;> (subst h1; exact ⟨rfl, rfl⟩))

/-- C90 is false without that: A binds kademlia and then gossip, B binds gossip and then kademlia. A's `RequestMessage(Ping)` arrives at B as a gossip message, without any error, and when B answers with a `Ping`, A
takes it for a `Pong`. -/
theorem C90_registration_order_refuted :
    ∃ s : Typed.State Unit, Typed.Reachable 1 1 s ∧ s.regA = Typed.kademliaTypes ++ Typed.gossipTypes ∧ s.regB = Typed.gossipTypes ++ Typed.kademliaTypes ∧
      s.asked = [(0, ⟨.named 0, [], 0⟩)] ∧ s.seen = [(0, .ok ⟨.named 4, [], 0⟩)] ∧ s.answers = [(0, 0, ⟨.named 0, [], 0⟩)] ∧ s.got = [(0, .ok ⟨.named 1, [], 0⟩)] := by
  have h : (runs (Typed.step (ε := Unit)) (Typed.State.new 1 1) (typedRun (Typed.kademliaTypes ++ Typed.gossipTypes) (Typed.gossipTypes ++ Typed.kademliaTypes) .zero .zero
      ⟨.named 0, [], 0⟩ ⟨.named 0, [], 0⟩ [0, 0] [0, 1])).map (fun s => decide (s.asked = [(0, ⟨.named 0, [], 0⟩)]) && decide (s.seen = [(0, .ok ⟨.named 4, [], 0⟩)]) &&
        decide (s.answers = [(0, 0, ⟨.named 0, [], 0⟩)]) && decide (s.got = [(0, .ok ⟨.named 1, [], 0⟩)])) = some true := by decide +kernel
  obtain ⟨s, hs, e⟩ := Option.map_eq_some_iff.1 h
  simp only [Bool.and_eq_true, decide_eq_true_eq] at e
  obtain ⟨e1, e2⟩ := Typed.regs_run hs
  exact ⟨s, ⟨_, hs⟩, e1, e2, e.1.1.1, e.1.1.2, e.1.2, e.2⟩

/-- With the same order it works, whatever the ids are. -/
example (idA idB : ID) : ∃ s : Typed.State Nat, Typed.Reachable 1 1 s ∧ SameOrder s.regA s.regB ∧ s.seen = [(0, .ok ⟨.named 0, [], 0⟩)] ∧ s.got = [(0, .ok ⟨.named 1, [], 0⟩)] := by
  refine ⟨_, ⟨typedRun (Typed.kademliaTypes ++ Typed.gossipTypes) (Typed.kademliaTypes ++ Typed.gossipTypes) idA idB ⟨.named 0, [], 0⟩ ⟨.named 1, [], 0⟩ [0, 0] [0, 1], rfl⟩, ?_, rfl, rfl⟩
  intro i x y h1 h2
  exact congrArg Prod.fst (Option.some.inj (h1.symm.trans h2))

end Noise
