import Verif.Proofs.Guarded
import Verif.Proofs.RWLive
/-! # Properties C100-C102, and C21 under concurrency: methods that hold a mutex -/
namespace Noise
open Spec RW

/-- No deadlock: as long as some call has not returned, some call can take a step; and without new calls the steps come to an end (so all calls return). -/
def CallsReturn {σ ρ Op : Type} (impl : Op → Prog σ ρ) (s : RW.State σ ρ Op) : Prop :=
  (∀ (k : Nat) (c : RW.Call σ ρ), s.calls[k]? = some c → c.returned = false → ∃ j, (RW.step impl s (.go j)).isSome = true) ∧
  ¬ ∃ f : Nat → RW.State σ ρ Op, f 0 = s ∧ ∀ n, ∃ k, RW.step impl (f n) (.go k) = some (f (n + 1))

theorem callsReturn {σ ρ Op : Type} {impl : Op → Prog σ ρ} {apply : Op → σ → σ × ρ} (hm : ∀ op, Method (impl op) (apply op)) {init : σ} {s : RW.State σ ρ Op} (h : RW.Reachable impl init s) : CallsReturn impl s :=
  ⟨fun _ _ hk hc => progress hm h hk hc, fun ⟨f, _, hf⟩ => terminates impl f hf⟩

/-! ## C100 -/

/-- C100: any number of concurrent calls of `RegisterMessage`, `EncodeMessage` and `DecodeMessage`, interleaved access by access, return what they would return one after the other in some order that respects which call
returned before which other began; and all of them return. (`Marshal` does not use the node here, see C102.) -/
theorem C100_codec_linearizable (c : Codec) (s : RW.State Codec CodecRes CodecOp) (h : RW.Reachable (codecImpl plainMarshal) c s) :
    Linearizable codecApply c s.log ∧ CallsReturn (codecImpl plainMarshal) s :=
  ⟨linearizable codec_method h, callsReturn codec_method h⟩

/-- A decoder for type `n`. -/
def natDecoder (n : Nat) : Decoder := ⟨some (.named n), fun b => .ok ⟨.named n, b, 0⟩, by intro b v h; cases h; rfl⟩

/-- Two registrations and an encoding overlap: the first registration has begun to write when the others begin; the encoding waits and finds the type. -/
example : ∃ s : RW.State Codec CodecRes CodecOp, RW.Reachable (codecImpl plainMarshal) Codec.new s ∧ s.log =
    [.inv 0 (.register (.named 5) (natDecoder 5)), .inv 1 (.encode ⟨.named 5, [7], 0⟩), .inv 2 (.register (.named 6) (natDecoder 6)), .ret 0 (.opcode 0), .ret 1 (.bytes (.ok [0, 0, 7])), .ret 2 (.opcode 1)] :=
  ⟨_, ⟨[.call (.register (.named 5) (natDecoder 5)), .go 0, .go 0, .go 0, .go 0, .go 0, .call (.encode ⟨.named 5, [7], 0⟩), .call (.register (.named 6) (natDecoder 6)), .go 0, .go 0, .go 0, .go 0, .go 0, .go 1,
    .go 0, .go 2, .go 1, .go 1, .go 1, .go 2, .go 2, .go 2, .go 2, .go 2, .go 2, .go 2, .go 2, .go 2, .go 2], rfl⟩, rfl⟩

/-! ## C101 -/

/-- C101: any number of concurrent calls of the methods of a routing table, interleaved bucket by bucket, return what they would return one after the other in some order that respects which call returned before which other began;
and all of them return. -/
theorem C101_table_linearizable (S : Sorter) (t : Table) (s : RW.State Table TabRes TabOp) (h : RW.Reachable (tableImpl S) t s) :
    Linearizable (tableApply S) t s.log ∧ CallsReturn (tableImpl S) s :=
  ⟨linearizable (table_method S) h, callsReturn (table_method S) h⟩

def peerKey : PublicKey := ⟨List.replicate 31 7 ++ [9], by simp⟩

/-- `NumEntries` is called while `Update` is between inserting the peer and counting it, and waits. -/
example (S : Sorter) (addr : Bytes) : ∃ (s : RW.State Table TabRes TabOp) (x : RW.Call Table TabRes), RW.Reachable (tableImpl S) ⟨fun _ => [], newID zeroPublicKey addr 9001, 0⟩ s ∧
    (s.obj.entries (s.obj.bucketIndex peerKey)).length = 1 ∧ s.obj.size = 0 ∧ s.calls[1]? = some x ∧ x.returned = false ∧ RW.step (tableImpl S) s (.go 1) = none :=
  ⟨_, _, ⟨[.call (.update (newID peerKey addr 9000)), .go 0, .go 0, .go 0, .go 0, .go 0, .go 0, .call .numEntries], rfl⟩, rfl, rfl, rfl, rfl, by exact rfl⟩

/-! ## C21 under concurrency -/

/-- C21 also holds for concurrent callers: calls on the request map are linearizable, so C21, which speaks about sequences of calls, applies to them; and all of them return. -/
theorem C21_requests_linearizable (r : RequestMap) (s : RW.State RequestMap ReqObs (Nat × ReqOp)) (h : RW.Reachable requestsImpl r s) : Linearizable requestsApply r s.log ∧ CallsReturn requestsImpl s :=
  ⟨linearizable requests_method h, callsReturn requests_method h⟩

/-- Two requests overlap; the second begins while the first has counted up but not yet reserved its nonce. -/
example : ∃ s : RW.State RequestMap ReqObs (Nat × ReqOp), RW.Reachable requestsImpl RequestMap.new s ∧
    s.log = [.inv 0 (0, .register), .inv 1 (1, .register), .ret 1 (.issued 2), .ret 0 (.issued 1)] :=
  ⟨_, ⟨[.call (0, .register), .go 0, .go 0, .go 0, .go 0, .call (1, .register), .go 0, .go 0, .go 0, .go 0, .go 1, .go 1, .go 1, .go 1, .go 1, .go 1, .go 1, .go 1, .go 1, .go 0], rfl⟩, rfl⟩

/-! ## C102 -/

theorem RW.Prog.Paired.bind {σ ρ τ : Type} {p : Prog σ ρ} {f : ρ → Prog σ τ} (h : p.Paired) (hf : ∀ r, (f r).Paired) : (p.bind f).Paired := by
  induction h with
  | ret r => exact hf r
  | act _ ih => exact .act ih
  | lockW p => exact .lockW _
  | lockR _ ih => exact .lockR ih
  | unlockR _ ih => exact .unlockR ih

theorem RW.Prog.Paired.guardR {σ ρ : Type} {p : Prog σ ρ} (h : p.Paired) : (Prog.guarded .r p).Paired := .lockR (h.bind fun r => .unlockR (.ret r))

theorem encode_paired {marshal : Prog Codec Bytes} (h : marshal.Paired) (v : Val) : (encodeProg marshal v).Paired := by
  refine .guardR (.act fun c => ?_)
  generalize c.ser _ = o
  cases o with
  | none => exact .ret _
  | some o => exact h.bind fun b => .ret _

theorem nested_paired (ty : GoType) (inner v : Val) : (nestedMarshal ty inner v).Paired := by
  simp only [nestedMarshal]
  split
  · exact (encode_paired (.ret _) inner).bind fun r => .ret _
  · exact .ret _

theorem nested_impl_paired (ty : GoType) (inner : Val) (op : CodecOp) : (codecImpl (nestedMarshal ty inner) op).Paired := by
  cases op with
  | register t d => exact .lockW _
  | encode v => exact (encode_paired (nested_paired _ _ _) v).bind fun r => .ret _
  | decode data =>
    simp only [codecImpl, decodeProg]
    split
    · exact .ret _
    · split
      · refine .guardR (.act fun c => ?_)
        split <;> exact .ret _
      · exact .ret _

theorem impl_locks (marshal : Val → Prog Codec Bytes) (op : CodecOp) : (∃ data, data.length < 2 ∧ op = .decode data) ∨ ∃ m x, codecImpl marshal op = .lock m x := by
  cases op with
  | register t d => exact .inr ⟨_, _, rfl⟩
  | encode v => exact .inr ⟨_, _, rfl⟩
  | decode data =>
    by_cases h : data.length < 2
    · exact .inl ⟨data, h, rfl⟩
    · right
      match data, h with
      | a :: b :: l, h =>
        simp only [codecImpl, decodeProg, h, if_false]
        rw [show (slice (a :: b :: l) 0 2 >>= get16) = .ok (b.toUInt16 ||| (a.toUInt16 <<< 8)) by simp only [slice, List.drop_zero, Nat.sub_zero, List.length_cons]; rw [if_pos (by omega)]; rfl,
          show slice (a :: b :: l) 2 (a :: b :: l).length = .ok l by simp [slice]]
        exact ⟨_, _, rfl⟩
      | [], h => simp at h
      | [a], h => simp at h

/-- C102 is false: `Marshal` of the outer message calls `EncodeMessage` for the inner one; if some `RegisterMessage` begins in between, nothing on this codec ever returns again, in every continuation: neither of the two calls, nor
any later `EncodeMessage`, `RegisterMessage`, or `DecodeMessage` (except of fewer than two bytes). -/
theorem C102_nested_encode_refuted (c : Codec) (outer inner : Val) (n : Nat) (o : UInt16) (hty : outer.ty = .named n) (ho : c.ser (.named n) = some o) (t : GoType) (d : Decoder) :
    ∃ s, runs (RW.step (codecImpl (nestedMarshal outer.ty inner))) (.new c) [.call (.encode outer), .go 0, .go 0, .call (.register t d), .go 1] = some s ∧
      ∀ s', ReachFrom (RW.step (codecImpl (nestedMarshal outer.ty inner))) s s' → ∀ k r, .ret k r ∈ s'.log → ∃ data, data.length < 2 ∧ .inv k (.decode data) ∈ s'.log := by
  obtain ⟨ty, ms, pl⟩ := outer
  simp only at hty
  subst hty
  let impl := codecImpl (nestedMarshal (.named n) inner)
  have hP : ∃ P, ((((match c.ser (.named n) with
      | none => (.ret (.err .notRegistered) : Prog Codec (Res Bytes))
      | some opcode => (nestedMarshal (.named n) inner ⟨.named n, ms, pl⟩).bind fun b => .ret (.ok (put16 opcode ++ b))).bind fun r => .unlock .r (.ret r)).bind fun r => .ret (.bytes r)) : Prog Codec CodecRes) = .lock .r P := by
    rw [ho]
    simp only [nestedMarshal, if_true]
    exact ⟨_, rfl⟩
  obtain ⟨P, hP⟩ := hP
  let e0 : CodecOp := .encode ⟨.named n, ms, pl⟩
  let e1 : CodecOp := .register t d
  obtain ⟨Q, hQ⟩ : ∃ Q, registerProg t d = .lock .w Q := ⟨_, rfl⟩
  have hrun : runs (RW.step impl) (.new c) [.call e0, .go 0, .go 0, .call e1, .go 1] = some ⟨c, some (1, false), [0], [⟨.lock .r P, false⟩, ⟨.lock .w Q, false⟩], [.inv 0 e0, .inv 1 e1]⟩ := by
    rw [← hP, ← hQ]
    rfl
  refine ⟨_, hrun, fun s' hs' k r hr => ?_⟩
  have hdead : Dead (fun op => ∃ data, data.length < 2 ∧ op = .decode data) 0 1 P Q (⟨c, some (1, false), [0], [⟨.lock .r P, false⟩, ⟨.lock .w Q, false⟩], [.inv 0 e0, .inv 1 e1]⟩ : RW.State Codec CodecRes CodecOp) := by
    refine ⟨⟨rfl, rfl, by simp, rfl⟩, ?_, ?_, ?_⟩
    · intro j x hj _
      match j, hj with
      | 0, hj =>
        injection hj with hj; subst hj
        show (Prog.lock .r P).Paired
        rw [← hP, ho]
        exact (RW.Prog.Paired.bind (.bind (.bind (nested_paired _ _ _) fun _ => .ret _) fun _ => .unlockR (.ret _)) fun _ => .ret _)
      | 1, hj => injection hj with hj; subst hj; exact .lockW _
      | j + 2, hj => simp at hj
    · intro j r hj
      simp at hj
    · intro j x hj
      match j, hj with
      | 0, hj => injection hj with hj; exact ⟨e0, by simp, .inr ⟨_, _, hj.symm⟩⟩
      | 1, hj => injection hj with hj; exact ⟨e1, by simp, .inr ⟨_, _, hj.symm⟩⟩
      | j + 2, hj => simp at hj
  obtain ⟨op, h1, data, h2, rfl⟩ := (hs'.inv (P := Dead _ 0 1 P Q) (fun _ _ _ h hs => h.step (nested_impl_paired _ _) (impl_locks _) hs) hdead).logged k r hr
  exact ⟨data, h2, h1⟩

/-- The hypotheses hold: `Envelope` is registered, and another type is registered while an `Envelope` is encoded. -/
example : ∃ (c : Codec) (o : UInt16), (∃ s : RW.State Codec CodecRes CodecOp, RW.Reachable (codecImpl plainMarshal) Codec.new s ∧ s.obj = c ∧ s.log.length = 2) ∧ c.ser (.named 5) = some o :=
  ⟨_, 0, ⟨_, ⟨[.call (.register (.named 5) (natDecoder 5)), .go 0, .go 0, .go 0, .go 0, .go 0, .go 0, .go 0, .go 0, .go 0, .go 0, .go 0], rfl⟩, rfl, rfl⟩, rfl⟩

/-- The message in which `Marshal` has put the encoding of `inner`. -/
def nestedOp (c : Codec) (t : GoType) (inner : Val) : CodecOp → CodecOp
  | .encode v => if v.ty = t then .encode { v with marshalled := match c.encode inner with
    | .ok b => b
    | _ => [] } else .encode v
  | op => op

theorem nested_reads (ty : GoType) (inner : Val) (op : CodecOp) (h : ∀ t d, op ≠ .register t d) : (codecImpl (nestedMarshal ty inner) op).Reads := by
  have enc : ∀ (marshal : Prog Codec Bytes) (v : Val), marshal.Reads → (encodeProg marshal v).Reads := by
    intro marshal v h
    refine .lock (.bind (.get fun c => ?_) fun r => .unlock (.ret r))
    generalize c.ser _ = o
    cases o with
    | none => exact .ret _
    | some o => exact h.bind fun b => .ret _
  cases op with
  | register t d => exact absurd rfl (h t d)
  | encode v =>
    refine (enc _ v ?_).bind fun r => .ret _
    simp only [nestedMarshal]
    split
    · exact (enc _ inner (.ret _)).bind fun r => .ret _
    · exact .ret _
  | decode data =>
    simp only [codecImpl, decodeProg]
    split
    · exact .ret _
    · split
      · refine .lock (.bind (.get fun c => ?_) fun r => .unlock (.ret r))
        split <;> exact .ret _
      · exact .ret _

theorem run_bind {σ ρ τ : Type} (p : Prog σ ρ) (f : ρ → Prog σ τ) (s : σ) : (p.bind f).run s = (f (p.run s).2).run (p.run s).1 := by
  induction p generalizing s with
  | ret r => rfl
  | act u n ih => exact ih s (u s)
  | lock m p ih => exact ih s
  | unlock m p ih => exact ih s

theorem encode_run (marshal : Prog Codec Bytes) (v : Val) (c : Codec) (h : (marshal.run c).1 = c) : (encodeProg marshal v).run c = (c, c.encode { v with marshalled := (marshal.run c).2 }) := by
  simp only [encodeProg, Prog.guarded, Prog.get, Prog.run, run_bind, id, Codec.encode]
  generalize c.ser _ = o
  cases o with
  | none => rfl
  | some o => simp only [run_bind, Prog.run, h]

theorem nested_run (ty : GoType) (inner : Val) (c : Codec) (op : CodecOp) (h : ∀ t d, op ≠ .register t d) : ((codecImpl (nestedMarshal ty inner) op).run c).2 = (codecApply (nestedOp c ty inner op) c).2 := by
  cases op with
  | register t d => exact absurd rfl (h t d)
  | encode v =>
    have hi := encode_run (plainMarshal inner) inner c rfl
    simp only [plainMarshal, Prog.run] at hi
    simp only [codecImpl, run_bind, nestedOp, nestedMarshal]
    split
    · rw [encode_run _ v c (by simp only [run_bind, plainMarshal, hi, Prog.run])]
      simp only [run_bind, plainMarshal, hi, Prog.run, codecApply]
      generalize c.encode inner = o
      cases o <;> rfl
    · rw [encode_run _ v c rfl]; rfl
  | decode data =>
    show ((codecImpl plainMarshal (.decode data)).run c).2 = (codecApply (.decode data) c).2
    rcases codec_method (.decode data) with ⟨r, e, h⟩ | ⟨m, body, e, _, h⟩
    · rw [e, h]; rfl
    · rw [e, ← h, Prog.guarded, Prog.run, run_bind]; rfl

/-- C102, the part that holds: if no `RegisterMessage` begins after the others, messages may contain messages: any number of concurrent `EncodeMessage` and `DecodeMessage` calls all return, and return what they return alone, where
`Marshal` of the outer message has the encoding of the inner message at its disposal. And (C100) if `Marshal` does not use the node, `RegisterMessage` may be called at any time. Missing: both (`C102_nested_encode_refuted`). -/
theorem C102_without_registration_partial (ty : GoType) (inner : Val) (c : Codec) (as : List (RW.Action CodecOp)) (s : RW.State Codec CodecRes CodecOp) (h : runs (RW.step (codecImpl (nestedMarshal ty inner))) (.new c) as = some s)
    (hreg : ∀ t d, .call (.register t d) ∉ as) :
    CallsReturn (codecImpl (nestedMarshal ty inner)) s ∧ ∀ k r, .ret k r ∈ s.log → ∃ op, .inv k op ∈ s.log ∧ r = (codecApply (nestedOp c ty inner op) c).2 := by
  have hr : Readers (codecImpl (nestedMarshal ty inner)) c s ∧ ∀ k op, .inv k op ∈ s.log → ∀ t d, op ≠ .register t d := by
    refine runs_inv' (P := fun s => Readers (codecImpl (nestedMarshal ty inner)) c s ∧ ∀ k op, .inv k op ∈ s.log → ∀ t d, op ≠ .register t d) (Q := fun a => ∀ t d, a ≠ .call (.register t d)) ?_
      (fun a ha t d e => hreg t d (by rw [← e]; exact ha)) h ⟨⟨rfl, rfl, by intro j c h; simp [RW.State.new] at h, by intro j c h; cases h⟩, by intro j c h; cases h⟩
    intro s a s' ⟨hr, hn⟩ ha hs
    refine ⟨hr.step (fun op e => nested_reads _ _ _ fun t d e' => ha t d (by rw [e, e'])) hs, ?_⟩
    intro k op hk
    cases a with
    | call o =>
      simp only [RW.step, Option.some.injEq] at hs
      subst hs
      rcases List.mem_append.1 hk with hk | hk
      · exact hn k op hk
      · rw [List.mem_singleton] at hk
        injection hk with _ e
        subst e
        exact fun t d e => ha t d (by rw [e])
    | go j =>
      refine hn k op ?_
      simp only [RW.step] at hs
      split at hs
      · rename_i p hj
        cases p with
        | ret r =>
          simp only [RW.State.go, Option.some.injEq] at hs; subst hs
          rcases List.mem_append.1 hk with hk | hk
          · exact hk
          · simp at hk
        | act u n => simp only [RW.State.go, RW.State.setProg, Option.some.injEq] at hs; subst hs; exact hk
        | lock m p =>
          cases m with
          | r =>
            simp only [RW.State.go, RW.State.setProg] at hs
            split at hs
            · injection hs with hs; subst hs; exact hk
            · cases hs
          | w =>
            simp only [RW.State.go, RW.State.setProg] at hs
            split at hs
            · injection hs with hs; subst hs; exact hk
            · split at hs
              · injection hs with hs; subst hs; exact hk
              · cases hs
        | unlock m p => cases m <;> (simp only [RW.State.go, RW.State.setProg, Option.some.injEq] at hs; subst hs; exact hk)
      · cases hs
  refine ⟨⟨fun _ _ hk hc => hr.1.progress hk hc, fun ⟨f, _, hf⟩ => terminates _ f hf⟩, ?_⟩
  intro k r hk
  obtain ⟨op, h1, h2⟩ := hr.1.logged k r hk
  exact ⟨op, h1, h2.trans (nested_run _ _ _ _ (hr.2 k op h1))⟩

/-- Two messages that contain messages are encoded concurrently. -/
example : ∃ (s : RW.State Codec CodecRes CodecOp), runs (RW.step (codecImpl (nestedMarshal (.named 5) ⟨.named 6, [9], 0⟩)))
    (.new ⟨2, fun t => if t = .named 5 then some 0 else if t = .named 6 then some 1 else none, fun _ => none⟩)
    ([.call (.encode ⟨.named 5, [], 0⟩), .call (.encode ⟨.named 5, [], 1⟩)] ++ (List.replicate 7 [.go 0, .go 1]).flatten) = some s ∧ s.log.drop 2 = [.ret 0 (.bytes (.ok [0, 0, 0, 1, 9])), .ret 1 (.bytes (.ok [0, 0, 0, 1, 9]))] :=
  ⟨_, rfl, rfl⟩

end Noise
