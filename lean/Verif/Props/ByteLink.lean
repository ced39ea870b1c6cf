import Verif.Model.ByteLink
import Verif.Props.Link
import Verif.Props.Frame
/-! # C89: end-to-end order, on bytes -/
namespace Noise
open Spec ByteLink
variable {ε : Type}

/-! ## Reading a prefix of a stream of frames -/

/-- What a writer may put on the connection. -/
def Sendable (x : Bytes × Message) : Prop := x.1.length = 12 ∧ x.2.data.length < 2 ^ 31

namespace ByteLink

theorem body_length {P : AEAD} (hP : P.IsGCM) {x : Bytes × Message} (hx : Sendable x) : (bodyOf (some P) x.1 (x.2.marshal [])).length = 36 + x.2.data.length := by
  simp only [bodyOf, encryptAEAD, List.length_append]
  rw [hP.seal_length _ _ (by rw [hx.1, hP.nonce_12]), hP.overhead_16, marshal_nil, List.length_append, put64_length, hx.1]
  omega

theorem frameMsg_eq (P : AEAD) (x : Bytes × Message) : frameMsg (some P) x.1 x.2 =
    put32 (UInt32.ofNat (bodyOf (some P) x.1 (x.2.marshal [])).length) ++ bodyOf (some P) x.1 (x.2.marshal []) := by
  unfold frameMsg; rw [frame_eq]

theorem frameMsg_length {P : AEAD} (hP : P.IsGCM) {x : Bytes × Message} (hx : Sendable x) : (frameMsg (some P) x.1 x.2).length = 40 + x.2.data.length := by
  rw [frameMsg_eq, List.length_append, put32_length, body_length hP hx]; omega

theorem frameMsg_head {P : AEAD} (hP : P.IsGCM) {x : Bytes × Message} (hx : Sendable x) (rest : Bytes) {k : Nat} (hk : 4 ≤ k) :
    beVal (((frameMsg (some P) x.1 x.2 ++ rest).take k).take 4) = 36 + x.2.data.length := by
  rw [List.take_take, Nat.min_eq_left hk, frameMsg_eq, body_length hP hx]
  have e : ((put32 (UInt32.ofNat (36 + x.2.data.length)) ++ bodyOf (some P) x.1 (x.2.marshal [])) ++ rest).take 4 = put32 (UInt32.ofNat (36 + x.2.data.length)) := by simp [put32]
  rw [e, beVal_put32]
  have := hx.2
  simp; omega

theorem suiteOK {P : AEAD} (hP : P.IsGCM) {x : Bytes × Message} (hx : Sendable x) : SuiteOK (some P) x.1 := by
  intro A hA; cases hA; exact ⟨hP.toLawful, by rw [hx.1, hP.nonce_12]⟩

/-- A complete first frame within the limit is read. -/
theorem readFrame_first {P : AEAD} (hP : P.IsGCM) {max : UInt32} (hmax : LimitOK max) {x : Bytes × Message} (hx : Sendable x) (hl : 36 + x.2.data.length ≤ max.toNat) (rest : Bytes) :
    readFrame max (some P) (frameMsg (some P) x.1 x.2 ++ rest) .eof = .ok (x.2.marshal [], rest) :=
  readFrame_frame hmax (suiteOK hP hx) (by rw [body_length hP hx]; exact hl) rest .eof

theorem parse_complete {P : AEAD} (hP : P.IsGCM) {max : UInt32} (hmax : LimitOK max) {x : Bytes × Message} (hx : Sendable x) (hl : 36 + x.2.data.length ≤ max.toNat) (rest : Bytes) :
    parse P max (frameMsg (some P) x.1 x.2 ++ rest) = some (x.2, (frameMsg (some P) x.1 x.2).length) := by
  unfold parse
  rw [readFrame_first hP hmax hx hl]
  simp only [unmarshal_marshal_msg]
  congr 2
  rw [List.length_append]; omega

theorem complete_first {P : AEAD} (hP : P.IsGCM) {max : UInt32} (hmax : LimitOK max) {x : Bytes × Message} (hx : Sendable x) (hl : 36 + x.2.data.length ≤ max.toNat) (rest : Bytes) :
    complete P max (frameMsg (some P) x.1 x.2 ++ rest) = complete P max rest + 1 := by
  unfold complete
  rw [recvAll_ok (readFrame_first hP hmax hx hl rest) (unmarshal_marshal_msg x.2)]
  rfl

/-- Reading from a prefix of a stream of frames gives the first message, if anything. -/
theorem parse_take {P : AEAD} (hP : P.IsGCM) {max : UInt32} (hmax : LimitOK max) {xs : List (Bytes × Message)} (hxs : ∀ x ∈ xs, Sendable x) {k n : Nat} {m : Message}
    (h : parse P max ((wire (some P) xs).take k) = some (m, n)) :
    ∃ x xs', xs = x :: xs' ∧ m = x.2 ∧ n = (frameMsg (some P) x.1 x.2).length ∧ n ≤ k ∧
      complete P max ((wire (some P) xs).take k) = complete P max ((wire (some P) xs').take (k - n)) + 1 := by
  obtain ⟨z, hr⟩ : ∃ z, readFrame max (some P) ((wire (some P) xs).take k) .eof = .ok z := by
    unfold parse at h
    cases hz : readFrame max (some P) ((wire (some P) xs).take k) .eof with
    | ok z => exact ⟨z, rfl⟩
    | err e => rw [hz] at h; cases h
    | panic => rw [hz] at h; cases h
  rw [readFrame_char hmax] at hr
  by_cases h4 : ((wire (some P) xs).take k).length < 4
  · rw [if_pos h4] at hr; cases hr
  rw [if_neg h4] at hr
  cases xs with
  | nil => simp [wire] at h4
  | cons x xs =>
    have hx := hxs x (by simp)
    have hk : 4 ≤ k := by simp only [List.length_take] at h4; omega
    rw [wire_cons] at hr h4 h ⊢
    rw [frameMsg_head hP hx _ hk] at hr
    by_cases hm : max.toNat < 36 + x.2.data.length
    · rw [if_pos hm] at hr; cases hr
    rw [if_neg hm] at hr
    by_cases hl : (List.take k (frameMsg (some P) x.1 x.2 ++ wire (some P) xs)).length < 4 + (36 + x.2.data.length)
    · rw [if_pos hl] at hr; cases hr
    have hlen := frameMsg_length hP hx
    have hk' : (frameMsg (some P) x.1 x.2).length ≤ k := by rw [List.length_take] at hl; omega
    rw [List.take_append, List.take_of_length_le hk'] at h ⊢
    rw [parse_complete hP hmax hx (by omega)] at h
    injection h with h
    injection h with h1 h2
    refine ⟨x, xs, rfl, h1.symm, h2.symm, by omega, ?_⟩
    rw [complete_first hP hmax hx (by omega), h2]

/-! ## The invariant of one direction -/

/-- Client `c` writes to the channel `ch`, from which the other end, a client with `rbuf` frames waiting, has read `n` messages. -/
structure Dir (P : AEAD) (max : UInt32) (c : Cl.State ε) (ch : Chan) (n rbuf : Nat) : Prop where
  ex : ∃ xs, xs.map Prod.snd = Link.wire c ∧ (∀ x ∈ xs, Sendable x) ∧ ch.sent = wire (some P) xs ∧ n ≤ xs.length ∧ ch.used = (wire (some P) (xs.take n)).length
  used : ch.used ≤ ch.arrived
  arrived : ch.arrived ≤ ch.sent.length
  rbuf : complete P max ch.unread ≤ rbuf

theorem wire_append (P : AEAD) (xs ys : List (Bytes × Message)) : Noise.wire (some P) (xs ++ ys) = Noise.wire (some P) xs ++ Noise.wire (some P) ys := by
  unfold Noise.wire; rw [List.flatMap_append]

theorem unread_eq {P : AEAD} {ch : Chan} {n : Nat} {xs : List (Bytes × Message)}
    (h1 : ch.sent = wire (some P) xs) (h2 : ch.used = (wire (some P) (xs.take n)).length) : ch.unread = (wire (some P) (xs.drop n)).take (ch.arrived - ch.used) := by
  unfold Chan.unread
  rw [List.drop_take, h1]
  conv => lhs; rw [← List.take_append_drop n xs, wire_append]
  rw [List.drop_append, h2, List.drop_length, Nat.sub_self, List.drop_zero, List.nil_append]

/-- The reader reads. -/
theorem Dir.read {P : AEAD} (hP : P.IsGCM) {max : UInt32} (hmax : LimitOK max) {c : Cl.State ε} {ch : Chan} {n r : Nat} (h : Dir P max c ch n r) {m : Message} {k : Nat}
    (hp : parse P max ch.unread = some (m, k)) : (Link.wire c)[n]? = some m ∧ Dir P max c { ch with used := ch.used + k } (n + 1) (r - 1) := by
  obtain ⟨⟨xs, e1, e2, e3, e4, e5⟩, h1, h2, h3⟩ := h
  have hu := unread_eq e3 e5
  rw [hu] at hp h3
  obtain ⟨x, xs', hx, hm, hk, hle, hc⟩ := parse_take hP hmax (fun x hx => e2 x (List.mem_of_mem_drop hx)) hp
  have hn : n < xs.length := by
    have := congrArg List.length hx
    simp only [List.length_drop, List.length_cons] at this
    omega
  have hget : xs[n]? = some x := by rw [← List.head?_drop, hx]; rfl
  have e5' : ch.used + k = (wire (some P) (xs.take (n + 1))).length := by
    rw [List.take_add_one, hget, wire_append, List.length_append, ← e5, hk]
    simp [Noise.wire]
  have hd : xs.drop (n + 1) = xs' := by rw [← List.drop_drop, hx]; rfl
  refine ⟨by rw [← e1, List.getElem?_map, hget, hm]; rfl, ⟨xs, e1, e2, e3, hn, e5'⟩, by dsimp only; omega, h2, ?_⟩
  rw [unread_eq (ch := { ch with used := ch.used + k }) e3 e5', hd]
  dsimp only
  rw [hc] at h3
  rw [Nat.sub_add_eq]
  omega

/-- Bytes arrive. -/
theorem Dir.arrive {P : AEAD} {max : UInt32} {c : Cl.State ε} {ch : Chan} {n r : Nat} (h : Dir P max c ch n r) {k : Nat} (hk : ch.arrived + k ≤ ch.sent.length) :
    Dir P max c { ch with arrived := ch.arrived + k } n (r + (complete P max { ch with arrived := ch.arrived + k }.unread - complete P max ch.unread)) := by
  obtain ⟨e, h1, h2, h3⟩ := h
  refine ⟨e, ?_, hk, by omega⟩
  show ch.used ≤ ch.arrived + k
  omega

/-- The writer writes. -/
theorem Dir.write {P : AEAD} {max : UInt32} {c c' : Cl.State ε} {ch : Chan} {n r : Nat} (h : Dir P max c ch n r) {rnd : Bytes} {m : Message} (hw : Link.wire c' = Link.wire c ++ [m])
    (hs : Sendable (rnd, m)) : Dir P max c' { ch with sent := ch.sent ++ frameMsg (some P) rnd m } n r := by
  obtain ⟨⟨xs, e1, e2, e3, e4, e5⟩, h1, h2, h3⟩ := h
  refine ⟨⟨xs ++ [(rnd, m)], by rw [List.map_append, e1, hw]; rfl, ?_, ?_, ?_, ?_⟩, h1, ?_, ?_⟩
  · intro x hx
    rcases List.mem_append.1 hx with hx | hx
    · exact e2 x hx
    · rw [List.mem_singleton.1 hx]; exact hs
  · rw [wire_append, ← e3]; simp [Noise.wire]
  · rw [List.length_append]; omega
  · rw [List.take_append_of_le_length e4]; exact e5
  · dsimp only; rw [List.length_append]; omega
  · have : ({ ch with sent := ch.sent ++ frameMsg (some P) rnd m } : Chan).unread = ch.unread := by
      unfold Chan.unread; dsimp only; rw [List.take_append_of_le_length h2]
    rw [this]; exact h3

/-- The ends do something else. -/
theorem Dir.other {P : AEAD} {max : UInt32} {c c' : Cl.State ε} {ch : Chan} {n r r' : Nat} (h : Dir P max c ch n r) (hw : Link.wire c' = Link.wire c) (hr : complete P max ch.unread ≤ r') :
    Dir P max c' ch n r' := ⟨by rw [hw]; exact h.ex, h.used, h.arrived, hr⟩

/-! ## Steps of a client that do not read or write messages -/

theorem wire_other {c c' : Cl.State ε} {act : Cl.Action ε} {n : Nat} (hp : plain c n act = true) (hs : Cl.step c act = some c') : Link.wire c' = Link.wire c := by
  cl_cases act hs
  all_goals first
    | rfl
    | (simp [Link.wire, Cl.State.report, Cl.State.send, Cl.State.setCall]; done)
    | simp_all [plain, writing]

theorem rbuf_other {c c' : Cl.State ε} {act : Cl.Action ε} {n : Nat} (hp : plain c n act = true) (hs : Cl.step c act = some c') (hn : n ≤ c.rbuf) : n ≤ c'.rbuf := by
  cl_cases act hs
  all_goals first
    | exact hn
    | (simp only [plain, decide_eq_true_eq] at hp; dsimp only; omega)
    | (dsimp only; omega)
    | simp [plain] at hp

theorem wire_writing {c c' : Cl.State ε} {m : Message} (hw : writing c = some m) (hs : Cl.step c .writer = some c') : Link.wire c' = Link.wire c ++ [m] ∧ c'.rbuf = c.rbuf := by
  unfold writing at hw
  cases h : c.writer with
  | batch l =>
    rw [h] at hw
    cases l with
    | nil => cases hw
    | cons x l =>
      injection hw with hw; subst hw
      simp only [Cl.step, Cl.State.writerStep, h, Option.some.injEq] at hs
      subst hs
      exact ⟨by simp [Link.wire], rfl⟩
  | _ => rw [h] at hw; cases hw

theorem stepA_plain {s s' : Link.State ε} {act : Cl.Action ε} {n : Nat} (hp : plain s.a n act = true) (hs : Link.stepA s act = some s') :
    ∃ a, Cl.step s.a act = some a ∧ s' = { s with a := a } := by
  cases act
  case readMsg m => simp [plain] at hp
  all_goals
    simp only [Link.stepA] at hs
    try (split at hs)
  all_goals first
    | (cases hs; done)
    | (obtain ⟨a, h1, h2⟩ := Option.map_eq_some_iff.1 hs; exact ⟨a, h1, h2.symm⟩)

theorem stepB_plain {s s' : Link.State ε} {act : Cl.Action ε} {n : Nat} (hp : plain s.b n act = true) (hs : Link.stepB s act = some s') :
    ∃ b w, Cl.step s.b act = some b ∧ s' = { s with b := b, w := w } := by
  cases act
  case readMsg m => simp [plain] at hp
  case deliver =>
    simp only [Link.stepB] at hs
    split at hs
    · obtain ⟨b, h1, h2⟩ := Option.bind_eq_some_iff.1 hs
      obtain ⟨w, h3, h4⟩ := Option.map_eq_some_iff.1 h2
      exact ⟨b, w, h1, h4.symm⟩
    · cases hs
  all_goals
    simp only [Link.stepB] at hs
  all_goals first
    | cases hs
    | (obtain ⟨b, h1, h2⟩ := Option.map_eq_some_iff.1 hs; exact ⟨b, s.w, h1, h2.symm⟩)

theorem stepW_plain {s s' : Link.State ε} {act : Wk.Action ε} (hs : Link.stepW s act = some s') :
    ∃ b w, s' = { s with b := b, w := w } ∧ Link.wire b = Link.wire s.b ∧ b.rbuf = s.b.rbuf := by
  unfold Link.stepW at hs
  split at hs
  · split at hs
    · cases hs
    · obtain ⟨w, h1, h2⟩ := Option.map_eq_some_iff.1 hs
      exact ⟨s.b, w, h2.symm, rfl, rfl⟩
  · split at hs
    · split at hs
      · obtain ⟨w, h1, h2⟩ := Option.bind_eq_some_iff.1 hs
        obtain ⟨b, h3, h4⟩ := Option.map_eq_some_iff.1 h2
        simp only [Cl.step, Option.some.injEq] at h3
        refine ⟨b, w, h4.symm, ?_, ?_⟩
        · subst h3; simp [Link.wire, Cl.State.send]
        · subst h3; rfl
      · obtain ⟨w, h1, h2⟩ := Option.map_eq_some_iff.1 hs
        exact ⟨s.b, w, h2.symm, rfl, rfl⟩
    · cases hs
  · obtain ⟨w, h1, h2⟩ := Option.map_eq_some_iff.1 hs
    exact ⟨s.b, w, h2.symm, rfl, rfl⟩

/-- Frames arrive at A. -/
theorem arriveA_link {N H : Nat} {s : Link.State ε} (h : Link.Reachable N H s) (hc : s.a.conn = .open) (k : Nat) :
    Link.Reachable N H { s with a := { s.a with rbuf := s.a.rbuf + k } } := by
  induction k with
  | zero => exact h
  | succ k ih =>
    refine ih.snoc (a := .a .arrive) ?_
    simp only [Link.step, Link.stepA, Cl.step, hc, if_true, Option.map_some]
    rfl

theorem arriveB_link {N H : Nat} {s : Link.State ε} (h : Link.Reachable N H s) (hc : s.b.conn = .open) (k : Nat) :
    Link.Reachable N H { s with b := { s.b with rbuf := s.b.rbuf + k } } := by
  induction k with
  | zero => exact h
  | succ k ih =>
    refine ih.snoc (a := .b .arrive) ?_
    simp only [Link.step, Link.stepB, Cl.step, hc, if_true, Option.map_some]
    rfl

/-! ## The simulation -/

structure Inv (p : Params) (N H : Nat) (s : State ε) : Prop where
  link : Link.Reachable N H s.l
  ab : Dir p.P p.maxB s.l.a s.ab s.l.readB s.l.b.rbuf
  ba : Dir p.P p.maxA s.l.b s.ba s.l.readA s.l.a.rbuf

theorem complete_nil (P : AEAD) {max : UInt32} (hmax : LimitOK max) : complete P max [] = 0 := by
  unfold complete
  rw [recvAll_err (e' := .eof)]
  · rfl
  · rw [readFrame_char hmax]; simp [shortErr]

theorem Inv.new {p : Params} (hA : LimitOK p.maxA) (hB : LimitOK p.maxB) (N H : Nat) : Inv p N H (State.new (ε := ε) N H) := by
  refine ⟨ReachFrom.refl _, ⟨⟨[], rfl, by simp, rfl, Nat.le_refl _, rfl⟩, Nat.le_refl _, Nat.le_refl _, ?_⟩, ⟨⟨[], rfl, by simp, rfl, Nat.le_refl _, rfl⟩, Nat.le_refl _, Nat.le_refl _, ?_⟩⟩
  · exact Nat.le_of_eq (complete_nil p.P hB)
  · exact Nat.le_of_eq (complete_nil p.P hA)

theorem Inv.step {p : Params} (hP : p.P.IsGCM) (hA : LimitOK p.maxA) (hB : LimitOK p.maxB) {N H : Nat} {s s' : State ε} {a : Action ε} (i : Inv p N H s) (hs : step p s a = some s') :
    Inv p N H s' := by
  obtain ⟨hl, hab, hba⟩ := i
  cases a with
  | a act =>
    simp only [ByteLink.step] at hs
    split at hs
    · rename_i hp
      obtain ⟨l, h1, h2⟩ := Option.map_eq_some_iff.1 hs
      obtain ⟨a, h3, h4⟩ := stepA_plain hp h1
      subst h2
      refine ⟨hl.snoc (a := .a act) h1, ?_, ?_⟩
      · subst h4; exact hab.other (wire_other hp h3) hab.rbuf
      · subst h4; exact hba.other rfl (rbuf_other hp h3 hba.rbuf)
    · cases hs
  | b act =>
    simp only [ByteLink.step] at hs
    split at hs
    · rename_i hp
      obtain ⟨l, h1, h2⟩ := Option.map_eq_some_iff.1 hs
      obtain ⟨b, w, h3, h4⟩ := stepB_plain hp h1
      subst h2
      refine ⟨hl.snoc (a := .b act) h1, ?_, ?_⟩
      · subst h4; exact hab.other rfl (rbuf_other hp h3 hab.rbuf)
      · subst h4; exact hba.other (wire_other hp h3) hba.rbuf
    · cases hs
  | w act =>
    simp only [ByteLink.step] at hs
    obtain ⟨l, h1, h2⟩ := Option.map_eq_some_iff.1 hs
    obtain ⟨b, w, h4, h5, h6⟩ := stepW_plain h1
    subst h2
    refine ⟨hl.snoc (a := .w act) h1, ?_, ?_⟩
    · subst h4; exact hab.other rfl (by dsimp only; rw [h6]; exact hab.rbuf)
    · subst h4; exact hba.other h5 hba.rbuf
  | writeA rnd =>
    simp only [ByteLink.step] at hs
    split at hs
    · rename_i m hm
      split at hs
      · rename_i hc
        obtain ⟨a, h1, h2⟩ := Option.map_eq_some_iff.1 hs
        obtain ⟨h3, h4⟩ := wire_writing hm h1
        subst h2
        refine ⟨hl.snoc (a := .a .writer) (by simp only [Link.step, Link.stepA, h1, Option.map_some]), hab.write h3 ⟨?_, hc.2⟩, hba.other rfl (by dsimp only; rw [h4]; exact hba.rbuf)⟩
        rw [hc.1, hP.nonce_12]
      · cases hs
    · cases hs
  | writeB rnd =>
    simp only [ByteLink.step] at hs
    split at hs
    · rename_i m hm
      split at hs
      · rename_i hc
        obtain ⟨b, h1, h2⟩ := Option.map_eq_some_iff.1 hs
        obtain ⟨h3, h4⟩ := wire_writing hm h1
        subst h2
        refine ⟨hl.snoc (a := .b .writer) (by simp only [Link.step, Link.stepB, h1, Option.map_some]), hab.other rfl (by dsimp only; rw [h4]; exact hab.rbuf), hba.write h3 ⟨?_, hc.2⟩⟩
        rw [hc.1, hP.nonce_12]
      · cases hs
    · cases hs
  | arriveA n =>
    simp only [ByteLink.step] at hs
    split at hs
    · rename_i hc
      injection hs with hs; subst hs
      exact ⟨arriveA_link hl hc.1 _, hab.other rfl hab.rbuf, hba.arrive hc.2⟩
    · cases hs
  | arriveB n =>
    simp only [ByteLink.step] at hs
    split at hs
    · rename_i hc
      injection hs with hs; subst hs
      exact ⟨arriveB_link hl hc.1 _, hab.arrive hc.2, hba.other rfl hba.rbuf⟩
    · cases hs
  | readA =>
    simp only [ByteLink.step] at hs
    split at hs
    · rename_i m n hp
      obtain ⟨a, h1, h2⟩ := Option.map_eq_some_iff.1 hs
      obtain ⟨h3, h4⟩ := hba.read hP hA hp
      subst h2
      have hst := h1
      simp only [Cl.step] at h1
      split at h1
      · injection h1 with h1
        refine ⟨hl.snoc (a := .a (.readMsg m)) (by simp only [Link.step, Link.stepA, h3, hst, if_true, Option.map_some]), hab.other ?_ hab.rbuf, ?_⟩
        · subst h1; rfl
        · subst h1; exact h4
      · cases h1
    · cases hs
  | readB =>
    simp only [ByteLink.step] at hs
    split at hs
    · rename_i m n hp
      obtain ⟨b, h1, h2⟩ := Option.map_eq_some_iff.1 hs
      obtain ⟨h3, h4⟩ := hab.read hP hB hp
      subst h2
      have hst := h1
      simp only [Cl.step] at h1
      split at h1
      · injection h1 with h1
        refine ⟨hl.snoc (a := .b (.readMsg m)) (by simp only [Link.step, Link.stepB, h3, hst, if_true, Option.map_some]), ?_, hba.other ?_ hba.rbuf⟩
        · subst h1; exact h4
        · subst h1; rfl
      · cases h1
    · cases hs

theorem Inv.reach {p : Params} (hP : p.P.IsGCM) (hA : LimitOK p.maxA) (hB : LimitOK p.maxB) {N H : Nat} {s : State ε} (h : Reachable p N H s) : Inv p N H s :=
  ReachFrom.inv (fun _ _ _ i hs => Inv.step hP hA hB i hs) h (Inv.new hA hB N H)

end ByteLink

/-! ## C89 -/

/-- C89: the two nodes joined by a connection that only carries bytes (in order, any number at a time), with the frames of `Model/Frame.lean` encrypted under the key of the session: the messages given to B's handlers
are exactly the first ones that A's callers submitted, and what A processes is exactly the first ones that B's handlers sent back. -/
theorem C89_end_to_end_bytes (p : ByteLink.Params) (hP : p.P.IsGCM) (hA : 1 ≤ p.maxA.toNat ∧ p.maxA.toNat ≤ 2 ^ 32 - 5) (hB : 1 ≤ p.maxB.toNat ∧ p.maxB.toNat ≤ 2 ^ 32 - 5)
    (N H : Nat) (s : ByteLink.State ε) (h : ByteLink.Reachable p N H s) :
    deliveredOf s.l.b.log <+: submittedOf s.l.a.log ∧ (s.l.w.items.filter fun it => it.client = 0).map Wk.Item.msg = deliveredOf s.l.b.log ∧
    processedOf s.l.a.log <+: submittedOf s.l.b.log :=
  C80_end_to_end_order N H s.l (Inv.reach hP hA hB h).link

/-- C89, continued: on a connection of bytes, what `Request` returns is the reply of a handler of B to this very request. -/
theorem C89_responses_bytes (p : ByteLink.Params) (hP : p.P.IsGCM) (hA : 1 ≤ p.maxA.toNat ∧ p.maxA.toNat ≤ 2 ^ 32 - 5) (hB : 1 ≤ p.maxB.toNat ∧ p.maxB.toNat ≤ 2 ^ 32 - 5)
    (N H : Nat) (s : ByteLink.State ε) (h : ByteLink.Reachable p N H s) (hb : s.l.a.calls.length < 2 ^ 64 - 1)
    (i : Nat) (c : Cl.Call) (hc : s.l.a.calls[i]? = some c) (m : Message) (hm : .returned i m ∈ s.l.a.log) :
    ∃ k j, s.l.w.items[k]? = some ⟨0, ⟨c.nonce, c.data⟩⟩ ∧ .started k j ∈ s.l.w.log ∧ .sendOk k j c.nonce m.data ∈ s.l.w.log :=
  C81_responses_answer_the_request N H s.l (Inv.reach hP hA hB h).link hb i c hc m hm

/-- C89, continued: nothing gets stuck in the buffers. If all bytes that A's writer handed over have arrived at B, B's receive loop is waiting, and it has read fewer messages than A's writer wrote, then it reads the next one,
provided it is within B's limit (36 bytes of envelope included). -/
theorem C89_next_message_is_read (p : ByteLink.Params) (hP : p.P.IsGCM) (hA : 1 ≤ p.maxA.toNat ∧ p.maxA.toNat ≤ 2 ^ 32 - 5) (hB : 1 ≤ p.maxB.toNat ∧ p.maxB.toNat ≤ 2 ^ 32 - 5)
    (N H : Nat) (s : ByteLink.State ε) (h : ByteLink.Reachable p N H s) (hr : s.l.b.main = .recv) (harr : s.ab.arrived = s.ab.sent.length)
    (m : Message) (hm : (wroteOf s.l.a.log)[s.l.readB]? = some m) (hmax : 36 + m.data.length ≤ p.maxB.toNat) :
    ∃ s', ByteLink.step p s .readB = some s' ∧ s'.l.b.main = .routing m ∧ s'.l.readB = s.l.readB + 1 := by
  obtain ⟨hl, hab, hba⟩ := Inv.reach hP hA hB h
  obtain ⟨⟨xs, e1, e2, e3, e4, e5⟩, h1, h2, h3⟩ := hab
  rw [← Link.mem_wire, ← e1, List.getElem?_map] at hm
  obtain ⟨x, hx, rfl⟩ := Option.map_eq_some_iff.1 hm
  have hd : xs.drop s.l.readB = x :: xs.drop (s.l.readB + 1) := by
    obtain ⟨hlt, hg⟩ := List.getElem?_eq_some_iff.1 hx
    rw [List.drop_eq_getElem_cons hlt, hg]
  have hS := e2 x (List.mem_of_getElem? hx)
  have hu : s.ab.unread = frameMsg (some p.P) x.1 x.2 ++ Noise.wire (some p.P) (xs.drop (s.l.readB + 1)) := by
    rw [unread_eq e3 e5, hd, wire_cons]
    apply List.take_of_length_le
    have hlen : (Noise.wire (some p.P) xs).length = (Noise.wire (some p.P) (xs.take s.l.readB)).length + (Noise.wire (some p.P) (xs.drop s.l.readB)).length := by
      rw [← List.length_append, ← wire_append, List.take_append_drop]
    rw [hd, wire_cons] at hlen
    rw [harr, e3, e5]
    omega
  have hc := complete_first hP hB hS hmax (Noise.wire (some p.P) (xs.drop (s.l.readB + 1)))
  rw [← hu] at hc
  have hp := parse_complete hP hB hS hmax (Noise.wire (some p.P) (xs.drop (s.l.readB + 1)))
  rw [← hu] at hp
  simp only [ByteLink.step, hp, Cl.step, hr, true_and]
  rw [if_pos (by omega)]
  exact ⟨_, rfl, rfl, rfl⟩

/-- The same in the other direction. -/
theorem C89_next_response_is_read (p : ByteLink.Params) (hP : p.P.IsGCM) (hA : 1 ≤ p.maxA.toNat ∧ p.maxA.toNat ≤ 2 ^ 32 - 5) (hB : 1 ≤ p.maxB.toNat ∧ p.maxB.toNat ≤ 2 ^ 32 - 5)
    (N H : Nat) (s : ByteLink.State ε) (h : ByteLink.Reachable p N H s) (hr : s.l.a.main = .recv) (harr : s.ba.arrived = s.ba.sent.length)
    (m : Message) (hm : (wroteOf s.l.b.log)[s.l.readA]? = some m) (hmax : 36 + m.data.length ≤ p.maxA.toNat) :
    ∃ s', ByteLink.step p s .readA = some s' ∧ s'.l.a.main = .routing m ∧ s'.l.readA = s.l.readA + 1 := by
  obtain ⟨hl, hab, hba⟩ := Inv.reach hP hA hB h
  obtain ⟨⟨xs, e1, e2, e3, e4, e5⟩, h1, h2, h3⟩ := hba
  rw [← Link.mem_wire, ← e1, List.getElem?_map] at hm
  obtain ⟨x, hx, rfl⟩ := Option.map_eq_some_iff.1 hm
  have hd : xs.drop s.l.readA = x :: xs.drop (s.l.readA + 1) := by
    obtain ⟨hlt, hg⟩ := List.getElem?_eq_some_iff.1 hx
    rw [List.drop_eq_getElem_cons hlt, hg]
  have hS := e2 x (List.mem_of_getElem? hx)
  have hu : s.ba.unread = frameMsg (some p.P) x.1 x.2 ++ Noise.wire (some p.P) (xs.drop (s.l.readA + 1)) := by
    rw [unread_eq e3 e5, hd, wire_cons]
    apply List.take_of_length_le
    have hlen : (Noise.wire (some p.P) xs).length = (Noise.wire (some p.P) (xs.take s.l.readA)).length + (Noise.wire (some p.P) (xs.drop s.l.readA)).length := by
      rw [← List.length_append, ← wire_append, List.take_append_drop]
    rw [hd, wire_cons] at hlen
    rw [harr, e3, e5]
    omega
  have hc := complete_first hP hA hS hmax (Noise.wire (some p.P) (xs.drop (s.l.readA + 1)))
  rw [← hu] at hc
  have hp := parse_complete hP hA hS hmax (Noise.wire (some p.P) (xs.drop (s.l.readA + 1)))
  rw [← hu] at hp
  simp only [ByteLink.step, hp, Cl.step, hr, true_and]
  rw [if_pos (by omega)]
  exact ⟨_, rfl, rfl, rfl⟩

/-! A run: A connects to B, asks, and the request arrives in three pieces. -/

def bytesParams : ByteLink.Params := ⟨toyAEAD, 1000, 1000⟩

def bytesRun (idA idB : ID) (d r : Bytes) (n m : Nat) : List (ByteLink.Action ε) :=
  (connectOut idB).map .a ++ (connectIn idA).map .b ++
  [.a (.reqStart d), .a (.reqSend 0), .a .writer, .a .writer, .writeA (List.replicate 12 7), .a .writer,
   .arriveB 3, .arriveB 20, .arriveB (n - 23), .readB, .b .main, .b .deliver, .w (.work 0), .w (.work 0), .w (.send 0 0 r), .b .writer, .b .writer, .writeB (List.replicate 12 9), .b .writer,
   .arriveA m, .readA, .a .main, .a (.reqTake 0)]

example : ((runs (ByteLink.step (ε := Nat) bytesParams) (.new 1 1) (bytesRun .zero .zero [1] [2] 41 41)).map fun s =>
    decide (deliveredOf s.l.b.log = [⟨1, [1]⟩] ∧ submittedOf s.l.b.log = [⟨1, [2]⟩] ∧ (s.l.a.calls.map fun c => decide (c.st = .returned ⟨1, [2]⟩)) = [true])) = some true := by
  decide +kernel

end Noise
