import Verif.Spec.KadWire
import Verif.Proofs.KadNode
import Verif.Proofs.GossipWork
import Verif.Props.Kad
import Verif.Props.KadMsg
import Verif.Props.Iterator
import Verif.Props.Search
/-! # Kademlia on a network of whole nodes: where identities come from -/
namespace Noise.KWire
open Noise.Spec
variable {ε : Type}

/-- What `Handle` sends: a pong, or a response that names identities that satisfy `V`. -/
def Fine (o : Kad.Opcodes) (V : ID → Prop) (d : Bytes) : Prop := d = put16 o.pong ++ marshalPing ∨ ∃ l, (∀ e ∈ l, V e) ∧ d = put16 o.response ++ marshalFindNodeResponse l

structure FOk (S : Sorter) (V : ID → Prop) (f : Find) : Prop where
  inv : Iter.Inv S f.cfg f.peers f.it
  peers : ∀ e ∈ f.peers, V e
  replies : ∀ r ∈ f.it.shared.replies, ∀ l, r.answer = some l → ∀ e ∈ l, V e

structure POk (S : Sorter) (c : Cfg ε) (P V : ID → Prop) (n : Nat) (p : Part) : Prop where
  tab : Table.Reachable (c.id n) p.kad.table
  src : KadNode.Src P p.kad
  runs : ∀ r ∈ p.runs, ∀ d, r.pc = .reply d → Fine c.ops V d
  finds : ∀ f ∈ p.finds, FOk S V f

structure Ok (S : Sorter) (c : Cfg ε) (P : Nat → ID → Prop) (V : ID → Prop) (s : State ε) : Prop where
  parts : ∀ n p, s.parts[n]? = some p → POk S c (P n) V n p
  sent : ∀ (n : Nat) (x : Node.State ε) (q : Wk.State ε) (k : Nat) (v : UInt64) (d : Bytes), s.net.nodes[n]? = some x → x.wk = some q → .sendOk k c.handler v d ∈ q.log → Fine c.ops V d

theorem Fine.mono {o : Kad.Opcodes} {V V' : ID → Prop} {d : Bytes} (h : Fine o V d) (hv : ∀ e, V e → V' e) : Fine o V' d := by
  rcases h with h | ⟨l, h1, h2⟩
  · exact .inl h
  · exact .inr ⟨l, fun e he => hv e (h1 e he), h2⟩

theorem Ok.mono {S : Sorter} {c : Cfg ε} {P P' : Nat → ID → Prop} {V V' : ID → Prop} {s : State ε} (h : Ok S c P V s) (hp : ∀ n e, P n e → P' n e) (hv : ∀ e, V e → V' e) : Ok S c P' V' s where
  parts n p hn := by
    have g := h.parts n p hn
    exact ⟨g.tab, g.src.mono (hp n), fun r hr d hd => (g.runs r hr d hd).mono hv,
      fun f hf => ⟨(g.finds f hf).inv, fun e he => hv e ((g.finds f hf).peers e he), fun r hr l hl e he => hv e ((g.finds f hf).replies r hr l hl e he)⟩⟩
  sent n x q k v d h1 h2 h3 := (h.sent n x q k v d h1 h2 h3).mono hv

theorem Fine.decode {o : Kad.Opcodes} {V : ID → Prop} {d : Bytes} (h : Fine o V d) (hw : ∀ e, V e → WellFormed e) {l : List ID} (hd : Search.decode o.response d = some l) : ∀ e ∈ l, V e := by
  have h2 : ∀ op : UInt16, (put16 op).length = 2 := fun op => rfl
  rcases h with rfl | ⟨l0, h1, rfl⟩
  · exfalso
    unfold Search.decode at hd
    rw [List.take_left' (h2 _)] at hd
    split at hd
    · rename_i hop
      have : o.pong = o.response := by
        have h3 := congrArg (fun x => get16 (x ++ [])) hop
        simp only [get16_put16] at h3
        injection h3
      have hn := o.distinct
      simp [this] at hn
    · cases hd
  · unfold Search.decode at hd
    rw [List.take_left' (h2 _), if_pos rfl, List.drop_left' (h2 _), (C53_response_roundtrip l0 (fun e he => hw e (h1 e he))).2] at hd
    simp only [Option.some.injEq] at hd
    subst hd
    exact fun e he => h1 e (List.mem_of_mem_take he)

theorem kad_table {k k' : Kad.State} {a : Kad.Action} (h : Kad.step k a = some k') : k'.table = k.table ∨ ∃ op, k'.table = k.table.apply op := by
  unfold Kad.step at h
  split at h
  · cases h
  cases a with
  | ack e => cases h; exact .inl rfl
  | pingFailed a => cases h; exact .inl rfl
  | table op => cases h; exact .inr ⟨op, rfl⟩
  | pinged i pong => simp only at h; split at h <;> cases h; exact .inl rfl
  | step i =>
    simp only at h
    split at h
    swap
    · cases h
    rename_i id pc _
    cases pc with
    | update =>
      have he : (k.table.update id).1 = k.table.apply (.update id) := rfl
      simp only [Kad.threadStep] at h
      split at h <;> (rename_i t hu; rw [hu] at he; cases h; exact .inr ⟨_, he⟩)
    | last => simp only [Kad.threadStep] at h; split at h <;> (cases h; exact .inl rfl)
    | ping => cases h
    | delete x =>
      have he : (k.table.delete x.id).1 = k.table.apply (.delete x.id) := rfl
      simp only [Kad.threadStep] at h
      split at h <;> (rename_i t y hu; rw [hu] at he; cases h; exact .inr ⟨_, he⟩)
    | emit => simp only [Kad.threadStep] at h; cases h; exact .inl rfl
    | deleteAddress a =>
      have he : (k.table.deleteByAddress a).1 = k.table.apply (.deleteByAddress a) := rfl
      simp only [Kad.threadStep] at h
      split at h <;> (rename_i t y hu; rw [hu] at he; cases h; exact .inr ⟨_, he⟩)
    | done => cases h

theorem iter_replies {S : Sorter} {c : Iter.Cfg} {s s' : Iter.State} {a : Iter.Action} (h : Iter.step S c s a = some s') :
    ∀ r ∈ s'.shared.replies, r ∈ s.shared.replies ∨ ∃ i j, a = .lookup i (.answer j r.who r.answer) := by
  cases a with
  | lookup i a =>
    simp only [Iter.step] at h
    split at h
    swap
    · cases h
    rename_i l _
    split at h <;> cases h
    rename_i sh' l' hst
    intro r hr
    cases a with
    | main =>
      simp only [Iter.lookupStep, Iter.mainStep] at hst
      split at hst <;> (repeat' split at hst) <;> first | (cases hst; done) | (cases hst; exact .inl hr)
    | worker j =>
      simp only [Iter.lookupStep] at hst
      split at hst
      swap
      · cases hst
      rename_i w _
      cases w <;> simp only [Iter.workerStep] at hst <;> (repeat' split at hst) <;> first | (cases hst; done) | (cases hst; exact .inl hr)
    | answer j who x =>
      simp only [Iter.lookupStep] at hst
      split at hst
      swap
      · cases hst
      cases hst
      rcases List.mem_append.1 hr with hr | hr
      · exact .inl hr
      · rw [List.mem_singleton] at hr; subst hr
        exact .inr ⟨i, j, rfl⟩
  | close => simp only [Iter.step] at h; split at h <;> cases h; exact fun _ h => .inl h
  | collect => simp only [Iter.step] at h; split at h <;> cases h; exact fun _ h => .inl h
  | finish => simp only [Iter.step] at h; split at h <;> cases h; exact fun _ h => .inl h

theorem with_some {s s' : State ε} {n : Nat} {f : Node.State ε → Part → Option Part} (h : s.with n f = some s') :
    ∃ x p p', s.net.nodes[n]? = some x ∧ s.parts[n]? = some p ∧ f x p = some p' ∧ s' = { s with parts := s.parts.set n p' } := by
  unfold State.with at h
  split at h
  · rename_i x p h1 h2
    split at h
    · cases h
    · obtain ⟨p', h3, h4⟩ := Option.map_eq_some_iff.1 h
      exact ⟨x, p, p', h1, h2, h3, h4.symm⟩
  · cases h

theorem go_some {c : Cfg ε} {s s' : State ε} {a : Net.Action ε} (h : s.go c a = some s') : Net.step c.node s.net a = some s'.net ∧ s'.parts = s.parts.mapIdx (called s.net s'.net) := by
  unfold State.go at h
  split at h
  · cases h
  · obtain ⟨y, h1, h2⟩ := Option.map_eq_some_iff.1 h
    subst h2
    exact ⟨h1, rfl⟩

theorem acks_id {x x' : Node.State ε} {e : ID} (h : e ∈ acks x x') (hz : e.id ≠ zeroPublicKey) : ∃ y ∈ x'.conns, y.c.id = some e := by
  unfold acks at h
  obtain ⟨j, -, hj⟩ := List.mem_flatMap.1 h
  split at hj
  · rename_i y y' _ hy'
    refine ⟨y', List.mem_of_getElem? hy', ?_⟩
    obtain ⟨ev, -, hev⟩ := List.mem_filterMap.1 hj
    have hc : KadNode.clientID y'.c = e := by
      cases ev <;> simp only [Option.some.injEq, reduceCtorEq] at hev
      all_goals exact hev
    unfold KadNode.clientID at hc
    cases hi : y'.c.id with
    | none => rw [hi] at hc; simp only [Option.getD_none] at hc; subst hc; exact absurd rfl hz
    | some i => rw [hi] at hc; simp only [Option.getD_some] at hc; rw [hc]
  · cases hj

/-- The replies of the handler of kademlia. -/
theorem sent_net {c : Cfg ε} {V : ID → Prop} {s s' : Net.State ε} {b : Net.Action ε} (h : Net.step c.node s b = some s') (hb : ∀ m k d, b = .node m (.ctxSend k c.handler d) → Fine c.ops V d)
    (hm : ∀ (n : Nat) (x : Node.State ε) (q : Wk.State ε) (k : Nat) (v : UInt64) (d : Bytes), s.nodes[n]? = some x → x.wk = some q → .sendOk k c.handler v d ∈ q.log → Fine c.ops V d) :
    ∀ (n : Nat) (x : Node.State ε) (q : Wk.State ε) (k : Nat) (v : UInt64) (d : Bytes), s'.nodes[n]? = some x → x.wk = some q → .sendOk k c.handler v d ∈ q.log → Fine c.ops V d := by
  intro m x' q' k v d hx' hq' hin
  rcases GWire.net_node h hx' with hx | ⟨x, a, hx, rfl, hst⟩
  · exact hm m x' q' k v d hx hq' hin
  · rcases Node.step_wkBy hst with h1 | ⟨-, h1⟩ | ⟨w, w1, act, h1, h2, h3, h4⟩
    · rw [h1] at hq'; exact hm m x q' k v d hx hq' hin
    · rw [hq'] at h1; cases h1
      simp [Wk.State.new] at hin
    · rw [hq'] at h2; cases h2
      rcases Wk.sendOk_new h3 hin with h5 | rfl
      · exact hm m x w k v d hx h1 h5
      · exact hb m k d (by rw [show a = .ctxSend k c.handler d from h4])

theorem Ok.go {S : Sorter} {c : Cfg ε} {P : Nat → ID → Prop} {V : ID → Prop} {s s' : State ε} {a : Net.Action ε} (h : Ok S c P V s) (hs : s.go c a = some s')
    (hb : ∀ m k d, a = .node m (.ctxSend k c.handler d) → Fine c.ops V d) (hid : ∀ (n : Nat) (x : Node.State ε) (y : Node.Conn ε) (e : ID), s'.net.nodes[n]? = some x → y ∈ x.conns → y.c.id = some e → P n e) : Ok S c P V s' := by
  obtain ⟨h1, h2⟩ := go_some hs
  refine ⟨fun n p' hp' => ?_, sent_net h1 hb h.sent⟩
  rw [h2, List.getElem?_mapIdx] at hp'
  obtain ⟨p, hp, rfl⟩ := Option.map_eq_some_iff.1 hp'
  have g := h.parts n p hp
  unfold called
  split
  · rename_i x x' _ hx'
    refine ⟨g.tab, g.src.spawn _ fun e he hz => ?_, g.runs, g.finds⟩
    obtain ⟨y, hy, hye⟩ := acks_id he hz
    exact hid n x' y e hx' hy hye
  · exact g

theorem Ok.set {S : Sorter} {c : Cfg ε} {P : Nat → ID → Prop} {V : ID → Prop} {s : State ε} (h : Ok S c P V s) {n : Nat} {p p' : Part} (hp : s.parts[n]? = some p) (hp' : POk S c (P n) V n p') :
    Ok S c P V { s with parts := s.parts.set n p' } := by
  refine ⟨fun m q hq => ?_, h.sent⟩
  simp only at hq
  by_cases hm : n = m
  · subst hm
    rw [List.getElem?_set_self (List.getElem?_eq_some_iff.1 hp).1] at hq
    cases hq; exact hp'
  · rw [List.getElem?_set_ne hm] at hq
    exact h.parts m q hq

/-- What `Handle` is about to send. -/
theorem start_fine {S : Sorter} {o : Kad.Opcodes} {self : ID} {t : Table} (ht : Table.Reachable self t) {V : ID → Prop} (hv : ∀ e ∈ t.all, V e) {m : Message} {d : Bytes} (h : start S o t m = some (.reply d)) : Fine o V d := by
  unfold start at h
  split at h
  · rename_i hh
    cases h
    unfold Kad.handle at hh
    split at hh
    · cases hh
    · cases hh
    · split at hh <;> cases hh
      exact .inl rfl
    · rename_i k _
      split at hh
      · obtain ⟨l, h1, -, h3, -⟩ := C51_find_closest S self t ht k bucketSize
        have h4 : t.findClosest S k bucketSize = .ok l := h1
        rw [h4] at hh
        cases hh
        exact .inr ⟨l, fun e he => hv e (h3 e he).1, rfl⟩
      · cases hh
  · split at h <;> cases h
  · cases h

theorem FOk.step {S : Sorter} {c : Cfg ε} {V : ID → Prop} {n : Nat} {x : Node.State ε} {f f' : Find} {a : Search.Action ε} (h : FOk S V f) (hs : f.step S c n x a = some f') (hn : ∀ b, a ≠ .node b) (hk : ∀ i j, a ≠ .ask i j)
    (hans : ∀ (k : Nat) (d : Node.Call ε) (m : Message) (l : List ID), x.calls[k]? = some d → d.pc = .returned (.response m) → Search.decode c.ops.response m.data = some l → ∀ e ∈ l, V e) : FOk S V f' := by
  unfold Find.step at hs
  obtain ⟨y, h1, rfl⟩ := Option.map_eq_some_iff.1 hs
  rcases Search.step_cases h1 with ⟨b, rfl, -⟩ | ⟨b, rfl, h2, -, -, h3, -⟩ | ⟨i, j, id, rfl, -⟩ | ⟨i, j, who, b, k, r, rfl, h2, h3, h4, h5, -⟩
  · exact absurd rfl (hn b)
  · refine ⟨h.inv.step h2, h.peers, fun r hr l hl => ?_⟩
    rcases iter_replies h2 r hr with h4 | ⟨i, j, h4⟩
    · exact h.replies r h4 l hl
    · exact absurd h4 (h3 _ _ _ _)
  · exact absurd rfl (hk i j)
  · refine ⟨h.inv.step h5, h.peers, fun q hq l hl => ?_⟩
    rcases iter_replies h5 q hq with h6 | ⟨i', j', h6⟩
    · exact h.replies q h6 l hl
    · injection h6 with _ h6
      injection h6 with _ _ h6
      rw [← h6] at hl
      unfold Search.outcome at hl
      split at hl
      · rename_i m
        exact hans _ k m l h3 h4 hl
      · cases hl

theorem Ok.step {S : Sorter} {c : Cfg ε} {P : Nat → ID → Prop} {V : ID → Prop} {s s' : State ε} {a : Action ε} (h : Ok S c P V s) (hs : KWire.step S c s a = some s')
    (hPV : ∀ n p e, s.parts[n]? = some p → P n e → V e)
    (hid : ∀ (n : Nat) (x : Node.State ε) (y : Node.Conn ε) (e : ID), s'.net.nodes[n]? = some x → y ∈ x.conns → y.c.id = some e → P n e)
    (huser : ∀ (n : Nat) (p : Part) (e : ID), s'.parts[n]? = some p → e ∈ p.user → P n e)
    (hans : ∀ (n : Nat) (x : Node.State ε) (k : Nat) (d : Node.Call ε) (m : Message) (l : List ID), s.net.nodes[n]? = some x → x.calls[k]? = some d → d.pc = .returned (.response m) →
      Search.decode c.ops.response m.data = some l → ∀ e ∈ l, V e) : Ok S c P V s' := by
  cases a with
  | net b =>
    simp only [KWire.step] at hs
    split at hs
    · cases hs
    · rename_i hb
      refine h.go hs ?_ hid
      rintro m k d rfl
      simp [bars] at hb
  | kad n b =>
    obtain ⟨x, p, p', hx, hp, hf, rfl⟩ := with_some hs
    obtain ⟨k, hk, rfl⟩ := Option.map_eq_some_iff.1 hf
    have g := h.parts n p hp
    have hu : ∀ e ∈ given b, P n e := fun e he => huser n _ e (List.getElem?_set_self (List.getElem?_eq_some_iff.1 hp).1) (List.mem_append.2 (.inr he))
    refine h.set hp ⟨?_, g.src.step hk ?_ ?_, g.runs, g.finds⟩
    · rcases kad_table hk with e1 | ⟨op, e1⟩ <;> simp only [e1]
      · exact g.tab
      · exact g.tab.apply op
    · rintro e rfl -
      exact hu e (by simp [given])
    · rintro e rfl
      exact hu e (by simp [given])
  | handle n w =>
    obtain ⟨x, p, p', hx, hp, hf, rfl⟩ := with_some hs
    have g := h.parts n p hp
    split at hf
    swap
    · cases hf
    split at hf
    · cases hf
    obtain ⟨pc, h1, rfl⟩ := Option.map_eq_some_iff.1 hf
    refine h.set hp ⟨g.tab, g.src, fun r hr d hd => ?_, g.finds⟩
    rcases List.mem_append.1 hr with hr | hr
    · exact g.runs r hr d hd
    · rw [List.mem_singleton] at hr; subst hr
      simp only at hd
      subst hd
      exact start_fine g.tab (fun e he => hPV n p e hp (g.src.table e he)) h1
  | reply n w =>
    simp only [KWire.step] at hs
    split at hs
    swap
    · cases hs
    rename_i x p hx hp
    split at hs
    swap
    · cases hs
    rename_i k it hinv
    split at hs
    swap
    · cases hs
    rename_i k' data hfind
    have g := h.parts n p hp
    refine Ok.go (h := ?_) hs ?_ hid
    · refine h.set hp ⟨g.tab, g.src, fun r hr d hd => ?_, g.finds⟩
      obtain ⟨r0, h0, rfl⟩ := List.mem_map.1 hr
      by_cases hk : r0.item = k
      · rw [if_pos hk] at hd; cases hd
      · rw [if_neg hk] at hd; exact g.runs r0 h0 d hd
    · rintro m k1 d hd
      cases hd
      exact g.runs _ (List.mem_of_find?_eq_some hfind) data rfl
  | leave n w r =>
    simp only [KWire.step] at hs
    split at hs
    swap
    · cases hs
    split at hs
    swap
    · cases hs
    split at hs
    swap
    · cases hs
    split at hs
    swap
    · cases hs
    exact h.go hs (by rintro m k1 d ⟨⟩) hid
  | find n target lookups requests max =>
    obtain ⟨x, p, p', hx, hp, hf, rfl⟩ := with_some hs
    have g := h.parts n p hp
    split at hf
    swap
    · cases hf
    rename_i peers hpe
    split at hf
    swap
    · cases hf
    rename_i it hit
    cases hf
    refine h.set hp ⟨g.tab, g.src, g.runs, fun f hf => ?_⟩
    rcases List.mem_append.1 hf with hf | hf
    · exact g.finds f hf
    · rw [List.mem_singleton] at hf; subst hf
      refine ⟨Starts.inv ⟨c.id n, p.kad.table, g.tab, rfl, hpe, hit⟩, fun e he => ?_, fun r hr => ?_⟩
      · obtain ⟨l, h1, -, h3, -⟩ := C51_find_closest S (c.id n) p.kad.table g.tab p.kad.table.self.id bucketSize
        have h4 : p.kad.table.peers S = .ok l := h1
        rw [h4] at hpe
        cases hpe
        exact hPV n p e hp (g.src.table e (h3 e he).1)
      · unfold Iter.init at hit
        split at hit <;> cases hit
        cases hr
  | it n f b =>
    obtain ⟨x, p, p', hx, hp, hf, rfl⟩ := with_some hs
    have g := h.parts n p hp
    split at hf
    swap
    · cases hf
    rename_i q hq
    obtain ⟨q', h1, rfl⟩ := Option.map_eq_some_iff.1 hf
    refine h.set hp ⟨g.tab, g.src, g.runs, fun f1 hf1 => ?_⟩
    rcases List.mem_or_eq_of_mem_set hf1 with hf1 | rfl
    · exact g.finds f1 hf1
    · exact (g.finds q (List.mem_of_getElem? hq)).step h1 (by rintro _ ⟨⟩) (by rintro _ _ ⟨⟩) (fun k d m l => hans n x k d m l hx)
  | ask n f i j =>
    simp only [KWire.step] at hs
    split at hs
    swap
    · cases hs
    rename_i x p hx hp
    split at hs
    swap
    · cases hs
    rename_i q hq
    split at hs
    swap
    · cases hs
    split at hs
    swap
    · cases hs
    rename_i it hit
    have g := h.parts n p hp
    refine Ok.go (h := ?_) hs (by rintro m k1 d ⟨⟩) hid
    refine h.set hp ⟨g.tab, g.src, g.runs, fun f1 hf1 => ?_⟩
    rcases List.mem_or_eq_of_mem_set hf1 with hf1 | rfl
    · exact g.finds f1 hf1
    · have gq := g.finds q (List.mem_of_getElem? hq)
      refine ⟨gq.inv.step hit, gq.peers, fun r hr l hl => ?_⟩
      rcases iter_replies hit r hr with h4 | ⟨i, j, h4⟩
      · exact gq.replies r h4 l hl
      · cases h4
  | answer n f i j who =>
    obtain ⟨x, p, p', hx, hp, hf, rfl⟩ := with_some hs
    have g := h.parts n p hp
    split at hf
    swap
    · cases hf
    rename_i q hq
    obtain ⟨q', h1, rfl⟩ := Option.map_eq_some_iff.1 hf
    refine h.set hp ⟨g.tab, g.src, g.runs, fun f1 hf1 => ?_⟩
    rcases List.mem_or_eq_of_mem_set hf1 with hf1 | rfl
    · exact g.finds f1 hf1
    · exact (g.finds q (List.mem_of_getElem? hq)).step h1 (by rintro _ ⟨⟩) (by rintro _ _ ⟨⟩) (fun k d m l => hans n x k d m l hx)

/-- What a step does to the network. -/
theorem step_net {S : Sorter} {c : Cfg ε} {s s' : State ε} {a : Action ε} (hs : KWire.step S c s a = some s') : s'.net = s.net ∨ ∃ b, Net.step c.node s.net b = some s'.net := by
  cases a with
  | net b =>
    simp only [KWire.step] at hs
    split at hs
    · cases hs
    · exact .inr ⟨_, (go_some hs).1⟩
  | kad | handle | find | it | answer =>
    obtain ⟨x, p, p', hx, hp, hf, rfl⟩ := with_some hs
    exact .inl rfl
  | reply | leave | ask =>
    simp only [KWire.step] at hs
    (repeat' split at hs) <;> first | (cases hs; done) | exact .inr ⟨_, (go_some hs).1⟩

theorem step_length {S : Sorter} {c : Cfg ε} {s s' : State ε} {a : Action ε} (hs : KWire.step S c s a = some s') : s'.parts.length = s.parts.length := by
  cases a with
  | net b =>
    simp only [KWire.step] at hs
    split at hs
    · cases hs
    · rw [(go_some hs).2, List.length_mapIdx]
  | kad | handle | find | it | answer =>
    obtain ⟨x, p, p', hx, hp, hf, rfl⟩ := with_some hs
    exact List.length_set
  | reply | leave | ask =>
    simp only [KWire.step] at hs
    (repeat' split at hs) <;> first | (cases hs; done) | (rw [(go_some hs).2, List.length_mapIdx]; try exact List.length_set)

theorem net_reach {S : Sorter} {c : Cfg ε} {n : Nat} {s : State ε} (h : Reachable S c n s) : Net.Reachable c.node n s.net ∧ s.parts.length = n := by
  obtain ⟨s0, ⟨ts, h1, -, rfl⟩, h⟩ := h
  refine h.ind (P := fun s => Net.Reachable c.node n s.net ∧ s.parts.length = n) ⟨.refl _, by simpa using h1⟩ ?_
  intro s a s' _ ih hs
  refine ⟨?_, (step_length hs).trans ih.2⟩
  rcases step_net hs with h | ⟨b, h⟩
  · rw [h]; exact ih.1
  · exact ih.1.snoc h

/-- The searches on a node are searches in the sense of `Model/Search.lean`. -/
def Searches (S : Sorter) (c : Cfg ε) (s : State ε) : Prop := ∀ n x p f, s.net.nodes[n]? = some x → s.parts[n]? = some p → f ∈ p.finds → Search.Inv S (c.search n f.cfg) f.peers ⟨x, f.it, f.asks⟩

theorem Searches.go {S : Sorter} {c : Cfg ε} {s s' : State ε} {a : Net.Action ε} (h : Searches S c s) (hs : s.go c a = some s') : Searches S c s' := by
  obtain ⟨h1, h2⟩ := go_some hs
  intro n x' p' f hx' hp' hf
  rw [h2, List.getElem?_mapIdx] at hp'
  obtain ⟨p, hp, rfl⟩ := Option.map_eq_some_iff.1 hp'
  have hf : f ∈ p.finds := by
    unfold called at hf
    split at hf <;> exact hf
  rcases GWire.net_node h1 hx' with hx | ⟨x, b, hx, rfl, hst⟩
  · exact h n x' p f hx hp hf
  · refine (h n x p f hx hp hf).step (a := .node b) (s' := ⟨x', f.it, f.asks⟩) ?_
    simp only [Search.step, Node.crashed_stuck hst, Bool.false_eq_true, if_false]
    rw [show Node.step (c.search n f.cfg).node x b = some x' from hst]
    rfl

theorem Searches.set {S : Sorter} {c : Cfg ε} {s : State ε} (h : Searches S c s) {n : Nat} {p' : Part} {x : Node.State ε} {p : Part} (hx : s.net.nodes[n]? = some x) (hp : s.parts[n]? = some p)
    (hf : ∀ f ∈ p'.finds, Search.Inv S (c.search n f.cfg) f.peers ⟨x, f.it, f.asks⟩) : Searches S c { s with parts := s.parts.set n p' } := by
  intro m y q f hy hq hfq
  simp only at hq hy
  by_cases hm : n = m
  · subst hm
    rw [List.getElem?_set_self (List.getElem?_eq_some_iff.1 hp).1] at hq
    cases hq
    rw [hx] at hy; cases hy
    exact hf f hfq
  · rw [List.getElem?_set_ne hm] at hq
    exact h m y q f hy hq hfq

theorem Searches.step {S : Sorter} {c : Cfg ε} {N : Nat} {s s' : State ε} {a : Action ε} (h : Searches S c s) (hr : Reachable S c N s) (ht : ∀ n p, s.parts[n]? = some p → Table.Reachable (c.id n) p.kad.table)
    (hs : KWire.step S c s a = some s') : Searches S c s' := by
  cases a with
  | net b =>
    simp only [KWire.step] at hs
    split at hs
    · cases hs
    · exact h.go hs
  | kad n b =>
    obtain ⟨x, p, p', hx, hp, hf, rfl⟩ := with_some hs
    obtain ⟨k, hk, rfl⟩ := Option.map_eq_some_iff.1 hf
    exact h.set hx hp fun f hf => h n x p f hx hp hf
  | handle n w =>
    obtain ⟨x, p, p', hx, hp, hf, rfl⟩ := with_some hs
    split at hf
    swap
    · cases hf
    split at hf
    · cases hf
    obtain ⟨pc, h1, rfl⟩ := Option.map_eq_some_iff.1 hf
    exact h.set hx hp fun f hf => h n x p f hx hp hf
  | reply n w =>
    simp only [KWire.step] at hs
    split at hs
    swap
    · cases hs
    rename_i x p hx hp
    split at hs
    swap
    · cases hs
    split at hs
    swap
    · cases hs
    refine Searches.go (h := ?_) hs
    exact h.set hx hp fun f hf => h n x p f hx hp hf
  | leave n w r =>
    simp only [KWire.step] at hs
    (repeat' split at hs) <;> first | (cases hs; done) | exact h.go hs
  | find n target lookups requests max =>
    obtain ⟨x, p, p', hx, hp, hf, rfl⟩ := with_some hs
    split at hf
    swap
    · cases hf
    rename_i peers hpe
    split at hf
    swap
    · cases hf
    rename_i it hit
    cases hf
    refine h.set hx hp fun f hf => ?_
    rcases List.mem_append.1 hf with hf | hf
    · exact h n x p f hx hp hf
    · rw [List.mem_singleton] at hf; subst hf
      have hrx : Node.Reachable (c.node n) x := (Net.Inv.reach (net_reach hr).1).nodes n x hx
      exact Begins.inv (n := lookups) ⟨hrx, ⟨c.id n, p.kad.table, ht n p hp, rfl, hpe, hit⟩, rfl⟩
  | it n f b =>
    obtain ⟨x, p, p', hx, hp, hf, rfl⟩ := with_some hs
    split at hf
    swap
    · cases hf
    rename_i q hq
    obtain ⟨q', h1, rfl⟩ := Option.map_eq_some_iff.1 hf
    refine h.set hx hp fun f1 hf1 => ?_
    rcases List.mem_or_eq_of_mem_set hf1 with hf1 | rfl
    · exact h n x p f1 hx hp hf1
    · obtain ⟨y, h2, rfl⟩ := Option.map_eq_some_iff.1 h1
      have hy : y.node = x := by
        rcases Search.step_cases h2 with ⟨b, hb, -⟩ | ⟨b, -, -, h3, -⟩ | ⟨i, j, id, hb, -⟩ | ⟨i, j, who, b, k, r, hb, -⟩
        · cases hb
        · exact h3
        · cases hb
        · cases hb
      have := (h n x p q hx hp (List.mem_of_getElem? hq)).step h2
      rw [← hy]; exact this
  | ask n f i j =>
    simp only [KWire.step] at hs
    split at hs
    swap
    · cases hs
    rename_i x p hx hp
    split at hs
    swap
    · cases hs
    rename_i q hq
    split at hs
    swap
    · cases hs
    rename_i id hid
    split at hs
    swap
    · cases hs
    rename_i it hit
    obtain ⟨h1, h2⟩ := go_some hs
    simp only at h1 h2
    intro m x' p' g hx' hp' hg
    rw [h2, List.getElem?_mapIdx] at hp'
    obtain ⟨p1, hp1, rfl⟩ := Option.map_eq_some_iff.1 hp'
    have hg1 : g ∈ p1.finds := by
      unfold called at hg
      split at hg <;> exact hg
    clear hg
    have other : ∀ y, s.net.nodes[m]? = some y → (∃ p0, s.parts[m]? = some p0 ∧ g ∈ p0.finds) → Search.Inv S (c.search m g.cfg) g.peers ⟨x', g.it, g.asks⟩ := by
      rintro y hy ⟨p0, hp0, hg0⟩
      rcases GWire.net_node h1 hx' with hx1 | ⟨x1, b, hx1, -, hst⟩
      · exact h m x' p0 g hx1 hp0 hg0
      · refine (h m x1 p0 g hx1 hp0 hg0).step (a := .node b) (s' := ⟨x', g.it, g.asks⟩) ?_
        simp only [Search.step, Node.crashed_stuck hst, Bool.false_eq_true, if_false]
        rw [show Node.step (c.search m g.cfg).node x1 b = some x' from hst]
        rfl
    have hym : ∃ y, s.net.nodes[m]? = some y := by
      rcases GWire.net_node h1 hx' with hx1 | ⟨x1, b, hx1, -, hst⟩
      · exact ⟨_, hx1⟩
      · exact ⟨_, hx1⟩
    obtain ⟨y, hy⟩ := hym
    by_cases hm : n = m
    · subst hm
      rw [List.getElem?_set_self (List.getElem?_eq_some_iff.1 hp).1] at hp1
      cases hp1
      rcases List.mem_or_eq_of_mem_set hg1 with hg | rfl
      · exact other y hy ⟨p, hp, hg⟩
      · have hst : Node.step (c.node n) x (.call (.request (Search.encode c.ops.request id.id)) id.address) = some x' := by
          simp only [Net.step, hx] at h1
          obtain ⟨x1, h3, h4⟩ := Option.map_eq_some_iff.1 h1
          rw [← h4, Net.State.setNode, List.getElem?_set_self (List.getElem?_eq_some_iff.1 hx).1] at hx'
          cases hx'
          exact h3
        refine (h n x p q hx hp (List.mem_of_getElem? hq)).step (a := .ask i j) (s' := ⟨x', it, q.asks ++ [⟨i, j, x.calls.length⟩]⟩) ?_
        simp only [Search.step, Node.crashed_stuck hst, Bool.false_eq_true, if_false, hid]
        rw [show Iter.step S (c.search n q.cfg).it q.it (.lookup i (.worker j)) = some it from hit]
        rw [show Node.step (c.search n q.cfg).node x (.call (.request (Search.encode (c.search n q.cfg).reqOp id.id)) id.address) = some x' from hst]
    · rw [List.getElem?_set_ne hm] at hp1
      exact other y hy ⟨p1, hp1, hg1⟩
  | answer n f i j who =>
    obtain ⟨x, p, p', hx, hp, hf, rfl⟩ := with_some hs
    split at hf
    swap
    · cases hf
    rename_i q hq
    obtain ⟨q', h1, rfl⟩ := Option.map_eq_some_iff.1 hf
    refine h.set hx hp fun f1 hf1 => ?_
    rcases List.mem_or_eq_of_mem_set hf1 with hf1 | rfl
    · exact h n x p f1 hx hp hf1
    · obtain ⟨y, h2, rfl⟩ := Option.map_eq_some_iff.1 h1
      have hy : y.node = x := by
        rcases Search.step_cases h2 with ⟨b, hb, -⟩ | ⟨b, -, -, h3, -⟩ | ⟨i, j, id, hb, -⟩ | ⟨i, j, who, b, k, r, -, -, -, -, -, h3, -⟩
        · cases hb
        · exact h3
        · cases hb
        · exact h3
      have := (h n x p q hx hp (List.mem_of_getElem? hq)).step h2
      rw [← hy]; exact this

/-- Results have answered. -/
theorem result_reply {S : Sorter} {c : Iter.Cfg} {peers : List ID} {s : Iter.State} (h : Iter.Inv S c peers s) {l : List ID} (hr : s.returned = some (.ok l)) {e : ID} (he : e ∈ l) :
    ∃ r ∈ s.shared.replies, r.peer = e ∧ r.answer.isSome = true := by
  obtain ⟨-, -, h3⟩ := h.ret _ hr
  have hc : e ∈ s.collected := by
    unfold Iter.truncate at h3
    split at h3
    · split at h3
      · cases h3
      · cases h3; exact (sort_perm S c.target s.collected).mem_iff.1 (List.mem_of_mem_take he)
    · cases h3; exact (sort_perm S c.target s.collected).mem_iff.1 he
  have h1 := h.res (fun x => decide (x = e))
  have h2 : 0 < s.collected.countP (fun x => decide (x = e)) := List.countP_pos_iff.2 ⟨e, hc, by simp⟩
  obtain ⟨r, hr, h4⟩ := List.countP_pos_iff.1 (show 0 < s.shared.replies.countP (Iter.okP fun x => decide (x = e)) by omega)
  simp only [Iter.okP, Bool.and_eq_true, decide_eq_true_eq] at h4
  exact ⟨r, hr, h4.2, h4.1⟩

end Noise.KWire
