import Verif.Proofs.NetInv
import Verif.Props.Link
import Verif.Props.NodeTraffic
/-! # C132: messages and responses between the nodes of a network -/
namespace Noise
open Spec
variable {ε : Type}

namespace Spec

/-- Connection `j` of node `a`, which `a` has dialled, and connection `j'` of node `b`, which `b` has accepted, are the two ends of one connection. -/
def Joined (s : Net.State ε) (a j b j' : Nat) : Prop := ∃ w ∈ s.wires, w.out = ⟨a, j⟩ ∧ w.inn = ⟨b, j'⟩

end Spec

namespace Net

/-- What joins two nodes, as in `Model/Link.lean`. -/
theorem joined_link {cfg : Nat → Node.Cfg ε} {n : Nat} {s : State ε} (h : Reachable cfg n s) {a j b j' : Nat} (hj : Joined s a j b j') {A B : Node.State ε} (hA : s.nodes[a]? = some A) (hB : s.nodes[b]? = some B) :
    ∃ (x y : Node.Conn ε) (L : Link.State ε), A.conns[j]? = some x ∧ x.c.side = .outbound ∧ B.conns[j']? = some y ∧ y.c.side = .inbound ∧ L.a = x.c ∧ L.b = y.c ∧ L.w = (s.wkOf cfg b).rn (ren j') ∧
      Link.Reachable (cfg b).numWorkers (cfg b).numHandlers L := by
  have v := Inv.reach h
  obtain ⟨w, hw, h1, h2⟩ := hj
  obtain ⟨k, hk⟩ := List.getElem?_of_mem hw
  obtain ⟨⟨x, hx, hxs⟩, y, hy, hys⟩ := v.sides k w hk
  have hl := v.link k w hk
  rw [h1] at hx hl
  rw [h2] at hy hl
  refine ⟨x, y, _, ?_, hxs, ?_, hys, ?_, ?_, rfl, hl⟩
  · rw [← hx, conn_at hA rfl]
  · rw [← hy, conn_at hB rfl]
  · simp [State.lk, State.cl, hx]
  · simp [State.lk, State.cl, hy]

theorem rn_handled {cfg : Nat → Node.Cfg ε} {s : State ε} {b j : Nat} {B : Node.State ε} (hB : s.nodes[b]? = some B) :
    ((((s.wkOf cfg b).rn (ren j)).items.filter fun it => it.client = 0).map Wk.Item.msg) = handledFrom B j := by
  have key : ∀ l : List Wk.Item, (((l.map (Wk.Item.rn (ren j))).filter fun it => it.client = 0).map Wk.Item.msg) = (l.filter fun it => it.client = j).map Wk.Item.msg := by
    intro l
    induction l with
    | nil => rfl
    | cons it l ih =>
      by_cases hc : it.client = j
      · have : (it.rn (ren j)).client = 0 := by rw [← hc]; exact ren_self _
        simp only [List.map_cons, List.filter_cons, hc, this, decide_true, if_true]
        rw [ih]; rfl
      · have : (it.rn (ren j)).client ≠ 0 := ren_ne hc
        simp only [List.map_cons, List.filter_cons, hc, this, decide_false, Bool.false_eq_true, if_false]
        exact ih
  unfold handledFrom
  rw [wkOf_at hB]
  cases hq : B.wk with
  | none => rfl
  | some q => exact key q.items

/-- An end that is nowhere. -/
theorem fresh (s : State ε) : ∃ e, s.used e = false ∧ s.conn e = none := by
  let l := s.foreign ++ ends s.wires
  have hb : ∀ l : List End, ∃ N, ∀ e ∈ l, e.node < N := by
    intro l
    induction l with
    | nil => exact ⟨0, by simp⟩
    | cons e l ih =>
      obtain ⟨N, hN⟩ := ih
      refine ⟨max N (e.node + 1), fun e' he' => ?_⟩
      rcases List.mem_cons.1 he' with rfl | he'
      · omega
      · have := hN e' he'; omega
  obtain ⟨N, hN⟩ := hb l
  refine ⟨⟨max N s.nodes.length, 0⟩, used_iff.2 ⟨fun h => ?_, fun h => ?_⟩, ?_⟩
  · have := hN _ (List.mem_append_left _ h); simp only at this; omega
  · have := hN _ (List.mem_append_right _ h); simp only at this; omega
  · unfold State.conn
    rw [List.getElem?_eq_none (by simp only; omega)]
    rfl

theorem handlers_processed (l : List (Cl.Event ε)) : (toHandlersOf l).Sublist (processedOf l) := by
  induction l with
  | nil => exact .slnil
  | cons e l ih =>
    cases e with
    | processed m b =>
      cases b with
      | false => simpa [toHandlersOf, processedOf] using ih
      | true => simpa [toHandlersOf, processedOf] using ih.cons m
    | _ => simpa [toHandlersOf, processedOf] using ih

theorem delivered_processed {d : Cl.Side} {c : Cl.State ε} (h : Cl.Reachable d c) : (deliveredOf c.log).Sublist (processedOf c.log) := by
  refine List.Sublist.trans ?_ (handlers_processed c.log)
  rw [Link.Cl_reach_hand h]
  exact List.sublist_append_left _ _

/-- Over a connection whose other end is not known, nothing has come. -/
theorem unused_silent {cfg : Nat → Node.Cfg ε} {n : Nat} {s : State ε} (h : Reachable cfg n s) {e : End} (he : s.used e = false) {x : Node.Conn ε} (hx : s.conn e = some x) :
    processedOf x.c.log = [] ∧ deliveredOf x.c.log = [] := by
  have v := Inv.reach h
  obtain ⟨e', h1, h2⟩ := fresh s
  cases hs : x.c.side with
  | outbound =>
    have hl := v.free e e' he h1 ⟨fun y hy => by rw [hx] at hy; cases hy; exact hs, fun y hy => by rw [h2] at hy; cases hy⟩
    have b := Link.Base.reach hl
    have c3 := (C80_end_to_end_order _ _ _ hl).2.2
    have ha : (s.lk cfg e e' 0 0).a = x.c := by simp [State.lk, State.cl, hx]
    have hb : submittedOf (s.lk cfg e e' 0 0).b.log = [] := by simp [State.lk, State.cl, h2, Cl.State.new, submittedOf]
    rw [hb, ha] at c3
    have hp := List.prefix_nil.1 c3
    refine ⟨hp, ?_⟩
    have := delivered_processed (ha ▸ b.ra)
    rw [hp] at this
    exact List.sublist_nil.1 this
  | inbound =>
    have hl := v.free e' e h1 he ⟨fun y hy => (by rw [h2] at hy; cases hy), fun y hy => (by rw [hx] at hy; cases hy; exact hs)⟩
    have b := Link.Base.reach hl
    have ha : (s.lk cfg e' e 0 0).b = x.c := by simp [State.lk, State.cl, hx]
    have c3 := b.readB
    have h0 : (s.lk cfg e' e 0 0).readB = 0 := rfl
    rw [h0, ha, List.take_zero] at c3
    have hp : processedOf x.c.log = [] := (List.append_eq_nil_iff.1 c3).1
    refine ⟨hp, ?_⟩
    have := delivered_processed (ha ▸ b.rb)
    rw [hp] at this
    exact List.sublist_nil.1 this

end Net

/-- **C132 (messages).** In every execution of a network of any number of nodes, with any handlers, calls, failures and timing: if connection `j` of node `a` and connection `j'` of node `b` are the two ends of one connection, then
`b`'s handlers are called for messages of `j'` that are the first ones that `a` sent over `j`, in this order, none changed, lost between others, repeated or invented; and `a`'s handlers are called for messages of `j` that were answers of `b`'s handlers
to messages of `j'`, in the order of the answers. -/
theorem C132_messages {cfg : Nat → Node.Cfg ε} {n : Nat} {s : Net.State ε} (h : Net.Reachable cfg n s) {a j b j' : Nat} (hj : Joined s a j b j') {A B : Node.State ε} (hA : s.nodes[a]? = some A) (hB : s.nodes[b]? = some B) :
    ∃ x y : Node.Conn ε, A.conns[j]? = some x ∧ x.c.side = .outbound ∧ B.conns[j']? = some y ∧ y.c.side = .inbound ∧
      handledFrom B j' <+: submittedOf x.c.log ∧ submittedOf y.c.log = answeredOn B j' ∧ (handledFrom A j).Sublist (answeredOn B j') := by
  have v := Net.Inv.reach h
  obtain ⟨x, y, L, hx, hxs, hy, hys, ha, hb, hw, hl⟩ := Net.joined_link h hj hA hB
  obtain ⟨c1, c2, c3⟩ := C80_end_to_end_order _ _ L hl
  rw [hw, Net.rn_handled hB] at c2
  rw [ha, ← c2] at c1
  rw [ha, hb] at c3
  have hans := (C131_inbound (v.nodes b B hB) hy hys).1
  refine ⟨x, y, hx, hxs, hy, hys, c1, hans, ?_⟩
  rw [(C131_attribution (v.nodes a A hA)).1 j x hx, ← hans]
  exact (Net.delivered_processed (ha ▸ (Link.Base.reach hl).ra)).trans c3.sublist

/-- **C132 (where messages come from).** In every execution of a network: each message that a handler of node `b` is called for came over a connection that leads out of the network, or over one that joins `b` to a node `a`. If `b` has accepted that connection, the message
was sent by a call of `Send` (nonce 0) or `Request` (another nonce) at `a` with this data, for the address that the connection was dialled for, or by a handler of `a` in reply to a message over that connection; and it is handled at most as often as it was sent. If `b` has dialled it, a
handler of `a` has sent it in reply to a message over that connection. -/
theorem C132_origin {cfg : Nat → Node.Cfg ε} {n : Nat} {s : Net.State ε} (h : Net.Reachable cfg n s) {b j' : Nat} {B : Node.State ε} (hB : s.nodes[b]? = some B) {m : Message} (hm : m ∈ handledFrom B j') :
    (⟨b, j'⟩ : Net.End) ∈ s.foreign ∨
    (∃ (a j : Nat) (A : Node.State ε), Joined s a j b j' ∧ s.nodes[a]? = some A ∧
      (m ∈ answeredOn A j ∨ ∃ (k : Nat) (c : Node.Call ε) (x : Node.Conn ε), A.calls[k]? = some c ∧ hasSent c = some m.data ∧ (m.nonce = 0 ↔ c.kind = .send m.data) ∧ A.conns[j]? = some x ∧ x.addr = c.addr)) ∨
    (∃ (a j : Nat) (A : Node.State ε), Joined s b j' a j ∧ s.nodes[a]? = some A ∧ m ∈ answeredOn A j) := by
  have v := Net.Inv.reach h
  have hat := C131_attribution (v.nodes b B hB)
  have hlt : j' < B.conns.length := by
    by_contra hge
    rw [hat.2 j' (by omega)] at hm; cases hm
  have hy : B.conns[j']? = some B.conns[j'] := List.getElem?_eq_getElem hlt
  have node : ∀ e : Net.End, ∀ x, s.conn e = some x → ∃ A, s.nodes[e.node]? = some A ∧ A.conns[e.conn]? = some x := by
    intro e x hx
    unfold Net.State.conn at hx
    obtain ⟨A, h1, h2⟩ := Option.bind_eq_some_iff.1 hx
    exact ⟨A, h1, h2⟩
  by_cases hu : s.used ⟨b, j'⟩ = false
  · have := (Net.unused_silent h hu (by rw [Net.conn_at hB rfl]; exact hy)).2
    rw [hat.1 j' _ hy, this] at hm
    cases hm
  · by_cases hf : (⟨b, j'⟩ : Net.End) ∈ s.foreign
    · exact .inl hf
    · right
      have he : (⟨b, j'⟩ : Net.End) ∈ Net.ends s.wires := by
        by_contra he
        exact hu (Net.used_iff.2 ⟨hf, he⟩)
      obtain ⟨w, hw, hwe⟩ := List.mem_flatMap.1 he
      obtain ⟨k, hk⟩ := List.getElem?_of_mem hw
      obtain ⟨⟨x, hx, -⟩, y, hy', -⟩ := v.sides k w hk
      simp only [List.mem_cons, List.not_mem_nil, or_false] at hwe
      rcases hwe with hwe | hwe
      · right
        obtain ⟨A, hA, -⟩ := node _ _ hy'
        have hjd : Joined s b j' w.inn.node w.inn.conn := ⟨w, hw, hwe.symm, rfl⟩
        obtain ⟨_, _, _, _, _, _, _, _, hs⟩ := C132_messages h hjd hB hA
        exact ⟨_, _, A, hjd, hA, hs.subset hm⟩
      · left
        obtain ⟨A, hA, -⟩ := node _ _ hx
        have hjd : Joined s w.out.node w.out.conn b j' := ⟨w, hw, rfl, hwe.symm⟩
        obtain ⟨x, y, hx, hxs, _, _, hp, _, _⟩ := C132_messages h hjd hA hB
        refine ⟨_, _, A, hjd, hA, ?_⟩
        obtain ⟨via, h1, h2⟩ := C131_sent (v.nodes _ A hA)
        have hc := (h1 _ x hx).2 m
        have hpos : 0 < (submittedOf x.c.log).count m := List.count_pos_iff.2 (hp.subset hm)
        by_cases hans : m ∈ answeredOn A w.out.conn
        · exact .inl hans
        · right
          rw [List.count_eq_zero_of_not_mem hans] at hc
          have : 0 < callsSending via A w.out.conn m := by omega
          unfold callsSending at this
          obtain ⟨k, hk, hkp⟩ := List.countP_pos_iff.1 this
          rw [decide_eq_true_iff] at hkp
          obtain ⟨e1, e2⟩ := hkp
          obtain ⟨c, hc1, hc2⟩ := Option.bind_eq_some_iff.1 e2
          obtain ⟨⟨x', h3, -, h4⟩, h5⟩ := h2 k c m.data hc1 hc2
          rw [e1] at h3 h5
          exact ⟨k, c, x', hc1, hc2, h5, h3, h4⟩

/-- **C132 (at most as often as sent).** A message is handled at most as often as the calls and the handlers at the other end have sent it over this connection. -/
theorem C132_not_repeated {cfg : Nat → Node.Cfg ε} {n : Nat} {s : Net.State ε} (h : Net.Reachable cfg n s) {a : Nat} {A : Node.State ε} (hA : s.nodes[a]? = some A) :
    ∃ via : Nat → Nat × UInt64, ∀ (j b j' : Nat) (B : Node.State ε), Joined s a j b j' → s.nodes[b]? = some B →
      ∀ m, (handledFrom B j').count m ≤ (answeredOn A j).count m + callsSending via A j m := by
  have v := Net.Inv.reach h
  obtain ⟨via, h1, -⟩ := C131_sent (v.nodes _ A hA)
  refine ⟨via, fun j b j' B hjd hB m => ?_⟩
  obtain ⟨x, y, hx, _, _, _, hp, _, _⟩ := C132_messages h hjd hA hB
  rw [← (h1 j x hx).2 m]
  exact hp.sublist.count_le m

/-- **C132 (responses).** In every execution of a network in which none of `a`'s connections leads out of it: if a call of `Request` at `a` has returned a response, then the connection it used, one dialled for the address of the call, joins `a` to
a node `b` whose handlers were called for a message with exactly the data and the nonce of this request, that came over this connection, and one of these calls of a handler has sent exactly the data returned, through the context of that message.
(As long as fewer than 2^64 - 1 requests were made over each of `a`'s connections.) -/
theorem C132_response {cfg : Nat → Node.Cfg ε} {n : Nat} {s : Net.State ε} (h : Net.Reachable cfg n s) {a : Nat} {A : Node.State ε} (hA : s.nodes[a]? = some A) (hin : ∀ j, (⟨a, j⟩ : Net.End) ∉ s.foreign)
    (hfew : ∀ x ∈ A.conns, x.c.calls.length < 2 ^ 64 - 1) {k : Nat} {c : Node.Call ε} (hk : A.calls[k]? = some c) {m : Message} (hm : c.pc = .returned (.response m)) :
    ∃ (data : Bytes) (j b j' : Nat) (x : Node.Conn ε) (B : Node.State ε) (q : Wk.State ε) (i f : Nat), c.kind = .request data ∧ A.conns[j]? = some x ∧ x.addr = c.addr ∧ Joined s a j b j' ∧ s.nodes[b]? = some B ∧ B.wk = some q ∧
      q.items[i]? = some ⟨j', ⟨m.nonce, data⟩⟩ ∧ .started i f ∈ q.log ∧ .sendOk i f m.nonce m.data ∈ q.log := by
  have v := Net.Inv.reach h
  have hrA := v.nodes a A hA
  obtain ⟨f, hf, -⟩ := Node.Mine.reach hrA
  have hg := hf k c hk
  simp only [Node.Got, hm] at hg
  obtain ⟨x, h1, p, h2, h3, h4, h5⟩ := hg
  obtain ⟨hx, hxa, hxs⟩ := h1.1
  have hxc : s.conn ⟨a, (f k).1⟩ = some x := by rw [Net.conn_at hA rfl]; exact hx
  have hok := Cl.ReqsOK.reach (Node.Reaches.reach hrA _ x hx)
  obtain ⟨p', h6, h7⟩ := (hok.ret _ m).1 h5
  rw [h2] at h6; cases h6
  obtain ⟨pos, h8⟩ := hok.retChan _ _ m h2 h7
  obtain ⟨h9, h10, -⟩ := hok.chan _ _ m pos h2 h8
  have hu : s.used ⟨a, (f k).1⟩ ≠ false := by
    intro hu
    have h0 := (Net.unused_silent h hu hxc).1
    have := Link.processed_mem (List.mem_of_getElem? h9)
    rw [h0] at this; cases this
  have he : (⟨a, (f k).1⟩ : Net.End) ∈ Net.ends s.wires := by
    by_contra he
    exact hu (Net.used_iff.2 ⟨hin _, he⟩)
  obtain ⟨w, hw, hwe⟩ := List.mem_flatMap.1 he
  obtain ⟨kw, hkw⟩ := List.getElem?_of_mem hw
  obtain ⟨⟨x', hx', -⟩, y, hy', hys⟩ := v.sides kw w hkw
  simp only [List.mem_cons, List.not_mem_nil, or_false] at hwe
  rcases hwe with hwe | hwe
  swap
  · rw [← hwe, hxc] at hy'; cases hy'
    rw [hxs] at hys; cases hys
  have hB : ∃ B, s.nodes[w.inn.node]? = some B := by
    unfold Net.State.conn at hy'
    obtain ⟨B, e1, e2⟩ := Option.bind_eq_some_iff.1 hy'
    exact ⟨B, e1⟩
  obtain ⟨B, hB⟩ := hB
  have hjd : Joined s a (f k).1 w.inn.node w.inn.conn := ⟨w, hw, hwe.symm, rfl⟩
  obtain ⟨x1, y1, L, g1, g2, g3, g4, g5, g6, g7, g8⟩ := Net.joined_link h hjd hA hB
  rw [hx] at g1; cases g1
  obtain ⟨i, fi, r1, r2, r3⟩ := C81_responses_answer_the_request _ _ L g8 (by rw [g5]; exact hfew x (List.mem_of_getElem? hx)) _ p (by rw [g5]; exact h2) m (by rw [g5]; exact h5)
  rw [g7, Net.wkOf_at hB] at r1 r2 r3
  have hq : ∃ q, B.wk = some q := by
    cases hq : B.wk with
    | some q => exact ⟨q, rfl⟩
    | none => rw [hq] at r1; simp [Wk.State.rn, Wk.State.new] at r1
  obtain ⟨q, hq⟩ := hq
  rw [hq] at r1 r2 r3
  simp only [Option.getD_some, Wk.State.rn, List.getElem?_map, Option.map_eq_some_iff] at r1 r2 r3
  obtain ⟨it, i1, i2⟩ := r1
  refine ⟨p.data, _, _, _, x, B, q, i, fi, h3, hx, hxa, hjd, hB, hq, ?_, ?_, ?_⟩
  · rw [i1, h10]
    obtain ⟨cl, msg⟩ := it
    simp only [Wk.Item.rn, Wk.Item.mk.injEq] at i2
    by_cases hc : cl = w.inn.conn
    · rw [hc, i2.2]
    · exact absurd i2.1 (Net.ren_ne hc)
  · obtain ⟨e, e1, e2⟩ := List.mem_map.1 r2
    cases e <;> simp [Wk.Event.rn] at e2
    obtain ⟨rfl, rfl⟩ := e2
    exact e1
  · obtain ⟨e, e1, e2⟩ := List.mem_map.1 r3
    cases e <;> simp [Wk.Event.rn] at e2
    obtain ⟨rfl, rfl, rfl, rfl⟩ := e2
    rw [h10]
    exact e1

/-- **C132 (no strays).** If node `b` has at most one handler, then whatever the handlers of a node `a` that has dialled `b` are called for, over this connection, is a message and not a request: responses never reach handlers. (With two handlers they can: C82.) -/
theorem C132_no_stray {cfg : Nat → Node.Cfg ε} {n : Nat} {s : Net.State ε} (h : Net.Reachable cfg n s) {a j b j' : Nat} (hj : Joined s a j b j') (hone : (cfg b).numHandlers ≤ 1) {A : Node.State ε} (hA : s.nodes[a]? = some A)
    (hfew : ∀ x ∈ A.conns, x.c.calls.length < 2 ^ 64 - 1) : ∀ m ∈ handledFrom A j, m.isRequest = false := by
  have v := Net.Inv.reach h
  have hB : ∃ B, s.nodes[b]? = some B := by
    obtain ⟨w, hw, h1, h2⟩ := hj
    obtain ⟨k, hk⟩ := List.getElem?_of_mem hw
    obtain ⟨-, y, hy, -⟩ := v.sides k w hk
    rw [h2] at hy
    unfold Net.State.conn at hy
    obtain ⟨B, e1, e2⟩ := Option.bind_eq_some_iff.1 hy
    exact ⟨B, e1⟩
  obtain ⟨B, hB⟩ := hB
  obtain ⟨x, y, L, hx, -, -, -, ha, -, -, hl⟩ := Net.joined_link h hj hA hB
  have := (C82_no_stray_partial _ _ hone L hl (by rw [ha]; exact hfew x (List.mem_of_getElem? hx))).1
  rw [(C131_attribution (v.nodes a A hA)).1 j x hx, ← ha]
  exact this

/-- A node does these things. -/
def atNode (v : Nat) (l : List (Node.Action ε)) : List (Net.Action ε) := l.map (.node v)

/-- Non-vacuity: nodes 0 and 2 make a request to node 1 each, over a connection each; node 1 answers the second one first. -/
def threeNodes (n : ID) : List (Net.Action ε) :=
  let ask (v : Nat) (d : Bytes) : List (Net.Action ε) := atNode v ([.call (.request d) ['b'], .callStep 0] ++ connDo 0 (connectOut n) ++ [.select 0 .ready, .callStep 0, .callStep 0] ++ connDo 0 [.writer, .writer, .writer, .writer])
  ask 0 [1] ++ ask 2 [3] ++ atNode 1 ([.listen, .acceptStep, .acceptConn ['x'], .acceptStep, .acceptConn ['y'], .acceptStep] ++ connDo 0 (connectIn n) ++ connDo 1 (connectIn n))
    ++ [.connect ⟨0, 0⟩ ⟨1, 0⟩, .connect ⟨2, 0⟩ ⟨1, 1⟩]
    ++ atNode 1 (connDo 0 [.arrive, .readMsg ⟨1, [1]⟩, .main, .deliver] ++ [.work 0, .work 0] ++ connDo 1 [.arrive, .readMsg ⟨1, [3]⟩, .main, .deliver] ++ [.work 1, .work 1, .ctxSend 1 0 [33], .ctxSend 0 0 [11]]
      ++ connDo 1 [.writer, .writer, .writer, .writer] ++ connDo 0 [.writer, .writer, .writer, .writer])
    ++ atNode 0 (connDo 0 [.arrive, .readMsg ⟨1, [11]⟩, .main] ++ [.take 0]) ++ atNode 2 (connDo 0 [.arrive, .readMsg ⟨1, [33]⟩, .main] ++ [.take 0])

/-- In it the hypotheses of C132 are met: each request has returned its own response. -/
example : ∃ s : Net.State Unit, Net.Reachable (fun _ => ⟨2, 3, 2, 1, fun _ => false⟩) 3 s ∧ s.foreign = [] ∧ Joined s 0 0 1 0 ∧ Joined s 2 0 1 1 ∧
      s.nodes.map (fun x => x.calls.map fun c => (c.kind, c.pc)) = [[(.request [1], .returned (.response ⟨1, [11]⟩))], [], [(.request [3], .returned (.response ⟨1, [33]⟩))]] ∧
      s.nodes.map (fun x => (handledFrom x 0, handledFrom x 1)) = [([], []), ([⟨1, [1]⟩], [⟨1, [3]⟩]), ([], [])] := by
  have h : (runs (Net.step (fun _ => ⟨2, 3, 2, 1, fun _ => false⟩)) (Net.State.new 3 : Net.State Unit) (threeNodes ID.zero)).map
      (fun s => (s.foreign, s.wires.map fun w => (w.out, w.inn))) = some ([], [(⟨0, 0⟩, ⟨1, 0⟩), (⟨2, 0⟩, ⟨1, 1⟩)]) := by decide +kernel
  have h' : (runs (Net.step (fun _ => ⟨2, 3, 2, 1, fun _ => false⟩)) (Net.State.new 3 : Net.State Unit) (threeNodes ID.zero)).map
      (fun s => s.nodes.map (fun x => x.calls.map fun c => (c.kind, c.pc))) = some [[(.request [1], .returned (.response ⟨1, [11]⟩))], [], [(.request [3], .returned (.response ⟨1, [33]⟩))]] := by decide +kernel
  have h'' : (runs (Net.step (fun _ => ⟨2, 3, 2, 1, fun _ => false⟩)) (Net.State.new 3 : Net.State Unit) (threeNodes ID.zero)).map
      (fun s => s.nodes.map (fun x => (handledFrom x 0, handledFrom x 1))) = some [([], []), ([⟨1, [1]⟩], [⟨1, [3]⟩]), ([], [])] := by decide +kernel
  obtain ⟨s, h1, h2⟩ := Option.map_eq_some_iff.1 h
  rw [h1] at h' h''
  simp only [Prod.mk.injEq] at h2
  have joined : ∀ a j b j', ((⟨a, j⟩ : Net.End), (⟨b, j'⟩ : Net.End)) ∈ s.wires.map (fun w => (w.out, w.inn)) → Joined s a j b j' := by
    intro a j b j' hm
    obtain ⟨w, hw, he⟩ := List.mem_map.1 hm
    simp only [Prod.mk.injEq] at he
    exact ⟨w, hw, he.1, he.2⟩
  exact ⟨s, ⟨_, h1⟩, h2.1, joined _ _ _ _ (by rw [h2.2]; simp), joined _ _ _ _ (by rw [h2.2]; simp), Option.some.inj h', Option.some.inj h''⟩

end Noise
