import Verif.Proofs.NodeCalls
import Verif.Props.Client2
import Verif.Props.NodeEnd
/-! # Properties C117 and C118: whom a successful call has reached, and whose answer it returns -/
namespace Noise
open Node Spec
variable {ε : Type}

/-! ## C117 -/

/-- Until `ready` is closed. -/
def Untouched (s : Cl.State ε) : Prop := s.main.isReady = false → deliveredOf s.log = [] ∧ wroteOf s.log = [] ∧ disconnects s.log = 0

theorem Untouched.step {s s' : Cl.State ε} {a : Cl.Action ε} (hl : Cl.Life s) (h : Untouched s) (hs : Cl.step s a = some s') : Untouched s' := by
  obtain ⟨-, -, -, -, l5, -, -⟩ := hl
  have hnw : s.main.isReady = false → s.writer = .notStarted := fun h => (l5 (by cases hx : s.main <;> simp_all [Cl.MainPc.noWriter, Cl.MainPc.isReady])).1
  clear l5
  unfold Untouched at *
  open Cl in
  cl_cases a hs
  all_goals grind [Cl.State.closeReady, Cl.State.closeReaderDone, Cl.State.closeWriterDone, Cl.State.closeClientDone, Cl.MainPc.isReady, Cl.MainPc.noWriter, Cl.State.report, Cl.State.send, Cl.State.setCall, deliveredOf, wroteOf, disconnects]

/-- **C117, the client.** When `WaitUntilReady` returns (`ready` is closed), the client has an authenticated ID, with which the `OnPeerConnected` callbacks have been called, or it has an error. Until then, nothing has been handed to the
handlers, nothing was written, the peer has not been reported as disconnected, and the client has not ended. -/
theorem C117_ready (side : Cl.Side) (s : Cl.State ε) (h : Cl.Reachable side s) :
    (s.ready = true → (∃ i, s.id = some i ∧ connectedOf s.log = [some i]) ∨ ∃ e, s.err = some e) ∧
    (s.ready = false → deliveredOf s.log = [] ∧ wroteOf s.log = [] ∧ disconnects s.log = 0 ∧ s.readerDone = false ∧ s.writerDone = false ∧ s.clientDone = false) := by
  have hl := Cl.Life.reach h
  refine ⟨fun hr => ?_, fun hr => ?_⟩
  · rcases (Cl.Met.reach h).met (.inr hr) with ⟨h1, h2⟩ | h1
    · left
      rcases (C29_callbacks_partial side s h).1 with h3 | ⟨i, h3, h4, -⟩
      · have : s.id ∈ connectedOf s.log := List.mem_filterMap.2 ⟨_, h2, rfl⟩
        rw [h3] at this; cases this
      · exact ⟨i, h4, h3⟩
    · exact .inr (Option.isSome_iff_exists.1 h1)
  · have hu : Untouched s := (Cl.reach_inv (P := fun s => Cl.Life s ∧ Untouched s) ⟨Cl.Life.new side, fun _ => ⟨rfl, rfl, rfl⟩⟩ (fun _ _ _ hi hs => ⟨hi.1.step hs, Untouched.step hi.1 hi.2 hs⟩) h).2
    have hm : s.main.isReady = false := by rw [← hl.ready]; exact hr
    obtain ⟨h1, h2, h3⟩ := hu hm
    have hro : s.main.readerOpen = true := by cases hx : s.main <;> simp_all [Cl.MainPc.readerOpen, Cl.MainPc.isReady]
    have hnw : s.main.noWriter = true := by cases hx : s.main <;> simp_all [Cl.MainPc.noWriter, Cl.MainPc.isReady]
    refine ⟨h1, h2, h3, hl.reader hro, (hl.noWriter hnw).2, ?_⟩
    cases hc : s.clientDone with
    | false => rfl
    | true => have := hl.client.1 hc; rw [this] at hm; cases hm

/-- Both cases occur: a completed handshake, and one that fails. -/
example (i : ID) : ∃ s : Cl.State Nat, Cl.Reachable .outbound s ∧ s.ready = true ∧ s.id = some i ∧ s.err = none := ⟨_, ⟨connectOut i, rfl⟩, rfl, rfl, rfl⟩
example : ∃ s : Cl.State Nat, Cl.Reachable .inbound s ∧ s.ready = true ∧ s.id = none ∧ s.err = some 7 := ⟨_, ⟨[.main, .hsFail 7, .main], rfl⟩, rfl, rfl, rfl⟩

/-- Client `j` of the node is one that the node has dialled at address `a`; the handshake with its peer was completed, and the client's ID is the authenticated one. -/
def Reached (s : Node.State ε) (j : Nat) (a : Text) (x : Node.Conn ε) : Prop :=
  s.conns[j]? = some x ∧ x.addr = a ∧ x.c.side = .outbound ∧ ∃ i, x.c.id = some i ∧ connectedOf x.c.log = [some i]

theorem Node.Auth.reached {cfg : Cfg ε} {s : Node.State ε} (h : Node.Reachable cfg s) {j : Nat} {a : Text} {x : Node.Conn ε} (hx : Auth s j a x) : Reached s j a x := by
  obtain ⟨⟨h1, h2, h3⟩, i, hi⟩ := hx
  refine ⟨h1, h2, h3, ?_⟩
  rcases (C29_callbacks_partial _ x.c (Reaches.reach h j x h1)).1 with h4 | ⟨i, h4, h5, -⟩
  · have : some i ∈ connectedOf x.c.log := List.mem_filterMap.2 ⟨_, hi, rfl⟩
    rw [h4] at this; cases this
  · exact ⟨i, h5, h4⟩

/-- **C117, the node.** Whatever else goes on in the node: if `Ping` returns a client, it is one that was dialled at the address given, and its peer is authenticated; if `Send` returns nil, its data was submitted to such a client; and if
`Request` returns a response, then its data was submitted to such a client under a nonce, and the response is a message with that nonce which that client has received. -/
theorem C117_calls_reach_authenticated_peers (cfg : Cfg ε) (s : Node.State ε) (h : Node.Reachable cfg s) (k : Nat) (c : Node.Call ε) (hk : s.calls[k]? = some c) :
    (∀ j, c.pc = .returned (.client j) → c.kind = .ping ∧ ∃ x, Reached s j c.addr x) ∧
    (c.pc = .returned .sent → ∃ j x data, c.kind = .send data ∧ Reached s j c.addr x ∧ ⟨0, data⟩ ∈ submittedOf x.c.log) ∧
    (∀ m, c.pc = .returned (.response m) → ∃ j x data, c.kind = .request data ∧ Reached s j c.addr x ∧ ⟨m.nonce, data⟩ ∈ submittedOf x.c.log ∧ .processed m true ∈ x.c.log) := by
  obtain ⟨f, hf, -⟩ := Mine.reach h
  have hg := hf k c hk
  refine ⟨fun j hp => ?_, fun hp => ?_, fun m hp => ?_⟩
  · simp only [Got, hp] at hg
    obtain ⟨h1, x, h2⟩ := hg
    exact ⟨h1, x, h2.reached h⟩
  · simp only [Got, hp] at hg
    obtain ⟨j, x, data, h1, h2, h3⟩ := hg
    exact ⟨j, x, data, h2, h1.reached h, List.mem_filterMap.2 ⟨_, h3, rfl⟩⟩
  · simp only [Got, hp] at hg
    obtain ⟨x, h1, q, h2, h3, h4, h5⟩ := hg
    have hok := Cl.ReqsOK.reach (Reaches.reach h _ x h1.1.1)
    obtain ⟨q', h6, h7⟩ := (hok.ret _ m).1 h5
    rw [h2] at h6; cases h6
    obtain ⟨p, h8⟩ := hok.retChan _ _ m h2 h7
    obtain ⟨h9, h10, -⟩ := hok.chan _ _ m p h2 h8
    exact ⟨_, x, q.data, h3, h1.reached h, List.mem_filterMap.2 ⟨_, h4, by simp [h10]⟩, List.mem_of_getElem? h9⟩

/-! ## C118 -/

/-- **C118.** In a whole node, with any number of concurrent calls over any connections, assign to each `Request` that has returned a response the client, and the place in that client's history, where the response was received:
it is a client for the address of the call, the nonce is the one under which the call submitted its data, and no two calls share a place: each response is returned once. -/
theorem C118_responses_not_shared (cfg : Cfg ε) (s : Node.State ε) (h : Node.Reachable cfg s) :
    ∃ place : Nat → Nat × Nat, ∀ (k : Nat) (c : Node.Call ε) (m : Message), s.calls[k]? = some c → c.pc = .returned (.response m) →
      (∃ x data, c.kind = .request data ∧ Reached s (place k).1 c.addr x ∧ x.c.log[(place k).2]? = some (.processed m true) ∧ ⟨m.nonce, data⟩ ∈ submittedOf x.c.log) ∧
      ∀ (k' : Nat) (c' : Node.Call ε) (m' : Message), s.calls[k']? = some c' → c'.pc = .returned (.response m') → place k' = place k → k' = k := by
  obtain ⟨f, hf, hinj⟩ := Mine.reach h
  -- the place where the request's channel was filled
  have key : ∀ (k : Nat) (c : Node.Call ε) (m : Message), s.calls[k]? = some c → c.pc = .returned (.response m) → ∃ (x : Node.Conn ε) (q : Cl.Call) (p : Nat), Auth s (f k).1 c.addr x ∧ x.c.calls[(f k).2]? = some q ∧
      q.chan = some (m, p) ∧ c.kind = .request q.data ∧ .submitted ⟨q.nonce, q.data⟩ ∈ x.c.log ∧ x.c.log[p]? = some (.processed m true) ∧ m.nonce = q.nonce := by
    intro k c m hk hp
    have hg := hf k c hk
    simp only [Got, hp] at hg
    obtain ⟨x, h1, q, h2, h3, h4, h5⟩ := hg
    have hok := Cl.ReqsOK.reach (Reaches.reach h _ x h1.1.1)
    obtain ⟨q', h6, h7⟩ := (hok.ret _ m).1 h5
    rw [h2] at h6; cases h6
    obtain ⟨p, h8⟩ := hok.retChan _ _ m h2 h7
    obtain ⟨h9, h10, -⟩ := hok.chan _ _ m p h2 h8
    exact ⟨x, q, p, h1, h2, h8, h3, h4, h9, h10⟩
  let pos (k : Nat) : Nat := match (s.conns[(f k).1]?).bind fun x => (x.c.calls[(f k).2]?).bind fun q => q.chan with
    | some (_, p) => p
    | none => 0
  have hpos : ∀ (k : Nat) (x : Node.Conn ε) (q : Cl.Call) (m : Message) (p : Nat), s.conns[(f k).1]? = some x → x.c.calls[(f k).2]? = some q → q.chan = some (m, p) → pos k = p := by
    intro k x q m p h1 h2 h3
    simp [pos, h1, h2, h3]
  refine ⟨fun k => ((f k).1, pos k), fun k c m hk hp => ⟨?_, fun k' c' m' hk' hp' he => ?_⟩⟩
  · obtain ⟨x, q, p, h1, h2, h3, h4, h5, h6, h7⟩ := key k c m hk hp
    refine ⟨x, q.data, h4, h1.reached h, ?_, List.mem_filterMap.2 ⟨_, h5, by simp [h7]⟩⟩
    simp only [hpos k x q m p h1.1.1 h2 h3]
    exact h6
  · obtain ⟨x, q, p, h1, h2, h3, -⟩ := key k c m hk hp
    obtain ⟨x', q', p', h1', h2', h3', -⟩ := key k' c' m' hk' hp'
    simp only [Prod.mk.injEq] at he
    obtain ⟨he1, he2⟩ := he
    rw [hpos k x q m p h1.1.1 h2 h3, hpos k' x' q' m' p' h1'.1.1 h2' h3'] at he2
    subst he2
    have hxx : x' = x := by have := h1'.1.1; rw [he1, h1.1.1] at this; cases this; rfl
    subst hxx
    have hok := Cl.ReqsOK.reach (Reaches.reach h _ x' h1.1.1)
    have := hok.inj _ _ _ _ _ _ _ h2' h2 h3' h3
    exact hinj k' k c' c hk' hk (by simp [hp', Pc.asks]) (by simp [hp, Pc.asks]) (Prod.ext he1 this)

/-- Two requests and a message over one connection; the responses come in the other order. -/
def twoRequests (n : ID) : List (Node.Action ε) :=
  [.call (.request [1]) ['b'], .call (.request [2]) ['b'], .call (.send [3]) ['b'], .call .ping ['b'], .callStep 0, .callStep 1, .callStep 2, .callStep 3] ++ connDo 0 (connectOut n)
    ++ [.select 0 .ready, .select 1 .ready, .select 2 .ready, .select 3 .ready, .callStep 0, .callStep 0, .callStep 1, .callStep 1, .callStep 2, .callStep 3]
    ++ connDo 0 [.arrive, .arrive, .readMsg ⟨2, [20]⟩, .main, .readMsg ⟨1, [10]⟩, .main] ++ [.take 0, .take 1]

/-- It meets the hypotheses of C117 and C118. -/
example : ∃ s : Node.State Unit, Node.Reachable ⟨2, 3, 1, 1, fun _ => false⟩ s ∧ s.conns.length = 1 ∧ s.calls.map (fun c => c.pc) = [.returned (.response ⟨1, [10]⟩), .returned (.response ⟨2, [20]⟩), .returned .sent, .returned (.client 0)] := by
  have h : (runs (Node.step ⟨2, 3, 1, 1, fun _ => false⟩) (Node.State.new : Node.State Unit) (twoRequests ID.zero)).map
      (fun s => (s.conns.length, s.calls.map fun c => c.pc)) = some (1, [.returned (.response ⟨1, [10]⟩), .returned (.response ⟨2, [20]⟩), .returned .sent, .returned (.client 0)]) := by decide +kernel
  obtain ⟨s, h1, h2⟩ := Option.map_eq_some_iff.1 h
  injection h2 with h2 h3
  exact ⟨s, ⟨_, h1⟩, h2, h3⟩

end Noise
