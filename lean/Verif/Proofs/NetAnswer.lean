import Verif.Proofs.NetCall
import Verif.Proofs.GossipWire
import Verif.Props.Net
/-! # Fair executions of a network: what requests return -/
namespace Noise
open Spec
variable {ε : Type}
namespace Net
variable {cfg : Nat → Node.Cfg ε} {n : Nat} {σ : Nat → State ε} {α : Nat → Option (Action ε)} {o i : End}

theorem FairRun.queue_grows (r : FairRun cfg n σ α) {t t' m : Nat} (hle : t ≤ t') {X X' : Node.State ε} (hX : (σ t).nodes[m]? = some X) (hX' : (σ t').nodes[m]? = some X') {w : Wk.State ε} (hw : X.wk = some w) :
    ∃ w', X'.wk = some w' ∧ w.items <+: w'.items := by
  induction hle generalizing X' with
  | refl => rw [hX] at hX'; cases hX'; exact ⟨w, hw, List.prefix_refl _⟩
  | @step t' hle ih =>
    obtain ⟨Y, hY⟩ : ∃ Y, (σ t').nodes[m]? = some Y := r.has (by rw [← r.len t]; exact (List.getElem?_eq_some_iff.1 hX).1) t'
    obtain ⟨w1, h1, h2⟩ := ih hY
    obtain ⟨Y', h3, h4⟩ := r.at hY
    rw [hX'] at h3; cases h3
    rcases h4 with ⟨rfl, -⟩ | ⟨a, -, h4⟩
    · exact ⟨w1, h1, h2⟩
    · obtain ⟨w2, h5, h6, -⟩ := (Node.Later.step ((r.inv t').nodes _ _ hY) h4).wk w1 h1
      exact ⟨w2, h5, h2.trans h6⟩

/-- What a request on a connection on which nothing fails returns: what a handler of the accepting node has sent in answer to it. -/
theorem Unbroken.answer (u : Unbroken σ α o i) (r : FairRun cfg n σ α) (hb : ∀ t x, (σ t).conn o = some x → x.c.calls.length < 2 ^ 64 - 1) {t t' q : Nat} {x : Node.Conn ε} {d : Cl.Call} {m : Message} (hx : (σ t').conn o = some x)
    (hd : x.c.calls[q]? = some d) (hst : d.st = .returned m) (hnew : ∀ u y, u ≤ t → (σ u).conn o = some y → y.c.calls.length ≤ q) :
    ∃ (I : Node.State ε) (w : Wk.State ε) (v h : Nat), (σ t').nodes[i.node]? = some I ∧ I.wk = some w ∧ w.items[v]? = some ⟨i.conn, ⟨m.nonce, d.data⟩⟩ ∧ .sendOk v h m.nonce m.data ∈ w.log ∧
      ∀ (u : Nat) (J : Node.State ε) (w' : Wk.State ε), u ≤ t' → (σ u).nodes[i.node]? = some J → J.wk = some w' → v < w'.items.length → t < u := by
  obtain ⟨t0, hl⟩ := u.linked
  have ci := u.inn r hl
  have hL := r.link hl t'
  have e : (linkAt cfg (σ t') o i).a = x.c := cl_some hx
  have hbb : (linkAt cfg (σ t') o i).a.calls.length < 2 ^ 64 - 1 := by rw [e]; exact hb t' x hx
  have hok := Cl.ReqsOK.reach (Link.Base.reach hL).ra
  have hd' : (linkAt cfg (σ t') o i).a.calls[q]? = some d := by rw [e]; exact hd
  have hret := (hok.ret q m).2 ⟨d, hd', hst⟩
  obtain ⟨pos, h8⟩ := hok.retChan _ _ m hd' hst
  obtain ⟨-, h10, -⟩ := hok.chan _ _ m pos hd' h8
  obtain ⟨v, h, r1, -, r3⟩ := C81_responses_answer_the_request _ _ _ hL hbb q d hd' m hret
  obtain ⟨I, hI⟩ := r.has ci.exist t'
  have r1 : (((σ t').wkOf cfg i.node).items.map (Wk.Item.rn (ren i.conn)))[v]? = some ⟨0, ⟨d.nonce, d.data⟩⟩ := r1
  have r3 : (Wk.Event.sendOk v h d.nonce m.data : Wk.Event ε) ∈ ((σ t').wkOf cfg i.node).log.map (Wk.Event.rn (ren i.conn)) := r3
  have hit := item_back r1
  obtain ⟨w, hw, e'⟩ := wk_back (cfg := cfg) hI hit
  rw [e'] at hit r3
  refine ⟨I, w, v, h, hI, hw, by rw [h10]; exact hit, ?_, ?_⟩
  · obtain ⟨ev, e1, e2⟩ := List.mem_map.1 r3
    cases ev <;> simp [Wk.Event.rn] at e2
    obtain ⟨rfl, rfl, rfl, rfl⟩ := e2
    rw [h10]
    exact e1
  · intro y J w' hy hJ hw' hv
    by_contra hle
    -- at that time the request had been submitted
    have hLy := r.link hl y
    have hby := Link.Base.reach hLy
    have hsub : (⟨d.nonce, d.data⟩ : Message) ∈ submittedOf (linkAt cfg (σ y) o i).a.log := by
      refine hby.deliveredB.subset ?_
      rw [← hby.items]
      obtain ⟨w2, g1, g2⟩ := r.queue_grows hy hJ hI hw'
      rw [hw] at g1; cases g1
      have g3 : w'.items[v]? = some ⟨i.conn, ⟨d.nonce, d.data⟩⟩ := by
        obtain ⟨l, hl⟩ := g2
        rw [← hl, List.getElem?_append_left hv] at hit
        exact hit
      have g4 : (σ y).wkOf cfg i.node = w' := by
        obtain ⟨w3, g5, g6⟩ := wk_back (cfg := cfg) (k := v) (it := ⟨i.conn, ⟨d.nonce, d.data⟩⟩) hJ (by rw [wkOf_at hJ, hw']; exact g3)
        rw [hw'] at g5; cases g5
        exact g6
      refine List.mem_map.2 ⟨⟨0, ⟨d.nonce, d.data⟩⟩, List.mem_filter.2 ⟨?_, by simp⟩, rfl⟩
      show _ ∈ ((σ y).wkOf cfg i.node).items.map (Wk.Item.rn (ren i.conn))
      rw [g4]
      exact List.mem_map.2 ⟨_, List.mem_of_getElem? g3, by simp [Wk.Item.rn, ren_self]⟩
    have hq := (Link.Rpc.reach hL hbb).callN q d hd'
    cases hz : (σ y).conn o with
    | none =>
      have e0 : (linkAt cfg (σ y) o i).a = Cl.State.new .outbound := by
        show (σ y).cl o .outbound = _
        unfold State.cl; rw [hz]
      rw [e0] at hsub
      cases hsub
    | some z =>
      have ez : (linkAt cfg (σ y) o i).a = z.c := cl_some hz
      have h1 := (Link.Rpc.reach hLy (by rw [ez]; exact hb y z hz)).sub _ hsub
      have h2 := hnew y z (by omega) hz
      rw [ez] at h1
      simp only at h1
      omega

end Net
end Noise
