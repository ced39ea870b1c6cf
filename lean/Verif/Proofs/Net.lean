import Verif.Model.Net
import Verif.Proofs.NetEff
/-! # A network of nodes: every connection between two of them is a `Link` -/
namespace Noise
open Spec
variable {ε : Type}

/-! ### The workers do not depend on the numbers of the clients -/
namespace Wk

def Item.rn (r : Nat → Nat) (it : Item) : Item := { it with client := r it.client }

def Event.rn (r : Nat → Nat) : Event ε → Event ε
  | .reported c e => .reported (r c) e
  | .closed c => .closed (r c)
  | e => e

def State.rn (r : Nat → Nat) (s : State ε) : State ε := { s with items := s.items.map (Item.rn r), log := s.log.map (Event.rn r) }

def Action.rn (r : Nat → Nat) : Action ε → Action ε
  | .enqueue it => .enqueue (it.rn r)
  | a => a

theorem hasStarted_rn (r : Nat → Nat) (s : State ε) (k h : Nat) : (s.rn r).hasStarted k h = s.hasStarted k h := by
  unfold State.hasStarted State.rn
  simp only [List.any_map]
  congr 1
  funext e
  cases e <;> rfl

theorem setWorker_rn (r : Nat → Nat) (s : State ε) (w : Nat) (p : Pc ε) (es : List (Event ε)) : (s.rn r).setWorker w p (es.map (Event.rn r)) = (s.setWorker w p es).rn r := by
  simp [State.setWorker, State.rn]

theorem step_rn {r : Nat → Nat} {s s' : State ε} {a : Action ε} (h : step s a = some s') : step (s.rn r) (a.rn r) = some (s'.rn r) := by
  cases a with
  | enqueue it =>
    simp only [step] at h
    repeat' split at h
    all_goals try (cases h; done)
    cases h
    next h1 h2 => simp [step, Action.rn, State.rn, h1, h2]
  | closeQueue =>
    simp only [step] at h
    split at h
    · cases h
    · next h1 => cases h; simp [step, Action.rn, State.rn, h1]
  | work w =>
    simp only [step] at h
    split at h
    · next hw =>
      split at h
      · next h1 => cases h; simp [step, Action.rn, State.rn, hw, h1, State.setWorker, Event.rn]
      · next h1 =>
        split at h
        · next h2 => cases h; simp [step, Action.rn, State.rn, hw, h1, h2, State.setWorker]
        · cases h
    · next hw =>
      split at h
      · next h1 => cases h; simp [step, Action.rn, State.rn, hw, h1, State.setWorker, Event.rn]
      · next h1 => cases h; simp [step, Action.rn, State.rn, hw, h1, State.setWorker]
    · next hw =>
      split at h
      · next it h1 => cases h; simp [step, Action.rn, State.rn, hw, h1, State.setWorker, Event.rn, Item.rn]
      · cases h
    · next hw =>
      split at h
      · next it h1 => cases h; simp [step, Action.rn, State.rn, hw, h1, State.setWorker, Event.rn, Item.rn]
      · cases h
    · cases h
  | handlerReturn w o =>
    simp only [step] at h
    split at h
    · next hw =>
      split at h <;> cases h <;> simp [step, Action.rn, State.rn, hw, State.setWorker, Event.rn]
    · cases h
  | send k hh data =>
    simp only [step] at h
    split at h
    · next it hit =>
      split at h
      · next h1 =>
        cases h
        simp only [step, Action.rn]
        simp only [hasStarted_rn, h1, if_true]
        simp only [State.rn, List.getElem?_map, hit, Option.map_some, State.ctxSend, Item.rn]
        split
        · split <;> simp_all [Event.rn]
        · simp_all [Event.rn]
      · cases h
    · cases h

end Wk

namespace Net

/-- Client `j` is number 0, the others are not. -/
def ren (j c : Nat) : Nat := if c = j then 0 else c + 1

theorem ren_self (j : Nat) : ren j j = 0 := by simp [ren]
theorem ren_ne {j c : Nat} (h : c ≠ j) : ren j c ≠ 0 := by simp [ren, h]

/-- The client at an end, also if it is not there yet. -/
def State.cl (s : State ε) (e : End) (d : Cl.Side) : Cl.State ε := match s.conn e with
  | some x => x.c
  | none => Cl.State.new d

/-- The workers of a node, also if they are not there yet. -/
def State.wkOf (cfg : Nat → Node.Cfg ε) (s : State ε) (n : Nat) : Wk.State ε := match (s.nodes[n]?).bind Node.State.wk with
  | some q => q
  | none => Wk.State.new (cfg n).numWorkers (cfg n).numHandlers

/-- The part of the network that concerns these two ends. -/
def State.lk (cfg : Nat → Node.Cfg ε) (s : State ε) (o i : End) (ro ri : Nat) : Link.State ε := ⟨s.cl o .outbound, s.cl i .inbound, (s.wkOf cfg i.node).rn (ren i.conn), ro, ri⟩

/-- The first end is an outbound client or not there, the second is an inbound client or not there. -/
def Fits (s : State ε) (o i : End) : Prop := (∀ x, s.conn o = some x → x.c.side = .outbound) ∧ ∀ y, s.conn i = some y → y.c.side = .inbound

theorem liftA {c c' b : Cl.State ε} {w : Wk.State ε} {ra rb : Nat} (h : Node.PlainRun c c') (hs : c.side = .outbound) : ReachFrom Link.step ⟨c, b, w, ra, rb⟩ ⟨c', b, w, ra, rb⟩ := by
  obtain ⟨as, hr, ha⟩ := h
  induction as generalizing c with
  | nil => cases hr; exact ⟨[], rfl⟩
  | cons a as ih =>
    simp only [Cl.run] at hr
    split at hr
    · next c1 h1 =>
      have hs1 := Cl.side_step h1
      have hp := ha a (by simp)
      have one : Link.step (⟨c, b, w, ra, rb⟩ : Link.State ε) (.a a) = some ⟨c1, b, w, ra, rb⟩ := by
        simp only [Link.step, Link.stepA]
        split
        · cases hp
        · cases hp
        · simp [h1]
      obtain ⟨ls, hl⟩ := ih (hs1.trans hs) hr (fun a' ha' => by rw [hs1]; exact ha a' (by simp [ha']))
      exact ⟨.a a :: ls, by simp [runs, one, hl]⟩
    · cases hr

theorem liftB {a c c' : Cl.State ε} {w : Wk.State ε} {ra rb : Nat} (h : Node.PlainRun c c') (hs : c.side = .inbound) : ReachFrom Link.step ⟨a, c, w, ra, rb⟩ ⟨a, c', w, ra, rb⟩ := by
  obtain ⟨as, hr, ha⟩ := h
  induction as generalizing c with
  | nil => cases hr; exact ⟨[], rfl⟩
  | cons x as ih =>
    simp only [Cl.run] at hr
    split at hr
    · next c1 h1 =>
      have hs1 := Cl.side_step h1
      have hp := ha x (by simp)
      have one : Link.step (⟨a, c, w, ra, rb⟩ : Link.State ε) (.b x) = some ⟨a, c1, w, ra, rb⟩ := by
        simp only [Link.step, Link.stepB]
        split
        · cases hp
        · cases hp
        · simp [Node.plain, hs] at hp
        · cases hp
        · simp [h1]
      obtain ⟨ls, hl⟩ := ih (hs1.trans hs) hr (fun a' ha' => by rw [hs1]; exact ha a' (by simp [ha']))
      exact ⟨.b x :: ls, by simp [runs, one, hl]⟩
    · cases hr

theorem liftW {a b : Cl.State ε} {w w' : Wk.State ε} {ra rb : Nat} {r : Nat → Nat} {x : Wk.Action ε} (h : Wk.step w x = some w') (h1 : ∀ it, x ≠ .enqueue it) (h2 : ∀ k h d, x ≠ .send k h d) :
    ReachFrom Link.step ⟨a, b, w.rn r, ra, rb⟩ ⟨a, b, w'.rn r, ra, rb⟩ := by
  refine ⟨[.w (x.rn r)], ?_⟩
  have := Wk.step_rn (r := r) h
  cases x with
  | enqueue it => exact absurd rfl (h1 _)
  | send k h d => exact absurd rfl (h2 _ _ _)
  | _ => simp only [Wk.Action.rn] at this ⊢; simp [runs, Link.step, Link.stepW, this]

theorem liftEnqueue {a b : Cl.State ε} {w w' : Wk.State ε} {ra rb : Nat} {j i : Nat} {m : Message} (h : Wk.step w (.enqueue ⟨j, m⟩) = some w') (hj : j ≠ i) :
    ReachFrom Link.step ⟨a, b, w.rn (ren i), ra, rb⟩ ⟨a, b, w'.rn (ren i), ra, rb⟩ := by
  refine ⟨[.w (.enqueue ⟨ren i j, m⟩)], ?_⟩
  have := Wk.step_rn (r := ren i) h
  simp only [Wk.Action.rn, Wk.Item.rn] at this
  simp [runs, Link.step, Link.stepW, this, ren_ne hj]

theorem liftSend {a b : Cl.State ε} {w w' : Wk.State ε} {ra rb : Nat} {i k hh : Nat} {d : Bytes} {it : Wk.Item} (h : Wk.step w (.send k hh d) = some w') (hit : w.items[k]? = some it)
    (hj : it.client ≠ i ∨ ¬ (it.msg.isRequest = false ∨ w.sent k hh = false)) : ReachFrom Link.step ⟨a, b, w.rn (ren i), ra, rb⟩ ⟨a, b, w'.rn (ren i), ra, rb⟩ := by
  refine ⟨[.w (.send k hh d)], ?_⟩
  have := Wk.step_rn (r := ren i) h
  simp only [Wk.Action.rn] at this
  have hit' : (w.rn (ren i)).items[k]? = some (it.rn (ren i)) := by simp [Wk.State.rn, hit]
  have hc : ¬ ((it.rn (ren i)).client = 0 ∧ ((it.rn (ren i)).msg.isRequest = false ∨ (w.rn (ren i)).sent k hh = false)) := by
    rintro ⟨h1, h2⟩
    rcases hj with hj | hj
    · exact ren_ne hj h1
    · exact hj h2
  simp only [runs, Link.step, Link.stepW, hit', if_neg hc, this, Option.map_some]

/-! ### One node takes a step -/

section
variable {cfg : Nat → Node.Cfg ε} {s : State ε} {n : Nat} {x x' : Node.State ε}

theorem conn_set (hn : s.nodes[n]? = some x) (e : End) : (s.setNode n x').conn e = if e.node = n then x'.conns[e.conn]? else s.conn e := by
  unfold State.conn State.setNode
  by_cases h : e.node = n
  · subst h; simp [(List.getElem?_eq_some_iff.1 hn).1]
  · simp [h, List.getElem?_set_ne (Ne.symm h)]

theorem conn_at (hn : s.nodes[n]? = some x) {e : End} (h : e.node = n) : s.conn e = x.conns[e.conn]? := by
  unfold State.conn; rw [h, hn]; rfl

theorem wkOf_set (hn : s.nodes[n]? = some x) (b : Nat) : (s.setNode n x').wkOf cfg b = if b = n then x'.wk.getD (Wk.State.new (cfg n).numWorkers (cfg n).numHandlers) else s.wkOf cfg b := by
  unfold State.wkOf State.setNode
  by_cases h : b = n
  · subst h
    simp only [List.getElem?_set_self (List.getElem?_eq_some_iff.1 hn).1, Option.bind_some, if_true]
    cases x'.wk <;> rfl
  · simp [h, List.getElem?_set_ne (Ne.symm h)]

theorem wkOf_at (hn : s.nodes[n]? = some x) : s.wkOf cfg n = x.wk.getD (Wk.State.new (cfg n).numWorkers (cfg n).numHandlers) := by
  unfold State.wkOf
  rw [hn]
  simp only [Option.bind_some]
  cases x.wk <;> rfl

/-- A client is replaced. -/
theorem cl_one (hn : s.nodes[n]? = some x) {j : Nat} {y y' : Node.Conn ε} (hy : x.conns[j]? = some y) (hc : x'.conns = x.conns.set j y') (e : End) (d : Cl.Side) :
    (s.setNode n x').cl e d = if e = ⟨n, j⟩ then y'.c else s.cl e d := by
  unfold State.cl
  rw [conn_set hn]
  by_cases h : e = ⟨n, j⟩
  · subst h
    simp [hc, (List.getElem?_eq_some_iff.1 hy).1]
  · rw [if_neg h]
    by_cases he : e.node = n
    · have hj : e.conn ≠ j := fun h' => h (by cases e; simp_all)
      rw [if_pos he, hc, List.getElem?_set_ne (Ne.symm hj), conn_at hn he]
    · rw [if_neg he]

theorem cl_here (hn : s.nodes[n]? = some x) {j : Nat} {y : Node.Conn ε} (hy : x.conns[j]? = some y) (d : Cl.Side) : s.cl ⟨n, j⟩ d = y.c := by
  unfold State.cl; rw [conn_at hn rfl]; simp [hy]

/-- Plain actions of all clients of a node. -/
theorem cl_plain (hn : s.nodes[n]? = some x) (hp : Node.Plainly x x') (e : End) (d : Cl.Side) (hd : ∀ y, (s.setNode n x').conn e = some y → y.c.side = d) :
    Node.PlainRun (s.cl e d) ((s.setNode n x').cl e d) := by
  unfold State.cl
  rw [conn_set hn] at hd ⊢
  by_cases he : e.node = n
  · simp only [if_pos he] at hd ⊢
    rw [conn_at hn he]
    cases h1 : x.conns[e.conn]? with
    | some y =>
      obtain ⟨y', h2, h3⟩ := hp.old _ y h1
      rw [h2]; exact h3
    | none =>
      cases h2 : x'.conns[e.conn]? with
      | none => exact .refl _
      | some y' =>
        have := hp.new _ y' h1 h2
        rw [hd y' h2] at this
        exact this
  · simp only [if_neg he]; exact .refl _

theorem new_side (d : Cl.Side) : (Cl.State.new d : Cl.State ε).side = d := rfl

theorem Fits.clSide {o i : End} (h : Fits s o i) : (s.cl o .outbound).side = .outbound ∧ (s.cl i .inbound).side = .inbound := by
  unfold State.cl
  refine ⟨?_, ?_⟩
  · cases ho : s.conn o with
    | none => rfl
    | some y => exact h.1 y ho
  · cases hi : s.conn i with
    | none => rfl
    | some y => exact h.2 y hi

theorem lk_neff (hn : s.nodes[n]? = some x) (hr : Node.Reachable (cfg n) x) (he : Node.NEff (cfg n) x x') {o i : End} (hf : Fits s o i) (hf' : Fits (s.setNode n x') o i) (ro ri : Nat) :
    ReachFrom Link.step (s.lk cfg o i ro ri) ((s.setNode n x').lk cfg o i ro ri) := by
  unfold State.lk
  cases he with
  | plain hp hw =>
    have hA := cl_plain hn hp o .outbound hf'.1
    have hB := cl_plain hn hp i .inbound hf'.2
    refine (liftA hA hf.clSide.1).trans ((liftB hB hf.clSide.2).trans ?_)
    rw [wkOf_set hn]
    by_cases hin : i.node = n
    · rw [if_pos hin, hin, wkOf_at hn]
      cases hw with
      | same h => rw [h]; exact .refl _
      | listen h1 h2 => rw [h1, h2]; exact .refl _
      | step q q' a h1 h2 h3 h4 h5 => rw [h1, h2]; exact liftW h3 h4 h5
    · rw [if_neg hin]; exact .refl _
  | deliver j m y y' q q' hy hm hc hstep hq hq' hw =>
    rw [wkOf_set hn, cl_one hn hy hc, cl_one hn hy hc]
    by_cases hi : i = ⟨n, j⟩
    · subst hi
      have ho : o ≠ ⟨n, j⟩ := by
        rintro rfl
        have h1 := hf.1 y (by rw [conn_at hn rfl]; exact hy)
        have h2 := hf.2 y (by rw [conn_at hn rfl]; exact hy)
        rw [h1] at h2; cases h2
      rw [if_neg ho, if_pos rfl, if_pos rfl, cl_here hn hy, wkOf_at hn, hq, hq']
      refine ⟨[.b .deliver], ?_⟩
      have := Wk.step_rn (r := ren j) hw
      simp only [Wk.Action.rn, Wk.Item.rn, ren_self] at this
      simp [runs, Link.step, Link.stepB, hm, hstep, this]
    · rw [if_neg hi]
      have hA : ∀ b w, ReachFrom Link.step (⟨s.cl o .outbound, b, w, ro, ri⟩ : Link.State ε) ⟨if o = ⟨n, j⟩ then y'.c else s.cl o .outbound, b, w, ro, ri⟩ := by
        intro b w
        by_cases ho : o = ⟨n, j⟩
        · subst ho
          rw [if_pos rfl, cl_here hn hy]
          exact ⟨[.a .deliver], by simp [runs, Link.step, Link.stepA, hstep]⟩
        · rw [if_neg ho]; exact .refl _
      refine (hA _ _).trans ?_
      by_cases hin : i.node = n
      · rw [if_pos hin, hin, wkOf_at hn, hq, hq']
        refine liftEnqueue hw fun h => hi ?_
        cases i; simp_all
      · rw [if_neg hin]; exact .refl _
  | refused k h data it q q' hc hq hq' hw hit hno =>
    have hcl : ∀ e d, (s.setNode n x').cl e d = s.cl e d := by
      intro e d
      unfold State.cl
      rw [conn_set hn]
      by_cases he : e.node = n
      · rw [if_pos he, hc, conn_at hn he]
      · rw [if_neg he]
    rw [wkOf_set hn, hcl, hcl]
    by_cases hin : i.node = n
    · rw [if_pos hin, hin, wkOf_at hn, hq, hq']
      exact liftSend hw hit (.inr hno)
    · rw [if_neg hin]; exact .refl _
  | answer k h data it y y' q q' hq hq' hw hit hyes hy hc hstep =>
    rw [wkOf_set hn, cl_one hn hy hc, cl_one hn hy hc]
    by_cases hi : i = ⟨n, it.client⟩
    · subst hi
      have ho : o ≠ ⟨n, it.client⟩ := by
        rintro rfl
        have h1 := hf.1 y (by rw [conn_at hn rfl]; exact hy)
        have h2 := hf.2 y (by rw [conn_at hn rfl]; exact hy)
        rw [h1] at h2; cases h2
      rw [if_neg ho, if_pos rfl, if_pos rfl, cl_here hn hy, wkOf_at hn, hq, hq']
      refine ⟨[.w (.send k h data)], ?_⟩
      have := Wk.step_rn (r := ren it.client) hw
      simp only [Wk.Action.rn] at this
      have hit' : (q.rn (ren it.client)).items[k]? = some (it.rn (ren it.client)) := by simp [Wk.State.rn, hit]
      have hcond : (it.rn (ren it.client)).client = 0 ∧ ((it.rn (ren it.client)).msg.isRequest = false ∨ (q.rn (ren it.client)).sent k h = false) := ⟨ren_self _, hyes⟩
      have hstep' : Cl.step y.c (.send ⟨(it.rn (ren it.client)).msg.nonce, data⟩) = some y'.c := hstep
      simp only [runs, Link.step, Link.stepW, Option.getD_some, hit', if_pos hcond, this, Option.bind_some, hstep', Option.map_some]
    · rw [if_neg hi]
      have hA : ∀ b w, ReachFrom Link.step (⟨s.cl o .outbound, b, w, ro, ri⟩ : Link.State ε) ⟨if o = ⟨n, it.client⟩ then y'.c else s.cl o .outbound, b, w, ro, ri⟩ := by
        intro b w
        by_cases ho : o = ⟨n, it.client⟩
        · subst ho
          rw [if_pos rfl, cl_here hn hy]
          have hctx : Link.hasContext y.c it.msg.nonce = true := by
            obtain ⟨via, t⟩ := Node.Traffic.reach hr
            have hdl : deliveredOf y.c.log = _ := t.dl it.client y.view (Node.views_get hy)
            have hmem : it.msg ∈ deliveredOf y.c.log := by
              rw [hdl]
              refine List.mem_map.2 ⟨it, List.mem_filter.2 ⟨?_, by simp⟩, rfl⟩
              simp only [Node.State.items, hq]
              exact List.mem_of_getElem? hit
            unfold deliveredOf at hmem
            obtain ⟨ev, hev, hev2⟩ := List.mem_filterMap.1 hmem
            unfold Link.hasContext
            rw [List.any_eq_true]
            refine ⟨ev, hev, ?_⟩
            cases ev <;> simp_all
          exact ⟨[.a (.send ⟨it.msg.nonce, data⟩)], by simp [runs, Link.step, Link.stepA, hstep, hctx]⟩
        · rw [if_neg ho]; exact .refl _
      refine (hA _ _).trans ?_
      by_cases hin : i.node = n
      · rw [if_pos hin, hin, wkOf_at hn, hq, hq']
        refine liftSend hw hit (.inl fun h => hi ?_)
        cases i; simp_all
      · rw [if_neg hin]; exact .refl _
  | send j data y y' hwk hy hout hc hstep =>
    rw [wkOf_set hn, cl_one hn hy hc, cl_one hn hy hc]
    have hi : i ≠ ⟨n, j⟩ := by
      rintro rfl
      have h2 := hf.2 y (by rw [conn_at hn rfl]; exact hy)
      rw [hout] at h2; cases h2
    rw [if_neg hi]
    have hwk' : (if i.node = n then x'.wk.getD (Wk.State.new (cfg n).numWorkers (cfg n).numHandlers) else s.wkOf cfg i.node) = s.wkOf cfg i.node := by
      by_cases hin : i.node = n
      · rw [if_pos hin, hin, wkOf_at hn, hwk]
      · rw [if_neg hin]
    rw [hwk']
    by_cases ho : o = ⟨n, j⟩
    · subst ho
      rw [if_pos rfl, cl_here hn hy]
      exact ⟨[.a (.send ⟨0, data⟩)], by simp [runs, Link.step, Link.stepA, hstep]⟩
    · rw [if_neg ho]; exact .refl _

end

end Net
end Noise
