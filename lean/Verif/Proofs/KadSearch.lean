import Verif.Spec.KadSearch
import Verif.Proofs.NetAsk
import Verif.Proofs.SearchLive
import Verif.Props.KadServe
import Verif.Props.Iterator
/-! # Searches in a network of nodes with kademlia -/
namespace Noise.KWire
open Spec
variable {ε : Type}

/-- A step of this search. -/
def Own (n f : Nat) (a : Action ε) : Prop := (∃ b, a = .it n f b) ∨ (∃ i j, a = .ask n f i j) ∨ ∃ i j who, a = .answer n f i j who

/-- What a step does to a search. -/
def Moves (S : Sorter) (c : Cfg ε) (n f : Nat) (a : Action ε) (x x' : Node.State ε) (q q' : Find) : Prop :=
  (q' = q ∧ ¬ Own n f a) ∨
  (q'.cfg = q.cfg ∧ q'.peers = q.peers ∧
    ((∃ b, a = .it n f b ∧ Iter.step S q.cfg q.it b = some q'.it ∧ q'.asks = q.asks ∧ ∀ i j who r, b ≠ .lookup i (.answer j who r)) ∨
     (∃ (i j : Nat) (id : ID), a = .ask n f i j ∧ Iter.step S q.cfg q.it (.lookup i (.worker j)) = some q'.it ∧ q'.asks = q.asks ++ [⟨i, j, x.calls.length⟩] ∧
       x'.calls = x.calls ++ [⟨.request (Search.encode c.ops.request id.id), id.address, (c.node n).attempts, .get, false⟩]) ∨
     (∃ i j who b k res, a = .answer n f i j who ∧ q.asks.find? (fun a => a.lookup = i ∧ a.worker = j) = some b ∧ x.calls[b.call]? = some k ∧ k.pc = .returned res ∧
       Iter.step S q.cfg q.it (.lookup i (.answer j who (Search.outcome c.ops.response res))) = some q'.it ∧ q'.asks = q.asks.filter (fun b => ¬ (b.lookup = i ∧ b.worker = j)))))

theorem find_step {S : Sorter} {c : Cfg ε} {s s' : State ε} {a : Action ε} (hs : step S c s a = some s') {n f : Nat} {x : Node.State ε} {p : Part} {q : Find} (hx : s.net.nodes[n]? = some x) (hp : s.parts[n]? = some p) (hq : p.finds[f]? = some q) :
    ∃ x' p' q', s'.net.nodes[n]? = some x' ∧ s'.parts[n]? = some p' ∧ p'.finds[f]? = some q' ∧ Moves S c n f a x x' q q' := by
  have hx' : ∃ x', s'.net.nodes[n]? = some x' := by
    have hl : s'.net.nodes.length = s.net.nodes.length := by
      rcases step_net hs with h | ⟨b, h⟩
      · rw [h]
      · exact Net.step_len h
    exact ⟨_, List.getElem?_eq_getElem (by rw [hl]; exact (List.getElem?_eq_some_iff.1 hx).1)⟩
  obtain ⟨x', hx'⟩ := hx'
  refine ⟨x', ?_⟩
  suffices h : ∃ p' q', s'.parts[n]? = some p' ∧ p'.finds[f]? = some q' ∧ Moves S c n f a x x' q q' by
    obtain ⟨p', q', h1, h2, h3⟩ := h
    exact ⟨p', q', hx', h1, h2, h3⟩
  have go : ∀ {s1 : State ε} {b : Net.Action ε} {p1 : Part}, s1.go c b = some s' → s1.parts[n]? = some p1 → ∃ p', s'.parts[n]? = some p' ∧ p'.finds = p1.finds := by
    intro s1 b p1 h1 h2
    rw [(go_some h1).2, List.getElem?_mapIdx, h2]
    refine ⟨_, rfl, ?_⟩
    simp only [called]
    split <;> rfl
  have set : ∀ {m : Nat} {p1 p2 : Part}, s.parts[m]? = some p1 → (m = n → p2.finds[f]? = some q) → ∃ p', (s.parts.set m p2)[n]? = some p' ∧ p'.finds[f]? = some q := by
    intro m p1 p2 h1 h2
    by_cases hm : m = n
    · subst hm
      exact ⟨p2, List.getElem?_set_self (List.getElem?_eq_some_iff.1 hp).1, h2 rfl⟩
    · exact ⟨p, by rw [List.getElem?_set_ne hm]; exact hp, hq⟩
  have same : ∀ {m : Nat} {p1 p2 : Part}, s.parts[m]? = some p1 → p2.finds = p1.finds → ∃ p', (s.parts.set m p2)[n]? = some p' ∧ p'.finds[f]? = some q := by
    intro m p1 p2 h1 h2
    refine set h1 fun hm => ?_
    subst hm
    rw [hp] at h1; cases h1
    rw [h2]; exact hq
  have flt := (List.getElem?_eq_some_iff.1 hq).1
  -- a step of a search of this node
  have find : ∀ {m g : Nat} {x0 : Node.State ε} {p0 : Part} {q0 q1 : Find} {act : Search.Action ε}, s.net.nodes[m]? = some x0 → s.parts[m]? = some p0 → p0.finds[g]? = some q0 → q0.step S c m x0 act = some q1 → (¬ (m = n ∧ g = f) → ¬ Own n f a) →
      (m = n → g = f → (∃ b, act = .it b ∧ a = .it n f b) ∨ ∃ i j who, act = .reply i j who ∧ a = .answer n f i j who) → ∃ p' q', (s.parts.set m { p0 with finds := p0.finds.set g q1 })[n]? = some p' ∧ p'.finds[f]? = some q' ∧ Moves S c n f a x x' q q' := by
    intro m g x0 p0 q0 q1 act h1 h2 h3 h4 h5 h6
    by_cases hmg : m = n ∧ g = f
    · obtain ⟨rfl, rfl⟩ := hmg
      rw [hp] at h2; cases h2
      rw [hx] at h1; cases h1
      rw [hq] at h3; cases h3
      refine ⟨_, q1, List.getElem?_set_self (List.getElem?_eq_some_iff.1 hp).1, List.getElem?_set_self flt, .inr ?_⟩
      obtain ⟨y, h7, rfl⟩ := Option.map_eq_some_iff.1 h4
      refine ⟨rfl, rfl, ?_⟩
      rcases h6 rfl rfl with ⟨b, rfl, rfl⟩ | ⟨i, j, who, rfl, rfl⟩
      · rcases Search.step_cases h7 with ⟨b', hb, -⟩ | ⟨b', hb, k1, k2, k3, k4, -⟩ | ⟨i, j, id, hb, -⟩ | ⟨i, j, who, b', k, r, hb, -⟩
        · cases hb
        · cases hb
          exact .inl ⟨b, rfl, k1, k3, k4⟩
        · cases hb
        · cases hb
      · rcases Search.step_cases h7 with ⟨b', hb, -⟩ | ⟨b', hb, -⟩ | ⟨i, j, id, hb, -⟩ | ⟨i, j, who, b', k, r, hb, k1, k2, k3, k4, k5, k6⟩
        · cases hb
        · cases hb
        · cases hb
        · cases hb
          exact .inr (.inr ⟨_, _, _, b', k, r, rfl, k1, k2, k3, k4, k6⟩)
    · obtain ⟨p', g1, g2⟩ := set (p2 := { p0 with finds := p0.finds.set g q1 }) h2 (fun hm => by
        subst hm
        rw [hp] at h2; cases h2
        show (p.finds.set g q1)[f]? = some q
        rw [List.getElem?_set_ne (fun h => hmg ⟨rfl, h⟩)]; exact hq)
      exact ⟨p', q, g1, g2, .inl ⟨rfl, h5 hmg⟩⟩
  cases a with
  | net b =>
    simp only [step] at hs
    split at hs
    · cases hs
    obtain ⟨p', h1, h2⟩ := go hs hp
    exact ⟨p', q, h1, by rw [h2]; exact hq, .inl ⟨rfl, by simp [Own]⟩⟩
  | leave m w r =>
    simp only [step] at hs
    (repeat' split at hs) <;> first | (cases hs; done) | (obtain ⟨p', h1, h2⟩ := go hs hp; exact ⟨p', q, h1, by rw [h2]; exact hq, .inl ⟨rfl, by simp [Own]⟩⟩)
  | kad m b =>
    obtain ⟨x0, p0, p1, hx0, hp0, hf, rfl⟩ := with_some hs
    obtain ⟨k, hk, rfl⟩ := Option.map_eq_some_iff.1 hf
    obtain ⟨p', h1, h2⟩ := same hp0 (p2 := { p0 with kad := k, user := p0.user ++ given b }) rfl
    exact ⟨p', q, h1, h2, .inl ⟨rfl, by simp [Own]⟩⟩
  | handle m w =>
    obtain ⟨x0, p0, p1, hx0, hp0, hf, rfl⟩ := with_some hs
    have hr : p1.finds = p0.finds := by
      (repeat' split at hf) <;> first | (cases hf; done) | (obtain ⟨pc, h1, rfl⟩ := Option.map_eq_some_iff.1 hf; rfl)
    obtain ⟨p', h1, h2⟩ := same hp0 hr
    exact ⟨p', q, h1, h2, .inl ⟨rfl, by simp [Own]⟩⟩
  | find m target lookups requests max =>
    obtain ⟨x0, p0, p1, hx0, hp0, hf, rfl⟩ := with_some hs
    obtain ⟨g, hr⟩ : ∃ g, p1.finds = p0.finds ++ [g] := by
      (repeat' split at hf) <;> first | (cases hf; done) | (cases hf; exact ⟨_, rfl⟩)
    obtain ⟨p', h1, h2⟩ := set hp0 (p2 := p1) (fun hm => by
      subst hm
      rw [hp] at hp0; cases hp0
      rw [hr, List.getElem?_append_left flt]; exact hq)
    exact ⟨p', q, h1, h2, .inl ⟨rfl, by simp [Own]⟩⟩
  | reply m w =>
    simp only [step] at hs
    split at hs
    swap
    · cases hs
    rename_i x0 p0 hx0 hp0
    (repeat' split at hs) <;> first | (cases hs; done) | skip
    obtain ⟨p1, h1, h2⟩ := same hp0 (p2 := { p0 with runs := p0.runs.map fun r => if r.item = _ then ⟨_, .replied⟩ else r }) rfl
    obtain ⟨p', h3, h4⟩ := go hs h1
    exact ⟨p', q, h3, by rw [h4]; exact h2, .inl ⟨rfl, by simp [Own]⟩⟩
  | it m g b =>
    obtain ⟨x0, p0, p1, hx0, hp0, hf, rfl⟩ := with_some hs
    split at hf
    swap
    · cases hf
    rename_i q0 hq0
    obtain ⟨q1, h1, rfl⟩ := Option.map_eq_some_iff.1 hf
    refine find hx0 hp0 hq0 h1 (fun hn => ?_) (fun h2 h3 => ?_)
    · rintro (⟨b', h⟩ | ⟨i, j, h⟩ | ⟨i, j, who, h⟩) <;> cases h
      exact hn ⟨rfl, rfl⟩
    · subst h2; subst h3; exact .inl ⟨b, rfl, rfl⟩
  | answer m g i j who =>
    obtain ⟨x0, p0, p1, hx0, hp0, hf, rfl⟩ := with_some hs
    split at hf
    swap
    · cases hf
    rename_i q0 hq0
    obtain ⟨q1, h1, rfl⟩ := Option.map_eq_some_iff.1 hf
    refine find hx0 hp0 hq0 h1 (fun hn => ?_) (fun h2 h3 => ?_)
    · rintro (⟨b', h⟩ | ⟨i, j, h⟩ | ⟨i, j, who, h⟩) <;> cases h
      exact hn ⟨rfl, rfl⟩
    · subst h2; subst h3; exact .inr ⟨i, j, who, rfl, rfl⟩
  | ask m g i j =>
    simp only [step] at hs
    split at hs
    swap
    · cases hs
    rename_i x0 p0 hx0 hp0
    split at hs
    swap
    · cases hs
    rename_i q0 hq0
    split at hs
    swap
    · cases hs
    rename_i id hid
    split at hs
    swap
    · cases hs
    rename_i it hit
    by_cases hmg : m = n ∧ g = f
    · obtain ⟨rfl, rfl⟩ := hmg
      rw [hp] at hp0; cases hp0
      rw [hx] at hx0; cases hx0
      rw [hq] at hq0; cases hq0
      obtain ⟨p', h3, h4⟩ := go hs (List.getElem?_set_self (List.getElem?_eq_some_iff.1 hp).1)
      refine ⟨p', { q with it := it, asks := q.asks ++ [⟨i, j, x.calls.length⟩] }, h3, by rw [h4]; exact List.getElem?_set_self flt, .inr ⟨rfl, rfl, .inr (.inl ⟨i, j, id, rfl, hit, rfl, ?_⟩)⟩⟩
      have h1 := (go_some hs).1
      simp only [Net.step, hx] at h1
      obtain ⟨x1, h5, h6⟩ := Option.map_eq_some_iff.1 h1
      rw [← h6, Net.State.setNode, List.getElem?_set_self (List.getElem?_eq_some_iff.1 hx).1] at hx'
      cases hx'
      unfold Node.step at h5
      split at h5
      · cases h5
      · simp only [Option.some.injEq] at h5
        rw [← h5]
    · obtain ⟨p1, g1, g2⟩ := set (p2 := { p0 with finds := p0.finds.set g { q0 with it := it, asks := q0.asks ++ [⟨i, j, x0.calls.length⟩] } }) hp0 (fun hm => by
        subst hm
        rw [hp] at hp0; cases hp0
        show (p.finds.set g _)[f]? = some q
        rw [List.getElem?_set_ne (fun h => hmg ⟨rfl, h⟩)]; exact hq)
      obtain ⟨p', h3, h4⟩ := go hs g1
      refine ⟨p', q, h3, by rw [h4]; exact g2, .inl ⟨rfl, ?_⟩⟩
      rintro (⟨b', h⟩ | ⟨i, j, h⟩ | ⟨i, j, who, h⟩) <;> cases h
      exact hmg ⟨rfl, rfl⟩

section
variable {S : Sorter} {c : Cfg ε} {N : Nat} {σ : Nat → State ε} {α : Nat → Option (Action ε)}

theorem searches_at (hx : Execution (step S c) σ α) (h0 : Start c N (σ 0)) (t : Nat) : Searches S c (σ t) := by
  induction t with
  | zero =>
    obtain ⟨ts, h1, h2, h3⟩ := h0
    intro n x p f _ hp hf
    rw [h3, List.getElem?_map] at hp
    obtain ⟨tb, -, rfl⟩ := Option.map_eq_some_iff.1 hp
    cases hf
  | succ t ih =>
    rcases hx t with ⟨-, e⟩ | ⟨a, -, hs⟩
    · rw [e]; exact ih
    · exact ih.step (exec_reach hx h0 t) (fun n p hp => table_reach (exec_reach hx h0 t) hp) hs

theorem node_of (hx : Execution (step S c) σ α) (h0 : Start c N (σ 0)) {n t : Nat} {p : Part} (hp : (σ t).parts[n]? = some p) (t' : Nat) : ∃ x, (σ t').net.nodes[n]? = some x := by
  refine ⟨_, List.getElem?_eq_getElem ?_⟩
  rw [reach_len (exec_reach hx h0 t'), ← (net_reach (exec_reach hx h0 t)).2]
  exact (List.getElem?_eq_some_iff.1 hp).1

theorem find_eq {n f t : Nat} {q q' : Find} (h : FindAt σ n f t q) (h' : FindAt σ n f t q') : q = q' := by
  obtain ⟨p, h1, h2⟩ := h
  obtain ⟨p', h3, h4⟩ := h'
  rw [h1] at h3; cases h3
  rw [h2] at h4; cases h4
  rfl

/-- What a moment does to a search. -/
theorem find_next (hx : Execution (step S c) σ α) (h0 : Start c N (σ 0)) {n f t : Nat} {q : Find} (hq : FindAt σ n f t q) :
    ∃ q', FindAt σ n f (t + 1) q' ∧ ((q' = q ∧ ∀ a, α t = some a → ¬ Own n f a) ∨ ∃ a x x', α t = some a ∧ (σ t).net.nodes[n]? = some x ∧ (σ (t + 1)).net.nodes[n]? = some x' ∧ Moves S c n f a x x' q q') := by
  obtain ⟨p, hp, hq⟩ := hq
  obtain ⟨x, hxn⟩ := node_of hx h0 hp t
  rcases hx t with ⟨ha, e⟩ | ⟨a, ha, hs⟩
  · exact ⟨q, ⟨p, by rw [e]; exact hp, hq⟩, .inl ⟨rfl, fun a h => by rw [ha] at h; cases h⟩⟩
  · obtain ⟨x', p', q', h1, h2, h3, h4⟩ := find_step hs hxn hp hq
    exact ⟨q', ⟨p', h2, h3⟩, .inr ⟨a, x, x', ha, hxn, h1, h4⟩⟩

theorem Moves.iter {n f : Nat} {a : Action ε} {x x' : Node.State ε} {q q' : Find} (h : Moves S c n f a x x' q q') :
    q'.cfg = q.cfg ∧ q'.peers = q.peers ∧ ((q' = q ∧ ¬ Own n f a) ∨ ∃ b, Iter.step S q.cfg q.it b = some q'.it) := by
  rcases h with ⟨rfl, h⟩ | ⟨h1, h2, ⟨b, -, h3, -⟩ | ⟨i, j, id, -, h3, -⟩ | ⟨i, j, who, b, k, res, -, -, -, -, h3, -⟩⟩
  · exact ⟨rfl, rfl, .inl ⟨rfl, h⟩⟩
  · exact ⟨h1, h2, .inr ⟨_, h3⟩⟩
  · exact ⟨h1, h2, .inr ⟨_, h3⟩⟩
  · exact ⟨h1, h2, .inr ⟨_, h3⟩⟩

/-- The steps of a search from one time to another. -/
theorem find_later (hx : Execution (step S c) σ α) (h0 : Start c N (σ 0)) {n f t t' : Nat} {q : Find} (hle : t ≤ t') (hq : FindAt σ n f t q) :
    ∃ q', FindAt σ n f t' q' ∧ q'.cfg = q.cfg ∧ q'.peers = q.peers ∧ ∃ as, runs (Iter.step S q.cfg) q.it as = some q'.it := by
  induction hle with
  | refl => exact ⟨q, hq, rfl, rfl, [], rfl⟩
  | step _ ih =>
    obtain ⟨q1, h1, h2, h3, as, h4⟩ := ih
    obtain ⟨q2, g1, ⟨rfl, -⟩ | ⟨a, x, x', -, -, -, g2⟩⟩ := find_next hx h0 h1
    · exact ⟨_, g1, h2, h3, as, h4⟩
    · obtain ⟨g3, g4, ⟨rfl, -⟩ | ⟨b, g5⟩⟩ := g2.iter
      · exact ⟨_, g1, h2, h3, as, h4⟩
      · rw [h2] at g5
        exact ⟨q2, g1, g3.trans h2, g4.trans h3, as ++ [b], runs_trans h4 (runs_one g5)⟩

/-- From some time on a search does nothing. -/
theorem find_settles (hx : Execution (step S c) σ α) (h0 : Start c N (σ 0)) {n f t : Nat} {q : Find} (hq : FindAt σ n f t q) :
    ∃ T q, t ≤ T ∧ ∀ t', T ≤ t' → FindAt σ n f t' q ∧ ∀ a, α t' = some a → ¬ Own n f a := by
  obtain ⟨U, hU⟩ := Search.all_keys
  have main : ∀ m t q, FindAt σ n f t q → Iter.gMeasure U q.it = m → ∃ T q, t ≤ T ∧ ∀ t', T ≤ t' → FindAt σ n f t' q ∧ ∀ a, α t' = some a → ¬ Own n f a := by
    intro m
    induction m using Nat.strongRecOn with
    | _ m ih =>
      intro t q hq hm
      by_cases hd : ∃ t1 q1, t ≤ t1 ∧ FindAt σ n f t1 q1 ∧ Iter.gMeasure U q1.it < m
      · obtain ⟨t1, q1, h1, h2, h3⟩ := hd
        obtain ⟨T, q2, h4, h5⟩ := ih _ h3 t1 q1 h2 rfl
        exact ⟨T, q2, by omega, h5⟩
      · have one : ∀ t', t ≤ t' → FindAt σ n f t' q → FindAt σ n f (t' + 1) q ∧ ∀ a, α t' = some a → ¬ Own n f a := by
          intro t' hle hq'
          obtain ⟨q2, g1, ⟨rfl, g2⟩ | ⟨a, x, x', ha, hxn, -, g2⟩⟩ := find_next hx h0 hq'
          · exact ⟨g1, g2⟩
          · obtain ⟨g3, g4, ⟨rfl, g5⟩ | ⟨b, g5⟩⟩ := g2.iter
            · exact ⟨g1, fun a' h => by rw [ha] at h; cases h; exact g5⟩
            · exfalso
              obtain ⟨p, hp, hf⟩ := hq'
              have hi := searches_at hx h0 t' n x p q hxn hp (List.mem_of_getElem? hf)
              have : Iter.gMeasure U q2.it + 1 ≤ Iter.gMeasure U q.it := Iter.gMeasure_step U hi.it (fun _ _ _ _ e _ => hU e.id) g5
              exact hd ⟨t' + 1, q2, by omega, g1, by omega⟩
        have all : ∀ t', t ≤ t' → FindAt σ n f t' q := by
          intro t' hle
          induction hle with
          | refl => exact hq
          | step hle ih => exact (one _ hle ih).1
        exact ⟨t, q, Nat.le_refl _, fun t' hle => ⟨all t' hle, (one t' hle (all t' hle)).2⟩⟩
  exact main _ t q hq rfl

/-- A search whose requests return returns. -/
theorem find_returns [Nonempty ε] (r : FairRun S c N σ α) {n f : Nat} (hw : Searching S c σ α n f) (hcr : ∀ t x, (σ t).net.nodes[n]? = some x → x.crashed = false) {t : Nat} {q : Find} (hq : FindAt σ n f t q)
    (hcalls : ∀ t' q a, t ≤ t' → FindAt σ n f t' q → a ∈ q.asks → ∃ t1 d res, Net.CallAt (fun t => (σ t).net) n a.call t1 d ∧ d.pc = .returned res) :
    ∃ t' q', t ≤ t' ∧ FindAt σ n f t' q' ∧ q'.it.returned ≠ none := by
  obtain ⟨T, qT, hle, hT⟩ := find_settles r.exec r.init hq
  refine ⟨T, qT, hle, (hT T (Nat.le_refl _)).1, fun hnone => ?_⟩
  have still : ∀ C : Action ε → Prop, (∀ a, C a → Own n f a) → ∀ T', T ≤ T' → WeaklyFair σ α (Able (step S c) C) C → (∀ t, T' ≤ t → Able (step S c) C (σ t)) → False := by
    intro C hC T' hle hf hab
    obtain ⟨t, ht, ⟨a, h1, h2⟩ | h⟩ := hf T'
    · exact (hT t (by omega)).2 a h1 (hC a h2)
    · exact h (hab t ht)
  have hworks : ∀ i j (a : Action ε), WorksAt n f i j a → Own n f a := by
    rintro i j a (h | h | ⟨who, h⟩)
    · exact .inl ⟨_, h⟩
    · exact .inr (.inl ⟨_, _, h⟩)
    · exact .inr (.inr ⟨_, _, _, h⟩)
  -- what the search can do
  have own : ∀ (t : Nat) (x : Node.State ε) (p : Part), (σ t).net.nodes[n]? = some x → (σ t).parts[n]? = some p → p.finds[f]? = some qT → ∀ b q', qT.step S c n x (.it b) = some q' → Able (step S c) (· = .it n f b) (σ t) := by
    intro t x p hx hp hf b q' hb
    refine ⟨_, rfl, ?_⟩
    simp [step, State.with, hx, hp, hcr t x hx, r.alive t p (List.mem_of_getElem? hp), hf, hb]
  have at' : ∀ t, T ≤ t → ∃ x p, (σ t).net.nodes[n]? = some x ∧ (σ t).parts[n]? = some p ∧ p.finds[f]? = some qT := by
    intro t ht
    obtain ⟨p, hp, hf⟩ := (hT t ht).1
    obtain ⟨x, hx⟩ := node_of r.exec r.init hp t
    exact ⟨x, p, hx, hp, hf⟩
  obtain ⟨xT, pT, hxT, hpT, hfT⟩ := at' T (Nat.le_refl _)
  have hi := searches_at r.exec r.init T n xT pT qT hxT hpT (List.mem_of_getElem? hfT)
  rcases Search.progress hi.it hnone with ⟨a, s', hna, hs⟩ | ⟨i, j, id, hwk⟩
  · have hs : Iter.step S qT.cfg qT.it a = some s' := hs
    by_cases hwk : ∃ i j, a = .lookup i (.worker j)
    · obtain ⟨i, j, rfl⟩ := hwk
      refine still (WorksAt n f i j) (hworks i j) T (Nat.le_refl _) (hw.worker i j) fun t ht => ?_
      obtain ⟨x, p, hx, hp, hf⟩ := at' t ht
      cases hnx : Search.next qT.it i j with
      | none =>
        obtain ⟨a, h1, h2⟩ := own t x p hx hp hf (.lookup i (.worker j)) { qT with it := s' } (by
          simp only [Find.step, Search.step, hcr t x hx, Bool.false_eq_true, if_false, hnx, Option.isSome_none]
          rw [show Iter.step S (c.search n qT.cfg).it qT.it (.lookup i (.worker j)) = some s' from hs]
          rfl)
        exact ⟨a, .inl h1, h2⟩
      | some id =>
        refine ⟨.ask n f i j, .inr (.inl rfl), ?_⟩
        simp only [step, hx, hp, hf, hnx, hs]
        refine go_able (fun p' hp' => ?_) ?_
        · rcases List.mem_or_eq_of_mem_set hp' with hp' | rfl
          · exact r.alive t p' hp'
          · exact r.alive t p (List.mem_of_getElem? hp)
        · simp [Net.step, hx, Node.step, hcr t x hx]
    · refine still (· = .it n f a) (fun a' h => .inl ⟨a, h⟩) T (Nat.le_refl _) (hw.search a fun i j h => hwk ⟨i, j, h⟩) fun t ht => ?_
      obtain ⟨x, p, hx, hp, hf⟩ := at' t ht
      refine own t x p hx hp hf a { qT with it := s' } ?_
      simp only [Find.step, Search.step, hcr t x hx, Bool.false_eq_true, if_false]
      split
      · exact (hna _ _ _ _ rfl).elim
      · exact (hwk ⟨_, _, rfl⟩).elim
      · rw [show Iter.step S (c.search n qT.cfg).it qT.it a = some s' from hs]; rfl
  · obtain ⟨a0, ha0, e1, e2⟩ := hi.cover i j id hwk
    obtain ⟨a, ha⟩ : ∃ a, qT.asks.find? (fun a => a.lookup = i ∧ a.worker = j) = some a := by
      cases hf : qT.asks.find? (fun a => a.lookup = i ∧ a.worker = j) with
      | some a => exact ⟨a, rfl⟩
      | none => have := List.find?_eq_none.1 hf a0 ha0; simp [e1, e2] at this
    obtain ⟨t1, d, res, hd, hres⟩ := hcalls T qT a hle (hT T (Nat.le_refl _)).1 (List.mem_of_find?_eq_some ha)
    refine still (WorksAt n f i j) (hworks i j) (max T t1) (Nat.le_max_left _ _) (hw.worker i j) fun t ht => ?_
    obtain ⟨x, p, hx, hp, hf⟩ := at' t (by omega)
    obtain ⟨d', ⟨X, hX, hd'⟩, -, -, hres'⟩ := r.toNet.call_next (t' := t) (by omega) hd
    rw [hx] at hX; cases hX
    refine ⟨.answer n f i j zeroPublicKey, .inr (.inr ⟨_, rfl⟩), ?_⟩
    have : ∃ s', Iter.step S qT.cfg qT.it (.lookup i (.answer j zeroPublicKey (Search.outcome c.ops.response res))) = some s' := by
      unfold Search.wk at hwk
      split at hwk
      · next l hl => exact ⟨_, by simp only [Iter.step, hl, Iter.lookupStep, hwk]; rfl⟩
      · cases hwk
    obtain ⟨s', hs'⟩ := this
    have hs'' : Iter.step S (c.search n qT.cfg).it qT.it (.lookup i (.answer j zeroPublicKey (Search.outcome (c.search n qT.cfg).resOp res))) = some s' := hs'
    have hst : qT.step S c n x (.reply i j zeroPublicKey) = some { qT with it := s', asks := qT.asks.filter (fun b => ¬ (b.lookup = i ∧ b.worker = j)) } := by
      simp only [Find.step, Search.step, hcr t x hx, Bool.false_eq_true, if_false, ha, hd', hres' res hres, hs'', Option.map_some]
    simp [step, State.with, hx, hp, hcr t x hx, r.alive t p (List.mem_of_getElem? hp), hf, hst]

/-- Call `k` was made by this search between these times. -/
def Born (σ : Nat → State ε) (c : Cfg ε) (n f t0 t k : Nat) : Prop :=
  AskedBy σ n f k ∧ ∃ tk d, t0 < tk ∧ tk ≤ t ∧ Net.CallAt (fun t => (σ t).net) n k tk d ∧ d.pc = .get ∧ d.left = (c.node n).attempts

theorem Born.mono {n f t0 t t' k : Nat} (h : Born σ c n f t0 t k) (hle : t ≤ t') : Born σ c n f t0 t' k := by
  obtain ⟨h1, tk, d, h2, h3, h4⟩ := h
  exact ⟨h1, tk, d, h2, by omega, h4⟩

/-- The answers that a search has got are what its calls have returned. -/
theorem find_births [Nonempty ε] (r : FairRun S c N σ α) {n f t0 : Nat} {q0 : Find} (hq0 : FindAt σ n f t0 q0) (hno : q0.asks = []) (hrep : q0.it.shared.replies = []) {t : Nat} (hle : t0 ≤ t) : ∀ {q : Find}, FindAt σ n f t q →
    (∀ a ∈ q.asks, Born σ c n f t0 t a.call) ∧ ∀ rep ∈ q.it.shared.replies, ∃ k d res, Born σ c n f t0 t k ∧ Net.CallAt (fun t => (σ t).net) n k t d ∧ d.kind = .request (Search.encode c.ops.request rep.peer.id) ∧ d.addr = rep.peer.address ∧
      d.pc = .returned res ∧ rep.answer = Search.outcome c.ops.response res := by
  induction hle with
  | refl =>
    intro q hq
    rw [← find_eq hq0 hq, hno, hrep]
    exact ⟨(fun a h => by cases h), (fun a h => by cases h)⟩
  | @step t hle ih =>
    intro q' hq'
    obtain ⟨q, hq, -⟩ := find_later r.exec r.init hle hq0
    obtain ⟨h1, h2⟩ := ih hq
    have keep : ∀ rep ∈ q.it.shared.replies, ∃ k d res, Born σ c n f t0 (t + 1) k ∧ Net.CallAt (fun t => (σ t).net) n k (t + 1) d ∧ d.kind = .request (Search.encode c.ops.request rep.peer.id) ∧ d.addr = rep.peer.address ∧
        d.pc = .returned res ∧ rep.answer = Search.outcome c.ops.response res := by
      intro rep hr
      obtain ⟨k, d, res, g1, g2, g3, g4, g5, g6⟩ := h2 rep hr
      obtain ⟨d', f1, f2, f3, f4⟩ := r.toNet.call_next (Nat.le_succ t) g2
      exact ⟨k, d', res, g1.mono (Nat.le_succ _), f1, f2.trans g3, f3.trans g4, f4 res g5, g6⟩
    obtain ⟨q1, g1, g2⟩ := find_next r.exec r.init hq
    rw [find_eq hq' g1] at *
    clear hq' q'
    rcases g2 with ⟨rfl, -⟩ | ⟨a, x, x', ha, hx, hx', ⟨rfl, -⟩ | ⟨-, -, ⟨b, -, g3, g4, g5⟩ | ⟨i, j, id, -, g3, g4, g5⟩ | ⟨i, j, who, b, d, res, -, g3, g4, g5, g6, g7⟩⟩⟩
    · exact ⟨fun a hm => (h1 a hm).mono (Nat.le_succ _), keep⟩
    · exact ⟨fun a hm => (h1 a hm).mono (Nat.le_succ _), keep⟩
    · refine ⟨fun a hm => (h1 a (by rw [← g4]; exact hm)).mono (Nat.le_succ _), ?_⟩
      rw [(Search.iter_workers g3).2.2 g5]; exact keep
    · refine ⟨fun a hm => ?_, ?_⟩
      · rw [g4] at hm
        rcases List.mem_append.1 hm with hm | hm
        · exact (h1 a hm).mono (Nat.le_succ _)
        · rw [List.mem_singleton] at hm
          subst hm
          refine ⟨⟨t + 1, q1, _, g1, by rw [g4]; exact List.mem_append.2 (.inr (List.mem_singleton.2 rfl)), rfl⟩, t + 1, ⟨.request (Search.encode c.ops.request id.id), id.address, (c.node n).attempts, .get, false⟩,
            Nat.lt_succ_of_le hle, Nat.le_refl _, ⟨x', hx', ?_⟩, rfl, rfl⟩
          rw [g5]; simp
      · rw [(Search.iter_workers g3).2.2 (by simp)]; exact keep
    · refine ⟨fun a hm => ?_, ?_⟩
      · rw [g7] at hm
        exact (h1 a (List.mem_filter.1 hm).1).mono (Nat.le_succ _)
      · have hbm := List.mem_of_find?_eq_some g3
        have hbp := List.find?_some g3
        simp only [decide_eq_true_eq] at hbp
        obtain ⟨p, hp, hf⟩ := hq
        obtain ⟨id, k1, k0, k2, k3, k4⟩ := (searches_at r.exec r.init t n x p q hx hp (List.mem_of_getElem? hf)).asks b hbm
        rw [hbp.1, hbp.2] at k1
        have k2 : x.calls[b.call]? = some k0 := k2
        rw [g4] at k2; cases k2
        have hrep : q1.it.shared.replies = q.it.shared.replies ++ [⟨id, who, Search.outcome c.ops.response res⟩] := by
          unfold Search.wk at k1
          simp only [Iter.step] at g6
          split at g6
          swap
          · cases g6
          rename_i l hl
          have k1 : l.workers[j]? = some (.request id) := by simpa only [hl] using k1
          simp only [Iter.lookupStep, k1, Option.some.injEq] at g6
          rw [← g6]
        rw [hrep]
        intro rep hr
        rcases List.mem_append.1 hr with hr | hr
        · exact keep rep hr
        · rw [List.mem_singleton] at hr
          subst hr
          obtain ⟨d', f1, f2, f3, f4⟩ := r.toNet.call_next (Nat.le_succ t) (⟨x, hx, g4⟩ : Net.CallAt (fun t => (σ t).net) n b.call t d)
          exact ⟨b.call, d', res, (h1 b hbm).mono (Nat.le_succ _), f1, f2.trans k3, f3.trans k4, f4 res g5, rfl⟩

/-- How a search begins. -/
theorem find_begins (hx : Execution (step S c) σ α) (h0 : Start c N (σ 0)) {t n : Nat} {target : PublicKey} {lookups requests : Nat} {max : Int} (ha : α t = some (.find n target lookups requests max)) {p : Part} (hp : (σ t).parts[n]? = some p) :
    ∃ q, FindAt σ n p.finds.length (t + 1) q ∧ q.cfg = ⟨(c.id n).id, target, requests, max⟩ ∧ p.kad.table.peers S = .ok q.peers ∧ Starts S q.cfg lookups q.peers q.it ∧ q.asks = [] ∧ q.it.shared.replies = [] := by
  rcases hx t with ⟨h, -⟩ | ⟨a, h, hs⟩
  · rw [ha] at h; cases h
  rw [ha] at h; cases h
  obtain ⟨x0, p0, p1, hx0, hp0, hf, hs'⟩ := with_some hs
  rw [hp] at hp0; cases hp0
  split at hf
  swap
  · cases hf
  rename_i peers hpe
  split at hf
  swap
  · cases hf
  rename_i it hit
  cases hf
  refine ⟨⟨⟨(c.id n).id, target, requests, max⟩, peers, it, []⟩, ⟨{ p with finds := p.finds ++ [⟨⟨(c.id n).id, target, requests, max⟩, peers, it, []⟩] }, ?_, ?_⟩, rfl, hpe, ⟨c.id n, p.kad.table, table_reach (exec_reach hx h0 t) hp, rfl, hpe, hit⟩, rfl, ?_⟩
  · rw [hs']; exact List.getElem?_set_self (List.getElem?_eq_some_iff.1 hp).1
  · simp
  · unfold Iter.init at hit
    split at hit
    · cases hit
    injection hit with hit
    rw [← hit]

end
end Noise.KWire
