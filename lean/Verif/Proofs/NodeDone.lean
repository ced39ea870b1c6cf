import Verif.Spec.NodeClose
import Verif.Proofs.NodeTrace
/-! # The whole node: closing it completes -/
namespace Noise
variable {ε : Type}

theorem sum_zero {α : Type} (f : α → Nat) {l : List α} (h : ∀ (i : Nat) y, l[i]? = some y → f y = 0) : (l.map f).sum = 0 := by
  induction l with
  | nil => rfl
  | cons z l ih => simp [h 0 z rfl, ih fun i y hy => h (i + 1) y hy]

/-- Sums over lists that grow at the end. -/
theorem sum_mono {α : Type} (f g : α → Nat) {l l' : List α} (h : ∀ (i : Nat) y, l[i]? = some y → ∃ y', l'[i]? = some y' ∧ f y' ≤ g y) (hn : ∀ (i : Nat) y', l'[i]? = some y' → l.length ≤ i → f y' = 0) :
    (l'.map f).sum ≤ (l.map g).sum := by
  induction l generalizing l' with
  | nil => rw [sum_zero f fun i y hy => hn i y hy (Nat.zero_le _)]; exact Nat.zero_le _
  | cons z l ih =>
    obtain ⟨z', hz', hle⟩ := h 0 z rfl
    cases l' with
    | nil => cases hz'
    | cons w l' =>
      cases hz'
      have := ih (l' := l') (fun i y hy => h (i + 1) y hy) (fun i y hy hl => hn (i + 1) y hy (by simpa using hl))
      simp only [List.map_cons, List.sum_cons]
      omega

/-- The same, when one of the elements changes. -/
theorem sum_step {α : Type} (f g : α → Nat) {l l' : List α} {j a b : Nat} {x x' : α} (hx : l[j]? = some x) (hx' : l'[j]? = some x') (hj : f x' + a ≤ g x + b)
    (h : ∀ (i : Nat) y, i ≠ j → l[i]? = some y → ∃ y', l'[i]? = some y' ∧ f y' ≤ g y) (hn : ∀ (i : Nat) y', l'[i]? = some y' → l.length ≤ i → f y' = 0) : (l'.map f).sum + a ≤ (l.map g).sum + b := by
  induction l generalizing l' j with
  | nil => cases hx
  | cons z l ih =>
    cases l' with
    | nil => cases hx'
    | cons z' l' =>
      simp only [List.map_cons, List.sum_cons]
      cases j with
      | zero =>
        cases hx; cases hx'
        have := sum_mono f g (l := l) (l' := l') (fun i y hy => h (i + 1) y (by simp) hy) (fun i y hy hl => hn (i + 1) y hy (by simpa using hl))
        omega
      | succ j =>
        obtain ⟨w, hw, hle⟩ := h 0 z (by simp) rfl
        cases hw
        have := ih (l' := l') (j := j) hx hx' (fun i y hi hy => h (i + 1) y (by omega) hy) (fun i y hy hl => hn (i + 1) y hy (by simpa using hl))
        omega

namespace Node

/-- How much an action of a client reduces what is left to do. -/
def reduces (h : Nat) : Cl.Action ε → Nat
  | .main | .closeBegin | .closeConn | .readMsg _ | .readFail _ | .hsKey | .hsOK _ | .hsFail _ => 1
  | .deliver => 2 * h + 3
  | _ => 0

def adds (h : Nat) : Cl.Action ε → Nat
  | .arrive => 2 * h + 6
  | _ => 0

theorem once_step {c c' : Cl.State ε} {b : Cl.Action ε} (hs : Cl.step c b = some c') : onceLeft c'.once ≤ onceLeft c.once ∧ (b = .closeConn → onceLeft c'.once < onceLeft c.once) ∧ (b = .closeBegin → onceLeft c'.once < onceLeft c.once) := by
  cl_cases b hs
  all_goals grind [onceLeft, Cl.State.closeReady, Cl.State.closeReaderDone, Cl.State.closeWriterDone, Cl.State.closeClientDone, Cl.State.report, Cl.State.send, Cl.State.setCall]

def clLeft (h : Nat) (c : Cl.State ε) : Nat := match c.side with
  | .outbound => 0
  | .inbound => c.rbuf * (2 * h + 6) + mainLeft h c.main + onceLeft c.once

theorem rbuf_pred {n k : Nat} (h : 0 < n) : (n - 1) * k + k = n * k := by
  obtain ⟨m, rfl⟩ := Nat.exists_eq_succ_of_ne_zero (Nat.ne_of_gt h)
  simp [Nat.succ_mul]

theorem clLeft_step {h : Nat} {c c' : Cl.State ε} {b : Cl.Action ε} (hs : Cl.step c b = some c') (hi : c.side = .inbound) : clLeft h c' + reduces h b ≤ clLeft h c + adds h b := by
  have hi' : c'.side = .inbound := (Cl.side_step hs).trans hi
  simp only [clLeft, hi, hi']
  have hp : 0 < c.rbuf → (c.rbuf - 1) * (2 * h + 6) + (2 * h + 6) = c.rbuf * (2 * h + 6) := rbuf_pred
  have hq : (c.rbuf + 1) * (2 * h + 6) = c.rbuf * (2 * h + 6) + (2 * h + 6) := Nat.succ_mul _ _
  cl_cases b hs
  all_goals grind [onceLeft, mainLeft, reduces, adds, Cl.State.closeReady, Cl.State.closeReaderDone, Cl.State.closeWriterDone, Cl.State.closeClientDone, Cl.State.report, Cl.State.send, Cl.State.setCall]

theorem connLeft_eq (h : Nat) (x : Conn ε) : connLeft h x = clLeft h x.c := rfl

theorem clLeft_out {h : Nat} {c : Cl.State ε} (hs : c.side = .outbound) : clLeft h c = 0 := by simp [clLeft, hs]

theorem adds_byNode {h : Nat} {b : Cl.Action ε} (hb : byNode b = true) : adds h b = 0 := by cases b <;> simp_all [byNode, adds]

theorem clLeft_le {h : Nat} {c c' : Cl.State ε} {b : Cl.Action ε} (hs : Cl.step c b = some c') (hb : adds h b = 0) : clLeft h c' ≤ clLeft h c := by
  cases hd : c.side with
  | inbound => have := clLeft_step (h := h) hs hd; omega
  | outbound => rw [clLeft_out ((Cl.side_step hs).trans hd)]; exact Nat.zero_le _

theorem clLeft_run {h : Nat} {c c' : Cl.State ε} {as : List (Cl.Action ε)} (hb : ∀ b ∈ as, byNode b = true) (hs : Cl.run c as = some c') : clLeft h c' ≤ clLeft h c :=
  Cl.run_inv' (P := fun d => clLeft h d ≤ clLeft h c) (Q := fun b => byNode b = true) (fun _ _ _ hd hb hs => Nat.le_trans (clLeft_le hs (adds_byNode hb)) hd) hb hs (Nat.le_refl _)

theorem once_run {c c' : Cl.State ε} {as : List (Cl.Action ε)} (hs : Cl.run c as = some c') : onceLeft c'.once ≤ onceLeft c.once :=
  Cl.run_inv (P := fun d => onceLeft d.once ≤ onceLeft c.once) (fun _ _ _ hd hs => Nat.le_trans (once_step hs).1 hd) hs (Nat.le_refl _)

theorem over_serving {s : State ε} (h : s.over) : s.accept.serving = false := by
  unfold State.over at h
  split at h <;> simp_all [Accept.serving]

/-- Inbound connections are not added any more. -/
theorem new_conns {cfg : Cfg ε} {s s' : State ε} {a : Action ε} (ho : s.over) (h : step cfg s a = some s') (i : Nat) (y : Conn ε) (hy : s'.conns[i]? = some y) (hl : s.conns.length ≤ i) :
    y.c = Cl.State.new .outbound := by
  have hno : ∀ (s' : State ε), s'.conns.length = s.conns.length → s'.conns[i]? = some y → y.c = Cl.State.new .outbound := fun s' h1 h2 => by
    have := (List.getElem?_eq_some_iff.1 h2).1; omega
  have hpush : ∀ (d : Cl.Side) (a : Text), (d = .inbound → s.accept.serving = true) → s'.conns = s.conns ++ [⟨a, Cl.State.new d, false⟩] → y.c = Cl.State.new .outbound := by
    intro d a hd hc
    rw [hc, List.getElem?_append_right hl] at hy
    have : y = ⟨a, Cl.State.new d, false⟩ := by
      have := List.mem_of_getElem? hy; simpa using this
    subst this
    cases d with
    | outbound => rfl
    | inbound => have := hd rfl; rw [over_serving ho] at this; cases this
  rcases step_eff h with h | rfl
  swap
  · exact hno _ rfl hy
  cases h with
  | quiet hp hm he hr => exact hno _ hm.len hy
  | found d e hl hf hp hc he hr => exact hno _ (by rw [hc]) hy
  | added d a hl hf hn hp hc he hd hr hw hacc => exact hpush d a hd hc
  | evict t e hl hn hg hp hm he0 he heo hd hr hw => exact hno _ hm.len hy
  | evicted t v a he0 hd hp hc he heo hs hr => exact hpush t.side a hs hc
  | removed j x hx hrm hl hp hlen hc he hr => exact hno _ hlen hy
  | released l hl hperm ha hb hp hm he => exact hno _ hm.len hy

/-- The pool does not grow any more. -/
theorem entries_le {cfg : Cfg ε} {s s' : State ε} {a : Action ε} (ho : s.over) (h : step cfg s a = some s') : (s'.pool .inbound).entries.length ≤ (s.pool .inbound).entries.length := by
  rcases step_eff h with h | rfl
  swap
  · exact Nat.le_refl _
  cases h with
  | quiet hp hm he hr => rw [hp]; exact Nat.le_refl _
  | found d e hl hf hp hc he hr =>
    rw [hp]
    cases d with
    | outbound => exact Nat.le_refl _
    | inbound =>
      have hm := List.mem_of_find?_eq_some hf
      have : ((s.pool .inbound).entries.filter (fun q => q.1 ≠ e.1)).length < (s.pool .inbound).entries.length := by
        rw [List.length_filter_lt_length_iff_exists]
        exact ⟨e, hm, by simp⟩
      simp only [if_true, List.length_cons]
      exact this
  | added d a hl hf hn hp hc he hd hr hw hacc =>
    rw [hp]
    cases d with
    | outbound => exact Nat.le_refl _
    | inbound => have := hd rfl; rw [over_serving ho] at this; cases this
  | evict t e hl hn hg hp hm he0 he heo hd hr hw =>
    rw [hp]
    cases t with
    | call k => exact Nat.le_refl _
    | accept => have := hd rfl; rw [over_serving ho] at this; cases this
  | evicted t v a he0 hd hp hc he heo hs hr =>
    rw [hp]
    cases t with
    | call k => exact Nat.le_refl _
    | accept => have := hs rfl; rw [over_serving ho] at this; cases this
  | removed j x hx hrm hl hp hlen hc he hr =>
    rw [hp]
    cases hd : x.c.side with
    | outbound => exact Nat.le_refl _
    | inbound => simpa [hd] using List.length_filter_le _ _
  | released l hl hperm ha hb hp hm he => rw [hp]; simp

/-- What is left of `close()` does not grow. -/
theorem onceLeft_le {cfg : Cfg ε} {s s' : State ε} {a : Action ε} (ho : s.over) (h : step cfg s a = some s') (j : Nat) : s'.onceLeft j ≤ s.onceLeft j := by
  unfold State.onceLeft
  cases hx : s.conns[j]? with
  | none =>
    cases hx' : s'.conns[j]? with
    | none => exact Nat.le_refl _
    | some x' =>
      simp only
      rw [new_conns ho h j x' hx' (List.getElem?_eq_none_iff.1 hx)]; exact Nat.le_refl _
  | some x =>
    obtain ⟨x', as, h1, h2, -⟩ := step_trace h j x hx
    rw [h1]
    exact once_run h2

theorem workLeft_mono {h : Nat} {once once' : Nat → Nat} (hle : ∀ j, once' j ≤ once j) (wk : Option (Wk.State ε)) : workLeft h once' wk ≤ workLeft h once wk := by
  cases wk with
  | none => exact Nat.le_refl _
  | some w =>
    refine Nat.add_le_add_left (sum_mono _ _ (fun i y hy => ⟨y, hy, ?_⟩) (fun i y hy hl => ?_)) _
    · cases y with
      | closing k =>
        simp only [workerLeft]
        cases w.items[k]? with
        | none => exact Nat.le_refl _
        | some it => exact Nat.add_le_add_left (hle it.client) 1
      | _ => exact Nat.le_refl _
    · have := (List.getElem?_eq_some_iff.1 hy).1; omega

/-- A step that is not one of a client. -/
theorem conns_le {cfg : Cfg ε} {s s' : State ε} {a : Action ε} (hN : Nat) (ho : s.over) (h : step cfg s a = some s') (ha : ∀ j b, a ≠ .conn j b) : (s'.conns.map (connLeft hN)).sum ≤ (s.conns.map (connLeft hN)).sum := by
  refine sum_mono _ _ (fun i y hy => ?_) (fun i y hy hl => by rw [connLeft_eq, new_conns ho h i y hy hl]; exact clLeft_out rfl)
  obtain ⟨y', as, h1, h2, h3⟩ := step_trace h i y hy
  exact ⟨y', h1, clLeft_run (fun b hb => (h3 b hb).resolve_right (ha i b)) h2⟩

theorem State.onceLeft_two (s : State ε) (j : Nat) : s.onceLeft j ≤ 2 := by
  unfold State.onceLeft
  split
  · next x _ => cases x.c.once <;> simp [Node.onceLeft]
  · exact Nat.le_refl _

theorem workerLeft_items {h : Nat} {once : Nat → Nat} (h2 : ∀ j, once j ≤ 2) (l l' : List Wk.Item) (p : Wk.Pc ε) : workerLeft h once (l ++ l') p ≤ workerLeft h once l p := by
  cases p with
  | closing k =>
    simp only [workerLeft]
    by_cases hk : k < l.length
    · rw [List.getElem?_append_left hk]; exact Nat.le_refl _
    · rw [List.getElem?_eq_none_iff.2 (Nat.le_of_not_lt hk)]
      cases (l ++ l')[k]? with
      | none => exact Nat.le_refl _
      | some it => exact Nat.add_le_add_left (h2 _) 1
  | _ => exact Nat.le_refl _

theorem workers_set {h : Nat} {once : Nat → Nat} {w : Wk.State ε} {i a b : Nat} {p p' : Wk.Pc ε} (hp : w.workers[i]? = some p) (hle : workerLeft h once w.items p' + a ≤ workerLeft h once w.items p + b) :
    ((w.workers.set i p').map (workerLeft h once w.items)).sum + a ≤ (w.workers.map (workerLeft h once w.items)).sum + b :=
  sum_step _ _ hp (List.getElem?_set_self (List.getElem?_eq_some_iff.1 hp).1) hle (fun i y hi hy => ⟨y, by rw [List.getElem?_set_ne (Ne.symm hi)]; exact hy, Nat.le_refl _⟩)
    (fun i y hy hl => by have := (List.getElem?_eq_some_iff.1 hy).1; rw [List.length_set] at this; omega)

/-- How much a step of the workers adds. -/
def wkAdds (h : Nat) : Wk.Action ε → Nat
  | .enqueue _ => 2 * h + 2
  | _ => 0

def wkReduces : Wk.Action ε → Nat
  | .work _ | .handlerReturn _ _ => 1
  | _ => 0

theorem workLeft_step {h : Nat} {once : Nat → Nat} (h2 : ∀ j, once j ≤ 2) {w w' : Wk.State ε} {act : Wk.Action ε} (hN : w.numHandlers = h) (hs : Wk.step w act = some w') :
    workLeft h once (some w') + wkReduces act ≤ workLeft h once (some w) + wkAdds h act := by
  cases act with
  | enqueue it =>
    simp only [Wk.step] at hs
    split at hs
    · cases hs
    · split at hs
      · cases hs
        simp only [workLeft, wkReduces, wkAdds, List.length_append, List.length_singleton]
        have h1 : (w.workers.map (workerLeft h once (w.items ++ [it]))).sum ≤ (w.workers.map (workerLeft h once w.items)).sum :=
          sum_mono _ _ (fun i y hy => ⟨y, hy, workerLeft_items h2 _ _ y⟩) (fun i y hy hl => by have := (List.getElem?_eq_some_iff.1 hy).1; omega)
        have h3 : (w.items.length + 1 - w.head) * (2 * h + 2) ≤ (w.items.length - w.head + 1) * (2 * h + 2) := Nat.mul_le_mul_right _ (by omega)
        rw [Nat.succ_mul (w.items.length - w.head)] at h3
        omega
      · cases hs
  | closeQueue =>
    simp only [Wk.step] at hs
    split at hs
    · cases hs
    · cases hs; exact Nat.le_refl _
  | work i =>
    simp only [Wk.step] at hs
    cases hp : w.workers[i]? with
    | none => rw [hp] at hs; cases hs
    | some p =>
      rw [hp] at hs
      cases p with
      | idle =>
        simp only at hs
        split at hs
        · next hlt =>
          cases hs
          simp only [workLeft, wkReduces, wkAdds, Wk.State.setWorker]
          have := workers_set (h := h) (once := once) (a := 1) (b := 2 * h + 2) (p' := .next w.head 0) hp (by simp only [workerLeft]; omega)
          have h3 : (w.items.length - (w.head + 1) + 1) * (2 * h + 2) = (w.items.length - w.head) * (2 * h + 2) := by congr 1; omega
          rw [Nat.succ_mul (w.items.length - (w.head + 1))] at h3
          omega
        · split at hs
          · cases hs
            have := workers_set (h := h) (once := once) (a := 1) (b := 0) (p' := .ended false) hp (by simp [workerLeft])
            simp only [workLeft, wkReduces, wkAdds, Wk.State.setWorker]
            omega
          · cases hs
      | next k i' =>
        simp only at hs
        split at hs
        · next hlt =>
          cases hs
          have := workers_set (h := h) (once := once) (a := 1) (b := 0) (p' := .inside k i') hp (by simp only [workerLeft]; omega)
          simp only [workLeft, wkReduces, wkAdds, Wk.State.setWorker]
          omega
        · cases hs
          have := workers_set (h := h) (once := once) (a := 1) (b := 0) (p' := .idle) hp (by simp only [workerLeft]; omega)
          simp only [workLeft, wkReduces, wkAdds, Wk.State.setWorker]
          omega
      | inside k i' => cases hs
      | failing k e =>
        simp only at hs
        split at hs
        · next it hit =>
          cases hs
          have := workers_set (h := h) (once := once) (a := 1) (b := 0) (p' := .closing k) hp (by simp only [workerLeft, hit]; have := h2 it.client; omega)
          simp only [workLeft, wkReduces, wkAdds, Wk.State.setWorker]
          omega
        · cases hs
      | closing k =>
        simp only at hs
        split at hs
        · next it hit =>
          cases hs
          have := workers_set (h := h) (once := once) (a := 1) (b := 0) (p' := .ended true) hp (by simp only [workerLeft]; omega)
          simp only [workLeft, wkReduces, wkAdds, Wk.State.setWorker]
          omega
        · cases hs
      | ended b => cases hs
  | handlerReturn i r =>
    simp only [Wk.step] at hs
    cases hp : w.workers[i]? with
    | none => rw [hp] at hs; cases hs
    | some p =>
      rw [hp] at hs
      cases p with
      | inside k i' =>
        cases r with
        | none =>
          cases hs
          have := workers_set (h := h) (once := once) (a := 1) (b := 0) (p' := .next k (i' + 1)) hp (by simp only [workerLeft]; omega)
          simp only [workLeft, wkReduces, wkAdds, Wk.State.setWorker]
          omega
        | some e =>
          cases hs
          have := workers_set (h := h) (once := once) (a := 1) (b := 0) (p' := .failing k e) hp (by simp only [workerLeft]; omega)
          simp only [workLeft, wkReduces, wkAdds, Wk.State.setWorker]
          omega
      | _ => cases hs
  | send k i data =>
    simp only [Wk.step] at hs
    split at hs
    · split at hs
      · cases hs
        unfold Wk.State.ctxSend
        split
        · split <;> exact Nat.le_refl _
        · exact Nat.le_refl _
      · cases hs
    · cases hs

/-- If a worker is closing a client, then a step of closing it counts. -/
theorem workLeft_strict {h : Nat} {s : State ε} {once' : Nat → Nat} (hle : ∀ i, once' i ≤ s.onceLeft i) {j : Nat} (hj : once' j < s.onceLeft j) (hc : s.closes j = true) : workLeft h once' s.wk + 1 ≤ workLeft h s.onceLeft s.wk := by
  unfold State.closes at hc
  cases hw : s.wk with
  | none => rw [hw] at hc; cases hc
  | some w =>
    simp only [hw, List.any_eq_true] at hc
    obtain ⟨p, hp, hc⟩ := hc
    cases p with
    | closing k =>
      simp only at hc
      cases hit : w.items[k]? with
      | none => rw [hit] at hc; cases hc
      | some it =>
        rw [hit] at hc
        have hcj : it.client = j := by simpa using hc
        obtain ⟨i, hi⟩ := List.mem_iff_getElem?.1 hp
        have := sum_step (workerLeft h once' w.items) (workerLeft h s.onceLeft w.items) (a := 1) (b := 0) hi hi (by simp only [workerLeft, hit, hcj]; omega) (fun i y _ hy => ⟨y, hy, ?_⟩)
          (fun i y hy hl => by have := (List.getElem?_eq_some_iff.1 hy).1; omega)
        · simp only [workLeft]; omega
        · cases y with
          | closing k =>
            simp only [workerLeft]
            cases w.items[k]? with
            | none => exact Nat.le_refl _
            | some it => exact Nat.add_le_add_left (hle it.client) 1
          | _ => exact Nat.le_refl _
    | _ => cases hc

end Node
end Noise
