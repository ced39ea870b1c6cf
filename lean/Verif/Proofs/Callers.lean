import Verif.Model.Callers
import Verif.Proofs.Client
import Verif.Proofs.TS
/-! # Why calls fail and why connections are closed -/
set_option linter.unusedSimpArgs false
namespace Noise.Callers
open Cl
variable {ε : Type}

/-- The goroutine of the connection is past an error. -/
def pastErr : MainPc → Bool
  | .dialErr1 | .dialErr2 | .dialErr3 | .recvEnd | .closing _ | .disc | .remove | .done | .finished => true
  | _ => false

/-- Whoever is past an error has reported one, and only then closes the connection itself. -/
structure ErrInv (c : Cl.State ε) : Prop where
  err : pastErr c.main → c.err.isSome
  fresh : c.once = .fresh → c.writerClosed = false ∧ c.conn ≠ .closed

theorem ErrInv.new (side : Side) : ErrInv (Cl.State.new (ε := ε) side) := by
  constructor <;> simp [Cl.State.new, pastErr]

theorem ErrInv.step {s s' : Cl.State ε} {a : Cl.Action ε} (h : ErrInv s) (hs : Cl.step s a = some s') : ErrInv s' := by
  have ⟨h1, h2⟩ := h
  cl_cases a hs
  all_goals (constructor <;> grind [Cl.State.closeReady, Cl.State.closeReaderDone, Cl.State.closeWriterDone, Cl.State.closeClientDone, pastErr, Cl.State.report, Cl.State.send, Cl.State.setCall])

theorem err_step {s s' : Cl.State ε} {a : Cl.Action ε} (hs : Cl.step s a = some s') (e : ε) (he : s.err = some e) : s'.err = some e := by
  cl_cases a hs
  all_goals grind [Cl.State.closeReady, Cl.State.closeReaderDone, Cl.State.closeWriterDone, Cl.State.closeClientDone, Cl.State.report, Cl.State.send, Cl.State.setCall]

/-- An ordinary step of a connection begins closing it only after an error. -/
theorem once_step {s s' : Cl.State ε} {a : Cl.Action ε} (h : ErrInv s) (ho : ordinary s a = true) (hs : Cl.step s a = some s') : s'.once = .fresh ∨ s.once ≠ .fresh ∨ s'.err.isSome := by
  have ⟨h1, h2⟩ := h
  cl_cases a hs
  all_goals grind [Cl.State.closeReady, Cl.State.closeReaderDone, Cl.State.closeWriterDone, Cl.State.closeClientDone, pastErr, Cl.State.report, Cl.State.send, Cl.State.setCall, ordinary]

/-! ## The calls -/

/-- The error reported on connection `j`. -/
def errOf (conns : List (Conn ε)) (j : Nat) : Option ε := (conns[j]?).bind (·.c.err)

structure CallOK (max : Nat) (isCtx : ε → Bool) (conns : List (Conn ε)) (c : Call ε) : Prop where
  count : c.left + c.tried.length = max
  addr : ∀ j ∈ c.tried, ∃ x, conns[j]? = some x ∧ x.addr = c.addr
  bad : c.ended = false → ∀ j ∈ c.tried, (errOf conns j).isSome ∨ c.pc = .select j ∨ c.pc = .got j
  sel : ∀ j, c.pc = .select j ∨ c.pc = .got j → j ∈ c.tried
  why : ∀ j w, c.pc = .closing j w ∨ c.pc = .wait j w → j ∈ c.tried ∧ (w = .context → c.ended = true) ∧ ∀ e, w = .error e → errOf conns j = some e
  fail : c.pc = .failing ∨ c.pc = .failed → c.ended = true ∨ c.left = 0 ∨ ∃ j ∈ c.tried, ∃ e, errOf conns j = some e ∧ isCtx e = true

/-- Connections stay, with their addresses and errors. -/
def Le (l l' : List (Conn ε)) : Prop := ∀ (j : Nat) (x : Conn ε), l[j]? = some x → ∃ x' : Conn ε, l'[j]? = some x' ∧ x'.addr = x.addr ∧ ∀ e, x.c.err = some e → x'.c.err = some e

theorem Le.refl (l : List (Conn ε)) : Le l l := fun _ x h => ⟨x, h, rfl, fun _ h => h⟩

theorem Le.append (l : List (Conn ε)) (x : Conn ε) : Le l (l ++ [x]) := fun j y h =>
  ⟨y, by rw [List.getElem?_append_left (List.getElem?_eq_some_iff.1 h).1]; exact h, rfl, fun _ h => h⟩

theorem Le.set {l : List (Conn ε)} {j : Nat} {x y : Conn ε} (hj : l[j]? = some x) (ha : y.addr = x.addr) (he : ∀ e, x.c.err = some e → y.c.err = some e) : Le l (l.set j y) := by
  intro i z hz
  by_cases h : j = i
  · subst h
    rw [hj] at hz; injection hz with hz; subst hz
    exact ⟨y, by rw [List.getElem?_set_self (List.getElem?_eq_some_iff.1 hj).1], ha, he⟩
  · exact ⟨z, by rw [List.getElem?_set_ne h]; exact hz, rfl, fun _ h => h⟩

theorem Le.errOf {l l' : List (Conn ε)} (h : Le l l') {j : Nat} {e : ε} (he : errOf l j = some e) : errOf l' j = some e := by
  unfold Callers.errOf at he ⊢
  cases hx : l[j]? with
  | none => rw [hx] at he; cases he
  | some x =>
    rw [hx] at he
    obtain ⟨x', h1, _, h3⟩ := h j x hx
    rw [h1]; exact h3 e he

theorem CallOK.mono {max : Nat} {isCtx : ε → Bool} {l l' : List (Conn ε)} {c : Call ε} (h : CallOK max isCtx l c) (hl : Le l l') : CallOK max isCtx l' c where
  count := h.count
  addr := fun j hj => by
    obtain ⟨x, h1, h2⟩ := h.addr j hj
    obtain ⟨x', h3, h4, _⟩ := hl j x h1
    exact ⟨x', h3, h4.trans h2⟩
  bad := fun hc j hj => by
    rcases h.bad hc j hj with h | h
    · obtain ⟨e, he⟩ := Option.isSome_iff_exists.1 h
      exact .inl (Option.isSome_iff_exists.2 ⟨e, hl.errOf he⟩)
    · exact .inr h
  sel := h.sel
  why := fun j w hw => ⟨(h.why j w hw).1, (h.why j w hw).2.1, fun e he => hl.errOf ((h.why j w hw).2.2 e he)⟩
  fail := fun hp => by
    rcases h.fail hp with h | h | ⟨j, hj, e, he, hc⟩
    · exact .inl h
    · exact .inr (.inl h)
    · exact .inr (.inr ⟨j, hj, e, hl.errOf he, hc⟩)

structure Inv (max : Nat) (isCtx : ε → Bool) (s : State ε) : Prop where
  conn : ∀ x ∈ s.conns, ErrInv x.c
  pool : ∀ a j, s.pool a = some j → ∃ x, s.conns[j]? = some x ∧ x.addr = a
  calls : ∀ c ∈ s.calls, CallOK max isCtx s.conns c
  just : ∀ j x, s.conns[j]? = some x → x.c.once ≠ .fresh → x.byApp = true ∨ x.c.err.isSome ∨ ∃ c ∈ s.calls, c.ended = true ∧ j ∈ c.tried

variable {max : Nat} {isCtx : ε → Bool}

theorem Inv.new : Inv max isCtx (State.new (ε := ε)) :=
  ⟨fun _ h => (by cases h), fun _ _ h => (by cases h), fun _ h => (by cases h), fun _ _ h => (by simp [State.new] at h)⟩

/-- A call moves on. -/
theorem Inv.setCall {s : State ε} (h : Inv max isCtx s) {k : Nat} {c c' : Call ε} (hk : s.calls[k]? = some c) (hc : CallOK max isCtx s.conns c') (he : c.ended = true → c'.ended = true) (ht : ∀ j ∈ c.tried, j ∈ c'.tried) (log : List Text) :
    Inv max isCtx { s.setCall k c' with log := log } := by
  refine ⟨h.conn, h.pool, fun d hd => ?_, fun j x hj ho => ?_⟩
  · rcases List.mem_or_eq_of_mem_set hd with hd | rfl
    · exact h.calls d hd
    · exact hc
  · rcases h.just j x hj ho with h1 | h1 | ⟨d, hd, h1, h2⟩
    · exact .inl h1
    · exact .inr (.inl h1)
    · refine .inr (.inr ?_)
      by_cases hdc : d = c
      · subst hdc
        exact ⟨c', List.mem_set (List.getElem?_eq_some_iff.1 hk).1 _, he h1, ht j h2⟩
      · obtain ⟨i, hi⟩ := List.getElem?_of_mem hd
        have : k ≠ i := by rintro rfl; rw [hk] at hi; injection hi with hi; exact hdc hi.symm
        exact ⟨d, List.mem_of_getElem? (i := i) (by simp only [State.setCall]; rw [List.getElem?_set_ne this]; exact hi), h1, h2⟩

/-- A connection moves on. -/
theorem Inv.setConn {s : State ε} (h : Inv max isCtx s) {j : Nat} {x : Conn ε} (hj : s.conns[j]? = some x) (b : Bool) {act : Cl.Action ε} {d : Cl.State ε} (hs : Cl.step x.c act = some d) (pool : Text → Option Nat)
    (hp : ∀ a i, pool a = some i → s.pool a = some i) (hb : x.byApp = true → b = true)
    (ho : d.once ≠ .fresh → x.c.once ≠ .fresh ∨ d.err.isSome ∨ b = true ∨ ∃ c ∈ s.calls, c.ended = true ∧ j ∈ c.tried) :
    Inv max isCtx { s with conns := s.conns.set j { x with byApp := b, c := d }, pool := pool } := by
  have hle : Le s.conns (s.conns.set j { x with byApp := b, c := d }) := Le.set hj rfl (err_step hs)
  refine ⟨fun y hy => ?_, fun a i hi => ?_, fun c hc => (h.calls c hc).mono hle, fun i y hi hne => ?_⟩
  · rcases List.mem_or_eq_of_mem_set hy with hy | rfl
    · exact h.conn y hy
    · exact (h.conn x (List.mem_of_getElem? hj)).step hs
  · obtain ⟨y, h1, h2⟩ := h.pool a i (hp a i hi)
    obtain ⟨y', h3, h4, _⟩ := hle i y h1
    exact ⟨y', h3, h4.trans h2⟩
  · by_cases hij : j = i
    · subst hij
      simp only at hi
      rw [List.getElem?_set_self (List.getElem?_eq_some_iff.1 hj).1] at hi
      injection hi with hi; subst hi
      rcases ho hne with h1 | h1 | h1 | h1
      · rcases h.just _ x hj h1 with h2 | h2 | h2
        · exact .inl (hb h2)
        · obtain ⟨e, he⟩ := Option.isSome_iff_exists.1 h2
          exact .inr (.inl (Option.isSome_iff_exists.2 ⟨e, err_step hs e he⟩))
        · exact .inr (.inr h2)
      · exact .inr (.inl h1)
      · exact .inl h1
      · exact .inr (.inr h1)
    · simp only at hi
      rw [List.getElem?_set_ne hij] at hi
      exact h.just i y hi hne

theorem Inv.get {s : State ε} (h : Inv max isCtx s) (k : Nat) (addr : Text) : Inv max isCtx (s.get k addr).1 ∧ (s.get k addr).1.calls = s.calls ∧ ∃ x, (s.get k addr).1.conns[(s.get k addr).2]? = some x ∧ x.addr = addr := by
  unfold State.get
  cases hp : s.pool addr with
  | some j => exact ⟨h, rfl, h.pool addr j hp⟩
  | none =>
    have hle := Le.append s.conns ⟨addr, k, false, Cl.State.new .outbound⟩
    refine ⟨⟨fun y hy => ?_, fun a i hi => ?_, fun c hc => (h.calls c hc).mono hle, fun i y hi hne => ?_⟩, rfl, ⟨addr, k, false, Cl.State.new .outbound⟩, by simp, rfl⟩
    · rcases List.mem_append.1 hy with hy | hy
      · exact h.conn y hy
      · rw [List.mem_singleton.1 hy]; exact ErrInv.new _
    · simp only at hi
      split at hi
      · rename_i ha; injection hi with hi; subst hi; subst ha
        exact ⟨⟨a, k, false, Cl.State.new .outbound⟩, by simp, rfl⟩
      · obtain ⟨y, h1, h2⟩ := h.pool a i hi
        obtain ⟨y', h3, h4, _⟩ := hle i y h1
        exact ⟨y', h3, h4.trans h2⟩
    · simp only at hi
      by_cases hlt : i < s.conns.length
      · rw [List.getElem?_append_left hlt] at hi
        exact h.just i y hi hne
      · rw [List.getElem?_append_right (by omega)] at hi
        have : i - s.conns.length = 0 := by
          by_contra hc
          rw [List.getElem?_eq_none (by simp; omega)] at hi; cases hi
        rw [this] at hi; injection hi with hi; subst hi
        exact absurd rfl hne

theorem Inv.step {s s' : State ε} {a : Action ε} (h : Inv max isCtx s) (hs : Callers.step max isCtx s a = some s') : Inv max isCtx s' := by
  cases a with
  | call addr =>
    cases hs
    refine ⟨h.conn, h.pool, fun c hc => ?_, fun j x hj ho => ?_⟩
    · rcases List.mem_append.1 hc with hc | hc
      · exact h.calls c hc
      · rw [List.mem_singleton.1 hc]
        constructor <;> simp
    · rcases h.just j x hj ho with h1 | h1 | ⟨c, hc, h1⟩
      · exact .inl h1
      · exact .inr (.inl h1)
      · exact .inr (.inr ⟨c, List.mem_append_left _ hc, h1⟩)
  | expire k =>
    simp only [Callers.step] at hs
    cases hk : s.calls[k]? with
    | none => rw [hk] at hs; cases hs
    | some c =>
      rw [hk] at hs; cases hs
      have hc := h.calls c (List.mem_of_getElem? hk)
      refine h.setCall hk (c' := { c with ended := true }) ⟨hc.count, hc.addr, fun h => (by cases h), hc.sel, fun j w hw => ⟨(hc.why j w hw).1, fun _ => rfl, (hc.why j w hw).2.2⟩, fun _ => .inl rfl⟩ (fun _ => rfl) (fun _ h => h) s.log
  | step k =>
    simp only [Callers.step] at hs
    cases hk : s.calls[k]? with
    | none => rw [hk] at hs; cases hs
    | some c =>
      rw [hk] at hs
      simp only [State.callStep] at hs
      have hc := h.calls c (List.mem_of_getElem? hk)
      split at hs
      · rename_i hpc
        split at hs
        · rename_i hl
          cases hs
          refine h.setCall hk (c' := { c with pc := .failing }) ⟨hc.count, hc.addr, fun he j hj => ?_, fun j hj => (by rcases hj with hj | hj <;> cases hj), fun j w hw => (by rcases hw with hw | hw <;> cases hw), fun _ => .inr (.inl hl)⟩ id (fun _ h => h) s.log
          rcases hc.bad he j hj with h1 | h1 | h1
          · exact .inl h1
          · rw [hpc] at h1; cases h1
          · rw [hpc] at h1; cases h1
        · rename_i n hl
          cases hs
          obtain ⟨hg, hgc, x, hx, hxa⟩ := h.get k c.addr
          have hc' := hg.calls c (by rw [hgc]; exact List.mem_of_getElem? hk)
          refine hg.setCall (c := c) (by rw [hgc]; exact hk) (c' := { c with left := n, pc := .select (s.get k c.addr).2, tried := c.tried ++ [(s.get k c.addr).2] }) ⟨?_, fun j hj => ?_, fun he j hj => ?_, fun j hj => ?_, fun j w hw => (by rcases hw with hw | hw <;> cases hw), fun hf => (by rcases hf with hf | hf <;> cases hf)⟩ id (fun _ h => List.mem_append_left _ h) (s.get k c.addr).1.log
          · have := hc.count; simp only [List.length_append, List.length_cons, List.length_nil]; omega
          · rcases List.mem_append.1 hj with hj | hj
            · exact hc'.addr j hj
            · rw [List.mem_singleton.1 hj]; exact ⟨x, hx, hxa⟩
          · rcases List.mem_append.1 hj with hj | hj
            · rcases hc'.bad he j hj with h1 | h1 | h1
              · exact .inl h1
              · rw [hpc] at h1; cases h1
              · rw [hpc] at h1; cases h1
            · rw [List.mem_singleton.1 hj]; exact .inr (.inl rfl)
          · rcases hj with hj | hj
            · injection hj with hj; rw [← hj]; simp
            · cases hj
      · rename_i j w hpc
        split at hs
        · rename_i x hx
          split at hs
          · cases hd : Cl.step x.c .closeBegin with
            | none => rw [hd] at hs; cases hs
            | some d =>
              rw [hd] at hs; cases hs
              refine h.setConn hx x.byApp hd s.pool (fun _ _ h => h) id fun _ => ?_
              obtain ⟨h1, h2, h3⟩ := hc.why j w (.inl hpc)
              cases w with
              | context => exact .inr (.inr (.inr ⟨c, List.mem_of_getElem? hk, h2 rfl, h1⟩))
              | error e =>
                have he := h3 e rfl
                rw [errOf, hx] at he
                exact .inr (.inl (Option.isSome_iff_exists.2 ⟨e, err_step hd e he⟩))
          · cases hs
          · cases hs
            refine h.setCall hk (c' := { c with pc := .wait j w }) ⟨hc.count, hc.addr, fun he i hi => ?_, fun j hj => (by rcases hj with hj | hj <;> cases hj), fun i v hv => ?_, fun hf => (by rcases hf with hf | hf <;> cases hf)⟩ id (fun _ h => h) s.log
            · rcases hc.bad he i hi with h1 | h1 | h1
              · exact .inl h1
              · rw [hpc] at h1; cases h1
              · rw [hpc] at h1; cases h1
            · rcases hv with hv | hv <;> cases hv
              exact hc.why _ _ (.inl hpc)
        · cases hs
      · rename_i j w hpc
        split at hs
        · rename_i x hx
          split at hs
          · cases hs
            obtain ⟨h1, h2, h3⟩ := hc.why j w (.inr hpc)
            refine h.setCall hk (c' := { c with pc := if w.isCtx isCtx then .failing else .get }) ⟨hc.count, hc.addr, fun he i hi => ?_, fun j hj => (by rcases hj with hj | hj <;> (split at hj <;> cases hj)), fun i v hv => (by rcases hv with hv | hv <;> (split at hv <;> cases hv)), fun hf => ?_⟩ id (fun _ h => h) s.log
            · rcases hc.bad he i hi with h1 | h1 | h1
              · exact .inl h1
              · rw [hpc] at h1; cases h1
              · rw [hpc] at h1; cases h1
            · by_cases hw : w.isCtx isCtx = true
              · cases w with
                | context => exact .inl (h2 rfl)
                | error e => exact .inr (.inr ⟨j, h1, e, h3 e rfl, hw⟩)
              · simp only [if_neg hw] at hf
                rcases hf with hf | hf <;> cases hf
          · cases hs
        · cases hs
      · rename_i hpc
        cases hs
        refine h.setCall hk (c' := { c with pc := .failed }) ⟨hc.count, hc.addr, fun he i hi => ?_, fun j hj => (by rcases hj with hj | hj <;> cases hj), fun i v hv => (by rcases hv with hv | hv <;> cases hv), fun _ => hc.fail (.inl hpc)⟩ id (fun _ h => h) _
        rcases hc.bad he i hi with h1 | h1 | h1
        · exact .inl h1
        · rw [hpc] at h1; cases h1
        · rw [hpc] at h1; cases h1
      · cases hs
  | select k b =>
    simp only [Callers.step] at hs
    cases hk : s.calls[k]? with
    | none => rw [hk] at hs; cases hs
    | some c =>
      rw [hk] at hs
      have hc := h.calls c (List.mem_of_getElem? hk)
      simp only at hs
      split at hs
      · rename_i j hpc
        have hj := hc.sel j (.inl hpc)
        split at hs
        · rename_i x hx
          split at hs
          · rename_i hen
            split at hs
            · rename_i hbe
              cases hs
              refine h.setCall hk (c' := { c with pc := .got j }) ⟨hc.count, hc.addr, fun he i hi => ?_, fun i hi => ?_, fun i v hv => (by rcases hv with hv | hv <;> cases hv), fun hf => (by rcases hf with hf | hf <;> cases hf)⟩ id (fun _ h => h) s.log
              · rcases hc.bad he i hi with h1 | h1 | h1
                · exact .inl h1
                · rw [hpc] at h1; cases h1; exact .inr (.inr rfl)
                · rw [hpc] at h1; cases h1
              · rcases hi with hi | hi <;> cases hi
                exact hj
            · rename_i w hbe
              cases hs
              have hw : (w = .context → c.ended = true) ∧ ∀ e, w = .error e → errOf s.conns j = some e := by
                unfold Branch.error at hbe
                unfold Branch.enabled at hen
                rw [errOf, hx]
                cases b <;> simp only at hbe hen
                · cases hbe; exact ⟨fun _ => hen, fun _ h => (by cases h)⟩
                all_goals
                  cases he : x.c.err with
                  | none => rw [he] at hbe; cases hbe
                  | some e => rw [he] at hbe; cases hbe; exact ⟨fun h => (by cases h), fun e' h => (by cases h; exact he)⟩
              refine h.setCall hk (c' := { c with pc := .closing j w }) ⟨hc.count, hc.addr, fun he i hi => ?_, fun j hj => (by rcases hj with hj | hj <;> cases hj), fun i v hv => ?_, fun hf => (by rcases hf with hf | hf <;> cases hf)⟩ id (fun _ h => h) s.log
              · rcases hc.bad he i hi with h1 | h1 | h1
                · exact .inl h1
                · rw [hpc] at h1; cases h1
                  cases w with
                  | context => have := hw.1 rfl; simp only at he; rw [this] at he; cases he
                  | error e => exact .inl (Option.isSome_iff_exists.2 ⟨e, hw.2 e rfl⟩)
                · rw [hpc] at h1; cases h1
              · rcases hv with hv | hv <;> cases hv
                exact ⟨hj, hw⟩
          · cases hs
        · cases hs
      · cases hs
  | conn j act =>
    simp only [Callers.step] at hs
    cases hx : s.conns[j]? with
    | none => rw [hx] at hs; cases hs
    | some x =>
      rw [hx] at hs
      simp only at hs
      split at hs
      · rename_i ho
        cases hd : Cl.step x.c act with
        | none => rw [hd] at hs; cases hs
        | some d =>
          rw [hd] at hs; cases hs
          refine h.setConn hx x.byApp hd _ (fun a i hi => ?_) id fun hne => ?_
          · simp only [Bool.and_eq_true] at hi
            split at hi
            · simp only at hi
              split at hi
              · cases hi
              · exact hi
            · exact hi
          · rcases once_step (h.conn x (List.mem_of_getElem? hx)) ho hd with h1 | h1 | h1
            · exact absurd h1 hne
            · exact .inl h1
            · exact .inr (.inl h1)
      · cases hs
  | appClose j =>
    simp only [Callers.step] at hs
    cases hx : s.conns[j]? with
    | none => rw [hx] at hs; cases hs
    | some x =>
      rw [hx] at hs
      simp only at hs
      cases hd : Cl.step x.c .closeBegin with
      | none => rw [hd] at hs; cases hs
      | some d =>
        rw [hd] at hs; cases hs
        exact h.setConn hx true hd s.pool (fun _ _ h => h) (fun _ => rfl) fun _ => .inr (.inr (.inl rfl))

theorem Inv.reach {s : State ε} (h : Reachable max isCtx s) : Inv max isCtx s := ReachFrom.inv (fun _ _ _ => Inv.step) h Inv.new

end Noise.Callers
