import Verif.Proofs.Race
/-! # C92: methods of a client that may be called concurrently -/
namespace Noise
namespace Race
open Noise.Spec (Op Ev Edge HB)

/-! ## Scanning the programs -/

def Neutral {S : Type} (f : S → COp → Option S) (s : S) (l : List COp) : Prop := runs f s l = some s

instance {S : Type} [DecidableEq S] (f : S → COp → Option S) (s : S) (l : List COp) : Decidable (Neutral f s l) := inferInstanceAs (Decidable (_ = _))

section
variable {S : Type} {f : S → COp → Option S} {s : S}

theorem Neutral.nil : Neutral f s [] := rfl

theorem Neutral.append {a b : List COp} (h1 : Neutral f s a) (h2 : Neutral f s b) : Neutral f s (a ++ b) := runs_trans h1 h2

theorem Neutral.flatten {l : List (List COp)} (h : ∀ a ∈ l, Neutral f s a) : Neutral f s l.flatten := by
  induction l with
  | nil => exact rfl
  | cons a l ih =>
    rw [List.flatten_cons]
    exact (h a (by simp)).append (ih fun b hb => h b (by simp [hb]))

theorem Neutral.flatMap {A : Type} {g : A → List COp} {l : List A} (h : ∀ a ∈ l, Neutral f s (g a)) : Neutral f s (l.flatMap g) := by
  rw [List.flatMap_def]
  refine Neutral.flatten ?_
  intro a ha
  obtain ⟨b, hb, rfl⟩ := List.mem_map.1 ha
  exact h b hb

/-- Neutral for the calls of methods. -/
theorem Neutral.calls (h : ∀ a : Api, Neutral f s a.ops) (l : List Api) : Neutral f s (calls l) := Neutral.flatMap fun a _ => h a

/-- The pieces of the programs. -/
structure Pieces (f : S → COp → Option S) (s : S) : Prop where
  api : ∀ a : Api, Neutral f s a.ops
  read : Neutral f s readOps
  find : Neutral f s [.lock .requests, .rd .requests, .wr .requests, .unlock .requests]

theorem Pieces.recvLoop (h : Pieces f s) (its : List (List Api)) (warn : Bool) : Neutral f s (its.flatMap recvOps ++ readOps ++ (if warn then Api.ops .logger else []) ++ Api.ops .report) := by
  refine ((Neutral.append ?_ h.read).append ?_).append (h.api _)
  · exact Neutral.flatMap fun cb _ => (h.read.append h.find).append (Neutral.calls h.api cb)
  · cases warn
    · exact Neutral.nil
    · exact h.api .logger

theorem handshake_steps (h : ∀ a ∈ handshakeSteps, Neutral f s a) (k : Nat) : Neutral f s (handshakeSteps.take k).flatten :=
  Neutral.flatten fun a ha => h a (List.mem_of_mem_take ha)

/-- A scanner that passes from `s` to `s2` at the first `close` or `go` and stays there. -/
structure MainPieces (f : S → COp → Option S) (s s2 : S) : Prop where
  p1 : ∀ a : Api, Neutral f s a.ops
  steps : ∀ a ∈ handshakeSteps, Neutral f s a
  start : Neutral f s [.wr .addr, .wr .reader, .wr .writer, .wr .conn]
  addr : Neutral f s [.wr .addr]
  pub : ∀ c, f s (.close c) = some s2
  close : ∀ c, f s2 (.close c) = some s2
  go : f s2 (.go writer) = some s2
  p2 : Pieces f s2

theorem MainPieces.handshake {s2 : S} (h : MainPieces f s s2) {l : List COp} (hl : IsHandshake l) : runs f s l = some s2 := by
  cases hl with
  | fail k => exact runs_trans ((handshake_steps h.steps k).append (h.p1 _)) (by simp [runs, h.pub])
  | ok cb =>
    refine runs_trans (Neutral.append ?_ (Neutral.calls h.p1 cb)) (by simp [runs, h.pub])
    exact Neutral.flatten h.steps

theorem MainPieces.main {s2 : S} (h : MainPieces f s s2) {p : List COp} (hp : IsMain p) : runs f s p = some s2 := by
  have hc : ∀ c, runs f s2 [.close c] = some s2 := fun c => by simp [runs, h.close]
  have hg : runs f s2 [.go writer] = some s2 := by simp [runs, h.go]
  have hrl : ∀ its warn, runs f s2 (recvLoop its warn) = some s2 := fun its warn => runs_trans (h.p2.recvLoop its warn) (hc _)
  cases hp with
  | dialFailed => exact runs_trans (h.addr.append (h.p1 _)) (by simp [runs, h.pub, h.close])
  | outbound hs its warn first cb hh =>
    exact runs_trans (runs_trans (runs_trans (runs_trans (runs_trans (runs_trans (runs_trans h.start (h.handshake hh)) hg) (hrl its warn)) (h.p2.api _)) (h.p2.api _)) (Neutral.calls h.p2.api cb)) (hc _)
  | inboundFailed hs first hh =>
    exact runs_trans (runs_trans (runs_trans (runs_trans h.start (h.handshake hh)) (h.p2.api _)) (h.p2.api _)) (hc _)
  | inbound hs its warn first cb hh =>
    exact runs_trans (runs_trans (runs_trans (runs_trans (runs_trans (runs_trans (runs_trans h.start (h.handshake hh)) (h.p2.api _)) hg) (hrl its warn)) (h.p2.api _)) (Neutral.calls h.p2.api cb)) (hc _)

/-- The pieces of `writeLoop`. -/
structure WriterPieces (f : S → COp → Option S) (s : S) : Prop where
  api : ∀ a : Api, Neutral f s a.ops
  conn : Neutral f s [.rd .conn]
  take : ∀ k, Neutral f s (takeOps k)
  msg : Neutral f s [.rd .suite, .rd .writer, .wr .writer]
  suite : Neutral f s [.rd .suite]
  flush : Neutral f s [.rd .writer, .wr .writer]
  recv : ∀ c, Neutral f s [.recv c]
  close : ∀ c, Neutral f s [.close c]

theorem WriterPieces.writer (h : WriterPieces f s) {p : List COp} (hp : IsWriter p) : runs f s p = some s := by
  have hm : ∀ n, Neutral f s (msgOps n) := fun n => Neutral.flatten fun a ha => by rw [(List.mem_replicate.1 ha).2]; exact h.msg
  have hl : ∀ warn : Bool, Neutral f s (if warn then Api.ops .logger else []) := by
    intro warn; cases warn
    · exact Neutral.nil
    · exact h.api .logger
  cases hp with
  | mk rounds e =>
    refine Neutral.append (Neutral.append (Neutral.flatMap ?_) ?_) (h.close _)
    · intro r _
      exact (((h.conn.append (h.take _)).append (hm _)).append h.flush).append (Neutral.calls h.api _)
    · cases e with
      | done r => exact h.recv _
      | deadline warn => exact (h.conn.append (hl _)).append (h.api _)
      | closed k => exact h.conn.append (h.take k)
      | failed k n wrote warn =>
        refine (((((h.conn.append (h.take k)).append (hm n)).append h.suite).append ?_).append (hl _)).append (h.api _)
        cases wrote
        · exact Neutral.nil
        · exact h.flush

end

/-- `takeOps` leaves the mutex `cond` as it found it. -/
theorem take_neutral {S : Type} {f : S → COp → Option S} {s s2 : S} (h1 : runs f s [.lock .cond, .rd .writerBuf, .rd .writerClosed] = some s2)
    (h2 : runs f s2 [.unlock .cond, .lock .cond, .rd .writerBuf, .rd .writerClosed] = some s2) (h3 : runs f s2 [.rd .writerBuf, .rd .writerClosed, .wr .writerBuf, .unlock .cond] = some s) (k : Nat) : Neutral f s (takeOps k) := by
  refine runs_trans (runs_trans h1 ?_) h3
  exact Neutral.flatten fun a ha => by rw [(List.mem_replicate.1 ha).2]; exact h2

/-- The mutex that guards a field. -/
def guard : Var → Option Mutex
  | .err => some .err
  | .logger => some .logger
  | .writerBuf => some .cond
  | .writerClosed => some .cond
  | .requests => some .requests
  | _ => none

theorem guard_api {v : Var} {m : Mutex} (h : guard v = some m) (a : Api) : Neutral (lockScan v m) .none a.ops := by
  cases v <;> cases h <;> cases a <;> first
    | decide
    | (rename_i b; cases b <;> decide)

theorem guard_pieces {v : Var} {m : Mutex} (h : guard v = some m) : Pieces (lockScan v m) .none := by
  refine ⟨guard_api h, ?_, ?_⟩ <;> (cases v <;> cases h <;> decide)

theorem guard_main {v : Var} {m : Mutex} (h : guard v = some m) : MainPieces (lockScan v m) .none .none where
  p1 := guard_api h
  steps := by cases v <;> cases h <;> decide
  start := by cases v <;> cases h <;> decide
  addr := by cases v <;> cases h <;> decide
  pub _ := rfl
  close _ := rfl
  go := rfl
  p2 := guard_pieces h

theorem guard_writer {v : Var} {m : Mutex} (h : guard v = some m) : WriterPieces (lockScan v m) .none where
  api := guard_api h
  conn := by cases v <;> cases h <;> decide
  take k := by
    cases v <;> cases h
    · exact take_neutral (s2 := .w) (by decide) (by decide) (by decide) k
    · exact take_neutral (s2 := .w) (by decide) (by decide) (by decide) k
    · exact take_neutral (s2 := .none) (by decide) (by decide) (by decide) k
    · exact take_neutral (s2 := .none) (by decide) (by decide) (by decide) k
    · exact take_neutral (s2 := .none) (by decide) (by decide) (by decide) k
  msg := by cases v <;> cases h <;> decide
  suite := by cases v <;> cases h <;> decide
  flush := by cases v <;> cases h <;> decide
  recv _ := rfl
  close _ := rfl

theorem Execution.guarded {api : Nat → List Api} {tr : CTrace} (h : Execution api tr) {v : Var} {m : Mutex} (hv : guard v = some m) : Guarded tr v m := by
  intro t
  rcases tid_cases t with rfl | rfl | ht
  · obtain ⟨p, hp, hpre⟩ := h.main
    exact ⟨p, hpre, _, (guard_main hv).main hp⟩
  · obtain ⟨p, hp, hpre⟩ := h.writer
    exact ⟨p, hpre, _, (guard_writer hv).writer hp⟩
  · exact ⟨_, h.user t ht, _, Neutral.calls (guard_api hv) _⟩

/-! ## Fields that are published -/

theorem main_scan_main {all : Bool} {v : Var} (hv : (all = false ∧ (v = .id ∨ v = .suite ∨ v = .conn)) ∨ (all = true ∧ v = .writer)) : MainPieces (mainScan all v) false true := by
  have hapi : ∀ (b : Bool) (a : Api), Neutral (mainScan all v) b a.ops := by
    rcases hv with ⟨rfl, rfl | rfl | rfl⟩ | ⟨rfl, rfl⟩ <;> intro b a <;> cases b <;> cases a <;> first
      | decide
      | (rename_i b; cases b <;> decide)
  constructor
  · exact hapi false
  · rcases hv with ⟨rfl, rfl | rfl | rfl⟩ | ⟨rfl, rfl⟩ <;> decide
  · rcases hv with ⟨rfl, rfl | rfl | rfl⟩ | ⟨rfl, rfl⟩ <;> decide
  · rcases hv with ⟨rfl, rfl | rfl | rfl⟩ | ⟨rfl, rfl⟩ <;> decide
  · intro _; rfl
  · intro _; rfl
  · rfl
  · refine ⟨hapi true, ?_, ?_⟩ <;> (rcases hv with ⟨rfl, rfl | rfl | rfl⟩ | ⟨rfl, rfl⟩ <;> decide)

theorem writer_quiet {all : Bool} {v : Var} (hv : (all = false ∧ (v = .id ∨ v = .suite ∨ v = .conn)) ∨ (all = true ∧ (v = .addr ∨ v = .reader ∨ v = .readerBuf))) : WriterPieces (quietScan all true v) () := by
  constructor
  · rcases hv with ⟨rfl, rfl | rfl | rfl⟩ | ⟨rfl, rfl | rfl | rfl⟩ <;> intro a <;> cases a <;> first
      | decide
      | (rename_i b; cases b <;> decide)
  · rcases hv with ⟨rfl, rfl | rfl | rfl⟩ | ⟨rfl, rfl | rfl | rfl⟩ <;> decide
  · intro k; rcases hv with ⟨rfl, rfl | rfl | rfl⟩ | ⟨rfl, rfl | rfl | rfl⟩ <;> exact take_neutral (s2 := ()) (by decide) (by decide) (by decide) k
  · rcases hv with ⟨rfl, rfl | rfl | rfl⟩ | ⟨rfl, rfl | rfl | rfl⟩ <;> decide
  · rcases hv with ⟨rfl, rfl | rfl | rfl⟩ | ⟨rfl, rfl | rfl | rfl⟩ <;> decide
  · rcases hv with ⟨rfl, rfl | rfl | rfl⟩ | ⟨rfl, rfl | rfl | rfl⟩ <;> decide
  · intro _; rfl
  · intro _; rfl

theorem api_quiet {v : Var} (hv : v = .addr ∨ v = .reader ∨ v = .readerBuf ∨ v = .writer) (closes : Bool) (a : Api) : Neutral (quietScan true closes v) () a.ops := by
  rcases hv with rfl | rfl | rfl | rfl <;> cases closes <;> cases a <;> first
    | decide
    | (rename_i b; cases b <;> decide)

/-- The writer starts no goroutine. -/
theorem writer_no_go : WriterPieces (fun (_ : Unit) (o : COp) => match o with
    | .go _ => none
    | _ => some ()) () := by
  constructor
  · intro a; cases a <;> first
      | decide
      | (rename_i b; cases b <;> decide)
  · decide
  · intro k; exact take_neutral (s2 := ()) (by decide) (by decide) (by decide) k
  · decide
  · decide
  · decide
  · intro _; rfl
  · intro _; rfl

theorem api_ready_suite (b : Bool) (a : Api) : ∃ b', runs (readyScan .suite) b a.ops = some b' := by
  cases a <;> cases b <;> first
    | exact ⟨_, rfl⟩
    | (rename_i b; cases b <;> exact ⟨_, rfl⟩)

theorem calls_ready_suite (l : List Api) : ∀ b, ∃ b', runs (readyScan .suite) b (calls l) = some b' := by
  induction l with
  | nil => intro b; exact ⟨b, rfl⟩
  | cons a l ih =>
    intro b
    obtain ⟨b1, h1⟩ := api_ready_suite b a
    obtain ⟨b2, h2⟩ := ih b1
    exact ⟨b2, runs_trans h1 h2⟩

/-- `ID` and `Close` are called only after waiting for the connection: with `WaitUntilReady` or `WaitUntilClosed`, or because `Ping` has returned the client or a handler has been called with a message from it. -/
def WaitsFirst (l : List Api) : Prop :=
  ∀ pre a post, l = pre ++ a :: post → a = .id ∨ (∃ b, a = .close b) → ∃ w ∈ pre, w = .waitReady ∨ w = .waitReader ∨ w = .waitWriter ∨ w = .waitClosed

theorem calls_ready {v : Var} (hv : v = .id ∨ v = .conn) (l : List Api) : ∀ b, (b = false → WaitsFirst l) → ∃ b', runs (readyScan v) b (calls l) = some b' := by
  induction l with
  | nil => intro b _; exact ⟨b, rfl⟩
  | cons a l ih =>
    intro b hb
    have key : ∀ b1, runs (readyScan v) b a.ops = some b1 → (b1 = false → WaitsFirst l) → ∃ b', runs (readyScan v) b (calls (a :: l)) = some b' := by
      intro b1 h1 h2
      obtain ⟨b2, h3⟩ := ih b1 h2
      exact ⟨b2, runs_trans h1 h3⟩
    by_cases hacc : a = .id ∨ ∃ b, a = .close b
    · cases b with
      | false => obtain ⟨w, hw, -⟩ := hb rfl [] a l rfl hacc; cases hw
      | true =>
        refine key true ?_ (fun h => by cases h)
        rcases hacc with rfl | ⟨b, rfl⟩
        · rcases hv with rfl | rfl <;> rfl
        · rcases hv with rfl | rfl <;> cases b <;> rfl
    by_cases hwait : a = .waitReady ∨ a = .waitReader ∨ a = .waitWriter ∨ a = .waitClosed
    · refine key true ?_ (fun h => by cases h)
      rcases hwait with rfl | rfl | rfl | rfl <;> rfl
    · refine key b ?_ ?_
      · have hid : a ≠ .id := fun h => hacc (.inl h)
        have hcl : ∀ b, a ≠ .close b := fun b h => hacc (.inr ⟨b, h⟩)
        cases a <;> first
          | (rcases hv with rfl | rfl <;> rfl)
          | (exact absurd rfl hid)
          | (exact absurd rfl (hcl _))
          | (exact absurd (by simp) hwait)
      · intro e pre c post hl hc
        obtain ⟨w, hw, h⟩ := hb e (a :: pre) c post (by rw [hl]; rfl) hc
        rcases List.mem_cons.1 hw with rfl | hw
        · exact absurd h hwait
        · exact ⟨w, hw, h⟩

/-- Operations that other goroutines can wait for. -/
def releases : COp → Bool
  | .unlock _ => true
  | .runlock _ => true
  | .close _ => true
  | .go _ => true
  | .onceExit => true
  | _ => false

/-- If only goroutine `u` releases, closes and starts anything, nothing of the others happens before its operations. -/
theorem isolated {tr : CTrace} {u : Nat} (h : ∀ e ∈ tr, releases e.op = true → e.tid = u) {i j : Nat} (hb : HB tr i j) : (∃ o, tr[j]? = some ⟨u, o⟩) → ∃ o, tr[i]? = some ⟨u, o⟩ := by
  have key : ∀ {k t : Nat} {o : COp}, tr[k]? = some ⟨t, o⟩ → releases o = true → ∃ o, tr[k]? = some ⟨u, o⟩ := by
    intro k t o hk ho
    have := h _ (List.mem_of_getElem? hk) ho
    simp only at this; subst this; exact ⟨o, hk⟩
  induction hb with
  | edge he =>
    rintro ⟨o, hj⟩
    cases he with
    | po h1 h2 _ => rw [hj] at h2; injection h2 with h2; injection h2 with h2 _; subst h2; exact ⟨_, h1⟩
    | unlock_lock h1 _ _ => exact key h1 rfl
    | unlock_rlock h1 _ _ => exact key h1 rfl
    | runlock_lock h1 _ _ => exact key h1 rfl
    | close_recv h1 _ _ => exact key h1 rfl
    | go_start h1 _ _ => exact key h1 rfl
    | once h1 _ _ => exact key h1 rfl
  | trans _ _ ih1 ih2 => exact fun hk => ih1 (ih2 hk)

/-- The operations of a goroutine as events. -/
def by' (t : Nat) (l : List COp) : CTrace := l.map (Ev.mk t)

end Race

open Race

/-- **C92, partial.** In every execution of a connection and of any number of goroutines that call methods of the client in any order, there is no data race on any field but the identity and the network connection. If the
goroutines call `ID` and `Close` only after they have waited for the connection, there is no data race at all. Missing: `ID` and `Close` before that, see `C92_id_races_refuted` and `C92_close_races_refuted`. -/
theorem C92_no_data_races_partial (api : Nat → List Api) (tr : CTrace) (h : Execution api tr) (v : Var) :
    (v ≠ .id → v ≠ .conn → ¬ Spec.Race tr v) ∧ ((∀ t, 2 ≤ t → WaitsFirst (api t)) → ¬ Spec.Race tr v) := by
  obtain ⟨s1, hs1⟩ := h.run
  obtain ⟨s, hr⟩ := Run.of hs1
  obtain ⟨pm, hpm, hprem⟩ := h.main
  obtain ⟨pw, hpw, hprew⟩ := h.writer
  have hguard : ∀ m, guard v = some m → ¬ Spec.Race tr v := fun m hm => guarded_ordered hr (h.guarded hm)
  have honly : (v = .addr ∨ v = .reader ∨ v = .readerBuf) → ¬ Spec.Race tr v := by
    intro hv
    refine main_only ?_
    intro t ht
    rcases tid_cases t with h1 | rfl | h1
    · exact absurd h1 ht
    · exact ⟨pw, hprew, _, (writer_quiet (.inr ⟨rfl, hv⟩)).writer hpw⟩
    · exact ⟨_, h.user t h1, _, Neutral.calls (api_quiet (by rcases hv with h | h | h <;> simp [h]) true) _⟩
  have hwriter : v = .writer → ¬ Spec.Race tr v := by
    rintro rfl
    refine handed_over hr ⟨pm, hprem, _, (main_scan_main (.inr ⟨rfl, rfl⟩)).main hpm⟩ ?_ ?_
    · intro b u o hb
      obtain ⟨g, _, gs⟩ := ghost (writer_no_go.writer hpw) hprew
      have := gs b _ hb
      rw [if_pos rfl] at this
      rintro rfl
      cases this
    · intro t ht
      exact ⟨_, h.user t ht, _, Neutral.calls (api_quiet (by simp) false) _⟩
  have hpub : (v = .id ∨ v = .suite ∨ v = .conn) → (∀ t, 2 ≤ t → ∃ b, runs (readyScan v) false (calls (api t)) = some b) → ¬ Spec.Race tr v := by
    intro hv hu
    exact published_ordered hr ⟨pm, hprem, _, (main_scan_main (.inl ⟨rfl, hv⟩)).main hpm⟩ ⟨pw, hprew, _, (writer_quiet (.inl ⟨rfl, hv⟩)).writer hpw⟩ fun t ht => ⟨_, h.user t ht, hu t ht⟩
  have hall : v ≠ .id → v ≠ .conn → ¬ Spec.Race tr v := by
    intro h1 h2
    cases v with
    | id => exact absurd rfl h1
    | conn => exact absurd rfl h2
    | suite => exact hpub (by simp) fun t _ => calls_ready_suite _ _
    | addr => exact honly (by simp)
    | reader => exact honly (by simp)
    | readerBuf => exact honly (by simp)
    | writer => exact hwriter rfl
    | writerBuf => exact hguard _ rfl
    | writerClosed => exact hguard _ rfl
    | err => exact hguard _ rfl
    | logger => exact hguard _ rfl
    | requests => exact hguard _ rfl
  refine ⟨hall, ?_⟩
  intro hw
  by_cases hv : v = .id ∨ v = .conn
  · exact hpub (by rcases hv with h | h <;> simp [h]) fun t ht => calls_ready hv _ _ fun _ => hw t ht
  · exact hall (fun h => hv (.inl h)) (fun h => hv (.inr h))

namespace Race

/-- Goroutines that do not occur. -/
theorem opsOf_absent {tr : CTrace} (h : ∀ e ∈ tr, e.tid = 0 ∨ e.tid = 2) {t : Nat} (h0 : t ≠ 0) (h2 : t ≠ 2) (p : List COp) : opsOf t tr <+: p := by
  have : opsOf t tr = [] := by
    simp only [opsOf, List.map_eq_nil_iff, List.filter_eq_nil_iff]
    intro e he
    rcases h e he with h1 | h1 <;> simp [h1] <;> omega
  rw [this]; exact List.nil_prefix

/-- The handshake of an accepted connection, up to where the identity is set; meanwhile another goroutine calls `ID`. -/
def idRace : CTrace := by' 0 ([.wr .addr, .wr .reader, .wr .writer, .wr .conn] ++ (handshakeSteps.take 6).flatten) ++ by' 2 [.rd .id]

/-- A connection has just been dialled when the context of the `Ping` that started it ends. -/
def closeRace : CTrace := by' 0 [.wr .addr, .wr .reader, .wr .writer, .wr .conn] ++ by' 2 (Api.ops (.close true))

/-- A connection that is used in an orderly way: wait, `ID`, `Close`. -/
def orderly : CTrace := by' 0 ([.wr .addr, .wr .reader, .wr .writer, .wr .conn] ++ handshakeSteps.flatten ++ [.close .ready]) ++ by' 2 (calls [.waitReady, .id, .error, .close true])

end Race

/-- **C92, refuted** for `ID`, which "may be called concurrently": a goroutine that got the client from `Outbound()` or `Inbound()` and calls `ID` races with the handshake, which sets it. -/
theorem C92_id_races_refuted : ∃ tr, Execution (fun _ => [.id]) tr ∧ Spec.Race tr .id := by
  refine ⟨idRace, ⟨⟨_, rfl⟩, ⟨_, IsMain.inbound _ [] false true [] (IsHandshake.ok []), by decide +kernel⟩, ⟨_, IsWriter.mk [] (.done true), opsOf_absent (by decide +kernel) (by decide) (by decide) _⟩, ?_⟩, ?_⟩
  · intro t ht
    by_cases h : t = 2
    · subst h; decide +kernel
    · exact opsOf_absent (by decide +kernel) (by omega) h _
  · refine ⟨23, 24, ⟨0, .wr .id⟩, ⟨2, .rd .id⟩, by decide +kernel, by decide +kernel, by decide, by decide, .inr rfl, .inl rfl, .inl rfl, ?_⟩
    intro hb
    obtain ⟨o, ho⟩ := isolated (u := 2) (by decide +kernel) hb ⟨.rd .id, by decide +kernel⟩
    rw [show idRace[23]? = some ⟨0, .wr .id⟩ by decide +kernel] at ho
    cases ho

/-- **C92, refuted** for `Close`, which "may be called concurrently": closing a client whose connection is just being established races with `outbound`, which sets the connection. `dialIfNotExists` does this itself when the context of a
call ends (node.go:399-414), as does the pool when it evicts a client (map.go:44). -/
theorem C92_close_races_refuted : ∃ tr, Execution (fun _ => [.close true]) tr ∧ Spec.Race tr .conn := by
  refine ⟨closeRace, ⟨⟨_, rfl⟩, ⟨_, IsMain.outbound _ [] false false [] (IsHandshake.ok []), by decide +kernel⟩, ⟨_, IsWriter.mk [] (.done true), opsOf_absent (by decide +kernel) (by decide) (by decide) _⟩, ?_⟩, ?_⟩
  · intro t ht
    by_cases h : t = 2
    · subst h; decide +kernel
    · exact opsOf_absent (by decide +kernel) (by omega) h _
  · refine ⟨3, 8, ⟨0, .wr .conn⟩, ⟨2, .rd .conn⟩, by decide +kernel, by decide +kernel, by decide, by decide, .inr rfl, .inl rfl, .inl rfl, ?_⟩
    intro hb
    obtain ⟨o, ho⟩ := isolated (u := 2) (by decide +kernel) hb ⟨.rd .conn, by decide +kernel⟩
    rw [show closeRace[3]? = some ⟨0, .wr .conn⟩ by decide +kernel] at ho
    cases ho

/-- An execution in which all goroutines wait first: the second part of `C92_no_data_races_partial` applies to it. -/
example : Execution (fun _ => [.waitReady, .id, .error, .close true]) orderly ∧ WaitsFirst [.waitReady, .id, .error, .close true] := by
  refine ⟨⟨⟨_, rfl⟩, ⟨_, IsMain.outbound _ [] false false [] (IsHandshake.ok []), by decide +kernel⟩, ⟨_, IsWriter.mk [] (.done true), opsOf_absent (by decide +kernel) (by decide) (by decide) _⟩, ?_⟩, ?_⟩
  · intro t ht
    by_cases h : t = 2
    · subst h; decide +kernel
    · exact opsOf_absent (by decide +kernel) (by omega) h _
  · intro pre a post h ha
    cases pre with
    | nil => injection h with h1 _; subst h1; rcases ha with h | ⟨b, h⟩ <;> cases h
    | cons w pre => injection h with h1 _; exact ⟨w, by simp, .inl h1.symm⟩

end Noise
