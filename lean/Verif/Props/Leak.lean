import Verif.Proofs.ClientTrace
import Verif.Proofs.ClientCalls
import Verif.Proofs.ClientReq
/-! # Property C109: what requests leave behind -/
namespace Noise
open Cl
variable {ε : Type}

/-- The connection still keeps the entry (nonce and channel) of call `i` of `Request`. -/
def Pending (s : Cl.State ε) (i : Nat) : Prop := ∃ n, s.reqs.entries n = some i

theorem cancelled_step {s s' : Cl.State ε} {a : Cl.Action ε} {i : Nat} (hs : Cl.step s a = some s') (h : ∃ c, s.calls[i]? = some c ∧ c.st = .cancelled) : ∃ c, s'.calls[i]? = some c ∧ c.st = .cancelled := by
  obtain ⟨c, hc, hst⟩ := h
  obtain ⟨c', hc', -, -, h1 | h1 | h1⟩ := call_step hc hs
  · exact ⟨c', hc', h1.1.trans hst⟩
  · rw [hst] at h1; cases h1.2.1
  · rw [hst] at h1; cases h1.1

/-- C109 fails: when a call of `Request` has returned because its context ended, it has returned for good, and yet the entry that was made for it is kept, after the end of the connection as well, until a response with its nonce arrives. -/
theorem C109_kept_for_ever_refuted (side : Cl.Side) (s s' : Cl.State ε) (h : Cl.Reachable side s) (i : Nat) (c : Cl.Call) (hc : s.calls[i]? = some c) (hst : c.st = .cancelled)
    (as : List (Cl.Action ε)) (hr : Cl.run s as = some s') (hno : ∀ m b, .processed m b ∈ s'.log → m.nonce ≠ c.nonce) :
    (∃ c', s'.calls[i]? = some c' ∧ c'.st = .cancelled) ∧ Pending s' i := by
  refine ⟨run_inv (P := fun s => ∃ c, s.calls[i]? = some c ∧ c.st = .cancelled) (fun _ _ _ h hs => cancelled_step hs h) hr ⟨c, hc, hst⟩, ?_⟩
  obtain ⟨l, hl⟩ := log_run hr
  have hreg := ((ReqsOK.reach h).reg i c.nonce).2 ⟨c, hc, rfl⟩
  obtain ⟨l1, l2, h2⟩ := List.append_of_mem hreg
  refine ⟨c.nonce, ((ReqsOK.reach (h.trans hr)).entIff _ _).2 ⟨l1, l2 ++ l, by rw [hl, h2]; simp, fun m b hm => hno m b ?_⟩⟩
  rw [hl, h2]
  rcases List.mem_append.1 hm with hm | hm <;> simp [hm]

/-- Connect, handshake, and come to wait for messages. -/
def lkConnect (id : ID) : List (Cl.Action ε) := [.main, .dialOK, .arrive, .arrive, .hsKey, .hsOK id, .main, .main, .main]
/-- The connection drops. -/
def lkDrop (e : ε) : List (Cl.Action ε) := [.readFail e, .main, .main, .closeConn, .main, .main, .main, .main]

/-- Requests whose contexts end. -/
def lkRequests : Nat → Nat → List (Cl.Action ε)
  | _, 0 => []
  | i, k + 1 => [.reqStart [], .reqSend i, .reqCancel i] ++ lkRequests (i + 1) k

/-- `k` requests have been made and have ended with their contexts. -/
structure LeakInv (k : Nat) (s : Cl.State ε) : Prop where
  main : s.main = .recv
  once : s.once = .fresh
  ready : s.ready = true
  clean : s.err = none
  nonce : s.reqs.nonce.toNat = k
  len : s.calls.length = k
  calls : ∀ (i : Nat) c, s.calls[i]? = some c → c.st = .cancelled ∧ c.nonce.toNat = i + 1
  free : ∀ n : UInt64, k < n.toNat → s.reqs.entries n = none
  log : ∀ m b, .processed m b ∉ s.log

theorem LeakInv.step {k : Nat} {s : Cl.State ε} (h : LeakInv k s) (hk : k < 2 ^ 63) : ∃ s', Cl.run s [.reqStart [], .reqSend k, .reqCancel k] = some s' ∧ LeakInv (k + 1) s' := by
  have hne : s.reqs.nonce ≠ 18446744073709551615 := by
    intro he
    have := h.nonce
    rw [he] at this
    have h2 : (18446744073709551615 : UInt64).toNat = 18446744073709551615 := rfl
    omega
  have hcn : s.reqs.candidate.toNat = k + 1 := by
    rw [RequestMap.candidate]
    simp only [hne, if_false]
    rw [UInt64.toNat_add, h.nonce]
    simp
    omega
  have hfree := h.free s.reqs.candidate (by omega)
  have hnn : s.reqs.nextNonce s.calls.length = ({ entries := fun n => if n = s.reqs.candidate then some s.calls.length else s.reqs.entries n, nonce := s.reqs.candidate }, some s.reqs.candidate) := by
    simp [RequestMap.nextNonce, hfree]
  have hl := h.len
  refine ⟨{ s with reqs := { entries := fun n => if n = s.reqs.candidate then some s.calls.length else s.reqs.entries n, nonce := s.reqs.candidate }
                   calls := s.calls ++ [⟨s.reqs.candidate, [], .cancelled, none⟩]
                   writerBuf := s.writerBuf ++ [⟨s.reqs.candidate, []⟩]
                   log := s.log ++ [.registered s.calls.length s.reqs.candidate] ++ [.submitted ⟨s.reqs.candidate, []⟩] }, ?_, ?_⟩
  · subst hl
    simp [Cl.run, Cl.step, hnn, Cl.State.send, Cl.State.setCall]
  · refine ⟨h.main, h.once, h.ready, h.clean, hcn, by simp [hl], ?_, ?_, ?_⟩
    · intro i c hc
      dsimp only at hc
      rw [List.getElem?_append] at hc
      split at hc
      · exact h.calls i c hc
      · rename_i hi
        rcases Nat.lt_or_ge (i - s.calls.length) 1 with h1 | h1
        · have : i = k := by omega
          subst this
          rw [hl] at hc
          simp at hc
          subst hc
          exact ⟨rfl, hcn⟩
        · rw [List.getElem?_eq_none (by simpa using h1)] at hc; cases hc
    · intro n hn
      dsimp only
      split
      · subst n; omega
      · exact h.free n (by omega)
    · intro m b hm
      simp at hm
      exact h.log m b hm

theorem LeakInv.run {k : Nat} (j : Nat) {s : Cl.State ε} (h : LeakInv k s) (hk : k + j ≤ 2 ^ 63) : ∃ s', Cl.run s (lkRequests k j) = some s' ∧ LeakInv (k + j) s' := by
  induction j generalizing k s with
  | zero => exact ⟨s, rfl, h⟩
  | succ j ih =>
    obtain ⟨s1, h1, h2⟩ := h.step (by omega)
    obtain ⟨s2, h3, h4⟩ := ih h2 (by omega)
    refine ⟨s2, ?_, by rw [show k + (j + 1) = k + 1 + j by omega]; exact h4⟩
    rw [lkRequests, run_append, h1]
    exact h3

/-- C109 fails without bound: for every number `k` (up to 2^63), after `k` requests whose contexts ended, with no call waiting any more and the connection gone, all `k` entries are kept. -/
theorem C109_leak_happens_refuted (id : ID) (e : ε) (k : Nat) (hk : k ≤ 2 ^ 63) : ∃ (as : List (Cl.Action ε)) (s : Cl.State ε), Cl.run (Cl.State.new .outbound) as = some s ∧
    s.clientDone = true ∧ s.calls.length = k ∧ (∀ c ∈ s.calls, c.st = .cancelled) ∧ ∀ i < k, Pending s i := by
  obtain ⟨s0, h0, hi0⟩ : ∃ s0 : Cl.State ε, Cl.run (Cl.State.new .outbound) (lkConnect id) = some s0 ∧ LeakInv 0 s0 := by
    refine ⟨_, rfl, ?_⟩
    constructor <;> simp [Cl.State.new, RequestMap.new, Cl.State.closeReady]
  obtain ⟨s1, h1, hi1⟩ := LeakInv.run k hi0 (by omega)
  rw [Nat.zero_add] at hi1
  obtain ⟨s2, h2, hd, hcs, hlog⟩ : ∃ s2, Cl.run s1 (lkDrop e) = some s2 ∧ s2.clientDone = true ∧ s2.calls = s1.calls ∧ (∀ m b, .processed m b ∈ s2.log → .processed m b ∈ s1.log) := by
    have a := hi1.main
    have b := hi1.once
    simp [lkDrop, Cl.run, Cl.step, Cl.State.mainStep, a, b, Cl.State.report, Cl.State.closeBegin, Cl.State.closeConn, Cl.State.closeReaderDone, Cl.State.closeClientDone]
  have hr1 : Cl.run (Cl.State.new .outbound) (lkConnect id ++ lkRequests 0 k) = some s1 := by rw [run_append, h0]; exact h1
  refine ⟨lkConnect id ++ lkRequests 0 k ++ lkDrop e, s2, by rw [run_append, hr1]; exact h2, hd, by rw [hcs]; exact hi1.len, ?_, ?_⟩
  · intro c hc
    rw [hcs] at hc
    obtain ⟨i, hi⟩ := List.getElem?_of_mem hc
    exact (hi1.calls i c hi).1
  · intro i hi
    have hl : i < s1.calls.length := by rw [hi1.len]; exact hi
    exact (C109_kept_for_ever_refuted .outbound s1 s2 ⟨_, hr1⟩ i s1.calls[i] (List.getElem?_eq_getElem hl) (hi1.calls i _ (List.getElem?_eq_getElem hl)).1 (lkDrop e) h2
      (fun m b hm => absurd (hlog m b hm) (hi1.log m b))).2

/-- C109, what does hold: the connection keeps an entry for a call of `Request` exactly until a message with its nonce is processed; so a call that returned a response has left nothing behind, and every call holds at most one entry. Missing: calls that return because their context ended, and the end of the connection (both refuted above). -/
theorem C109_released_partial (side : Cl.Side) (s : Cl.State ε) (h : Cl.Reachable side s) (i : Nat) :
    (∀ m, .returned i m ∈ s.log → ¬ Pending s i) ∧
    (Pending s i ↔ ∃ n l1 l2, s.log = l1 ++ .registered i n :: l2 ∧ ∀ m b, .processed m b ∈ l2 → m.nonce ≠ n) ∧
    (∀ n n', s.reqs.entries n = some i → s.reqs.entries n' = some i → n = n') := by
  have hi := ReqsOK.reach h
  refine ⟨?_, ?_, ?_⟩
  · rintro m hm ⟨n, hn⟩
    obtain ⟨c, hc, hst⟩ := (hi.ret i m).1 hm
    obtain ⟨p, hp⟩ := hi.retChan i c m hc hst
    obtain ⟨d, hd, -, h2⟩ := hi.entCall n i hn
    rw [hc] at hd; cases hd
    rw [hp] at h2; cases h2
  · exact exists_congr fun n => hi.entIff n i
  · intro n n' h1 h2
    obtain ⟨c, hc, rfl, -⟩ := hi.entCall n i h1
    obtain ⟨d, hd, rfl, -⟩ := hi.entCall n' i h2
    rw [hc] at hd; cases hd; rfl

/-- A request that is answered, and one that waits. -/
example : ((Cl.run (Cl.State.new (ε := Unit) .outbound) (lkConnect ID.zero ++ [.reqStart [1], .reqSend 0, .reqStart [2], .reqSend 1, .arrive, .readMsg ⟨1, [3]⟩, .main, .reqTake 0])).map fun s =>
    (s.calls.map (·.st), s.reqs.entries 1, s.reqs.entries 2)) = some ([.returned ⟨1, [3]⟩, .waiting], none, some 1) := by decide +kernel

end Noise
