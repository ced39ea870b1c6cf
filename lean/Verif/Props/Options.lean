import Verif.Model.Options
import Verif.Props.NodeCfg
import Verif.Props.Iterator
/-! # Properties C138, C139: the options of the overlay, of searches and of gossip -/
namespace Noise
open Spec Opt

/-! ## Which option sets what -/

def Opt.IterOption.logger? : IterOption → Option (Option Nat)
  | .logger l => some l
  | _ => none
def Opt.IterOption.max? : IterOption → Option Int
  | .maxNumResults n => some n
  | _ => none
def Opt.IterOption.lookups? : IterOption → Option Int
  | .numParallelLookups n => some n
  | _ => none
def Opt.IterOption.requests? : IterOption → Option Int
  | .numParallelRequestsPerLookup n => some n
  | _ => none
def Opt.IterOption.timeout? : IterOption → Option Int
  | .lookupTimeout d => some d
  | _ => none
def Opt.ProtocolOption.events? {ε : Type} : ProtocolOption ε → Option (Option ε)
  | .events e => some (some e)
  | _ => none
def Opt.ProtocolOption.logger? {ε : Type} : ProtocolOption ε → Option (Option Nat)
  | .logger l => some l
  | _ => none
def Opt.ProtocolOption.timeout? {ε : Type} : ProtocolOption ε → Option Int
  | .pingTimeout d => some d
  | _ => none
def Opt.GossipOption.events? {ε : Type} : GossipOption ε → Option (Option ε)
  | .events e => some (some e)

/-- A second. -/
abbrev second : Int := 1000000000

/-- **C138 (searches).** Whatever options a search gets, in whatever order, each of its settings is the one of the last option for it, and without one the documented default: 16 results, 3 lookups, 8 requests each, 3 seconds, and the logger
of the node. -/
theorem C138_iterator_options (nodeLogger : Nat) (opts : List IterOption) :
    (newIterator nodeLogger opts).maxNumResults = lastSetting IterOption.max? 16 opts ∧
    (newIterator nodeLogger opts).numParallelLookups = lastSetting IterOption.lookups? 3 opts ∧
    (newIterator nodeLogger opts).numParallelRequestsPerLookup = lastSetting IterOption.requests? 8 opts ∧
    (newIterator nodeLogger opts).lookupTimeout = lastSetting IterOption.timeout? (3 * second) opts ∧
    (newIterator nodeLogger opts).logger = lastSetting IterOption.logger? (some nodeLogger) opts :=
  ⟨foldl_setting (f := Iterator.maxNumResults) (sel := IterOption.max?) (ap := IterOption.apply) (by intro n o; cases o <;> rfl) opts _,
   foldl_setting (f := Iterator.numParallelLookups) (sel := IterOption.lookups?) (ap := IterOption.apply) (by intro n o; cases o <;> rfl) opts _,
   foldl_setting (f := Iterator.numParallelRequestsPerLookup) (sel := IterOption.requests?) (ap := IterOption.apply) (by intro n o; cases o <;> rfl) opts _,
   foldl_setting (f := Iterator.lookupTimeout) (sel := IterOption.timeout?) (ap := IterOption.apply) (by intro n o; cases o <;> rfl) opts _,
   foldl_setting (f := Iterator.logger) (sel := IterOption.logger?) (ap := IterOption.apply) (by intro n o; cases o <;> rfl) opts _⟩

/-- **C138 (overlay).** The same for `kademlia.New`: pings time out after 3 seconds unless configured otherwise; and the protocol, once bound, logs to the logger of the last `WithProtocolLogger`, or, without one or if that was nil, to that of
the node. -/
theorem C138_protocol_options {ε : Type} (opts : List (ProtocolOption ε)) (self : ID) (nodeLogger : Nat) :
    ((newProtocol opts).bind self nodeLogger).pingTimeout = lastSetting ProtocolOption.timeout? (3 * second) opts ∧
    ((newProtocol opts).bind self nodeLogger).events = lastSetting ProtocolOption.events? none opts ∧
    ((newProtocol opts).bind self nodeLogger).logger = some ((lastSetting ProtocolOption.logger? none opts).getD nodeLogger) ∧
    ((newProtocol opts).bind self nodeLogger).table = some self := by
  refine ⟨foldl_setting (f := Protocol.pingTimeout) (sel := ProtocolOption.timeout?) (ap := ProtocolOption.apply) (by intro n o; cases o <;> rfl) opts _,
    foldl_setting (f := Protocol.events) (sel := ProtocolOption.events?) (ap := ProtocolOption.apply) (by intro n o; cases o <;> rfl) opts _, ?_, rfl⟩
  have h := foldl_setting (f := Protocol.logger) (sel := ProtocolOption.logger?) (ap := ProtocolOption.apply (ε := ε)) (by intro n o; cases o <;> rfl) opts ⟨none, none, 3 * 1000000000, none⟩
  have h' : (newProtocol opts).logger = lastSetting ProtocolOption.logger? none opts := h
  simp only [Protocol.bind, h']
  cases lastSetting ProtocolOption.logger? none opts <;> rfl

/-- **C138 (gossip).** `gossip.New` keeps the overlay, has a cache of 32 MB and the callbacks of the last `WithEvents`. -/
theorem C138_gossip_options {ο ε : Type} (overlay : ο) (opts : List (GossipOption ε)) :
    (newGossip overlay opts).overlay = overlay ∧ (newGossip overlay opts).cache = 33554432 ∧ (newGossip overlay opts).events = lastSetting GossipOption.events? none opts := by
  refine ⟨?_, ?_, foldl_setting (f := Gossip.events) (sel := GossipOption.events?) (ap := GossipOption.apply) (by intro n o; cases o; rfl) opts _⟩
  · have : ∀ (g : Gossip ο ε), (opts.foldl GossipOption.apply g).overlay = g.overlay := by
      induction opts with
      | nil => intro g; rfl
      | cons o opts ih => intro g; rw [List.foldl_cons, ih]; cases o; rfl
    exact this _
  · have : ∀ (g : Gossip ο ε), (opts.foldl GossipOption.apply g).cache = g.cache := by
      induction opts with
      | nil => intro g; rfl
      | cons o opts ih => intro g; rw [List.foldl_cons, ih]; cases o; rfl
    exact this _

example : newIterator 7 [.maxNumResults 2, .lookupTimeout 5, .maxNumResults 4, .numParallelLookups 1] = ⟨some 7, 4, 1, 8, 5⟩ := by decide +kernel
example : ((newProtocol [ProtocolOption.logger (some 3), .events true, .logger none] : Protocol Bool).bind ID.zero 7).logger = some 7 ∧
    ((newProtocol [ProtocolOption.logger none, .events true, .logger (some 3)] : Protocol Bool).bind ID.zero 7).logger = some 3 := by decide +kernel

/-! ## C139 -/

namespace Opt

/-- With no workers nobody is asked. -/
theorem idle_step {S : Sorter} {c : Iter.Cfg} (hc : c.requests = 0) {s s' : Iter.State} {a : Iter.Action} (hl : ∀ l ∈ s.lookups, Iter.LInv c l) (h : s.shared.asked = [] ∧ s.shared.chan = [] ∧ s.collected = [])
    (hs : Iter.step S c s a = some s') : s'.shared.asked = [] ∧ s'.shared.chan = [] ∧ s'.collected = [] := by
  cases a with
  | lookup i a =>
    simp only [Iter.step] at hs
    split at hs
    · rename_i l hi
      have hw : l.workers = [] := by
        have := (hl l (List.mem_of_getElem? hi)).wlen
        rw [hc] at this
        exact List.length_eq_zero_iff.1 this
      split at hs
      · rename_i sh l' hst
        cases hs
        cases a with
        | main =>
          simp only [Iter.lookupStep, Iter.mainStep] at hst
          repeat' (split at hst)
          all_goals first | (cases hst; done) | (cases hst; exact h)
        | worker j => simp [Iter.lookupStep, hw] at hst
        | answer j who r => simp [Iter.lookupStep, hw] at hst
      · cases hs
    · cases hs
  | close =>
    simp only [Iter.step] at hs
    split at hs
    · cases hs; exact h
    · cases hs
  | collect => simp only [Iter.step, h.2.1] at hs; cases hs
  | finish =>
    simp only [Iter.step] at hs
    split at hs
    · cases hs; exact h
    · cases hs

end Opt

/-- **C139.** Let a search begin with any options, on any routing table. It crashes the process when it begins if and only if the number of parallel lookups is negative, or it is zero and the table knows somebody other than the node
itself, or it is positive and the number of requests per lookup is negative. Otherwise it crashes, under every schedule and with all answers, when it has ended if and only if the maximal number of results is negative; and if the number of
requests per lookup is not positive, it asks nobody and (unless it crashes) returns nobody. -/
theorem C139_usable_options (S : Sorter) (it : Iterator) (self : ID) (t : Table) (ht : Table.Reachable self t) (target : PublicKey) (peers : List ID) (hp : t.peers S = .ok peers) :
    (it.start self.id target peers = .panic ↔
      it.numParallelLookups < 0 ∨ (it.numParallelLookups = 0 ∧ ∃ e ∈ t.all, e.id ≠ self.id) ∨ (0 < it.numParallelLookups ∧ it.numParallelRequestsPerLookup < 0)) ∧
    ∀ c s0, it.start self.id target peers = .ok (c, s0) → ∀ as s, runs (Iter.step S c) s0 as = some s → ∀ r, s.returned = some r →
      (r = .panic ↔ it.maxNumResults < 0) ∧
      (it.numParallelRequestsPerLookup ≤ 0 → s.shared.asked = [] ∧ (r = .panic ∨ r = .ok [])) := by
  have hpe : peers ≠ [] ↔ ∃ e ∈ t.all, e.id ≠ self.id := by
    obtain ⟨l, h5, _, h7, _, h9⟩ := C51_find_closest S self t ht self.id bucketSize
    rw [Table.peers, ht.inv.2] at hp
    have : (Res.ok l : Res (List ID)) = .ok peers := by rw [← h5, ← hp]
    cases this
    constructor
    · intro hne
      obtain ⟨e, he⟩ := List.exists_mem_of_ne_nil _ hne
      exact ⟨e, h7 e he⟩
    · rintro ⟨e, he, hne⟩ rfl
      have hmem : e ∈ t.all.filter fun x => x.id ≠ self.id := List.mem_filter.2 ⟨he, by simpa using hne⟩
      have hpos := List.length_pos_of_mem hmem
      simp only [List.length_nil, bucketSize] at h9
      omega
  constructor
  · unfold Iterator.start Iter.init
    simp only
    by_cases h1 : it.numParallelLookups < 0
    · simp [h1]
    · by_cases h2 : it.numParallelLookups = 0
      · by_cases h3 : peers = []
        · have : ¬ ∃ e ∈ t.all, e.id ≠ self.id := fun h => hpe.2 h h3
          simp [h2, h3, this]
        · have := hpe.1 h3
          simp [h2, h3, this]
      · have h4 : 0 < it.numParallelLookups := by omega
        have h5 : it.numParallelLookups.toNat ≠ 0 := by omega
        simp only [h1, if_false, h5, false_and, h4, true_and, h2, false_or]
        split <;> simp_all
  · intro c s0 hst as s hr r hret
    unfold Iterator.start at hst
    split at hst
    · cases hst
    · simp only at hst
      split at hst
      · rename_i sI hi
        split at hst
        · cases hst
        · injection hst with hst
          injection hst with hc hs0
          subst hs0
          have h0 : Starts S c it.numParallelLookups.toNat peers sI := ⟨self, t, ht, by rw [← hc], hp, by rw [← hc]; exact hi⟩
          have hmax : c.max = it.maxNumResults := by rw [← hc]
          obtain ⟨q1, q2⟩ := C58_results S c _ peers sI s as h0 hr r hret
          rw [hmax] at q1 q2
          refine ⟨⟨fun hrp => ?_, q1⟩, fun hreq => ?_⟩
          · by_contra hn
            obtain ⟨l, h1, _⟩ := q2 (by omega)
            rw [hrp] at h1; cases h1
          · have hc0 : c.requests = 0 := by rw [← hc]; simp only; omega
            have hinv : Iter.Inv S c peers s ∧ (s.shared.asked = [] ∧ s.shared.chan = [] ∧ s.collected = []) := by
              refine runs_inv (P := fun s => Iter.Inv S c peers s ∧ (s.shared.asked = [] ∧ s.shared.chan = [] ∧ s.collected = [])) ?_ hr ⟨h0.inv, ?_⟩
              · rintro x a x' ⟨h1, h2⟩ hx
                exact ⟨h1.step hx, idle_step hc0 (fun l hl => h1.loc l hl) h2 hx⟩
              · unfold Iter.init at hi
                split at hi <;> cases hi
                exact ⟨rfl, rfl, rfl⟩
            refine ⟨hinv.2.1, ?_⟩
            by_cases hm : it.maxNumResults < 0
            · exact Or.inl (q1 hm)
            · obtain ⟨l, h1, _, _, _, h2, _⟩ := q2 (by omega)
              cases l with
              | nil => exact Or.inr h1
              | cons e l =>
                obtain ⟨_, rep, h3, _⟩ := h2 e List.mem_cons_self
                obtain ⟨k, hk⟩ := hinv.1.asked_of_reply h3
                rw [hinv.2.1] at hk; cases hk
      · cases hst
      · cases hst

/-- The defaults do not crash. -/
example : ∃ c s0, (newIterator 0 []).start (lkPeer 1).id (keyOf [9]) lkPeers = .ok (c, s0) := ⟨_, _, rfl⟩

def Opt.crashes (opts : List IterOption) : Bool := match (newIterator 0 opts).start (lkPeer 1).id (keyOf [9]) lkPeers with | .panic => true | _ => false

/-- On a table with peers, no parallel lookup crashes, and so do fewer than no requests. -/
example : crashes [.numParallelLookups 0] = true ∧ crashes [.numParallelLookups (-1)] = true ∧ crashes [.numParallelRequestsPerLookup (-1)] = true ∧ crashes [.numParallelRequestsPerLookup 0] = false ∧ crashes [.maxNumResults (-1)] = false := by
  decide +kernel

/-- The search with the settings of the examples of C58 begins. -/
example : ∃ it : Iterator, it.start (lkPeer 1).id (keyOf [9]) lkPeers = .ok (lkCfg, lkStart) := ⟨newIterator 0 [.numParallelLookups 2, .numParallelRequestsPerLookup 1], rfl⟩

end Noise
