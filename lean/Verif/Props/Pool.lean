import Verif.Proofs.Pool
/-! # Properties C34, C35, C36: what the connection pools hold -/
namespace Noise
open Pool Spec
variable {α : Type} [DecidableEq α]

/-- A pool of a node holds, after any history, as many clients as its listing shows, and at most `applied`; no operation panics. -/
theorem pool_bounded (L : Limits) (w : Which) (hmax : 0 < L.applied w) (ops : List (Op α)) :
    ∃ c rs cs, L.pool w ops = some (c, rs) ∧ c.slice = some cs ∧ cs.length ≤ L.applied w := by
  obtain ⟨c, T, h1, r⟩ := Rep.new.history hmax ops
  refine ⟨c, _, _, h1, r.slice, ?_⟩
  rw [List.length_map]
  exact lru_history_length hmax ops _ (Nat.zero_le _)

/-- **C34.** With a positive limit, after every history of gets, removals and releases of the inbound pool — no operation of which can panic — the listing
(`Inbound()`) has at most `maxInboundConnections` clients. (A limit of zero is replaced by 128 on construction: C39.) -/
theorem C34_inbound_bounded (L : Limits) (hmax : 0 < L.maxInbound) (ops : List (Op α)) :
    ∃ c rs cs, L.pool .inbound ops = some (c, rs) ∧ c.slice = some cs ∧ cs.length ≤ L.maxInbound :=
  pool_bounded L .inbound hmax ops

/-- The bound is attained: three addresses, limit two. -/
example : ∃ c rs, (⟨2, 7⟩ : Limits).pool .inbound [Op.get 10, .get 20, .get 30] = some (c, rs) ∧ c.slice = some [2, 1] :=
  ⟨_, _, rfl, rfl⟩

/-- **C35 is false of the code.** With a limit of one outbound connection (and the default-like limit of 128 for inbound ones) two dials leave two clients in the
outbound pool; generally, for all limits with `maxOutbound < maxInbound` some history exceeds the outbound limit. -/
theorem C35_outbound_exceeds_refuted (L : Limits) (h : L.maxOutbound < L.maxInbound) :
    ∃ (ops : List (Op Nat)) (c : ClientMap Nat) (rs : List GetRes) (cs : List Nat),
      L.pool .outbound ops = some (c, rs) ∧ c.slice = some cs ∧ L.maxOutbound < cs.length := by
  obtain ⟨m, hm⟩ : ∃ m, L.maxInbound = m + 1 := ⟨L.maxInbound - 1, by omega⟩
  have hmax : 0 < L.applied .outbound := by simp only [Limits.applied]; omega
  obtain ⟨c, T, h1, r⟩ := (Rep.new (α := Nat)).history hmax ((List.range L.maxInbound).map Op.get)
  refine ⟨_, c, _, _, h1, r.slice, ?_⟩
  have h2 := lru_gets_recent (m := m) (List.range L.maxInbound) (Lru.empty : Lru Nat) [] (by simp [Lru.empty, recent])
  have happ : L.applied .outbound = m + 1 := hm
  have h3 := congrArg List.length h2
  rw [List.length_map] at h3
  rw [List.length_map, happ, h3, List.append_nil, List.length_take]
  have h4 : ∀ S : List Nat, S.Nodup → recent S = S := by
    intro S
    induction S with
    | nil => intro _; rfl
    | cons a S ih =>
      intro hn
      rw [List.nodup_cons] at hn
      rw [recent, ih hn.2, List.filter_eq_self.2]
      intro x hx
      exact decide_eq_true (fun e => hn.1 (e ▸ hx))
  rw [h4 _ (List.nodup_reverse.2 List.nodup_range), List.length_reverse, List.length_range]
  omega

/-- **C35, what holds** (missing: the bound by the configured outbound maximum when it is the smaller one): the outbound pool never has more clients than the
*inbound* maximum, hence the claim holds for every configuration with `maxInbound ≤ maxOutbound`. -/
theorem C35_outbound_bounded_partial (L : Limits) (hmax : 0 < L.maxInbound) (ops : List (Op α)) :
    ∃ c rs cs, L.pool .outbound ops = some (c, rs) ∧ c.slice = some cs ∧ cs.length ≤ L.maxInbound ∧ (L.maxInbound ≤ L.maxOutbound → cs.length ≤ L.maxOutbound) := by
  obtain ⟨c, rs, cs, h1, h2, h3⟩ := pool_bounded L .outbound hmax ops
  exact ⟨c, rs, cs, h1, h2, h3, fun h => Nat.le_trans h3 h⟩

example : ∃ c rs, (⟨128, 1⟩ : Limits).pool .outbound [Op.get 10, .get 20] = some (c, rs) ∧ c.slice = some [1, 0] := ⟨_, _, rfl, rfl⟩

/-- **C36, refinement.** After every history the pool behaves as the bounded most-recently-used-first list `Spec.Lru`: the gets return the same clients, report
the same `exists` and evict the same clients; the listing is the list of clients of the specification, which holds no address twice. -/
theorem C36_lru (L : Limits) (w : Which) (hmax : 0 < L.applied w) (ops : List (Op α)) :
    ∃ c, L.pool w ops = some (c, (Lru.empty.history (L.applied w) ops).2)
      ∧ c.slice = some ((Lru.empty.history (L.applied w) ops).1.list.map Prod.snd)
      ∧ ((Lru.empty.history (L.applied w) ops).1.list.map Prod.fst).Nodup := by
  obtain ⟨c, T, h1, r⟩ := Rep.new.history hmax ops
  exact ⟨c, h1, r.slice, Lru.nodup_history ops _ List.nodup_nil⟩

/-- **C36, recency.** After any sequence of requests, the pooled addresses are the `max` most recently requested distinct ones, in that order, and the pooled
clients are listed in that order. -/
theorem C36_most_recent (L : Limits) (w : Which) (hmax : 0 < L.applied w) (as : List α) :
    ∃ c rs, L.pool w (as.map Op.get) = some (c, rs) ∧ c.order.map Prod.snd = (recent as.reverse).take (L.applied w)
      ∧ c.slice = some ((c.order.map Prod.snd).filterMap (fun a => (lookup c.entries a).map (·.client))) := by
  obtain ⟨m, hm⟩ : ∃ m, L.applied w = m + 1 := ⟨L.applied w - 1, by omega⟩
  obtain ⟨c, T, h1, r⟩ := Rep.new.history hmax (as.map Op.get)
  have h2 := lru_gets_recent (m := m) as (Lru.empty : Lru α) [] (by simp [Lru.empty, recent])
  refine ⟨c, _, h1, ?_, ?_⟩
  · rw [← hm, r.list, List.append_nil] at h2
    rw [r.order, ← h2]; simp [Tri.ord, Tri.lru, Function.comp_def]
  · rw [r.slice, r.list, r.order]
    congr 1
    have : ∀ S : List (Tri α), (∀ t ∈ S, t ∈ T) →
        (S.map Tri.lru).map Prod.snd = ((S.map Tri.ord).map Prod.snd).filterMap (fun a => (lookup c.entries a).map (·.client)) := by
      intro S
      induction S with
      | nil => intro _; rfl
      | cons t S ih =>
        intro h
        simp only [List.map_cons, ih (fun x hx => h x (List.mem_cons_of_mem _ hx))]
        rw [List.filterMap_cons_some (b := t.client)]
        · rfl
        · simp only [Tri.ord, r.lookup_mem (h t List.mem_cons_self)]; rfl
    exact this T (fun _ h => h)

/-- 1, 2, 1, 3 with limit two: 2 was evicted. -/
example : recent [3, 1, 2, 1] = [3, 1, 2] := by decide
example : ∃ c, (⟨2, 2⟩ : Limits).pool .inbound [Op.get 1, .get 2, .get 1, .get 3]
    = some (c, [⟨0, false, none⟩, ⟨1, false, none⟩, ⟨0, true, none⟩, ⟨2, false, some 1⟩]) ∧ c.slice = some [2, 0] := ⟨_, rfl, rfl⟩

end Noise
