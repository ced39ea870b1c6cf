import Verif.Proofs.ClientCalls
import Verif.Model.Link
/-! # Effects of one step of a client on requests, submitted and processed messages -/
namespace Noise.Cl
open Spec
variable {ε : Type}

/-- The fixed part of a call. -/
def Call.nd (c : Call) : UInt64 × Bytes := (c.nonce, c.data)

/-- What a step does to the request table, the calls and the message traffic. -/
inductive Eff (s s' : State ε) : Action ε → Prop
  | start {data r n} : s.reqs.nextNonce s.calls.length = (r, some n) → s'.reqs = r → s'.calls.map Call.nd = s.calls.map Call.nd ++ [(n, data)] →
      submittedOf s'.log = submittedOf s.log → s'.log = s.log ++ [.registered s.calls.length n] → Eff s s' (.reqStart data)
  | refused {data r} : s.reqs.nextNonce s.calls.length = (r, none) → s'.reqs = r → s'.calls = s.calls → s'.log = s.log → Eff s s' (.reqStart data)
  | reqSend {i c} : s.calls[i]? = some c → c.st = .registered → s'.reqs = s.reqs → s'.calls.map Call.nd = s.calls.map Call.nd → s'.log = s.log ++ [.submitted ⟨c.nonce, c.data⟩] →
      Eff s s' (.reqSend i)
  | send {m} : s'.reqs = s.reqs → s'.calls = s.calls → s'.log = s.log ++ [.submitted m] → Eff s s' (.send m)
  | route {m} : s.main = .routing m → s'.reqs = (s.reqs.findRequest m.nonce).1 → s'.calls.map Call.nd = s.calls.map Call.nd →
      s'.log = s.log ++ [.processed m (s.reqs.findRequest m.nonce).2.isSome] → Eff s s' .main
  | other {act} : s'.reqs = s.reqs → s'.calls.map Call.nd = s.calls.map Call.nd → submittedOf s'.log = submittedOf s.log → (∃ es, s'.log = s.log ++ es ∧ ∀ e ∈ es, ∀ m b, e ≠ .processed m b) →
      (∀ m, act ≠ .send m) → (∀ i, act ≠ .reqSend i) → Eff s s' act

theorem map_nd_set {l : List Call} {i : Nat} {c d : Call} (h : l[i]? = some c) (hd : d.nd = c.nd) : (l.set i d).map Call.nd = l.map Call.nd := by
  apply List.ext_getElem?
  intro j
  rw [List.getElem?_map, List.getElem?_map, List.getElem?_set]
  by_cases e : i = j
  · subst e
    rw [if_pos rfl, if_pos (List.getElem?_eq_some_iff.1 h).1, h]
    simp [hd]
  · rw [if_neg e]

theorem eff_step {s s' : State ε} {a : Action ε} (hs : step s a = some s') : Eff s s' a := by
  cases a with
  | main =>
    simp only [step] at hs
    cases hm : s.main with
    | routing m =>
      simp only [State.mainStep, hm, Option.some.injEq] at hs
      subst hs
      unfold State.route
      split
      · rename_i r i hf
        refine .route hm (by rw [hf]) ?_ (by rw [hf]; rfl)
        simp only
        apply List.ext_getElem?
        intro j
        simp only [List.getElem?_map, List.getElem?_modify]
        cases s.calls[j]? with
        | none => rfl
        | some c => simp only [Option.map_eq_map, Option.map_some]; split <;> rfl
      · rename_i r hf
        exact .route hm (by rw [hf]) rfl (by rw [hf]; rfl)
    | _ =>
      simp only [State.mainStep, hm, State.closeBegin] at hs
      repeat' split at hs
      all_goals try (cases hs; done)
      all_goals (injection hs with hs; subst hs)
      all_goals refine .other rfl rfl ?_ ?_ (by simp) (by simp)
      all_goals first
        | rfl
        | exact ⟨[], (List.append_nil _).symm, by simp⟩
        | exact ⟨_, rfl, by simp⟩
        | simp [submittedOf]
  | reqStart data =>
    simp only [step] at hs
    split at hs
    · rename_i r n hn
      injection hs with hs; subst hs
      exact .start hn rfl (by simp [Call.nd]) (by simp [submittedOf]) rfl
    · rename_i r hn
      injection hs with hs; subst hs
      exact .refused hn rfl rfl rfl
  | reqSend i =>
    simp only [step] at hs
    split at hs
    · rename_i c hc
      split at hs
      · rename_i hst
        injection hs with hs; subst hs
        exact .reqSend hc hst rfl (map_nd_set hc rfl) rfl
      · cases hs
    · cases hs
  | send m =>
    simp only [step, Option.some.injEq] at hs
    subst hs
    exact .send rfl rfl rfl
  | _ =>
    simp only [step, State.writerStep, State.closeBegin, State.closeConn] at hs
    repeat' split at hs
    all_goals try (cases hs; done)
    all_goals (injection hs with hs; subst hs)
    all_goals refine .other rfl ?_ ?_ ?_ (by simp) (by simp)
    all_goals first
      | rfl
      | exact ⟨[], (List.append_nil _).symm, by simp⟩
      | exact ⟨_, rfl, by simp⟩
      | (simp [submittedOf, State.report, State.setCall]; done)
      | (apply map_nd_set; assumption; rfl)

theorem wrote_mono {s s' : State ε} {a : Action ε} (hs : step s a = some s') : wroteOf s.log <+: wroteOf s'.log := by
  obtain ⟨l, hl⟩ := log_step hs
  rw [hl]; exact ⟨wroteOf l, (List.filterMap_append ..).symm⟩

end Noise.Cl
