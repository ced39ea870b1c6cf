import Verif.Model.NodeCfg
import Verif.Spec.Config
import Verif.Proofs.Parse
/-! # Lemmas about options and `Listen` -/
namespace Noise
open Spec

theorem foldl_setting {O N β : Type} {ap : N → O → N} {f : N → β} {sel : O → Option β} (h : ∀ n o, f (ap n o) = (sel o).getD (f n)) (opts : List O) (n : N) :
    f (opts.foldl ap n) = lastSetting sel (f n) opts := by
  induction opts generalizing n with
  | nil => rfl
  | cons o opts ih =>
    rw [List.foldl_cons, ih, h]
    unfold lastSetting
    cases hs : sel o with
    | none => simp [hs]
    | some b =>
      simp only [List.filterMap_cons, hs, Option.getD_some]
      rw [List.getLast?_cons]
      simp

theorem lastSetting_pos {O : Type} {sel : O → Option Nat} {d : Nat} (opts : List O) (hd : 1 ≤ d) (h : ∀ o b, sel o = some b → 1 ≤ b) : 1 ≤ lastSetting sel d opts := by
  unfold lastSetting
  cases hl : (opts.filterMap sel).getLast? with
  | none => exact hd
  | some b =>
    obtain ⟨o, _, ho⟩ := List.mem_filterMap.1 (List.mem_of_getLast? hl)
    exact h o b ho

/-! ## characters of parseable hosts -/

/-- Characters that a text accepted by `net.ParseIP` may contain. -/
def ParseChar (c : Char) : Prop := (fromHexChar c).isSome ∨ c = '.' ∨ c = ':'

theorem toiLoop_rest {val : Char → Option Nat} {b : Nat} : ∀ {s : Text} {m n : Nat} {r : Text}, toiLoop val b m s = some (n, r) → ∃ d, s = d ++ r ∧ ∀ c ∈ d, (val c).isSome := by
  intro s
  induction s with
  | nil => intro m n r h; simp only [toiLoop, Option.some.injEq, Prod.mk.injEq] at h; exact ⟨[], by simp [h.2], by simp⟩
  | cons c cs ih =>
    intro m n r h
    simp only [toiLoop] at h
    split at h
    · simp only [Option.some.injEq, Prod.mk.injEq] at h
      exact ⟨[], by simp [h.2], by simp⟩
    · rename_i d hd
      split at h
      · cases h
      · obtain ⟨x, hx, hv⟩ := ih h
        refine ⟨c :: x, by simp [hx], ?_⟩
        intro y hy
        rcases List.mem_cons.1 hy with rfl | hy
        · simp [hd]
        · exact hv y hy

theorem toi_rest {val : Char → Option Nat} {b : Nat} {s : Text} {n : Nat} {r : Text} (h : toi val b s = some (n, r)) : ∃ d, s = d ++ r ∧ ∀ c ∈ d, (val c).isSome := by
  unfold toi at h
  split at h
  · cases h
  · split at h
    · exact toiLoop_rest h
    · cases h

theorem dec_hex {c : Char} (h : (fromDecChar c).isSome) : (fromHexChar c).isSome := by
  unfold fromDecChar at h
  unfold fromHexChar
  split at h
  · rename_i h'; rw [if_pos h']; rfl
  · cases h

theorem v4Loop_chars : ∀ {k : Nat} {f : Bool} {s : Text} {b : Bytes}, v4Loop k f s = some b → ∀ c ∈ s, ParseChar c := by
  intro k
  induction k with
  | zero =>
    intro f s b h
    simp only [v4Loop] at h
    split at h
    · rename_i hs; subst hs; simp
    · cases h
  | succ k ih =>
    intro f s b h
    simp only [v4Loop] at h
    split at h
    · cases h
    · rename_i s' hs'
      split at h
      · cases h
      · rename_i n r hd
        split at h
        · cases h
        · simp only [Option.map_eq_some_iff] at h
          obtain ⟨b', hb', _⟩ := h
          have hr := ih hb'
          obtain ⟨d, rfl, hdv⟩ := toi_rest hd
          have hs2 : ∀ c ∈ d ++ r, ParseChar c := by
            intro c hc
            rcases List.mem_append.1 hc with hc | hc
            · exact Or.inl (dec_hex (hdv c hc))
            · exact hr c hc
          split at hs'
          · simp only [Option.some.injEq] at hs'
            rw [hs']; exact hs2
          · split at hs'
            · simp only [Option.some.injEq] at hs'
              subst hs'
              intro c hc
              rcases List.mem_cons.1 hc with rfl | hc
              · exact Or.inr (Or.inl rfl)
              · exact hs2 c hc
            · cases hs'

theorem v6Loop_chars : ∀ {k : Nat} {acc : Bytes} {e : Option Nat} {s : Text} {a : Bytes} {e' : Option Nat}, v6Loop k acc e s = some (a, e', []) → ∀ c ∈ s, ParseChar c := by
  intro k
  induction k with
  | zero =>
    intro acc e s a e' h
    simp only [v6Loop, Option.some.injEq, Prod.mk.injEq] at h
    simp [h.2.2]
  | succ k ih =>
    intro acc e s a e' h
    simp only [v6Loop] at h
    split at h
    · cases h
    · rename_i n r hx
      obtain ⟨d, hs, hd⟩ := toi_rest hx
      have key : (∀ c ∈ r, ParseChar c) → ∀ c ∈ s, ParseChar c := by
        intro hr c hc
        rw [hs] at hc
        rcases List.mem_append.1 hc with hc | hc
        · exact Or.inl (hd c hc)
        · exact hr c hc
      have colon : ParseChar ':' := Or.inr (Or.inr rfl)
      split at h
      · cases h
      · split at h
        · exact key (by simp)
        · split at h
          · cases h
          · split at h
            · cases h
            · simp only [Option.map_eq_some_iff] at h
              obtain ⟨b', hb', _⟩ := h
              exact v4Loop_chars hb'
        · cases h
        · rename_i r' 
          split at h
          · cases h
          · split at h
            · rename_i hr'
              apply key
              subst hr'
              intro c hc; simp at hc; rw [hc]; exact colon
            · have := ih h
              apply key
              intro c hc
              rcases List.mem_cons.1 hc with rfl | hc
              · exact colon
              · rcases List.mem_cons.1 hc with rfl | hc
                · exact colon
                · exact this c hc
        · have := ih h
          apply key
          intro c hc
          rcases List.mem_cons.1 hc with rfl | hc
          · exact colon
          · exact this c hc
        · cases h

theorem v6Finish_rest {a : Bytes} {e : Option Nat} {s : Text} {b : Bytes} (h : v6Finish (a, e, s) = some b) : s = [] := by
  unfold v6Finish at h
  apply Classical.byContradiction
  intro hs
  simp [hs] at h

theorem parseIP_chars {s : Text} {ip : IP} (h : parseIP s = some ip) : ∀ c ∈ s, ParseChar c := by
  unfold parseIP at h
  have colon : ParseChar ':' := Or.inr (Or.inr rfl)
  have fin : ∀ (e : Option Nat) (t : Text), (v6Loop 8 [] e t).bind v6Finish = some ip → ∀ c ∈ t, ParseChar c := by
    intro e t h
    cases hl : v6Loop 8 [] e t with
    | none => rw [hl] at h; cases h
    | some x =>
      obtain ⟨a, e', r⟩ := x
      rw [hl] at h
      have := v6Finish_rest h
      subst this
      exact v6Loop_chars hl
  split at h
  · simp only [Option.map_eq_some_iff] at h
    obtain ⟨b, hb, _⟩ := h
    exact v4Loop_chars hb
  · unfold parseIPv6 at h
    split at h
    · intro c hc; simp at hc; rw [hc]; exact colon
    · have := fin _ _ h
      intro c hc
      rcases List.mem_cons.1 hc with rfl | hc
      · exact colon
      · rcases List.mem_cons.1 hc with rfl | hc
        · exact colon
        · exact this c hc
    · exact fin _ _ h
  · cases h

theorem parseIP_percent {s : Text} (h : '%' ∈ s) : parseIP s = none := by
  cases hp : parseIP s with
  | none => rfl
  | some ip =>
    have := parseIP_chars hp _ h
    exact absurd this (by unfold ParseChar; decide)

theorem mem_split_first {c : Char} {s : Text} (h : c ∈ s) : ∃ x y, s = x ++ c :: y ∧ c ∉ x := by
  induction s with
  | nil => cases h
  | cons d s ih =>
    by_cases e : d = c
    · exact ⟨[], s, by simp [e], by simp⟩
    · rcases List.mem_cons.1 h with h | h
      · exact absurd h.symm e
      · obtain ⟨x, y, hs, hx⟩ := ih h
        exact ⟨d :: x, y, by simp [hs], by simp [hx, Ne.symm e]⟩

/-- Splitting "[host%zone]:port" gives "host%zone" or fails. -/
theorem splitHostPort_zone {h p a b : Text} (hp : ∀ c ∈ p, IsHexDigit c) (hm : '%' ∈ h) (hs : splitHostPort (joinHostPort h p) = some (a, b)) : a = h := by
  have p1 : ':' ∉ p := fun hm => colon_not_hex (hp _ hm)
  unfold joinHostPort at hs
  rw [if_pos (Or.inr hm)] at hs
  have e1 : '[' :: h ++ [']', ':'] ++ p = ('[' :: h ++ [']']) ++ ':' :: p := by simp
  unfold splitHostPort at hs
  rw [e1, cutLast_append p1, ← e1] at hs
  by_cases hb : ']' ∈ h
  · obtain ⟨x, y, rfl, hx⟩ := mem_split_first hb
    have e2 : '[' :: (x ++ ']' :: y) ++ [']', ':'] ++ p = ('[' :: x) ++ ']' :: (y ++ [']', ':'] ++ p) := by simp
    rw [e2, cutFirst_append (by simp [hx])] at hs
    simp at hs
  · have e2 : '[' :: h ++ [']', ':'] ++ p = ('[' :: h) ++ ']' :: ':' :: p := by simp
    rw [e2, cutFirst_append (by simp [hb])] at hs
    simp at hs
    exact hs.2.2.1.symm

theorem parseIP_nil : parseIP [] = none := rfl

end Noise
