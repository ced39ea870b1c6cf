import Verif.Proofs.IP
import Verif.Spec.Endpoint
/-! Lemmas about `NewID`'s address. -/
namespace Noise
open Spec

theorem mapped_eq : v4InV6Prefix = mappedPrefix := rfl

theorem list4 {l : Bytes} (h : l.length = 4) : ∃ a b c d, l = [a, b, c, d] := by
  match l, h with
  | [a, b, c, d], _ => exact ⟨a, b, c, d, rfl⟩

/-- `net.IP.To4` in terms of the 16-byte form. -/
theorem to4_valid {h : Bytes} (hv : h.length = 4 ∨ h.length = 16) :
    to4 h = if (canonicalHost h).take 12 = mappedPrefix then some ((canonicalHost h).drop 12) else none := by
  rcases hv with hv | hv
  · obtain ⟨a, b, c, d, rfl⟩ := list4 hv
    simp [to4, canonicalHost, mappedPrefix]
  · simp [to4, canonicalHost, hv, mapped_eq]

theorem canonical_length {h : Bytes} (hv : h.length = 4 ∨ h.length = 16) : (canonicalHost h).length = 16 := by
  unfold canonicalHost
  rcases hv with hv | hv
  · rw [if_pos hv]; simp [mappedPrefix, hv]
  · rw [if_neg (by omega)]; exact hv

theorem take_drop_16 {c p q : Bytes} (hp : p.length = 12) : c.take 12 = p ∧ c.drop 12 = q → c = p ++ q := by
  rintro ⟨rfl, rfl⟩; exact (List.take_append_drop 12 c).symm

theorem ipEqual_valid {h x : Bytes} (hv : h.length = 4 ∨ h.length = 16) (hx : x.length = 16) :
    ipEqual h x = true ↔ canonicalHost h = x := by
  unfold ipEqual canonicalHost
  rcases hv with hv | hv
  · rw [if_neg (by omega), if_pos ⟨hv, hx⟩, if_pos hv]
    simp only [Bool.and_eq_true, beq_iff_eq]
    constructor
    · rintro ⟨h1, h2⟩
      rw [h2, ← mapped_eq, ← h1]
      exact List.take_append_drop 12 x
    · intro e
      subst e
      refine ⟨?_, ?_⟩
      · rfl
      · rfl
  · rw [if_pos (by omega), if_neg (by omega)]
    simp

theorem hidden_iff {h : Bytes} (hv : h.length = 4 ∨ h.length = 16) :
    (isLoopback h || isUnspecified h) = true ↔ nowhere h := by
  have hl := canonical_length hv
  have hne : h ≠ [] := by intro e; subst e; simp at hv
  have hloop : isLoopback h = true ↔ (canonicalHost h = List.replicate 15 0 ++ [1] ∨ ∃ a b c, canonicalHost h = mappedPrefix ++ [127, a, b, c]) := by
    unfold isLoopback
    rw [to4_valid hv]
    by_cases hp : (canonicalHost h).take 12 = mappedPrefix
    · rw [if_pos hp]
      obtain ⟨a, b, c, d, e⟩ := list4 (l := (canonicalHost h).drop 12) (by simp [hl])
      have ec : canonicalHost h = mappedPrefix ++ [a, b, c, d] := by rw [← hp, ← e]; exact (List.take_append_drop _ _).symm
      rw [ec]
      simp [mappedPrefix, List.replicate]
    · rw [if_neg hp]
      have := ipEqual_valid hv (x := ipv6loopback) rfl
      dsimp only
      rw [this]
      constructor
      · intro e; left; rw [e]; rfl
      · rintro (e | ⟨a, b, c, e⟩)
        · rw [e]; rfl
        · rw [e] at hp; exact absurd rfl hp
  have hun : isUnspecified h = true ↔ (canonicalHost h = List.replicate 16 0 ∨ canonicalHost h = mappedPrefix ++ [0, 0, 0, 0]) := by
    unfold isUnspecified
    rw [Bool.or_eq_true, ipEqual_valid hv (x := ipv4zero) rfl, ipEqual_valid hv (x := ipv6unspecified) rfl]
    exact Or.comm
  rw [Bool.or_eq_true, hloop, hun]
  unfold nowhere
  constructor
  · rintro ((h | h) | (h | h)) <;> simp [h]
  · rintro (h | h | h | h | h)
    · exact absurd h hne
    · exact Or.inl (Or.inl h)
    · exact Or.inr (Or.inl h)
    · exact Or.inr (Or.inr h)
    · exact Or.inl (Or.inr h)

/-- Text of a 16-byte form. -/
def canonText (c : Bytes) : Text :=
  if c.take 12 = mappedPrefix then joinWith '.' ((c.drop 12).map fun x => dec x.toNat) else ipv6Text c

theorem ipString_valid {h : Bytes} (hv : h.length = 4 ∨ h.length = 16) : ipString h = canonText (canonicalHost h) := by
  unfold ipString canonText
  rw [if_neg (by omega), to4_valid hv]
  by_cases hp : (canonicalHost h).take 12 = mappedPrefix
  · rw [if_pos hp, if_pos hp]
  · rw [if_neg hp, if_neg hp]
    rcases hv with hv | hv
    · exfalso; apply hp; simp [canonicalHost, hv, mappedPrefix]
    · simp [hv, canonicalHost]

theorem v4Toks_free (p : Bytes) : ∀ t ∈ p.map (fun x => dec x.toNat), '.' ∉ t := by
  intro t ht hc
  simp only [List.mem_map] at ht
  obtain ⟨n, _, rfl⟩ := ht
  exact dot_not_hex (dec_chars _ _ hc)

theorem v4Text_chars (p : Bytes) : ∀ c ∈ joinWith '.' (p.map fun x => dec x.toNat), IsHexDigit c ∨ c = '.' := by
  apply joinWith_chars (P := fun c => IsHexDigit c ∨ c = '.') (Or.inr rfl)
  intro t ht x hx
  simp only [List.mem_map] at ht
  obtain ⟨n, _, rfl⟩ := ht
  exact Or.inl (dec_chars _ x hx)

theorem map_dec_inj {p q : Bytes} (e : p.map (fun x => dec x.toNat) = q.map (fun x => dec x.toNat)) : p = q := by
  induction p generalizing q with
  | nil => cases q with
    | nil => rfl
    | cons _ _ => simp at e
  | cons x xs ih =>
    cases q with
    | nil => simp at e
    | cons y ys => simp at e; rw [UInt8.toNat_inj.1 (dec_inj e.1), ih e.2]

theorem canonText_chars (c : Bytes) : ∀ x ∈ canonText c, IsHexDigit x ∨ x = '.' ∨ x = ':' := by
  unfold canonText
  split
  · intro x hx; rcases v4Text_chars _ x hx with h | h
    · exact Or.inl h
    · exact Or.inr (Or.inl h)
  · intro x hx; rcases ipv6Text_chars _ x hx with h | h
    · exact Or.inl h
    · exact Or.inr (Or.inr h)

theorem canonText_inj {c d : Bytes} (hc : c.length = 16) (hd : d.length = 16) (h : canonText c = canonText d) : c = d := by
  unfold canonText at h
  have nocolon : ∀ p : Bytes, ':' ∉ joinWith '.' (p.map fun x => dec x.toNat) := by
    intro p hm
    rcases v4Text_chars p _ hm with h | h
    · exact colon_not_hex h
    · cases h
  split at h
  · next h1 =>
    split at h
    · next h2 =>
      have e : (c.drop 12).map (fun x => dec x.toNat) = (d.drop 12).map (fun x => dec x.toNat) := by
        apply joinWith_inj _ _ (v4Toks_free _) (v4Toks_free _) h
        · intro e; rw [List.map_eq_nil_iff] at e; have := congrArg List.length e; simp [hc] at this
        · intro e; rw [List.map_eq_nil_iff] at e; have := congrArg List.length e; simp [hd] at this
      have e' := map_dec_inj e
      rw [← List.take_append_drop 12 c, ← List.take_append_drop 12 d, h1, h2, e']
    · exact absurd (h ▸ colon_mem_ipv6Text d hd) (nocolon _)
  · split at h
    · exact absurd (h ▸ colon_mem_ipv6Text c hc) (nocolon _)
    · exact ipv6Text_inj hc hd h

theorem canonText_ne_nil {c : Bytes} (hc : c.length = 16) : canonText c ≠ [] := by
  unfold canonText
  split
  · obtain ⟨a, b, c', d, e⟩ := list4 (l := c.drop 12) (by simp [hc])
    rw [e]
    simp [joinWith]
  · intro e; have := colon_mem_ipv6Text c hc; rw [e] at this; cases this

theorem canonText_ne_nilText {c : Bytes} : canonText c ≠ "<nil>".toList := by
  intro e
  rcases canonText_chars c '<' (by rw [e]; decide) with h | h | h
  · revert h; decide
  · cases h
  · cases h

open Classical in
theorem normalizeIP_valid {h : Bytes} (hv : validHost h) :
    normalizeIP h = if nowhere h then [] else canonText (canonicalHost h) := by
  rcases hv with h0 | hv
  · have : h = [] := by simpa using h0
    subst this
    have hn : nowhere [] := Or.inl rfl
    rw [if_pos hn]
    decide
  · unfold normalizeIP resolveIP
    by_cases hn : nowhere h
    · rw [if_pos hn, if_pos ((hidden_iff hv).2 hn)]
      decide
    · have : ¬ (isLoopback h || isUnspecified h) = true := fun e => hn ((hidden_iff hv).1 e)
      rw [if_neg hn, if_neg this]
      dsimp only
      rw [ipString_valid hv, if_neg canonText_ne_nilText]

/-- Characters that may occur in the host part of an address. -/
def HostChar (c : Char) : Prop := IsHexDigit c ∨ c = '.' ∨ c = ':'

theorem hostChar_ne {c d : Char} (h : HostChar c) (hd : ¬ HostChar d) : c ≠ d := fun e => hd (e ▸ h)

theorem joinHostPort_inj {h1 h2 p1 p2 : Text} (c1 : ∀ c ∈ h1, HostChar c) (c2 : ∀ c ∈ h2, HostChar c)
    (d1 : ':' ∉ p1) (d2 : ':' ∉ p2) (h : joinHostPort h1 p1 = joinHostPort h2 p2) : h1 = h2 ∧ p1 = p2 := by
  have nb : ¬ HostChar '[' := by unfold HostChar; decide
  have nb' : ¬ HostChar ']' := by unfold HostChar; decide
  have np : ¬ HostChar '%' := by unfold HostChar; decide
  have hp1 : '%' ∉ h1 := fun hm => np (c1 _ hm)
  have hp2 : '%' ∉ h2 := fun hm => np (c2 _ hm)
  have nb1 : ']' ∉ h1 := fun hm => nb' (c1 _ hm)
  have nb2 : ']' ∉ h2 := fun hm => nb' (c2 _ hm)
  unfold joinHostPort at h
  have mixed : ∀ {x y p q : Text}, (∀ c ∈ x, HostChar c) → x ++ ':' :: p ≠ '[' :: y ++ [']', ':'] ++ q := by
    intro x y p q hx e
    cases x with
    | nil => simp at e
    | cons c cs => simp at e; exact hostChar_ne (hx c (by simp)) nb e.1
  by_cases e1 : ':' ∈ h1 <;> by_cases e2 : ':' ∈ h2
  · rw [if_pos (Or.inl e1), if_pos (Or.inl e2)] at h
    simp only [List.cons_append, List.append_assoc, List.cons.injEq, true_and, List.nil_append] at h
    have := congrArg (splitAtChar ']') h
    rw [splitAtChar_append nb1, splitAtChar_append nb2] at this
    injection this with a b
    refine ⟨a, ?_⟩
    subst a
    have := List.append_cancel_left h
    simpa using this
  · rw [if_pos (Or.inl e1), if_neg (by simp [e2, hp2])] at h
    exact absurd h.symm (mixed c2)
  · rw [if_neg (by simp [e1, hp1]), if_pos (Or.inl e2)] at h
    exact absurd h (mixed c1)
  · rw [if_neg (by simp [e1, hp1]), if_neg (by simp [e2, hp2])] at h
    have := congrArg (splitAtChar ':') h
    rw [splitAtChar_append e1, splitAtChar_append e2, splitAtChar_free d1, splitAtChar_free d2] at this
    simpa using this

theorem normalizeIP_chars {h : Bytes} (hv : validHost h) : ∀ c ∈ normalizeIP h, HostChar c := by
  classical
  rw [normalizeIP_valid hv]
  split
  · simp
  · exact canonText_chars _

theorem dec_no_colon (n : Nat) : ':' ∉ dec n := fun h => colon_not_hex (dec_chars n _ h)

/-- Characters that may occur in an address built from a host of any length. -/
def AddrChar (c : Char) : Prop := c ∈ "0123456789abcdef.:?[]".toList

theorem addrChar_of_hex {c : Char} (h : IsHexDigit c) : AddrChar c := by
  unfold IsHexDigit at h
  unfold AddrChar
  simp at h ⊢
  grind

theorem ipString_chars (h : Bytes) : ipString h = "<nil>".toList ∨ ∀ c ∈ ipString h, AddrChar c := by
  unfold ipString
  split
  · exact Or.inl rfl
  · right
    split
    · intro c hc
      rcases v4Text_chars _ c hc with h | rfl
      · exact addrChar_of_hex h
      · unfold AddrChar; decide
    · split
      · intro c hc
        rw [List.mem_cons] at hc
        rcases hc with rfl | hc
        · unfold AddrChar; decide
        · exact addrChar_of_hex (hex_chars _ c hc)
      · intro c hc
        rcases ipv6Text_chars _ c hc with h | rfl
        · exact addrChar_of_hex h
        · unfold AddrChar; decide

theorem address_chars (k : PublicKey) (h : IP) (p : UInt16) : ∀ c ∈ (newID k h p).address, AddrChar c := by
  have hn : ∀ c ∈ normalizeIP h, AddrChar c := by
    unfold normalizeIP
    dsimp only
    split
    · simp
    · next hne => exact (ipString_chars _).resolve_left hne
  have hd : ∀ c ∈ dec p.toNat, AddrChar c := fun c hc => addrChar_of_hex (dec_chars _ c hc)
  intro c hc
  unfold newID joinHostPort at hc
  dsimp only at hc
  have k1 : AddrChar '[' := by unfold AddrChar; decide
  have k2 : AddrChar ']' := by unfold AddrChar; decide
  have k3 : AddrChar ':' := by unfold AddrChar; decide
  split at hc
  · simp only [List.cons_append, List.append_assoc, List.mem_cons, List.mem_append, List.nil_append] at hc
    rcases hc with rfl | hc | rfl | rfl | hc
    · exact k1
    · exact hn c hc
    · exact k2
    · exact k3
    · exact hd c hc
  · simp only [List.mem_cons, List.mem_append] at hc
    rcases hc with hc | rfl | hc
    · exact hn c hc
    · exact k3
    · exact hd c hc

end Noise
