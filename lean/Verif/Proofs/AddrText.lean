import Verif.Proofs.Addr
import Verif.Spec.AddrText
/-! # The text of an address is the canonical one -/
namespace Noise
open Spec

theorem digitChar_hexDigit (n : Nat) (h : n < 16) : Nat.digitChar n = hexDigit n := by
  have : ∀ n : Fin 16, Nat.digitChar n = hexDigit n := by decide
  exact this ⟨n, h⟩

theorem digits_toDigits (b : Nat) (hb : 2 ≤ b) (hb' : b ≤ 16) (n : Nat) : digits b hb n = Nat.toDigits b n := by
  fun_induction digits b hb n with
  | case1 n h => rw [Nat.toDigits_of_lt_base h, digitChar_hexDigit n (by omega)]
  | case2 n h ih => rw [Nat.toDigits_of_base_le (by omega) (by omega), ih, digitChar_hexDigit _ (Nat.lt_of_lt_of_le (Nat.mod_lt _ (by omega)) hb')]

theorem dec_eq (n : Nat) : dec n = Nat.toDigits 10 n := digits_toDigits 10 _ (by omega) n
theorem hexNat_eq (n : Nat) : hexNat n = Nat.toDigits 16 n := digits_toDigits 16 _ (by omega) n

theorem joinWith_eq (c : Char) : ∀ ts : List Text, joinWith c ts = List.intercalate [c] ts
  | [] => rfl
  | [t] => by simp [joinWith, List.intercalate]
  | t :: u :: ts => by rw [joinWith_cons, List.intercalate_cons_cons, joinWith_eq c (u :: ts)]; simp

theorem groups_eq (b : Bytes) : groups b = words b := by
  fun_induction groups b with
  | case1 a b r ih => rw [words, ih, Nat.mul_comm]
  | case2 x hx =>
    match x, hx with
    | [], _ => rfl
    | [_], _ => rfl
    | a :: b :: r, hx => exact absurd rfl (hx a b r)

theorem colons_eq (g : List Nat) : joinWith ':' (g.map hexNat) = colons g := by
  rw [joinWith_eq, colons]
  congr 1
  exact List.map_congr_left fun n _ => hexNat_eq n

theorem dotted_eq (b : Bytes) : joinWith '.' (b.map fun x => dec x.toNat) = dotted b := by
  rw [joinWith_eq, dotted]
  congr 1
  exact List.map_congr_left fun n _ => dec_eq _

/-! ## The longest run of zeros -/

theorem goodRun_zeros {g : List Nat} {a b : Nat} : GoodRun g a b → ZerosAt g a b := by
  rintro ⟨h1, h2, h3⟩
  refine ⟨h1, h2, fun i hi hj => ?_⟩
  have : ((g.drop a).take (b - a))[i - a]? = some 0 := by
    rw [h3, List.getElem?_replicate, if_pos (by omega)]
  rwa [List.getElem?_take_of_lt (by omega), List.getElem?_drop, show a + (i - a) = i by omega] at this

theorem takeWhile_zeros : ∀ (l : List Nat) (n : Nat), (∀ i < n, l[i]? = some 0) → n ≤ (l.takeWhile (· == 0)).length
  | _, 0, _ => Nat.zero_le _
  | [], n + 1, h => by simpa using h 0 (by omega)
  | x :: l, n + 1, h => by
    have h0 : x = 0 := by simpa using h 0 (by omega)
    subst h0
    have := takeWhile_zeros l n fun i hi => by simpa using h (i + 1) (by omega)
    simp only [List.takeWhile_cons, beq_self_eq_true, if_true, List.length_cons]
    omega

/-- No run that begins at `i` goes beyond `runEnd g i`. -/
theorem zeros_le_runEnd {g : List Nat} {i d : Nat} (h : ZerosAt g i d) : d ≤ runEnd g i := by
  obtain ⟨h1, h2, h3⟩ := h
  have := takeWhile_zeros (g.drop i) (d - i) fun k hk => by
    rw [List.getElem?_drop]; exact h3 (i + k) (by omega) (by omega)
  unfold runEnd
  omega

theorem zerosAt_tail {g : List Nat} {a b c : Nat} (h : ZerosAt g a b) (h1 : a ≤ c) (h2 : c < b) : ZerosAt g c b :=
  ⟨h2, h.2.1, fun i hi hj => h.2.2 i (by omega) hj⟩

/-- The first longest run of zeros among those that begin before `i`; `none`: there is none. -/
def Best (g : List Nat) (i : Nat) : Option (Nat × Nat) → Prop
  | none => ∀ c d, ZerosAt g c d → i ≤ c
  | some (a, b) => ZerosAt g a b ∧ a < i ∧ ∀ c d, ZerosAt g c d → c < i → d - c ≤ b - a ∧ (d - c = b - a → a ≤ c)

theorem scanRuns_best (g : List Nat) (fuel i : Nat) (r : Option (Nat × Nat)) (hf : g.length < fuel + i) (h : Best g i r) :
    ∃ i', g.length ≤ i' ∧ Best g i' (scanRuns g fuel i r) := by
  induction fuel generalizing i r with
  | zero => exact ⟨i, by omega, h⟩
  | succ n ih =>
    rw [scanRuns.eq_def]
    simp only
    by_cases hi : i < g.length
    · rw [if_pos hi]
      have hmax : ∀ d, ZerosAt g i d → d ≤ runEnd g i := fun d hd => zeros_le_runEnd hd
      have hge : i ≤ runEnd g i := by unfold runEnd; omega
      have new : i < runEnd g i → (∀ c d, ZerosAt g c d → c < i → d - c < runEnd g i - i) → Best g (runEnd g i + 1) (some (i, runEnd g i)) := by
        intro hlt hw
        refine ⟨goodRun_zeros (runEnd_good g i hlt), by omega, fun c d hz hc => ?_⟩
        rcases Nat.lt_or_ge c i with hci | hci
        · have := hw c d hz hci; omega
        · have hz' : c < runEnd g i → d ≤ runEnd g i := by
            intro hcr
            refine hmax d ⟨by have := hz.1; omega, hz.2.1, fun k hk hkd => ?_⟩
            rcases Nat.lt_or_ge k c with hkc | hkc
            · exact (goodRun_zeros (runEnd_good g i hlt)).2.2 k hk (by omega)
            · exact hz.2.2 k hkc hkd
          rcases Nat.lt_or_ge c (runEnd g i) with hcr | hcr
          · have := hz' hcr; omega
          · have hce : c = runEnd g i := by omega
            have : runEnd g i + 1 ≤ runEnd g i := by
              refine hmax _ ⟨by omega, by have := hz.1; have := hz.2.1; omega, fun k hk hkd => ?_⟩
              rcases Nat.lt_or_ge k c with hkc | hkc
              · exact (goodRun_zeros (runEnd_good g i hlt)).2.2 k hk (by omega)
              · exact hz.2.2 k hkc (by have := hz.1; omega)
            omega
      match r, h with
      | none, h =>
        simp only
        split
        · rename_i hc
          exact ih _ _ (by omega) (new hc.1 fun c d hz hci => absurd (h c d hz) (by omega))
        · rename_i hc
          refine ih _ _ (by omega) fun c d hz => ?_
          rcases Nat.lt_or_ge i c with hic | hic
          · exact hic
          · have := h c d hz
            have hce : c = i := by omega
            subst hce
            have := hmax d hz
            have := hz.1
            exact absurd ⟨by omega, by omega⟩ hc
      | some (a, b), ⟨h1, h2, h3⟩ =>
        simp only
        split
        · rename_i hc
          exact ih _ _ (by omega) (new hc.1 fun c d hz hci => by have := (h3 c d hz hci).1; omega)
        · rename_i hc
          refine ih _ _ (by omega) ⟨h1, by omega, fun c d hz hci => ?_⟩
          rcases Nat.lt_or_ge c i with hic | hic
          · exact h3 c d hz hic
          · have hce : c = i := by omega
            subst hce
            have := hmax d hz
            have := hz.1
            have : ¬ (b - a < runEnd g c - c) := fun h' => hc ⟨by omega, h'⟩
            omega
    · rw [if_neg hi]
      exact ⟨i, by omega, h⟩

theorem zerosAt_lt {g : List Nat} {c d : Nat} (h : ZerosAt g c d) : c < g.length := by have := h.1; have := h.2.1; omega

theorem zeroRun_none {g : List Nat} (h : zeroRun g = none) (c d : Nat) (hz : ZerosAt g c d) : d ≤ c + 1 := by
  obtain ⟨i, hi, hb⟩ := scanRuns_best g (g.length + 1) 0 none (by omega) (fun _ _ _ => Nat.zero_le _)
  unfold zeroRun at h
  have hlt := zerosAt_lt hz
  split at h
  · rename_i a b e
    rw [e] at hb
    split at h
    · have := (hb.2.2 c d hz (by omega)).1
      omega
    · cases h
  · rename_i e
    rw [e] at hb
    have := hb c d hz
    omega

theorem zeroRun_some {g : List Nat} {a b : Nat} (h : zeroRun g = some (a, b)) :
    ZerosAt g a b ∧ a + 2 ≤ b ∧ ∀ c d, ZerosAt g c d → d - c ≤ b - a ∧ (d - c = b - a → a ≤ c) := by
  obtain ⟨i, hi, hb⟩ := scanRuns_best g (g.length + 1) 0 none (by omega) (fun _ _ _ => Nat.zero_le _)
  have hg := zeroRun_good h
  unfold zeroRun at h
  split at h
  · rename_i a' b' e
    split at h
    · cases h
    · cases h
      rw [e] at hb
      exact ⟨hb.1, hg.2, fun c d hz => hb.2.2 c d hz (by have := zerosAt_lt hz; omega)⟩
  · cases h

theorem ipv6Text_canonical (a : Bytes) : Text6 (words a) (ipv6Text a) := by
  unfold ipv6Text
  simp only [groups_eq]
  cases hz : zeroRun (words a) with
  | none => simp only [colons_eq]; exact .plain (zeroRun_none hz)
  | some p =>
    obtain ⟨x, y⟩ := p
    simp only [colons_eq]
    obtain ⟨h1, h2, h3⟩ := zeroRun_some hz
    exact .short x y h1 h2 h3

theorem text6_unique {g : List Nat} {t u : Text} (ht : Text6 g t) (hu : Text6 g u) : t = u := by
  cases ht with
  | plain h => cases hu with
    | plain h' => rfl
    | short a b hz two _ => exact absurd (h a b hz) (by omega)
  | short a b hz two hl => cases hu with
    | plain h' => exact absurd (h' a b hz) (by omega)
    | short a' b' hz' two' hl' =>
      have h1 := hl a' b' hz'
      have h2 := hl' a b hz
      have ha : a = a' := Nat.le_antisymm (h1.2 (by omega)) (h2.2 (by omega))
      have hb : b = b' := by omega
      rw [ha, hb]

end Noise
