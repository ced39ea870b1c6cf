import Verif.Model.Chat
import Verif.Proofs.Addr
/-!
# Reading lines and repairing text
-/
namespace Noise.Chat
open Spec (utf8)
open Spec.Chat (joined)

/-! ## Reading lines -/

theorem readLine_cases (s : Bytes) :
    (∃ a r, s = a ++ 10 :: r ∧ 10 ∉ a ∧ a.length < bufSize ∧ readLine s = some (dropCR a, r)) ∨
    (∃ a r, s = a ++ 13 :: r ∧ 10 ∉ a ∧ a.length + 1 = bufSize ∧ readLine s = some (a, 13 :: r)) ∨
    (∃ a r, s = a ++ r ∧ 10 ∉ a ∧ a.length = bufSize ∧ a.getLast? ≠ some 13 ∧ readLine s = some (a, r)) ∨
    (s ≠ [] ∧ 10 ∉ s ∧ s.length < bufSize ∧ readLine s = some (s, [])) ∨ (s = [] ∧ readLine s = none) := by
  unfold readLine
  split
  · rename_i i hi
    rw [List.findIdx?_eq_some_iff_getElem] at hi
    obtain ⟨hl, h10, hb⟩ := hi
    rw [List.length_take] at hl
    have hlt : i < s.length := by omega
    left
    refine ⟨s.take i, s.drop (i + 1), ?_, ?_, by rw [List.length_take]; omega, rfl⟩
    · have : s[i] = 10 := by simpa using h10
      rw [← this, List.getElem_cons_drop, List.take_append_drop]
    · intro h
      obtain ⟨j, hj, he⟩ := List.mem_iff_getElem.1 h
      rw [List.length_take] at hj
      have := hb j (by omega)
      simp at this he
      exact this he
  · rename_i hn
    rw [List.findIdx?_eq_none_iff] at hn
    have h10 : (10 : UInt8) ∉ s.take bufSize := fun h => by simpa using hn _ h
    right
    split
    · rename_i hl
      have hlen : (s.take bufSize).length = bufSize := by rw [List.length_take]; omega
      split
      · rename_i h13
        left
        obtain ⟨a, ha⟩ := List.getLast?_eq_some_iff.1 h13
        have hal : a.length + 1 = bufSize := by rw [ha] at hlen; simpa using hlen
        have hs : s = a ++ 13 :: s.drop bufSize := by
          conv => lhs; rw [← List.take_append_drop bufSize s, ha]
          simp
        refine ⟨a, s.drop bufSize, hs, fun h => h10 (by rw [ha]; simp [h]), hal, ?_⟩
        have hb : bufSize - 1 = a.length := by omega
        rw [hb]
        congr 2
        · conv => lhs; rw [hs]
          simp
        · conv => lhs; rw [hs]
          simp
      · rename_i h13
        right; left
        exact ⟨s.take bufSize, s.drop bufSize, (List.take_append_drop _ _).symm, h10, hlen, h13, rfl⟩
    · rename_i hl
      right; right
      rw [List.take_of_length_le (by omega)] at h10
      split
      · rename_i h; exact .inr ⟨h, rfl⟩
      · rename_i h; exact .inl ⟨h, h10, by omega, rfl⟩

theorem bufSize_pos : 2 ≤ bufSize := by decide

theorem readLine_lt {s l r : Bytes} (h : readLine s = some (l, r)) : r.length < s.length := by
  have := bufSize_pos
  rcases readLine_cases s with ⟨a, r', rfl, -, hl, e⟩ | ⟨a, r', rfl, -, hl, e⟩ | ⟨a, r', rfl, -, hl, -, e⟩ | ⟨h0, -, -, e⟩ | ⟨-, e⟩ <;> rw [e] at h <;> simp at h
  · obtain ⟨-, rfl⟩ := h; simp; omega
  · obtain ⟨-, rfl⟩ := h; simp; omega
  · obtain ⟨-, rfl⟩ := h; simp; omega
  · obtain ⟨-, rfl⟩ := h
    exact List.length_pos_iff.2 h0

theorem inputLoop_fuel : ∀ (n m : Nat) (s : Bytes), s.length < n → s.length < m → inputLoop n s = inputLoop m s := by
  intro n
  induction n with
  | zero => intro m s h; omega
  | succ n ih =>
    intro m s h1 h2
    obtain ⟨m, rfl⟩ : ∃ k, m = k + 1 := ⟨m - 1, by omega⟩
    unfold inputLoop
    split
    · rfl
    · rename_i l r he
      have := readLine_lt he
      rw [ih m r (by omega) (by omega)]

/-- One round of the loop. -/
theorem input_step {s l r : Bytes} (h : readLine s = some (l, r)) : input s = if l = [] then input r else l :: input r := by
  have := readLine_lt h
  have e : inputLoop s.length r = input r := inputLoop_fuel _ _ r this (by omega)
  unfold input
  rw [inputLoop, h]
  simp only [List.length_eq_zero_iff]
  rw [e]; rfl

theorem input_nil : input [] = [] := by decide

theorem dropCR_of_ne {l : Bytes} (h : l.getLast? ≠ some 13) : dropCR l = l := if_neg h

theorem dropCR_snoc (l : Bytes) : dropCR (l ++ [13]) = l := by unfold dropCR; simp

/-! ## The bytes of all lines -/

theorem joined_cons {b : UInt8} {r : Bytes} (h1 : b ≠ 10) (h2 : b = 13 → r.head? ≠ some 10) : joined (b :: r) = b :: joined r := by
  match b, r with
  | b, [] => simp [joined]
  | b, c :: r =>
    rw [joined]
    · exact fun h => h1 (by simpa using h)
    · intro r' hb hr
      simp at hr
      exact h2 hb (by simp [hr.1])

theorem joined_append : ∀ (a x : Bytes), 10 ∉ a → (a.getLast? = some 13 → x.head? ≠ some 10) → joined (a ++ x) = a ++ joined x := by
  intro a
  induction a with
  | nil => intro x _ _; rfl
  | cons b a ih =>
    intro x h1 h2
    rw [List.mem_cons, not_or] at h1
    rw [List.cons_append, joined_cons (Ne.symm h1.1), ih x h1.2 ?_, List.cons_append]
    · intro h
      refine h2 ?_
      cases a with
      | nil => simp at h
      | cons c a => rw [List.getLast?_cons_cons]; exact h
    · intro hb
      cases a with
      | nil => exact h2 (by simp [hb])
      | cons c a => simp; rintro rfl; exact h1.2 (by simp)

theorem joined_line (a r : Bytes) (h : 10 ∉ a) : joined (a ++ 10 :: r) = dropCR a ++ joined r := by
  by_cases h13 : a.getLast? = some 13
  · obtain ⟨b, rfl⟩ := List.getLast?_eq_some_iff.1 h13
    rw [dropCR_snoc]
    have hb : 10 ∉ b := fun hm => h (by simp [hm])
    rw [List.append_assoc, joined_append b _ hb (by simp)]
    rfl
  · rw [dropCR_of_ne h13, joined_append a _ h (fun e => absurd e h13)]
    rfl

/-- Nothing that is typed gets lost on the way to `callback`. -/
theorem input_flatten (s : Bytes) : (input s).flatten = joined s := by
  induction hn : s.length using Nat.strongRecOn generalizing s with
  | _ n ih =>
    subst hn
    have key : ∀ l r, readLine s = some (l, r) → (input s).flatten = l ++ joined r := by
      intro l r h
      rw [input_step h]
      have := ih r.length (readLine_lt h) r rfl
      split
      · rename_i hl; rw [this, hl]; rfl
      · rw [List.flatten_cons, this]
    rcases readLine_cases s with ⟨a, r, hs, h10, -, e⟩ | ⟨a, r, hs, h10, -, e⟩ | ⟨a, r, hs, h10, -, h13, e⟩ | ⟨-, h10, -, e⟩ | ⟨rfl, -⟩
    · rw [key _ _ e, hs, joined_line a r h10]
    · rw [key _ _ e, hs, joined_append a _ h10 (by simp)]
    · rw [key _ _ e, hs, joined_append a _ h10 (fun h => absurd h h13)]
    · rw [key _ _ e]
      have := joined_append s [] h10 (by simp)
      rw [List.append_nil] at this
      rw [this]
    · rfl

/-- What `callback` gets is not empty, has no line feed in it and fits into the buffer. -/
theorem input_mem (s : Bytes) : ∀ l ∈ input s, l ≠ [] ∧ 10 ∉ l ∧ l.length ≤ bufSize := by
  induction hn : s.length using Nat.strongRecOn generalizing s with
  | _ n ih =>
    subst hn
    have key : ∀ l r, readLine s = some (l, r) → 10 ∉ l → l.length ≤ bufSize → ∀ x ∈ input s, x ≠ [] ∧ 10 ∉ x ∧ x.length ≤ bufSize := by
      intro l r h h1 h2 x hx
      rw [input_step h] at hx
      have := ih r.length (readLine_lt h) r rfl
      split at hx
      · exact this x hx
      · rename_i hl
        rcases List.mem_cons.1 hx with rfl | hx
        · exact ⟨hl, h1, h2⟩
        · exact this x hx
    rcases readLine_cases s with ⟨a, r, hs, h10, hl, e⟩ | ⟨a, r, hs, h10, hl, e⟩ | ⟨a, r, hs, h10, hl, h13, e⟩ | ⟨-, h10, hl, e⟩ | ⟨rfl, -⟩
    · refine key _ _ e ?_ ?_
      · unfold dropCR
        split
        · exact fun h => h10 (List.dropLast_subset _ h)
        · exact h10
      · unfold dropCR
        split
        · rw [List.length_dropLast]; omega
        · omega
    · exact key _ _ e h10 (by omega)
    · exact key _ _ e h10 (by omega)
    · exact key _ _ e h10 (by omega)
    · simp [input_nil]

/-! ### A line at the front -/

theorem append_lf_inj {a b r q : Bytes} (h : a ++ 10 :: r = b ++ 10 :: q) (ha : 10 ∉ a) (hb : 10 ∉ b) : a = b ∧ r = q := by
  induction a generalizing b with
  | nil => cases b with
    | nil => simpa using h
    | cons c b => simp at h; exact absurd h.1 (fun e => hb (by simp [e]))
  | cons c a ih => cases b with
    | nil => simp at h; exact absurd h.1 (fun e => ha (by simp [e]))
    | cons d b =>
      simp at h ha hb
      obtain ⟨h1, h2⟩ := ih h.2 ha.2 hb.2
      exact ⟨by rw [h.1, h1], h2⟩

theorem readLine_short {a r : Bytes} (h10 : 10 ∉ a) (hl : a.length < bufSize) : readLine (a ++ 10 :: r) = some (dropCR a, r) := by
  rcases readLine_cases (a ++ 10 :: r) with ⟨b, q, hs, hb, -, e⟩ | ⟨b, q, hs, hb, hbl, e⟩ | ⟨b, q, hs, hb, hbl, h13, e⟩ | ⟨-, hb, -, e⟩ | ⟨h, -⟩
  · obtain ⟨rfl, rfl⟩ := append_lf_inj hs h10 hb
    exact e
  · exfalso
    have h1 : (a ++ 10 :: r)[a.length]? = some 10 := by simp
    rw [hs] at h1
    have : a.length < b.length ∨ a.length = b.length := by omega
    rcases this with h | h
    · rw [List.getElem?_append_left h] at h1; exact hb (List.mem_of_getElem? h1)
    · rw [h] at h1; simp at h1
  · exfalso
    have h1 : (a ++ 10 :: r)[a.length]? = some 10 := by simp
    rw [hs, List.getElem?_append_left (by omega)] at h1
    exact hb (List.mem_of_getElem? h1)
  · simp at hb
  · simp at h

theorem readLine_full {a r : Bytes} (h10 : 10 ∉ a) (hl : a.length = bufSize) (h13 : a.getLast? ≠ some 13) : readLine (a ++ r) = some (a, r) := by
  rcases readLine_cases (a ++ r) with ⟨b, q, hs, hb, hbl, e⟩ | ⟨b, q, hs, hb, hbl, e⟩ | ⟨b, q, hs, hb, hbl, h13', e⟩ | ⟨-, hb, h, e⟩ | ⟨h, -⟩
  · exfalso
    have h1 : (b ++ 10 :: q)[b.length]? = some 10 := by simp
    rw [← hs, List.getElem?_append_left (by omega)] at h1
    exact h10 (List.mem_of_getElem? h1)
  · exfalso
    have h1 : (b ++ 13 :: q)[b.length]? = some 13 := by simp
    rw [← hs, List.getElem?_append_left (by omega)] at h1
    apply h13
    rw [List.getLast?_eq_getElem?, ← h1]; congr 1; omega
  · obtain ⟨rfl, rfl⟩ := List.append_inj hs (by omega)
    exact e
  · simp at h; omega
  · simp at h; have := bufSize_pos; rw [h.1] at hl; simp at hl; omega

theorem readLine_cr {a r : Bytes} (h10 : 10 ∉ a) (hl : a.length + 1 = bufSize) : readLine (a ++ 13 :: r) = some (a, 13 :: r) := by
  rcases readLine_cases (a ++ 13 :: r) with ⟨b, q, hs, hb, hbl, e⟩ | ⟨b, q, hs, hb, hbl, e⟩ | ⟨b, q, hs, hb, hbl, h13', e⟩ | ⟨-, hb, h, e⟩ | ⟨h, -⟩
  · exfalso
    have h1 : (b ++ 10 :: q)[b.length]? = some 10 := by simp
    rw [← hs] at h1
    have : b.length < a.length ∨ b.length = a.length := by omega
    rcases this with h | h
    · rw [List.getElem?_append_left h] at h1; exact h10 (List.mem_of_getElem? h1)
    · rw [h] at h1; simp at h1
  · obtain ⟨rfl, h⟩ := List.append_inj hs (by omega)
    rw [e, h]
  · exfalso
    have h1 : (a ++ 13 :: r)[a.length]? = some 13 := by simp
    rw [hs, List.getElem?_append_left (by omega)] at h1
    apply h13'
    rw [List.getLast?_eq_getElem?, ← h1]; congr 1; omega
  · simp at h; omega
  · simp at h

open Spec.Chat (Eol typing)

theorem input_eol (e : Eol) (r : Bytes) : input (e.bytes ++ r) = input r := by
  have := bufSize_pos
  cases e with
  | lf => exact input_step (l := []) (r := r) (readLine_short (a := []) (by simp) (by simp; omega))
  | crlf => exact input_step (l := []) (r := r) (readLine_short (a := [13]) (by simp) (by simp; omega))

theorem input_line {l : Bytes} (h10 : 10 ∉ l) (h13 : l.getLast? ≠ some 13) (hl : l.length ≤ bufSize) (e : Eol) (r : Bytes) :
    input (l ++ (e.bytes ++ r)) = if l = [] then input r else l :: input r := by
  rcases Nat.lt_or_eq_of_le hl with hlt | heq
  · cases e with
    | lf =>
      have := readLine_short (r := r) h10 hlt
      rw [dropCR_of_ne h13] at this
      exact input_step this
    | crlf =>
      by_cases h1 : l.length + 1 = bufSize
      · rw [show (l ++ (Eol.bytes .crlf ++ r)) = l ++ 13 :: 10 :: r from rfl, input_step (readLine_cr h10 h1)]
        rw [show (13 :: 10 :: r : Bytes) = Eol.bytes .crlf ++ r from rfl, input_eol]
      · have := readLine_short (a := l ++ [13]) (r := r) (by simp [h10]) (by simp; omega)
        rw [dropCR_snoc, List.append_assoc] at this
        exact input_step this
  · rw [input_step (readLine_full h10 heq h13), input_eol]

theorem input_typing : ∀ (ls : List (Bytes × Eol)), (∀ x ∈ ls, 10 ∉ x.1 ∧ x.1.getLast? ≠ some 13 ∧ x.1.length ≤ bufSize) →
    input (typing ls) = (ls.map Prod.fst).filter (· ≠ []) := by
  intro ls
  induction ls with
  | nil => intro _; exact input_nil
  | cons x ls ih =>
    intro h
    obtain ⟨h1, h2, h3⟩ := h x (by simp)
    have e : typing (x :: ls) = x.1 ++ (x.2.bytes ++ typing ls) := by simp [typing]
    rw [e, input_line h1 h2 h3, ih fun y hy => h y (by simp [hy])]
    by_cases hx : x.1 = [] <;> simp [hx]

/-! ## UTF-8 -/

theorem runeWidth_two {b0 b1 : UInt8} {r : Bytes} (h0 : 0xc2 ≤ b0.toNat ∧ b0.toNat ≤ 0xdf) (h1 : 0x80 ≤ b1.toNat ∧ b1.toNat ≤ 0xbf) : runeWidth (b0 :: b1 :: r) = some 2 := by
  simp only [runeWidth]
  rw [if_neg (by omega), if_pos h0, if_pos (by simpa using h1)]

theorem runeWidth_three {b0 b1 b2 : UInt8} {r : Bytes} (h0 : 0xe0 ≤ b0.toNat ∧ b0.toNat ≤ 0xef) (h1 : 0x80 ≤ b1.toNat ∧ b1.toNat ≤ 0xbf) (h2 : 0x80 ≤ b2.toNat ∧ b2.toNat ≤ 0xbf)
    (hE : b0.toNat = 0xe0 → 0xa0 ≤ b1.toNat) (hD : b0.toNat = 0xed → b1.toNat ≤ 0x9f) : runeWidth (b0 :: b1 :: b2 :: r) = some 3 := by
  simp only [runeWidth]
  rw [if_neg (by omega), if_neg (by omega), if_pos h0, if_pos]
  simp only [Bool.and_eq_true, decide_eq_true_eq]
  refine ⟨⟨?_, ?_⟩, h2⟩ <;> split <;> omega

theorem runeWidth_four {b0 b1 b2 b3 : UInt8} {r : Bytes} (h0 : 0xf0 ≤ b0.toNat ∧ b0.toNat ≤ 0xf4) (h1 : 0x80 ≤ b1.toNat ∧ b1.toNat ≤ 0xbf) (h2 : 0x80 ≤ b2.toNat ∧ b2.toNat ≤ 0xbf)
    (h3 : 0x80 ≤ b3.toNat ∧ b3.toNat ≤ 0xbf) (hE : b0.toNat = 0xf0 → 0x90 ≤ b1.toNat) (hD : b0.toNat = 0xf4 → b1.toNat ≤ 0x8f) : runeWidth (b0 :: b1 :: b2 :: b3 :: r) = some 4 := by
  simp only [runeWidth]
  rw [if_neg (by omega), if_neg (by omega), if_neg (by omega), if_pos h0, if_pos]
  simp only [Bool.and_eq_true, decide_eq_true_eq]
  refine ⟨⟨⟨?_, ?_⟩, h2⟩, h3⟩ <;> split <;> omega

theorem runeWidth_encode (c : Char) (r : Bytes) : runeWidth (String.utf8EncodeChar c ++ r) = some (String.utf8EncodeChar c).length := by
  have hv : c.val.toNat < 0xd800 ∨ (0xdfff < c.val.toNat ∧ c.val.toNat < 0x110000) := c.valid
  unfold String.utf8EncodeChar
  generalize c.val.toNat = v at hv
  have hof : ∀ n, n < 256 → (UInt8.ofNat n).toNat = n := fun n hn => by simp; omega
  simp only
  split
  · simp only [List.cons_append, List.nil_append, runeWidth, List.length_cons, List.length_nil]
    rw [if_pos (by rw [hof _ (by omega)]; omega)]
  · split
    · exact runeWidth_two (by rw [hof _ (by omega)]; omega) (by rw [hof _ (by omega)]; omega)
    · split
      · refine runeWidth_three ?_ ?_ ?_ ?_ ?_ <;> simp only [hof _ (show v / 4096 % 0x10 + 0xe0 < 256 by omega), hof _ (show v / 64 % 0x40 + 0x80 < 256 by omega), hof _ (show v % 0x40 + 0x80 < 256 by omega)] <;> omega
      · refine runeWidth_four ?_ ?_ ?_ ?_ ?_ ?_ <;> simp only [hof _ (show v / 262144 % 0x08 + 0xf0 < 256 by omega), hof _ (show v / 4096 % 0x40 + 0x80 < 256 by omega), hof _ (show v / 64 % 0x40 + 0x80 < 256 by omega), hof _ (show v % 0x40 + 0x80 < 256 by omega)] <;> omega

theorem toValidLoop_skip : ∀ (a r : Bytes), toValidLoop a.length (a ++ r) = a ++ toValidLoop 0 r := by
  intro a
  induction a with
  | nil => intro r; rfl
  | cons b a ih => intro r; rw [List.length_cons, List.cons_append, toValidLoop, ih]; rfl

theorem encode_ne_nil (c : Char) : String.utf8EncodeChar c ≠ [] := by
  unfold String.utf8EncodeChar
  simp only
  repeat' split
  all_goals simp

/-- A character at the front is kept. -/
theorem toValid_char (c : Char) (r : Bytes) : toValid (String.utf8EncodeChar c ++ r) = String.utf8EncodeChar c ++ toValid r := by
  have hw := runeWidth_encode c r
  have hne := encode_ne_nil c
  generalize String.utf8EncodeChar c = l at hw hne
  cases l with
  | nil => exact absurd rfl hne
  | cons b l =>
    rw [List.cons_append] at hw
    unfold toValid
    rw [List.cons_append, toValidLoop, hw]
    simp only [List.length_cons, Nat.add_sub_cancel]
    rw [toValidLoop_skip, List.cons_append]

theorem toValid_utf8_append (t : Text) (r : Bytes) : toValid (utf8 t ++ r) = utf8 t ++ toValid r := by
  induction t with
  | nil => rfl
  | cons c t ih =>
    have e : ∀ r : Bytes, utf8 (c :: t) ++ r = String.utf8EncodeChar c ++ (utf8 t ++ r) := fun r => by simp [utf8]
    rw [e, toValid_char, ih, e]

/-- Valid text is not changed. -/
theorem toValid_utf8 (t : Text) : toValid (utf8 t) = utf8 t := by
  have := toValid_utf8_append t []
  rwa [List.append_nil, show toValid [] = [] from rfl, List.append_nil] at this

theorem ofNat_eq {b : UInt8} {n : Nat} (h : b.toNat = n) : UInt8.ofNat n = b := by subst h; simp

/-- A valid sequence is the encoding of a character. -/
theorem runeWidth_some {s : Bytes} {w : Nat} (h : runeWidth s = some w) : ∃ c r, s = String.utf8EncodeChar c ++ r ∧ (String.utf8EncodeChar c).length = w := by
  have mk : ∀ v, (v < 0xd800 ∨ (0xdfff < v ∧ v < 0x110000)) → ∃ c : Char, c.val.toNat = v := fun v hv => ⟨Char.ofNat v, by
    have : v.isValidChar := hv
    simp [Char.ofNat, this, Char.ofNatAux]⟩
  have enc : ∀ (c : Char) v, c.val.toNat = v → String.utf8EncodeChar c = if v ≤ 0x7f then [UInt8.ofNat v]
      else if v ≤ 0x7ff then [UInt8.ofNat (v / 64 % 0x20 + 0xc0), UInt8.ofNat (v % 0x40 + 0x80)]
      else if v ≤ 0xffff then [UInt8.ofNat (v / 4096 % 0x10 + 0xe0), UInt8.ofNat (v / 64 % 0x40 + 0x80), UInt8.ofNat (v % 0x40 + 0x80)]
      else [UInt8.ofNat (v / 262144 % 0x08 + 0xf0), UInt8.ofNat (v / 4096 % 0x40 + 0x80), UInt8.ofNat (v / 64 % 0x40 + 0x80), UInt8.ofNat (v % 0x40 + 0x80)] := by
    rintro c v rfl; rfl
  cases s with
  | nil => simp [runeWidth] at h
  | cons b0 r =>
    unfold runeWidth at h
    dsimp only at h
    split at h
    · rename_i h0
      obtain ⟨c, hc⟩ := mk b0.toNat (by omega)
      have e := enc c _ hc
      rw [if_pos (by omega)] at e
      refine ⟨c, r, by rw [e, ofNat_eq rfl]; rfl, ?_⟩
      rw [e]; simpa using h
    · split at h
      · rename_i h0 h1
        split at h
        · rename_i b1 r
          simp only [Bool.and_eq_true, decide_eq_true_eq] at h
          split at h
          · rename_i h2
            obtain ⟨c, hc⟩ := mk ((b0.toNat - 0xc0) * 64 + (b1.toNat - 0x80)) (by omega)
            have e := enc c _ hc
            rw [if_neg (by omega), if_pos (by omega), ofNat_eq (b := b0) (by omega), ofNat_eq (b := b1) (by omega)] at e
            refine ⟨c, r, by rw [e]; rfl, ?_⟩
            rw [e]; simpa using h
          · simp at h
        · simp at h
      · split at h
        · rename_i h0 h1 h2
          split at h
          · rename_i b1 b2 r
            simp only [Option.ite_none_right_eq_some, Bool.and_eq_true, decide_eq_true_eq] at h
            · obtain ⟨⟨⟨h3, h4⟩, h5, h6⟩, h⟩ := h
              have hE : b0.toNat = 0xe0 → 0xa0 ≤ b1.toNat := fun e => by rw [if_pos e] at h3; exact h3
              have hD : b0.toNat = 0xed → b1.toNat ≤ 0x9f := fun e => by rw [if_pos e] at h4; exact h4
              have h3' : 0x80 ≤ b1.toNat := by split at h3 <;> omega
              have h4' : b1.toNat ≤ 0xbf := by split at h4 <;> omega
              obtain ⟨c, hc⟩ := mk ((b0.toNat - 0xe0) * 4096 + (b1.toNat - 0x80) * 64 + (b2.toNat - 0x80)) (by omega)
              have e := enc c _ hc
              rw [if_neg (by omega), if_neg (by omega), if_pos (by omega), ofNat_eq (b := b0) (by omega), ofNat_eq (b := b1) (by omega), ofNat_eq (b := b2) (by omega)] at e
              refine ⟨c, r, by rw [e]; rfl, ?_⟩
              rw [e]; simpa using h
          · simp at h
        · split at h
          · rename_i h0 h1 h2 h2'
            split at h
            · rename_i b1 b2 b3 r
              simp only [Option.ite_none_right_eq_some, Bool.and_eq_true, decide_eq_true_eq] at h
              · obtain ⟨⟨⟨⟨h3, h4⟩, h5, h6⟩, h7, h8⟩, h⟩ := h
                have hE : b0.toNat = 0xf0 → 0x90 ≤ b1.toNat := fun e => by rw [if_pos e] at h3; exact h3
                have hD : b0.toNat = 0xf4 → b1.toNat ≤ 0x8f := fun e => by rw [if_pos e] at h4; exact h4
                have h3' : 0x80 ≤ b1.toNat := by split at h3 <;> omega
                have h4' : b1.toNat ≤ 0xbf := by split at h4 <;> omega
                obtain ⟨c, hc⟩ := mk ((b0.toNat - 0xf0) * 262144 + (b1.toNat - 0x80) * 4096 + (b2.toNat - 0x80) * 64 + (b3.toNat - 0x80)) (by omega)
                have e := enc c _ hc
                rw [if_neg (by omega), if_neg (by omega), if_neg (by omega), ofNat_eq (b := b0) (by omega), ofNat_eq (b := b1) (by omega), ofNat_eq (b := b2) (by omega), ofNat_eq (b := b3) (by omega)] at e
                refine ⟨c, r, by rw [e]; rfl, ?_⟩
                rw [e]; simpa using h
            · simp at h
          · simp at h

/-- What remains is valid text. -/
theorem toValid_valid (s : Bytes) : ∃ t, toValid s = utf8 t := by
  induction hn : s.length using Nat.strongRecOn generalizing s with
  | _ n ih =>
    subst hn
    cases s with
    | nil => exact ⟨[], rfl⟩
    | cons b r =>
      cases hw : runeWidth (b :: r) with
      | none =>
        obtain ⟨t, ht⟩ := ih r.length (by simp) r rfl
        refine ⟨t, ?_⟩
        rw [← ht, toValid, toValidLoop, hw]; rfl
      | some w =>
        obtain ⟨c, q, e, -⟩ := runeWidth_some hw
        have := List.length_pos_iff.2 (encode_ne_nil c)
        obtain ⟨t, ht⟩ := ih q.length (by rw [e, List.length_append]; omega) q rfl
        exact ⟨c :: t, by rw [e, toValid_char, ht]; simp [utf8]⟩

end Noise.Chat
