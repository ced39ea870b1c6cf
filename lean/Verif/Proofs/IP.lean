import Verif.Proofs.Ident
/-! Lemmas about the textual form of IP addresses. -/
namespace Noise
open Spec

/-! ### digits -/

/-- Value of a digit string. -/
def digVal (b : Nat) (t : Text) : Nat := t.foldl (fun acc c => b * acc + (fromHexChar c).getD 0) 0

theorem digVal_digits (b : Nat) (hb : 2 ≤ b) (hb' : b ≤ 16) (n : Nat) : digVal b (digits b hb n) = n := by
  induction n using Nat.strongRecOn with
  | _ n ih =>
    unfold digits
    split
    · next h => simp [digVal, hexDigit_val n (by omega)]
    · next h =>
      have hlt : n / b < n := Nat.div_lt_self (by omega) (by omega)
      have e := ih _ hlt
      have hm : n % b < 16 := by have := Nat.mod_lt n (show 0 < b by omega); omega
      simp only [digVal, List.foldl_append, List.foldl_cons, List.foldl_nil, hexDigit_val _ hm, Option.getD_some] at e ⊢
      rw [e]
      exact Nat.div_add_mod n b

theorem digits_inj (b : Nat) (hb : 2 ≤ b) (hb' : b ≤ 16) {m n : Nat} (h : digits b hb m = digits b hb n) : m = n := by
  rw [← digVal_digits b hb hb' m, ← digVal_digits b hb hb' n, h]

theorem digits_ne_nil (b : Nat) (hb : 2 ≤ b) (n : Nat) : digits b hb n ≠ [] := by
  unfold digits; split <;> simp

/-- The sixteen lower-case hexadecimal digits. -/
def IsHexDigit (c : Char) : Prop := c ∈ "0123456789abcdef".toList

instance : DecidablePred IsHexDigit := fun c => by unfold IsHexDigit; infer_instance

theorem hexDigit_isHex (n : Nat) (h : n < 16) : IsHexDigit (hexDigit n) := by
  have : ∀ n : Fin 16, IsHexDigit (hexDigit n.1) := by decide
  exact this ⟨n, h⟩

theorem digits_chars (b : Nat) (hb : 2 ≤ b) (hb' : b ≤ 16) (n : Nat) : ∀ c ∈ digits b hb n, IsHexDigit c := by
  induction n using Nat.strongRecOn with
  | _ n ih =>
    unfold digits
    split
    · next h => intro c hc; simp at hc; subst hc; exact hexDigit_isHex n (by omega)
    · next h =>
      intro c hc
      rw [List.mem_append] at hc
      rcases hc with hc | hc
      · exact ih _ (Nat.div_lt_self (by omega) (by omega)) c hc
      · simp at hc; subst hc
        exact hexDigit_isHex _ (by have := Nat.mod_lt n (show 0 < b by omega); omega)

theorem dec_inj {m n : Nat} (h : dec m = dec n) : m = n := digits_inj 10 _ (by omega) h
theorem hexNat_inj {m n : Nat} (h : hexNat m = hexNat n) : m = n := digits_inj 16 _ (by omega) h
theorem dec_chars (n : Nat) : ∀ c ∈ dec n, IsHexDigit c := digits_chars 10 _ (by omega) n
theorem hexNat_chars (n : Nat) : ∀ c ∈ hexNat n, IsHexDigit c := digits_chars 16 _ (by omega) n
theorem dec_ne_nil (n : Nat) : dec n ≠ [] := digits_ne_nil 10 _ n
theorem hexNat_ne_nil (n : Nat) : hexNat n ≠ [] := digits_ne_nil 16 _ n

theorem isHex_ne {c d : Char} (h : IsHexDigit c) (hd : ¬ IsHexDigit d) : c ≠ d := fun e => hd (e ▸ h)

theorem hex_chars (b : Bytes) : ∀ c ∈ Spec.hex b, IsHexDigit c := by
  intro c hc
  simp only [Spec.hex, List.mem_flatMap] at hc
  obtain ⟨x, _, hx⟩ := hc
  have := x.toNat_lt
  simp at hx
  rcases hx with rfl | rfl <;> exact hexDigit_isHex _ (by omega)

/-! ### splitting at a separator -/

/-- Split a text at every occurrence of `c`. -/
def splitAtChar (c : Char) : Text → List Text
  | [] => [[]]
  | x :: xs =>
    if x = c then [] :: splitAtChar c xs
    else match splitAtChar c xs with
      | [] => [[x]]
      | t :: ts => (x :: t) :: ts

theorem splitAtChar_ne_nil (c : Char) (t : Text) : splitAtChar c t ≠ [] := by
  cases t with
  | nil => simp [splitAtChar]
  | cons x xs =>
    simp only [splitAtChar]
    split
    · simp
    · split <;> simp

theorem splitAtChar_free {c : Char} {t : Text} (h : c ∉ t) : splitAtChar c t = [t] := by
  induction t with
  | nil => rfl
  | cons x xs ih =>
    simp only [List.mem_cons, not_or] at h
    rw [splitAtChar, if_neg (Ne.symm h.1), ih h.2]

theorem splitAtChar_append {c : Char} {t r : Text} (h : c ∉ t) :
    splitAtChar c (t ++ c :: r) = t :: splitAtChar c r := by
  induction t with
  | nil => simp [splitAtChar]
  | cons x xs ih =>
    simp only [List.mem_cons, not_or] at h
    rw [List.cons_append, splitAtChar, if_neg (Ne.symm h.1), ih h.2]

theorem joinWith_cons (c : Char) (t t' : Text) (ts : List Text) : joinWith c (t :: t' :: ts) = t ++ c :: joinWith c (t' :: ts) := rfl

theorem splitAtChar_join {c : Char} {ts : List Text} (hne : ts ≠ []) (h : ∀ t ∈ ts, c ∉ t) :
    splitAtChar c (joinWith c ts) = ts := by
  induction ts with
  | nil => exact absurd rfl hne
  | cons t ts ih =>
    cases ts with
    | nil => simpa [joinWith] using splitAtChar_free (h t (by simp))
    | cons t' ts' =>
      rw [joinWith_cons, splitAtChar_append (h t (by simp)), ih (by simp) (fun u hu => h u (by simp [hu]))]

theorem joinWith_inj {c : Char} {ts us : List Text} (h1 : ts ≠ []) (h2 : us ≠ []) (ht : ∀ t ∈ ts, c ∉ t)
    (hu : ∀ t ∈ us, c ∉ t) (h : joinWith c ts = joinWith c us) : ts = us := by
  rw [← splitAtChar_join h1 ht, ← splitAtChar_join h2 hu, h]

theorem joinWith_chars {c : Char} {ts : List Text} {P : Char → Prop} (hc : P c) (h : ∀ t ∈ ts, ∀ x ∈ t, P x) :
    ∀ x ∈ joinWith c ts, P x := by
  induction ts with
  | nil => simp [joinWith]
  | cons t ts ih =>
    cases ts with
    | nil => simpa [joinWith] using h t (by simp)
    | cons t' ts' =>
      intro x hx
      rw [joinWith_cons, List.mem_append, List.mem_cons] at hx
      rcases hx with hx | rfl | hx
      · exact h t (by simp) x hx
      · exact hc
      · exact ih (fun u hu => h u (by simp [hu])) x hx

theorem mem_joinWith {c : Char} {t t' : Text} {ts : List Text} : c ∈ joinWith c (t :: t' :: ts) := by
  rw [joinWith_cons]; simp

/-! ### groups of an IPv6 address -/

theorem groups_length (b : Bytes) : (groups b).length = b.length / 2 := by
  fun_induction groups b with
  | case1 a b r ih => simp [ih]; omega
  | case2 b h =>
    match b, h with
    | [], _ => rfl
    | [_], _ => simp
    | a :: b :: r, h => exact absurd rfl (h a b r)

theorem groups_inj {a b : Bytes} (hl : a.length = b.length) (he : a.length % 2 = 0) (h : groups a = groups b) : a = b := by
  fun_induction groups a generalizing b with
  | case1 x y r ih =>
    match b, hl with
    | x' :: y' :: r', hl =>
      rw [groups] at h
      injection h with h1 h2
      simp at hl he
      have e := ih (by omega) (by omega) h2
      have hx := x.toNat_lt
      have hy := y.toNat_lt
      have hx' := x'.toNat_lt
      have hy' := y'.toNat_lt
      have : x.toNat = x'.toNat := by omega
      have : y.toNat = y'.toNat := by omega
      rw [e, UInt8.toNat_inj.1 ‹x.toNat = x'.toNat›, UInt8.toNat_inj.1 ‹y.toNat = y'.toNat›]
  | case2 x hx =>
    match x, hx, b, hl with
    | [], _, [], _ => rfl
    | [_], _, _, _ => simp at he
    | a :: b :: r, hx, _, _ => exact absurd rfl (hx a b r)

/-- What the zero-run search guarantees: a run of at least two zero groups. -/
def GoodRun (g : List Nat) (a b : Nat) : Prop := a < b ∧ b ≤ g.length ∧ (g.drop a).take (b - a) = List.replicate (b - a) 0

theorem runEnd_good (g : List Nat) (i : Nat) (hi : i < runEnd g i) : GoodRun g i (runEnd g i) := by
  unfold runEnd at *
  refine ⟨hi, ?_, ?_⟩
  · have h := (List.takeWhile_prefix (p := (· == 0)) (l := g.drop i)).length_le
    simp at h
    omega
  · have : i + ((g.drop i).takeWhile (· == 0)).length - i = ((g.drop i).takeWhile (· == 0)).length := by omega
    rw [this]
    have h := List.takeWhile_prefix (p := (· == 0)) (l := g.drop i)
    rw [List.prefix_iff_eq_take] at h
    rw [← h]
    rw [List.eq_replicate_iff]
    refine ⟨rfl, fun x hx => ?_⟩
    have := List.all_takeWhile (p := (· == 0)) (l := g.drop i)
    rw [List.all_eq_true] at this
    simpa using this x hx

theorem scanRuns_good (g : List Nat) (fuel i : Nat) (r : Option (Nat × Nat))
    (hr : ∀ a b, r = some (a, b) → GoodRun g a b) : ∀ a b, scanRuns g fuel i r = some (a, b) → GoodRun g a b := by
  induction fuel generalizing i r with
  | zero => simpa [scanRuns] using hr
  | succ n ih =>
    intro a b h
    rw [scanRuns.eq_def] at h
    simp only at h
    split at h
    · have new : i < runEnd g i → ∀ a' b', some (i, runEnd g i) = some (a', b') → GoodRun g a' b' := by
        intro hc a' b' e
        simp only [Option.some.injEq, Prod.mk.injEq] at e
        obtain ⟨rfl, rfl⟩ := e
        exact runEnd_good g _ hc
      split at h <;> split at h
      all_goals first
        | exact ih _ _ (new (by rename_i hc; exact hc.1)) a b h
        | exact ih _ _ hr a b h
    · exact hr a b h

theorem zeroRun_good {g : List Nat} {a b : Nat} (h : zeroRun g = some (a, b)) : GoodRun g a b ∧ a + 2 ≤ b := by
  unfold zeroRun at h
  split at h
  · next a' b' e =>
    split at h
    · cases h
    · simp only [Option.some.injEq, Prod.mk.injEq] at h
      obtain ⟨rfl, rfl⟩ := h
      exact ⟨scanRuns_good g _ _ none (by simp) _ _ e, by omega⟩
  · cases h

/-- A list with a good run is determined by what lies outside the run. -/
theorem goodRun_split {g : List Nat} {a b : Nat} (h : GoodRun g a b) :
    g = g.take a ++ List.replicate (b - a) 0 ++ g.drop b := by
  have e1 : g.drop a = (g.drop a).take (b - a) ++ (g.drop a).drop (b - a) := (List.take_append_drop _ _).symm
  rw [h.2.2, List.drop_drop, show a + (b - a) = b from by have := h.1; omega] at e1
  rw [List.append_assoc, ← e1, List.take_append_drop]

/-! ### the texts -/

theorem colon_not_hex : ¬ IsHexDigit ':' := by decide
theorem dot_not_hex : ¬ IsHexDigit '.' := by decide

theorem hexToks_free (g : List Nat) : ∀ t ∈ g.map hexNat, ':' ∉ t := by
  intro t ht hc
  simp only [List.mem_map] at ht
  obtain ⟨n, _, rfl⟩ := ht
  exact colon_not_hex (hexNat_chars n _ hc)

theorem hexToks_ne_nil (g : List Nat) : ∀ t ∈ g.map hexNat, t ≠ [] := by
  intro t ht
  simp only [List.mem_map] at ht
  obtain ⟨n, _, rfl⟩ := ht
  exact hexNat_ne_nil n

theorem map_hexNat_inj {g h : List Nat} (e : g.map hexNat = h.map hexNat) : g = h := by
  induction g generalizing h with
  | nil => cases h with
    | nil => rfl
    | cons _ _ => simp at e
  | cons x xs ih =>
    cases h with
    | nil => simp at e
    | cons y ys => simp at e; rw [hexNat_inj e.1, ih e.2]

/-- Tokens of "joined groups". -/
def toks (ts : List Text) : List Text := if ts = [] then [[]] else ts

theorem split_join_toks {ts : List Text} (h : ∀ t ∈ ts, ':' ∉ t) : splitAtChar ':' (joinWith ':' ts) = toks ts := by
  unfold toks
  split
  · next e => subst e; rfl
  · next e => exact splitAtChar_join e h

theorem split_join_append {ts : List Text} (h : ∀ t ∈ ts, ':' ∉ t) (r : Text) :
    splitAtChar ':' (joinWith ':' ts ++ ':' :: r) = toks ts ++ splitAtChar ':' r := by
  induction ts with
  | nil => simp [joinWith, toks, splitAtChar]
  | cons t ts ih =>
    cases ts with
    | nil => simp only [joinWith, toks]; rw [splitAtChar_append (h t (by simp))]; simp
    | cons t' ts' =>
      rw [joinWith_cons, List.append_assoc, List.cons_append, splitAtChar_append (h t (by simp)),
        ih (fun u hu => h u (by simp [hu]))]
      simp [toks]

/-- Tokens of "pre::post". -/
theorem split_compressed {pre post : List Text} (h1 : ∀ t ∈ pre, ':' ∉ t) (h2 : ∀ t ∈ post, ':' ∉ t) :
    splitAtChar ':' (joinWith ':' pre ++ [':', ':'] ++ joinWith ':' post) = toks pre ++ [] :: toks post := by
  have : joinWith ':' pre ++ [':', ':'] ++ joinWith ':' post = joinWith ':' pre ++ ':' :: (':' :: joinWith ':' post) := by simp
  rw [this, split_join_append h1]
  simp [splitAtChar, split_join_toks h2]

/-- The tokens of "pre::post" determine `pre` and `post`. -/
theorem toks_inj {p q : List Text} (hp : ∀ t ∈ p, t ≠ []) (hq : ∀ t ∈ q, t ≠ []) (h : toks p = toks q) : p = q := by
  unfold toks at h
  split at h <;> split at h
  · simp_all
  · subst h; exact absurd rfl (hq [] (by simp))
  · exact absurd rfl (hp [] (by rw [h]; simp))
  · exact h

theorem first_nil_unique {p q r s : List Text} (hp : ∀ t ∈ p, t ≠ []) (hq : ∀ t ∈ q, t ≠ [])
    (h : p ++ [] :: r = q ++ [] :: s) : p = q ∧ r = s := by
  induction p generalizing q with
  | nil => cases q with
    | nil => simpa using h
    | cons y ys =>
      simp only [List.nil_append, List.cons_append, List.cons.injEq] at h
      exact absurd h.1.symm (hq y (by simp))
  | cons x xs ih =>
    cases q with
    | nil =>
      simp only [List.nil_append, List.cons_append, List.cons.injEq] at h
      exact absurd h.1 (hp x (by simp))
    | cons y ys =>
      simp only [List.cons_append, List.cons.injEq] at h
      have := ih (fun t ht => hp t (by simp [ht])) (fun t ht => hq t (by simp [ht])) h.2
      exact ⟨by rw [h.1, this.1], this.2⟩

theorem compressed_inj {p q r s : List Text} (hp : ∀ t ∈ p, t ≠ []) (hq : ∀ t ∈ q, t ≠ [])
    (hr : ∀ t ∈ r, t ≠ []) (hs : ∀ t ∈ s, t ≠ [])
    (h : toks p ++ [] :: toks r = toks q ++ [] :: toks s) : p = q ∧ r = s := by
  by_cases e1 : p = []
  · by_cases e2 : q = []
    · subst e1; subst e2
      simp only [toks, if_true, List.cons_append, List.nil_append, List.cons.injEq, true_and] at h
      exact ⟨rfl, toks_inj hr hs h⟩
    · subst e1
      simp only [toks, if_true, if_neg e2, List.cons_append, List.nil_append] at h
      cases q with
      | nil => exact absurd rfl e2
      | cons y ys =>
        simp only [List.cons_append, List.cons.injEq] at h
        exact absurd h.1.symm (hq y (by simp))
  · by_cases e2 : q = []
    · subst e2
      simp only [toks, if_true, if_neg e1, List.cons_append, List.nil_append] at h
      cases p with
      | nil => exact absurd rfl e1
      | cons y ys =>
        simp only [List.cons_append, List.cons.injEq] at h
        exact absurd h.1 (hp y (by simp))
    · simp only [toks, if_neg e1, if_neg e2] at h
      have := first_nil_unique hp hq h
      exact ⟨this.1, toks_inj hr hs this.2⟩

theorem ipv6Text_inj {a b : Bytes} (ha : a.length = 16) (hb : b.length = 16) (h : ipv6Text a = ipv6Text b) : a = b := by
  apply groups_inj (by omega) (by omega)
  have la : (groups a).length = 8 := by rw [groups_length, ha]
  have lb : (groups b).length = 8 := by rw [groups_length, hb]
  have nea : (groups a).map hexNat ≠ [] := by intro e; rw [List.map_eq_nil_iff] at e; rw [e] at la; simp at la
  have neb : (groups b).map hexNat ≠ [] := by intro e; rw [List.map_eq_nil_iff] at e; rw [e] at lb; simp at lb
  have hs := congrArg (splitAtChar ':') h
  unfold ipv6Text at hs
  dsimp only at hs
  cases ra : zeroRun (groups a) with
  | none =>
    cases rb : zeroRun (groups b) with
    | none =>
      rw [ra, rb] at hs
      dsimp only at hs
      rw [splitAtChar_join nea (hexToks_free _), splitAtChar_join neb (hexToks_free _)] at hs
      exact map_hexNat_inj hs
    | some r =>
      obtain ⟨x, y⟩ := r
      rw [ra, rb] at hs
      dsimp only at hs
      rw [splitAtChar_join nea (hexToks_free _), split_compressed (hexToks_free _) (hexToks_free _)] at hs
      exact absurd rfl (hexToks_ne_nil (groups a) [] (by rw [hs]; simp))
  | some r =>
    obtain ⟨x, y⟩ := r
    obtain ⟨ga, wa⟩ := zeroRun_good ra
    cases rb : zeroRun (groups b) with
    | none =>
      rw [ra, rb] at hs
      dsimp only at hs
      rw [splitAtChar_join neb (hexToks_free _), split_compressed (hexToks_free _) (hexToks_free _)] at hs
      exact absurd rfl (hexToks_ne_nil (groups b) [] (by rw [← hs]; simp))
    | some r' =>
      obtain ⟨x', y'⟩ := r'
      obtain ⟨gb, wb⟩ := zeroRun_good rb
      rw [ra, rb] at hs
      dsimp only at hs
      rw [split_compressed (hexToks_free _) (hexToks_free _), split_compressed (hexToks_free _) (hexToks_free _)] at hs
      obtain ⟨h1, h2⟩ := compressed_inj (hexToks_ne_nil _) (hexToks_ne_nil _) (hexToks_ne_nil _) (hexToks_ne_nil _) hs
      have e1 := map_hexNat_inj h1
      have e2 := map_hexNat_inj h2
      have s1 := goodRun_split ga
      have s2 := goodRun_split gb
      have n1 := congrArg List.length e1
      have n2 := congrArg List.length e2
      simp only [List.length_take, List.length_drop, la, lb] at n1 n2
      have b1 := ga.2.1
      have b2 := gb.2.1
      have b3 := ga.1
      have b4 := gb.1
      have : y - x = y' - x' := by omega
      rw [s1, s2, e1, e2, this]

theorem ipv6Text_chars (a : Bytes) : ∀ c ∈ ipv6Text a, IsHexDigit c ∨ c = ':' := by
  have key : ∀ (g : List Nat), ∀ c ∈ joinWith ':' (g.map hexNat), IsHexDigit c ∨ c = ':' := by
    intro g
    apply joinWith_chars (P := fun c => IsHexDigit c ∨ c = ':') (Or.inr rfl)
    intro t ht x hx
    simp only [List.mem_map] at ht
    obtain ⟨n, _, rfl⟩ := ht
    exact Or.inl (hexNat_chars n x hx)
  unfold ipv6Text
  dsimp only
  split
  · exact key _
  · intro c hc
    simp only [List.mem_append, List.mem_cons, List.not_mem_nil, or_false, or_self] at hc
    rcases hc with (hc | rfl) | hc
    · exact key _ c hc
    · exact Or.inr rfl
    · exact key _ c hc

theorem colon_mem_ipv6Text (a : Bytes) (ha : a.length = 16) : ':' ∈ ipv6Text a := by
  have la : (groups a).length = 8 := by rw [groups_length, ha]
  unfold ipv6Text
  dsimp only
  split
  · match hg : groups a with
    | [] => simp [hg] at la
    | [_] => simp [hg] at la
    | x :: y :: r => simp only [List.map_cons]; exact mem_joinWith
  · simp

end Noise
