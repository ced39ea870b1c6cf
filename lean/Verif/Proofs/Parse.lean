import Verif.Model.Parse
import Verif.Proofs.Addr
/-! # Printing and parsing of addresses are inverse -/
namespace Noise
open Spec

theorem hexDigit_dec (n : Nat) (h : n < 10) : fromDecChar (hexDigit n) = some n := by
  have : ∀ n : Fin 10, fromDecChar (hexDigit n.1) = some n.1 := by decide
  exact this ⟨n, h⟩

theorem hexDigit_hex (n : Nat) (h : n < 16) : fromHexChar (hexDigit n) = some n := by
  have : ∀ n : Fin 16, fromHexChar (hexDigit n.1) = some n.1 := by decide
  exact this ⟨n, h⟩

/-- The text does not begin with a digit. -/
def Stops (val : Char → Option Nat) (r : Text) : Prop := ∀ c, r.head? = some c → val c = none

theorem toiLoop_stop {val : Char → Option Nat} {b n : Nat} {r : Text} (h : Stops val r) : toiLoop val b n r = some (n, r) := by
  cases r with
  | nil => rfl
  | cons c cs => simp [toiLoop, h c rfl]

theorem toiLoop_digits {val : Char → Option Nat} {b : Nat} (hb : 2 ≤ b) (hv : ∀ d, d < b → val (hexDigit d) = some d) (n : Nat) :
    ∀ r, n < 0xFFFFFF → toiLoop val b 0 (digits b hb n ++ r) = toiLoop val b n r := by
  induction n using Nat.strongRecOn with
  | _ n ih =>
    intro r hn
    unfold digits
    split
    · rename_i h
      simp only [List.cons_append, List.nil_append, toiLoop, hv n h]
      rw [if_neg (by omega)]
      simp
    · rename_i h
      have hlt : n / b < n := Nat.div_lt_self (by omega) (by omega)
      rw [List.append_assoc, ih _ hlt _ (by omega)]
      have hm : n % b < b := Nat.mod_lt n (by omega)
      have e : n / b * b + n % b = n := by rw [Nat.mul_comm]; exact Nat.div_add_mod n b
      simp only [List.cons_append, List.nil_append, toiLoop, hv _ hm, e]
      rw [if_neg (by omega)]

theorem digits_head {val : Char → Option Nat} {b : Nat} (hb : 2 ≤ b) (hv : ∀ d, d < b → val (hexDigit d) = some d) (n : Nat) :
    ∃ c cs, digits b hb n = c :: cs ∧ (val c).isSome := by
  induction n using Nat.strongRecOn with
  | _ n ih =>
    unfold digits
    split
    · rename_i h; exact ⟨_, _, rfl, by simp [hv n h]⟩
    · rename_i h
      obtain ⟨c, cs, e, hc⟩ := ih (n / b) (Nat.div_lt_self (by omega) (by omega))
      exact ⟨c, cs ++ [hexDigit (n % b)], by simp [e], hc⟩

theorem toi_digits {val : Char → Option Nat} {b : Nat} (hb : 2 ≤ b) (hv : ∀ d, d < b → val (hexDigit d) = some d) {n : Nat} {r : Text} (hn : n < 0xFFFFFF)
    (hr : Stops val r) : toi val b (digits b hb n ++ r) = some (n, r) := by
  obtain ⟨c, cs, e, hc⟩ := digits_head hb hv n
  have h1 := toiLoop_digits hb hv n r hn
  rw [toiLoop_stop hr] at h1
  rw [e] at h1 ⊢
  simp only [List.cons_append, toi, hc, if_true] at h1 ⊢
  exact h1

theorem dtoi_dec {n : Nat} {r : Text} (hn : n < 0xFFFFFF) (hr : Stops fromDecChar r) : dtoi (dec n ++ r) = some (n, r) :=
  toi_digits (by omega) hexDigit_dec hn hr

theorem xtoi_hexNat {n : Nat} {r : Text} (hn : n < 0xFFFFFF) (hr : Stops fromHexChar r) : xtoi (hexNat n ++ r) = some (n, r) :=
  toi_digits (by omega) hexDigit_hex hn hr

theorem stops_nil {val : Char → Option Nat} : Stops val [] := by simp [Stops]
theorem stops_dot (r : Text) : Stops fromDecChar ('.' :: r) := by simp [Stops]; decide
theorem stops_colon (r : Text) : Stops fromHexChar (':' :: r) := by simp [Stops]; decide

theorem parseIPv4_join (p : Bytes) (hp : p.length = 4) : parseIPv4 (joinWith '.' (p.map fun x => dec x.toNat)) = some p := by
  obtain ⟨a, b, c, d, rfl⟩ := list4 hp
  have ha := a.toNat_lt
  have hb := b.toNat_lt
  have hc := c.toNat_lt
  have hd := d.toNat_lt
  have e : joinWith '.' ([a, b, c, d].map fun x => dec x.toNat)
      = dec a.toNat ++ '.' :: (dec b.toNat ++ '.' :: (dec c.toNat ++ '.' :: (dec d.toNat ++ []))) := by simp [joinWith]
  rw [e]
  simp only [parseIPv4, v4Loop, if_true, dtoi_dec (show a.toNat < 0xFFFFFF by omega) (stops_dot _)]
  simp only [Bool.false_eq_true, if_false, if_neg (show ¬ a.toNat > 0xFF by omega), if_neg (show ¬ b.toNat > 0xFF by omega),
    if_neg (show ¬ c.toNat > 0xFF by omega), if_neg (show ¬ d.toNat > 0xFF by omega), dtoi_dec (show b.toNat < 0xFFFFFF by omega) (stops_dot _),
    dtoi_dec (show c.toNat < 0xFFFFFF by omega) (stops_dot _), dtoi_dec (show d.toNat < 0xFFFFFF by omega) stops_nil, Option.map_some]
  simp

/-- The bytes of 16-bit groups. -/
def ungroup (g : List Nat) : Bytes := g.flatMap fun n => [UInt8.ofNat (n / 256), UInt8.ofNat n]

theorem ungroup_length (g : List Nat) : (ungroup g).length = 2 * g.length := by
  induction g with
  | nil => rfl
  | cons n g ih => simp [ungroup] at ih ⊢; omega

theorem ungroup_groups : ∀ (b : Bytes), b.length % 2 = 0 → ungroup (groups b) = b
  | [], _ => rfl
  | [_], h => by simp at h
  | a :: b :: r, h => by
    have ih := ungroup_groups r (by simp at h; omega)
    have ha := a.toNat_lt
    have hb := b.toNat_lt
    have e1 : (a.toNat * 256 + b.toNat) / 256 = a.toNat := by omega
    have e2 : UInt8.ofNat (a.toNat * 256 + b.toNat) = b := by
      apply UInt8.toNat_inj.1
      rw [UInt8.toNat_ofNat']
      omega
    simp only [ungroup] at ih
    simp only [groups, ungroup, List.flatMap_cons, ih, e1, e2]
    simp

theorem v6Loop_join : ∀ (g : List Nat) (k : Nat) (acc : Bytes) (e : Option Nat), g ≠ [] → g.length ≤ k → (∀ n ∈ g, n ≤ 0xFFFF) →
    v6Loop k acc e (joinWith ':' (g.map hexNat)) = some (acc ++ ungroup g, e, []) := by
  intro g
  induction g with
  | nil => intro _ _ _ h; exact absurd rfl h
  | cons n g ih =>
    intro k acc e _ hk hn
    have hn0 : n ≤ 0xFFFF := hn n List.mem_cons_self
    obtain ⟨k, rfl⟩ : ∃ k', k = k' + 1 := ⟨k - 1, by simp at hk; omega⟩
    cases g with
    | nil =>
      have h1 := xtoi_hexNat (n := n) (r := []) (by omega) stops_nil
      rw [List.append_nil] at h1
      simp only [List.map_cons, List.map_nil, joinWith, v6Loop, h1]
      rw [if_neg (by omega)]
      simp [ungroup]
    | cons m g =>
      have ih' := ih k (acc ++ [UInt8.ofNat (n / 256), UInt8.ofNat n]) e (by simp) (by simp at hk ⊢; omega) (fun x hx => hn x (List.mem_cons_of_mem _ hx))
      have h1 := xtoi_hexNat (n := n) (r := ':' :: joinWith ':' ((m :: g).map hexNat)) (by omega) (stops_colon _)
      obtain ⟨c, cs, hc, hcv⟩ := digits_head (val := fromHexChar) (b := 16) (by omega) hexDigit_hex m
      have hcc : c ≠ ':' := by rintro rfl; revert hcv; decide
      have hj : ∃ t, joinWith ':' ((m :: g).map hexNat) = c :: t := by
        cases g with
        | nil => exact ⟨cs, by simp [joinWith, hexNat, hc]⟩
        | cons x g => exact ⟨_, by simp [joinWith, hexNat, hc]; rfl⟩
      obtain ⟨t, ht⟩ := hj
      have e1 : joinWith ':' ((n :: m :: g).map hexNat) = hexNat n ++ ':' :: joinWith ':' ((m :: g).map hexNat) := rfl
      rw [e1]
      simp only [v6Loop, h1]
      rw [if_neg (by omega)]
      rw [ht] at ih' ⊢
      split
      · rename_i h; cases h
      · rename_i h; cases h
      · rename_i h; injection h with _ h; cases h
      · rename_i h; injection h with _ h; injection h with h _; exact absurd h hcc
      · rename_i r _ _ h
        injection h with _ h
        rw [← h, ih']
        simp [ungroup]
      · rename_i h
        exact absurd rfl (h _)

theorem join_head {m : Nat} {g : List Nat} : ∃ c t, joinWith ':' ((m :: g).map hexNat) = c :: t ∧ (fromHexChar c).isSome := by
  obtain ⟨c, cs, hc, hcv⟩ := digits_head (val := fromHexChar) (b := 16) (by omega) hexDigit_hex m
  cases g with
  | nil => exact ⟨c, cs, by simp [joinWith, hexNat, hc], hcv⟩
  | cons x g => exact ⟨c, cs ++ ':' :: joinWith ':' ((x :: g).map hexNat), by simp [joinWith, hexNat, hc], hcv⟩

theorem not_colon {c : Char} (h : (fromHexChar c).isSome) : c ≠ ':' := by rintro rfl; revert h; decide

theorem v6Loop_compressed : ∀ (pre post : List Nat) (k : Nat) (acc : Bytes), pre ≠ [] → pre.length + post.length ≤ k → (∀ n ∈ pre, n ≤ 0xFFFF) → (∀ n ∈ post, n ≤ 0xFFFF) →
    v6Loop k acc none (joinWith ':' (pre.map hexNat) ++ ':' :: ':' :: joinWith ':' (post.map hexNat))
      = some (acc ++ ungroup pre ++ ungroup post, some (acc.length + 2 * pre.length), []) := by
  intro pre post
  induction pre with
  | nil => intro _ _ h; exact absurd rfl h
  | cons n pre ih =>
    intro k acc _ hk hn hpost
    have hn0 : n ≤ 0xFFFF := hn n List.mem_cons_self
    obtain ⟨k, rfl⟩ : ∃ k', k = k' + 1 := ⟨k - 1, by simp at hk; omega⟩
    cases pre with
    | nil =>
      have h1 := xtoi_hexNat (n := n) (r := ':' :: ':' :: joinWith ':' (post.map hexNat)) (by omega) (stops_colon _)
      have e1 : joinWith ':' ([n].map hexNat) = hexNat n := rfl
      rw [e1]
      simp only [v6Loop, h1]
      rw [if_neg (by omega)]
      simp only [Option.isSome_none, Bool.false_eq_true, if_false]
      cases post with
      | nil => simp [joinWith, ungroup]
      | cons m post =>
        obtain ⟨c, t, ht, hc⟩ := join_head (m := m) (g := post)
        rw [if_neg (by rw [ht]; simp)]
        rw [v6Loop_join _ _ _ _ (by simp) (by simp at hk ⊢; omega) hpost]
        simp [ungroup]
    | cons m pre =>
      have ih' := ih k (acc ++ [UInt8.ofNat (n / 256), UInt8.ofNat n]) (by simp) (by simp at hk ⊢; omega) (fun x hx => hn x (List.mem_cons_of_mem _ hx)) hpost
      obtain ⟨c, t, ht, hc⟩ := join_head (m := m) (g := pre)
      have hcc := not_colon hc
      have e1 : joinWith ':' ((n :: m :: pre).map hexNat) ++ ':' :: ':' :: joinWith ':' (post.map hexNat)
        = hexNat n ++ ':' :: (joinWith ':' ((m :: pre).map hexNat) ++ ':' :: ':' :: joinWith ':' (post.map hexNat)) := by
        have : joinWith ':' ((n :: m :: pre).map hexNat) = hexNat n ++ ':' :: joinWith ':' ((m :: pre).map hexNat) := rfl
        rw [this]; simp
      rw [e1]
      have h1 := xtoi_hexNat (n := n) (r := ':' :: (joinWith ':' ((m :: pre).map hexNat) ++ ':' :: ':' :: joinWith ':' (post.map hexNat))) (by omega) (stops_colon _)
      simp only [v6Loop, h1]
      rw [if_neg (by omega)]
      rw [ht, List.cons_append] at ih' ⊢
      split
      · rename_i h; cases h
      · rename_i h; cases h
      · rename_i h; injection h with _ h; cases h
      · rename_i h; injection h with _ h; injection h with h _; exact absurd h hcc
      · rename_i r _ _ h
        injection h with _ h
        rw [← h, ih']
        simp [ungroup]; omega
      · rename_i h
        exact absurd rfl (h _)

theorem groups_le : ∀ (b : Bytes), ∀ n ∈ groups b, n ≤ 0xFFFF
  | [], _, h => by simp [groups] at h
  | [_], _, h => by simp [groups] at h
  | a :: b :: r, n, h => by
    have ha := a.toNat_lt
    have hb := b.toNat_lt
    simp only [groups, List.mem_cons] at h
    rcases h with rfl | h
    · omega
    · exact groups_le r n h

theorem ungroup_append (g h : List Nat) : ungroup (g ++ h) = ungroup g ++ ungroup h := by simp [ungroup]

theorem ungroup_zeros (n : Nat) : ungroup (List.replicate n 0) = List.replicate (2 * n) 0 := by
  induction n with
  | zero => rfl
  | succ n ih => rw [List.replicate_succ, ungroup, List.flatMap_cons, ← ungroup, ih, show 2 * (n + 1) = 2 * n + 1 + 1 by omega]; rfl

/-- `parseIPv6` on a text that does not begin with "::". -/
theorem parseIPv6_plain {c : Char} {t : Text} (h : c ≠ ':') : parseIPv6 (c :: t) = (v6Loop 8 [] none (c :: t)).bind v6Finish := by
  unfold parseIPv6
  split
  · rename_i h'; injection h' with h' _; exact absurd h' h
  · rename_i h'; injection h' with h' _; exact absurd h' h
  · rfl

theorem v6Finish_ellipsis {acc : Bytes} {i : Nat} (h : acc.length < 16) : v6Finish (acc, some i, []) = some (acc.take i ++ List.replicate (16 - acc.length) 0 ++ acc.drop i) := by
  simp [v6Finish, h]

theorem parseIPv6_text (a : Bytes) (ha : a.length = 16) : parseIPv6 (ipv6Text a) = some a := by
  have la : (groups a).length = 8 := by rw [groups_length, ha]
  have hu := ungroup_groups a (by omega)
  have hle := groups_le a
  unfold ipv6Text
  dsimp only
  cases hz : zeroRun (groups a) with
  | none =>
    dsimp only
    have hl := v6Loop_join (groups a) 8 [] none (by intro e; rw [e] at la; simp at la) (by omega) hle
    match hg : groups a with
    | [] => rw [hg] at la; simp at la
    | m :: g =>
      obtain ⟨c, t, ht, hc⟩ := join_head (m := m) (g := g)
      rw [hg] at hl
      rw [ht] at hl ⊢
      rw [parseIPv6_plain (not_colon hc), hl, ← hg, hu]
      simp [v6Finish, ha]
  | some r =>
    obtain ⟨x, y⟩ := r
    obtain ⟨gr, w⟩ := zeroRun_good hz
    dsimp only
    have hsp := goodRun_split gr
    have hy := gr.2.1
    have lpre : ((groups a).take x).length = x := by rw [List.length_take]; omega
    have lpost : ((groups a).drop y).length = 8 - y := by rw [List.length_drop]; omega
    have hpre : ∀ n ∈ (groups a).take x, n ≤ 0xFFFF := fun n h => hle n (List.mem_of_mem_take h)
    have hpost : ∀ n ∈ (groups a).drop y, n ≤ 0xFFFF := fun n h => hle n (List.mem_of_mem_drop h)
    have hfin : ungroup ((groups a).take x) ++ List.replicate (16 - 2 * (x + (8 - y))) 0 ++ ungroup ((groups a).drop y) = a := by
      conv => rhs; rw [← hu, hsp, ungroup_append, ungroup_append, ungroup_zeros]
      rw [show 16 - 2 * (x + (8 - y)) = 2 * (y - x) by omega]
    generalize (groups a).take x = pre at *
    generalize (groups a).drop y = post at *
    rw [List.append_assoc, show [':', ':'] ++ joinWith ':' (post.map hexNat) = ':' :: ':' :: joinWith ':' (post.map hexNat) from rfl]
    have fin : ((some (ungroup pre ++ ungroup post, some (2 * pre.length), [])) : Option (Bytes × Option Nat × Text)).bind v6Finish = some a := by
      have l1 := ungroup_length pre
      have l2 := ungroup_length post
      rw [Option.bind_some, v6Finish_ellipsis (by rw [List.length_append]; omega), ← l1, List.take_left, List.drop_left, List.length_append, l1, l2,
        show 16 - (2 * pre.length + 2 * post.length) = 16 - 2 * (x + (8 - y)) by omega, hfin]
    cases pre with
    | nil =>
      simp only [List.map_nil, joinWith, List.nil_append]
      cases post with
      | nil =>
        simp only [List.map_nil, joinWith, parseIPv6]
        simp only [ungroup, List.flatMap_nil, List.nil_append, List.append_nil] at hfin
        simp only [List.length_nil] at lpre lpost
        rw [← hfin, show 16 - 2 * (x + (8 - y)) = 16 by omega]
      | cons m post =>
        have hl := v6Loop_join (m :: post) 8 [] (some 0) (by simp) (by omega) hpost
        obtain ⟨c, t, ht, hc⟩ := join_head (m := m) (g := post)
        rw [ht] at hl ⊢
        simp only [parseIPv6]
        rw [hl]
        exact fin
    | cons n pre =>
      have hl := v6Loop_compressed (n :: pre) post 8 [] (by simp) (by omega) hpre hpost
      obtain ⟨c, t, ht, hc⟩ := join_head (m := n) (g := pre)
      rw [ht, List.cons_append] at hl ⊢
      rw [parseIPv6_plain (not_colon hc), hl]
      simpa using fin

theorem find_none_of {t : Text} (h : ∀ c ∈ t, IsHexDigit c) : t.find? (fun c => c = '.' || c = ':') = none := by
  rw [List.find?_eq_none]
  intro c hc
  have := h c hc
  have h1 := isHex_ne this dot_not_hex
  have h2 := isHex_ne this colon_not_hex
  simp [h1, h2]

theorem parseIP_text (c : Bytes) (hc : c.length = 16) : parseIP (canonText c) = some c := by
  unfold canonText
  split
  · rename_i hp
    have hl : (c.drop 12).length = 4 := by rw [List.length_drop]; omega
    have hj := parseIPv4_join (c.drop 12) hl
    have hd : (joinWith '.' ((c.drop 12).map fun x => dec x.toNat)).find? (fun c => c = '.' || c = ':') = some '.' := by
      obtain ⟨a, b, d, e, h4⟩ := list4 hl
      rw [h4]
      simp only [List.map_cons, List.map_nil, joinWith]
      rw [List.find?_append, find_none_of (dec_chars _)]
      rfl
    unfold parseIP
    rw [hd]
    simp only [hj, Option.map_some]
    rw [mapped_eq, ← hp, List.take_append_drop]
  · have hch := ipv6Text_chars c
    have hcm := colon_mem_ipv6Text c hc
    unfold parseIP
    cases hf : (ipv6Text c).find? (fun c => c = '.' || c = ':') with
    | none => exact absurd (List.find?_eq_none.1 hf _ hcm) (by simp)
    | some x =>
      have h1 := List.find?_some hf
      have h2 := hch x (List.mem_of_find?_eq_some hf)
      have hx : x = ':' := by
        rcases h2 with h2 | h2
        · have := isHex_ne h2 dot_not_hex
          have := isHex_ne h2 colon_not_hex
          simp_all
        · exact h2
      subst hx
      exact parseIPv6_text c hc

/-! ## host and port -/

theorem cutLast_none {c : Char} {s : Text} (h : c ∉ s) : cutLast c s = none := by
  induction s with
  | nil => rfl
  | cons x xs ih =>
    simp only [List.mem_cons, not_or] at h
    simp only [cutLast, ih h.2, if_neg (Ne.symm h.1)]

theorem cutLast_append {c : Char} {s t : Text} (h : c ∉ t) : cutLast c (s ++ c :: t) = some (s, t) := by
  induction s with
  | nil => simp [cutLast, cutLast_none h]
  | cons x xs ih => simp [cutLast, ih]

theorem cutFirst_append {c : Char} {s t : Text} (h : c ∉ s) : cutFirst c (s ++ c :: t) = some (s, t) := by
  induction s with
  | nil => simp [cutFirst]
  | cons x xs ih =>
    simp only [List.mem_cons, not_or] at h
    simp [cutFirst, ih h.2, Ne.symm h.1]

theorem splitHostPort_join {h p : Text} (hh : ∀ c ∈ h, HostChar c) (hp : ∀ c ∈ p, IsHexDigit c) : splitHostPort (joinHostPort h p) = some (h, p) := by
  have nb : ¬ HostChar '[' := by unfold HostChar; decide
  have nb' : ¬ HostChar ']' := by unfold HostChar; decide
  have np : ¬ HostChar '%' := by unfold HostChar; decide
  have h1 : '%' ∉ h := fun hm => np (hh _ hm)
  have h2 : ']' ∉ h := fun hm => nb' (hh _ hm)
  have h3 : '[' ∉ h := fun hm => nb (hh _ hm)
  have p1 : ':' ∉ p := fun hm => colon_not_hex (hp _ hm)
  have p2 : ']' ∉ p := fun hm => absurd (hp _ hm) (by decide)
  have p3 : '[' ∉ p := fun hm => absurd (hp _ hm) (by decide)
  unfold joinHostPort
  by_cases hc : ':' ∈ h
  · rw [if_pos (Or.inl hc)]
    have e1 : '[' :: h ++ [']', ':'] ++ p = ('[' :: h ++ [']']) ++ ':' :: p := by simp
    have e2 : '[' :: h ++ [']', ':'] ++ p = ('[' :: h) ++ ']' :: ':' :: p := by simp
    unfold splitHostPort
    rw [e1, cutLast_append p1, ← e1, e2, cutFirst_append (by simp [h2])]
    simp [h3, p2, p3]
  · rw [if_neg (by simp [hc, h1])]
    unfold splitHostPort
    rw [cutLast_append p1]
    have : (h ++ ':' :: p).head? ≠ some '[' := by
      cases h with
      | nil => simp
      | cons x xs => simp at h3; simp [Ne.symm h3.1]
    simp only [if_neg this]
    simp [hc, h2, h3, p2, p3]

theorem parse_fold : ∀ (n : Nat), (dec n).foldl decStep (some 0) = some n := by
  intro n
  induction n using Nat.strongRecOn with
  | _ n ih =>
    unfold dec digits
    split
    · rename_i h; simp [decStep, hexDigit_dec n h]
    · rename_i h
      have := ih (n / 10) (by omega)
      rw [List.foldl_append, ← dec, this]
      simp only [List.foldl_cons, List.foldl_nil, decStep, hexDigit_dec _ (show n % 10 < 10 by omega), Option.map_some, Option.some.injEq]
      omega

theorem parseUint16_dec (p : UInt16) : parseUint16 (dec p.toNat) = some p := by
  unfold parseUint16
  have := p.toNat_lt
  rw [if_neg (dec_ne_nil _), parse_fold]
  simp only
  rw [if_pos (by omega)]
  simp

end Noise
