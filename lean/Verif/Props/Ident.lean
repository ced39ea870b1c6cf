import Verif.Proofs.Addr
import Verif.Spec.Json
/-! # Properties C01-C07: identities and keys -/
namespace Noise
open Spec

/-- A concrete key used in the examples. -/
def sampleKey : PublicKey := ⟨List.replicate 31 7 ++ [9], by simp⟩

/-- C01: the wire form of an ID with a 16-byte host decodes to exactly that ID; with no host, key, port and address survive. -/
theorem C01_id_roundtrip (k : PublicKey) (h : IP) (p : UInt16) :
    (h.length = 16 → unmarshalID (newID k h p).marshal = .ok (newID k h p)) ∧
    (h = [] → ∃ e, unmarshalID (newID k h p).marshal = .ok e ∧ e.id = k ∧ e.port = p ∧ e.address = (newID k h p).address) := by
  have key := unmarshal_marshal (newID k h p) []
  rw [List.append_nil] at key
  constructor
  · intro hl
    rw [key]
    simp only [newID]
    rw [hostField_16 h hl]
  · rintro rfl
    refine ⟨_, key, rfl, rfl, ?_⟩
    have : normalizeIP (hostField []) = normalizeIP [] := by decide
    simp only [newID]
    rw [this]

/-- Spec for C01's second half made concrete: a 16-byte host that is not special really appears in the address. -/
example : (newID sampleKey (mappedPrefix ++ [10, 0, 0, 1]) 9000).address = "10.0.0.1:9000".toList := by decide +kernel
example : unmarshalID (newID sampleKey (mappedPrefix ++ [10, 0, 0, 1]) 9000).marshal
    = .ok (newID sampleKey (mappedPrefix ++ [10, 0, 0, 1]) 9000) := (C01_id_roundtrip _ _ _).1 rfl

/-- C02 is false: for every 4-byte host other than 0.0.0.0 the peer decodes an ID with a different address. -/
theorem C02_ipv4_refuted (k : PublicKey) (h : IP) (p : UInt16) (hl : h.length = 4) (hz : h ≠ [0, 0, 0, 0]) :
    ∃ e, unmarshalID (newID k h p).marshal = .ok e ∧ e.id = k ∧ e.port = p ∧ e.address ≠ (newID k h p).address := by
  have key := unmarshal_marshal (newID k h p) []
  rw [List.append_nil] at key
  refine ⟨_, key, rfl, rfl, ?_⟩
  intro e
  obtain ⟨a, b, c, d, rfl⟩ := list4 hl
  have hf : hostField [a, b, c, d] = [a, b, c, d, 0, 0, 0, 0, 0, 0, 0, 0, 0, 0, 0, 0] := rfl
  simp only [newID, hf] at e
  have v1 : validHost [a, b, c, d, 0, 0, 0, 0, 0, 0, 0, 0, 0, 0, 0, 0] := Or.inr (Or.inr rfl)
  have v2 : validHost [a, b, c, d] := Or.inr (Or.inl rfl)
  have := (joinHostPort_inj (normalizeIP_chars v1) (normalizeIP_chars v2) (dec_no_colon _) (dec_no_colon _) e).1
  classical
  rw [normalizeIP_valid v1, normalizeIP_valid v2] at this
  have hz' : ¬ (a = 0 ∧ b = 0 ∧ c = 0 ∧ d = 0) := by rintro ⟨rfl, rfl, rfl, rfl⟩; exact hz rfl
  have n1 : ¬ nowhere [a, b, c, d, 0, 0, 0, 0, 0, 0, 0, 0, 0, 0, 0, 0] := by
    simp [nowhere, canonicalHost, mappedPrefix, List.replicate]
    grind
  rw [if_neg n1] at this
  split at this
  · exact canonText_ne_nil rfl this
  · have := canonText_inj (by rfl) (by rfl) this
    simp [canonicalHost, mappedPrefix] at this

example : ∃ e, unmarshalID (newID sampleKey [127, 0, 0, 1] 9000).marshal = .ok e ∧ e.id = sampleKey ∧ e.port = 9000 ∧
    e.address ≠ (newID sampleKey [127, 0, 0, 1] 9000).address := C02_ipv4_refuted _ _ _ rfl (by decide)

/-- C02, what does hold: IPv4 hosts in their 16-byte form (as produced by `net.ParseIP`, `net.IPv4`), and 0.0.0.0 in the 4-byte form,
reach the peer with the same address. Missing for the full claim: all other 4-byte hosts, refuted by `C02_ipv4_refuted`. -/
theorem C02_ipv4_partial (k : PublicKey) (a b c d : UInt8) (p : UInt16) :
    (∃ e, unmarshalID (newID k (mappedPrefix ++ [a, b, c, d]) p).marshal = .ok e ∧
      e.address = (newID k (mappedPrefix ++ [a, b, c, d]) p).address ∧
      e.address = (newID k [a, b, c, d] p).address) ∧
    (∃ e, unmarshalID (newID k [0, 0, 0, 0] p).marshal = .ok e ∧ e.address = (newID k [0, 0, 0, 0] p).address) := by
  constructor
  · refine ⟨_, (C01_id_roundtrip k _ p).1 rfl, rfl, ?_⟩
    have v1 : validHost (mappedPrefix ++ [a, b, c, d]) := Or.inr (Or.inr rfl)
    have v2 : validHost [a, b, c, d] := Or.inr (Or.inl rfl)
    classical
    simp only [newID]
    rw [normalizeIP_valid v1, normalizeIP_valid v2]
    have e : canonicalHost (mappedPrefix ++ [a, b, c, d]) = canonicalHost [a, b, c, d] := rfl
    have : nowhere (mappedPrefix ++ [a, b, c, d]) ↔ nowhere [a, b, c, d] := by
      unfold nowhere; rw [e]; simp
    rw [e]; simp only [this]
  · have key := unmarshal_marshal (newID k [0, 0, 0, 0] p) []
    rw [List.append_nil] at key
    refine ⟨_, key, ?_⟩
    have : normalizeIP (hostField [0, 0, 0, 0]) = normalizeIP [0, 0, 0, 0] := by decide
    simp only [newID]
    rw [this]

/-- C03: `UnmarshalID` is total, exact about lengths, ignores what follows the first 50 bytes and inverts `Marshal`. -/
theorem C03_unmarshalID_exact (buf : Bytes) :
    (buf.length < 50 → unmarshalID buf = .err .unexpectedEOF) ∧
    (50 ≤ buf.length → ∃ e, unmarshalID buf = .ok e ∧ e.marshal = buf.take 50 ∧
      (∀ rest, unmarshalID (buf.take 50 ++ rest) = .ok e) ∧ e = newID e.id e.host e.port) := by
  refine ⟨unmarshalID_short buf, fun h => ?_⟩
  obtain ⟨p, hp, hu⟩ := unmarshalID_ok buf h
  refine ⟨_, hu, ?_, ?_, rfl⟩
  · rw [marshal_eq]
    simp only [newID]
    rw [keyOf_val _ (by simp; omega), hostField_16 _ (by simp; omega), put16_of_take (by simp; omega) hp]
    have : buf.take 50 = buf.take 32 ++ ((buf.drop 32).take 16 ++ (buf.drop 48).take 2) := by
      rw [show 50 = 32 + (16 + 2) from rfl, List.take_add, List.take_add, List.drop_drop]
    rw [this, List.append_assoc]
  · intro rest
    obtain ⟨p', hp', hu'⟩ := unmarshalID_ok (buf.take 50 ++ rest) (by simp; omega)
    rw [hu']
    have e1 : (buf.take 50 ++ rest).take 32 = buf.take 32 := by
      rw [List.take_append_of_le_length (by simp; omega), List.take_take]; rfl
    have e2 : ((buf.take 50 ++ rest).drop 32).take 16 = (buf.drop 32).take 16 := by
      rw [List.drop_append_of_le_length (by simp; omega), List.take_append_of_le_length (by simp; omega), List.drop_take,
        List.take_take]; rfl
    have e3 : ((buf.take 50 ++ rest).drop 48).take 2 = (buf.drop 48).take 2 := by
      rw [List.drop_append_of_le_length (by simp; omega), List.take_append_of_le_length (by simp; omega), List.drop_take,
        List.take_take]; rfl
    rw [e3] at hp'
    rw [e1, e2, UInt16.toNat_inj.1 (hp'.trans hp.symm)]

example : unmarshalID (List.replicate 49 1) = .err .unexpectedEOF := (C03_unmarshalID_exact _).1 (by simp)
example : ∃ e, unmarshalID (List.replicate 60 1) = .ok e ∧ e.marshal = List.replicate 50 1 := by
  obtain ⟨e, h1, h2, _⟩ := (C03_unmarshalID_exact (List.replicate 60 1)).2 (by simp)
  exact ⟨e, h1, by simpa using h2⟩

/-- C04: addresses coincide exactly for the same host (up to the documented normalisation) and port. -/
theorem C04_address_identifies_endpoint (k1 k2 : PublicKey) (h1 h2 : IP) (p1 p2 : UInt16) (v1 : validHost h1) (v2 : validHost h2) :
    (newID k1 h1 p1).address = (newID k2 h2 p2).address ↔ sameHost h1 h2 ∧ p1 = p2 := by
  classical
  simp only [newID]
  constructor
  · intro h
    obtain ⟨e1, e2⟩ := joinHostPort_inj (normalizeIP_chars v1) (normalizeIP_chars v2) (dec_no_colon _) (dec_no_colon _) h
    refine ⟨?_, UInt16.toNat_inj.1 (dec_inj e2)⟩
    rw [normalizeIP_valid v1, normalizeIP_valid v2] at e1
    have len : ∀ {h : IP}, validHost h → ¬ nowhere h → (canonicalHost h).length = 16 := by
      intro h v n
      rcases v with v | v
      · exact absurd (Or.inl (by simpa using v)) n
      · exact canonical_length v
    split at e1 <;> split at e1
    · exact Or.inl ⟨‹_›, ‹_›⟩
    · exact absurd e1.symm (canonText_ne_nil (len v2 ‹_›))
    · exact absurd e1 (canonText_ne_nil (len v1 ‹_›))
    · exact Or.inr ⟨‹_›, ‹_›, canonText_inj (len v1 ‹_›) (len v2 ‹_›) e1⟩
  · rintro ⟨h, rfl⟩
    rw [normalizeIP_valid v1, normalizeIP_valid v2]
    rcases h with ⟨n1, n2⟩ | ⟨n1, n2, e⟩
    · rw [if_pos n1, if_pos n2]
    · rw [if_neg n1, if_neg n2, e]

example : (newID sampleKey [10, 0, 0, 1] 80).address = (newID sampleKey (mappedPrefix ++ [10, 0, 0, 1]) 80).address := by
  rw [C04_address_identifies_endpoint _ _ _ _ _ _ (Or.inr (Or.inl rfl)) (Or.inr (Or.inr rfl))]
  refine ⟨Or.inr ⟨?_, ?_, rfl⟩, rfl⟩ <;> simp [nowhere, canonicalHost, mappedPrefix, List.replicate]
example : (newID sampleKey [127, 0, 0, 1] 80).address = (newID sampleKey [] 80).address := by decide +kernel

theorem addrChar_safe {c : Char} (h : AddrChar c) : jsonSafe c := by
  have : ∀ c ∈ "0123456789abcdef.:?[]".toList, c ≠ '"' ∧ c ≠ '\\' ∧ 0x20 ≤ c.toNat := by decide
  exact this c h

/-- C05: the text of an ID is well-formed JSON with plain string fields, and determines key and address. -/
theorem C05_string_unambiguous (k : PublicKey) (h : IP) (p : UInt16) :
    (∃ kt : List Char, kt.length = 64 ∧ (∀ c ∈ kt, lowerHex c) ∧ hexDecode kt = .ok k.1 ∧
      (newID k h p).string = "{\"public_key\": \"".toList ++ kt ++ "\", \"address\": \"".toList ++ (newID k h p).address ++ "\"}".toList) ∧
    (∀ c ∈ (newID k h p).address, jsonSafe c) ∧
    (∀ k' h' p', (newID k' h' p').string = (newID k h p).string → k' = k ∧ (newID k' h' p').address = (newID k h p).address) := by
  refine ⟨⟨Spec.hex k.1, by rw [hex_length, k.2], hex_chars k.1, hexDecode_hex k.1, rfl⟩,
    fun c hc => addrChar_safe (address_chars k h p c hc), ?_⟩
  intro k' h' p' e
  unfold ID.string hexEncode at e
  simp only [List.append_assoc] at e
  have e := List.append_cancel_left e
  have hk : Spec.hex k'.1 = Spec.hex k.1 := List.append_inj_left e (by rw [hex_length, hex_length, k'.2, k.2])
  refine ⟨?_, ?_⟩
  · have := hexDecode_hex k'.1
    rw [hk, hexDecode_hex] at this
    exact (Subtype.ext (Res.ok.inj this)).symm
  · simp only [newID] at e ⊢
    rw [hk] at e
    have e := List.append_cancel_left e
    have e := List.append_cancel_left e
    exact List.append_cancel_right e

example : (newID sampleKey [10, 0, 0, 1] 80).string = "{\"public_key\": \"0707070707070707070707070707070707070707070707070707070707070709\", \"address\": \"10.0.0.1:80\"}".toList := by
  decide +kernel

theorem anyHex_iff (c : Char) : (fromHexChar c).isSome ↔ anyHex c := by
  constructor
  · intro h
    unfold fromHexChar at h
    have toc : ∀ n : Nat, c.toNat = n → c = Char.ofNat n := by rintro n rfl; simp
    have rng : ∀ lo hi : Char, lo ≤ c → c ≤ hi → lo.toNat ≤ c.toNat ∧ c.toNat ≤ hi.toNat := by
      intro lo hi h1 h2
      exact ⟨h1, h2⟩
    have key : ∀ n, c.toNat = n → (48 ≤ n ∧ n ≤ 57) ∨ (97 ≤ n ∧ n ≤ 102) ∨ (65 ≤ n ∧ n ≤ 70) → anyHex c := by
      intro n hn hr
      rw [toc n hn]
      have all : ∀ m : Fin 128, (48 ≤ m.1 ∧ m.1 ≤ 57) ∨ (97 ≤ m.1 ∧ m.1 ≤ 102) ∨ (65 ≤ m.1 ∧ m.1 ≤ 70) →
        Char.ofNat m.1 ∈ "0123456789abcdefABCDEF".toList := by decide
      exact all ⟨n, by omega⟩ hr
    split at h
    · next hc => have := rng _ _ hc.1 hc.2; exact key _ rfl (Or.inl (by simpa using this))
    · split at h
      · next hc => have := rng _ _ hc.1 hc.2; exact key _ rfl (Or.inr (Or.inl (by simpa using this)))
      · split at h
        · next hc => have := rng _ _ hc.1 hc.2; exact key _ rfl (Or.inr (Or.inr (by simpa using this)))
        · cases h
  · have all : ∀ c ∈ "0123456789abcdefABCDEF".toList, (fromHexChar c).isSome := by decide
    exact all c

/-- C06: private keys round trip through hex; the accepted strings and the errors are exactly as documented. -/
theorem C06_load_keys (k : PrivateKey) (s : Text) :
    loadKeysFromHex (keyString k.1) = (k, none) ∧
    ((loadKeysFromHex s).2 = none ↔ s.length = 128 ∧ ∀ c ∈ s, anyHex c) ∧
    ((loadKeysFromHex s).2 = some .unexpectedEOF ↔ s.length % 2 = 0 ∧ s.length ≠ 128 ∧ ∀ c ∈ s, anyHex c) ∧
    ((loadKeysFromHex s).2 = some .hexDecode ↔ s.length % 2 ≠ 0 ∨ ∃ c ∈ s, ¬ anyHex c) ∧
    ((loadKeysFromHex s).2 ≠ none → (loadKeysFromHex s).1.1 = List.replicate 64 0) := by
  have step : ∀ s : Text, (s.length % 2 = 0 ∧ ∀ c ∈ s, anyHex c) ↔ ∃ b, hexDecode s = .ok b := by
    intro s
    constructor
    · rintro ⟨h1, h2⟩; exact hexDecode_of_digits h1 (fun c hc => (anyHex_iff c).2 (h2 c hc))
    · rintro ⟨b, hb⟩
      have := hexDecode_length hb
      exact ⟨by omega, fun c hc => (anyHex_iff c).1 (hexDecode_isSome hb c hc)⟩
  have first : loadKeysFromHex (keyString k.1) = (k, none) := by
    unfold loadKeysFromHex keyString hexEncode
    rw [hexDecode_hex]
    dsimp only
    rw [dif_neg (by simp [k.2])]
    congr 1
    exact Subtype.ext (copyInto_replicate 64 k.1 k.2)
  refine ⟨first, ?_⟩
  by_cases hs : ∃ b, hexDecode s = .ok b
  · have ⟨heven, hall⟩ := (step s).2 hs
    obtain ⟨b, hb⟩ := hs
    have hl := hexDecode_length hb
    have hnot : ¬ ∃ c ∈ s, ¬ anyHex c := by rintro ⟨c, hc, hn⟩; exact hn (hall c hc)
    unfold loadKeysFromHex
    rw [hb]
    dsimp only
    by_cases h64 : b.length ≠ 64
    · rw [dif_pos h64]
      refine ⟨?_, ?_, ?_, fun _ => rfl⟩
      · simp; omega
      · simp; exact ⟨heven, by omega, hall⟩
      · simp; exact ⟨heven, hall⟩
    · rw [dif_neg h64]
      refine ⟨?_, ?_, ?_, ?_⟩
      · simp; exact ⟨by omega, hall⟩
      · simp; omega
      · simp; exact ⟨heven, hall⟩
      · simp
  · have he : hexDecode s = .err .hexDecode := (hexDecode_noPanic s).resolve_left hs
    have hbad : s.length % 2 ≠ 0 ∨ ∃ c ∈ s, ¬ anyHex c := by
      by_cases h1 : s.length % 2 = 0
      · right
        by_cases h2 : ∃ c ∈ s, ¬ anyHex c
        · exact h2
        · exact absurd ((step s).1 ⟨h1, fun c hc => by
            by_cases h3 : anyHex c
            · exact h3
            · exact absurd ⟨c, hc, h3⟩ h2⟩) hs
      · exact Or.inl h1
    unfold loadKeysFromHex
    rw [he]
    dsimp only
    refine ⟨?_, ?_, ?_, fun _ => rfl⟩
    · simp; intro hl
      rcases hbad with h | ⟨c, hc, hn⟩
      · omega
      · exact ⟨c, hc, hn⟩
    · simp; intro h1 h2
      rcases hbad with h | ⟨c, hc, hn⟩
      · omega
      · exact ⟨c, hc, hn⟩
    · simp only [true_iff]; exact hbad

example : (loadKeysFromHex "zz".toList).2 = some .hexDecode ∧ (loadKeysFromHex "abcd".toList).2 = some .unexpectedEOF := by decide

/-- C07: `UnmarshalSignature` is exact and safe. -/
theorem C07_unmarshal_signature (data : Bytes) :
    (64 ≤ data.length → ∃ s : Signature, unmarshalSignature data = .ok s ∧ s.1 = data.take 64) ∧
    (data.length < 64 → unmarshalSignature data = .panic) := by
  unfold unmarshalSignature
  constructor
  · intro h; rw [dif_pos (by omega)]; exact ⟨_, rfl, rfl⟩
  · intro h; rw [dif_neg (by omega)]

example : unmarshalSignature (List.replicate 63 1) = .panic := (C07_unmarshal_signature _).2 (by simp)

/-- C134: a key or a signature in JSON is one string literal of lower-case hexadecimal digits, two for each byte, which stand for themselves and decode to the key; no other key or signature has the same JSON; and what
the literal of a private key contains is what `LoadKeysFromHex` accepts. -/
theorem C134_key_json (b : Bytes) (k : PrivateKey) :
    (∃ kt : List Char, keyJSON b = ['"'] ++ kt ++ ['"'] ∧ kt.length = 2 * b.length ∧ (∀ c ∈ kt, lowerHex c ∧ jsonSafe c) ∧ hexDecode kt = .ok b) ∧
    (∀ b', keyJSON b' = keyJSON b → b' = b) ∧ ∃ kt : List Char, keyJSON k.1 = ['"'] ++ kt ++ ['"'] ∧ loadKeysFromHex kt = (k, none) := by
  have form : ∀ b : Bytes, keyJSON b = ['"'] ++ Spec.hex b ++ ['"'] := fun b => rfl
  refine ⟨⟨Spec.hex b, form b, by rw [hex_length], fun c hc => ⟨hex_chars b c hc, ?_⟩, hexDecode_hex b⟩, ?_, Spec.hex k.1, form _, (C06_load_keys k []).1⟩
  · have h : lowerHex c := hex_chars b c hc
    have : ∀ c ∈ "0123456789abcdef".toList, c ≠ '"' ∧ c ≠ '\\' ∧ 0x20 ≤ c.toNat := by decide
    exact this c h
  · intro b' e
    rw [form, form] at e
    have e := List.append_cancel_right e
    have e := List.append_cancel_left e
    have h1 := hexDecode_hex b
    rw [← e, hexDecode_hex b'] at h1
    injection h1

example : keyJSON [0, 255, 16] = "\"00ff10\"".toList := by decide

end Noise
