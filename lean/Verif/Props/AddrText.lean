import Verif.Proofs.AddrText
import Verif.Model.Parse
/-! # Property C129: addresses are written in canonical form -/
namespace Noise
open Spec

theorem addrText_unique {h : List UInt8} {p : Nat} {t u : Text} (ht : AddrText h p t) (hu : AddrText h p u) : t = u := by
  cases ht with
  | nowhere hn => cases hu with
    | nowhere _ => rfl
    | v4 _ hn' => exact absurd hn hn'
    | v6 _ hn' => exact absurd hn hn'
  | v4 b hn hb hc => cases hu with
    | nowhere hn' => exact absurd hn' hn
    | v4 b' _ hb' hc' => rw [List.append_cancel_left (hc.symm.trans hc')]
    | v6 t' _ hl hc' _ =>
      rw [canonicalHost, if_neg (by omega)] at hc
      exact absurd hc (hc' b)
  | v6 t' hn hl hc ht' => cases hu with
    | nowhere hn' => exact absurd hn' hn
    | v4 b _ hb hc' =>
      rw [canonicalHost, if_neg (by omega)] at hc'
      exact absurd hc' (hc b)
    | v6 u' _ _ _ hu' => rw [text6_unique ht' hu']

/-- **C129.** The address of an identity is the canonical text of its host and port, and that alone: an IPv4 host (also one in 16-byte form) is dotted decimal, an IPv6 host is what RFC 5952 prescribes, in
brackets; a host that is nowhere is left out; the port follows a colon. -/
theorem C129_canonical_address (k : PublicKey) (h : IP) (p : UInt16) (hv : validHost h) (t : Text) : AddrText h p.toNat t ↔ t = (newID k h p).address := by
  classical
  have key : AddrText h p.toNat (newID k h p).address := by
    simp only [newID]
    rw [normalizeIP_valid hv]
    by_cases hn : nowhere h
    · rw [if_pos hn, dec_eq]
      exact .nowhere hn
    · rw [if_neg hn]
      have hl : h.length = 4 ∨ h.length = 16 := by
        rcases hv with h0 | h
        · exact absurd (Or.inl (List.length_eq_zero_iff.1 h0)) hn
        · exact h
      unfold canonText
      by_cases hp : (canonicalHost h).take 12 = mappedPrefix
      · rw [if_pos hp]
        have hnc : ¬ (':' ∈ joinWith '.' (((canonicalHost h).drop 12).map fun x => dec x.toNat) ∨ '%' ∈ joinWith '.' (((canonicalHost h).drop 12).map fun x => dec x.toNat)) := by
          rintro (hm | hm) <;> rcases v4Text_chars _ _ hm with h | h <;> revert h <;> decide
        rw [joinHostPort, if_neg hnc, dotted_eq, dec_eq]
        exact .v4 _ hn (by rw [List.length_drop, canonical_length hl]) (by rw [← hp, List.take_append_drop])
      · rw [if_neg hp]
        have hl16 : h.length = 16 := by
          rcases hl with h4 | h16
          · exfalso; apply hp; simp [canonicalHost, h4, mappedPrefix]
          · exact h16
        have he : canonicalHost h = h := by rw [canonicalHost, if_neg (by omega)]
        rw [he] at hp ⊢
        rw [joinHostPort, if_pos (.inl (colon_mem_ipv6Text h hl16)), dec_eq]
        refine .v6 _ hn hl16 (fun b e => hp ?_) (ipv6Text_canonical h)
        rw [e]; rfl
  exact ⟨fun ht => addrText_unique ht key, fun e => e ▸ key⟩

/-! Beside the theorem: two runs of the same length, of which the first is shortened; a single zero; a run at the end; an IPv4 host in 16-byte form; port 0. -/
example : (newID zeroPublicKey [0x20, 1, 0, 0, 0, 0, 0, 1, 0, 2, 0, 0, 0, 0, 0, 3] 80).address = "[2001::1:2:0:0:3]:80".toList := by decide +kernel
example : (newID zeroPublicKey [0x20, 1, 0, 0, 0, 5, 0, 1, 0, 2, 0, 9, 0xab, 0, 0, 3] 65535).address = "[2001:0:5:1:2:9:ab00:3]:65535".toList := by decide +kernel
example : (newID zeroPublicKey [0xfe, 0x80, 0, 0, 0, 5, 0, 1, 0, 2, 0, 0, 0, 0, 0, 0] 1).address = "[fe80:0:5:1:2::]:1".toList := by decide +kernel
example : (newID zeroPublicKey [0, 0, 0, 0, 0, 0, 0, 0, 0, 5, 0, 1, 0, 2, 0, 0] 1).address = "[::5:1:2:0]:1".toList := by decide +kernel
example : (newID zeroPublicKey (mappedPrefix ++ [10, 0, 0, 255]) 0).address = "10.0.0.255:0".toList := by decide +kernel
example : ZerosAt (words [0, 0, 0, 0, 0, 0, 0, 0, 0, 5, 0, 1, 0, 2, 0, 0]) 0 4 :=
  ⟨by decide, by decide, fun i _ h => (by decide : ∀ i : Fin 4, (words [0, 0, 0, 0, 0, 0, 0, 0, 0, 5, 0, 1, 0, 2, 0, 0])[i.1]? = some 0) ⟨i, h⟩⟩

/-! Other ways to write an address are understood by the parser (Go's `net.ParseIP`), which C73 only uses on texts that were printed. -/
example : parseIP "0:0:0:0:0:ffff:10.0.0.1".toList = some (mappedPrefix ++ [10, 0, 0, 1]) := by decide +kernel
example : parseIP "::ffff:10.0.0.1".toList = some (mappedPrefix ++ [10, 0, 0, 1]) := by decide +kernel
example : parseIP "0:0:0:0:ffff:10.0.0.1".toList = none := by decide +kernel
example : parseIP "FE80::1".toList = some ([0xfe, 0x80] ++ List.replicate 13 0 ++ [1]) := by decide +kernel

end Noise
