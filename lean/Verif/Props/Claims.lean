import Verif.Props.Handshake
/-! # Property C110: the address in a peer's ID -/
namespace Noise
open Spec

/-- C110 fails: whoever has a key can present any address (16-byte host and port) as their own, and the node accepts it, whatever address the connection goes to or comes from: for every key pair and every host and port, there are bytes
with which the handshake of any correct node ends without error and with that key under that address. -/
theorem C110_any_address_refuted (C : Crypto) (hC : C.Lawful) (i : HsIn) (sec : PrivateKey) (he : i.eph = some sec) (hs : C.generated sec) (hw : i.write1 = none ∧ i.write2 = none)
    (hmax : 142 ≤ i.max.toNat ∧ i.max.toNat ≤ 2 ^ 32 - 5) (key : PrivateKey) (hk : C.generated key) (host : Bytes) (hh : host.length = 16) (port : UInt16) :
    ∃ (input : Bytes) (x : ID), (handshake C { i with input := input }).id = some x ∧ (handshake C { i with input := input }).err = none ∧
      x.id = C.pub key ∧ x.host = host ∧ x.port = port ∧ x.address = joinHostPort (normalizeIP host) (dec port.toNat) := by
  obtain ⟨k, hsh⟩ := Option.isSome_iff_exists.1 (hC.ecdh_some sec key hs hk)
  have hmarsh : Describes (newID (C.pub key) host port) ((C.pub key).1 ++ host ++ [UInt8.ofNat (port.toNat / 256), UInt8.ofNat (port.toNat % 256)]) := ⟨hh, rfl, rfl⟩
  let m1 := (C.pub key).1 ++ (C.sign key label).1
  let b := (C.pub key).1 ++ host ++ [UInt8.ofNat (port.toNat / 256), UInt8.ofNat (port.toNat % 256)]
  let m2 := b ++ (C.sign key (b ++ k.1)).1
  let n : Bytes := List.replicate 12 0
  have h := (C67_accepts C hC.gcm_ok { i with input := [0, 0, 0, 96] ++ m1 ++ [0, 0, 0, 142] ++ (n ++ (C.gcm k).sealB n m2) ++ [] } sec he hw hmax (newID (C.pub key) host port) k []).2
    ⟨C.pub key, m1, n, m2, rfl, by simp [n], ⟨_, rfl, hC.verify_sign key _ hk⟩, hsh, b, _, hmarsh, rfl, hC.verify_sign key _ hk⟩
  refine ⟨_, newID (C.pub key) host port, h.1, ?_, rfl, rfl, rfl, rfl⟩
  have := (C67_rejects C { i with input := [0, 0, 0, 96] ++ m1 ++ [0, 0, 0, 142] ++ (n ++ (C.gcm k).sealB n m2) ++ [] } ⟨show 1 ≤ i.max.toNat by omega, hmax.2⟩).2.1
  rw [h.1] at this
  simpa using this

/-- C110, what does hold: the ID that a node records for its peer was signed, as it is, by the key in it, together with the key of this very session. So nobody else decides under which address a key is recorded. Missing: that the
address is the peer's. -/
theorem C110_claimed_by_key_partial (C : Crypto) (hC : ∀ k, (C.gcm k).IsGCM) (i : HsIn) (hmax : 142 ≤ i.max.toNat ∧ i.max.toNat ≤ 2 ^ 32 - 5) (x : ID) (h : (handshake C i).id = some x) :
    ∃ (k : SharedKey) (b : Bytes) (sig : Signature), (handshake C i).suite = some k ∧ Describes x b ∧ C.verify x.id (b ++ k.1) sig = true := by
  have hw : i.write1 = none ∧ i.write2 = none ∧ ∃ sec, i.eph = some sec := by
    unfold handshake at h
    split at h
    · cases h
    · next sec he =>
      split at h
      · cases h
      · next h1 =>
        refine ⟨h1, ?_, sec, he⟩
        split at h <;> try cases h
        split at h <;> try cases h
        split at h <;> try cases h
        assumption
  obtain ⟨sec, he⟩ := hw.2.2
  have hsu : ∃ k, (handshake C i).suite = some k := by
    unfold handshake at h ⊢
    rw [he] at h ⊢
    simp only [hw.1, hw.2.1] at h ⊢
    split at h <;> try cases h
    split at h <;> try cases h
    split at h <;> try cases h
    split at h <;> try cases h
    simp_all
  obtain ⟨k, hk⟩ := hsu
  obtain ⟨peer, m1, n, m2, -, -, -, -, b, sig, h1, -, h2⟩ := (C67_accepts C hC i sec he ⟨hw.1, hw.2.1⟩ hmax x k _).1 ⟨h, hk, rfl⟩
  exact ⟨k, b, sig, hk, h1, h2⟩

/-- The hypotheses of both theorems are met: here is a node that accepts a peer under the address 127.0.0.1:3000 (of which it knows nothing). -/
example : ∃ (i : HsIn) (x : ID), (142 ≤ i.max.toNat ∧ i.max.toNat ≤ 2 ^ 32 - 5) ∧ (handshake toyCrypto i).id = some x ∧ x.host = List.replicate 10 0 ++ [255, 255, 127, 0, 0, 1] ∧ x.port = 3000 := by
  have h := toyEnd_honest 1
  obtain ⟨input, x, h1, -, -, h2, h3, -⟩ := C110_any_address_refuted toyCrypto toyCrypto_lawful (toyEnd 1) _ h.eph h.ephGen h.writes h.limit ⟨List.replicate 64 9, by simp⟩ trivial (List.replicate 10 0 ++ [255, 255, 127, 0, 0, 1]) rfl 3000
  exact ⟨{ toyEnd 1 with input := input }, x, h.limit, h1, h2, h3⟩

end Noise
