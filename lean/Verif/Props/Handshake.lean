import Verif.Proofs.Handshake
import Verif.Props.Frame
/-! # C66, C67: the handshake as a function of the bytes that arrive -/
namespace Noise
open Spec

/-- C67, part 1: with working randomness and writes, and a receive limit of at least 142 bytes, a handshake records the peer `x` with
session key `k` exactly if the bytes that arrive are a first message of some ephemeral key, framed, followed by a second message of `x` in
the session with that key, encrypted and framed. -/
theorem C67_accepts (C : Crypto) (hC : ∀ k, (C.gcm k).IsGCM) (i : HsIn) (sec : PrivateKey) (he : i.eph = some sec)
    (hw : i.write1 = none ∧ i.write2 = none) (hmax : 142 ≤ i.max.toNat ∧ i.max.toNat ≤ 2 ^ 32 - 5) (x : ID) (k : SharedKey) (r : Bytes) :
    ((handshake C i).id = some x ∧ (handshake C i).suite = some k ∧ (handshake C i).rest = r) ↔
      ∃ (peer : PublicKey) (m1 n m2 : Bytes),
        i.input = [0, 0, 0, 96] ++ m1 ++ [0, 0, 0, 142] ++ (n ++ (C.gcm k).sealB n m2) ++ r ∧ n.length = 12 ∧
        FirstMessage C.verify peer m1 ∧ C.ecdh sec peer = some k ∧ SecondMessage C.verify k.1 x m2 := by
  have hlim : LimitOK i.max := ⟨by omega, hmax.2⟩
  have hlaw : ∀ k A, some (C.gcm k) = some A → A.Lawful := by rintro k A ⟨⟩; exact (hC k).toLawful
  constructor
  · rintro ⟨h1, h2, h3⟩
    unfold handshake at h1 h2 h3
    rw [he] at h1 h2 h3
    simp only [hw.1, hw.2] at h1 h2 h3
    split at h1
    · cases h1
    · cases h1
    · next data rest hr1 =>
      simp only [hr1] at h2 h3
      split at h1
      · cases h1
      · cases h1
      · next shared hc1 =>
        simp only [hc1] at h2 h3
        split at h1
        · cases h1
        · cases h1
        · next data2 rest2 hr2 =>
          simp only [hr2] at h2 h3
          split at h1
          · cases h1
          · cases h1
          · next y hc2 =>
            simp only [hc2, Option.some.injEq] at h1 h2 h3
            subst h1; subst h2; subst h3
            obtain ⟨_, _, _, e1⟩ := (readFrame_iff hlim (by rintro A ⟨⟩)).1 hr1
            obtain ⟨n, hn, hl, e2⟩ := (readFrame_iff hlim (hlaw _)).1 hr2
            obtain ⟨peer, hf, hk⟩ := (hsCheck1_iff _ _ _ _).1 hc1
            have hs := (hsCheck2_iff _ _ _ _).1 hc2
            have hn12 : n.length = 12 := by rw [(hn _ rfl).2, (hC _).nonce_12]
            refine ⟨peer, data, n, data2, ?_, hn12, hf, hk, hs⟩
            rw [e1, e2, frame_eq, frame_eq]
            have l1 : data.length = 96 := by
              obtain ⟨g, hg, _⟩ := hf; rw [hg, List.length_append, peer.2, g.2]
            have l2 : data2.length = 114 := by
              obtain ⟨b, g, hd, hg, _⟩ := hs
              rw [hg, List.length_append, ← (describes_marshal hd).1, marshal_length, g.2]
            have l3 : (bodyOf (some (C.gcm shared)) n data2).length = 142 := by
              simp only [bodyOf, encryptAEAD, List.length_append, (hC shared).seal_length _ _ (by rw [hn12, (hC shared).nonce_12]),
                (hC shared).overhead_16]
              omega
            rw [l3]
            simp only [bodyOf, l1, encryptAEAD]
            simp only [List.append_assoc]
            rfl
  · rintro ⟨peer, m1, n, m2, hin, hn, hf, hk, hs⟩
    have l1 : m1.length = 96 := by
      obtain ⟨g, hg, _⟩ := hf; rw [hg, List.length_append, peer.2, g.2]
    have l2 : m2.length = 114 := by
      obtain ⟨b, g, hd, hg, _⟩ := hs
      rw [hg, List.length_append, ← (describes_marshal hd).1, marshal_length, g.2]
    have l3 : (bodyOf (some (C.gcm k)) n m2).length = 142 := by
      simp only [bodyOf, encryptAEAD, List.length_append, (hC k).seal_length _ _ (by rw [hn, (hC k).nonce_12]), (hC k).overhead_16]
      omega
    have hr1 : readFrame i.max none i.input i.endErr = .ok (m1, frame (some (C.gcm k)) n m2 ++ r) := by
      refine (readFrame_iff hlim (by rintro A ⟨⟩)).2 ⟨[], by rintro A ⟨⟩, by simp [bodyOf]; omega, ?_⟩
      rw [hin, frame_eq, frame_eq, l3]
      simp only [bodyOf, l1, encryptAEAD, List.append_assoc]
      rfl
    have hr2 : readFrame i.max (some (C.gcm k)) (frame (some (C.gcm k)) n m2 ++ r) i.endErr = .ok (m2, r) :=
      (readFrame_iff hlim (hlaw k)).2 ⟨n, by rintro A ⟨⟩; exact ⟨(hC k).toLawful, by rw [hn, (hC k).nonce_12]⟩, by omega, rfl⟩
    have hc1 := (hsCheck1_iff C sec m1 k).2 ⟨peer, hf, hk⟩
    have hc2 := (hsCheck2_iff C k m2 x).2 hs
    unfold handshake
    rw [he]
    simp only [hw.1, hw.2, hr1, hc1, hr2, hc2, and_self]

/-- The bound checks of `read` hold for every limit in the supported range. -/
theorem readFrame_noPanic {max : UInt32} (hmax : LimitOK max) (suite : Option AEAD) (s : Bytes) (e : Err) :
    readFrame max suite s e ≠ .panic := by
  rw [readFrame_char hmax]
  split
  · simp
  · split
    · simp
    · split
      · simp
      · cases suite with
        | none => simp [openBody, Res.bind_ok]
        | some A =>
          simp only [openBody]
          intro h
          cases hd : decryptAEAD A ((s.drop 4).take (beVal (s.take 4))) with
          | ok p => rw [hd] at h; cases h
          | err e => rw [hd] at h; cases h
          | panic => exact decrypt_noPanic _ hd

/-- C67, part 2: whatever arrives and whatever fails, a handshake does not panic, and it records a peer exactly if it reports no error. -/
theorem C67_rejects (C : Crypto) (i : HsIn) (hmax : 1 ≤ i.max.toNat ∧ i.max.toNat ≤ 2 ^ 32 - 5) :
    (handshake C i).panicked = false ∧ ((handshake C i).id = none ↔ (handshake C i).err ≠ none) ∧
      ((handshake C i).id = none → (handshake C i).logged = []) := by
  unfold handshake
  split
  · simp
  · split
    · simp
    · split
      · next h => exact absurd h (readFrame_noPanic hmax _ _ _)
      · simp
      · split
        · next h => exact absurd h (hsCheck1_noPanic _ _ _)
        · simp
        · split
          · simp
          · split
            · next h => exact absurd h (readFrame_noPanic hmax _ _ _)
            · simp
            · split
              · next h => exact absurd h (hsCheck2_noPanic _ _ _)
              · simp
              · simp

/-- C67, part 3: with a receive limit below 142 bytes no handshake ever completes. -/
theorem C67_small_limit (C : Crypto) (hC : ∀ k, (C.gcm k).IsGCM) (i : HsIn) (hmax : 1 ≤ i.max.toNat ∧ i.max.toNat < 142) :
    (handshake C i).id = none ∧ (handshake C i).err ≠ none := by
  have hlim : LimitOK i.max := ⟨hmax.1, by omega⟩
  have hr := (C67_rejects C i ⟨hmax.1, by omega⟩).2.1
  have key : (handshake C i).id = none := by
    unfold handshake
    split
    · rfl
    · split
      · rfl
      · split
        · rfl
        · rfl
        · split
          · rfl
          · rfl
          · split
            · rfl
            · split
              · rfl
              · rfl
              · next shared _ _ _ data2 rest2 hr2 =>
                split
                · rfl
                · rfl
                · next y hc2 =>
                  exfalso
                  obtain ⟨n, hn, hl, e2⟩ := (readFrame_iff hlim (by rintro A ⟨⟩; exact (hC _).toLawful)).1 hr2
                  obtain ⟨b, g, hd, hg, _⟩ := (hsCheck2_iff _ _ _ _).1 hc2
                  have hn12 : n.length = 12 := by rw [(hn _ rfl).2, (hC _).nonce_12]
                  have l2 : data2.length = 114 := by
                    rw [hg, List.length_append, ← (describes_marshal hd).1, marshal_length, g.2]
                  simp only [bodyOf, encryptAEAD, List.length_append, (hC _).seal_length _ _ (hn _ rfl).2, (hC _).overhead_16] at hl
                  omega
  exact ⟨key, hr.1 key⟩

/-- A handshake that could draw a key and write starts with its first message. -/
theorem written_start (C : Crypto) (i : HsIn) (sec : PrivateKey) (he : i.eph = some sec) (hw : i.write1 = none) :
    ∃ t, (handshake C i).written = frame none [] (hsMsg1 C sec) ++ t := by
  unfold handshake
  rw [he]
  simp only [hw]
  split
  · exact ⟨[], by simp⟩
  · exact ⟨[], by simp⟩
  · split
    · exact ⟨[], by simp⟩
    · exact ⟨[], by simp⟩
    · split
      · exact ⟨[], by simp⟩
      · split
        · exact ⟨_, rfl⟩
        · exact ⟨_, rfl⟩
        · split <;> exact ⟨_, rfl⟩

theorem hsMsg1_first {C : Crypto} (hC : C.Lawful) {sec : PrivateKey} (hg : C.generated sec) :
    FirstMessage C.verify (C.pub sec) (hsMsg1 C sec) := by
  refine ⟨C.sign sec handshakeText, rfl, ?_⟩
  rw [← handshakeText_eq]
  exact hC.verify_sign sec _ hg

theorem hsMsg1_length (C : Crypto) (sec : PrivateKey) : (hsMsg1 C sec).length = 96 := by
  simp [hsMsg1, (C.pub sec).2, (C.sign sec handshakeText).2]

theorem written_full {C : Crypto} (hC : C.Lawful) (i : HsIn) (sec peer : PrivateKey) (he : i.eph = some sec)
    (hp : C.generated peer) (hw : i.write1 = none ∧ i.write2 = none) (hmax : 142 ≤ i.max.toNat ∧ i.max.toNat ≤ 2 ^ 32 - 5)
    (k : SharedKey) (hk : C.ecdh sec (C.pub peer) = some k) (t : Bytes) (hi : i.input = frame none [] (hsMsg1 C peer) ++ t) :
    (handshake C i).written = frame none [] (hsMsg1 C sec) ++ frame (some (C.gcm k)) i.rnd (hsMsg2 C i.id i.key k) := by
  have hlim : LimitOK i.max := ⟨by omega, hmax.2⟩
  have hr1 : readFrame i.max none i.input i.endErr = .ok (hsMsg1 C peer, t) :=
    (readFrame_iff hlim (by rintro A ⟨⟩)).2 ⟨[], by rintro A ⟨⟩, by simp [bodyOf, hsMsg1_length]; omega, hi⟩
  have hc1 := (hsCheck1_iff C sec (hsMsg1 C peer) k).2 ⟨_, hsMsg1_first hC hp, hk⟩
  unfold handshake
  rw [he]
  simp only [hw.1, hw.2, hr1, hc1]
  split
  · rfl
  · rfl
  · split <;> rfl

/-- One node as the honest handshake theorem assumes it: generated keys, a 16-byte host, its own key in its ID, working writes and a
receive limit in the supported range. -/
structure HonestEnd (C : Crypto) (i : HsIn) (sec : PrivateKey) : Prop where
  eph : i.eph = some sec
  ephGen : C.generated sec
  keyGen : C.generated i.key
  writes : i.write1 = none ∧ i.write2 = none
  limit : 142 ≤ i.max.toNat ∧ i.max.toNat ≤ 2 ^ 32 - 5
  nonce : i.rnd.length = 12
  ident : i.id.id = C.pub i.key ∧ i.id.host.length = 16 ∧ i.id.address = joinHostPort (normalizeIP i.id.host) (dec i.id.port.toNat)

theorem hsMsg2_second {C : Crypto} (hC : C.Lawful) {i : HsIn} {sec : PrivateKey} (h : HonestEnd C i sec) (k : SharedKey) :
    SecondMessage C.verify k.1 i.id (hsMsg2 C i.id i.key k) := by
  refine ⟨i.id.marshal, C.sign i.key (i.id.marshal ++ k.1), ⟨h.ident.2.1, ?_, h.ident.2.2⟩, rfl, ?_⟩
  · rw [marshal_eq, hostField_16 _ h.ident.2.1, put16_spec]
  · rw [h.ident.1]
    exact hC.verify_sign _ _ h.keyGen

/-- C66: if what each of two correct nodes receives is what the other one writes, both handshakes complete without error, with the same
session key, and each node has recorded exactly the ID of the other one; nothing is left unread. -/
theorem C66_agree (C : Crypto) (hC : C.Lawful) (a b : HsIn) (sa sb : PrivateKey) (ha : HonestEnd C a sa) (hb : HonestEnd C b sb)
    (hab : a.input = (handshake C b).written) (hba : b.input = (handshake C a).written) :
    ∃ k : SharedKey, C.ecdh sa (C.pub sb) = some k ∧
      (handshake C a).suite = some k ∧ (handshake C b).suite = some k ∧
      (handshake C a).id = some b.id ∧ (handshake C b).id = some a.id ∧
      (handshake C a).err = none ∧ (handshake C b).err = none ∧ (handshake C a).rest = [] ∧ (handshake C b).rest = [] := by
  obtain ⟨k, hk⟩ := Option.isSome_iff_exists.1 (hC.ecdh_some sa sb ha.ephGen hb.ephGen)
  have hk' : C.ecdh sb (C.pub sa) = some k := by rw [← hC.ecdh_comm sa sb ha.ephGen hb.ephGen]; exact hk
  obtain ⟨ta, hta⟩ := written_start C a sa ha.eph ha.writes.1
  obtain ⟨tb, htb⟩ := written_start C b sb hb.eph hb.writes.1
  have wa := written_full hC a sa sb ha.eph hb.ephGen ha.writes ha.limit k hk tb (by rw [hab, htb])
  have wb := written_full hC b sb sa hb.eph ha.ephGen hb.writes hb.limit k hk' ta (by rw [hba, hta])
  have fin : ∀ (i j : HsIn) (si sj : PrivateKey), HonestEnd C i si → HonestEnd C j sj → C.ecdh si (C.pub sj) = some k →
      i.input = frame none [] (hsMsg1 C sj) ++ frame (some (C.gcm k)) j.rnd (hsMsg2 C j.id j.key k) →
      (handshake C i).id = some j.id ∧ (handshake C i).suite = some k ∧ (handshake C i).rest = [] := by
    intro i j si sj hi hj hks hin
    refine (C67_accepts C hC.gcm_ok i si hi.eph hi.writes hi.limit j.id k []).2
      ⟨_, hsMsg1 C sj, j.rnd, hsMsg2 C j.id j.key k, ?_, hj.nonce, hsMsg1_first hC hj.ephGen, hks, hsMsg2_second hC hj k⟩
    have l3 : (bodyOf (some (C.gcm k)) j.rnd (hsMsg2 C j.id j.key k)).length = 142 := by
      simp only [bodyOf, encryptAEAD, List.length_append, (hC.gcm_ok k).seal_length _ _ (by rw [hj.nonce, (hC.gcm_ok k).nonce_12]),
        (hC.gcm_ok k).overhead_16, hj.nonce, hsMsg2, marshal_length, (C.sign j.key (j.id.marshal ++ k.1)).2]
    rw [hin, frame_eq, frame_eq, l3]
    simp only [bodyOf, hsMsg1_length, encryptAEAD, List.append_assoc, List.append_nil]
    rfl
  obtain ⟨a1, a2, a3⟩ := fin a b sa sb ha hb hk (by rw [hab, wb])
  obtain ⟨b1, b2, b3⟩ := fin b a sb sa hb ha hk' (by rw [hba, wa])
  have ea := (C67_rejects C a ⟨by have := ha.limit; omega, ha.limit.2⟩).2.1
  have eb := (C67_rejects C b ⟨by have := hb.limit; omega, hb.limit.2⟩).2.1
  refine ⟨k, hk, a2, b2, a1, b1, ?_, ?_, a3, b3⟩
  · apply Classical.byContradiction; intro h; rw [ea.2 h] at a1; cases a1
  · apply Classical.byContradiction; intro h; rw [eb.2 h] at b1; cases b1

/-- C66 is not vacuous: for any two correct nodes there are inputs that are what the other one writes. -/
theorem C66_exchange_exists (C : Crypto) (hC : C.Lawful) (a b : HsIn) (sa sb : PrivateKey) (ha : HonestEnd C a sa)
    (hb : HonestEnd C b sb) :
    ∃ ia ib, ia = (handshake C { b with input := ib }).written ∧ ib = (handshake C { a with input := ia }).written := by
  obtain ⟨k, hk⟩ := Option.isSome_iff_exists.1 (hC.ecdh_some sa sb ha.ephGen hb.ephGen)
  have hk' : C.ecdh sb (C.pub sa) = some k := by rw [← hC.ecdh_comm sa sb ha.ephGen hb.ephGen]; exact hk
  refine ⟨frame none [] (hsMsg1 C sb) ++ frame (some (C.gcm k)) b.rnd (hsMsg2 C b.id b.key k),
    frame none [] (hsMsg1 C sa) ++ frame (some (C.gcm k)) a.rnd (hsMsg2 C a.id a.key k), ?_, ?_⟩
  · exact (written_full hC { b with input := frame none [] (hsMsg1 C sa) ++ frame (some (C.gcm k)) a.rnd (hsMsg2 C a.id a.key k) } sb sa hb.eph ha.ephGen hb.writes hb.limit k hk' _ rfl).symm
  · exact (written_full hC { a with input := frame none [] (hsMsg1 C sb) ++ frame (some (C.gcm k)) b.rnd (hsMsg2 C b.id b.key k) } sa sb ha.eph hb.ephGen ha.writes ha.limit k hk _ rfl).symm

/-- Toy primitives with the right sizes: a private key determines its public key, signatures and session keys by its first 32 bytes, and
signatures verify exactly if they repeat the key twice. They meet every law. -/
def toyCrypto : Crypto where
  pub k := ⟨k.1.take 32, by simp [k.2]⟩
  sign k _ := ⟨k.1.take 32 ++ k.1.take 32, by simp [k.2]⟩
  verify p _ s := s.1 == p.1 ++ p.1
  ecdh k p := some ⟨List.zipWith (· + ·) (k.1.take 32) p.1, by simp [k.2, p.2]⟩
  gcm _ := toyAEAD
  generated _ := True

theorem toyCrypto_lawful : toyCrypto.Lawful where
  verify_sign k m _ := by simp [toyCrypto]
  ecdh_comm a b _ _ := by
    simp only [toyCrypto, Option.some.injEq, Subtype.mk.injEq]
    exact List.zipWith_comm_of_comm (fun x y => UInt8.add_comm x y)
  ecdh_some a b _ _ := by simp [toyCrypto]
  gcm_ok _ := toyAEAD_gcm

/-- Two honest ends of a connection, for the examples. -/
def toyEnd (n : UInt8) : HsIn where
  eph := some ⟨List.replicate 64 n, by simp⟩
  id := newID (toyCrypto.pub ⟨List.replicate 64 (n + 1), by simp⟩) (List.replicate 16 n) 3000
  key := ⟨List.replicate 64 (n + 1), by simp⟩
  rnd := List.replicate 12 n
  write1 := none
  write2 := none
  max := 4096
  input := []
  endErr := .eof

theorem toyEnd_honest (n : UInt8) : HonestEnd toyCrypto (toyEnd n) ⟨List.replicate 64 n, by simp⟩ where
  eph := rfl
  ephGen := trivial
  keyGen := trivial
  writes := ⟨rfl, rfl⟩
  limit := by simp [toyEnd]
  nonce := by simp [toyEnd]
  ident := ⟨rfl, by simp [toyEnd, newID], rfl⟩

/-- The hypotheses of C66 are met by two different nodes. -/
example : ∃ a b : HsIn, a.id ≠ b.id ∧ HonestEnd toyCrypto a ⟨List.replicate 64 1, by simp⟩ ∧
    HonestEnd toyCrypto b ⟨List.replicate 64 2, by simp⟩ ∧
    a.input = (handshake toyCrypto b).written ∧ b.input = (handshake toyCrypto a).written := by
  obtain ⟨ia, ib, h1, h2⟩ := C66_exchange_exists toyCrypto toyCrypto_lawful _ _ _ _ (toyEnd_honest 1) (toyEnd_honest 2)
  refine ⟨{ toyEnd 1 with input := ia }, { toyEnd 2 with input := ib }, show (toyEnd 1).id ≠ (toyEnd 2).id by decide +kernel, ?_, ?_, h1, h2⟩
  · exact { toyEnd_honest 1 with }
  · exact { toyEnd_honest 2 with }

/-- The two sides of C67 part 1 can be true … -/
example : ∃ i x, (handshake toyCrypto i).id = some x := by
  obtain ⟨ia, ib, h1, h2⟩ := C66_exchange_exists toyCrypto toyCrypto_lawful _ _ _ _ (toyEnd_honest 1) (toyEnd_honest 2)
  obtain ⟨k, _, _, _, h, _⟩ := C66_agree toyCrypto toyCrypto_lawful { toyEnd 1 with input := ia } { toyEnd 2 with input := ib } _ _
    { toyEnd_honest 1 with } { toyEnd_honest 2 with } h1 h2
  exact ⟨_, _, h⟩

/-- … and false: a first message with a wrong signature is refused. -/
example : (handshake toyCrypto { toyEnd 1 with input := [0, 0, 0, 96] ++ List.replicate 95 7 ++ [8] }).err = some .hsVerify1 := by
  decide +kernel

end Noise
