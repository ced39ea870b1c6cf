import Verif.Props.Handshake
import Verif.Props.NodeCfg
import Verif.Props.Ident
/-! # C84: secrets and the log; C85: the identity of a node that does not listen -/
namespace Noise
open Spec

/-! ## Secrets and the log -/

/-- C84 is false: the line logged at level Info by every node that listens contains its private key, in the form that `LoadKeysFromHex` reads. -/
theorem C84_private_key_logged_refuted (n : Node) (bind : Text) : ∃ v ∈ listenLog n bind, loadKeysFromHex v = (n.privateKey, none) :=
  ⟨keyString n.privateKey.1, by simp [listenLog], (C06_load_keys n.privateKey []).1⟩

/-- C84 is false: every handshake that authenticates its peer logs the session key, in hexadecimal. -/
theorem C84_session_key_logged_refuted (C : Crypto) (i : HsIn) (h : (handshake C i).id ≠ none) :
    ∃ k, (handshake C i).suite = some k ∧ ∃ v ∈ (handshake C i).logged, hexDecode v = .ok k.1 := by
  revert h
  unfold handshake
  repeat' split
  all_goals simp
  rename_i k _ _ _ _ _ _ _ _ _ _
  exact .inr (.inr (hexDecode_hex _))

/-- C84, what holds (missing: handshakes that succeed, and the line logged by `Listen`): a handshake that does not authenticate its peer logs nothing; one that does logs the key and the address of the
peer and the session key, and no other value of the input: in particular nothing derived from the node's own keys. -/
theorem C84_logged_partial (C : Crypto) (i : HsIn) (hmax : 1 ≤ i.max.toNat ∧ i.max.toNat ≤ 2 ^ 32 - 5) :
    ((handshake C i).err ≠ none → (handshake C i).logged = []) ∧
    (∀ x k, (handshake C i).id = some x → (handshake C i).suite = some k → (handshake C i).logged = [hex x.id.1, x.address, hex k.1]) := by
  have h := C67_rejects C i hmax
  refine ⟨fun e => h.2.2 (h.2.1.2 e), ?_⟩
  unfold handshake
  repeat' split
  all_goals simp
  exact ⟨rfl, rfl⟩

/-! ## The identity of a node that does not listen -/

/-- A handshake refuses a peer that runs the protocol with an identity whose key is not its own: `a` may be any end that signs with `a.key` and claims `a.id`. -/
theorem wrong_id_refused (C : Crypto) (hC : C.Lawful) (a b : HsIn) (sa sb : PrivateKey) (hb : HonestEnd C b sb)
    (hea : a.eph = some sa) (hga : C.generated sa) (hwa : a.write1 = none ∧ a.write2 = none) (hma : 142 ≤ a.max.toNat ∧ a.max.toNat ≤ 2 ^ 32 - 5)
    (hra : a.rnd.length = 12) (hv : ∀ m, C.verify a.id.id m (C.sign a.key m) = false)
    (hab : a.input = (handshake C b).written) (hba : b.input = (handshake C a).written) :
    (handshake C b).id = none ∧ (handshake C b).err ≠ none := by
  obtain ⟨k, hk⟩ := Option.isSome_iff_exists.1 (hC.ecdh_some sa sb hga hb.ephGen)
  have hk' : C.ecdh sb (C.pub sa) = some k := by rw [← hC.ecdh_comm sa sb hga hb.ephGen]; exact hk
  obtain ⟨tb, htb⟩ := written_start C b sb hb.eph hb.writes.1
  have wa := written_full hC a sa sb hea hb.ephGen hwa hma k hk tb (by rw [hab, htb])
  have rej := C67_rejects C b ⟨by have := hb.limit; omega, hb.limit.2⟩
  suffices hn : (handshake C b).id = none from ⟨hn, rej.2.1.1 hn⟩
  cases hid : (handshake C b).id with
  | none => rfl
  | some x =>
    obtain ⟨k', hs, -⟩ := C84_session_key_logged_refuted C b (by rw [hid]; simp)
    obtain ⟨peer, m1, n, m2, hin, hn, hf, hke, idb, sig, hd, hm2, hver⟩ :=
      (C67_accepts C hC.gcm_ok b sb hb.eph hb.writes hb.limit x k' _).1 ⟨hid, hs, rfl⟩
    obtain ⟨s1, hm1, hv1⟩ := hf
    have l3 : (bodyOf (some (C.gcm k)) a.rnd (hsMsg2 C a.id a.key k)).length = 142 := by
      simp only [bodyOf, encryptAEAD, List.length_append, (hC.gcm_ok k).seal_length _ _ (by rw [hra, (hC.gcm_ok k).nonce_12]),
        (hC.gcm_ok k).overhead_16, hra, hsMsg2, marshal_length, (C.sign a.key (a.id.marshal ++ k.1)).2]
    have hlb : idb.length = 50 := by rw [hd.2.1]; simp [hd.1, x.id.2]
    have hl2 : m2.length = 114 := by rw [hm2]; simp [hlb, sig.2]
    have l1 : m1.length = 96 := by rw [hm1]; simp [peer.2, s1.2]
    rw [hba, wa, frame_eq, frame_eq, l3] at hin
    simp only [bodyOf, hsMsg1_length, encryptAEAD, List.append_assoc] at hin
    have p1 : put32 (UInt32.ofNat 96) = [0, 0, 0, 96] := rfl
    have p2 : put32 (UInt32.ofNat 142) = [0, 0, 0, 142] := rfl
    rw [p1, p2] at hin
    obtain ⟨-, hin⟩ := List.append_inj hin rfl
    obtain ⟨e1, hin⟩ := List.append_inj hin (by rw [hsMsg1_length, l1])
    obtain ⟨-, hin⟩ := List.append_inj hin rfl
    obtain ⟨e2, hin⟩ := List.append_inj hin (by rw [hra, hn])
    have hpe : peer = C.pub sa := by
      rw [hm1, hsMsg1] at e1
      exact Subtype.ext (List.append_inj e1 (by rw [(C.pub sa).2, peer.2])).1.symm
    rw [hpe, hk'] at hke
    injection hke with hke
    subst hke
    subst e2
    have hlen := (hC.gcm_ok k).seal_length a.rnd m2 (by rw [hra, (hC.gcm_ok k).nonce_12])
    have hlen' := (hC.gcm_ok k).seal_length a.rnd (hsMsg2 C a.id a.key k) (by rw [hra, (hC.gcm_ok k).nonce_12])
    have hl3 : (hsMsg2 C a.id a.key k).length = 114 := by simp [hsMsg2, marshal_length, (C.sign a.key (a.id.marshal ++ k.1)).2]
    have e3 : (C.gcm k).sealB a.rnd (hsMsg2 C a.id a.key k) = (C.gcm k).sealB a.rnd m2 := by
      have := List.append_inj (s₁ := (C.gcm k).sealB a.rnd (hsMsg2 C a.id a.key k)) (t₁ := []) (by simpa using hin) (by rw [hlen, hlen', hl2, hl3])
      exact this.1
    have o1 := (hC.gcm_ok k).open_seal a.rnd m2 (by rw [hra, (hC.gcm_ok k).nonce_12])
    rw [← e3, (hC.gcm_ok k).open_seal a.rnd _ (by rw [hra, (hC.gcm_ok k).nonce_12])] at o1
    injection o1 with o1
    rw [hm2, hsMsg2] at o1
    obtain ⟨o2, o3⟩ := List.append_inj o1 (by rw [marshal_length, hlb])
    have hxid : x.id = a.id.id := by
      rw [hd.2.1, marshal_eq, List.append_assoc, List.append_assoc] at o2
      exact Subtype.ext (List.append_inj o2 (by rw [a.id.id.2, x.id.2])).1.symm
    have hsig : sig = C.sign a.key (idb ++ k.1) := by
      rw [← o2]; exact Subtype.ext o3.symm
    rw [hxid, hsig, hv] at hver
    cases hver

/-- C85 is false: a node that was constructed without a bind host, or with bind port 0 (the default), and without an ID, and that has not called `Listen`, claims the all-zero identity, so that every
correct peer that it connects to refuses it. Assumed of the primitives: a signature by the node's key does not verify under the all-zero key. -/
theorem C85_not_listening_refuted (C : Crypto) (hC : C.Lawful) (cpu : Nat) (gen : Option PrivateKey) (opts : List NodeOption) (n : Node)
    (hn : newNode cpu gen C.pub opts = some n) (hid : ∀ o ∈ opts, ∀ i, o ≠ .id i) (hbind : n.host = [] ∨ n.port = 0)
    (hv : ∀ m, C.verify zeroPublicKey m (C.sign n.privateKey m) = false)
    (a b : HsIn) (sa sb : PrivateKey) (hb : HonestEnd C b sb) (haid : a.id = n.id ∧ a.key = n.privateKey)
    (hea : a.eph = some sa) (hga : C.generated sa) (hwa : a.write1 = none ∧ a.write2 = none) (hma : 142 ≤ a.max.toNat ∧ a.max.toNat ≤ 2 ^ 32 - 5)
    (hra : a.rnd.length = 12) (hab : a.input = (handshake C b).written) (hba : b.input = (handshake C a).written) :
    (handshake C b).id = none ∧ (handshake C b).err ≠ none := by
  have hz : n.id.id = zeroPublicKey := by
    have f : (opts.foldl NodeOption.apply (Node.initial cpu)).id = ID.zero := by
      have : ∀ (l : List NodeOption) (m : Node), (∀ o ∈ l, ∀ i, o ≠ .id i) → m.id = ID.zero → (l.foldl NodeOption.apply m).id = ID.zero := by
        intro l
        induction l with
        | nil => intro m _ h; exact h
        | cons o l ih =>
          intro m hl h
          refine ih _ (fun o' ho => hl o' (List.mem_cons_of_mem _ ho)) ?_
          cases o with
          | id i => exact absurd rfl (hl _ (List.mem_cons_self ..) i)
          | _ => exact h
      exact this opts _ hid rfl
    unfold newNode at hn
    simp only [Option.map_eq_some_iff] at hn
    obtain ⟨k, -, hn⟩ := hn
    subst hn
    split at hbind
    · rename_i h
      simp only at hbind h
      rcases hbind with hb | hb
      · exact absurd hb h.2.1
      · rw [hb] at h; exact absurd h.2.2 (by decide)
    · rename_i h
      rw [if_neg h]
      exact congrArg ID.id f
  refine wrong_id_refused C hC a b sa sb hb hea hga hwa hma hra ?_ hab hba
  rw [haid.1, haid.2, hz]
  exact hv

/-- C85, what holds (missing: nodes without bind host and port): a node with a bind host and a bind port other than 0 and no ID option has, from its construction, an identity with its own public key and
that host and port; and every node has one with its own public key after `Listen` returned no error, whatever ID was configured. If the host has 16 bytes the identity is one that correct peers accept (C66). -/
theorem C85_identity_partial (cpu : Nat) (gen : Option PrivateKey) (pub : PrivateKey → PublicKey) (opts : List NodeOption) (n : Node)
    (hn : newNode cpu gen pub opts = some n) :
    ((∀ o ∈ opts, ∀ i, o ≠ .id i) → n.host ≠ [] → n.port ≠ 0 →
      n.id.id = pub n.privateKey ∧ n.id.host = n.host ∧ n.id.port = n.port ∧ n.id.address = joinHostPort (normalizeIP n.host) (dec n.port.toNat)) ∧
    (∀ env, (n.listen env).ok = true → (n.listen env).node.privateKey = n.privateKey ∧ (n.listen env).node.id.id = pub n.privateKey ∧
      (n.listen env).node.id.address = joinHostPort (normalizeIP (n.listen env).node.id.host) (dec (n.listen env).node.id.port.toNat)) := by
  have hpk : n.publicKey = pub n.privateKey := ((C39_options cpu gen pub opts).2 n hn).2.2.2.2.2.2.2.2.2.2.2
  constructor
  · intro hid hh hp
    have f : (opts.foldl NodeOption.apply (Node.initial cpu)).id = ID.zero := by
      have : ∀ (l : List NodeOption) (m : Node), (∀ o ∈ l, ∀ i, o ≠ .id i) → m.id = ID.zero → (l.foldl NodeOption.apply m).id = ID.zero := by
        intro l
        induction l with
        | nil => intro m _ h; exact h
        | cons o l ih =>
          intro m hl h
          refine ih _ (fun o' ho => hl o' (List.mem_cons_of_mem _ ho)) ?_
          cases o with
          | id i => exact absurd rfl (hl _ (List.mem_cons_self ..) i)
          | _ => exact h
      exact this opts _ hid rfl
    unfold newNode at hn
    simp only [Option.map_eq_some_iff] at hn
    obtain ⟨k, -, hn⟩ := hn
    subst hn
    split
    · exact ⟨rfl, rfl, rfl, rfl⟩
    · rename_i h
      rw [if_neg h] at hh hp
      refine absurd ⟨congrArg ID.id f, hh, ?_⟩ h
      simp only at hp ⊢
      exact UInt16.pos_iff_ne_zero.2 hp
  · intro env
    unfold Node.listen
    dsimp only
    split
    · intro h; cases h
    · intro h; cases h
    · rename_i a ha
      split
      · intro h; cases h
      · rename_i m hm
        split
        · intro _
          simp only at hm ⊢
          split at hm
          · injection hm with hm; subst hm; exact ⟨rfl, hpk, rfl⟩
          · simp only [Option.map_eq_some_iff] at hm
            obtain ⟨i, hi, hm⟩ := hm
            subst hm
            unfold publicID at hi
            repeat' split at hi
            all_goals (try (cases hi; done))
            injection hi with hi
            subst hi
            exact ⟨rfl, hpk, rfl⟩
        · intro h; cases h

/-- The hypotheses of `C85_not_listening_refuted` are met by the default configuration, connecting to a correct peer. -/
example : ∃ (n : Node) (a b : HsIn), newNode 8 (some ⟨List.replicate 64 1, by simp⟩) toyCrypto.pub [] = some n ∧ (n.host = [] ∨ n.port = 0) ∧
    (∀ m, toyCrypto.verify zeroPublicKey m (toyCrypto.sign n.privateKey m) = false) ∧ HonestEnd toyCrypto b ⟨List.replicate 64 2, by simp⟩ ∧ (a.id = n.id ∧ a.key = n.privateKey) ∧
    a.eph = some ⟨List.replicate 64 1, by simp⟩ ∧ (a.write1 = none ∧ a.write2 = none) ∧ (142 ≤ a.max.toNat ∧ a.max.toNat ≤ 2 ^ 32 - 5) ∧ a.rnd.length = 12 ∧
    a.input = (handshake toyCrypto b).written ∧ b.input = (handshake toyCrypto a).written := by
  obtain ⟨k, hk⟩ := Option.isSome_iff_exists.1 (toyCrypto_lawful.ecdh_some ⟨List.replicate 64 1, by simp⟩ ⟨List.replicate 64 2, by simp⟩ trivial trivial)
  have hk' : toyCrypto.ecdh ⟨List.replicate 64 2, by simp⟩ (toyCrypto.pub ⟨List.replicate 64 1, by simp⟩) = some k := by
    rw [← toyCrypto_lawful.ecdh_comm _ _ trivial trivial]; exact hk
  let n : Node := { Node.initial 8 with logger := some 0, privateKey := ⟨List.replicate 64 1, by simp⟩, publicKey := toyCrypto.pub ⟨List.replicate 64 1, by simp⟩ }
  let a : HsIn := { toyEnd 1 with id := n.id, key := n.privateKey }
  let ib := frame none [] (hsMsg1 toyCrypto ⟨List.replicate 64 1, by simp⟩) ++ frame (some (toyCrypto.gcm k)) a.rnd (hsMsg2 toyCrypto a.id a.key k)
  let ia := frame none [] (hsMsg1 toyCrypto ⟨List.replicate 64 2, by simp⟩) ++ frame (some (toyCrypto.gcm k)) (toyEnd 2).rnd (hsMsg2 toyCrypto (toyEnd 2).id (toyEnd 2).key k)
  refine ⟨n, { a with input := ia }, { toyEnd 2 with input := ib }, rfl, .inl rfl, ?_, { toyEnd_honest 2 with }, ⟨rfl, rfl⟩, rfl, ⟨rfl, rfl⟩, (toyEnd_honest 1).limit, (toyEnd_honest 1).nonce, ?_, ?_⟩
  · intro m; show ((List.replicate 64 (1 : UInt8)).take 32 ++ (List.replicate 64 1).take 32 == zeroPublicKey.1 ++ zeroPublicKey.1) = false; decide +kernel
  · exact (written_full toyCrypto_lawful { toyEnd 2 with input := ib } _ _ rfl trivial ⟨rfl, rfl⟩ (toyEnd_honest 2).limit k hk' _ rfl).symm
  · exact (written_full toyCrypto_lawful { a with input := ia } _ _ rfl trivial ⟨rfl, rfl⟩ (toyEnd_honest 1).limit k hk _ rfl).symm

/-- Both parts of `C85_identity_partial` apply to a node with a bind host and port whose `Listen` succeeds. -/
example : ∃ n env, newNode 8 (some ⟨List.replicate 64 1, by simp⟩) toyCrypto.pub [.bindHost (List.replicate 16 7), .bindPort 80] = some n ∧ n.host ≠ [] ∧ n.port ≠ 0 ∧ (n.listen env).ok = true :=
  ⟨_, ⟨fun _ => some (some ⟨List.replicate 16 7, 80, []⟩), fun _ => none, []⟩, rfl, by decide, by decide, rfl⟩

/-- There is a handshake that logs its session key, so `C84_session_key_logged_refuted` is not vacuous. -/
example : ∃ i, (handshake toyCrypto i).id ≠ none := by
  obtain ⟨ia, ib, h1, h2⟩ := C66_exchange_exists toyCrypto toyCrypto_lawful _ _ _ _ (toyEnd_honest 1) (toyEnd_honest 2)
  obtain ⟨k, _, _, _, h, _⟩ := C66_agree toyCrypto toyCrypto_lawful { toyEnd 1 with input := ia } { toyEnd 2 with input := ib } _ _
    { toyEnd_honest 1 with } { toyEnd_honest 2 with } h1 h2
  exact ⟨_, by rw [h]; simp⟩

end Noise
