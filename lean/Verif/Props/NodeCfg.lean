import Verif.Proofs.NodeCfg
import Verif.Spec.Endpoint
/-! # Properties C39, C40, C72, C73, C74: options and advertised identity -/
namespace Noise
open Spec

/-! ## Which option sets what -/

def NodeOption.dialAttempts? : NodeOption → Option Nat
  | .maxDialAttempts k => some (orElse 1 k)
  | _ => none
def NodeOption.inbound? : NodeOption → Option Nat
  | .maxInboundConnections k => some (orElse 128 k)
  | _ => none
def NodeOption.outbound? : NodeOption → Option Nat
  | .maxOutboundConnections k => some (orElse 128 k)
  | _ => none
def NodeOption.recvSize? : NodeOption → Option UInt32
  | .maxRecvMessageSize k => some k
  | _ => none
def NodeOption.workers? : NodeOption → Option Nat
  | .numWorkers k => some (orElse 1 k)
  | _ => none
def NodeOption.idle? : NodeOption → Option Int
  | .idleTimeout d => some d
  | _ => none
def NodeOption.host? : NodeOption → Option IP
  | .bindHost h => some h
  | _ => none
def NodeOption.port? : NodeOption → Option UInt16
  | .bindPort p => some p
  | _ => none
/-- The public address is set by `WithNodeAddress` and by `WithNodeID`. -/
def NodeOption.addr? : NodeOption → Option Text
  | .address a => some a
  | .id i => some i.address
  | _ => none
def NodeOption.key? : NodeOption → Option PrivateKey
  | .privateKey k => some k
  | _ => none
def NodeOption.logger? : NodeOption → Option Nat
  | .logger l => some (l.getD 0)
  | _ => none

/-- **C39.** For every list of options in every order: each setting of the node is the one given by the last option for it, zero meaning 1 (dial attempts, workers) or
128 (pool bounds), and the default if there is none; so it depends on no other option. Construction fails only if no private key is configured and none can be
generated; the public key is that of the private key. -/
theorem C39_options (cpu : Nat) (gen : Option PrivateKey) (pub : PrivateKey → PublicKey) (opts : List NodeOption) :
    (newNode cpu gen pub opts = none ↔ gen = none ∧ lastSetting NodeOption.key? zeroPrivateKey opts = zeroPrivateKey) ∧
    ∀ n, newNode cpu gen pub opts = some n →
      n.maxDialAttempts = lastSetting NodeOption.dialAttempts? 3 opts ∧
      n.maxInboundConnections = lastSetting NodeOption.inbound? 128 opts ∧
      n.maxOutboundConnections = lastSetting NodeOption.outbound? 128 opts ∧
      n.maxRecvMessageSize = lastSetting NodeOption.recvSize? 4194304 opts ∧
      n.numWorkers = lastSetting NodeOption.workers? cpu opts ∧
      n.idleTimeout = lastSetting NodeOption.idle? 0 opts ∧
      n.host = lastSetting NodeOption.host? [] opts ∧
      n.port = lastSetting NodeOption.port? 0 opts ∧
      n.addr = lastSetting NodeOption.addr? [] opts ∧
      n.logger = some (lastSetting NodeOption.logger? 0 opts) ∧
      (if lastSetting NodeOption.key? zeroPrivateKey opts = zeroPrivateKey then gen = some n.privateKey
        else n.privateKey = lastSetting NodeOption.key? zeroPrivateKey opts) ∧
      n.publicKey = pub n.privateKey := by
  have f1 := foldl_setting (f := Node.maxDialAttempts) (sel := NodeOption.dialAttempts?) (ap := NodeOption.apply) (by intro n o; cases o <;> rfl) opts (Node.initial cpu)
  have f2 := foldl_setting (f := Node.maxInboundConnections) (sel := NodeOption.inbound?) (ap := NodeOption.apply) (by intro n o; cases o <;> rfl) opts (Node.initial cpu)
  have f3 := foldl_setting (f := Node.maxOutboundConnections) (sel := NodeOption.outbound?) (ap := NodeOption.apply) (by intro n o; cases o <;> rfl) opts (Node.initial cpu)
  have f4 := foldl_setting (f := Node.maxRecvMessageSize) (sel := NodeOption.recvSize?) (ap := NodeOption.apply) (by intro n o; cases o <;> rfl) opts (Node.initial cpu)
  have f5 := foldl_setting (f := Node.numWorkers) (sel := NodeOption.workers?) (ap := NodeOption.apply) (by intro n o; cases o <;> rfl) opts (Node.initial cpu)
  have f6 := foldl_setting (f := Node.idleTimeout) (sel := NodeOption.idle?) (ap := NodeOption.apply) (by intro n o; cases o <;> rfl) opts (Node.initial cpu)
  have f7 := foldl_setting (f := Node.host) (sel := NodeOption.host?) (ap := NodeOption.apply) (by intro n o; cases o <;> rfl) opts (Node.initial cpu)
  have f8 := foldl_setting (f := Node.port) (sel := NodeOption.port?) (ap := NodeOption.apply) (by intro n o; cases o <;> rfl) opts (Node.initial cpu)
  have f9 := foldl_setting (f := Node.addr) (sel := NodeOption.addr?) (ap := NodeOption.apply) (by intro n o; cases o <;> rfl) opts (Node.initial cpu)
  have f10 := foldl_setting (f := fun n => n.logger.getD 0) (sel := NodeOption.logger?) (ap := NodeOption.apply) (by intro n o; cases o <;> rfl) opts (Node.initial cpu)
  have f11 := foldl_setting (f := Node.privateKey) (sel := NodeOption.key?) (ap := NodeOption.apply) (by intro n o; cases o <;> rfl) opts (Node.initial cpu)
  have i1 : (Node.initial cpu).privateKey = zeroPrivateKey := rfl
  rw [i1] at f11
  unfold newNode
  dsimp only
  rw [← f11]
  constructor
  · by_cases hk : (opts.foldl NodeOption.apply (Node.initial cpu)).privateKey = zeroPrivateKey
    · simp [hk]
    · simp [hk]
  · intro n hn
    simp only [Option.map_eq_some_iff] at hn
    obtain ⟨k, hk, hn⟩ := hn
    have hkey : if (opts.foldl NodeOption.apply (Node.initial cpu)).privateKey = zeroPrivateKey then gen = some k else k = (opts.foldl NodeOption.apply (Node.initial cpu)).privateKey := by
      split at hk
      · rename_i h; rw [if_pos h]; exact hk
      · rename_i h; rw [if_neg h]; simp only [Option.some.injEq] at hk; exact hk.symm
    subst hn
    split <;> exact ⟨f1, f2, f3, f4, f5, f6, f7, f8, f9, congrArg some f10, hkey, rfl⟩

/-- **C39, bounds.** On a machine with at least one CPU, whatever the options: at least one dial attempt, one worker and room for one connection in each pool. -/
theorem C39_at_least_one (cpu : Nat) (hcpu : 1 ≤ cpu) (gen : Option PrivateKey) (pub : PrivateKey → PublicKey) (opts : List NodeOption) (n : Node)
    (h : newNode cpu gen pub opts = some n) : 1 ≤ n.maxDialAttempts ∧ 1 ≤ n.numWorkers ∧ 1 ≤ n.maxInboundConnections ∧ 1 ≤ n.maxOutboundConnections := by
  obtain ⟨h1, h2, h3, _, h5, _⟩ := (C39_options cpu gen pub opts).2 n h
  rw [h1, h2, h3, h5]
  have key : ∀ d k, 1 ≤ d → 1 ≤ orElse d k := by intro d k hd; unfold orElse; split <;> omega
  refine ⟨lastSetting_pos _ (by omega) ?_, lastSetting_pos _ hcpu ?_, lastSetting_pos _ (by omega) ?_, lastSetting_pos _ (by omega) ?_⟩ <;>
  · intro o b hb
    cases o <;> simp only [NodeOption.dialAttempts?, NodeOption.inbound?, NodeOption.outbound?, NodeOption.workers?, reduceCtorEq, Option.some.injEq] at hb
    rw [← hb]; exact key _ _ (by omega)

example : ∃ n, newNode 8 none (fun _ => zeroPublicKey) [.maxDialAttempts 0, .privateKey ⟨List.replicate 64 1, by simp⟩, .numWorkers 5, .numWorkers 0] = some n
    ∧ n.maxDialAttempts = 1 ∧ n.numWorkers = 1 := ⟨_, rfl, rfl, rfl⟩

/-- **C72 is false of the code**: without the option, the idle timeout is 0 (disabled), not the documented 3 seconds. -/
theorem C72_default_idle_timeout_refuted (cpu : Nat) (gen : Option PrivateKey) (pub : PrivateKey → PublicKey) (opts : List NodeOption)
    (hopt : ∀ o ∈ opts, ∀ d, o ≠ .idleTimeout d) (n : Node) (h : newNode cpu gen pub opts = some n) : n.idleTimeout = 0 := by
  obtain ⟨_, _, _, _, _, h6, _⟩ := (C39_options cpu gen pub opts).2 n h
  rw [h6, lastSetting]
  have : opts.filterMap NodeOption.idle? = [] := by
    rw [List.filterMap_eq_nil_iff]
    intro o ho
    cases o with
    | idleTimeout d => exact absurd rfl (hopt _ ho d)
    | _ => rfl
  rw [this]; rfl

/-- **C72, what holds** (missing: the documented default): a configured idle timeout is the one in force, whatever the other options. -/
theorem C72_configured_idle_timeout_partial (cpu : Nat) (gen : Option PrivateKey) (pub : PrivateKey → PublicKey) (pre post : List NodeOption) (d : Int)
    (hpost : ∀ o ∈ post, ∀ d, o ≠ .idleTimeout d) (n : Node) (h : newNode cpu gen pub (pre ++ .idleTimeout d :: post) = some n) : n.idleTimeout = d := by
  obtain ⟨_, _, _, _, _, h6, _⟩ := (C39_options cpu gen pub _).2 n h
  rw [h6, lastSetting]
  have : post.filterMap NodeOption.idle? = [] := by
    rw [List.filterMap_eq_nil_iff]
    intro o ho
    cases o with
    | idleTimeout d => exact absurd rfl (hpost _ ho d)
    | _ => rfl
  simp [List.filterMap_append, NodeOption.idle?, this]

example : ∃ n, newNode 8 (some ⟨List.replicate 64 1, by simp⟩) (fun _ => zeroPublicKey) [.idleTimeout 7, .numWorkers 3] = some n ∧ n.idleTimeout = 7 := ⟨_, rfl, rfl⟩

/-! ## Advertised addresses -/

/-- **C73.** For every identity with a host that means something to a remote peer, the advertised address, taken apart by `net.SplitHostPort`, `net.ParseIP` and
`strconv.ParseUint` as a dialer does, gives back exactly that host (in 16-byte form) and port. -/
theorem C73_address_parses (k : PublicKey) (h : IP) (p : UInt16) (hv : validHost h) (hn : ¬ nowhere h) :
    ∃ hs ps, splitHostPort (newID k h p).address = some (hs, ps) ∧ parseIP hs = some (canonicalHost h) ∧ parseUint16 ps = some p := by
  classical
  refine ⟨normalizeIP h, dec p.toNat, splitHostPort_join (normalizeIP_chars hv) (dec_chars _), ?_, parseUint16_dec p⟩
  rw [normalizeIP_valid hv, if_neg hn]
  have hl : h.length = 4 ∨ h.length = 16 := by
    rcases hv with h0 | h
    · exact absurd (Or.inl (List.length_eq_zero_iff.1 h0)) hn
    · exact h
  exact parseIP_text _ (canonical_length hl)

/-- **C73, hosts that mean "here".** For the others the host part of the address is empty and the port is kept. -/
theorem C73_address_nowhere (k : PublicKey) (h : IP) (p : UInt16) (hv : validHost h) (hn : nowhere h) :
    ∃ ps, splitHostPort (newID k h p).address = some ([], ps) ∧ parseUint16 ps = some p := by
  classical
  have e : normalizeIP h = [] := by rw [normalizeIP_valid hv, if_pos hn]
  have := splitHostPort_join (normalizeIP_chars hv) (dec_chars p.toNat)
  rw [e] at this
  refine ⟨dec p.toNat, ?_, parseUint16_dec p⟩
  simp only [newID, e]
  exact this

example : (newID zeroPublicKey ([0x20, 1, 0xd, 0xb8] ++ List.replicate 11 0 ++ [1]) 3000).address = "[2001:db8::1]:3000".toList := by decide +kernel
example : splitHostPort "[2001:db8::1]:3000".toList = some ("2001:db8::1".toList, "3000".toList)
    ∧ parseIP "2001:db8::1".toList = some ([0x20, 1, 0xd, 0xb8] ++ List.replicate 11 0 ++ [1]) := by decide +kernel

/-! ## Listen -/

theorem publicID_some {env : ListenEnv} {n : Node} {i : ID} (hv : ∀ a, env.resolve n.addr = some a → validHost a.ip) (h : publicID env n = some i) :
    ∃ a, env.resolve n.addr = some a ∧ a.zone = [] ∧ ¬ nowhere a.ip ∧ i = newID n.publicKey (canonicalHost a.ip) a.port := by
  classical
  unfold publicID resolveAddress at h
  cases ha : env.resolve n.addr with
  | none => rw [ha] at h; cases h
  | some a =>
    have hval := hv a ha
    rw [ha] at h
    simp only [Option.map_some] at h
    by_cases hz : a.zone = []
    · by_cases hn : nowhere a.ip
      · exfalso
        have e : resolveIP a.ip = [] := by
          rcases hval with h0 | h
          · rw [List.length_eq_zero_iff.1 h0]; decide
          · unfold resolveIP; rw [if_pos ((hidden_iff h).2 hn)]
        have e2 : TCPAddr.string { a with ip := resolveIP a.ip } = joinHostPort [] (dec a.port.toNat) := by
          simp [TCPAddr.string, e, hz]
        rw [e2, splitHostPort_join (by simp) (dec_chars _)] at h
        simp [parseIP_nil] at h
      · refine ⟨a, rfl, hz, hn, ?_⟩
        have hl : a.ip.length = 4 ∨ a.ip.length = 16 := by
          rcases hval with h0 | h
          · exact absurd (Or.inl (List.length_eq_zero_iff.1 h0)) hn
          · exact h
        have e : resolveIP a.ip = a.ip := by
          unfold resolveIP
          rw [if_neg (fun e => hn ((hidden_iff hl).1 e))]
        have e2 : TCPAddr.string { a with ip := resolveIP a.ip } = joinHostPort (canonText (canonicalHost a.ip)) (dec a.port.toNat) := by
          simp only [TCPAddr.string, e, hz, ne_eq, not_true_eq_false, if_false, if_neg (show ¬ a.ip.length = 0 by omega), ipString_valid hl]
        rw [e2, splitHostPort_join (canonText_chars _) (dec_chars _)] at h
        simp only [parseIP_text _ (canonical_length hl), parseUint16_dec, Option.some.injEq] at h
        exact h.symm
    · exfalso
      simp only [TCPAddr.string, ne_eq, hz, not_false_eq_true, if_true] at h
      split at h
      · cases h
      · rename_i hs ps hsp
        have := splitHostPort_zone (dec_chars _) (by simp) hsp
        subst this
        rw [parseIP_percent (by simp)] at h
        simp at h

/-- **C40.** Whatever the configuration (in particular whatever `WithNodeID` said), the answers of the operating system and the protocols: after a successful
`Listen` the key of the advertised identity is the public key of the node; without a configured public address the advertised host and port are the bound ones; with
one, they are what it resolved to, which is then neither "this machine" nor "any interface"; and if `Listen` fails, the listener, if any, is closed. -/
theorem C40_advertised_identity (env : ListenEnv) (n : Node) (hv : ∀ a, env.resolve n.addr = some a → validHost a.ip) :
    ((n.listen env).ok = false → (n.listen env).listenerOpen = false) ∧
    ((n.listen env).ok = true → (n.listen env).listenerOpen = true ∧ ∃ bound, env.listen (n.listen env).asked = some (some bound) ∧
      (n.listen env).node.publicKey = n.publicKey ∧
      (n.addr = [] → (n.listen env).node.id = newID n.publicKey bound.ip bound.port) ∧
      (n.addr ≠ [] → ∃ a, env.resolve n.addr = some a ∧ ¬ nowhere a.ip ∧ (n.listen env).node.id = newID n.publicKey (canonicalHost a.ip) a.port)) := by
  unfold Node.listen
  dsimp only
  split
  · simp
  · simp
  · rename_i bound hb
    by_cases ha : n.addr = []
    · simp only [ha, if_true]
      split <;> simp [hb]
    · simp only [ha, if_false]
      cases hp : publicID env { n with host := bound.ip, port := bound.port } with
      | none => simp
      | some i =>
        obtain ⟨a, h1, h2, h3, h4⟩ := publicID_some (n := { n with host := bound.ip, port := bound.port }) hv hp
        simp only [Option.map_some]
        split
        · exact ⟨fun h => (by cases h), fun _ => ⟨rfl, bound, hb, rfl, fun h => h.elim, fun _ => ⟨a, h1, h3, h4⟩⟩⟩
        · simp

/-- **C40, unusable public addresses.** A public address that does not resolve, or resolves to no host, to loopback or to an unspecified address, or to a zoned IPv6
address, makes `Listen` fail, and the listener is closed. -/
theorem C40_unusable_public_address (env : ListenEnv) (n : Node) (hv : ∀ a, env.resolve n.addr = some a → validHost a.ip) (ha : n.addr ≠ [])
    (h : ∀ a, env.resolve n.addr = some a → nowhere a.ip ∨ a.zone ≠ []) : (n.listen env).ok = false ∧ (n.listen env).listenerOpen = false := by
  have hnone : ∀ b : TCPAddr, publicID env { n with host := b.ip, port := b.port } = none := by
    intro b
    cases hp : publicID env { n with host := b.ip, port := b.port } with
    | none => rfl
    | some i =>
      obtain ⟨a, h1, h2, h3, h4⟩ := publicID_some (n := { n with host := b.ip, port := b.port }) hv hp
      rcases h a h1 with h | h
      · exact absurd h h3
      · exact absurd h2 h
  unfold Node.listen
  dsimp only
  split
  · simp
  · simp
  · rename_i b hb
    simp [ha, hnone b]

/-- The hypotheses of the two theorems are met: a public address that resolves to 8.8.4.4:80, and one that resolves to 127.0.0.1:80. -/
example : ∃ (env : ListenEnv) (n : Node), n.addr ≠ [] ∧ (n.listen env).ok = true ∧ (n.listen env).node.id.host = mappedPrefix ++ [8, 8, 4, 4] := by
  refine ⟨⟨fun _ => some (some ⟨[10, 0, 0, 1], 3000, []⟩), fun _ => some ⟨[8, 8, 4, 4], 80, []⟩, [none, some true]⟩, { Node.initial 1 with addr := ['x'] }, by simp, ?_, ?_⟩ <;> decide +kernel
example : ∃ (env : ListenEnv) (n : Node), n.addr ≠ [] ∧ env.resolve n.addr = some ⟨[127, 0, 0, 1], 80, []⟩ ∧ nowhere [127, 0, 0, 1] ∧ (n.listen env).ok = false :=
  ⟨⟨fun _ => some (some ⟨[10, 0, 0, 1], 3000, []⟩), fun _ => some ⟨[127, 0, 0, 1], 80, []⟩, []⟩, { Node.initial 1 with addr := ['x'] }, by simp, rfl,
    Or.inr (Or.inr (Or.inr (Or.inr ⟨0, 0, 1, rfl⟩))), by decide +kernel⟩

/-- **C74 is false of the code**: a node told to bind to a loopback host (127.0.0.0/8 or ::1) asks the operating system for *all* interfaces: the host part of the
address it listens on is empty. -/
theorem C74_loopback_binds_everywhere_refuted (env : ListenEnv) (n : Node) (hv : validHost n.host)
    (hl : canonicalHost n.host = List.replicate 15 0 ++ [1] ∨ ∃ a b c, canonicalHost n.host = mappedPrefix ++ [127, a, b, c]) :
    (n.listen env).asked = ':' :: dec n.port.toNat := by
  classical
  have hn : nowhere n.host := by
    rcases hl with h | h
    · exact Or.inr (Or.inl h)
    · exact Or.inr (Or.inr (Or.inr (Or.inr h)))
  have : (n.listen env).asked = joinHostPort (normalizeIP n.host) (dec n.port.toNat) := by
    unfold Node.listen
    dsimp only
    split
    · rfl
    · rfl
    · split
      · rfl
      · split <;> rfl
  rw [this, normalizeIP_valid hv, if_pos hn]
  rfl

/-- **C74, what holds** (missing: loopback hosts): for every other host the address asked for parses to exactly that host and port. -/
theorem C74_binds_to_host_partial (env : ListenEnv) (n : Node) (hv : validHost n.host) (hn : ¬ nowhere n.host) :
    ∃ hs ps, splitHostPort (n.listen env).asked = some (hs, ps) ∧ parseIP hs = some (canonicalHost n.host) ∧ parseUint16 ps = some n.port := by
  have : (n.listen env).asked = joinHostPort (normalizeIP n.host) (dec n.port.toNat) := by
    unfold Node.listen
    dsimp only
    split
    · rfl
    · rfl
    · split
      · rfl
      · split <;> rfl
  rw [this]
  exact C73_address_parses n.publicKey n.host n.port hv hn

example : canonicalHost [127, 0, 0, 1] = mappedPrefix ++ [127, 0, 0, 1] := rfl
example : ¬ nowhere [10, 1, 2, 3] := by
  rintro (h | h | h | h | ⟨a, b, c, h⟩) <;> simp [canonicalHost, mappedPrefix] at h

end Noise
