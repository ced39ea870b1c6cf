import Verif.Model.Parse
import Verif.Model.Keys
/-!
# node.go:23-102 and node_options.go: construction of a node; node.go:104-176: the sequential part of `Listen`

`uint` values are natural numbers (nothing here can overflow). The pools and the codec are modelled elsewhere. `ed25519` is a parameter.
-/
namespace Noise

/-- node.go:23-58 `Node`: the settings. `host = []` is `nil`; loggers are identified by numbers, 0 being the no-op logger. -/
structure Node where
  logger : Option Nat
  host : IP
  port : UInt16
  addr : Text
  publicKey : PublicKey
  privateKey : PrivateKey
  id : ID
  maxDialAttempts : Nat
  maxInboundConnections : Nat
  maxOutboundConnections : Nat
  maxRecvMessageSize : UInt32
  numWorkers : Nat
  /-- `time.Duration` in nanoseconds -/
  idleTimeout : Int

/-- node_options.go: one `NodeOption` per constructor, with its argument. node_options.go:11-134. -/
inductive NodeOption where
  /-- node_options.go:15-23 `WithNodeMaxDialAttempts` -/
  | maxDialAttempts (n : Nat)
  /-- node_options.go:28-36 `WithNodeMaxInboundConnections` -/
  | maxInboundConnections (n : Nat)
  /-- node_options.go:41-49 `WithNodeMaxOutboundConnections` -/
  | maxOutboundConnections (n : Nat)
  /-- node_options.go:54-58 `WithNodeMaxRecvMessageSize` -/
  | maxRecvMessageSize (n : UInt32)
  /-- node_options.go:63-71 `WithNodeNumWorkers` -/
  | numWorkers (n : Nat)
  /-- node_options.go:76-80 `WithNodeIdleTimeout` -/
  | idleTimeout (d : Int)
  /-- node_options.go:84-92 `WithNodeLogger` -/
  | logger (l : Option Nat)
  /-- node_options.go:96-101 `WithNodeID` -/
  | id (i : ID)
  /-- node_options.go:105-109 `WithNodePrivateKey` -/
  | privateKey (k : PrivateKey)
  /-- node_options.go:113-117 `WithNodeBindHost` -/
  | bindHost (h : IP)
  /-- node_options.go:121-125 `WithNodeBindPort` -/
  | bindPort (p : UInt16)
  /-- node_options.go:130-134 `WithNodeAddress` -/
  | address (a : Text)

/-- The effect of an option on a node (same lines). node_options.go:11-134. -/
def NodeOption.apply (n : Node) : NodeOption → Node
  | .maxDialAttempts k => { n with maxDialAttempts := if k = 0 then 1 else k }
  | .maxInboundConnections k => { n with maxInboundConnections := if k = 0 then 128 else k }
  | .maxOutboundConnections k => { n with maxOutboundConnections := if k = 0 then 128 else k }
  | .maxRecvMessageSize k => { n with maxRecvMessageSize := k }
  | .numWorkers k => { n with numWorkers := if k = 0 then 1 else k }
  | .idleTimeout d => { n with idleTimeout := d }
  | .logger l => { n with logger := some (l.getD 0) }
  | .id i => { n with id := i, addr := i.address }
  | .privateKey k => { n with privateKey := k }
  | .bindHost h => { n with host := h }
  | .bindPort p => { n with port := p }
  | .address a => { n with addr := a }

/-- node.go:63-71: the node before the options are applied (`4 << 20` is 4194304). -/
def Node.initial (numCPU : Nat) : Node where
  logger := none
  host := []
  port := 0
  addr := []
  publicKey := zeroPublicKey
  privateKey := zeroPrivateKey
  id := ID.zero
  maxDialAttempts := 3
  maxInboundConnections := 128
  maxOutboundConnections := 128
  maxRecvMessageSize := 4194304
  numWorkers := numCPU
  idleTimeout := 0

/-- node.go:62-102 `NewNode`. `gen` is the outcome of `ed25519.GenerateKey` (used only if no key was configured), `pub` is `PrivateKey.Public`. -/
def newNode (numCPU : Nat) (gen : Option PrivateKey) (pub : PrivateKey → PublicKey) (opts : List NodeOption) : Option Node :=
  let n := opts.foldl NodeOption.apply (Node.initial numCPU)
  let n := { n with logger := some (n.logger.getD 0) }
  let key := if n.privateKey = zeroPrivateKey then gen else some n.privateKey
  key.map fun k =>
    let n := { n with privateKey := k, publicKey := pub k }
    if n.id.id = zeroPublicKey ∧ n.host ≠ [] ∧ n.port > 0 then { n with id := newID n.publicKey n.host n.port } else n

/-- `net.TCPAddr`. addr.go:11, node.go:127. -/
structure TCPAddr where
  ip : IP
  port : UInt16
  zone : Text

/-- `(*net.TCPAddr).String` (Go 1.13 net/tcpsock.go). addr.go:18. -/
def TCPAddr.string (a : TCPAddr) : Text :=
  let ip := if a.ip.length = 0 then [] else ipString a.ip
  if a.zone ≠ [] then joinHostPort (ip ++ '%' :: a.zone) (dec a.port.toNat) else joinHostPort ip (dec a.port.toNat)

/-- What the operating system and the protocols answer during `Listen`. node.go:109-176. -/
structure ListenEnv where
  /-- `net.Listen("tcp", hostport)`: an error, or a listener with its address (`none`: not a TCP address) -/
  listen : Text → Option (Option TCPAddr)
  /-- `net.ResolveTCPAddr("tcp", address)` -/
  resolve : Text → Option TCPAddr
  /-- the `Bind` callbacks in order: absent, or whether they succeed -/
  binds : List (Option Bool)

/-- addr.go:10-19 `ResolveAddress`. -/
def resolveAddress (env : ListenEnv) (address : Text) : Option Text :=
  (env.resolve address).map fun a => TCPAddr.string { a with ip := resolveIP a.ip }

/-- The state in which `Listen` leaves the node. node.go:109-176. -/
structure Listened where
  node : Node
  /-- `Listen` returned nil (and has started the workers and the accept loop) -/
  ok : Bool
  /-- a listener was created and has not been closed -/
  listenerOpen : Bool
  /-- the argument given to `net.Listen` -/
  asked : Text

/-- node.go:137-165: the identity from a configured public address; `none` is an error return. -/
def publicID (env : ListenEnv) (n : Node) : Option ID :=
  match resolveAddress env n.addr with
  | none => none
  | some resolved => match splitHostPort resolved with
    | none => none
    | some (hostStr, portStr) => match parseIP hostStr with
      | none => none
      | some host => match parseUint16 portStr with
        | none => none
        | some port => some (newID n.publicKey host port)

/-- node.go:167-176: the `Bind` callbacks run in order up to the first failure. -/
def bindsOk (env : ListenEnv) : Bool := env.binds.all fun b => b.getD true

/-- node.go:109-235 `Listen` on a node that is not listening, up to the start of the goroutines. -/
def Node.listen (env : ListenEnv) (n : Node) : Listened :=
  let arg := joinHostPort (normalizeIP n.host) (dec n.port.toNat)
  match env.listen arg with
  | none => ⟨n, false, false, arg⟩
  | some none => ⟨n, false, false, arg⟩
  | some (some a) =>
    let n := { n with host := a.ip, port := a.port }
    let m : Option Node :=
      if n.addr = [] then
        some { n with addr := joinHostPort (normalizeIP n.host) (dec n.port.toNat), id := newID n.publicKey n.host n.port }
      else (publicID env n).map fun i => { n with id := i }
    match m with
    | none => ⟨n, false, false, arg⟩
    | some n => if bindsOk env then ⟨n, true, true, arg⟩ else ⟨n, false, false, arg⟩

/-- node.go:212-217: the values of the fields of the line that a node logs when it starts to listen on `bind`. -/
def listenLog (n : Node) (bind : Text) : List Text := [bind, n.id.address, keyString n.publicKey.1, keyString n.privateKey.1]

end Noise
