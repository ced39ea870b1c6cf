# Formal model of perlin-network/noise in Lean 4

This directory holds a machine-checked model of the Go library in `/repo` and proofs of the properties listed in
`properties.jsonl`. `MANIFEST.json` says, per property, which theorems carry it and with which status.

## 1. Layout

| path | content |
|---|---|
| `lean/Verif/Spec/*.lean`  | small, model-independent vocabulary used in theorem statements (big-endian value, XOR distance, prefix, LRU list, reading of event logs, ...) |
| `lean/Verif/Model/*.lean` | the model, function by function, each definition citing the Go file and lines |
| `lean/Verif/Proofs/*.lean`| helper lemmas and invariants; no property is stated here |
| `lean/Verif/Props/*.lean` | the property theorems `Cnn_...`, with non-vacuity `example`s beside them |
| `properties.jsonl`        | the properties in English, in terms of the API |
| `MANIFEST.json`           | property -> status and theorem names |
| `seeded/LOG.jsonl`        | mutation experiments: edits of the model, the claim they break, the theorems that fail |

Names: `_refuted` theorems show that the property as stated is false of the code (a witness, or a universally quantified negation);
`_partial` theorems are the strongest true part that we prove beside a refutation or a missing case. A property with a `_refuted` theorem has status
"partial" in the manifest even though nothing is left open: the full statement is false, and this is proved.

## 2. Conventions of the model

* Bytes are `UInt8`, slices are `List UInt8`. Memory and aliasing are modelled where they matter: `Model/Mem.lean` (encryption buffers) and
  `Model/Share.lean` (memory shared with the user).
* Fixed-width integers are `UInt16/32/64` wherever wrap-around is possible in the code; Go `int` counters that cannot
  overflow in practice (lengths, sizes) are `Nat`/`Int`.
* `panic` is an explicit outcome, never totalised away (`Res.panic`, `crashed`, ...). Error returns are values.
* Goroutines, mutexes, channels and callbacks are transition systems: a `State`, an `Action` type whose constructors are the
  atomic sections of the code (everything between two synchronisation operations, or one critical section), and a partial
  `step : State -> Action -> Option State` (`none`: not enabled). Everything decided by the peer, the network, the user or the
  scheduler is an argument of an action, so theorems that quantify over action sequences quantify over all schedules, all peers and all environments.
* Cryptography is a parameter (a structure of functions) with the algebraic laws that the theorem needs as hypotheses; the
  symbolic (Dolev-Yao) model is used for statements about attackers.

## 3. Trusted base

* Lean 4.33.0's kernel. Axioms: at most `propext`, `Classical.choice`, `Quot.sound`; section 7 lists them per theorem. No axiom, `sorry`, `native_decide` or
  `bv_decide` of our own. Mathlib is used for a few modules only (`ZMod`, primality certificates, list lemmas); its theorems are checked by the same kernel.
* The reading of the Go code: nothing ties the model to the code except the citations and our reading.
* The Go language and runtime semantics assumed by the model: mutual exclusion of `sync.Mutex`, `sync.Once`, channel
  semantics, `sync.Cond`, `append`/`copy` semantics, slice bounds panics, unsigned wrap-around, method values and struct copies.
* Library code that is modelled from its documentation/source as of Go 1.13: `encoding/binary`, `encoding/hex`, `net.IP` printing, parsing and
  classification, `net.JoinHostPort`/`SplitHostPort`, `strconv.ParseUint`, `container/list`, `bytes.Compare`, `sort.Slice` (any algorithm that returns
  a sorted permutation, `Sorter`), `io.ReadFull`, `math/big` (in-place updates).
* Library code that appears only through hypotheses of the theorems:
  * Ed25519, X25519, AES-GCM: `Crypto.Lawful` (Model/Crypto.lean) is the complete list of assumed equations: signatures of honest keys verify, Diffie-Hellman
    commutes through the key conversion, opening inverts sealing. Nothing is assumed about security in the byte-level model; in `Model/Symbolic.lean`
    cryptography is perfect.
  * `math/rand`: an arbitrary deterministic generator, unseeded (Go 1.13).
  * `fastcache`: `Set` ignores keys of 65532 bytes or more (64 KB with the header of 4 bytes), otherwise entries are kept until they are pushed out; C63-C65 are about entries that are kept, C126 about a cache that forgets.
  * TCP: a reliable ordered byte stream until it breaks. `Model/Link.lean` uses it at the level of messages.
  * `net.Listen`, `ResolveTCPAddr`: oracles. `reflect`: values are tagged with their dynamic type.

### Modelled

| model | code | simplifications (also stated at the definitions) |
|---|---|---|
| `Ident`, `IP`, `Parse` | `id.go`, `addr.go`, the parts of package `net` used | name resolution is an oracle; errors of the parsers are collapsed |
| `Keys`, `Crypto` | `keys.go` | Ed25519 is a parameter |
| `Ecdh` | `ecdh.go` | X25519 and SHA-512 are parameters; `math/big` receivers are cells of a store |
| `Frame`, `Mem`, `Rand` | `aead.go`, `msg.go`, `read`/`write` of `client.go` | `Frame` works on byte strings, `Mem` on slices and backing arrays with arbitrary growth |
| `Codec` | `codec.go` | Go types are named types and pointers |
| `Requests` | `requestMap` of `map.go` | none |
| `Pool`, `PoolLock` | `clientMap` of `map.go` | `PoolLock` keeps the list of pooled pairs instead of list+map; C36 proves the refinement |
| `Client` | `client.go`: `outbound`, `inbound`, `handshake` (control), `recvLoop`, `writeLoop`, `request`, `send`, `close` | error values are abstract; contents of messages read are chosen by the peer |
| `Handshake` | `handshake` on bytes | one end is a function of the bytes that arrive |
| `Symbolic` | `handshake` and both loops against an attacker | terms, perfect cryptography; see the file's header |
| `Worker` | work queue, workers, `HandlerContext` | handlers are arbitrary |
| `Link` | two clients and the workers of one node | the connection is an ordered channel of messages |
| `Nested` | one client and the workers; handlers that call `Request` | as in the components |
| `ByteLink` | two clients, the workers, and a connection that carries the bytes of frames | handshake bytes are in `Handshake`; executions in which the handshake fails are left out |
| `Typed` | `Link` with the codecs of both nodes: `RegisterMessage`, `RequestMessage`, `DecodeMessage`, `SendMessage` | B answers with `SendMessage` only |
| `Reent` | outbound connections whose `OnPeerConnected` runs kademlia's `Ack`, with the pool, the routing table and calls of `dialIfNotExists` by the application and by `Ack` | eviction from the pool, and `Ack` in the callbacks of messages and of inbound connections, are left out |
| `Race` | the accesses to the fields of `Client` by `outbound`/`inbound`, `handshake`, `recvLoop`, `writeLoop` and the methods of the client, with mutexes, channels, `go` and `Once`; happens-before is in `Spec/Memory` | set-up of the client before it is in the pool, channels of single requests and the queue of the node are left out |
| `Register` | `Bind` and `Handle` from several goroutines: check, read, store | spare capacity of slices is left out |
| `Spec/Fair`, `Spec/Live` | infinite executions of `Link` under fairness: every goroutine that stays able to run runs, the network delivers, the work queue serves waiting receive loops; no failures, no closing | fairness is an assumption about the Go scheduler and channels; handlers are assumed to return |
| `Spec/Callbacks` | legal sequences of writes, flushes, deliveries and message callbacks, read off the log of `Client` | protocols' callbacks return; several protocols count as one call |
| `Queue` | node.go:54-55, 178-210, 226-231, client.go:548: the work channel from nil to closed, with any number of connections (`Client`) sending on it; a send on a nil channel blocks for ever, a send on a closed one panics | what workers do with a message is in `Worker`; the pool is left out: the channel is closed when all inbound connections have ended |
| `RW`, `Spec/Linear` | Go's `sync.RWMutex` and `sync.Mutex`, and methods as programs of single accesses to the object they guard, any number of calls interleaved; what it means that concurrent calls are linearizable | which waiting call goes on is arbitrary |
| `Guarded` | codec.go, kademlia/table.go and map.go:98-152 again, access by access, under their mutexes; shown to be linearizable to `Codec`, `Table` and `Requests`, whose functions are thereby justified as atomic steps | `Marshal` either does not use the node, or calls `EncodeMessage` for one contained message; decoders do not use the node; a map or list access is one step |
| `KadNode` | kademlia/protocol.go:156-213 bound to a node: any number of connections (`Client`), whose callbacks call `Ack` of `Kad` | the goroutine that calls a callback does not wait for it (more interleavings than the code has); outcomes of pings and dials are arbitrary; one kademlia protocol per node |
| `Spec/Sync`, `NodeRace` | the Go memory model for atomics, buffered channels and wait groups; the operations of node.go:24-58, 104-236, 319-470, 494-513 and of connections on the fields of a node | the pools, the codec and connections have locks of their own (`Race`, `Guarded`) and are left out, except for `ready`; a protocol's `Bind` only reads the ID and the address |
| `Net` | any number of whole nodes (`Node`) whose connections are joined | a connection is an ordered channel of messages, as in `Link`; who is joined with whom, and when, is arbitrary, and a connection may also lead out of the network and read anything. `Proofs/Net`, `Proofs/NetInv` show that each connection between two nodes refines `Link` |
| `Spec/Search` | fair executions of `Search` | timeouts pass; connections that the node closes come to an end; no crash |
| `Spec/Calls`, `Spec/GossipRuns` | fair executions of `Node`, as far as its calls are concerned, and of `GossipWire`, as far as the pushes and calls of one node are concerned | connections that the node closes come to an end; no crash |
| `Spec/GossipSpread` | executions of `GossipWire` in which a node keeps another informed, and nobody but gossip sends gossip messages | as `Spec/GossipRuns` and `Spec/NetLive` |
| `Spec/KadWire` | identities that a node of `KadWire` knows at first hand; closed networks | fewer than 2^64 - 1 requests on each connection |
| `Spec/KadSearch` | searches in the network of `KadWire`: their goroutines run; addresses that can be relied on | fewer than 2^64 - 1 requests on each connection |
| `Spec/KadPing` | pings that fail, dials that fail, nodes that answer pings | fewer than 2^64 - 1 requests on each connection |
| `Spec/NetLive` | fair executions of `Net`, and a connection on which nothing fails | fairness as in `Spec/Live`, for every goroutine of every node; anything may fail elsewhere |
| `Spec/Chat`, `Chat` | cmd/chat/main.go:24-44, 63, 96-98, 113-158, 211-242; `bufio.Reader.ReadLine`, `strings.ToValidUTF8`, `utf8.DecodeRuneInString` of the standard library | flags, signals, read errors and the texts of `help`, `discover`, `peers` are left out; standard input is a finite list of bytes; whether a send succeeds does not matter to what follows |
| `KadBind` | kademlia/protocol.go:48-76, 156-213 bound to a node that has not called `Listen` yet (nil table), and `KadNode` from then on | `Listen` is called once and succeeds |
| `KadSync` | `KadNode`, in which the goroutine that calls a callback waits until it returns (client.go:508-514, 550-556, 643-649) | as `KadNode` |
| `Options` | kademlia/iterator_options.go, kademlia/protocol_options.go, kademlia/iterator.go:33-51 `NewIterator` and 74-123 (what settings do to the beginning of `Find`), kademlia/protocol.go:34-44 `New` and 168-184 `Bind`, gossip/protocol.go:25-36 `New`, gossip/events.go:14-20 | loggers are numbers; sizes that do not fit into memory are not modelled |
| `Spec/Moments` | moments of an execution | |
| `Callers` | node.go:319-376, 390-441, map.go:31-68: any number of calls of Ping, Send and Request with their contexts, sharing outbound connections (`Client`) | no eviction from the pool and no release of connections; callbacks of protocols return at once; whether the dialer's error wraps a context error is arbitrary |
| `Node` | a whole node: node.go:44-58, 109-236, 319-441, map.go:15-95, client.go:187-281: the accept goroutine, both pools with mutex and eviction, every connection (`Client`), the work channel and workers (`Worker`), any number of calls of Listen, Close, Ping, Send, Request, Inbound, Outbound and (*Client).Close | every connection of a reachable node is a reachable state of `Client`, and its workers are one of `Worker` (`Reaches.reach`, `Stage.reach`), so theorems about those hold inside a node; callbacks of protocols return; registration of handlers while Listen runs, failures of Listen and of closing the listener are left out (`Register`, `NodeCfg`) |
| `Spec/NodeClose` | which steps of `Node` a node that is being closed takes by itself, how many are left, what it means that it is closed, and fair infinite executions of closing | fairness: the node does not rest for ever while it can go on; handlers return |
| `Idle` | deadlines in both loops | discrete time; other failures dropped |
| `Share` | which slices the loops keep | encryption is in `Mem` |
| `Dial` | `dialIfNotExists` | each attempt's outcome is an oracle |
| `NodeCfg` | `NewNode`, options, sequential part of `Listen`, what `Listen` logs | `uint` is `Nat` |
| `NodeLife` | `Listen`, accept loop, `Close`, `Bind`, `Handle` | connections and workers are counters; in `Node` they are the real ones |
| (`Spec/AddrText`) | RFC 5952: the canonical text of an address, for C129 | a specification, not a model |
| `Relisten` | node.go:104-236, 378-388: `Listen` called any number of times, and `Close` | connections and workers are left out; binding fails while a listener of the node is open |
| `Binary`, `Table`, `KadMsg`, `Kad` | `kademlia/binary.go`, `table.go`, `msg.go`, `protocol.go`, `events.go` | table methods are atomic (mutex); pings are oracles |
| `Iterator` | `kademlia/iterator.go`; in `Props/Discovery` the answers are those of real tables | options are not negative; time is arbitrary |
| `Search` | a search (`Iterator`) on a whole node (`Node`): its requests are calls of `Request` | the opcodes of the two messages are fixed |
| `IterShare` | `kademlia/iterator.go` when `Find` is called several times on one `Iterator`, one after the other or at the same time | `init` is one step; a worker that waits to send a result looks the channel up when it sends |
| `Gossip`, `GossipNet` | `gossip/*` | see `fastcache` above; in `GossipNet` links deliver everything |
| `GossipForget` | the same with caches that drop any entry at any moment | which entries fastcache drops, and when, is left open |
| `GossipWire` | `Gossip` on each node of `Net`: the sends of gossip are calls of `Send` of the node, its `Handle` runs on the workers of the node for what came over its connections | all nodes use the same opcode for `gossip.Message`; the entries of the routing table are arbitrary at each read |
| `KadWire` | kademlia on each node of `Net`: the routing table with `Ack` and `OnPingFailed` (`Kad`), `Handle` on the workers of the node, and any number of searches (`Iterator`, `Search`) whose requests are calls of `Request` of the node; the callbacks of the connections call `Ack` | all nodes use the same opcodes; the outcomes of the pings of `Ack` and the failures of dials are arbitrary; the goroutine that calls a callback does not wait for `Ack` |
| `KadPing` | `KadWire` with the pings of `Ack` (kademlia/protocol.go:106-141) joined to calls of `Request` of the node, and `OnPingFailed` called for the calls of the node that could not connect (node.go:416-438) | the goroutine that runs a callback goes on while `Ack` runs; `OnPingFailed` comes after the call has returned, not just before |

### Not modelled

The `cmd/*` programs except for the chat program, and the tests; logging, except for what `Listen` and the handshake write (C84); wall-clock time outside `Idle` (timeouts elsewhere are
events that may happen at any moment); memory exhaustion; the randomness of `GenerateKeys`; name resolution; data races in the sense of the Go
memory model, unless a property says so (each shared access is atomic in the model).

## 4. What the proofs found

Each item is a `_refuted` theorem about the code as it is.

* **C02 IPv4 hosts survive the wire.** False of the code: Marshal copies a 4-byte host into the first 4 bytes of the 16-byte field. Refuted for every 4-byte host except 0.0.0.0; proved for IPv4 hosts in 16-byte form.
* **C11 A receive limit of zero disables the limit.** False of the code: with limit 0 every non-empty frame makes read panic (slice bounds), and limits above 2^32-5 panic on every read. Proved: behaviour on empty frames and that 2^32-5 admits everything up to that size.
* **C14 Frames cannot be replayed.** False of the code: a repeated frame is delivered again. Proved: only sealed messages are delivered.
* **C15 No nonce is used twice under one session key.** False of the code: nonces come from the default-seeded math/rand, so two processes draw equal sequences. Proved: no reuse inside one process as long as the generator has not repeated.
* **C19 More than 65536 types.** False of the code: the 65537th registration silently takes over opcode 0. Proved: the last 65536 types keep working.
* **C20 Pointer messages.** False of the code for types registered as pointers. Proved: pointers encode like values, and every registered value type can be encoded.
* **C23 Request returns when the connection drops.** false of the code: requestMap.close is never called, so a Request blocked on a dropped connection waits for its context; proved: universal non-termination, a reachable witness, and what does wake a Request
* **C24 One response per request.** False as stated: the context is copied per handler, so several handlers can each respond. Proved: at most one response per handler invocation's context.
* **C25 Responses are not mistaken for requests.** false for second and later responses with the same nonce; the first response never reaches the handlers, even after cancellation
* **C27 Send reports a closed connection.** false of the code: send always returns nil; proved: after close nothing new is ever written, and before close everything submitted is written and flushed in a bounded number of writer steps
* **C29 Connection callbacks are paired.** false for outbound connections with a failed handshake; everything else in the statement is proved
* **C30 Handlers see only authenticated data.** false for outbound connections with a failed handshake; proved for all other deliveries
* **C32 Close terminates the connection.** false when Close races with the dial, and when the work queue does not accept; otherwise terminates within an explicit bound
* **C33 WaitUntilClosed waits for all goroutines.** false of the code: the writer goroutine may outlive WaitUntilClosed; proved that it ends within an explicit bound
* **C35 Outbound pool bound.** False: both pools are bounded by the inbound maximum. Proved for maxInbound <= maxOutbound.
* **C37 Eviction makes progress.** False: every eviction waits, with the pool's mutex held, for a client whose end needs the mutex. Proved: calls that need no eviction complete.
* **C38 Dialing is bounded and reported once.** False in two clauses: attempts go on after the context has ended, and waiting for readiness is not bounded by the context. Everything else in the statement is proved.
* **C41 Bind and Handle are ignored once Listen has returned.** False: Listen sets the flag in the goroutine it starts. Proved from that goroutine's first statement on.
* **C42 Close completes and has released everything.** False in seven ways: never listened; a connection that has just been accepted, whose goroutine Close overtakes, is served for ever and keeps the accept goroutine from ending; Close before the accept goroutine runs; the first Close returns early; outbound connections are never closed; all workers lost to handler errors while an inbound connection has a message for the full work channel; an eviction under way. Proved: a Close that returns because the accept goroutine ended returns after all inbound connections and workers ended, also in the whole-node model; and in the whole-node model, once the listener is closed, nothing is being accepted, the goroutines of accepted connections have begun and a worker is left, the steps of closing are bounded explicitly, the node does not get stuck before every Close has returned and everything inbound has ended, and so it is closed in the end in every fair execution.
* **C43 A handler error only costs its connection.** False: the worker that ran the failing handler ends, so later messages may never be handled. Proved: the error is reported on and closes only the client of the message.
* **C52 FindClosest returns the closest.** False: FindClosest stops as soon as it has k peers and can miss a closer one. Proved: what it does guarantee, and that Peers is exact.
* **C54 Eviction policy of Ack.** False when another recorded peer shares the tail's address; proved otherwise.
* **C55 Peer events match the table.** False: a newcomer turned away is reported evicted, and reports can come in the wrong order. Proved: otherwise admissions and evictions balance with the table, in every interleaving.
* **C56 Ack under concurrency does not crash.** False: Last panics on a bucket emptied between two calls. Proved: that is the only way, and needs sixteen removals in between.
* **C61 Lookup asks for the target.** False: peers are asked for their own neighbourhood, and a target that is not an initial peer is never found. Proved for targets among the initial peers.
* **C63 Gossip is delivered to the application at most once.** False with two workers, during an own push, and for data of 65500 bytes or more (the cache refuses such keys). Proved for smaller data: at most as often as there are workers, so once with one worker; never after a push unless a handler is in between. Assumes that cache entries are kept.
* **C64 Gossip is not echoed.** False for large data and overlapping pushes; everything in the statement is proved for data of fewer than 65500 bytes.
* **C65 A gossip flood terminates and covers the network.** False for large data, which is flooded for ever. Proved for smaller data in every network and interleaving: explicit bound on the number of steps, no deadlock, coverage; exactly once with one worker per node.
* **C69 The authenticated peer is somebody else.** False: reflecting a node's messages completes the handshake with the node's own ID, and with an own ephemeral key the attacker even has the session key. Proved for every ID other than the node's own.
* **C72 Documented default idle timeout.** False: NewNode sets no default, so there is no idle timeout unless configured. Configured timeouts are used.
* **C74 Node binds to the configured host.** False for loopback hosts, which bind to all interfaces. Proved for every other host.
* **C75 Found peers are who they claim to be.** False: whoever answers at the announced address counts. Proved if addresses are answered by their owners.
* **C77 Received data was sent by the peer.** False: both directions use the same key and no direction or sequence number, so a node's own frames and the second handshake message are accepted as data. Proved: everything accepted was encrypted by one of the two ends of this very connection.
* **C82 No response goes astray.** False with two answering handlers; proved for at most one handler.
* **C83 The idle timeout hits idle connections only.** False of the code: one-way traffic is timed out, and the write deadline is set before waiting for something to write. Timed model of the two loops.
* **C84 Secrets stay out of the log.** False of the code: Listen logs the private key and every successful handshake logs the session key, the latter with every line of that client. Failed handshakes log nothing.
* **C85 A node need not listen to connect.** False of the code for nodes without bind host and port that have not called Listen: they claim the all-zero identity. Assumes that signatures by the node's key do not verify under the all-zero key.
* **C86 Send takes a snapshot.** False of the code: the caller's slice is kept until it is written. Proved for memory that the caller leaves alone.
* **C88 Handlers may make requests.** False of the code: when all workers wait for responses and the queue is full, the receive loop that would read the responses is blocked for ever. Proved: it goes on as long as one worker is not waiting.
* **C90 Typed requests keep their types.** False of the code: opcodes count registrations on each node, so two nodes that bind the same protocols in different orders take a kademlia Ping for a gossip message without any error. Proved: it holds if the orders agree.
* **C91 Calls return after their context ends.** False of the code: if the last peer of a full bucket has the address that is being dialled, OnPeerConnected pings the very connection it is called from, which then waits for its own end; every call for that address hangs for ever. Proved: a call whose context ends returns if the connection it waits for is not in OnPeerConnected.
* **C92 Concurrent use of a client is free of data races.** False of the code: ID races with the handshake, and Close (also when called by Ping whose context ends, or by the pool) races with the connection being set. Proved: no other field has a race, and none at all if ID and Close are called after waiting for the connection.
* **C93 Concurrent registrations are kept.** False of the code: of two overlapping calls one may be lost. Proved: everything is kept, in order, if calls do not overlap.
* **C96 One message callback per message.** False of the code: OnMessageSent is called once per flush, however many messages it contains, and OnMessageRecv is never called for responses. Proved: writes, flush and call alternate, nothing flushed stays unannounced, and there is exactly one OnMessageRecv per message given to the handlers.
* **C97 Message callbacks come while the peer is connected.** False of the code: nothing waits for the writer before OnPeerDisconnected, and an outbound connection whose handshake failed goes on receiving. Proved: no message callback before OnPeerConnected if that is called, and no OnMessageRecv after OnPeerDisconnected.
* **C98 Closing a node does not crash the process.** False of the code: Close leaves outbound connections open and closes the work channel, and the next message on one of them panics in its receive goroutine. Proved, also for the whole node: this is the only panic in the model; inbound connections never cause it.
* **C99 A node handles what it receives, listening or not.** False of the code: the send on the nil channel blocks for ever, and with it the responses. Proved: once Listen has made the channel, connections that are not stuck deliver as soon as there is room, and nothing is lost, duplicated or reordered between a receive loop and the workers.
* **C102 Messages may contain messages.** False of the code: encode calls Marshal while it holds the read lock, and a RegisterMessage in between makes the inner RLock wait for ever, with all later calls. Proved: without registrations in the meantime, all calls return and return the right bytes.
* **C104 Peer events are about authenticated peers.** False of the code: on an outbound connection whose handshake failed, a message sent or received calls OnPeerActivity with the zero ID. Proved: the zero key is the only exception, and it is never admitted or evicted.
* **C105 A peer that comes back under a new address is recorded under it.** False of the code: Update moves the old entry to the front and keeps its address. Proved: after the old address has been evicted by a failed dial, the next contact records the new one.
* **C106 Peers that answer are kept.** False of the code: a failed ping deletes by key, also an entry that was recorded under a new address in the meantime. Proved: otherwise an answering peer stays, in every interleaving.
* **C107 The context of a call concerns that call only.** False of the code: a call with an ended context that finds a healthy connection in the pool may close it and reports its peer as unreachable. Proved: a connection is closed by this node only by the application, after an error, or by a call to that address whose context has ended.
* **C108 A call fails for its own reasons only.** False of the code: the connection is dialed with the context of the call that created it, and the error fails the other calls at once. Proved: a call whose context has not ended fails only after errors on connections to its own address, after all attempts or a context error; and it returns only a client for its own address.
* **C109 Abandoned requests are forgotten.** False of the code: a request whose context ended stays in the map of pending requests until a response with its nonce comes, and for ever if none does, also after the connection is closed. Proved: a request is kept exactly until a message with its nonce is processed, under one nonce only, and nothing is kept of a request that returned a response.
* **C110 The address in an ID is the peer's.** False of the code: any holder of a key can complete a handshake under any host and port. Proved: the whole ID of a connected peer was signed, with the session's shared key, by the key in it.
* **C113 A listening node keeps accepting.** False of the code: the first connection from a further address while the pool is full ends the node for good: nothing is accepted any more, no Close and no Inbound() returns, no inbound connection ever ends. Proved: as long as connections come from at most maxInboundConnections addresses, every one is taken with one step.
* **C114 Calls return although the outbound pool is full.** False of the code: the first call to a further address while the outbound pool is full hangs for ever, and with it every later call of Ping, Send and Request to any address, whatever their contexts. Proved: as long as calls go to at most maxInboundConnections addresses (which bounds both pools), every call gets a client with one step, and every call whose context ends returns, under fair scheduling; Ping and Send return even without, if attempts to connect do not hang.
* **C115 Accepted connections are served or closed.** False of the code: a connection from an address that the pool has a client for is neither served nor closed. Proved: this is the only case; all other connections have a client of their own each, in order.
* **C116 An oversized message costs only itself.** False of the code: Send takes messages of any size, and the receiver ends the connection at the first one above its limit, so everything after it is lost. Proved: exactly the messages before the first oversized one are received, then the error that says so.
* **C120 Listen of a node that listens only returns an error.** false of the code: the node counts as listening once its accept goroutine has run, not when Listen returns; a second Listen that begins before that fails to bind and sets the listener to nil, after which the next connection crashes the process and Close waits for ever. Proved: once the accept goroutine has run, further calls return errors and change nothing.
* **C121 A lookup gets to know whom its peers know.** False of the code: each peer is asked for the 16 nearest to itself, so a search does not leave a crowd of 17 near peers, however many others they know. Proved: it reaches everybody while the tables hold at most 16 other peers.
* **C122 The overlay may be used before Listen.** False of the code: the routing table is nil until Listen; before it the process crashes at the first completed handshake, failed dial, or call of Discover, Find or Push. Proved: from Listen on there is no such crash, also on connections begun before.
* **C123 Methods of a node may be called concurrently.** False of the code: ID and Addr race with Listen, Bind with Bind and Handle with Handle, Handle after Listen with workers, and Listen after Ping with the connection. Proved: no race on any field if one goroutine configures the node before it starts or dials anything; no race on the listener in any case, so Close may be called at any time.
* **C124 The chat program shows peers what was typed.** False of the code: a line of more than 4096 bytes is sent in pieces, of which one that begins with a slash is taken for a command and not sent, a character across the border is lost, and with more than 16 peers in the table only 16 are sent anything. Proved: lines of up to 4096 bytes arrive and are printed as typed; no byte is lost before commands are recognised; with up to 16 peers all are sent to.
* **C125 The chat program attributes messages to those who sent them.** False of the code: contents are printed as they are, so that a message with a line feed prints a line in the name of somebody else. Proved: correct attribution if no message contains a line feed, as is the case for all that the program itself sends; a line determines address, first four bytes of the key and words.
* **C126 Gossip works with a cache of bounded size.** False of the code: after more messages than the cache has entries, whatever it drops, one of them is reported again when it arrives again; in a ring of three a message can go round for ever. Proved with caches that may drop any entry at any time: reports and sends are bounded by the number of drops, floods end if drops about the message do, there is no deadlock, and nobody is left out.
* **C127 An iterator may be used for several searches.** False of overlapping calls: a second call makes one that is waiting wait for ever, two searches never both end, and with the default options the process can crash (close of a closed channel). Proved of calls that do not overlap, in both directions: the searches of a used iterator are those of a new one.
* **C135 A search returns.** False: the requests of a search go through the pool of outbound connections, which blocks for ever when it has to evict (C114). A search that gets to know live peers at more than maxInboundConnections addresses never returns, whatever the timeouts (C135_many_peers_refuted gives the bound, C135_stuck_refuted that there is no way out, C135_witness a case). Proved instead: with calls to at most maxInboundConnections addresses, every fair execution returns, assuming that timeouts pass, connections that are closed come to an end, and the process does not crash.
* **C142 Push of gossip returns.** False: the sends of a push go through the pool of outbound connections, which blocks for ever when it has to evict (C114). A push that sends to live peers at more than maxInboundConnections addresses never returns (C142_many_peers_refuted gives the bound, C142_stuck_refuted that there is no way out), and each worker of the node whose Handle pushes is lost with it (C142_worker_refuted). Proved instead: with at most that many addresses on the node, a push returns under fair scheduling, provided that attempts to connect do not hang or its context ends.
* **C143 Gossip is sent to the peers it is meant for.** False: Push sends to the address of a peer of the routing table and marks the peer as having the data, whoever answers at that address. Proved instead: what is counted as sent was given to a connection dialled at that address whose peer is authenticated, as whoever that may be; it is the peer if only the peer answers there.

## 5. Properties, models, theorems

| id | property | status | module | theorems |
|---|---|---|---|---|
| C01 | ID wire round trip | proved | `Props/Ident` | `C01_id_roundtrip` |
| C02 | IPv4 hosts survive the wire | partial | `Props/Ident` | `C02_ipv4_refuted`, `C02_ipv4_partial` |
| C03 | UnmarshalID is total and exact | proved | `Props/Ident` | `C03_unmarshalID_exact` |
| C04 | Addresses identify endpoints | proved | `Props/Ident` | `C04_address_identifies_endpoint` |
| C05 | ID.String is unambiguous JSON | proved | `Props/Ident` | `C05_string_unambiguous` |
| C06 | Private keys round trip through hex | proved | `Props/Ident` | `C06_load_keys` |
| C07 | UnmarshalSignature | proved | `Props/Ident` | `C07_unmarshal_signature` |
| C08 | Message envelope round trip | proved | `Props/Frame` | `C08_envelope` |
| C09 | The byte stream carries the message sequence | proved | `Props/Frame` | `C09_stream`, `C09_stream_complete` |
| C10 | Receive limit is exact and safe | proved | `Props/Frame` | `C10_limit`, `C10_session_limit` |
| C11 | A receive limit of zero disables the limit | partial | `Props/Frame` | `C11_zero_limit_refuted`, `C11_zero_limit_partial` |
| C12 | Encryption round trip and buffer safety | proved | `Props/Mem` | `C12_encrypt_decrypt`, `C12_send_preserves_user_data` |
| C13 | Only frames sealed under the session key are accepted | proved | `Props/Frame` | `C13_only_sealed` |
| C14 | Frames cannot be replayed | partial | `Props/Frame` | `C14_replay_refuted`, `C14_replay_applies`, `C14_replay_partial` |
| C15 | No nonce is used twice under one session key | partial | `Props/Frame` | `C15_nonce_reuse_refuted`, `C15_nonce_reuse_partial` |
| C16 | Opcodes are distinct and permanent | proved | `Props/Codec` | `C16_opcodes` |
| C17 | Encode/decode round trip for registered types | proved | `Props/Codec` | `C17_encode_decode` |
| C18 | Registration failures are clean | proved | `Props/Codec` | `C18_clean_failures` |
| C19 | More than 65536 types | partial | `Props/Codec` | `C19_overflow_refuted`, `C19_overflow_witness`, `C19_overflow_partial` |
| C20 | Pointer messages | partial | `Props/Codec` | `C20_pointer_refuted`, `C20_pointer_witness`, `C20_pointer_partial` |
| C21 | Request nonces are fresh | proved | `Props/Guarded`, `Props/Requests` | `C21_fresh_nonces`, `C21_requests_linearizable` |
| C22 | Responses reach the right caller | proved | `Props/Client` | `C22_responses` |
| C23 | Request returns when the connection drops | partial | `Props/Client` | `C23_blocked_forever_refuted`, `C23_witness`, `C23_returns_partial` |
| C24 | One response per request | partial | `Props/Worker` | `C24_many_responses_refuted`, `C24_one_response_partial` |
| C25 | Responses are not mistaken for requests | partial | `Props/Client` | `C25_second_response_refuted`, `C25_second_response_witness`, `C25_first_response_partial` |
| C26 | Per-connection FIFO | proved | `Props/Client` | `C26_fifo` |
| C27 | Send reports a closed connection | partial | `Props/Client` | `C27_send_after_close_refuted`, `C27_closed_witness`, `C27_send_transmits_partial` |
| C28 | Client.Error is the first error | proved | `Props/Client2` | `C28_first_error` |
| C29 | Connection callbacks are paired | partial | `Props/Client2` | `C29_disconnected_without_connected_refuted`, `C29_callbacks_partial` |
| C30 | Handlers see only authenticated data | partial | `Props/Client2` | `C30_plaintext_delivered_refuted`, `C30_delivered_partial` |
| C31 | Lifecycle channels are closed once and in order | proved | `Props/Client2` | `C31_lifecycle` |
| C32 | Close terminates the connection | partial | `Props/Client2` | `C32_close_during_dial_refuted`, `C32_close_blocked_refuted`, `C32_close_blocked_witness`, `C32_close_terminates_partial` |
| C33 | WaitUntilClosed waits for all goroutines | partial | `Props/Client2` | `C33_writer_outlives_refuted`, `C33_writer_ends_partial` |
| C34 | Inbound pool bound | proved | `Props/Pool` | `C34_inbound_bounded` |
| C35 | Outbound pool bound | partial | `Props/Pool` | `C35_outbound_exceeds_refuted`, `C35_outbound_bounded_partial` |
| C36 | One pooled client per address, most recent first | proved | `Props/Pool` | `C36_lru`, `C36_most_recent` |
| C37 | Eviction makes progress | partial | `Props/PoolLock` | `C37_eviction_deadlocks_refuted`, `C37_full_pool_reachable`, `C37_get_completes_partial`, `C37_few_addresses_partial` |
| C38 | Dialing is bounded and reported once | partial | `Props/Dial` | `C38_dial_partial`, `C38_attempts_after_cancel_refuted`, `C38_may_block_refuted` |
| C39 | Options | proved | `Props/NodeCfg` | `C39_options`, `C39_at_least_one` |
| C40 | Advertised identity | proved | `Props/NodeCfg` | `C40_advertised_identity`, `C40_unusable_public_address` |
| C41 | Bind and Handle are ignored once Listen has returned | partial | `Props/NodeLife` | `C41_window_refuted`, `C41_ignored_partial` |
| C42 | Close completes and has released everything | partial | `Props/NodeClose`, `Props/NodeEnd`, `Props/NodeLate`, `Props/NodeLife`, `Props/Node` | `C42_never_listened_refuted`, `C42_early_close_refuted`, `C42_returns_early_refuted`, `C42_lost_workers_refuted`, `C42_lost_workers_witness`, `C42_late_connection_refuted`, `C42_late_connection_witness`, `C113_full_pool_ends_the_node_refuted`, `C42_close_released_partial`, `C42_connections_partial`, `C42_node_close_released_partial`, `C42_node_close_steps_partial`, `C42_node_close_completes_partial`, `C42_close_stops_accepting_partial`, `C42_close_terminates_partial` |
| C43 | A handler error only costs its connection | partial | `Props/Worker` | `C43_workers_die_refuted`, `C43_error_closes_partial` |
| C44 | Handlers run in order, once per message | proved | `Props/Worker` | `C44_handlers_in_order`, `C44_all_handlers_run` |
| C45 | XOR metric | proved | `Props/Binary` | `C45_xor_metric`, `C45_xor_lengths` |
| C46 | PrefixLen and PrefixDiff | proved | `Props/Binary` | `C46_prefixes`, `C46_common_prefix` |
| C47 | SortByDistance | proved | `Props/Binary` | `C47_sorted`, `C47_deterministic` |
| C48 | Routing table invariants | proved | `Props/Table` | `C48_invariants` |
| C49 | Update semantics | proved | `Props/Table` | `C49_update`, `C49_keeps_address` |
| C50 | Delete semantics | proved | `Props/Table` | `C50_delete`, `C50_delete_by_address` |
| C51 | FindClosest soundness | proved | `Props/Table` | `C51_find_closest`, `C51_negative_panics` |
| C52 | FindClosest returns the closest | partial | `Props/Table` | `C52_misses_closer_refuted`, `C52_closest_partial`, `C52_peers_partial` |
| C53 | FIND_NODE messages on the wire | proved | `Props/KadMsg` | `C53_request`, `C53_response_roundtrip`, `C53_response_total` |
| C54 | Eviction policy of Ack | partial | `Props/Kad` | `C54_ack_partial`, `C54_two_evictions_refuted` |
| C55 | Peer events match the table | partial | `Props/Kad` | `C55_evicted_never_admitted_refuted`, `C55_order_refuted`, `C55_reports_partial` |
| C56 | Ack under concurrency does not crash | partial | `Props/Kad` | `C56_crash_refuted`, `C56_crash_only_if_partial` |
| C57 | Replies to Kademlia requests | proved | `Props/Kad` | `C57_replies` |
| C58 | Lookup results | proved | `Props/Iterator` | `C58_results` |
| C59 | Lookup terminates | proved | `Props/Iterator` | `C59_terminates` |
| C60 | Lookup completeness and schedule-independence | proved | `Props/Iterator` | `C60_complete`, `C60_deterministic` |
| C61 | Lookup asks for the target | partial | `Props/Iterator` | `C61_asks_for_itself_refuted`, `C61_target_not_found_refuted`, `C61_known_target_partial` |
| C62 | Gossip cache keys are unambiguous | proved | `Props/Gossip` | `C62_keys` |
| C63 | Gossip is delivered to the application at most once | partial | `Props/Gossip` | `C63_two_workers_refuted`, `C63_own_push_refuted`, `C63_large_refuted`, `C63_at_most_workers_partial`, `C63_not_after_push_partial` |
| C64 | Gossip is not echoed | partial | `Props/Gossip` | `C64_overlapping_refuted`, `C64_large_refuted`, `C64_not_to_itself_partial`, `C64_not_back_partial`, `C64_not_twice_partial`, `C64_sequential_partial` |
| C65 | A gossip flood terminates and covers the network | partial | `Props/GossipNet` | `C65_large_refuted`, `C65_terminates_partial`, `C65_progress_partial`, `C65_covers_partial` |
| C66 | Honest handshake agrees | proved | `Props/Handshake` | `C66_agree`, `C66_exchange_exists` |
| C67 | Handshake rejects anything unauthentic | proved | `Props/Handshake` | `C67_accepts`, `C67_rejects`, `C67_small_limit` |
| C68 | Peer authentication against network attackers | proved | `Props/Symbolic` | `C68_peer_authentication` |
| C69 | The authenticated peer is somebody else | partial | `Props/Symbolic` | `C69_reflection_refuted`, `C69_impersonation_refuted`, `C69_somebody_else_partial` |
| C70 | Curve conversion | proved | `Props/Ecdh` | `C70_conversion`, `C70_unique`, `C70_sign_bit` |
| C71 | The end of a connection removes only itself from the pool | proved | `Props/NodeList`, `Props/PoolLock` | `C71_removes_own`, `C71_disappears`, `C71_pool_removes_own`, `C71_pool_by_itself` |
| C72 | Documented default idle timeout | partial | `Props/NodeCfg` | `C72_default_idle_timeout_refuted`, `C72_configured_idle_timeout_partial` |
| C73 | Advertised address parses back to host and port | proved | `Props/NodeCfg` | `C73_address_parses`, `C73_address_nowhere` |
| C74 | Node binds to the configured host | partial | `Props/NodeCfg` | `C74_loopback_binds_everywhere_refuted`, `C74_binds_to_host_partial` |
| C75 | Found peers are who they claim to be | partial | `Props/Iterator` | `C75_impostor_refuted`, `C75_owners_partial` |
| C76 | Session agreement and forward secrecy | proved | `Props/Symbolic` | `C76_agreement_and_forward_secrecy` |
| C77 | Received data was sent by the peer | partial | `Props/Symbolic` | `C77_reflected_data_refuted`, `C77_handshake_as_data_refuted`, `C77_data_origin_partial` |
| C78 | A request transmits its own data under its own nonce, once | proved | `Props/ClientCalls` | `C78_request_submits` |
| C79 | Received messages are not lost, duplicated or reordered | proved | `Props/ClientCalls` | `C79_receive_lossless`, `C79_receive_continues` |
| C80 | End-to-end order between two nodes | proved | `Props/Link` | `C80_end_to_end_order` |
| C81 | A response answers the request it is returned for | proved | `Props/Link` | `C81_responses_answer_the_request` |
| C82 | No response goes astray | partial | `Props/Link` | `C82_stray_response_refuted`, `C82_no_stray_partial` |
| C83 | The idle timeout hits idle connections only | partial | `Props/Idle` | `C83_one_way_refuted`, `C83_quiet_sender_refuted`, `C83_timeouts_partial` |
| C84 | Secrets stay out of the log | partial | `Props/Secrets` | `C84_private_key_logged_refuted`, `C84_session_key_logged_refuted`, `C84_logged_partial` |
| C85 | A node need not listen to connect | partial | `Props/Secrets` | `C85_not_listening_refuted`, `C85_identity_partial` |
| C86 | Send takes a snapshot | partial | `Props/Share` | `C86_snapshot_refuted`, `C86_send_partial` |
| C87 | Received data is private | proved | `Props/Share` | `C87_received_data_is_private` |
| C88 | Handlers may make requests | partial | `Props/Nested` | `C88_nested_requests_refuted`, `C88_free_worker_partial` |
| C89 | End-to-end on a byte stream | proved | `Props/ByteLink` | `C89_end_to_end_bytes`, `C89_responses_bytes`, `C89_next_message_is_read`, `C89_next_response_is_read` |
| C90 | Typed requests keep their types | partial | `Props/Typed` | `C90_registration_order_refuted`, `C90_typed_requests_partial` |
| C91 | Calls return after their context ends | partial | `Props/Reent` | `C91_calls_return_refuted`, `C91_calls_return_partial` |
| C92 | Concurrent use of a client is free of data races | partial | `Props/Race` | `C92_no_data_races_partial`, `C92_id_races_refuted`, `C92_close_races_refuted` |
| C93 | Concurrent registrations are kept | partial | `Props/Register` | `C93_concurrent_registration_refuted`, `C93_registration_partial`, `C93_closed_partial` |
| C94 | What is sent is eventually handled | proved | `Props/Live` | `C94_sent_is_handled` |
| C95 | An answered request eventually returns | proved | `Props/Live` | `C95_request_returns` |
| C96 | One message callback per message | partial | `Props/Callbacks` | `C96_sent_callback_refuted`, `C96_recv_callback_refuted`, `C96_recv_witness`, `C96_callbacks_partial` |
| C97 | Message callbacks come while the peer is connected | partial | `Props/Callbacks` | `C97_sent_after_disconnect_refuted`, `C97_recv_without_connect_refuted`, `C97_callbacks_while_connected_partial` |
| C98 | Closing a node does not crash the process | partial | `Props/NodeEnd`, `Props/Queue` | `C98_crash_after_close_refuted`, `C98_crash_happens_refuted`, `C98_node_crash_refuted`, `C98_no_crash_partial`, `C98_node_no_crash_partial` |
| C99 | A node handles what it receives, listening or not | partial | `Props/Queue` | `C99_stuck_refuted`, `C99_stuck_happens_refuted`, `C99_delivers_partial` |
| C100 | The codec may be used concurrently | proved | `Props/Guarded` | `C100_codec_linearizable` |
| C101 | The methods of the routing table are atomic | proved | `Props/Guarded` | `C101_table_linearizable` |
| C102 | Messages may contain messages | partial | `Props/Guarded` | `C102_nested_encode_refuted`, `C102_without_registration_partial` |
| C103 | The routing table holds authenticated peers only | proved | `Props/KadNode` | `C103_table_authenticated` |
| C104 | Peer events are about authenticated peers | partial | `Props/KadNode` | `C104_activity_of_nobody_refuted`, `C104_events_authenticated_partial` |
| C105 | A peer that comes back under a new address is recorded under it | partial | `Props/KadNode` | `C105_address_not_updated_refuted`, `C105_witness`, `C105_recorded_after_eviction_partial` |
| C106 | Peers that answer are kept | partial | `Props/KadKeep` | `C106_stale_ping_refuted`, `C106_answering_peer_stays_partial` |
| C107 | The context of a call concerns that call only | partial | `Props/Callers` | `C107_healthy_connection_closed_refuted`, `C107_close_justified_partial` |
| C108 | A call fails for its own reasons only | partial | `Props/Callers` | `C108_context_of_another_refuted`, `C108_failures_partial` |
| C109 | Abandoned requests are forgotten | partial | `Props/Leak` | `C109_kept_for_ever_refuted`, `C109_leak_happens_refuted`, `C109_released_partial` |
| C110 | The address in an ID is the peer's | partial | `Props/Claims` | `C110_any_address_refuted`, `C110_claimed_by_key_partial` |
| C111 | Ack returns | proved | `Props/KadEnd` | `C111_ack_returns` |
| C112 | A node serves at most the configured number of inbound connections | proved | `Props/Node` | `C112_inbound_connections_bounded` |
| C113 | A listening node keeps accepting | partial | `Props/Node` | `C113_full_pool_ends_the_node_refuted`, `C113_next_connection_refuted`, `C113_witness`, `C113_accepts_few_addresses_partial` |
| C114 | Calls return although the outbound pool is full | partial | `Props/GossipPush`, `Props/Node` | `C114_full_pool_ends_calls_refuted`, `C114_next_call_refuted`, `C114_witness`, `C114_few_addresses_partial`, `C114_calls_return_partial` |
| C115 | Accepted connections are served or closed | partial | `Props/Node` | `C115_ignored_refuted`, `C115_witness`, `C115_served_have_clients_partial`, `C115_ignored_only_if_known_partial` |
| C116 | An oversized message costs only itself | partial | `Props/Oversize` | `C116_later_messages_lost_refuted`, `C116_up_to_the_first_partial` |
| C117 | A call that succeeds has reached an authenticated peer | proved | `Props/NodeCalls` | `C117_ready`, `C117_calls_reach_authenticated_peers` |
| C118 | A response is returned to one caller | proved | `Props/NodeCalls` | `C118_responses_not_shared` |
| C119 | Inbound and Outbound list the connections | proved | `Props/NodeList` | `C119_lists` |
| C120 | Listen of a node that listens only returns an error | partial | `Props/Relisten` | `C120_second_listen_crashes_refuted`, `C120_lost_listener_refuted`, `C120_lost_witness`, `C120_close_crashes_refuted`, `C120_second_life_refuted`, `C120_later_listen_partial` |
| C121 | A lookup gets to know whom its peers know | partial | `Props/Discovery` | `C121_cluster_refuted`, `C121_cluster_witness`, `C121_small_tables_partial` |
| C122 | The overlay may be used before Listen | partial | `Props/KadBind` | `C122_crash_before_listen_refuted`, `C122_witness`, `C122_after_listen_partial` |
| C123 | Methods of a node may be called concurrently | partial | `Props/NodeRace` | `C123_id_races_refuted`, `C123_bind_races_refuted`, `C123_one_goroutine_races_refuted`, `C123_configure_first_partial`, `C123_close_any_time_partial` |
| C124 | The chat program shows peers what was typed | partial | `Props/Chat` | `C124_typed_lines_partial`, `C124_commands_stay`, `C124_all_bytes_partial`, `C124_long_line_refuted`, `C124_cut_character_refuted`, `C124_witness`, `C124_sixteen_refuted`, `C124_small_table_partial` |
| C125 | The chat program attributes messages to those who sent them | partial | `Props/Chat` | `C125_forged_line_refuted`, `C125_attribution_partial`, `C125_program_sends_no_line_feeds`, `C125_unambiguous` |
| C126 | Gossip works with a cache of bounded size | partial | `Props/GossipForget` | `C126_reported_again_refuted`, `C126_flood_refuted`, `C126_delivered_partial`, `C126_sent_partial`, `C126_terminates_partial`, `C126_progress_partial`, `C126_covers_partial` |
| C127 | An iterator may be used for several searches | partial | `Props/IterShare` | `C127_crash_refuted`, `C127_both_end_refuted`, `C127_never_returns_refuted`, `C127_one_after_another_partial`, `C127_as_new_partial` |
| C128 | Listen returns nil exactly if the node accepts | proved | `Props/Relisten` | `C128_nil_means_accepting`, `C128_nothing_left` |
| C129 | Addresses are written in their canonical form | proved | `Props/AddrText` | `C129_canonical_address` |
| C130 | A request returns when its context ends | proved | `Props/NodeReq` | `C130_request_ends` |
| C131 | Messages are not mixed up between connections | proved | `Props/NodeTraffic` | `C131_attribution`, `C131_sent`, `C131_inbound` |
| C132 | Messages and responses between the nodes of a network are genuine | proved | `Props/Net` | `C132_messages`, `C132_origin`, `C132_not_repeated`, `C132_response`, `C132_no_stray` |
| C133 | Messages arrive and requests return in a network of nodes | proved | `Props/GossipLive`, `Props/NetLive` | `C133_sent_is_handled`, `C133_send_is_handled`, `C133_answered_request_returns`, `C133_request_returns`, `C133_send_arrives`, `C133_answered_request_arrives`, `C133_request_arrives` |
| C134 | Keys and signatures in JSON | proved | `Props/Ident` | `C134_key_json` |
| C135 | A search returns | partial | `Props/Search` | `C135_many_peers_refuted`, `C135_stuck_refuted`, `C135_witness`, `C135_returns_partial` |
| C136 | The results of a search have answered it | proved | `Props/Search` | `C136_results_answered` |
| C137 | Whoever one is connected to is known to the overlay | proved | `Props/KadSync` | `C137_known_when_ready`, `C137_connected_recorded`, `C137_bootstrap` |
| C138 | The options of the overlay, of searches and of gossip | proved | `Props/Options` | `C138_iterator_options`, `C138_protocol_options`, `C138_gossip_options` |
| C139 | For which options a search works | proved | `Props/Options` | `C139_usable_options` |
| C140 | Gossip reports only what somebody put into the network | proved | `Props/GossipWire` | `C140_origin`, `C140_closed`, `C140_destinations`, `C140_limits`, `C140_no_replies` |
| C141 | Gossip that arrives is not dropped | proved | `Props/GossipWire` | `C141_not_dropped`, `C141_accepted` |
| C142 | Push of gossip returns | partial | `Props/GossipPush` | `C142_many_peers_refuted`, `C142_stuck_refuted`, `C142_worker_refuted`, `C142_witness`, `C142_returns_partial` |
| C143 | Gossip is sent to the peers it is meant for | partial | `Props/GossipWho` | `C143_wrong_peer_refuted`, `C143_address_partial`, `C143_right_peer_partial` |
| C144 | Pushed gossip reaches the applications of connected peers | proved | `Props/GossipLive` | `C144_sent_is_reported`, `C144_push_is_reported` |
| C145 | Gossip spreads through the network | proved | `Props/GossipSpread` | `C145_gossip_spreads`, `C145_reaches_everybody` |
| C146 | Identities in routing tables and search results are genuine | proved | `Props/KadWire` | `C146_known_at_first_hand`, `C146_results_answer`, `C146_no_phantoms` |
| C147 | Connected nodes answer pings and queries | proved | `Props/KadServe` | `C147_queries_answered`, `C147_handler_goes_on` |
| C148 | Searches on a working network end, and find everybody that they are led to | proved | `Props/KadSearch` | `C148_search_returns`, `C148_search_ends`, `C148_finds_everybody` |
| C149 | Peers leave the routing table only for a cause; those that answer pings stay | proved | `Props/KadPing` | `C149_removed_for_cause`, `C149_answering_peers_stay`, `C149_silent_peers_go` |
| C150 | On a network whose nodes answer, Ack returns | proved | `Props/KadAck` | `C150_ack_returns`, `C150_known_peers` |

## 6. How the theorems were tested

Beside (almost) every theorem an `example` instantiates its hypotheses with a concrete, non-trivial case. Mutation testing: in a scratch copy a definition of the
model is edited as a realistic bug would, the project is rebuilt, and the failing theorems are recorded in `seeded/LOG.jsonl` together with the
claim that the edit breaks. Survivors led to tightened or new theorems (named in the log) or are marked there as benign. A theorem is counted as failed if its own proof or the
proof of a lemma that it depends on no longer checks.

## 7. Axioms per theorem

As printed by Lean (`Lean.collectAxioms`) for the theorems of the manifest.

**propext**: `C120_close_crashes_refuted`, `C120_lost_witness`, `C120_second_listen_crashes_refuted`, `C138_gossip_options`, `C138_iterator_options`, `C138_protocol_options`, `C15_nonce_reuse_partial`, `C15_nonce_reuse_refuted`, `C23_witness`, `C25_second_response_witness`, `C27_closed_witness`, `C29_disconnected_without_connected_refuted`, `C30_plaintext_delivered_refuted`, `C32_close_blocked_witness`, `C33_writer_outlives_refuted`, `C41_ignored_partial`, `C41_window_refuted`, `C42_returns_early_refuted`, `C69_reflection_refuted`, `C71_pool_by_itself`, `C82_stray_response_refuted`, `C93_closed_partial`, `C93_concurrent_registration_refuted`, `C96_recv_witness`, `C96_sent_callback_refuted`, `C97_recv_without_connect_refuted`, `C97_sent_after_disconnect_refuted`, `C98_crash_happens_refuted`, `C99_stuck_happens_refuted`.

**Quot.sound, propext**: `C07_unmarshal_signature`, `C108_context_of_another_refuted`, `C116_up_to_the_first_partial`, `C11_zero_limit_partial`, `C123_close_any_time_partial`, `C123_configure_first_partial`, `C127_both_end_refuted`, `C127_crash_refuted`, `C127_never_returns_refuted`, `C14_replay_applies`, `C14_replay_refuted`, `C17_encode_decode`, `C19_overflow_partial`, `C19_overflow_refuted`, `C20_pointer_partial`, `C20_pointer_refuted`, `C20_pointer_witness`, `C24_many_responses_refuted`, `C25_second_response_refuted`, `C28_first_error`, `C37_full_pool_reachable`, `C37_get_completes_partial`, `C38_may_block_refuted`, `C45_xor_lengths`, `C51_negative_panics`, `C53_request`, `C64_large_refuted`, `C68_peer_authentication`, `C79_receive_lossless`, `C83_one_way_refuted`, `C83_quiet_sender_refuted`, `C86_snapshot_refuted`, `C88_free_worker_partial`, `C91_calls_return_partial`, `C93_registration_partial`, `C97_callbacks_while_connected_partial`, `C98_crash_after_close_refuted`.

**Classical.choice, Quot.sound, propext**: `C01_id_roundtrip`, `C02_ipv4_partial`, `C02_ipv4_refuted`, `C03_unmarshalID_exact`, `C04_address_identifies_endpoint`, `C05_string_unambiguous`, `C06_load_keys`, `C08_envelope`, `C09_stream`, `C09_stream_complete`, `C100_codec_linearizable`, `C101_table_linearizable`, `C102_nested_encode_refuted`, `C102_without_registration_partial`, `C103_table_authenticated`, `C104_activity_of_nobody_refuted`, `C104_events_authenticated_partial`, `C105_address_not_updated_refuted`, `C105_recorded_after_eviction_partial`, `C105_witness`, `C106_answering_peer_stays_partial`, `C106_stale_ping_refuted`, `C107_close_justified_partial`, `C107_healthy_connection_closed_refuted`, `C108_failures_partial`, `C109_kept_for_ever_refuted`, `C109_leak_happens_refuted`, `C109_released_partial`, `C10_limit`, `C10_session_limit`, `C110_any_address_refuted`, `C110_claimed_by_key_partial`, `C111_ack_returns`, `C112_inbound_connections_bounded`, `C113_accepts_few_addresses_partial`, `C113_full_pool_ends_the_node_refuted`, `C113_full_pool_ends_the_node_refuted`, `C113_next_connection_refuted`, `C113_witness`, `C114_calls_return_partial`, `C114_few_addresses_partial`, `C114_full_pool_ends_calls_refuted`, `C114_next_call_refuted`, `C114_witness`, `C115_ignored_only_if_known_partial`, `C115_ignored_refuted`, `C115_served_have_clients_partial`, `C115_witness`, `C116_later_messages_lost_refuted`, `C117_calls_reach_authenticated_peers`, `C117_ready`, `C118_responses_not_shared`, `C119_lists`, `C11_zero_limit_refuted`, `C120_later_listen_partial`, `C120_lost_listener_refuted`, `C120_second_life_refuted`, `C121_cluster_refuted`, `C121_cluster_witness`, `C121_small_tables_partial`, `C122_after_listen_partial`, `C122_crash_before_listen_refuted`, `C122_witness`, `C123_bind_races_refuted`, `C123_id_races_refuted`, `C123_one_goroutine_races_refuted`, `C124_all_bytes_partial`, `C124_commands_stay`, `C124_cut_character_refuted`, `C124_long_line_refuted`, `C124_sixteen_refuted`, `C124_small_table_partial`, `C124_typed_lines_partial`, `C124_witness`, `C125_attribution_partial`, `C125_forged_line_refuted`, `C125_program_sends_no_line_feeds`, `C125_unambiguous`, `C126_covers_partial`, `C126_delivered_partial`, `C126_flood_refuted`, `C126_progress_partial`, `C126_reported_again_refuted`, `C126_sent_partial`, `C126_terminates_partial`, `C127_as_new_partial`, `C127_one_after_another_partial`, `C128_nil_means_accepting`, `C128_nothing_left`, `C129_canonical_address`, `C12_encrypt_decrypt`, `C12_send_preserves_user_data`, `C130_request_ends`, `C131_attribution`, `C131_inbound`, `C131_sent`, `C132_messages`, `C132_no_stray`, `C132_not_repeated`, `C132_origin`, `C132_response`, `C133_answered_request_arrives`, `C133_answered_request_returns`, `C133_request_arrives`, `C133_request_returns`, `C133_send_arrives`, `C133_send_is_handled`, `C133_sent_is_handled`, `C134_key_json`, `C135_many_peers_refuted`, `C135_returns_partial`, `C135_stuck_refuted`, `C135_witness`, `C136_results_answered`, `C137_bootstrap`, `C137_connected_recorded`, `C137_known_when_ready`, `C139_usable_options`, `C13_only_sealed`, `C140_closed`, `C140_destinations`, `C140_limits`, `C140_no_replies`, `C140_origin`, `C141_accepted`, `C141_not_dropped`, `C142_many_peers_refuted`, `C142_returns_partial`, `C142_stuck_refuted`, `C142_witness`, `C142_worker_refuted`, `C143_address_partial`, `C143_right_peer_partial`, `C143_wrong_peer_refuted`, `C144_push_is_reported`, `C144_sent_is_reported`, `C145_gossip_spreads`, `C145_reaches_everybody`, `C146_known_at_first_hand`, `C146_no_phantoms`, `C146_results_answer`, `C147_handler_goes_on`, `C147_queries_answered`, `C148_finds_everybody`, `C148_search_ends`, `C148_search_returns`, `C149_answering_peers_stay`, `C149_removed_for_cause`, `C149_silent_peers_go`, `C14_replay_partial`, `C150_ack_returns`, `C150_known_peers`, `C16_opcodes`, `C18_clean_failures`, `C19_overflow_witness`, `C21_fresh_nonces`, `C21_requests_linearizable`, `C22_responses`, `C23_blocked_forever_refuted`, `C23_returns_partial`, `C24_one_response_partial`, `C25_first_response_partial`, `C26_fifo`, `C27_send_after_close_refuted`, `C27_send_transmits_partial`, `C29_callbacks_partial`, `C30_delivered_partial`, `C31_lifecycle`, `C32_close_blocked_refuted`, `C32_close_during_dial_refuted`, `C32_close_terminates_partial`, `C33_writer_ends_partial`, `C34_inbound_bounded`, `C35_outbound_bounded_partial`, `C35_outbound_exceeds_refuted`, `C36_lru`, `C36_most_recent`, `C37_eviction_deadlocks_refuted`, `C37_few_addresses_partial`, `C38_attempts_after_cancel_refuted`, `C38_dial_partial`, `C39_at_least_one`, `C39_options`, `C40_advertised_identity`, `C40_unusable_public_address`, `C42_close_released_partial`, `C42_close_stops_accepting_partial`, `C42_close_terminates_partial`, `C42_connections_partial`, `C42_early_close_refuted`, `C42_late_connection_refuted`, `C42_late_connection_witness`, `C42_lost_workers_refuted`, `C42_lost_workers_witness`, `C42_never_listened_refuted`, `C42_node_close_completes_partial`, `C42_node_close_released_partial`, `C42_node_close_steps_partial`, `C43_error_closes_partial`, `C43_workers_die_refuted`, `C44_all_handlers_run`, `C44_handlers_in_order`, `C45_xor_metric`, `C46_common_prefix`, `C46_prefixes`, `C47_deterministic`, `C47_sorted`, `C48_invariants`, `C49_keeps_address`, `C49_update`, `C50_delete`, `C50_delete_by_address`, `C51_find_closest`, `C52_closest_partial`, `C52_misses_closer_refuted`, `C52_peers_partial`, `C53_response_roundtrip`, `C53_response_total`, `C54_ack_partial`, `C54_two_evictions_refuted`, `C55_evicted_never_admitted_refuted`, `C55_order_refuted`, `C55_reports_partial`, `C56_crash_only_if_partial`, `C56_crash_refuted`, `C57_replies`, `C58_results`, `C59_terminates`, `C60_complete`, `C60_deterministic`, `C61_asks_for_itself_refuted`, `C61_known_target_partial`, `C61_target_not_found_refuted`, `C62_keys`, `C63_at_most_workers_partial`, `C63_large_refuted`, `C63_not_after_push_partial`, `C63_own_push_refuted`, `C63_two_workers_refuted`, `C64_not_back_partial`, `C64_not_to_itself_partial`, `C64_not_twice_partial`, `C64_overlapping_refuted`, `C64_sequential_partial`, `C65_covers_partial`, `C65_large_refuted`, `C65_progress_partial`, `C65_terminates_partial`, `C66_agree`, `C66_exchange_exists`, `C67_accepts`, `C67_rejects`, `C67_small_limit`, `C69_impersonation_refuted`, `C69_somebody_else_partial`, `C70_conversion`, `C70_sign_bit`, `C70_unique`, `C71_disappears`, `C71_pool_removes_own`, `C71_removes_own`, `C72_configured_idle_timeout_partial`, `C72_default_idle_timeout_refuted`, `C73_address_nowhere`, `C73_address_parses`, `C74_binds_to_host_partial`, `C74_loopback_binds_everywhere_refuted`, `C75_impostor_refuted`, `C75_owners_partial`, `C76_agreement_and_forward_secrecy`, `C77_data_origin_partial`, `C77_handshake_as_data_refuted`, `C77_reflected_data_refuted`, `C78_request_submits`, `C79_receive_continues`, `C80_end_to_end_order`, `C81_responses_answer_the_request`, `C82_no_stray_partial`, `C83_timeouts_partial`, `C84_logged_partial`, `C84_private_key_logged_refuted`, `C84_session_key_logged_refuted`, `C85_identity_partial`, `C85_not_listening_refuted`, `C86_send_partial`, `C87_received_data_is_private`, `C88_nested_requests_refuted`, `C89_end_to_end_bytes`, `C89_next_message_is_read`, `C89_next_response_is_read`, `C89_responses_bytes`, `C90_registration_order_refuted`, `C90_typed_requests_partial`, `C91_calls_return_refuted`, `C92_close_races_refuted`, `C92_id_races_refuted`, `C92_no_data_races_partial`, `C94_sent_is_handled`, `C95_request_returns`, `C96_callbacks_partial`, `C96_recv_callback_refuted`, `C98_no_crash_partial`, `C98_node_crash_refuted`, `C98_node_no_crash_partial`, `C99_delivers_partial`, `C99_stuck_refuted`.
