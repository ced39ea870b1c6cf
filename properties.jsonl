{"id": "C01", "title": "ID wire round trip", "statement": "For every public key, 16-byte host and port, UnmarshalID(NewID(key, host, port).Marshal()) succeeds and returns exactly NewID(key, host, port), Address included. With a nil host the decoded ID still has the same key, port and Address.", "quantifier": "every 32-byte key, every 16-byte (or nil) host, every 16-bit port", "why_tests_cant": "2^400 inputs; a sampled round trip cannot exclude a boundary byte that is lost or an Address that prints differently after decoding", "anchors": ["id.go: NewID, Marshal, UnmarshalID", "addr.go: normalizeIP"]}
{"id": "C02", "title": "IPv4 hosts survive the wire", "statement": "The ID a node advertises when it is bound to an IPv4 host (a 4-byte net.IP) reaches the peer with the same Address, so that the peer can dial it back.", "quantifier": "every 4-byte host, key and port", "why_tests_cant": "the existing quick-check test never round-trips, and almost every dev setup binds to the unspecified host where the bug is invisible", "anchors": ["id.go: Marshal, UnmarshalID", "node.go: Listen"]}
{"id": "C03", "title": "UnmarshalID is total and exact", "statement": "UnmarshalID never panics; it succeeds exactly when at least 50 bytes are given, otherwise returns io.ErrUnexpectedEOF; on success it reads only the first 50 bytes, and marshalling the result yields exactly those 50 bytes.", "quantifier": "every byte slice of every length", "why_tests_cant": "the domain is all byte strings; fuzzing samples only", "anchors": ["id.go: UnmarshalID, Marshal, Size"]}
{"id": "C04", "title": "Addresses identify endpoints", "statement": "Two IDs built by NewID from 4-byte, 16-byte or nil hosts have the same Address string exactly when they have the same port and the same host up to the documented normalisation (IPv4 and IPv4-in-IPv6 coincide; loopback and unspecified hosts both become the empty host). Hence connection-pool keys neither merge distinct endpoints nor split one.", "quantifier": "every pair of hosts of valid length and every pair of ports", "why_tests_cant": "injectivity of the textual form of IPv4/IPv6 (zero compression, brackets) over 2^272 pairs", "anchors": ["id.go: NewID", "addr.go: normalizeIP, resolveIP"]}
{"id": "C05", "title": "ID.String is unambiguous JSON", "statement": "ID.String() of an ID built by NewID is exactly {\"public_key\": \"<64 lowercase hex digits>\", \"address\": \"<Address>\"}; neither field ever contains a character that JSON requires to be escaped, and the text determines the public key and the Address.", "quantifier": "every key, host (of any length) and port", "why_tests_cant": "needs every host printing and every key", "anchors": ["id.go: String", "keys.go: PublicKey.String"]}
{"id": "C06", "title": "Private keys round trip through hex", "statement": "LoadKeysFromHex(k.String()) = k for every private key; it succeeds exactly on strings of 128 hex digits; on hex of any other even length the error wraps io.ErrUnexpectedEOF, and on anything else it is a decoding error; on any failure the zero key is returned.", "quantifier": "every 64-byte key and every string", "why_tests_cant": "the accept/reject border is over all strings", "anchors": ["keys.go: LoadKeysFromHex, PrivateKey.String, MarshalJSON"]}
{"id": "C07", "title": "UnmarshalSignature", "statement": "UnmarshalSignature returns the first 64 bytes of any slice of at least 64 bytes and panics on any shorter one; it never reads past the slice.", "quantifier": "every byte slice", "why_tests_cant": "memory-safety claim about unsafe code over all lengths", "anchors": ["keys.go: UnmarshalSignature"]}
{"id": "C08", "title": "Message envelope round trip", "statement": "Any (nonce, data) sent on a connection is decoded by the receiver as the same nonce and data; a received payload is rejected with io.ErrUnexpectedEOF exactly when it has fewer than 8 bytes. Nonce 0 (plain message) and nonce > 0 (request/response) are never confused.", "quantifier": "every 64-bit nonce, every data, every received payload", "why_tests_cant": "all 64-bit nonces and all payloads", "anchors": ["msg.go: marshal, unmarshalMessage, IsRequest", "client.go: writeLoop, recvLoop"]}
{"id": "C09", "title": "The byte stream carries the message sequence", "statement": "For every sequence of payloads within the size limit, the receiver reading the sender's byte stream obtains exactly that sequence, in order, then EOF; and if the stream is cut at any byte, it obtains exactly the payloads whose frames were completely received, then an error.", "quantifier": "every finite sequence of payloads and every cut point", "why_tests_cant": "framing errors show only at particular splits and lengths", "anchors": ["client.go: read, write, writeLoop, recvLoop"]}
{"id": "C10", "title": "Receive limit is exact and safe", "statement": "With a receive limit L between 1 and 2^32-5, reading from any peer bytes never panics, never yields a payload above L, and fails with ErrMessageTooLarge exactly when the announced size exceeds L. On an established session a message with d bytes of data is accepted exactly when d + 36 <= L.", "quantifier": "every limit in range, every byte stream, every message length", "why_tests_cant": "attacker-controlled lengths at 32-bit boundaries", "anchors": ["client.go: newClient, read", "node_options.go: WithNodeMaxRecvMessageSize", "aead.go: encryptAEAD, decryptAEAD", "error.go: ErrMessageTooLarge"]}
{"id": "C11", "title": "A receive limit of zero disables the limit", "statement": "With WithNodeMaxRecvMessageSize(0) a node receives messages of any size.", "quantifier": "every non-empty frame", "why_tests_cant": "no test uses the zero limit; the failure is for every frame", "anchors": ["node_options.go: WithNodeMaxRecvMessageSize", "client.go: newClient, read"]}
{"id": "C12", "title": "Encryption round trip and buffer safety", "statement": "encrypting then decrypting any plaintext under the same session key returns the plaintext, whatever the capacity of the buffer handed in and whatever it aliases; encryption writes only inside the backing array of the buffer it was handed or in fresh memory, so the user's data slices are never modified.", "quantifier": "every plaintext, buffer offset, capacity and prior memory contents", "why_tests_cant": "aliasing between append, in-place sealing and reused buffers depends on exact capacities", "anchors": ["aead.go: extendFront, extendBack, encryptAEAD, decryptAEAD", "client.go: writeLoop", "msg.go: marshal"]}
{"id": "C13", "title": "Only frames sealed under the session key are accepted", "statement": "On a session with an established key, every payload the receive loop accepts was carried by a frame that is exactly nonce ++ Seal(key, nonce, payload); any other frame, in particular one too short, ends the session with an error.", "quantifier": "every received frame", "why_tests_cant": "forgery space is all byte strings", "anchors": ["aead.go: decryptAEAD", "client.go: read, recvLoop"]}
{"id": "C14", "title": "Frames cannot be replayed", "statement": "A frame that was already delivered on a session is not delivered to the handlers a second time when a network attacker repeats it.", "quantifier": "every session and every frame", "why_tests_cant": "requires an adversarial network", "anchors": ["client.go: read, recvLoop", "aead.go: decryptAEAD"]}
{"id": "C15", "title": "No nonce is used twice under one session key", "statement": "The two endpoints of a session never seal two different frames under the same session key with the same AEAD nonce.", "quantifier": "every pair of processes and every session between them", "why_tests_cant": "needs two processes with identical generator states", "anchors": ["aead.go: encryptAEAD (math/rand)", "client.go: handshake"]}
{"id": "C16", "title": "Opcodes are distinct and permanent", "statement": "After any sequence of RegisterMessage calls with at most 65536 successes, the n-th successful registration received opcode n-1, distinct types have distinct opcodes, and the opcode of a type never changes afterwards.", "quantifier": "every history of registrations (including panicking ones)", "why_tests_cant": "histories up to 65536 registrations in any order", "anchors": ["codec.go: register", "node.go: RegisterMessage"]}
{"id": "C17", "title": "Encode/decode round trip for registered types", "statement": "For a registered type T with decoder f, EncodeMessage(m) is the 2-byte big-endian opcode of T followed by m.Marshal(), and DecodeMessage of it is exactly f(m.Marshal()) (value or error); nothing of another type is ever returned.", "quantifier": "every history, type, message", "why_tests_cant": "every combination of registered types and payloads", "anchors": ["codec.go: encode, decode", "node.go: EncodeMessage, DecodeMessage"]}
{"id": "C18", "title": "Registration failures are clean", "statement": "RegisterMessage panics exactly when the type is already registered or the decoder does not have type func([]byte) (T, error); a panicking call leaves all encoding and decoding behaviour unchanged. Encoding an unregistered type, and decoding fewer than two bytes or an unknown opcode, returns an error and never panics.", "quantifier": "every history and every call", "why_tests_cant": "all histories", "anchors": ["codec.go: register, encode, decode"]}
{"id": "C19", "title": "More than 65536 types", "statement": "Registering more than 65536 message types either fails or keeps every already registered type decodable.", "quantifier": "every sequence of 65537 registrations of distinct types", "why_tests_cant": "no test registers 65537 types", "anchors": ["codec.go: register (counter uint16)"]}
{"id": "C20", "title": "Pointer messages", "statement": "A message passed by pointer is encoded like the value it points to; and a type that was registered successfully can be encoded.", "quantifier": "every registered type, value or pointer", "why_tests_cant": "depends on reflect kinds across all registrations", "anchors": ["codec.go: register, encode"]}
{"id": "C21", "title": "Request nonces are fresh", "statement": "Every request sent on a connection carries a nonce that is non-zero and different from the nonce of every other request still outstanding on that connection, including after the 64-bit counter wraps; if that is impossible Request fails instead.", "quantifier": "every history of requests, responses and cancellations", "why_tests_cant": "2^64 requests are needed to wrap", "anchors": ["map.go: nextNonce", "client.go: request"]}
{"id": "C22", "title": "Responses reach the right caller", "statement": "Request returns data only from a message that the receive loop of its connection processed after the request was registered and that carries exactly its nonce; no processed message is returned by two Requests, and concurrent Requests never receive each other's responses.", "quantifier": "every interleaving of callers, receive loop and cancellations, every peer behaviour", "why_tests_cant": "interleavings of unboundedly many callers", "anchors": ["map.go: nextNonce, findRequest", "client.go: request, recvLoop"]}
{"id": "C23", "title": "Request returns when the connection drops", "statement": "A blocked Request returns (with an error) once the connection it was sent on has been dropped.", "quantifier": "every schedule after the drop", "why_tests_cant": "a test can only wait for a finite time", "anchors": ["node.go: Request (doc)", "client.go: request, recvLoop, outbound", "map.go: requestMap.close"]}
{"id": "C24", "title": "One response per request", "statement": "Handling one request sends at most one response back, whatever the handlers do: every further Send returns an error and transmits nothing. For non-requests Send is unrestricted.", "quantifier": "every number of handlers, every number of concurrent Send calls", "why_tests_cant": "interleavings of concurrent Send calls and handler lists", "anchors": ["msg.go: HandlerContext.Send", "node.go: Listen (worker loop)"]}
{"id": "C25", "title": "Responses are not mistaken for requests", "statement": "A response that arrives for a request this node sent (even if the caller has given up) is never delivered to the node's handlers as an incoming request.", "quantifier": "every interleaving of cancellation and response arrival, every number of responses", "why_tests_cant": "timing of cancellation against arrival", "anchors": ["client.go: request, recvLoop", "map.go: findRequest"]}
{"id": "C26", "title": "Per-connection FIFO", "statement": "The sequence of messages put on the wire by a connection is, at all times, a prefix of the sequence in which they were submitted (Send, Request, HandlerContext.Send): nothing is reordered, duplicated, invented or skipped.", "quantifier": "every interleaving of senders, writer goroutine, errors and Close", "why_tests_cant": "interleavings", "anchors": ["client.go: send, writeLoop"]}
{"id": "C27", "title": "Send reports a closed connection", "statement": "Send returns an error if the connection is closed (and otherwise the data is eventually transmitted while the connection lives).", "quantifier": "every interleaving of Send and Close", "why_tests_cant": "race between the lookup and the enqueue", "anchors": ["node.go: Send (doc)", "client.go: send, writeLoop"]}
{"id": "C28", "title": "Client.Error is the first error", "statement": "Once (*Client).Error() is non-nil it never changes, and it equals the very first error reported by any goroutine of that client.", "quantifier": "every interleaving of reporters", "why_tests_cant": "concurrent reporters", "anchors": ["client.go: Error, reportError"]}
{"id": "C29", "title": "Connection callbacks are paired", "statement": "For one connection OnPeerConnected is called at most once and only after the handshake succeeded; OnPeerDisconnected is called at most once, and only for a connection for which OnPeerConnected had been called.", "quantifier": "every schedule and every handshake outcome, inbound and outbound", "why_tests_cant": "failure points inside the handshake times schedules", "anchors": ["client.go: outbound, inbound, handshake", "mod.go: Protocol"]}
{"id": "C30", "title": "Handlers see only authenticated data", "statement": "Data reaches a handler only from a connection whose handshake succeeded, i.e. ctx.ID() is the verified ID of the peer and the data was encrypted under the session key.", "quantifier": "every schedule, every peer behaviour, inbound and outbound", "why_tests_cant": "needs a malicious peer at every protocol point", "anchors": ["client.go: outbound, inbound, handshake, recvLoop"]}
{"id": "C31", "title": "Lifecycle channels are closed once and in order", "statement": "No schedule makes a client close one of its lifecycle channels twice (a panic); WaitUntilClosed returning implies WaitUntilReady returns and that the client has left the connection pool.", "quantifier": "every schedule of owner, writer, callers", "why_tests_cant": "double close is a rare interleaving", "anchors": ["client.go: outbound, inbound, handshake, recvLoop, writeLoop", "map.go: remove"]}
{"id": "C32", "title": "Close terminates the connection", "statement": "After (*Client).Close has been called, the connection is closed and, under any fair schedule, the client terminates (WaitUntilClosed returns) whatever the peer does.", "quantifier": "every state in which Close may be called, every peer", "why_tests_cant": "Close racing with dialing", "anchors": ["client.go: Close, close, outbound, recvLoop, writeLoop"]}
{"id": "C33", "title": "WaitUntilClosed waits for all goroutines", "statement": "When WaitUntilClosed returns, all goroutines associated to the client have finished.", "quantifier": "every schedule", "why_tests_cant": "goroutine leak detectors see only sampled schedules", "anchors": ["client.go: WaitUntilClosed, outbound, inbound, writeLoop"]}
{"id": "C34", "title": "Inbound pool bound", "statement": "Inbound() never holds more than the configured maximum number of inbound connections, at every moment of every history.", "quantifier": "every history of connects, removals and releases, every configured maximum", "why_tests_cant": "histories", "anchors": ["map.go: get, remove, release, slice", "node_options.go: WithNodeMaxInboundConnections"]}
{"id": "C35", "title": "Outbound pool bound", "statement": "Outbound() never holds more than the configured maximum number of outbound connections.", "quantifier": "every configuration and history", "why_tests_cant": "tests use a limit of 1 but never observe the pool size", "anchors": ["map.go: get", "node_options.go: WithNodeMaxOutboundConnections"]}
{"id": "C36", "title": "One pooled client per address, most recent first", "statement": "At all times a pool holds at most one client per address; asking for a pooled address returns the very same client and creates none; the listing is ordered from most to least recently used; when a new address exceeds the bound exactly the least recently used client is evicted and closed.", "quantifier": "every history of get/remove/release", "why_tests_cant": "LRU order over all histories", "anchors": ["map.go: get, remove, release, slice"]}
{"id": "C37", "title": "Eviction makes progress", "statement": "When the pool is full, connecting to a new address evicts the oldest connection and then completes.", "quantifier": "every schedule of the evicting goroutine and the evicted client's goroutines", "why_tests_cant": "a blocked test does not show that no schedule completes", "anchors": ["map.go: get, remove", "client.go: outbound, inbound, waitUntilClosed"]}
{"id": "C38", "title": "Dialing is bounded and reported once", "statement": "Ping/Send/Request dial at most the configured number of times (at least once); they fail exactly when every attempt failed or the context ended; on failure OnPingFailed is called exactly once per protocol with that address, on success never; a client is returned only if its error was nil when its readiness was observed; when the context has ended no further attempt is made.", "quantifier": "every sequence of attempt outcomes and every attempt limit", "why_tests_cant": "all outcome sequences", "anchors": ["node.go: dialIfNotExists", "node_options.go: WithNodeMaxDialAttempts"]}
{"id": "C39", "title": "Options", "statement": "Whatever options are passed in whatever order, the resulting node has at least one dial attempt, one worker and a pool bound of at least one; zero dial attempts or zero workers mean one, a zero pool bound means 128; the last option for a setting wins; options do not affect unrelated settings.", "quantifier": "every list of options", "why_tests_cant": "combinations and orders", "anchors": ["node.go: NewNode", "node_options.go"]}
{"id": "C40", "title": "Advertised identity", "statement": "After a successful Listen, ID().ID is the public key of the node's private key, whatever WithNodeID said; the advertised host and port are the bound ones, or the resolved public address if one was configured; a configured public address that is loopback or unspecified makes Listen fail and the listener is closed.", "quantifier": "every configuration and every outcome of the operating system calls", "why_tests_cant": "all configurations", "anchors": ["node.go: NewNode, Listen", "addr.go: ResolveAddress"]}
{"id": "C41", "title": "Bind and Handle are ignored once Listen has returned", "statement": "After Listen returned without error, Bind and Handle have no effect.", "quantifier": "every schedule", "why_tests_cant": "a window between Listen returning and the goroutine being scheduled", "anchors": ["node.go: Listen, Bind, Handle"]}
{"id": "C42", "title": "Close completes and has released everything", "statement": "Node.Close always returns, and when it has returned all inbound and outbound connections of the node are closed and all workers have stopped.", "quantifier": "every schedule of Listen, Close, accept loop, workers; nodes that never listened", "why_tests_cant": "interleavings", "anchors": ["node.go: Listen, Close", "map.go: release"]}
{"id": "C43", "title": "A handler error only costs its connection", "statement": "If a handler returns an error, the connection it was handling is closed with that error, and the node goes on handling messages of the other connections.", "quantifier": "every number of failing messages", "why_tests_cant": "needs as many failures as there are workers", "anchors": ["node.go: Listen (worker loop)", "mod.go: Handler"]}
{"id": "C44", "title": "Handlers run in order, once per message", "statement": "Each received message is taken by one worker; its handlers run in registration order, each at most once, and none after the first that returned an error; a worker that goes on to another message has run all of them.", "quantifier": "every schedule of any number of workers, every handler list and outcomes", "why_tests_cant": "interleavings", "anchors": ["node.go: Listen, Handle", "client.go: recvLoop"]}
{"id": "C45", "title": "XOR metric", "statement": "XOR of equal-length keys is the bitwise XOR of the keys as 256-bit integers; the induced distance is symmetric, zero exactly for equal keys, satisfies the triangle inequality and is unidirectional (one key per distance).", "quantifier": "all keys", "why_tests_cant": "all pairs/triples of 256-bit keys", "anchors": ["kademlia/binary.go: XOR"]}
{"id": "C46", "title": "PrefixLen and PrefixDiff", "statement": "PrefixLen(a) is the number of leading zero bits of a; PrefixDiff(a,b,n) for equal-length a,b is the number of positions among the first n bits at which a and b differ.", "quantifier": "all byte slices, all n", "why_tests_cant": "partial-byte boundaries for every n", "anchors": ["kademlia/binary.go: PrefixLen, PrefixDiff"]}
{"id": "C47", "title": "SortByDistance", "statement": "SortByDistance returns a permutation of its input ordered from nearest to farthest with respect to the XOR distance; on inputs with distinct keys the result does not depend on the input order.", "quantifier": "all id lists and targets", "why_tests_cant": "all lists", "anchors": ["kademlia/binary.go: SortByDistance"]}
{"id": "C48", "title": "Routing table invariants", "statement": "After any history of Update, Delete, DeleteByAddress from NewTable: no public key occurs twice, each id sits in the bucket of its common-prefix length with the table's own id, no bucket exceeds BucketSize, NumEntries() equals len(Entries()), and the zero key is never stored.", "quantifier": "every history", "why_tests_cant": "unbounded histories", "anchors": ["kademlia/table.go: NewTable, Update, Delete, DeleteByAddress, Entries, NumEntries"]}
{"id": "C49", "title": "Update semantics", "statement": "Update moves a known peer to the head of its bucket and reports false; inserts an unknown peer at the head and reports true if its bucket has fewer than BucketSize entries; otherwise fails with ErrBucketFull and changes nothing; in no case is another bucket or the relative order of the other peers affected. In particular a known peer keeps the address under which it was first recorded.", "quantifier": "every reachable table and id", "why_tests_cant": "all tables", "anchors": ["kademlia/table.go: Update, Recorded, Bucket, Last"]}
{"id": "C50", "title": "Delete semantics", "statement": "Delete(k) removes exactly the peer with key k (if any) and returns it; DeleteByAddress(a) removes exactly one peer with address a if there is any and returns it; otherwise nothing changes and a zero ID and false are returned; afterwards Recorded reports the removal.", "quantifier": "every reachable table, key and address", "why_tests_cant": "all tables", "anchors": ["kademlia/table.go: Delete, DeleteByAddress, Recorded"]}
{"id": "C51", "title": "FindClosest soundness", "statement": "FindClosest(target,k) with k >= 0 returns distinct recorded peers other than target, sorted by distance to target; it returns exactly min(k, number of recorded peers other than target) of them.", "quantifier": "every reachable table, target, k >= 0", "why_tests_cant": "all tables", "anchors": ["kademlia/table.go: FindClosest, Peers"]}
{"id": "C52", "title": "FindClosest returns the closest", "statement": "Every recorded peer (other than target) that FindClosest(target,k) leaves out is at least as far from target as every peer it returns.", "quantifier": "every reachable table, target and k", "why_tests_cant": "bucket layouts", "anchors": ["kademlia/table.go: FindClosest, Peers"]}
{"id": "C53", "title": "FIND_NODE messages on the wire", "statement": "FindNodeRequest and FindNodeResponse (up to 255 results with 16-byte hosts) round-trip through Marshal/Unmarshal; unmarshalling arbitrary bytes never panics and fails with io.ErrUnexpectedEOF exactly when the announced results do not fit.", "quantifier": "all results lists and all byte slices", "why_tests_cant": "all byte slices", "anchors": ["kademlia/msg.go"]}
{"id": "C54", "title": "Eviction policy of Ack", "statement": "Without concurrent table changes, Ack(id) terminates after at most one eviction; it evicts only the least recently seen peer of id's bucket and only if that peer failed to answer a ping; afterwards id is recorded at the head of its bucket, except when the bucket was full and its oldest peer answered, in which case the table is unchanged.", "quantifier": "every reachable table, id and ping outcome", "why_tests_cant": "all tables and outcomes", "anchors": ["kademlia/protocol.go: Ack, OnPeerConnected, OnMessageSent, OnMessageRecv"]}
{"id": "C55", "title": "Peer events match the table", "statement": "OnPeerAdmitted and OnPeerEvicted mirror the routing table: a peer is reported admitted exactly when it enters and evicted exactly when it leaves, so that evicted is never reported for a peer that was not recorded.", "quantifier": "every history of Ack and failed dials", "why_tests_cant": "histories", "anchors": ["kademlia/protocol.go: Ack, OnPingFailed", "kademlia/events.go"]}
{"id": "C56", "title": "Ack under concurrency does not crash", "statement": "Concurrent Ack, OnPingFailed and table deletions never crash the node.", "quantifier": "every interleaving", "why_tests_cant": "an empty bucket between two unlocked calls", "anchors": ["kademlia/protocol.go: Ack, OnPingFailed", "kademlia/table.go: Last"]}
{"id": "C57", "title": "Replies to Kademlia requests", "statement": "A ping request is answered by exactly one pong; a FIND_NODE request by exactly one response with the result of FindClosest for the target, at most 16 recorded peers; the same messages sent as non-requests are answered by nothing and end the connection; anything else is ignored.", "quantifier": "all incoming messages", "why_tests_cant": "all byte strings", "anchors": ["kademlia/protocol.go: Handle"]}
{"id": "C58", "title": "Lookup results", "statement": "Find returns at most the configured number of ids, without duplicates, nearest first, each of which answered a FIND_NODE during this lookup; it never returns the searching node's own id.", "quantifier": "every schedule of the lookup goroutines and every behaviour of the peers", "why_tests_cant": "interleavings and malicious responses", "anchors": ["kademlia/iterator.go"]}
{"id": "C59", "title": "Lookup terminates", "statement": "If the peers' answers mention finitely many public keys, Find terminates under every schedule: each key is queried at most once, and the lookup never deadlocks.", "quantifier": "every schedule, every response function over a finite set of keys", "why_tests_cant": "deadlocks in channel plumbing", "anchors": ["kademlia/iterator.go: iterate, processLookupBucket, lookupRequest"]}
{"id": "C60", "title": "Lookup completeness and schedule-independence", "statement": "If peers answer consistently (each gives a definite answer, and no key is announced under two addresses), the ids asked and the ids returned do not depend on the schedule: the lookup asks exactly the ids reachable through answers from the initial peers, the node itself and the target excepted, and returns the nearest of those that answer.", "quantifier": "every schedule", "why_tests_cant": "interleavings", "anchors": ["kademlia/iterator.go"]}
{"id": "C61", "title": "Lookup asks for the target", "statement": "During Find(target), peers are asked for the nodes closest to target, so the lookup converges to the target; a reachable target is itself found.", "quantifier": "every lookup", "why_tests_cant": "small test networks are fully connected so any query finds everyone", "anchors": ["kademlia/iterator.go: lookupRequest, init", "kademlia/protocol.go: Find"]}
{"id": "C62", "title": "Gossip cache keys are unambiguous", "statement": "The cache key for (peer, message) is different for different pairs: marking one pair never marks another.", "quantifier": "all pairs", "why_tests_cant": "all byte strings", "anchors": ["gossip/protocol.go: hash"]}
{"id": "C63", "title": "Gossip is delivered to the application at most once", "statement": "OnGossipReceived is called at most once for the same data on a node (as long as the cache keeps its entries), and never for data this node pushed itself.", "quantifier": "every history of received messages and pushes; every interleaving of workers", "why_tests_cant": "interleavings of workers", "anchors": ["gossip/protocol.go: Handle, Push"]}
{"id": "C64", "title": "Gossip is not echoed", "statement": "A node never sends a gossip message to itself, back to a peer that sent it that message, or twice to the same peer (sequential pushes, cache entries kept).", "quantifier": "every history", "why_tests_cant": "histories", "anchors": ["gossip/protocol.go: Push, Handle"]}
{"id": "C65", "title": "A gossip flood terminates and covers the network", "statement": "In a network where every node runs gossip over fixed tables with reliable links, any push causes only finitely many sends, and when no message is in flight every other node reachable through routing tables has received the message exactly once (or pushed it itself).", "quantifier": "every network size and topology, every delivery order", "why_tests_cant": "topologies and delivery orders", "anchors": ["gossip/protocol.go: Push, Handle", "kademlia/table.go: Entries"]}
{"id": "C66", "title": "Honest handshake agrees", "statement": "If two correct nodes exchange their handshake messages unmodified, both complete, derive the same session key, and each records exactly the other's advertised ID.", "quantifier": "all keys, ids (16-byte hosts), randomness", "why_tests_cant": "all keys", "anchors": ["client.go: handshake", "ecdh.go", "id.go"]}
{"id": "C67", "title": "Handshake rejects anything unauthentic", "statement": "A handshake succeeds only if the peer's first message is 96 bytes with a valid signature by the contained ephemeral key, and the second is a 50-byte ID plus a valid signature by that ID's key over the ID and this session's shared key; any other length or signature makes it fail with an error and no ID is recorded.", "quantifier": "all received bytes", "why_tests_cant": "all byte strings", "anchors": ["client.go: handshake"]}
{"id": "C68", "title": "Peer authentication against network attackers", "statement": "If a node completes a handshake and records peer ID X whose private key is not known to the attacker, then the owner of that key took part in a session that derived the same session key and advertised exactly X.", "quantifier": "every attacker strategy (symbolic), any number of sessions", "why_tests_cant": "adversary strategies", "anchors": ["client.go: handshake"]}
{"id": "C69", "title": "The authenticated peer is somebody else", "statement": "A completed handshake implies that there is another protocol participant: a network attacker that knows no private keys cannot complete a handshake on its own.", "quantifier": "every attacker strategy", "why_tests_cant": "requires an attacker that reflects messages", "anchors": ["client.go: handshake"]}
{"id": "C70", "title": "Curve conversion", "statement": "The Curve25519 form of an Ed25519 public key with y-coordinate y is the 32-byte little-endian encoding of (1+y)/(1-y) modulo 2^255-19, for every key with y different from 1; the sign bit is ignored and the output always has 32 bytes.", "quantifier": "all 32-byte keys", "why_tests_cant": "2^256 keys and big-integer aliasing", "anchors": ["ecdh.go: ed25519PublicKeyToCurve25519"]}
{"id": "C71", "title": "The end of a connection removes only itself from the pool", "statement": "When a connection ends, it disappears from Inbound()/Outbound(), and no other connection does.", "quantifier": "every history of connects, ends, listings and releases", "why_tests_cant": "the removal is by address; which client is behind the address depends on the schedule", "anchors": ["map.go: remove, release", "client.go: outbound, inbound"]}
{"id": "C72", "title": "Documented default idle timeout", "statement": "A node created without WithNodeIdleTimeout closes connections that are idle for three seconds, as documented; a configured timeout is used as given.", "quantifier": "every list of options", "why_tests_cant": "tests set the timeout they want to observe; all option lists", "anchors": ["node_options.go: WithNodeIdleTimeout", "node.go: NewNode", "client.go: read, write"]}
{"id": "C73", "title": "Advertised address parses back to host and port", "statement": "For every host and port, the Address of NewID splits and parses back to that host and port (an unspecified or loopback host becoming the empty host), so that the address can be dialled.", "quantifier": "every IPv4 or IPv6 host and every port", "why_tests_cant": "all 2^128 hosts and all ports", "anchors": ["id.go: NewID", "addr.go: normalizeIP"]}
{"id": "C74", "title": "Node binds to the configured host", "statement": "Listen binds exactly to the host configured with WithNodeBindHost; in particular a node configured with a loopback host is not reachable from other machines.", "quantifier": "every configuration", "why_tests_cant": "all hosts; unit tests run on one machine and cannot see the difference", "anchors": ["node_options.go: WithNodeBindHost", "node.go: Listen", "addr.go: normalizeIP"]}
{"id": "C75", "title": "Found peers are who they claim to be", "statement": "Every id returned by Find belongs to a node that took part in the lookup: the owner of that public key answered a request during the lookup, not merely somebody else who listens at the announced address.", "quantifier": "every lookup, every behaviour of the peers", "why_tests_cant": "requires peers that announce other nodes' keys", "anchors": ["kademlia/iterator.go: lookupRequest", "node.go: RequestMessage"]}
{"id": "C76", "title": "Session agreement and forward secrecy", "statement": "If a node completes a handshake with an ID that is not its own and whose private key the attacker does not have at that time, then exactly one other session, of the owner of that ID, has the same session key, each of the two holds the other's ephemeral key, and the attacker can never compute the session key afterwards, even if all long-term private keys leak later.", "quantifier": "every attacker strategy (symbolic), any number of sessions, any later leak of long-term keys", "why_tests_cant": "adversary strategies and future key compromise", "anchors": ["client.go: handshake", "ecdh.go: ECDH"]}
{"id": "C77", "title": "Received data was sent by the peer", "statement": "After a completed handshake with an honest peer, every message that handlers see on this connection was sent by that peer as a message on this connection.", "quantifier": "every attacker strategy (symbolic), any number of sessions", "why_tests_cant": "requires an attacker that reflects frames", "anchors": ["client.go: recvLoop, writeLoop, handshake", "aead.go"]}
{"id": "C78", "title": "A request transmits its own data under its own nonce, once", "statement": "A call of Request gets a non-zero nonce and submits exactly one message for transmission, consisting of that nonce and exactly the caller's data; it never returns a response before having submitted it.", "quantifier": "every reachable state of a connection, every later schedule, any number of concurrent requests", "why_tests_cant": "interleavings of concurrent calls with the receive and send loops", "anchors": ["client.go: request, send", "map.go: nextNonce"]}
{"id": "C79", "title": "Received messages are not lost, duplicated or reordered", "statement": "Every message read from a connection goes, in order and exactly once, either to the outstanding request with its nonce or to the work queue of the handlers, and the receive loop then continues; at most one message is in hand at any time.", "quantifier": "every schedule of a connection, any number of messages", "why_tests_cant": "losing or reordering messages depends on schedules and message sequences of any length", "anchors": ["client.go: recvLoop", "map.go: findRequest"]}
{"id": "C80", "title": "End-to-end order between two nodes", "statement": "The messages given to the handlers of the dialled node are exactly the first ones submitted by the dialling node on this connection, in order, unchanged, without gaps or duplicates; and the messages processed by the dialling node are exactly the first ones that the handlers sent back.", "quantifier": "every joint schedule of both nodes, any number of workers, handlers, messages, failures and closes", "why_tests_cant": "needs all interleavings of the goroutines of two nodes", "anchors": ["client.go: writeLoop, recvLoop, send", "node.go: Listen", "msg.go: Send"]}
{"id": "C81", "title": "A response answers the request it is returned for", "statement": "Whatever Request returns was sent by a handler of the peer through the context of a message with exactly this request's data and nonce, even with concurrent requests, several responses and handlers replying to replies.", "quantifier": "every joint schedule of both nodes with fewer than 2^64-1 requests on the connection", "why_tests_cant": "mix-ups depend on rare interleavings and on duplicated responses bouncing between nodes", "anchors": ["client.go: request, recvLoop", "map.go: nextNonce, findRequest", "msg.go: Send"]}
{"id": "C82", "title": "No response goes astray", "statement": "A response to a request is never given to the handlers of the node that made the request.", "quantifier": "every joint schedule of both nodes, any number of handlers", "why_tests_cant": "depends on how many handlers answer and on the schedule", "anchors": ["client.go: recvLoop", "msg.go: Send"]}
{"id": "C83", "title": "The idle timeout hits idle connections only", "statement": "With an idle timeout T configured (WithNodeIdleTimeout), a connection is dropped only if for a time T there were no reads and no writes on it; a connection in use is kept.", "quantifier": "every schedule of the reader, the writer, the peer and the clock, every timeout", "why_tests_cant": "concerns all timings of traffic in both directions", "anchors": ["client.go: read, recvLoop, writeLoop", "node_options.go: WithNodeIdleTimeout"]}
{"id": "C84", "title": "Secrets stay out of the log", "statement": "What a node writes to its logger does not contain its private key or the key of a session.", "quantifier": "every node configuration; every handshake with any peer", "why_tests_cant": "a test inspects particular log lines", "anchors": ["node.go: Listen", "client.go: handshake", "keys.go: String"]}
{"id": "C85", "title": "A node need not listen to connect", "statement": "A node returned by NewNode has an identity with its own public key, so that peers it connects to accept it, whether or not it has called Listen.", "quantifier": "every list of options; every pair of nodes running the handshake", "why_tests_cant": "depends on the combination of options and on the other end accepting the signature under the claimed key", "anchors": ["node.go: NewNode, Listen", "client.go: handshake"]}
{"id": "C86", "title": "Send takes a snapshot", "statement": "The bytes transmitted for a Send, Request or response are those that the slice held when the call was made, whatever the caller does with the slice afterwards.", "quantifier": "every interleaving of the caller's writes to its memory with the writer of the connection", "why_tests_cant": "data races between the caller and the write loop show up only under particular schedules", "anchors": ["client.go: send, writeLoop", "msg.go: message.marshal, Send"]}
{"id": "C87", "title": "Received data is private", "statement": "The data given to a handler or returned by a request is what arrived, in order, and no later traffic on the connection and no other message shares its memory: it changes only if the application writes to it.", "quantifier": "every interleaving of reads, deliveries and the application's own writes", "why_tests_cant": "buffer reuse corrupts data only under particular schedules and sizes", "anchors": ["client.go: read, recvLoop", "aead.go: decryptAEAD", "msg.go: unmarshalMessage"]}
{"id": "C88", "title": "Handlers may make requests", "statement": "A handler may call Request to the peer it is serving (or any other peer): as long as the peer answers, the request completes and the node goes on processing messages.", "quantifier": "every schedule of the receive loops, workers, handlers and peers; every number of workers and handlers", "why_tests_cant": "the deadlock needs all workers to be busy and the queue to be full at the same time", "anchors": ["node.go: Listen (workers), Request", "client.go: recvLoop, request"]}
{"id": "C89", "title": "End-to-end on a byte stream", "statement": "Two nodes joined by a connection that delivers bytes in order, in pieces of any size: the handlers of the receiver get exactly the first messages that the sender's callers submitted, in order and unchanged; a request returns what a handler of the peer sent in reply to it; and as soon as all bytes of the next message are there, within the receiver's limit, it is read.", "quantifier": "every joint execution of the two nodes, every way the stream is cut into pieces, every content and number of messages, every AES-GCM key", "why_tests_cant": "how the stream is cut depends on the network, and both ends run concurrently", "anchors": ["client.go: writeLoop, write, recvLoop, read", "node.go: Listen (workers), Send, Request", "msg.go: message.marshal, unmarshalMessage, Send", "aead.go: encryptAEAD, decryptAEAD"]}
{"id": "C90", "title": "Typed requests keep their types", "statement": "Between two nodes that registered the same message types, whatever RequestMessage returns is the peer's SendMessage value, decoded with the decoder of its own type, and the peer's DecodeMessage gave the request decoded with the decoder of the request's type; no message is taken for one of another type.", "quantifier": "every joint execution of the two nodes, registrations at any time on either side, every set of types and values", "why_tests_cant": "opcodes are assigned by order of registration on each node separately; a test with one shared setup never sees two orders", "anchors": ["codec.go: register, encode, decode", "node.go: RegisterMessage, RequestMessage, SendMessage", "msg.go: DecodeMessage, SendMessage", "kademlia/protocol.go: Bind", "gossip/protocol.go: Bind"]}
{"id": "C91", "title": "Calls return after their context ends", "statement": "A call of Ping, Send or Request returns soon after its context has ended, also with the kademlia protocol bound: once the context is over, the call waits for nothing but the connection being torn down.", "quantifier": "every schedule of the application's calls, the goroutines of the connections and the peers; every routing table", "why_tests_cant": "the callback of a new connection dials peers itself, and whom it dials depends on a full bucket of the routing table", "anchors": ["node.go: dialIfNotExists", "client.go: outbound, handshake, close, waitUntilClosed", "kademlia/protocol.go: OnPeerConnected, Ack, OnPingFailed"]}
{"id": "C92", "title": "Concurrent use of a client is free of data races", "statement": "The methods of a client that are documented as safe for concurrent use (ID, Logger, SetLogger, Close, WaitUntilReady, WaitUntilClosed, Error) and the sending of messages may be called by any number of goroutines at any time, without a data race with each other or with the goroutines of the connection.", "quantifier": "every interleaving of any number of goroutines and calls with the goroutines of the connection; every field of the client", "why_tests_cant": "the race detector reports only races that happen in the schedules that a test produces", "anchors": ["client.go: ID, Logger, SetLogger, Close, Error, reportError, send, request, outbound, inbound, handshake, recvLoop, writeLoop", "node.go: dialIfNotExists", "map.go: nextNonce, findRequest, get"]}
{"id": "C93", "title": "Concurrent registrations are kept", "statement": "Bind and Handle may be called concurrently: all protocols and handlers registered by calls that returned before Listen are in effect.", "quantifier": "every interleaving of any number of calls, with any number of values", "why_tests_cant": "the loss needs two calls to overlap between reading and storing the slice", "anchors": ["node.go: Bind, Handle"]}
{"id": "C94", "title": "What is sent is eventually handled", "statement": "While two nodes are connected and nothing fails, every message submitted at one end is eventually given to every handler of the other end, in its turn: no message stays in a buffer or a queue for ever.", "quantifier": "every infinite fair execution of the two nodes, every number of workers and handlers, any traffic of other connections, any number of messages", "why_tests_cant": "lost wake-ups and starvation show up only in particular schedules, and a test can only wait for a finite time", "anchors": ["client.go: send, writeLoop, recvLoop", "node.go: Listen (workers), Send"]}
{"id": "C95", "title": "An answered request eventually returns", "statement": "While two nodes are connected and nothing fails, and a handler of the peer answers every request before it returns, every call of Request eventually returns a response unless its own context ends first.", "quantifier": "every infinite fair execution of the two nodes, any number of concurrent requests, messages and other connections", "why_tests_cant": "lost wake-ups show up only in particular schedules, and a test can only wait for a finite time", "anchors": ["client.go: request, send, writeLoop, recvLoop", "map.go: nextNonce, findRequest", "node.go: Request, Listen (workers)", "msg.go: Send"]}
{"id": "C96", "title": "One message callback per message", "statement": "OnMessageSent is called once for every message, request or response that has been flushed to the peer, and OnMessageRecv once for every message or response that has been received.", "quantifier": "every schedule of the connection's goroutines, any traffic", "why_tests_cant": "which messages share a flush depends on the schedule", "anchors": ["mod.go: Protocol", "client.go: writeLoop, recvLoop"]}
{"id": "C97", "title": "Message callbacks come while the peer is connected", "statement": "OnMessageSent and OnMessageRecv are only called between the OnPeerConnected and the OnPeerDisconnected of the same connection.", "quantifier": "every schedule of the connection's goroutines, every failure", "why_tests_cant": "the order of the callbacks of two goroutines depends on the schedule", "anchors": ["mod.go: Protocol", "client.go: outbound, inbound, handshake, writeLoop, recvLoop"]}
{"id": "C98", "title": "Closing a node does not crash the process", "statement": "Close may be called at any time, with any connections open and any traffic on them: afterwards the process goes on, whatever peers send.", "quantifier": "every schedule of any number of inbound and outbound connections, any traffic", "why_tests_cant": "the crash needs a message to arrive on an outbound connection after the accept goroutine has ended", "anchors": ["node.go: Listen, Close", "client.go: recvLoop"]}
{"id": "C99", "title": "A node handles what it receives, listening or not", "statement": "What arrives on a connection is processed in order whether or not the node listens: a message that arrives before Listen waits for the workers, and responses to the node's own requests are returned meanwhile.", "quantifier": "every schedule of any number of connections, any traffic, Listen called at any time or never", "why_tests_cant": "whether a message arrives before Listen depends on the peer and on the schedule", "anchors": ["node.go: Listen", "client.go: recvLoop, request"]}
{"id": "C100", "title": "The codec may be used concurrently", "statement": "RegisterMessage, EncodeMessage and DecodeMessage may be called concurrently by any number of goroutines: each returns as if the calls had been made one after the other, in an order in which a call that returned before another began comes first; and all of them return.", "quantifier": "every interleaving, access by access, of any number of calls; every set of types, values and data", "why_tests_cant": "torn updates and lost registrations show up only under particular schedules", "anchors": ["codec.go: register, encode, decode", "node.go: RegisterMessage, EncodeMessage, DecodeMessage"]}
{"id": "C101", "title": "The methods of the routing table are atomic", "statement": "The methods of a routing table may be called concurrently by any number of goroutines: each returns as if the calls had been made one after the other, in an order in which a call that returned before another began comes first (in particular no method sees a peer inserted but not counted, or half of the buckets before and half after an update); and all of them return.", "quantifier": "every interleaving, access by access, of any number of calls; every table", "why_tests_cant": "torn reads across buckets show up only under particular schedules", "anchors": ["kademlia/table.go: Update, Recorded, Delete, DeleteByAddress, Last, Bucket, Peers, FindClosest, Entries, NumEntries"]}
{"id": "C102", "title": "Messages may contain messages", "statement": "Marshal of a message may call EncodeMessage for a message contained in it: the calls return, whatever else is going on.", "quantifier": "every interleaving of any number of concurrent calls", "why_tests_cant": "the deadlock needs RegisterMessage to be called between the two read locks of one EncodeMessage", "anchors": ["codec.go: encode, register", "node.go: EncodeMessage, RegisterMessage"]}
{"id": "C103", "title": "The routing table holds authenticated peers only", "statement": "With the kademlia protocol bound, every peer in the routing table is the node itself, or was inserted by the application itself, or proved its ID (key, host and port) in the handshake of some connection of the node: addresses learnt from other peers alone never get into the table.", "quantifier": "every schedule of any number of connections, messages, callbacks, pings and failed dials; every ID and every answer of a peer", "why_tests_cant": "the insertion happens in callbacks that run concurrently with handshakes, and an attacker chooses the schedule and the messages", "anchors": ["kademlia/protocol.go: Ack, OnPeerConnected, OnMessageSent, OnMessageRecv, OnPingFailed", "kademlia/table.go: Update", "client.go: handshake, ID"]}
{"id": "C104", "title": "Peer events are about authenticated peers", "statement": "OnPeerAdmitted, OnPeerActivity and OnPeerEvicted are only called with the node's own ID, IDs that the application itself has given to Ack, and IDs that peers proved in a handshake.", "quantifier": "every schedule of any number of connections, messages, callbacks, pings and failed dials", "why_tests_cant": "whether a message is sent on a connection without a verified peer depends on the schedule", "anchors": ["kademlia/events.go: Events", "kademlia/protocol.go: Ack, OnMessageSent, OnMessageRecv", "client.go: outbound, ID"]}
{"id": "C105", "title": "A peer that comes back under a new address is recorded under it", "statement": "When a peer that is recorded in the routing table proves its key again under another address, the table records the new address, so that the peer can be found.", "quantifier": "every routing table, every peer in it, every new address", "why_tests_cant": "concerns every state of the table and every history that led to it", "anchors": ["kademlia/table.go: Update", "kademlia/protocol.go: Ack, OnPeerConnected, OnPingFailed"]}
{"id": "C106", "title": "Peers that answer are kept", "statement": "A peer that is in the routing table, answers pings and accepts connections at its recorded address stays in the table, however many other peers connect: newcomers never displace it.", "quantifier": "every interleaving of any number of Acks, pings, failed dials and calls of the application; every table and every set of peers", "why_tests_cant": "an eviction on wrong evidence needs a particular interleaving of pings and removals", "anchors": ["kademlia/protocol.go: Ack, OnPingFailed", "kademlia/table.go: Update, Last, Delete, DeleteByAddress"]}
{"id": "C107", "title": "The context of a call concerns that call only", "statement": "Calls of Ping, Send and Request to the same address share a connection. When the context of one of them ends, that call returns; the connection, if it works, stays up for the others, and its peer is not reported as unreachable.", "quantifier": "every interleaving of any number of calls, contexts, connections and peers", "why_tests_cant": "needs a context to end just while the call looks at a connection that others use", "anchors": ["node.go: dialIfNotExists, Ping, Send, Request", "client.go: close, outbound"]}
{"id": "C108", "title": "A call fails for its own reasons only", "statement": "Ping, Send and Request to an address return an error of dialing only if their own context has ended, or if the configured number of attempts to connect to that address have failed for reasons other than the context of some other call.", "quantifier": "every interleaving of any number of calls, contexts, connections and peers; every number of attempts", "why_tests_cant": "depends on which of several concurrent calls starts the connection, and on whose context ends when", "anchors": ["node.go: dialIfNotExists, Ping, Send, Request", "client.go: outbound", "map.go: clientMap.get"]}
{"id": "C109", "title": "Abandoned requests are forgotten", "statement": "Once a Request has returned, with the response or because its context ended, or its connection has been closed, the node keeps nothing of it: requests that get no response do not accumulate.", "quantifier": "every interleaving of any number of requests, responses, contexts and ends of the connection", "why_tests_cant": "a leak grows with the number of requests over the life of a process; it breaks no single call", "anchors": ["client.go: request", "map.go: requestMap nextNonce, findRequest, close"]}
{"id": "C110", "title": "The address in an ID is the peer's", "statement": "The host, port and address of the ID of a connected peer, under which it is recorded, shared with other peers and dialed, are those of the peer: nobody can claim the address of somebody else.", "quantifier": "every peer that holds some key, every host and port", "why_tests_cant": "quantifies over everything that a malicious peer can send", "anchors": ["client.go: handshake, ID", "id.go: NewID, UnmarshalID", "kademlia/protocol.go: OnPeerConnected"]}
{"id": "C111", "title": "Ack returns", "statement": "Every call of Ack returns once its pings have ended, however many other calls of Ack, failed dials and changes of the table happen at the same time: it cannot be kept retrying.", "quantifier": "every interleaving of any number of Acks, pings, failed dials and calls of the application; every table", "why_tests_cant": "the loop has no bound in the code, and other goroutines can fill the bucket again between two rounds", "anchors": ["kademlia/protocol.go: Ack, OnPingFailed", "kademlia/table.go: Update, Last, Delete, DeleteByAddress"]}
{"id": "C112", "title": "A node serves at most the configured number of inbound connections", "statement": "However connections are opened, fail, end or are closed, a node never has more than maxInboundConnections inbound connections that it shakes hands with, reads from or handles messages of - including those that it evicts or that are ending.", "quantifier": "every interleaving of the accept loop, of any number of connections, calls, workers and of Close; every configuration", "why_tests_cant": "the bound is on the sum over the pool, the evicted client and the ending ones, in every interleaving", "anchors": ["node.go: Listen, Close", "map.go: clientMap get, remove, release", "client.go: inbound, close"]}
{"id": "C113", "title": "A listening node keeps accepting", "statement": "Until it is closed, a node that listens takes every incoming connection in a finite number of its own steps, also when it has reached its maximum of inbound connections; and Close completes.", "quantifier": "every interleaving of the accept loop, of any number of connections, calls, workers and of Close; every configuration", "why_tests_cant": "needs as many connections as the pool holds, and an eviction whose victim ends only after the pool is free again", "anchors": ["node.go: Listen, Close, Inbound", "map.go: clientMap get, remove, release", "client.go: inbound, close, waitUntilClosed"]}
{"id": "C114", "title": "Calls return although the outbound pool is full", "statement": "Ping, Send and Request return once their contexts have ended, also when the node has reached its maximum of outbound connections; a call never keeps others from returning.", "quantifier": "every interleaving of any number of calls, contexts, connections and of the rest of the node; every configuration", "why_tests_cant": "needs as many connections as the pool holds; the calls that hang are different ones from the call that evicts", "anchors": ["node.go: dialIfNotExists, Ping, Send, Request, Outbound", "map.go: clientMap get, remove", "client.go: outbound, close, waitUntilClosed"]}
{"id": "C115", "title": "Accepted connections are served or closed", "statement": "Every connection that a node accepts is either served, by a client of its own, or closed: a peer that connects gets a handshake or sees its connection end.", "quantifier": "every interleaving of the accept loop, of any number of connections and of Close; every configuration", "why_tests_cant": "needs a connection from an address whose last connection is still ending", "anchors": ["node.go: Listen", "map.go: clientMap get, remove", "client.go: inbound"]}
{"id": "C116", "title": "An oversized message costs only itself", "statement": "A message that is above the receiver's size limit is refused by Send or lost by itself: the messages sent before and after it on the connection are received.", "quantifier": "every limit in range, every sequence of messages of any sizes", "why_tests_cant": "a single large message among many, and the effect is on the ones after it", "anchors": ["client.go: read, write, writeLoop, recvLoop, send", "node_options.go: WithNodeMaxRecvMessageSize", "error.go: ErrMessageTooLarge"]}
{"id": "C117", "title": "A call that succeeds has reached an authenticated peer", "statement": "When WaitUntilReady returns, the client has an authenticated ID or an error, and until then no handler has run for it and nothing was written. If Ping returns a client, Send nil or Request a response, it was with a client dialled at the address given whose handshake has been completed; a response carries the nonce under which the data of that call was submitted to that client.", "quantifier": "every history of a node, with any number of calls, connections and failures", "why_tests_cant": "connections are shared between calls, replaced after failures, and evicted; the pairing of a result with a connection depends on the schedule", "anchors": ["client.go: WaitUntilReady, handshake, outbound, inbound, request", "node.go: Ping, Send, Request, dialIfNotExists"]}
{"id": "C118", "title": "A response is returned to one caller", "statement": "No two calls of Request on a node return the same received message, over whichever connections they run.", "quantifier": "every number of concurrent calls, every schedule", "why_tests_cant": "needs all interleavings of requests that share connections", "anchors": ["node.go: Request", "client.go: request, recvLoop", "map.go: requestMap"]}
{"id": "C119", "title": "Inbound and Outbound list the connections", "statement": "Inbound() and Outbound() return the connections of that direction that have not ended, each once and no two for the same address, and all of them as long as the node is not being closed.", "quantifier": "every history of a node", "why_tests_cant": "needs the whole history of accepts, dials, evictions, ends and releases", "anchors": ["node.go: Inbound, Outbound", "map.go: slice, get, remove, release"]}
{"id": "C120", "title": "Listen of a node that listens only returns an error", "statement": "If Listen has returned nil, another call of Listen (not concurrent with the first) returns an error and has no other effect: the node keeps accepting connections, and Close returns.", "quantifier": "every number of calls of Listen, every schedule of the accept goroutine and of connections", "why_tests_cant": "the effect depends on whether a goroutine has run one instruction when the second call begins", "anchors": ["node.go: Listen, Close"]}
{"id": "C121", "title": "A lookup gets to know whom its peers know", "statement": "Discover and Find ask every peer that can be reached through the routing tables of correct peers: the initial peers, whoever is recorded by one of these, and so on.", "quantifier": "every network of correct nodes with any routing tables, every schedule of the lookup", "why_tests_cant": "depends on the distances between the keys in tables with more than 16 peers; small test networks never show it", "anchors": ["kademlia/iterator.go: Find, lookupRequest", "kademlia/protocol.go: Discover, Find, Handle", "kademlia/table.go: FindClosest"]}
{"id": "C122", "title": "The overlay may be used before Listen", "statement": "A kademlia protocol that has been given to Bind may be used at once: dialling peers, Discover, Find and gossip's Push work before Listen as they do after it.", "quantifier": "every history of connections and calls, before and after Listen", "why_tests_cant": "the crash is in a goroutine of a connection, after a handshake; tests call Listen first", "anchors": ["kademlia/protocol.go: Bind, Protocol, Ack, Discover, Find, Table", "kademlia/table.go: Update", "node.go: Bind, Listen", "client.go: handshake"]}
{"id": "C123", "title": "Methods of a node may be called concurrently", "statement": "ID, Addr, Bind, Handle, Ping, Send, Request and Close of a node may be called concurrently with one another and with Listen, without a data race in the sense of the Go memory model.", "quantifier": "every number of goroutines, calls, handlers and callbacks, every interleaving", "why_tests_cant": "the race detector only sees the interleavings that happen, and the tests call Listen before they start anything", "anchors": ["node.go: Node, Listen, Close, Bind, Handle, ID, Addr, Ping, dialIfNotExists", "client.go: handshake, recvLoop, outbound, inbound"]}
{"id": "C124", "title": "The chat program shows peers what was typed", "statement": "Whatever line somebody types into the chat program (cmd/chat), unless it begins with a slash, every peer in its routing table that runs the program and is reached prints exactly that line, once, after the sender's address and key.", "quantifier": "every input, every routing table, every set of further registered messages", "why_tests_cant": "lines beyond the reader's buffer, characters across its end and tables with more than 16 peers do not occur in tests; the program has none", "anchors": ["cmd/chat/main.go: input, chat, handle, chatMessage, unmarshalChatMessage", "kademlia/table.go: Peers", "codec.go: encode, decode"]}
{"id": "C125", "title": "The chat program attributes messages to those who sent them", "statement": "Every line that the chat program prints with the address and key of a peer shows something that this peer has sent.", "quantifier": "every sequence of messages from every set of peers, well-behaved or not", "why_tests_cant": "an attacker's messages; the property is about all contents", "anchors": ["cmd/chat/main.go: handle, input, chat"]}
{"id": "C126", "title": "Gossip works with a cache of bounded size", "statement": "However much gossip passes through the nodes, a message is reported to the application and sent to a peer once, floods end, and everybody gets the message, although the cache that remembers what was seen has bounded size (32 MB).", "quantifier": "every network, every schedule, every sequence of pushes and receipts, every choice of the entries the caches drop", "why_tests_cant": "filling 32 MB with distinct messages in every possible order cannot be tested; the tests send a few messages", "anchors": ["gossip/protocol.go: New, Push, Handle, hash"]}
{"id": "C127", "title": "An iterator may be used for several searches", "statement": "Find may be called on one Iterator as often as one likes, also at the same time: each call returns what it would return on an Iterator of its own.", "quantifier": "every options, table, target, number of calls, schedule and answers of the peers", "why_tests_cant": "which fields a goroutine finds overwritten depends on the schedule, and a crash needs two searches that overlap", "anchors": ["kademlia/iterator.go: NewIterator, Find, init, iterate, processLookupBucket, lookupRequest"]}
{"id": "C128", "title": "Listen returns nil exactly if the node accepts", "statement": "However often Listen is called, one call after the other, also after Close, the calls that return nil are exactly those that started a goroutine that accepts connections, and a call that returns an error leaves no open listener behind if none succeeded before; at most one listener of the node is open at a time.", "quantifier": "every sequence of calls of Listen, interleaved with calls of Close and the accept goroutines in any way, every outcome of binding (a port that the node itself has bound cannot be bound again), resolving and Bind callbacks", "why_tests_cant": "the listeners that a failing call leaves open show only when the port is bound again, and depend on which step failed and on what other calls do meanwhile", "anchors": ["node.go: Listen, Close"]}
{"id": "C129", "title": "Addresses are written in their canonical form", "statement": "The address of an ID is the canonical text of its host and port: IPv4 as dotted decimals, IPv6 as in RFC 5952 (lower case, no leading zeros, the first of the longest runs of at least two zero groups shortened, IPv4-mapped addresses as dotted decimals, brackets), and only the port for a host that means nothing to others (unspecified or loopback); no other text is the address.", "quantifier": "every 4 or 16 byte host and every port", "why_tests_cant": "there are 2^128 hosts, and which run of zeros is shortened depends on all eight groups", "anchors": ["id.go: NewID", "addr.go: normalizeIP"]}
{"id": "C130", "title": "A request returns when its context ends", "statement": "A call of Request that has sent its request, or is about to, waits for nobody once its context has ended: it returns the error of the context, also if the peer never answers, the connection is stuck or closed, or another goroutine holds the locks of the node for ever.", "quantifier": "every schedule of all calls, connections, workers and peers of a node before and after the context ends", "why_tests_cant": "that a call cannot be held up by anything that goes on elsewhere in the node concerns all schedules", "anchors": ["client.go: request", "node.go: Request"]}
{"id": "C131", "title": "Messages are not mixed up between connections", "statement": "In a node with any number of connections: handlers get as messages of a connection exactly those that came over it, in order; over each connection the node sends exactly the answers of its handlers to messages of that connection, in order, and the message of each Send or Request call that went through it, each once and nothing else; such a call goes through a connection that was dialled at its address.", "quantifier": "every execution of a node: all schedules of its connections, calls, workers and handlers", "why_tests_cant": "with several connections, calls and workers at once the interleavings are unbounded; a test sees a few", "anchors": ["node.go: Send, Request, Listen", "client.go: send, request, recvLoop", "msg.go: HandlerContext.Send"]}
{"id": "C132", "title": "Messages and responses between the nodes of a network are genuine", "statement": "In a network of any number of nodes joined by connections: handlers are called only for messages that a call of Send or Request at the other end of the connection, or a handler there in reply to a message over it, has sent, in the order sent and at most as often; and a response that Request returns was sent by a handler of the node that the call reached, through the context of exactly this request.", "quantifier": "every execution of a network of any number of nodes: all numbers of connections, calls, workers and handlers, all failures and all schedules", "why_tests_cant": "that nothing gets crossed among several nodes, connections, calls and workers concerns unboundedly many interleavings", "anchors": ["node.go: Send, Request, Listen", "client.go: send, request, recvLoop, writeLoop", "msg.go: HandlerContext.Send"]}
{"id": "C133", "title": "Messages arrive and requests return in a network of nodes", "statement": "In a network of any number of nodes, on a connection on which nothing fails: every message that the dialling node sends is eventually put on the queue of the accepting node, in order, and given to every handler in turn; a call of Send that has got the connection returns without an error; and a call of Request that has got it returns a response if a handler of the accepting node answers every request. Everything else in the network may go wrong.", "quantifier": "every fair execution of a network of any number of nodes, all numbers of connections, calls, workers and handlers, with arbitrary failures and closing elsewhere", "why_tests_cant": "something that has to happen eventually, in every fair schedule of unboundedly many goroutines, cannot be observed by a test", "anchors": ["node.go: Send, Request, Listen", "client.go: send, request, recvLoop, writeLoop", "msg.go: HandlerContext.Send"]}
{"id": "C134", "title": "Keys and signatures in JSON", "statement": "MarshalJSON of a public key, private key or signature is one JSON string of lower-case hexadecimal digits, two for each byte and none of them escaped, from which the value can be recovered: different values have different JSON, and LoadKeysFromHex accepts what the JSON string of a private key contains and returns that key.", "quantifier": "every key and signature", "why_tests_cant": "there are 2^256 keys and more", "anchors": ["keys.go: PublicKey.MarshalJSON, PrivateKey.MarshalJSON, Signature.MarshalJSON, LoadKeysFromHex"]}
{"id": "C135", "title": "A search returns", "statement": "Find returns, however many peers the search gets to know.", "quantifier": "every search, at every state of the node, with all answers of peers, timeouts and schedules of the search, its requests and everything else that goes on in the node", "why_tests_cant": "the search is concurrent with its requests, and these with each other and with the rest of the node; not returning cannot be observed", "anchors": ["kademlia/iterator.go: Find, processLookupBucket, lookupRequest", "node.go: RequestMessage, Request, dialIfNotExists", "map.go: get"]}
{"id": "C136", "title": "The results of a search have answered it", "statement": "Every identity that Find returns has an address to which the node has an outbound connection with a peer that passed the handshake, over which the request of this search for that identity was sent, and over which the answer - a list of peers - came.", "quantifier": "every execution of a search on a node: all schedules, answers and other activity of the node", "why_tests_cant": "that answers are not attributed to the wrong peer among concurrent requests and connections concerns all interleavings", "anchors": ["kademlia/iterator.go: Find, lookupRequest", "node.go: RequestMessage, Request", "client.go: request, recvLoop"]}
{"id": "C137", "title": "Whoever one is connected to is known to the overlay", "statement": "With the kademlia protocol bound, a connection is not ready before its peer has been offered to the routing table: when Ping, Send or Request have got the connection, or a handler runs for it, the peer had been recorded, at the head of its bucket, or its bucket was full and the least recently seen peer in it answered a ping. So a node that pings bootstrap peers and then calls Discover asks all of them, as long as nobody was removed and its table is small.", "quantifier": "every number of connections in both directions, messages, pings, failed dials and calls of the application, every schedule", "why_tests_cant": "whether the table is updated in time depends on the order of goroutines; a test sees one order", "anchors": ["client.go: handshake, outbound, inbound", "kademlia/protocol.go: OnPeerConnected, Ack, Discover", "kademlia/iterator.go: init", "cmd/chat/main.go: bootstrap, discover"]}
{"id": "C138", "title": "The options of the overlay, of searches and of gossip", "statement": "Whatever options are given, in whatever order and however often, each setting of kademlia.New, NewIterator and gossip.New is that of the last option for it, and without one the documented default: 16 results, 3 lookups with 8 requests each, 3 seconds per lookup, the logger of the node; 3 seconds for a ping; no callbacks; 32 MB of cache. An overlay that was given no logger, or nil, logs to that of the node it is bound to.", "quantifier": "every list of options", "why_tests_cant": "lists of options have any length and order", "anchors": ["kademlia/iterator_options.go: WithIteratorLogger, WithIteratorMaxNumResults, WithIteratorNumParallelLookups, WithIteratorNumParallelRequestsPerLookup, WithIteratorLookupTimeout", "kademlia/iterator.go: NewIterator", "kademlia/protocol_options.go: WithProtocolEvents, WithProtocolLogger, WithProtocolPingTimeout", "kademlia/protocol.go: New, Bind", "gossip/events.go: WithEvents", "gossip/protocol.go: New"]}
{"id": "C139", "title": "For which options a search works", "statement": "Find crashes the process at its beginning if and only if the number of parallel lookups is negative, or zero while the table knows somebody else, or positive with a negative number of requests per lookup; otherwise it crashes at its end if and only if the maximal number of results is negative. With zero requests per lookup it asks nobody and returns nobody.", "quantifier": "all settings, routing tables, targets, answers and schedules", "why_tests_cant": "all integers are allowed as settings, and whether it crashes depends on the table as well", "anchors": ["kademlia/iterator.go: Find, init, iterate, processLookupBucket", "kademlia/iterator_options.go"]}
{"id": "C140", "title": "Gossip reports only what somebody put into the network", "statement": "In a network of any number of nodes that gossip: whatever OnGossipReceived is called with has come, as this data, over a connection of the node whose peer is the sender it is called with, and somebody outside gossip has put this data into the network - an application by Push, or by sending such a message itself, or a peer outside of the network; in a closed network everything reported has been pushed by an application of some node. What gossip counts as sent was the argument of a Send for the address of that peer that returned nil. Data is reported at most once per worker, and not sent to oneself.", "quantifier": "every number of nodes, all connections, failures, routing tables, other handlers and calls, and every interleaving of all of it", "why_tests_cant": "concerns the whole past of all nodes in every schedule; a test sees one network once", "anchors": ["gossip/protocol.go: Push, Handle", "node.go: SendMessage, Send", "client.go: recvLoop"]}
{"id": "C141", "title": "Gossip that arrives is not dropped", "statement": "When the handler of gossip has returned for a gossip message, of whatever size, then its data was reported to the application, or is being reported by another worker, or was pushed by the application itself, or came from a peer with the node's own key; it returns an error only if OnGossipReceived returned this error. And it never waits to begin.", "quantifier": "every execution of a network of any number of nodes, every number of workers, all data", "why_tests_cant": "several workers run the handler at the same time with the same data over different connections; which of them reports it depends on the schedule", "anchors": ["gossip/protocol.go: Handle", "node.go: Listen"]}
{"id": "C142", "title": "Push of gossip returns", "statement": "Push returns, however many peers the node knows, and so does the handler of gossip, which pushes on what it gets.", "quantifier": "every execution of a network of any number of nodes, all routing tables, contexts, failures and schedules", "why_tests_cant": "Push is concurrent with its sends, these with the rest of the node and the other nodes; not returning cannot be observed", "anchors": ["gossip/protocol.go: Push, Handle", "node.go: SendMessage, Send, dialIfNotExists", "map.go: get"]}
{"id": "C143", "title": "Gossip is sent to the peers it is meant for", "statement": "What gossip counts as sent to a peer was given to a connection with this peer, authenticated with its key.", "quantifier": "every execution of a network of any number of nodes, all identities, addresses and connections", "why_tests_cant": "which identity answers at an address is up to the network and differs from test setups", "anchors": ["gossip/protocol.go: Push", "node.go: SendMessage, Send, dialIfNotExists"]}
{"id": "C144", "title": "Pushed gossip reaches the applications of connected peers", "statement": "On a connection on which nothing fails, a gossip message that is sent is reported to the application of the accepting node, unless that application has pushed it itself. So what is pushed while such a connection to the address of a peer of the routing table exists reaches the application of that peer, unless the pushing node takes the peer for somebody who has the data, because it came from a peer with this key or was sent to one before.", "quantifier": "every fair execution of a network of any number of nodes, with arbitrary failures, connections, calls and pushes elsewhere and concurrently", "why_tests_cant": "something that has to happen eventually, through the goroutines of two nodes, in every fair schedule cannot be observed by a test", "anchors": ["gossip/protocol.go: Push, Handle", "node.go: SendMessage, Send, Listen", "client.go: recvLoop, writeLoop"]}
{"id": "C145", "title": "Gossip spreads through the network", "statement": "Let the nodes of a path each have a connection, on which nothing fails, to the next, dialled at the address under which their routing tables have it. Then whatever is pushed at its beginning, and was not pushed before, is reported in the end to the application of the node at its end, unless that application has pushed it itself. So if there are such paths to all nodes, there is a time at which all applications have the data.", "quantifier": "every fair execution of a network of any number of nodes, all lengths of paths, all other connections, failures, calls and pushes, of the same and of other data", "why_tests_cant": "concerns something that has to happen eventually, through chains of nodes of any length that also inform each other on other ways, in every fair schedule", "anchors": ["gossip/protocol.go: Push, Handle", "node.go: SendMessage, Send, Listen", "client.go: recvLoop, writeLoop"]}
{"id": "C146", "title": "Identities in routing tables and search results are genuine", "statement": "In a closed network of nodes with kademlia, every identity in the routing table of a node is its own, was put there by its application, or was verified in the handshake of one of its connections; and every identity that Find or Discover returns is one that some node of the network knows in this way, whose address was dialled and at whose address a node answered a request of this search. If the nodes are honest about their identities and addresses, every result is a node of the network that has itself answered.", "quantifier": "every execution of a network of any number of nodes, any number of concurrent searches, connections, evictions and calls", "why_tests_cant": "an identity may pass through tables, messages and searches of many nodes, in any interleaving, before a search returns it", "anchors": ["kademlia/protocol.go: Handle, Ack, Find, Discover, OnPeerConnected", "kademlia/iterator.go: Find", "kademlia/table.go: FindClosest, Update", "kademlia/msg.go: FindNodeResponse"]}
{"id": "C147", "title": "Connected nodes answer pings and queries", "statement": "On a connection on which nothing fails, a ping or FIND_NODE request that a node sends to the address of the connection is answered: Request returns a pong, or a response that decodes to the peers closest to the target in the routing table that the other node has at some time while the request is under way.", "quantifier": "every fair execution of a network of any number of nodes with kademlia, with arbitrary failures, connections, calls, evictions, searches and handlers elsewhere and concurrently", "why_tests_cant": "something that has to happen eventually, through the goroutines of two nodes and their handlers, in every fair schedule; and the table changes concurrently", "anchors": ["kademlia/protocol.go: Handle, Ping", "kademlia/iterator.go: lookupRequest", "kademlia/table.go: FindClosest", "node.go: RequestMessage, Request, Listen", "client.go: request, recvLoop, writeLoop"]}
{"id": "C148", "title": "Searches on a working network end, and find everybody that they are led to", "statement": "Find and Discover return if their requests do, and the peers with reliable addresses that were asked have then answered, each with the peers closest to its own key in the routing table that it has at some time during the search. If all connections that the node dials work and the nodes of the network know no more than 16 others each, then everybody who is reached from the peers of the node by following what the nodes know is among the results - if there is room for all, and otherwise those that are nearest to the target are.", "quantifier": "every fair execution of a network of any number of nodes with kademlia, all numbers of lookups and of requests at a time, with arbitrary failures, connections, calls, evictions, searches and handlers elsewhere and concurrently", "why_tests_cant": "something that has to happen eventually, through the goroutines of a search and of all nodes that it asks, in every fair schedule; the tables change while the search goes on", "anchors": ["kademlia/iterator.go: Find, iterate, processLookupBucket, lookupRequest", "kademlia/protocol.go: Find, Discover, Handle", "kademlia/table.go: FindClosest, Peers", "node.go: RequestMessage, Request, Listen", "client.go: request, recvLoop, writeLoop"]}
{"id": "C149", "title": "Peers leave the routing table only for a cause; those that answer pings stay", "statement": "If a peer disappears from the routing table, then the application has deleted it, or a call of Ping, Send or Request for its address could not connect, or a peer with its key was in the table and has since been pinged at its address, and the request returned something else than a pong. When Ack finds the bucket of a new peer full and pings the one seen least recently there, and this is a node that answers pings, then the ping returns a pong, and Ack turns the new peer away and removes nobody; when the ping returns anything else, the next thing that Ack does is to remove everybody with the key of the pinged peer from the table.", "quantifier": "every execution (for the second part: every fair execution) of a network of any number of nodes with kademlia, with arbitrary failures, connections, calls, evictions, searches and handlers elsewhere and concurrently", "why_tests_cant": "concurrent calls of Ack, OnPingFailed and of the application change the table while a ping is under way; the second part is something that has to happen eventually, through the goroutines of two nodes, in every fair schedule", "anchors": ["kademlia/protocol.go: Ack, OnPingFailed, Handle", "kademlia/table.go: Update, Last, Delete, DeleteByAddress", "node.go: RequestMessage, Request, dialIfNotExists", "client.go: request, recvLoop, writeLoop"]}
{"id": "C150", "title": "On a network whose nodes answer, Ack returns", "statement": "If the addresses of all identities in the routing table of a node belong to nodes that answer pings, and the goroutines of the connections to them are not kept by their callbacks, then every call of Ack there returns, and removes nobody from the table; in the meantime somebody with the key of its argument has been in the table, or a peer in the table has been pinged and has answered. Callbacks for peers in the routing table do not keep their goroutines: a call of Ack for a key that is in the table returns after two steps of its own, without waiting for anybody.", "quantifier": "every fair execution of a network of any number of nodes with kademlia, with arbitrary failures, connections, calls, searches, handlers and other calls of Ack elsewhere and concurrently", "why_tests_cant": "it is about something that has to happen eventually, through the goroutines of two nodes, in every fair schedule, while other calls change the table", "anchors": ["kademlia/protocol.go: Ack, Handle, OnPeerConnected, OnMessageSent, OnMessageRecv", "kademlia/table.go: Update, Last", "node.go: RequestMessage, Request, dialIfNotExists", "client.go: request, recvLoop, writeLoop"]}
