import Verif.Props.Ident
import Verif.Props.Frame
import Verif.Props.Mem
import Verif.Props.Codec
import Verif.Props.Requests
import Verif.Props.Client
import Verif.Props.Client2
import Verif.Props.ClientCalls
import Verif.Props.Worker
import Verif.Props.Pool
import Verif.Props.PoolLock
import Verif.Props.NodeCfg
import Verif.Props.Dial
import Verif.Props.NodeLife
import Verif.Props.Binary
import Verif.Props.Table
import Verif.Props.KadMsg
import Verif.Props.Kad
import Verif.Props.Iterator
import Verif.Props.IterShare
import Verif.Props.Gossip
import Verif.Props.GossipNet
import Verif.Props.GossipForget
import Verif.Props.Handshake
import Verif.Props.Symbolic
import Verif.Props.Ecdh
import Verif.Props.Link
import Verif.Props.Idle
import Verif.Props.Secrets
import Verif.Props.Share
import Verif.Props.Nested
import Verif.Props.ByteLink
import Verif.Props.Typed
import Verif.Props.Reent
import Verif.Props.Race
import Verif.Props.Register
import Verif.Props.Live
import Verif.Props.Callbacks
import Verif.Props.Queue
import Verif.Props.Guarded
import Verif.Props.KadNode
import Verif.Props.KadKeep
import Verif.Props.Callers
import Verif.Props.Leak
import Verif.Props.Claims
import Verif.Props.KadEnd
import Verif.Props.Node
import Verif.Props.NodeEnd
import Verif.Props.Oversize
import Verif.Props.NodeCalls
import Verif.Props.NodeList
import Verif.Props.Relisten
import Verif.Props.NodeLate
import Verif.Props.NodeClose
import Verif.Props.Discovery
import Verif.Props.KadBind
import Verif.Props.NodeRace
import Verif.Props.Chat
import Verif.Props.AddrText
import Verif.Props.NodeReq
import Verif.Props.NodeTraffic
import Verif.Props.Net
import Verif.Props.NetLive
import Verif.Props.Search
import Verif.Props.KadSync
import Verif.Props.Options
import Verif.Props.GossipWire
import Verif.Props.GossipPush
import Verif.Props.GossipWho
import Verif.Props.GossipLive
import Verif.Props.GossipSpread
import Verif.Props.GossipChain
import Verif.Props.KadWire
import Verif.Props.KadFind
import Verif.Props.KadServe
import Verif.Props.KadAnswers
import Verif.Props.KadSearch
import Verif.Props.KadSearches
import Verif.Props.KadPing
import Verif.Props.KadPings
import Verif.Props.KadAcks
