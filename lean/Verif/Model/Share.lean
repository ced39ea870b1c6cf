import Verif.Model.Mem
import Verif.Model.TS
/-!
# client.go:334-341, 532, 587-604 and 293-313: which memory a client shares with its user

The user's goroutines allocate, re-slice and overwrite their own memory at any time (`alloc`, `reslice`, `poke`), while the client queues, writes, reads and delivers. Array 0 is `c.readerBuf`
(client.go:95). The scratch buffers of the writer are private to it (`Model/Mem.lean` has them, in detail), so writing a message only reads the slice that was queued.
-/
namespace Noise.Share

/-- client.go:282-313, 517-558: what the reader does with the buffer and the messages. -/
inductive Event where
  /-- a send was queued; the slice and what it held at that moment -/
  | sent (nonce : UInt64) (s : Slice) (now : Bytes)
  /-- the writer marshalled a message with this payload for the connection -/
  | wrote (nonce : UInt64) (payload : Bytes)
  /-- the user overwrote memory of this array -/
  | poked (arr : Nat)
  /-- a message with this payload was read from the connection -/
  | arrived (nonce : UInt64) (payload : Bytes)
  /-- a message was handed to a handler or to a waiting request; the slice and what it held at that moment -/
  | delivered (nonce : UInt64) (s : Slice) (now : Bytes)

/-- client.go:67 (`readerBuf`), 517-558: the memory of a client and of its handlers. -/
structure State where
  heap : Heap
  /-- slices in the hands of the user -/
  held : List Slice
  /-- `c.writerBuf` -/
  queue : List (UInt64 × Slice)
  /-- client.go:590 `writerBuf`: what the writer has taken and not yet written -/
  batch : List (UInt64 × Slice)
  /-- client.go:526 `msg`, a slice of `c.readerBuf` -/
  reading : Option (UInt64 × Slice)
  log : List Event

/-- client.go:87-108: a fresh client; `size` is `4 + maxRecvMessageSize`. -/
def State.new (size : Nat) : State := ⟨⟨fun j => if j = 0 then List.replicate size 0 else [], 1⟩, [], [], [], none, []⟩

/-- client.go:282-313, 517-558, msg.go:56-58. -/
inductive Action where
  /-- the user allocates -/
  | alloc (b : Bytes)
  /-- the user takes a slice of a slice -/
  | reslice (i lo hi : Nat)
  /-- the user overwrites a byte of a slice that it holds -/
  | poke (i j : Nat) (v : UInt8)
  /-- client.go:334-341 `send`, called by `Send`, `Request` and `HandlerContext.Send` with a slice of the user -/
  | send (nonce : UInt64) (i : Nat)
  /-- client.go:587-592 -/
  | take
  /-- client.go:600-602 -/
  | write
  /-- client.go:293-313 and 525: a frame is read into `c.readerBuf` (and decrypted there); the payload is this part of it -/
  | read (nonce : UInt64) (content : Bytes) (off len : Nat)
  /-- client.go:532 `append([]byte{}, msg.data...)` and delivery; the runtime adds `slack` bytes of capacity -/
  | deliver (slack : Nat)

/-- client.go:282-313, 517-558: one step; `none`: not enabled. -/
def step (s : State) : Action → Option State
  | .alloc b =>
    let (h, r) := s.heap.alloc b b.length
    some { s with heap := h, held := s.held ++ [r] }
  | .reslice i lo hi =>
    match s.held[i]? with
    | some r => match r.slice lo hi with
      | .ok r' => some { s with held := s.held ++ [r'] }
      | _ => none
    | none => none
  | .poke i j v =>
    match s.held[i]? with
    | some r => if j < r.len then some { s with heap := s.heap.poke r.arr (r.off + j) [v], log := s.log ++ [.poked r.arr] } else none
    | none => none
  | .send n i =>
    match s.held[i]? with
    | some r => some { s with queue := s.queue ++ [(n, r)], log := s.log ++ [.sent n r (s.heap.read r)] }
    | none => none
  | .take => if s.batch = [] ∧ s.queue ≠ [] then some { s with batch := s.queue, queue := [] } else none
  | .write =>
    match s.batch with
    | (n, r) :: b => some { s with batch := b, log := s.log ++ [.wrote n (s.heap.read r)] }
    | [] => none
  | .read n c off len =>
    if s.reading.isNone ∧ c.length = (s.heap.mem 0).length ∧ off + len ≤ c.length then
      some { s with
        heap := { s.heap with mem := fun j => if j = 0 then c else s.heap.mem j }
        reading := some (n, ⟨0, off, len, c.length - off⟩)
        log := s.log ++ [.arrived n ((c.drop off).take len)] }
    else none
  | .deliver k =>
    match s.reading with
    | some (n, r) =>
      let (h0, e) := s.heap.alloc [] 0
      let (h, d) := goAppend (fun _ => k) h0 e (s.heap.read r)
      some { s with heap := h, held := s.held ++ [d], reading := none, log := s.log ++ [.delivered n d (h.read d)] }
    | none => none

/-- States that a client with a receive buffer of this size can be in. Not in the code. -/
def Reachable (size : Nat) (s : State) : Prop := ReachFrom step (.new size) s

end Noise.Share
