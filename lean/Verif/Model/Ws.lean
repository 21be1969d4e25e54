import Verif.Basic

/-! # Model of WebSocket framing: src/stream/ws/framing.c and the reader of src/stream/ws/ws.c -/

namespace Verif.Ws

/-- `struct ws_frame_header`, include/stream/websocket.h:34-41 -/
structure Header where
  fin : Bool := false
  opcode : Nat := 0
  mask : Bool := false
  len : Nat := 0
  key : Bytes := [0, 0, 0, 0]
  hlen : Nat := 0
  deriving DecidableEq, Repr

/-- `ws_parse_frame_header`, src/stream/ws/framing.c:57-101.  The header is an in/out argument:
fields assigned before a `return false` keep their new values. -/
def parse (h : Header) (p : Bytes) : Outcome (Header × Bool) :=
  if p.length < 2 then .ok (h, false)
  else do
    let b0 ← readAt p 0 1
    let b1 ← readAt p 1 1
    let b0 := b0.headD 0
    let b1 := b1.headD 0
    let h := { h with
      fin := b0 &&& 0x80 ≠ 0, opcode := (b0 &&& 0x0f).toNat,
      mask := b1 &&& 0x80 ≠ 0, len := (b1 &&& 0x7f).toNat }
    if h.len = 126 ∧ p.length - 2 < 2 then .ok (h, false)
    else if h.len = 127 ∧ p.length - 2 < 8 then .ok (h, false)
    else
      let (h, i) ← (if h.len = 126 then do
          let v ← readAt p 2 2
          pure ({ h with len := beNat v }, 4)
        else if h.len = 127 then do
          let v ← readAt p 2 8
          pure ({ h with len := beNat v }, 10)
        else pure (h, 2) : Outcome (Header × Nat))
      if h.mask then
        if p.length - i < 4 then .ok (h, false)
        else do
          let k ← readAt p i 4
          .ok ({ h with key := k, hlen := i + 4 }, true)
      else .ok ({ h with hlen := i }, true)

/-- `ws_copy_payload`, src/stream/ws/framing.c:117-129, on the `len` bytes `src` -/
def copyPayload (h : Header) (src : Bytes) : Bytes :=
  if h.mask then src.mapIdx fun i b => b ^^^ (h.key[i % 4]?).getD 0 else src

/-- `ws_write_frame_header`, src/stream/ws/framing.c:131-155: new contents of `dst` and the return
value.  The masking key is copied to `dst`, not `&dst[i]` (line 150).  `opcode` is assumed below
128 by the callers (2 and 10). -/
def writeHeader (dst : Bytes) (h : Header) : Outcome (Bytes × Nat) := do
  let dst ← writeAt dst 0 [UInt8.ofNat ((if h.fin then 0x80 else 0) ||| h.opcode)]
  let m := if h.mask then 0x80 else 0
  let (dst, i) ← (if h.len ≤ 125 then do
      let d ← writeAt dst 1 [UInt8.ofNat (m ||| h.len)]
      pure (d, 2)
    else if h.len ≤ 65535 then do
      let d ← writeAt dst 1 [UInt8.ofNat (m ||| 126)]
      let d ← writeAt d 2 (be16 h.len)
      pure (d, 4)
    else do
      let d ← writeAt dst 1 [UInt8.ofNat (m ||| 127)]
      let d ← writeAt d 2 (be64 h.len)
      pure (d, 10) : Outcome (Bytes × Nat))
  if h.mask then do
    let d ← writeAt dst 0 h.key
    pure (d, i + 4)
  else pure (dst, i)

/-- `WS_HEADER_MIN_SIZE`, include/stream/websocket.h:23 -/
def headerMinSize : Nat := 14

/-- `struct stream_ws`, src/stream/ws/ws.c:40-48.  `sent` collects what is passed to
`stream_tcp_send` (its queue is the subject of Model/Tcp). -/
structure State where
  /-- `read_buffer`, 4096 bytes -/
  mem : Bytes
  idx : Nat := 0
  hdr : Header := {}
  curOp : Nat := 0
  closed : Bool := false
  sent : List Bytes := []
  deriving DecidableEq, Repr

def bufSize : Nat := 4096

/-- `stream_ws_advance_read_buffer`, src/stream/ws/ws.c:59-69.  `read_index - offset` would wrap
around if the offset exceeded the index. -/
def advance (s : State) (size offset : Nat) : Outcome State :=
  if offset > s.idx then .ub "size_t wrap-around" else
  let n := min (min size (s.idx - offset)) s.hdr.len
  let idx := s.idx - (offset + n)
  do
    let moved ← readAt s.mem (offset + n) idx
    let mem ← writeAt s.mem 0 moved
    pure { s with mem := mem, idx := idx, hdr := { s.hdr with len := s.hdr.len - n } }

/-- `SIZE_MAX` -/
def sizeMax : Nat := 18446744073709551615

/-- `stream_ws_process_ping`, src/stream/ws/ws.c:82-106.  `junk` is the initial contents of the
local array `buf`. -/
def processPing (junk : Bytes) (s : State) (offset : Nat) : Outcome State := do
  let s ← (if offset > 0 then do
      let (b, n) ← writeHeader junk { fin := true, opcode := 10, len := s.hdr.len }
      pure { s with sent := s.sent ++ [b.take n] }
    else pure s : Outcome State)
  let n := min s.idx s.hdr.len
  let echo ← readAt s.mem offset n
  advance { s with sent := s.sent ++ [echo] } n offset

/-- `stream_ws_process_payload`, src/stream/ws/ws.c:108-134, with `stream_ws_copy_payload`
(71-80) inlined.  Result: state, return value, bytes stored at `dst`.  Closing also delivers
STREAM_EVENT_REMOTE_CLOSED. -/
def processPayload (junk : Bytes) (s : State) (size offset : Nat) : Outcome (State × Int × Bytes) :=
  if s.curOp = 0 then .ok ({ s with closed := true }, 0, [])
  else if s.curOp = 1 then do let s ← advance s sizeMax offset; pure (s, 0, [])
  else if s.curOp = 2 then
    if offset > s.idx then .ub "size_t wrap-around" else
    let n := min (min size (s.idx - offset)) s.hdr.len
    do
      let src ← readAt s.mem offset n
      let out := copyPayload s.hdr src
      let s ← advance s size offset
      pure (s, (n : Int), out)
  else if s.curOp = 8 then .ok ({ s with closed := true }, 0, [])
  else if s.curOp = 9 then do let s ← processPing junk s offset; pure (s, 0, [])
  else if s.curOp = 10 then do let s ← advance s sizeMax offset; pure (s, 0, [])
  else .ok (s, -1, [])

/-- `stream_ws_read_frame`, src/stream/ws/ws.c:139-160 -/
def readFrame (junk : Bytes) (s : State) (size : Nat) : Outcome (State × Int × Bytes) :=
  if s.hdr.len > 0 then processPayload junk s size 0
  else do
    let (h, ok) ← parse s.hdr (s.mem.take s.idx)
    let s := { s with hdr := h }
    if ¬ ok then pure (s, 0, [])
    else
      let s := if h.opcode ≠ 0 then { s with curOp := h.opcode } else s
      processPayload junk s size h.hlen

/-- The loop of `stream_ws_read_ready`, src/stream/ws/ws.c:162-185.  Each iteration but the last
stores at least one byte at `dst`, so `size + 1` is enough for `fuel`; running out would be
reported as `abort`.  `eagain` is whether a stale `errno` happens to be EAGAIN when an unknown
opcode makes the frame reader return -1. -/
def readLoop (junk : Bytes) (eagain : Bool) : Nat → State → Nat → Bytes → Outcome (State × Int × Bytes)
  | 0, _, _, _ => .abort "fuel"
  | fuel + 1, s, size, acc => do
    let (s, n, out) ← readFrame junk s size
    if n = 0 then pure (s, (acc.length : Int), acc)
    else if n < 0 then pure (s, if eagain then (acc.length : Int) else -1, acc)
    else readLoop junk eagain fuel s (size - out.length) (acc ++ out)

def readReady (junk : Bytes) (eagain : Bool) (s : State) (size : Nat) : Outcome (State × Int × Bytes) :=
  readLoop junk eagain (size + 1) s size []

/-- Result of `read` on the socket -/
inductive Kernel where
  | data (b : Bytes)
  | again
  | eof
  deriving DecidableEq, Repr

/-- `stream_ws_read_into_buffer`, src/stream/ws/ws.c:50-57, on `stream_tcp_read`
(src/stream/tcp.c:196-215): a read of size zero returns zero, which is taken for end of file.  The
kernel never delivers more than asked for. -/
def readIntoBuffer (s : State) (k : Kernel) : Outcome State :=
  if s.closed then .ok s
  else
    let room := bufSize - s.idx
    match k with
    | .again => if room = 0 then .ok { s with closed := true } else .ok s
    | .eof => .ok { s with closed := true }
    | .data b =>
      let b := b.take room
      if b = [] then .ok { s with closed := true }
      else do
        let mem ← writeAt s.mem s.idx b
        pure { s with mem := mem, idx := s.idx + b.length }

/-- `stream_ws_read`, src/stream/ws/ws.c:214-230, in state READY -/
def read (junk : Bytes) (eagain : Bool) (s : State) (k : Kernel) (size : Nat) :
    Outcome (State × Int × Bytes) := do
  let s ← readIntoBuffer s k
  if s.closed then pure (s, 0, [])
  else readReady junk eagain s size

/-- A sequence of read events with everything delivered to the layer above, concatenated -/
def run (junk : Bytes) (eagain : Bool) : State → List (Kernel × Nat) → Outcome (State × Bytes)
  | s, [] => .ok (s, [])
  | s, (k, size) :: rest => do
    let (s, _, out) ← read junk eagain s k size
    let (s, out') ← run junk eagain s rest
    pure (s, out ++ out')

/-- `stream_ws_send`, src/stream/ws/ws.c:232-249: what is handed to `stream_tcp_send` -/
def send (junk : Bytes) (payload : Bytes) : Outcome (List Bytes) := do
  let (b, n) ← writeHeader junk { fin := true, opcode := 2, len := payload.length }
  pure [b.take n, payload]

/-- `stream_ws_chained_exec`, src/stream/ws/ws.c:251-277: the buffer it returns -/
def chainedExec (junk : Bytes) (payload : Bytes) : Outcome Bytes := do
  let (b, n) ← writeHeader junk { fin := true, opcode := 2, len := payload.length }
  pure (b.take n ++ payload)

end Verif.Ws
