import Verif.Basic

/-!
# Flow control: round-trip times, bandwidth estimation, data in flight

src/bandwidth.c, and from src/server.c update_min_rtt (304-314), send_ping (598-614), on_fence_response
(1788-1832) and the limit in process_fb_update_requests (908-920).

`double` is modelled by fractions: the sums are exact there; that quotients are rounded is not modelled.
-/

namespace Verif.Flow

/-- an `int` as the result of arithmetic: overflow is undefined -/
def int32 (n : Int) : Outcome Int :=
  if -2147483648 ≤ n ∧ n < 2147483648 then .ok n else .ub "signed overflow"

/-- conversion to `int32_t` -/
def cut32 (n : Int) : Int :=
  if n / 2147483648 % 2 = 0 then n % 2147483648
  else n % 2147483648 - 2147483648

/-! ## Floating point -/

/-- a `double`: `val n d` is `n / d` with `d` positive -/
inductive Fl where
  | nan
  | ninf
  | pinf
  | val (n : Int) (d : Nat)
  deriving Repr, DecidableEq

/-- `(double)b / (d * 1e-6)` -/
def quot (b d : Int) : Fl :=
  if d = 0 then if b = 0 then .nan else if 0 < b then .pinf else .ninf
  else if 0 < d then .val (b * 1000000) d.toNat
  else .val (-(b * 1000000)) (-d).toNat

def Fl.lt : Fl → Fl → Bool
  | .nan, _ | _, .nan => false
  | .ninf, .ninf | .pinf, _ => false
  | .ninf, _ | _, .pinf => true
  | _, .ninf => false
  | .val n d, .val n' d' => n * d' < n' * d

/-- fmax -/
def Fl.max : Fl → Fl → Fl
  | .nan, y => y
  | x, .nan => x
  | x, y => if x.lt y then y else x

/-- round, which rounds halves away from zero, of `n / d` -/
def roundDiv (n : Int) (d : Nat) : Int :=
  if 0 ≤ n then (2 * n + d) / (2 * d) else -((2 * -n + d) / (2 * d))

/-- `(int)round(x)`: what does not fit is undefined, and `wild` is what the machine makes of it -/
def Fl.toInt (wild : Int) : Fl → Int
  | .val n d => if -2147483648 ≤ roundDiv n d ∧ roundDiv n d < 2147483648 then roundDiv n d else wild
  | _ => wild

/-- whether `(int)round(x)` is defined -/
def Fl.fits : Fl → Bool
  | .val n d => -2147483648 ≤ roundDiv n d && roundDiv n d < 2147483648
  | _ => false

/-! ## The bandwidth estimator -/

/-- struct bwe_sample, bandwidth.h 3-7 -/
structure Sample where
  bytes : Int
  departure : Int
  arrival : Int
  deriving Repr, DecidableEq

/-- struct bwe, bandwidth.c 9-15 -/
structure Bwe where
  rttMin : Int
  n : Nat
  index : Nat
  est : Fl
  samples : List Sample
  deriving Repr, DecidableEq

/-- bwe_create, bandwidth.c 17-25: the argument is not used -/
def create : Bwe := ⟨0, 0, 0, .val 0 1, List.replicate 16 ⟨0, 0, 0⟩⟩

/-- get_sample, bandwidth.c 32-37 -/
def getSample (b : Bwe) (i : Nat) : Outcome Sample :=
  let head := ((b.index : Int) + i - b.n + 16).tmod 16
  if head < 0 then .ub "outside of the samples"
  else match b.samples[head.toNat]? with
  | some s => .ok s
  | none => .ub "outside of the samples"

/-- the loop of estimate_non_congested_bandwidth, bandwidth.c 45-53: sample `i` and `k - 1` more -/
def sumDelays (b : Bwe) : Nat → Nat → Int → Int → Outcome (Int × Int)
  | 0, _, bytes, delay => .ok (bytes, delay)
  | k + 1, i, bytes, delay => do
    let s ← getSample b i
    let rtt ← int32 (s.arrival - s.departure)
    let d ← int32 (rtt - b.rttMin)
    let bytes ← int32 (bytes + s.bytes)
    let delay ← int32 (delay + d)
    sumDelays b k (i + 1) bytes delay

/-- the loop of estimate_congested_bandwidth, bandwidth.c 69-72 -/
def sumBytes (b : Bwe) : Nat → Nat → Int → Outcome Int
  | 0, _, bytes => .ok bytes
  | k + 1, i, bytes => do
    let s ← getSample b i
    let bytes ← int32 (bytes + s.bytes)
    sumBytes b k (i + 1) bytes

/-- estimate_non_congested_bandwidth, bandwidth.c 40-56 -/
def nonCongested (b : Bwe) : Outcome Fl := do
  let (bytes, delay) ← sumDelays b b.n 0 0 0
  .ok (quot bytes delay)

/-- estimate_congested_bandwidth, bandwidth.c 59-78 -/
def congested (b : Bwe) : Outcome Fl :=
  if b.n = 0 then .ok (.val 0 1)
  else do
    let s0 ← getSample b 0
    let s1 ← getSample b (b.n - 1)
    let bytes ← sumBytes b b.n 0 0
    let rtt ← int32 (s1.arrival - s0.departure)
    let d ← int32 (rtt - b.rttMin)
    .ok (quot bytes d)

/-- update_estimate, bandwidth.c 80-85 -/
def updateEstimate (b : Bwe) : Outcome Bwe := do
  let x ← nonCongested b
  let y ← congested b
  .ok { b with est := x.max y }

/-- bwe_feed, bandwidth.c 87-96 -/
def feed (s : Sample) (b : Bwe) : Outcome Bwe :=
  if b.samples.length ≤ b.index then .ub "outside of the samples"
  else updateEstimate { b with samples := b.samples.set b.index s, index := (b.index + 1) % 16,
                               n := if b.n < 16 then b.n + 1 else b.n }

/-- bwe_update_rtt_min, bandwidth.c 98-101 -/
def updateRtt (r : Int) (b : Bwe) : Bwe := { b with rttMin := r }

/-! ## A client -/

/-- the fields of struct nvnc_client that take part, common.h 132-136 -/
structure Client where
  lastPing : Int
  minRtt : Int
  bwe : Bwe
  inflight : Int
  deriving Repr, DecidableEq

/-- on_connection, server.c 2010-2011 and 2059; times are in microseconds -/
def connect (t : Nat) : Client := ⟨cut32 t, 2147483647, create, 0⟩

/-- update_min_rtt, server.c 304-314, after it has looked at the clock -/
def handshakeAt (now : Int) (c : Client) : Outcome Client := do
  let diff ← int32 (now - c.lastPing)
  if diff < c.minRtt then .ok { c with lastPing := now, minRtt := diff, bwe := updateRtt diff c.bwe }
  else .ok { c with lastPing := now }

/-- update_min_rtt, server.c 304-314 -/
def handshake (t : Nat) (c : Client) : Outcome Client := handshakeAt (cut32 t) c

/-- send_ping, server.c 598-614, to a client that has fences: the payload has the time and the size -/
def ping (size : Nat) (c : Client) : Client := { c with inflight := cut32 (c.inflight + size) }

/-- server.c 1814-1817 -/
def lower (rtt : Int) (c : Client) : Client :=
  if rtt < c.minRtt then { c with minRtt := rtt, bwe := updateRtt rtt c.bwe } else c

/-- the part of on_fence_response, server.c 1807-1826, after it has looked at the clock -/
def responseAt (now dep bytes : Int) (size : Nat) (c : Client) : Outcome Client := do
  let rtt ← int32 (now - dep)
  if rtt < 0 then .ok c
  else do
    let bwe ← feed ⟨bytes, dep, now⟩ (lower rtt c).bwe
    .ok { lower rtt c with bwe := bwe, inflight := cut32 (c.inflight - size) }

/-- on_fence_response, server.c 1788-1832: `dep` and `size` are the words of the payload, `len` is its length -/
def response (t dep size len : Nat) (c : Client) : Outcome Client :=
  if size = 0 then .ok c else responseAt (cut32 t) (cut32 dep) (cut32 (size + 9 + len)) size c

/-- process_fb_update_requests, server.c 908-920: the frame is dropped -/
def held (wild : Int) (c : Client) : Bool :=
  let bandwidth := c.bwe.est.toInt wild
  if bandwidth = 0 then false
  else (Fl.val (33333 + c.minRtt * bandwidth) 1000000).toInt wild < c.inflight

inductive Ev where
  | handshake (t : Nat)
  | ping (size : Nat)
  | response (t dep size len : Nat)
  deriving Repr, DecidableEq

def step (c : Client) : Ev → Outcome Client
  | .handshake t => handshake t c
  | .ping size => .ok (ping size c)
  | .response t dep size len => response t dep size len c

def run (c : Client) : List Ev → Outcome Client
  | [] => .ok c
  | e :: es => do
    let c ← step c e
    run c es

end Verif.Flow
