import Verif.Basic

/-!
# Clock messages

`on_client_ntp`, `on_ntp_msg_send` and `update_ntp_stats` of src/server.c. A message has 20 bytes: the type,
three bytes of padding and four times of 32 bits.
-/

namespace Verif.Ntp

/-- a difference of two `uint32_t` as an `int32_t` -/
def diff (a b : Nat) : Int := ((a : Int) - b + 2147483648) % 4294967296 - 2147483648

/-- the result of signed arithmetic on `int` -/
def int32 (x : Int) : Outcome Int :=
  if -2147483648 ≤ x ∧ x < 2147483648 then .ok x else .ub "signed overflow"

/-- the time at an offset in the message -/
def time (m : Bytes) (off : Nat) : Nat :=
  match m.drop off with
  | a :: b :: c :: d :: _ => rd32 a b c d
  | _ => 0

/-- `update_ntp_stats`, server.c 1702-1716: delta and theta in microseconds. They are `double`, but of whole
numbers below 2^31. -/
def stats (m : Bytes) : Outcome (Int × Int) :=
  (int32 (diff (time m 16) (time m 4) - diff (time m 12) (time m 8))) >>= fun delta =>
  (int32 (diff (time m 8) (time m 4) + diff (time m 12) (time m 16))) >>= fun sum =>
  .ok (delta, sum.tdiv 2)

/-- what comes of a message -/
inductive Result where
  | wait                                -- there is not enough of it
  | stats (delta theta : Int)           -- the numbers that are logged
  | reply (f : Nat → Bytes)             -- is given to `stream_exec_and_send`; the argument is the clock then

/-- the message with the time at which it was taken up, `on_client_ntp`, server.c 1739-1743 -/
def taken (m : Bytes) (now : Nat) : Bytes := m.take 8 ++ be32 now ++ m.drop 12

/-- and with the time at which it goes out, `on_ntp_msg_send`, server.c 1717-1723 -/
def sent (m : Bytes) (now : Nat) : Bytes := m.take 12 ++ be32 now ++ m.drop 16

/-- `on_client_ntp`, server.c 1725-1750. `htonl` takes the lower 32 bits of the clock. -/
def handle (now : Nat) (a : Bytes) : Outcome Result :=
  if a.length < 20 then .ok .wait
  else if time (a.take 20) 16 ≠ 0 then (stats (a.take 20)) >>= fun r => .ok (.stats r.1 r.2)
  else .ok (.reply (sent (taken (a.take 20) now)))

end Verif.Ntp
