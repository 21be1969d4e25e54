import Verif.Basic

/-! # Model of logging: src/logging.c -/

namespace Verif.Log

/-! ## The text -/

/-- `isspace` for a `char`, which is signed: a negative argument other than EOF is undefined -/
def isspace (b : UInt8) : Outcome Bool :=
  if 128 ≤ b.toNat ∧ b.toNat ≠ 255 then .ub "isspace of a negative char"
  else .ok (b.toNat = 32 || (9 ≤ b.toNat && b.toNat ≤ 13))

/-- `trim_left`, logging.c 52-57: the number of bytes skipped, and the rest.  The string ends with a NUL, which is not
a space. -/
def trimLeft : Bytes → Outcome (Nat × Bytes)
  | [] => .ok (0, [])
  | b :: l =>
    match isspace b with
    | .ok true =>
      match trimLeft l with
      | .ok (n, r) => .ok (n + 1, r)
      | .ub w => .ub w
      | .abort w => .abort w
    | .ok false => .ok (0, b :: l)
    | .ub w => .ub w
    | .abort w => .abort w

/-- the loop of `trim_right`, logging.c 62-63, for a string given backwards: `end` is the first byte, `str` the last -/
def trimBack : Bytes → Outcome Bytes
  | [] => .ok []
  | [b] => .ok [b]
  | b :: c :: l =>
    match isspace b with
    | .ok true => trimBack (c :: l)
    | .ok false => .ok (b :: c :: l)
    | .ub w => .ub w
    | .abort w => .abort w

/-- `trim_right`, logging.c 59-65, for a string that starts `off` bytes into the array: `end` must not lie before the
array -/
def trimRight (off : Nat) (str : Bytes) : Outcome Bytes :=
  if off + str.length = 0 then .ub "pointer before the array"
  else match trimBack str.reverse with
    | .ok r => .ok r.reverse
    | .ub w => .ub w
    | .abort w => .abort w

/-- `trim`, logging.c 67-70 -/
def trim (str : Bytes) : Outcome Bytes :=
  match trimLeft str with
  | .ok (n, r) => trimRight n r
  | .ub w => .ub w
  | .abort w => .abort w

/-- what `nvnc__vlog` passes on, logging.c 103-107: `text` is the complete output of the format, without any NUL -/
def render (text : Bytes) : Outcome Bytes := trim (text.take 1023)

/-! ## Where it goes -/

/-- `enum nvnc_log_level`, neatvnc.h 102-109 -/
abbrev Level := Nat
abbrev panic : Level := 0

/-- the variables of logging.c 36-43, in a build with NDEBUG if `ndebug`; logger 0 is `nvnc_default_logger` -/
structure State where
  fn : Nat := 0
  threadFn : List (Nat × Option Nat) := []
  level : Level
  deriving DecidableEq, Repr

def init (ndebug : Bool) : State := { level := if ndebug then 2 else 4 }

/-- `get_log_fn` in a thread, logging.c 47-50 -/
def getLogFn (thread : Nat) (s : State) : Nat :=
  match s.threadFn.lookup thread with
  | some (some f) => f
  | _ => s.fn

inductive Op where
  /-- `nvnc_set_log_level`, logging.c 173-181 -/
  | setLevel (l : Level)
  /-- `nvnc_set_log_fn`, logging.c 183-187 -/
  | setFn (f : Option Nat)
  /-- `nvnc_set_log_fn_thread_local`, logging.c 189-193 -/
  | setThreadFn (thread : Nat) (f : Option Nat)
  deriving DecidableEq, Repr

def step (o : Op) (s : State) : State :=
  match o with
  | .setLevel l => { s with level := l }
  | .setFn f => { s with fn := f.getD 0 }
  | .setThreadFn t f => { s with threadFn := (t, f) :: s.threadFn }

def run (os : List Op) (s : State) : State := os.foldl (fun s o => step o s) s

/-- `nvnc__vlog`, logging.c 98-112: the call of a logger, if any, and whether the process is aborted afterwards -/
def vlog (thread : Nat) (l : Level) (text : Bytes) (s : State) : Outcome (Option (Nat × Bytes) × Bool) :=
  if l ≤ s.level then
    match render text with
    | .ok m => .ok (some (getLogFn thread s, m), decide (l = panic))
    | .ub w => .ub w
    | .abort w => .abort w
  else .ok (none, decide (l = panic))

/-! ## libav -/

/-- `nvnc__log_level_from_av`, logging.c 131-145; the numbers are those of libavutil/log.h -/
def fromAv (l : Int) : Level :=
  if l = 0 then 0 else if l = 8 then 1 else if l = 16 then 1 else if l = 24 then 2 else if l = 32 then 3
  else if l = 40 then 3 else if l = 48 then 4 else if l = 56 then 5 else 5

/-- `nvnc__log_level_to_av`, logging.c 147-159 -/
def toAv (l : Level) : Int :=
  if l = 0 then 0 else if l = 1 then 16 else if l = 2 then 24 else if l = 3 then 32 else if l = 4 then 48
  else if l = 5 then 56 else 56

end Verif.Log
