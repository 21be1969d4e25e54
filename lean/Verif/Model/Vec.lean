import Verif.Basic

/-!
# Byte vectors

src/vec.c and include/vec.h.  The allocated memory is a byte string; `size_t` arithmetic is modulo
2^64.  What an allocation returns is a parameter of each operation: it may fail, and the bytes that
are new are arbitrary.
-/

namespace Verif.Vec

/-- struct vec, vec.h 22-26; `data` is the memory that was allocated -/
structure Vec where
  data : Bytes
  len : Nat
  cap : Nat
  deriving Repr, DecidableEq

/-- what `realloc` does when asked for a size: it fails, or the new bytes hold something -/
abbrev Heap := Nat → Option (Nat → UInt8)

def sizeT : Nat := 18446744073709551616

/-- vec_reserve, vec.c 34-47: `true` for success -/
def reserve (m : Heap) (size : Nat) (v : Vec) : Vec × Bool :=
  if size ≤ v.cap then (v, true)
  else match m size with
    | none => (v, false)
    | some g =>
      ({ v with data := v.data ++ (List.range' v.data.length (size - v.data.length)).map g, cap := size },
        true)

/-- vec_init, vec.c 23-27 -/
def init (m : Heap) (cap : Nat) : Vec × Bool := reserve m cap { data := [], len := 0, cap := 0 }

/-- vec__grow, vec.c 49-55 -/
def grow (m : Heap) (size : Nat) (v : Vec) : Vec × Bool :=
  if (v.len + size) % sizeT < v.cap then (v, true)
  else reserve m ((2 * ((v.len + size) % sizeT)) % sizeT) v

inductive Op where
  | reserve (m : Heap) (size : Nat)
  | assign (m : Heap) (b : Bytes)
  | append (m : Heap) (b : Bytes)
  | appendZero (m : Heap) (n : Nat)
  | clear
  | bzero
  | fast8 (x : UInt8)
  | fast32 (a b c d : UInt8)          -- the bytes of the value in memory

/-- one call, and whether it succeeded -/
def step : Op → Vec → Outcome (Vec × Bool)
  | .reserve m n, v => .ok (reserve m n v)
  -- vec_assign, vec.c 57-68
  | .assign m b, v =>
    match reserve m b.length { v with len := 0 } with
    | (v, false) => .ok (v, false)
    | (v, true) => do
      let d ← writeAt v.data 0 b
      .ok ({ v with data := d, len := b.length }, true)
  -- vec_append, vec.c 70-80
  | .append m b, v =>
    match grow m b.length v with
    | (v, false) => .ok (v, false)
    | (v, true) => do
      let d ← writeAt v.data v.len b
      .ok ({ v with data := d, len := (v.len + b.length) % sizeT }, true)
  -- vec_append_zero, vec.c 82-93
  | .appendZero m n, v =>
    match grow m n v with
    | (v, false) => .ok (v, false)
    | (v, true) => do
      let d ← writeAt v.data v.len (List.replicate n 0)
      .ok ({ v with data := d, len := (v.len + n) % sizeT }, true)
  -- vec_clear, vec.h 28-31
  | .clear, v => .ok ({ v with len := 0 }, true)
  -- vec_bzero, vec.c 95-98
  | .bzero, v => do
    let d ← writeAt v.data 0 (List.replicate v.cap 0)
    .ok ({ v with data := d }, true)
  -- vec_fast_append_8, vec.h 44-48
  | .fast8 x, v =>
    if v.len < v.cap then do
      let d ← writeAt v.data v.len [x]
      .ok ({ v with data := d, len := v.len + 1 }, true)
    else .abort "vec_fast_append_8: len < cap"
  -- vec_fast_append_32, vec.h 50-57
  | .fast32 a b c e, v =>
    if ¬ (v.len + 4 ≤ v.cap) then .abort "vec_fast_append_32: len + 4 <= cap"
    else if v.len % 4 ≠ 0 then .abort "vec_fast_append_32: alignment"
    else do
      let d ← writeAt v.data v.len [a, b, c, e]
      .ok ({ v with data := d, len := v.len + 4 }, true)

/-- a sequence of calls and their results -/
def run : List Op → Vec → Outcome (Vec × List Bool)
  | [], v => .ok (v, [])
  | o :: os, v => do
    let (v, r) ← step o v
    let (v, rs) ← run os v
    .ok (v, r :: rs)

/-- the bytes in a vector -/
def Vec.bytes (v : Vec) : Bytes := v.data.take v.len

end Verif.Vec
