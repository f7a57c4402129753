import Verif.Model.Rust

/-!
# Model of `/repo/src/math.rs`
The code has one copy per float type; `ceilh` (f32) and `ceil` (f64) have the same text, so the
model is generic in the format.
-/

namespace Fon.Math
open Fon

variable {f : Fmt}

/-- `ceilh` (math.rs:50-58) for f32 and `ceil` (math.rs:60-69) for f64. -/
def ceil (input : Fl f) : Fl f :=
  let fract := input.rem (Fl.lit 1)
  let whole := input.sub fract
  if Fl.lt Fl.epsilon fract then whole.add (Fl.lit 1) else whole

/-- `floorh_i16` (math.rs:13-20), `floorh_i8` (22-29), `floor_i16` (31-38), `floor_i8` (40-47);
`n` is the width of the integer type. -/
def floorI (n : Nat) (input : Fl f) : BitVec n :=
  if input.lt (Fl.lit 0) then ((ceil input.neg).neg).toI n else input.toI n

/-- `ceil_usize` (math.rs:71-80).  `whole += 1` is a checked addition. -/
def ceilUsize (input : F64) : R Nat :=
  let fract := input.rem (Fl.lit 1)
  let whole := input.toUsize
  if Fl.lt Fl.epsilon fract then
    if (whole : ℤ) + 1 ≤ usizeMax then .ok (whole + 1) else .error .overflow
  else .ok whole

end Fon.Math
