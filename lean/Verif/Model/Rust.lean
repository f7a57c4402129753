import Verif.Float.Fl

/-!
# Rust panics, fixed width integers and casts
-/

namespace Fon

/-- Reasons for a panic. -/
inductive Panic where
  /-- integer overflow in arithmetic (debug builds, and always for `MIN / -1`) -/
  | overflow
  | divByZero
  /-- index or slice range out of bounds -/
  | bounds
  /-- `Option::unwrap`/`expect` on `None` -/
  | unwrapNone
  /-- `assert!`/`assert_eq!` -/
  | assert
  /-- `todo!()` -/
  | todo
  /-- explicit `panic!` in `Frame::convert` -/
  | customConvert
  /-- explicit `panic!` in `Pan::mix` -/
  | panMono
  /-- explicit `panic!` in the default `Stream::set_sample_rate` -/
  | setSampleRate
  /-- `Vec` capacity overflow -/
  | capacity
  /-- not a panic: the fuel of the loop model ran out -/
  | outOfFuel
deriving DecidableEq, Repr

/-- Result of a computation that may panic. -/
abbrev R (α : Type) := Except Panic α

instance {α : Type} [DecidableEq α] : DecidableEq (R α) := fun a b =>
  match a, b with
  | .ok x, .ok y => if h : x = y then isTrue (h ▸ rfl) else isFalse (by intro h'; cases h'; exact h rfl)
  | .error x, .error y =>
      if h : x = y then isTrue (h ▸ rfl) else isFalse (by intro h'; cases h'; exact h rfl)
  | .ok _, .error _ => isFalse (by intro h; cases h)
  | .error _, .ok _ => isFalse (by intro h; cases h)

/-- `iN::MIN`. -/
def iMin (n : Nat) : ℤ := -2 ^ (n - 1)
/-- `iN::MAX`. -/
def iMax (n : Nat) : ℤ := 2 ^ (n - 1) - 1
/-- `usize::MAX` on a 64-bit target. -/
def usizeMax : ℤ := 2 ^ 64 - 1

/-- Arithmetic result that must fit `iN`, panicking otherwise. -/
def chk (n : Nat) (z : ℤ) : R (BitVec n) :=
  if iMin n ≤ z ∧ z ≤ iMax n then .ok (BitVec.ofInt n z) else .error .overflow

/-- Unsigned arithmetic result that must fit `uN`, panicking otherwise. -/
def chkU (n : Nat) (z : ℤ) : R (BitVec n) :=
  if 0 ≤ z ∧ z ≤ 2 ^ n - 1 then .ok (BitVec.ofInt n z) else .error .overflow

/-- `iN::saturating_*`: clamp an exact result into the range of `iN`. -/
def sat (n : Nat) (z : ℤ) : BitVec n := BitVec.ofInt n (max (iMin n) (min (iMax n) z))

/-- Signed integer division of Rust: truncates, panics on zero divisor and on overflow. -/
def divI {n : Nat} (x y : BitVec n) : R (BitVec n) :=
  if y.toInt = 0 then .error .divByZero else chk n (Int.tdiv x.toInt y.toInt)

/-- `Ord::min` on signed integers. -/
def smin {n : Nat} (x y : BitVec n) : BitVec n := if x.toInt ≤ y.toInt then x else y
/-- `Ord::max` on signed integers. -/
def smax {n : Nat} (x y : BitVec n) : BitVec n := if x.toInt ≤ y.toInt then y else x

/-- `x as iN` for a float `x`. -/
def Fl.toI {f : Fmt} (n : Nat) (x : Fl f) : BitVec n := BitVec.ofInt n (x.toIntSat (iMin n) (iMax n))

/-- `x as usize` for a float `x`. -/
def Fl.toUsize {f : Fmt} (x : Fl f) : Nat := (x.toIntSat 0 usizeMax).toNat

/-- `n as f64` for `n : usize`. -/
def f64OfUsize (n : Nat) : F64 := Fl.ofInt n

end Fon
