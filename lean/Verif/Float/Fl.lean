import Verif.Float.Round

/-!
# Rust `f32` / `f64` values and the operations on them that fon uses

Modelled: the primitive float operations of Rust appearing in `/repo/src` (`+ - * / %`, comparisons,
`min`, `max`, unary minus, `as` casts).  Every operation computes the exact rational result and
rounds once (`Fmt.rnd`).  Simplifications: there is one NaN (no payload, no sign), and `min`/`max`
of two zeros return the first operand (Rust leaves the sign of zero open there).
-/

namespace Fon

/-- A float of format `f`.  `fin q nz` is the finite number `q`; `nz` marks negative zero. -/
inductive Fl (f : Fmt) where
  | nan : Fl f
  | inf (neg : Bool) : Fl f
  | fin (q : ℚ) (nz : Bool) (h : f.Rep q ∧ (nz = true → q = 0)) : Fl f
deriving DecidableEq

/-- Rust `f32`. -/
abbrev F32 := Fl binary32
/-- Rust `f64`. -/
abbrev F64 := Fl binary64

/-- Round toward zero. -/
def truncQ (q : ℚ) : ℤ := if 0 ≤ q then ⌊q⌋ else ⌈q⌉

namespace Fl
variable {f : Fmt}

/-- Sign bit (false for NaN). -/
def isNeg : Fl f → Bool
  | nan => false
  | inf s => s
  | fin q nz _ => decide (q < 0) || nz

/-- Round an exact rational result.  `s` is the sign of an exact zero. -/
def ofQ (f : Fmt) (s : Bool) (q : ℚ) : Fl f :=
  if h : |f.rnd q| ≤ f.maxF then
    fin (f.rnd q) (decide (f.rnd q = 0) && (decide (q < 0) || (decide (q = 0) && s)))
      ⟨Fmt.rep_rnd h, by intro hh; simp at hh; exact hh.1⟩
  else inf (decide (q < 0))

/-- A float literal. -/
def lit (q : ℚ) : Fl f := ofQ f false q

/-- Zero with sign. -/
def zero (s : Bool) : Fl f := fin 0 s ⟨Fmt.rep_zero, fun _ => rfl⟩

/-- Unary minus. -/
def neg : Fl f → Fl f
  | nan => nan
  | inf s => inf (!s)
  | fin q nz h => fin (-q) (decide (q = 0) && !nz) ⟨h.1.neg, by intro hh; simp at hh; simp [hh.1]⟩

/-- `x + y`. -/
def add : Fl f → Fl f → Fl f
  | nan, _ => nan
  | _, nan => nan
  | inf a, inf b => if a = b then inf a else nan
  | inf a, fin _ _ _ => inf a
  | fin _ _ _, inf b => inf b
  | fin p a _, fin q b _ => ofQ f (a && b) (p + q)

/-- `x - y`. -/
def sub (x y : Fl f) : Fl f := add x (neg y)

/-- `x * y`. -/
def mul : Fl f → Fl f → Fl f
  | nan, _ => nan
  | _, nan => nan
  | inf a, inf b => inf (xor a b)
  | inf a, fin q b _ => if q = 0 then nan else inf (xor a (decide (q < 0) || b))
  | fin p a _, inf b => if p = 0 then nan else inf (xor (decide (p < 0) || a) b)
  | fin p a _, fin q b _ => ofQ f (xor (decide (p < 0) || a) (decide (q < 0) || b)) (p * q)

/-- `x / y`. -/
def div : Fl f → Fl f → Fl f
  | nan, _ => nan
  | _, nan => nan
  | inf _, inf _ => nan
  | inf a, fin q b _ => inf (xor a (decide (q < 0) || b))
  | fin p a _, inf b => zero (xor (decide (p < 0) || a) b)
  | fin p a _, fin q b _ =>
    if q = 0 then
      if p = 0 then nan else inf (xor (decide (p < 0) || a) b)
    else ofQ f (xor (decide (p < 0) || a) (decide (q < 0) || b)) (p / q)

/-- `x % y` (C `fmod`): sign of the dividend, exact. -/
def rem : Fl f → Fl f → Fl f
  | nan, _ => nan
  | _, nan => nan
  | inf _, _ => nan
  | fin p a h, inf _ => fin p a h
  | fin p a _, fin q _ _ =>
    if q = 0 then nan else ofQ f (decide (p < 0) || a) (p - q * truncQ (p / q))

/-- `x < y`. -/
def lt : Fl f → Fl f → Bool
  | nan, _ => false
  | _, nan => false
  | inf a, inf b => a && !b
  | inf a, fin _ _ _ => a
  | fin _ _ _, inf b => !b
  | fin p _ _, fin q _ _ => decide (p < q)

/-- `x == y` (zeros of both signs are equal, NaN differs from everything). -/
def eq : Fl f → Fl f → Bool
  | nan, _ => false
  | _, nan => false
  | inf a, inf b => a == b
  | inf _, fin _ _ _ => false
  | fin _ _ _, inf _ => false
  | fin p _ _, fin q _ _ => decide (p = q)

/-- `x <= y`. -/
def le (x y : Fl f) : Bool := lt x y || eq x y

/-- `x.min(y)`: ignores a NaN operand. -/
def min : Fl f → Fl f → Fl f
  | nan, y => y
  | x, nan => x
  | x, y => if lt y x then y else x

/-- `x.max(y)`: ignores a NaN operand. -/
def max : Fl f → Fl f → Fl f
  | nan, y => y
  | x, nan => x
  | x, y => if lt x y then y else x

/-- `x as iN` / `x as usize`: truncate, saturate, NaN to 0. -/
def toIntSat (lo hi : ℤ) : Fl f → ℤ
  | nan => 0
  | inf s => if s then lo else hi
  | fin q _ _ => Max.max lo (Min.min hi (truncQ q))

/-- Integer to float conversion (`n as f64`, `f64::from(n)`), rounding to nearest. -/
def ofInt (n : ℤ) : Fl f := ofQ f false n

/-- Float to float conversion (`x as f32`, `x as f64`, `f64::from(x)`). -/
def cast (g : Fmt) : Fl f → Fl g
  | nan => nan
  | inf s => inf s
  | fin q nz _ => ofQ g nz q

/-- Machine epsilon (`f32::EPSILON`, `f64::EPSILON`): the gap above 1. -/
def epsilon : Fl f := ofQ f false (2 ^ (1 - (f.prec : ℤ)))

end Fl
end Fon
