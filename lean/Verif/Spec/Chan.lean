import Verif.Model.Chan
import Verif.Spec.Float

/-!
# Specification vocabulary for samples
-/

namespace Fon

/-- What C11 asks of a sample: a float sample is a number in `[-1, 1]`. -/
def Valid : (c : ChTy) → c.T → Prop
  | .ch8, _ => True
  | .ch16, _ => True
  | .ch32, x => Fl.InRange x
  | .ch64, x => Fl.InRange x

instance : (c : ChTy) → (x : c.T) → Decidable (Valid c x)
  | .ch8, _ => .isTrue trivial
  | .ch16, _ => .isTrue trivial
  | .ch32, x => inferInstanceAs (Decidable (Fl.InRange x))
  | .ch64, x => inferInstanceAs (Decidable (Fl.InRange x))

/-- The order on the samples of a format. -/
def ChTy.Le : (c : ChTy) → c.T → c.T → Prop
  | .ch8, a, b => BitVec.toInt a ≤ BitVec.toInt b
  | .ch16, a, b => BitVec.toInt a ≤ BitVec.toInt b
  | .ch32, a, b => Fl.le a b = true
  | .ch64, a, b => Fl.le a b = true

instance : (c : ChTy) → (a b : c.T) → Decidable (c.Le a b)
  | .ch8, a, b => inferInstanceAs (Decidable (BitVec.toInt a ≤ BitVec.toInt b))
  | .ch16, a, b => inferInstanceAs (Decidable (BitVec.toInt a ≤ BitVec.toInt b))
  | .ch32, a, b => inferInstanceAs (Decidable (Fl.le a b = true))
  | .ch64, a, b => inferInstanceAs (Decidable (Fl.le a b = true))

/-- `<=` of the derived `PartialOrd`. -/
def ChTy.le (c : ChTy) (a b : c.T) : Bool := c.lt a b || c.beq a b

/-- The number a sample stands for inside its format: the stored integer or the stored float. -/
def Stored : (c : ChTy) → c.T → ℚ → Prop
  | .ch8, x, q => q = x.toInt
  | .ch16, x, q => q = x.toInt
  | .ch32, x, q => x.Is q
  | .ch64, x, q => x.Is q

instance : (c : ChTy) → (x : c.T) → (q : ℚ) → Decidable (Stored c x q)
  | .ch8, x, q => inferInstanceAs (Decidable (q = BitVec.toInt x))
  | .ch16, x, q => inferInstanceAs (Decidable (q = BitVec.toInt x))
  | .ch32, x, q => inferInstanceAs (Decidable (Fl.Is x q))
  | .ch64, x, q => inferInstanceAs (Decidable (Fl.Is x q))

/-- Stored number of the loudest negative sample. -/
def lo : ChTy → ℚ
  | .ch8 => -128
  | .ch16 => -32768
  | _ => -1

/-- Stored number of the loudest positive sample. -/
def hi : ChTy → ℚ
  | .ch8 => 127
  | .ch16 => 32767
  | _ => 1

/-- A sample in range that is not negative (`neg = false`) or not positive (`neg = true`). -/
def Signed (neg : Bool) (c : ChTy) (x : c.T) : Prop :=
  Valid c x ∧ (if neg then c.le x c.dflt else c.le c.dflt x) = true

instance (neg : Bool) (c : ChTy) (x : c.T) : Decidable (Signed neg c x) := inferInstanceAs (Decidable (_ ∧ _))

/-- Half the gap above 1. -/
def Fmt.u (f : Fmt) : ℚ := 2 ^ (-(f.prec : ℤ))

/-- The documented quotient of Ch8 and Ch16 division: `s` is the channel width. -/
def quot (s : Nat) (lo hi a b : ℤ) : ℤ := if b = 0 then hi else clampZ lo hi ((a * 2 ^ s).tdiv b)

/-- Programs over channels: constructors, operators and conversions of the public API. -/
inductive CExpr : ChTy → Type where
  /-- `Ch8::new` / `From<i8>` -/
  | new8 (v : BitVec 8) : CExpr .ch8
  /-- `Ch16::new` / `From<i16>` -/
  | new16 (v : BitVec 16) : CExpr .ch16
  /-- `Ch32::new` / `From<f32>` -/
  | new32 (v : F32) : CExpr .ch32
  /-- `Ch64::new` -/
  | new64 (v : F64) : CExpr .ch64
  /-- `Channel::MIN` -/
  | MIN {c : ChTy} : CExpr c
  /-- `Channel::MID` -/
  | MID {c : ChTy} : CExpr c
  /-- `Channel::MAX` -/
  | MAX {c : ChTy} : CExpr c
  /-- `Default` -/
  | dflt {c : ChTy} : CExpr c
  | add {c : ChTy} (a b : CExpr c) : CExpr c
  | sub {c : ChTy} (a b : CExpr c) : CExpr c
  | mul {c : ChTy} (a b : CExpr c) : CExpr c
  | div {c : ChTy} (a b : CExpr c) : CExpr c
  | neg {c : ChTy} (a : CExpr c) : CExpr c
  | lerp {c : ChTy} (a rhs t : CExpr c) : CExpr c
  /-- `D::from(s)` -/
  | conv {s : ChTy} (d : ChTy) (a : CExpr s) : CExpr d
  /-- `D::from_f64(s.to_f64())` -/
  | via {s : ChTy} (d : ChTy) (a : CExpr s) : CExpr d

/-- Running a program; a division may panic. -/
def CExpr.eval {c : ChTy} : CExpr c → R c.T
  | .new8 v => .ok (Ch8.new v)
  | .new16 v => .ok (Ch16.new v)
  | .new32 v => .ok (ChF.new v)
  | .new64 v => .ok (ChF.new v)
  | .MIN => .ok c.MIN
  | .MID => .ok c.MID
  | .MAX => .ok c.MAX
  | .dflt => .ok c.dflt
  | .add a b => do return c.add (← a.eval) (← b.eval)
  | .sub a b => do return c.sub (← a.eval) (← b.eval)
  | .mul a b => do return c.mul (← a.eval) (← b.eval)
  | .div a b => do c.div (← a.eval) (← b.eval)
  | .neg a => do return c.neg (← a.eval)
  | .lerp a b t => do return c.lerp (← a.eval) (← b.eval) (← t.eval)
  | @CExpr.conv s d a => do return ChTy.conv d s (← a.eval)
  | @CExpr.via s d a => do return d.ofF64 (s.toF64 (← a.eval))

/-- Channel formats in order of resolution. -/
def ChTy.rank : ChTy → Nat
  | .ch8 => 0 | .ch16 => 1 | .ch32 => 2 | .ch64 => 3

/-- The pairs (target, source) for which both ways of converting agree. -/
def agree : ChTy → ChTy → Bool
  | .ch8, .ch16 => false
  | .ch8, .ch32 => false
  | .ch16, .ch32 => false
  | .ch32, .ch8 => false
  | .ch32, .ch16 => false
  | _, _ => true

/-- Mixing the samples of a list one after the other onto silence. -/
def mixAll (c : ChTy) (l : List c.T) : c.T := l.foldl c.add c.MID

/-- Rounding of one addition. -/
def addTol : ChTy → ℚ
  | .ch32 => binary32.u
  | .ch64 => binary64.u
  | _ => 0

/-- At most one step apart: neighbouring integers, or five roundings of the float format. -/
def StepNear : (c : ChTy) → c.T → c.T → Prop
  | .ch8, a, b => |a.toInt - b.toInt| ≤ 1
  | .ch16, a, b => |a.toInt - b.toInt| ≤ 1
  | .ch32, a, b => ∃ p q, a.Is p ∧ b.Is q ∧ |p - q| ≤ 5 * binary32.u
  | .ch64, a, b => a = b

/-- What a sample arrives as when it is upsampled by the factor `N`: integer samples are unchanged, float samples are
multiplied by `N` and clamped. -/
def Boosted (N : Nat) : (c : ChTy) → c.T → c.T → Prop
  | .ch8, x, y => y = x
  | .ch16, x, y => y = x
  | .ch32, x, y => ∀ p, x.Is p → |p| ≤ 1 → y.Is (clampQ (binary32.rnd (p * N)))
  | .ch64, x, y => ∀ p, x.Is p → |p| ≤ 1 → y.Is (clampQ (binary64.rnd (p * N)))

end Fon
