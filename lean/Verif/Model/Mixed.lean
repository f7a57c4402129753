import Verif.Model.Chan

/-!
# The operators of `/repo/src/chan.rs` with an operand of another type

The operators take any right operand `R: Into<Self>`: another channel format, or the raw number a format wraps.  The
operand is converted first.  The assigning operators (chan.rs:360-486) are `*self = *self op rhs.into()`, so they store
the same value.
-/

namespace Fon
namespace ChTy

/-- `Add<R>` (chan.rs:216-256) where `R` is channel format `s`. -/
def addInto (c s : ChTy) (a : c.T) (b : s.T) : c.T := c.add a (conv c s b)
/-- `Sub<R>` (chan.rs:176-214). -/
def subInto (c s : ChTy) (a : c.T) (b : s.T) : c.T := c.sub a (conv c s b)
/-- `Mul<R>` (chan.rs:314-358). -/
def mulInto (c s : ChTy) (a : c.T) (b : s.T) : c.T := c.mul a (conv c s b)
/-- `Div<R>` (chan.rs:258-312). -/
def divInto (c s : ChTy) (a : c.T) (b : s.T) : R c.T := c.div a (conv c s b)

end ChTy

/-! Raw operands.  `From<i8> for Ch8` and `From<i16> for Ch16` wrap; `From<f32> for Ch32` clamps (chan.rs:155-160);
there is no `From<f64> for Ch64`. -/
namespace Ch32

/-- `From<f32> for Ch32` (chan.rs:155-160). -/
def ofRaw (x : F32) : Ch32 := clamp1 x
/-- `Ch32 + f32` (chan.rs:236-245). -/
def addRaw (a : Ch32) (x : F32) : Ch32 := ChF.add a (ofRaw x)
/-- `Ch32 - f32` (chan.rs:196-204). -/
def subRaw (a : Ch32) (x : F32) : Ch32 := ChF.sub a (ofRaw x)
/-- `Ch32 * f32` (chan.rs:340-348). -/
def mulRaw (a : Ch32) (x : F32) : Ch32 := ChF.mul a (ofRaw x)
/-- `Ch32 / f32` (chan.rs:294-302). -/
def divRaw (a : Ch32) (x : F32) : Ch32 := ChF.div a (ofRaw x)

end Ch32
end Fon
