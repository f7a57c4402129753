import Verif.Model.Math
import Verif.Proofs.Int

/-!
# Model of `/repo/src/chan.rs`

`Ch8`/`Ch16` are `repr(transparent)` wrappers of `i8`/`i16` (chan.rs:71-79), `Ch32`/`Ch64` of
`f32`/`f64` (chan.rs:81-89); the model identifies the wrapper with the wrapped value.  The operator
impls are generic in `R: Into<Self>`; the model takes the already converted operand.
-/

namespace Fon

/-- chan.rs:71-74 -/
abbrev Ch8 := BitVec 8
/-- chan.rs:76-79 -/
abbrev Ch16 := BitVec 16
/-- chan.rs:81-84 -/
abbrev Ch32 := F32
/-- chan.rs:86-89 -/
abbrev Ch64 := F64

/-- The value of a computation that is known not to panic. -/
def R.get {α : Type} : (x : R α) → (∃ a, x = .ok a) → α
  | .ok a, _ => a
  | .error e, h => absurd h (by rintro ⟨a, h⟩; cases h)

theorem R.get_eq {α : Type} {x : R α} {h : ∃ a, x = .ok a} {a : α} (ha : x = .ok a) :
    R.get x h = a := by subst ha; rfl

theorem R.ok_get {α : Type} (x : R α) (h : ∃ a, x = .ok a) : x = .ok (R.get x h) := by
  obtain ⟨a, rfl⟩ := h; rfl

/-- `value.min(1.0).max(-1.0)` (chan.rs:115,123,158,202,212,243,254,300,310). -/
def clamp1 {f : Fmt} (x : Fl f) : Fl f := (x.min (Fl.lit 1)).max (Fl.lit (-1))

namespace Ch8
/-- `Ch8::new`, `From<i8>`, `From<Ch8> for i8` (chan.rs:95-101, 127-139). -/
def new (v : BitVec 8) : Ch8 := v
/-- `Add` (chan.rs:216-224), `AddAssign` (361-366). -/
def add (a b : Ch8) : Ch8 := sat 8 (a.toInt + b.toInt)
/-- `Sub` (chan.rs:176-184), `SubAssign` (393-398). -/
def sub (a b : Ch8) : Ch8 := sat 8 (a.toInt - b.toInt)
/-- `Mul` (chan.rs:314-325), with checked `i16` arithmetic. -/
def mulR (a b : Ch8) : R Ch8 := do
  let l := a.signExtend 16
  let r := b.signExtend 16
  let p ← chk 16 (l.toInt * r.toInt)
  let v ← divI p (127#16)
  return (smin v (127#16)).setWidth 8
/-- `Div` (chan.rs:258-274), `DivAssign` (457-462). -/
def div (a b : Ch8) : R Ch8 :=
  if b ≠ 0#8 then do
    let ss := (a.signExtend 32) <<< 8
    let rr := b.signExtend 32
    let q ← divI ss rr
    return (smax (smin q (127#32)) (-128#32)).setWidth 8
  else .ok 127#8
/-- `Neg` (chan.rs:654-663), with checked `u8` subtraction. -/
def negR (a : Ch8) : R Ch8 := chkU 8 (255 - (a.toNat : ℤ))
/-- `From<Ch16> for Ch8` (chan.rs:604-610). -/
def ofCh16 (c : Ch16) : Ch8 := (c.sshiftRight 8).setWidth 8
/-- `From<Ch32> for Ch8` (chan.rs:580-586). -/
def ofCh32 (v : Ch32) : Ch8 := Math.floorI 8 (v.mul (Fl.lit 127.5))
/-- `From<Ch64> for Ch8` (chan.rs:556-562). -/
def ofCh64 (v : Ch64) : Ch8 := Math.floorI 8 (v.mul (Fl.lit 127.5))
/-- `Channel::MIN` (chan.rs:490). -/
def MIN : Ch8 := -128#8
/-- `Channel::MID` (chan.rs:491). -/
def MID : Ch8 := 0#8
/-- `Channel::MAX` (chan.rs:492). -/
def MAX : Ch8 := 127#8
end Ch8

namespace Ch16
/-- `Ch16::new`, `From<i16>`, `From<Ch16> for i16` (chan.rs:103-109, 141-153). -/
def new (v : BitVec 16) : Ch16 := v
/-- `Add` (chan.rs:226-234), `AddAssign` (369-374). -/
def add (a b : Ch16) : Ch16 := sat 16 (a.toInt + b.toInt)
/-- `Sub` (chan.rs:186-194), `SubAssign` (401-406). -/
def sub (a b : Ch16) : Ch16 := sat 16 (a.toInt - b.toInt)
/-- `Mul` (chan.rs:327-338), with checked `i32` arithmetic. -/
def mulR (a b : Ch16) : R Ch16 := do
  let l := a.signExtend 32
  let r := b.signExtend 32
  let p ← chk 32 (l.toInt * r.toInt)
  let v ← divI p (32767#32)
  return (smin v (32767#32)).setWidth 16
/-- `Div` (chan.rs:276-292), `DivAssign` (465-470). -/
def div (a b : Ch16) : R Ch16 :=
  if b ≠ 0#16 then do
    let ss := (a.signExtend 32) <<< 16
    let rr := b.signExtend 32
    let q ← divI ss rr
    return (smax (smin q (32767#32)) (-32768#32)).setWidth 16
  else .ok 32767#16
/-- `Neg` (chan.rs:665-674), with checked `u16` subtraction. -/
def negR (a : Ch16) : R Ch16 := chkU 16 (65535 - (a.toNat : ℤ))
/-- `From<Ch8> for Ch16` (chan.rs:628-636).  Both bytes are equal, so endianness is irrelevant. -/
def ofCh8 (c : Ch8) : Ch16 :=
  let c := c - (-128#8)
  (c ++ c : BitVec 16) + 32768#16
/-- `From<Ch32> for Ch16` (chan.rs:588-594). -/
def ofCh32 (v : Ch32) : Ch16 := Math.floorI 16 (v.mul (Fl.lit 32767.5))
/-- `From<Ch64> for Ch16` (chan.rs:564-570). -/
def ofCh64 (v : Ch64) : Ch16 := Math.floorI 16 (v.mul (Fl.lit 32767.5))
/-- `Channel::MIN` (chan.rs:507). -/
def MIN : Ch16 := -32768#16
/-- `Channel::MID` (chan.rs:508). -/
def MID : Ch16 := 0#16
/-- `Channel::MAX` (chan.rs:509). -/
def MAX : Ch16 := 32767#16
end Ch16

/-! The float channels have one impl per width with the same text; the model is generic in the
format where the text is. -/
namespace ChF
variable {f : Fmt}
/-- `Ch32::new` (chan.rs:111-117), `Ch64::new` (119-125), `From<f32> for Ch32` (155-160). -/
def new (v : Fl f) : Fl f := clamp1 v
/-- `Add` (chan.rs:236-256), `AddAssign` (377-390). -/
def add (a b : Fl f) : Fl f := clamp1 (Fl.add a b)
/-- `Sub` (chan.rs:196-214), `SubAssign` (409-422). -/
def sub (a b : Fl f) : Fl f := clamp1 (Fl.sub a b)
/-- `Div` (chan.rs:294-312), `DivAssign` (473-486). -/
def div (a b : Fl f) : Fl f := clamp1 (Fl.div a b)
/-- `Mul` (chan.rs:340-358), `MulAssign` (441-454): not clamped. -/
def mul (a b : Fl f) : Fl f := Fl.mul a b
/-- `Neg` (chan.rs:676-696). -/
def neg (a : Fl f) : Fl f := Fl.neg a
/-- `From<Ch8> for Ch32` (chan.rs:638-644), `From<Ch8> for Ch64` (646-652). -/
def ofCh8 (c : Ch8) : Fl f :=
  (Fl.div (Fl.ofInt c.toInt) (Fl.lit 127.5)).add (Fl.div (Fl.lit 1) (Fl.lit 255))
/-- `From<Ch16> for Ch32` (chan.rs:612-618), `From<Ch16> for Ch64` (620-626). -/
def ofCh16 (c : Ch16) : Fl f :=
  (Fl.div (Fl.ofInt c.toInt) (Fl.lit 32767.5)).add (Fl.div (Fl.lit 1) (Fl.lit 65535))
/-- `Channel::MIN` (chan.rs:524, 541). -/
def MIN : Fl f := Fl.lit (-1)
/-- `Channel::MID` (chan.rs:525, 542). -/
def MID : Fl f := Fl.lit 0
/-- `Channel::MAX` (chan.rs:526, 543). -/
def MAX : Fl f := Fl.lit 1
end ChF

/-- `From<Ch64> for Ch32` (chan.rs:572-578). -/
def Ch32.ofCh64 (v : Ch64) : Ch32 := ChF.new (v.cast binary32)
/-- `From<Ch32> for Ch64` (chan.rs:596-602). -/
def Ch64.ofCh32 (v : Ch32) : Ch64 := ChF.new (v.cast binary64)

/-! ## Panic freedom of multiplication and negation on integers -/

theorem Ch8.mulR_val (a b : Ch8) :
    ∃ c, Ch8.mulR a b = .ok c ∧ c.toInt = min 127 ((a.toInt * b.toInt).tdiv 127) := by
  have ha := i8_range a
  have hb := i8_range b
  have hp : -16256 ≤ a.toInt * b.toInt ∧ a.toInt * b.toInt ≤ 16384 := by
    constructor <;> nlinarith
  have hd := tdiv_bounds (x := a.toInt * b.toInt) (d := 127) (lo := -128) (hi := 130)
    (by norm_num) (by omega) (by omega)
  have h16 : (127#16).toInt = 127 := by decide
  have e1 : chk 16 (a.toInt * b.toInt) = .ok (BitVec.ofInt 16 (a.toInt * b.toInt)) :=
    chk_ok (by simp [iMin, iMax]; omega)
  have e2 : (BitVec.ofInt 16 (a.toInt * b.toInt)).toInt = a.toInt * b.toInt :=
    toInt_ofInt_range (by norm_num) (by simp [iMin, iMax]; omega)
  have e3 : divI (BitVec.ofInt 16 (a.toInt * b.toInt)) 127#16 =
      .ok (BitVec.ofInt 16 ((a.toInt * b.toInt).tdiv 127)) := by
    rw [divI_ok] <;> rw [h16]
    · rw [e2]
    · norm_num
    · rw [e2]; simp [iMin, iMax]; omega
  have e4 : (BitVec.ofInt 16 ((a.toInt * b.toInt).tdiv 127)).toInt = (a.toInt * b.toInt).tdiv 127 :=
    toInt_ofInt_range (by norm_num) (by simp [iMin, iMax]; omega)
  refine ⟨(smin (BitVec.ofInt 16 ((a.toInt * b.toInt).tdiv 127)) (127#16)).setWidth 8, ?_, ?_⟩
  · simp only [Ch8.mulR, toInt_signExtend a (show 8 ≤ 16 by norm_num),
      toInt_signExtend b (show 8 ≤ 16 by norm_num), e1, e3, bind, Except.bind, pure, Except.pure]
  · rw [toInt_setWidth_range (by norm_num) _ (by norm_num)] <;> rw [toInt_smin, e4, h16]
    · omega
    · simp [iMin, iMax]; omega

theorem Ch16.mulR_val (a b : Ch16) :
    ∃ c, Ch16.mulR a b = .ok c ∧ c.toInt = min 32767 ((a.toInt * b.toInt).tdiv 32767) := by
  have ha := i16_range a
  have hb := i16_range b
  have hp : -32768 * 32767 ≤ a.toInt * b.toInt ∧ a.toInt * b.toInt ≤ 32768 * 32768 := by
    constructor <;> nlinarith
  have hd := tdiv_bounds (x := a.toInt * b.toInt) (d := 32767) (lo := -32768) (hi := 32770)
    (by norm_num) (by omega) (by omega)
  have h16 : (32767#32).toInt = 32767 := by decide
  have e1 : chk 32 (a.toInt * b.toInt) = .ok (BitVec.ofInt 32 (a.toInt * b.toInt)) :=
    chk_ok (by simp [iMin, iMax]; omega)
  have e2 : (BitVec.ofInt 32 (a.toInt * b.toInt)).toInt = a.toInt * b.toInt :=
    toInt_ofInt_range (by norm_num) (by simp [iMin, iMax]; omega)
  have e3 : divI (BitVec.ofInt 32 (a.toInt * b.toInt)) 32767#32 =
      .ok (BitVec.ofInt 32 ((a.toInt * b.toInt).tdiv 32767)) := by
    rw [divI_ok] <;> rw [h16]
    · rw [e2]
    · norm_num
    · rw [e2]; simp [iMin, iMax]; omega
  have e4 : (BitVec.ofInt 32 ((a.toInt * b.toInt).tdiv 32767)).toInt =
      (a.toInt * b.toInt).tdiv 32767 :=
    toInt_ofInt_range (by norm_num) (by simp [iMin, iMax]; omega)
  refine ⟨(smin (BitVec.ofInt 32 ((a.toInt * b.toInt).tdiv 32767)) (32767#32)).setWidth 16, ?_, ?_⟩
  · simp only [Ch16.mulR, toInt_signExtend a (show 16 ≤ 32 by norm_num),
      toInt_signExtend b (show 16 ≤ 32 by norm_num), e1, e3, bind, Except.bind, pure, Except.pure]
  · rw [toInt_setWidth_range (by norm_num) _ (by norm_num)] <;> rw [toInt_smin, e4, h16]
    · omega
    · simp [iMin, iMax]; omega

theorem Ch8.mulR_ok (a b : Ch8) : ∃ c, Ch8.mulR a b = .ok c :=
  let ⟨c, h, _⟩ := Ch8.mulR_val a b; ⟨c, h⟩

theorem Ch16.mulR_ok (a b : Ch16) : ∃ c, Ch16.mulR a b = .ok c :=
  let ⟨c, h, _⟩ := Ch16.mulR_val a b; ⟨c, h⟩

theorem Ch8.negR_ok (a : Ch8) : ∃ c, Ch8.negR a = .ok c := by
  have := a.isLt
  unfold Ch8.negR chkU; rw [if_pos (by omega)]; exact ⟨_, rfl⟩

theorem Ch16.negR_ok (a : Ch16) : ∃ c, Ch16.negR a = .ok c := by
  have := a.isLt
  unfold Ch16.negR chkU; rw [if_pos (by omega)]; exact ⟨_, rfl⟩

/-- `Mul for Ch8`, which never panics. -/
def Ch8.mul (a b : Ch8) : Ch8 := R.get (Ch8.mulR a b) (Ch8.mulR_ok a b)
/-- `Mul for Ch16`, which never panics. -/
def Ch16.mul (a b : Ch16) : Ch16 := R.get (Ch16.mulR a b) (Ch16.mulR_ok a b)
/-- `Neg for Ch8`, which never panics. -/
def Ch8.neg (a : Ch8) : Ch8 := R.get (Ch8.negR a) (Ch8.negR_ok a)
/-- `Neg for Ch16`, which never panics. -/
def Ch16.neg (a : Ch16) : Ch16 := R.get (Ch16.negR a) (Ch16.negR_ok a)

/-! ## The `Channel` trait

`Channel` is sealed (private.rs, chan.rs:23-47): the four types are all its implementers. -/

/-- The channel formats. -/
inductive ChTy where
  | ch8 | ch16 | ch32 | ch64
deriving DecidableEq, Repr

namespace ChTy

/-- The Rust type of a channel format. -/
@[reducible] def T : ChTy → Type
  | ch8 => Ch8
  | ch16 => Ch16
  | ch32 => Ch32
  | ch64 => Ch64

instance (c : ChTy) : DecidableEq c.T := by cases c <;> exact inferInstance

/-- `+` -/
def add : (c : ChTy) → c.T → c.T → c.T
  | ch8 => Ch8.add | ch16 => Ch16.add | ch32 => ChF.add | ch64 => ChF.add
/-- `-` -/
def sub : (c : ChTy) → c.T → c.T → c.T
  | ch8 => Ch8.sub | ch16 => Ch16.sub | ch32 => ChF.sub | ch64 => ChF.sub
/-- `*` -/
def mul : (c : ChTy) → c.T → c.T → c.T
  | ch8 => Ch8.mul | ch16 => Ch16.mul | ch32 => ChF.mul | ch64 => ChF.mul
/-- `/` -/
def div : (c : ChTy) → c.T → c.T → R c.T
  | ch8 => Ch8.div | ch16 => Ch16.div
  | ch32 => fun a b => .ok (ChF.div a b) | ch64 => fun a b => .ok (ChF.div a b)
/-- unary `-` -/
def neg : (c : ChTy) → c.T → c.T
  | ch8 => Ch8.neg | ch16 => Ch16.neg | ch32 => ChF.neg | ch64 => ChF.neg

/-- `Channel::MIN` -/
def MIN : (c : ChTy) → c.T
  | ch8 => Ch8.MIN | ch16 => Ch16.MIN | ch32 => ChF.MIN | ch64 => ChF.MIN
/-- `Channel::MID` -/
def MID : (c : ChTy) → c.T
  | ch8 => Ch8.MID | ch16 => Ch16.MID | ch32 => ChF.MID | ch64 => ChF.MID
/-- `Channel::MAX` -/
def MAX : (c : ChTy) → c.T
  | ch8 => Ch8.MAX | ch16 => Ch16.MAX | ch32 => ChF.MAX | ch64 => ChF.MAX
/-- `Default::default` (derived, chan.rs:72,77,82,87). -/
def dflt : (c : ChTy) → c.T
  | ch8 => 0#8 | ch16 => 0#16 | ch32 => Fl.lit 0 | ch64 => Fl.lit 0

/-- `From` between channel formats (chan.rs:556-652; the diagonal is the reflexive `From`).
First argument: target, second: source. -/
def conv : (d s : ChTy) → s.T → d.T
  | ch8, ch8 => id
  | ch8, ch16 => Ch8.ofCh16
  | ch8, ch32 => Ch8.ofCh32
  | ch8, ch64 => Ch8.ofCh64
  | ch16, ch8 => Ch16.ofCh8
  | ch16, ch16 => id
  | ch16, ch32 => Ch16.ofCh32
  | ch16, ch64 => Ch16.ofCh64
  | ch32, ch8 => ChF.ofCh8
  | ch32, ch16 => ChF.ofCh16
  | ch32, ch32 => id
  | ch32, ch64 => Ch32.ofCh64
  | ch64, ch8 => ChF.ofCh8
  | ch64, ch16 => ChF.ofCh16
  | ch64, ch32 => Ch64.ofCh32
  | ch64, ch64 => id

/-- `Channel::to_f64` (chan.rs:494-497, 511-514, 528-531, 545-548). -/
def toF64 : (c : ChTy) → c.T → F64
  | ch8 => fun x => conv ch64 ch8 x
  | ch16 => fun x => conv ch64 ch16 x
  | ch32 => fun x => Fl.cast binary64 x
  | ch64 => fun x => x

/-- `Channel::from_f64` (chan.rs:499-502, 516-519, 533-536, 550-553). -/
def ofF64 : (c : ChTy) → F64 → c.T
  | ch8 => fun x => conv ch8 ch64 (ChF.new x)
  | ch16 => fun x => conv ch16 ch64 (ChF.new x)
  | ch32 => fun x => Fl.cast binary32 x
  | ch64 => fun x => x

/-- `Channel::lerp` (chan.rs:64-68): `self + t * (rhs - self)`. -/
def lerp (c : ChTy) (a rhs t : c.T) : c.T := c.add a (c.mul t (c.sub rhs a))

/-- `PartialEq` (derived, chan.rs:72,77,82,87). -/
def beq : (c : ChTy) → c.T → c.T → Bool
  | ch8 => fun a b => a == b
  | ch16 => fun a b => a == b
  | ch32 => Fl.eq
  | ch64 => Fl.eq

/-- `<` of `PartialOrd` (derived, chan.rs:72,77,82,87). -/
def lt : (c : ChTy) → c.T → c.T → Bool
  | ch8 => fun a b => decide (a.toInt < b.toInt)
  | ch16 => fun a b => decide (a.toInt < b.toInt)
  | ch32 => Fl.lt
  | ch64 => Fl.lt

end ChTy
end Fon
