import Verif.Model.New

/-!
# The code as built without overflow checks

In a debug build `+`, `-` and `*` on integers panic on overflow; in a release build they wrap.  These are the places of the
crate with such an operation, in the release version.  Division checks in both builds, and so do slice ranges
(`Rng.resolve`).  `AudioDrain::cursor` (audio.rs:463) counts the frames of a buffer in memory, so it has no check in
the model.
-/

namespace Fon
variable {k k' : Kind} {c c' : ChTy}

/-- `Mul for Ch8` (chan.rs:314-325). -/
def Ch8.mulRel (a b : Ch8) : R Ch8 := do
  let l := a.signExtend 16
  let r := b.signExtend 16
  let v ← divI (l * r) (127#16)
  return (smin v (127#16)).setWidth 8

/-- `Mul for Ch16` (chan.rs:327-338). -/
def Ch16.mulRel (a b : Ch16) : R Ch16 := do
  let l := a.signExtend 32
  let r := b.signExtend 32
  let v ← divI (l * r) (32767#32)
  return (smin v (32767#32)).setWidth 16

/-- `Neg for Ch8` (chan.rs:654-663). -/
def Ch8.negRel (a : Ch8) : Ch8 := 255#8 - a
/-- `Neg for Ch16` (chan.rs:665-674). -/
def Ch16.negRel (a : Ch16) : Ch16 := 65535#16 - a

/-- `usize` arithmetic. -/
def wrapU (z : ℤ) : Nat := (z % (usizeMax + 1)).toNat

/-- `ceil_usize` (math.rs:71-80). -/
def Math.ceilUsizeRel (input : F64) : Nat :=
  let fract := input.rem (Fl.lit 1)
  let whole := input.toUsize
  if Fl.lt Fl.epsilon fract then wrapU (whole + 1) else whole

namespace Blend

/-- The remainder of `usize` numbers. -/
def remU (a b : Nat) : R Nat := if b = 0 then .error .divByZero else .ok (a % b)

/-- One iteration of `Pan::mix_frames` (ops.rs:111-134). -/
def panStepRel (t : Trig) (out : Frame k c) (d s : c.T) : R (Frame k c) := do
  let s := c.toF64 s
  let start := (k.config.findIdx? (fun loc => Fl.le loc s)).getD (wrapU (k.config.length - 1))
  let stop ← remU (wrapU (start + 1)) k.config.length
  let ce ← idx k.config stop
  let cs ← idx k.config start
  let dist := ce.sub cs
  let dist := if dist.lt (Fl.lit 0) then (Fl.lit 2).sub dist else dist
  let closeness := (s.sub (ce.min cs)).div dist
  let angle := closeness.mul fracPi2
  let out ← modChan out start (fun o => c.add o (c.mul d (c.ofF64 (t.cos angle))))
  modChan out stop (fun o => c.add o (c.mul d (c.ofF64 (t.sin angle))))

/-- `Blend::mix_frames` (ops.rs:21-31, 108-136). -/
def mixFramesRel (op : Blend) (dst src : Frame k c) : R (Frame k c) :=
  match op with
  | .pan t => (List.zip dst.toList src.toList).foldlM (fun out p => panStepRel t out p.1 p.2) Frame.dflt
  | op => op.mixFrames dst src

end Blend

namespace Audio

/-- `extend_internal` (audio.rs:285-317).  `resize_with` to a smaller length drops frames at the end. -/
def extendInternalRel (a : Audio k c) (st : Src k' c') : R (Audio k c × It k' c') :=
  match st.len with
  | none => .error .unwrapNone
  | some srclen =>
    let dstlen := dstLen a.rate srclen st.rate
    let orig := a.frames.length
    let len := wrapU (orig + dstlen)
    if orig ≤ len ∧ isizeMax < len * k.size c then .error .capacity
    else
      let audio := withFrames a.rate (a.frames.take len ++ List.replicate (len - orig) Frame.dflt)
      match audio.sink (.from_ orig) with
      | .error e => .error e
      | .ok s => match s.stream (srclen + 1) st with
        | .error e => .error e
        | .ok (s, it) => match s.flush with
          | .error e => .error e
          | .ok s => .ok (s.release, it)

/-- `extend` (audio.rs:268-283). -/
def extendRel (a : Audio k c) (st : Src k' c') : Audio k c × R (It k' c') :=
  match a.extendInternalRel st with
  | .ok (a, it) => (a, .ok it)
  | .error e => (withFrames (Fl.lit 0) [], .error e)

end Audio

/-- `AudioStream::next` (audio.rs:424-438). -/
def AudioStream.nextRel (s : AudioStream k c) : R (Option (Frame k c) × AudioStream k c) :=
  if !s.range.contains s.cursor then .ok (none, s)
  else match s.audio.get s.cursor with
    | none => .ok (none, s)
    | some f => .ok (some f, { s with cursor := wrapU (s.cursor + 1) })

end Fon
