import Verif.Model.Audio
import Verif.Spec.Stream
import Verif.Spec.Float

/-!
# Specification vocabulary for sinks
-/

namespace Fon
variable {k k' : Kind} {c c' : ChTy}

/-- Destination frames per source frame. -/
def ratioOf (dst : F64) (src : Option F64) : F64 :=
  match src with
  | some r => dst.div r
  | none => Fl.lit 1

/-- Slots that `Sink::stream` may write to: below the buffer length and below
`ratio * len` rounded down. -/
def InDst (q : F64) (len : Option Nat) (bufLen i : Nat) : Prop :=
  i < bufLen ∧ ∀ l, len = some l → i < (q.mul (f64OfUsize l)).toUsize

instance (q : F64) (len : Option Nat) (bufLen i : Nat) : Decidable (InDst q len bufLen i) :=
  match len with
  | none => if h : i < bufLen then .isTrue ⟨h, nofun⟩ else .isFalse fun h' => h h'.1
  | some l =>
    if h : i < bufLen ∧ i < (q.mul (f64OfUsize l)).toUsize then .isTrue ⟨h.1, by rintro _ ⟨⟩; exact h.2⟩
    else .isFalse fun h' => h ⟨h'.1, h'.2 l rfl⟩

/-- Destination position of source frame `i`. -/
def posOf (q off : F64) (i : Nat) : F64 := (q.mul (f64OfUsize i)).add off

/-- The stream can be given to a sink: it has a rate or accepts one. -/
def Src.playable (s : Src k c) : Prop := s.rate ≠ none ∨ s.configurable = true

instance (s : Src k c) : Decidable s.playable := inferInstanceAs (Decidable (_ ∨ _))

/-- All channels are finite and in [-1, 1]. -/
def Frame.InRange {k : Kind} {c : ChTy} (f : Frame k c) : Prop :=
  match c, f with
  | .ch8, _ => True
  | .ch16, _ => True
  | .ch32, f => ∀ x ∈ f, Fl.InRange x
  | .ch64, f => ∀ x ∈ f, Fl.InRange x

instance (f : Frame k c) : Decidable f.InRange :=
  match c, f with
  | .ch8, _ | .ch16, _ => .isTrue trivial
  | .ch32, f => inferInstanceAs (Decidable (∀ x ∈ f, Fl.InRange x))
  | .ch64, f => inferInstanceAs (Decidable (∀ x ∈ f, Fl.InRange x))

/-- What a sample arrives as when it is streamed with weight 1: integer samples are unchanged, float
samples are clamped, and a sample that is not a number or infinite becomes 1. -/
def Arrives : (c : ChTy) → c.T → c.T → Prop
  | .ch8, x, y => y = x
  | .ch16, x, y => y = x
  | .ch32, x, y => (∀ p, x.Is p → y.Is (clampQ p)) ∧ ((∀ p, ¬ x.Is p) → y.Is 1)
  | .ch64, x, y => (∀ p, x.Is p → y.Is (clampQ p)) ∧ ((∀ p, ¬ x.Is p) → y.Is 1)

/-- `y` is the same sample as `x` if that is an integer or in [-1, 1]. -/
def SameInRange : (c : ChTy) → c.T → c.T → Prop
  | .ch8, x, y => y = x
  | .ch16, x, y => y = x
  | .ch32, x, y => ∀ p, x.Is p → -1 ≤ p → p ≤ 1 → y.Is p
  | .ch64, x, y => ∀ p, x.Is p → -1 ≤ p → p ≤ 1 → y.Is p

/-- `Arrives` for all channels of a frame. -/
def FrameArrives {k : Kind} {c : ChTy} (x y : Frame k c) : Prop :=
  ∀ i (h : i < k.chans), Arrives c x[i] y[i]

/-- Calls of `stream` and `flush` on an `AudioSink`. -/
inductive AudioSink.Calls : AudioSink k c → AudioSink k c → Prop where
  | none (s) : Calls s s
  | stream {s t u : AudioSink k c} {k' : Kind} {c' : ChTy} (fuel : Nat) (st : Src k' c') (it) :
      Calls s t → t.stream fuel st = .ok (u, it) → Calls s u
  | flush {s t u : AudioSink k c} : Calls s t → t.flush = .ok u → Calls s u

/-! ### Mixing -/

open Classical in
/-- The later of the two slots a frame at position `x` is added to: the next slot if the fractional part of the
position is above the machine epsilon. -/
noncomputable def hiSlot (x : F64) : Nat :=
  if ∃ q, x.Is q ∧ 2 ^ (-52 : ℤ) < q - truncQ q then x.toUsize + 1 else x.toUsize

/-- Weight for the later slot: the fractional part of the position, but not more than the ratio. -/
def hiWeight (q off : F64) (i : Nat) : F64 := ((posOf q off i).rem (Fl.lit 1)).min q

/-- Weight for the earlier slot: the rest. -/
def loWeight (q off : F64) (i : Nat) : F64 := q.sub (hiWeight q off i)

/-- Contents of slot `s` after frames `g 0, …, g (n-1)` were mixed into it, in this order; it contained `b`. -/
noncomputable def mixed (q off : F64) (g : Nat → Frame k c) (s : Nat) : Nat → Frame k c → Frame k c
  | 0, b => b
  | n + 1, b =>
    let b := mixed q off g s n b
    let b := if (posOf q off n).toUsize = s then b.add ((g n).mul (Frame.ofF64 (loWeight q off n))) else b
    if hiSlot (posOf q off n) = s then b.add ((g n).mul (Frame.ofF64 (hiWeight q off n))) else b

/-- The same with any positions `pos` and weights `lo` and `hi`. -/
noncomputable def mixedBy (pos lo hi : Nat → F64) (g : Nat → Frame k c) (s : Nat) : Nat → Frame k c → Frame k c
  | 0, b => b
  | n + 1, b =>
    let b := mixedBy pos lo hi g s n b
    let b := if (pos n).toUsize = s then b.add ((g n).mul (Frame.ofF64 (lo n))) else b
    if hiSlot (pos n) = s then b.add ((g n).mul (Frame.ofF64 (hi n))) else b

open Classical in
/-- What is left over: the contributions to later slots outside of the destination range. -/
noncomputable def leftOver (q off : F64) (len : Option Nat) (bufLen : Nat) (g : Nat → Frame k c) :
    Nat → Frame k c → Frame k c
  | 0, p => p
  | n + 1, p =>
    let p := leftOver q off len bufLen g n p
    if InDst q len bufLen (hiSlot (posOf q off n)) then p
    else p.add ((g n).mul (Frame.ofF64 (hiWeight q off n)))

/-- Numeric value of a sample; the integer formats are scaled so that `MAX` is 1. -/
def SampleVal : (c : ChTy) → c.T → ℚ → Prop
  | .ch8, x, q => q = x.toInt / 127
  | .ch16, x, q => q = x.toInt / 32767
  | .ch32, x, q => x.Is q
  | .ch64, x, q => x.Is q

instance (c : ChTy) (x : c.T) (q : ℚ) : Decidable (SampleVal c x q) :=
  match c, x with
  | .ch8, x => inferInstanceAs (Decidable (q = x.toInt / 127))
  | .ch16, x => inferInstanceAs (Decidable (q = x.toInt / 32767))
  | .ch32, x => inferInstanceAs (Decidable (Fl.Is x q))
  | .ch64, x => inferInstanceAs (Decidable (Fl.Is x q))

/-- Bound for the error of adding a weighted sample. -/
def mixErr : ChTy → ℚ
  | .ch8 => 17 / (8 * 127)
  | .ch16 => 17 / (8 * 32767)
  | .ch32 => 4 * 2 ^ (-24 : ℤ)
  | .ch64 => 4 * 2 ^ (-53 : ℤ)

/-- Length of the common part of the intervals `[a, b]` and `[c, d]`. -/
def overlap (a b c d : ℚ) : ℚ := max 0 (min b d - max a c)

/-- The number of frames `stream` takes: it goes on as long as there are frames and their position is in
the destination range. -/
def Takes (q off : F64) (len : Option Nat) (bufLen n : Nat) : Prop :=
  (∀ j, j < n → InDst q len bufLen (posOf q off j).toUsize) ∧
  (∀ l, len = some l → n ≤ l) ∧
  (len = some n ∨ ¬ InDst q len bufLen (posOf q off n).toUsize)

instance (q off : F64) (len : Option Nat) (bufLen n : Nat) : Decidable (Takes q off len bufLen n) :=
  have : Decidable (∀ l, len = some l → n ≤ l) := match len with
    | none => .isTrue nofun
    | some l => if h : n ≤ l then .isTrue (by rintro _ ⟨⟩; exact h) else .isFalse fun h' => h (h' l rfl)
  inferInstanceAs (Decidable (_ ∧ _ ∧ _))

/-- Number of slots used at ratio 1. -/
def copyLen (len : Option Nat) (b : Nat) : Nat := match len with | some l => min l b | none => b

/-- The resampler index has a fractional part (of more than the machine epsilon). -/
def HasFract (x : F64) : Prop := ∃ q : ℚ, x.Is q ∧ 2 ^ (-52 : ℤ) < |q - truncQ q|

instance (x : F64) : Decidable (HasFract x) :=
  match x with
  | .nan => .isFalse fun ⟨_, ⟨_, _, h⟩, _⟩ => nomatch h
  | .inf _ => .isFalse fun ⟨_, ⟨_, _, h⟩, _⟩ => nomatch h
  | .fin p nz h =>
    if e : 2 ^ (-52 : ℤ) < |p - truncQ p| then .isTrue ⟨p, ⟨nz, h, rfl⟩, e⟩
    else .isFalse (by rintro ⟨_, ⟨_, _, e'⟩, h⟩; cases e'; exact e h)

/-- The least index above a lower bound. -/
def Bnd.lower : Bnd → Nat
  | inc a => a
  | exc a => a + 1
  | unb => 0

/-- The least index that an upper bound excludes. -/
def Bnd.upper (n : Nat) : Bnd → Nat
  | inc b => b + 1
  | exc b => b
  | unb => n

/-- Start and end of a range of indices of a slice of length `n`. -/
def Rng.bounds (r : Rng) (n : Nat) : Nat × Nat :=
  match r with
  | full => (0, n)
  | from_ a => (a, n)
  | upto b => (0, b)
  | range a b => (a, b)
  | toIncl b => (0, b + 1)
  | incl a b => (a, b + 1)
  | done b => (b + 1, b + 1)
  | pair s e => (s.lower, e.upper n)

/-- Frames that `extend` adds for `l` frames of a stream: `rate * l / rate'` as floats, rounded up, where a fraction
up to the machine epsilon does not count. -/
inductive Growth (rate : F64) (l : Nat) : Option F64 → Nat → Prop where
  | plain : Growth rate l none l
  | rated (sr : F64) (q : ℚ) (h : ((rate.mul (f64OfUsize l)).div sr).Is q) (h0 : 0 ≤ q) (h1 : q < 2 ^ 63) (n : Nat)
      (hn : (n : ℤ) = if 2 ^ (-52 : ℤ) < q - ⌊q⌋ then ⌊q⌋ + 1 else ⌊q⌋) : Growth rate l (some sr) n

/-- The part of `extend` that may panic because of memory. -/
def Audio.Fits (a : Audio k c) (d : Nat) : Prop :=
  (a.frames.length + d : ℤ) ≤ usizeMax ∧ (a.frames.length + d) * k.size c ≤ Audio.isizeMax

instance (a : Audio k c) (d : Nat) : Decidable (a.Fits d) := inferInstanceAs (Decidable (_ ∧ _))

/-- The buffer after a drain of which up to `m` frames were taken. -/
def Audio.drainN (a : Audio k c) (m : Nat) : Option (Audio k c × List (Frame k c)) :=
  match a.drain.iter.run m with
  | .ok (fs, it) => match it.dropped with
    | [⟨k', c', b⟩] => if h : k' = k ∧ c' = c then some (h.1 ▸ h.2 ▸ b, fs) else none
    | _ => none
  | .error _ => none

/-- Any number of drains, one after the other: the buffer afterwards and what was yielded. -/
def Audio.drains (a : Audio k c) : List Nat → Option (Audio k c × List (Frame k c))
  | [] => some (a, [])
  | m :: ms => match a.drainN m with
    | none => none
    | some (b, fs) => match b.drains ms with
      | none => none
      | some (b, gs) => some (b, fs ++ gs)

/-- Draining `a` into fresh sinks of the same rate, one after another; `bs` are the buffers filled, `a'` is what remains. -/
inductive Plays : Audio k' c' → List (List (Frame k c)) → Audio k' c' → Prop where
  | done (a) : Plays a [] a
  | piece {a a' a'' : Audio k' c'} {bs : List (List (Frame k c))} (fuel : Nat) (s s' : Sink k c) (it : It k' c')
      (ρ : ℚ) (hs : s.rate.Is ρ) (ha : a.rate.Is ρ) (hρ : ρ ≠ 0) (hr : s.res = Resampler.dflt)
      (hb : s.buf.length ≤ 2 ^ 53)
      (h : s.stream fuel (.drain a) = .ok (s', it)) (hd : it.dropped = [⟨k', c', a'⟩]) (next : Plays a' bs a'') :
      Plays a (s'.buf :: bs) a''

/-- Calls of `extend`, one after another. -/
def Audio.extendAll (a : Audio k c) : List (Src k' c') → R (Audio k c)
  | [] => .ok a
  | st :: sts => match a.extend st with
    | (b, .ok _) => b.extendAll sts
    | (_, .error e) => .error e

/-- The loop of `/repo/examples/resampler.rs` (lines 39-43): one call of `stream` for each frame.  The call of
`set_sample_rate` in between has no effect (`C61_setRate`). -/
def Sink.frameByFrame (s : Sink k c) : List (Frame k' c') → R (Sink k c)
  | [] => .ok s
  | f :: fs => do
    let st ← ((Src.frame f).mkTake 1).setRate (Fl.lit 44100)
    let (s, _) ← s.stream 2 st
    s.frameByFrame fs

/-- Upsampling by 2 and back. -/
def thereAndBack (a : Audio k c) (n : Nat) (r : F64) : R (List (Frame k c)) := do
  let (s, _) ← (⟨r, Resampler.dflt, List.replicate (2 * n) Frame.dflt⟩ : Sink k c).stream (2 * n + 9) (.audio a)
  let (t, _) ← (⟨a.rate, Resampler.dflt, List.replicate n Frame.dflt⟩ : Sink k c).stream (2 * n + 9) (.audio ⟨r, s.buf⟩)
  return t.buf

end Fon
