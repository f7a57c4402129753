import Verif.Model.Counter
import Verif.Model.Release

/-!
# Targets with a narrower `usize`

The rest of the model has a `usize` of 64 bits.  Here it has `W` bits, for the functions that convert floats to `usize` or
add such numbers.  `rel`: release build, without overflow checks.
-/

namespace Fon
variable {k k' : Kind} {c c' : ChTy}

/-- `x as usize` for a float `x`. -/
def Fl.toUsizeW {f : Fmt} (W : Nat) (x : Fl f) : Nat := (x.toIntSat 0 (2 ^ W - 1)).toNat

/-- `ceil_usize` (math.rs:71-80). -/
def Math.ceilUsizeW (rel : Bool) (W : Nat) (input : F64) : R Nat :=
  let fract := input.rem (Fl.lit 1)
  let whole := input.toUsizeW W
  if Fl.lt Fl.epsilon fract then
    if rel = false ∧ 2 ^ W ≤ whole + 1 then .error .overflow else .ok ((whole + 1) % 2 ^ W)
  else .ok whole

namespace Sink

/-- `Sink::flush` (streaming.rs:59-68). -/
def flushW (W : Nat) (s : Sink k c) : R (Sink k c) :=
  let fract := s.res.offseti.rem (Fl.lit 1)
  if Fl.lt Fl.epsilon fract || Fl.lt fract (Fl.epsilon : F64).neg then do
    let buf ← modAt s.buf (s.res.offseti.toUsizeW W) (fun _ => s.res.partial_)
    return { s with buf }
  else .ok s

/-- The loop of `Sink::stream` (streaming.rs:98-122). -/
def loopW (rel : Bool) (W : Nat) (ratio : F64) (dstEnd : Nat) (srclen : Option Nat) :
    Nat → Nat → Sink k c → It k' c' → R (Sink k c × It k' c' × Option Nat)
  | 0, _, _, _ => .error .outOfFuel
  | fuel + 1, i, s, it =>
    if rel = false ∧ i = 2 ^ W - 1 then .error .overflow
    else
    let j := (ratio.mul (f64OfUsize i)).add s.res.offseti
    match Math.ceilUsizeW rel W j with
    | .error e => .error e
    | .ok ceil =>
      let floor := j.toUsizeW W
      if ¬ floor < dstEnd then .ok (s, it, some i)
      else
        let ceilF := (j.rem (Fl.lit 1)).min ratio
        let ceilA : Frame k c := Frame.ofF64 ceilF
        let floorA : Frame k c := Frame.ofF64 (ratio.sub ceilF)
        match it.next with
        | .error e => .error e
        | .ok (none, it) => .ok (s, it, srclen)
        | .ok (some src, it) => match (src.convert c : R (Frame k c)) with
          | .error e => .error e
          | .ok src => match modAt s.buf floor (fun b => b.add (src.mul floorA)) with
            | .error e => .error e
            | .ok buf =>
              if ceil < dstEnd then
                match modAt buf ceil (fun b => b.add (src.mul ceilA)) with
                | .error e => .error e
                | .ok buf => loopW rel W ratio dstEnd srclen fuel ((i + 1) % 2 ^ W) { s with buf } it
              else
                loopW rel W ratio dstEnd srclen fuel ((i + 1) % 2 ^ W)
                  { s with
                    buf := buf
                    res := { s.res with partial_ := s.res.partial_.add (src.mul ceilA) } } it

/-- End of `dst_range` (streaming.rs:86-91). -/
def dstEndW (W : Nat) (ratio : F64) (len : Option Nat) (bufLen : Nat) : Nat :=
  match len with
  | some l => min ((ratio.mul (f64OfUsize l)).toUsizeW W) bufLen
  | none => bufLen

/-- `Sink::stream` (streaming.rs:70-125). -/
def streamW (rel : Bool) (W : Nat) (fuel : Nat) (s : Sink k c) (st : Src k' c') : R (Sink k c × It k' c') :=
  match s.ratio st with
  | .error e => .error e
  | .ok (ratio, st) =>
    let dstEnd := dstEndW W ratio st.len s.buf.length
    match loopW rel W ratio dstEnd st.len fuel 0 (s.prepare dstEnd) st.iter with
    | .error e => .error e
    | .ok (s, it, srclen) => match srclen with
      | none => .error .unwrapNone
      | some n => .ok ({ s with
          res := { s.res with offseti := s.res.offseti.add (ratio.mul (f64OfUsize n)) } }, it)

end Sink

namespace Audio

/-- `dstlen` of `extend_internal` (audio.rs:296-301). -/
def dstLenW (W : Nat) (rate : F64) (srclen : Nat) (srcRate : Option F64) : Nat :=
  match srcRate with
  | some sr => (Math.ceil ((rate.mul (f64OfUsize srclen)).div sr)).toUsizeW W
  | none => srclen

/-- `extend_internal` (audio.rs:285-317).  An allocation takes at most `isize::MAX` bytes. -/
def extendInternalW (rel : Bool) (W : Nat) (a : Audio k c) (st : Src k' c') : R (Audio k c × It k' c') :=
  match st.len with
  | none => .error .unwrapNone
  | some srclen =>
    let dstlen := dstLenW W a.rate srclen st.rate
    let orig := a.frames.length
    if rel = false ∧ 2 ^ W ≤ orig + dstlen then .error .overflow
    else
      let len := (orig + dstlen) % 2 ^ W
      if orig ≤ len ∧ 2 ^ (W - 1) - 1 < len * k.size c then .error .capacity
      else
        let audio := withFrames a.rate (a.frames.take len ++ List.replicate (len - orig) Frame.dflt)
        match audio.sink (.from_ orig) with
        | .error e => .error e
        | .ok s => match s.sink.streamW rel W (srclen + 1) st with
          | .error e => .error e
          | .ok (t, it) => match t.flushW W with
            | .error e => .error e
            | .ok t => .ok ({ s with sink := t }.release, it)

end Audio
end Fon
