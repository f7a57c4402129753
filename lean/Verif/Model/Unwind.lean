import Verif.Model.Audio

/-!
# What a panic leaves behind

`Verif.Model.Streaming` says whether a call panics, and what it leaves behind if it does not.  Here the same functions
return their state in both cases: what a caller sees who catches the panic (`std::panic::catch_unwind`), after unwinding
has dropped the stream or its iterator.  `Verif.Props.Unwind` proves that the two models agree.
-/

namespace Fon

namespace It

/-- `Iterator::next` with the iterator after a panic.  The state of a `Zip` is advanced by its first iterator, then by
its second; the closure of the `Map` (streaming.rs:239-243) runs afterwards. -/
def nextU {k : Kind} {c : ChTy} : It k c → R (Option (Frame k c)) × It k c
  | .frame f => (.ok (some f), .frame f)
  | .audio [] => (.ok none, .audio [])
  | .audio (f :: fs) => (.ok (some f), .audio fs)
  | .drain a cur => match a.frames[cur]? with
    | some f => (.ok (some f), .drain a (cur + 1))
    | none => (.ok none, .drain a cur)
  | .user l g p => match l with
    | none => (.ok (some (g p)), .user l g (p + 1))
    | some n => if p < n then (.ok (some (g p)), .user l g (p + 1)) else (.ok none, .user l g p)
  | .take it n => match n with
    | 0 => (.ok none, .take it 0)
    | n + 1 => match it.nextU with
      | (o, it) => (o, .take it n)
  | .blend a b op => match a.nextU with
    | (.error e, a) => (.error e, .blend a b op)
    | (.ok none, a) => (.ok none, .blend a b op)
    | (.ok (some x), a) => match b.nextU with
      | (.error e, b) => (.error e, .blend a b op)
      | (.ok none, b) => (.ok none, .blend a b op)
      | (.ok (some y), b) => match (y.convert _ : R (Frame _ _)) with
        | .error e => (.error e, .blend a b op)
        | .ok y => match op.mixFrames x y with
          | .error e => (.error e, .blend a b op)
          | .ok z => (.ok (some z), .blend a b op)

end It

namespace Sink
variable {k k' : Kind} {c c' : ChTy}

/-- The loop of `Sink::stream` (streaming.rs:98-122) with the sink and the iterator after a panic. -/
def loopU (ratio : F64) (dstEnd : Nat) (srclen : Option Nat) :
    Nat → Nat → Sink k c → It k' c' → R (Option Nat) × Sink k c × It k' c'
  | 0, _, s, it => (.error .outOfFuel, s, it)
  | fuel + 1, i, s, it =>
    let j := (ratio.mul (f64OfUsize i)).add s.res.offseti
    match Math.ceilUsize j with
    | .error e => (.error e, s, it)
    | .ok ceil =>
      let floor := j.toUsize
      if ¬ floor < dstEnd then (.ok (some i), s, it)
      else
        let ceilF := (j.rem (Fl.lit 1)).min ratio
        let ceilA : Frame k c := Frame.ofF64 ceilF
        let floorA : Frame k c := Frame.ofF64 (ratio.sub ceilF)
        match it.nextU with
        | (.error e, it) => (.error e, s, it)
        | (.ok none, it) => (.ok srclen, s, it)
        | (.ok (some src), it) => match (src.convert c : R (Frame k c)) with
          | .error e => (.error e, s, it)
          | .ok src => match modAt s.buf floor (fun b => b.add (src.mul floorA)) with
            | .error e => (.error e, s, it)
            | .ok buf =>
              if ceil < dstEnd then
                match modAt buf ceil (fun b => b.add (src.mul ceilA)) with
                | .error e => (.error e, { s with buf }, it)
                | .ok buf => loopU ratio dstEnd srclen fuel (i + 1) { s with buf } it
              else
                loopU ratio dstEnd srclen fuel (i + 1)
                  { s with
                    buf := buf
                    res := { s.res with partial_ := s.res.partial_.add (src.mul ceilA) } } it

/-- `Sink::stream` (streaming.rs:70-125) with the sink after a panic, and what is dropped: the iterator, or the stream
as long as it is not turned into one. -/
def streamU (fuel : Nat) (s : Sink k c) (st : Src k' c') : R Unit × Sink k c × It k' c' :=
  match s.ratio st with
  | .error e => (.error e, s, st.iter)
  | .ok (ratio, st) =>
    let dstEnd := dstEnd ratio st.len s.buf.length
    match loopU ratio dstEnd st.len fuel 0 (s.prepare dstEnd) st.iter with
    | (.error e, s, it) => (.error e, s, it)
    | (.ok none, s, it) => (.error .unwrapNone, s, it)
    | (.ok (some n), s, it) => (.ok (), { s with
          res := { s.res with offseti := s.res.offseti.add (ratio.mul (f64OfUsize n)) } }, it)

end Sink

namespace Audio
variable {k k' : Kind} {c c' : ChTy}

/-- `Audio::extend` (audio.rs:268-317): whether it panics, the buffer afterwards and what is dropped.  `self` is swapped
with an empty buffer of rate 0 first, and assigned again only if `extend_internal` returns. -/
def extendU (a : Audio k c) (st : Src k' c') : R Unit × Audio k c × It k' c' :=
  let gone : Audio k c := withFrames (Fl.lit 0) []
  match st.len with
  | none => (.error .unwrapNone, gone, st.iter)
  | some srclen =>
    let dstlen := dstLen a.rate srclen st.rate
    let orig := a.frames.length
    if usizeMax < (orig + dstlen : ℤ) then (.error .overflow, gone, st.iter)
    else if isizeMax < (orig + dstlen) * k.size c then (.error .capacity, gone, st.iter)
    else
      let audio := withFrames a.rate (a.frames ++ List.replicate dstlen Frame.dflt)
      match audio.sink (.from_ orig) with
      | .error e => (.error e, gone, st.iter)
      | .ok s => match s.sink.streamU (srclen + 1) st with
        | (.error e, _, it) => (.error e, gone, it)
        | (.ok (), t, it) => match { s with sink := t }.flush with
          | .error e => (.error e, gone, it)
          | .ok s => (.ok (), s.release, it)

end Audio
end Fon
