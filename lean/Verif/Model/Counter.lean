import Verif.Model.Streaming

/-!
# The loop counter of `Sink::stream`

`for i in 0..` (streaming.rs:98) counts in a `usize`, as `srclen` gets it (105).  `RangeFrom::next` (core) computes the
successor of the number before it yields it.  So in a debug build it panics instead of yielding `usize::MAX`; in a release
build the number after `usize::MAX` is 0.  `Sink.loop` has no such limit.
-/

namespace Fon.Sink
variable {k k' : Kind} {c c' : ChTy}

/-- The loop of `Sink::stream` (streaming.rs:98-122) with a `usize` as counter.  `rel`: release build. -/
def loopC (rel : Bool) (ratio : F64) (dstEnd : Nat) (srclen : Option Nat) :
    Nat → Nat → Sink k c → It k' c' → R (Sink k c × It k' c' × Option Nat)
  | 0, _, _, _ => .error .outOfFuel
  | fuel + 1, i, s, it =>
    if rel = false ∧ i = 2 ^ 64 - 1 then .error .overflow
    else
    let j := (ratio.mul (f64OfUsize i)).add s.res.offseti
    match Math.ceilUsize j with
    | .error e => .error e
    | .ok ceil =>
      let floor := j.toUsize
      if ¬ floor < dstEnd then .ok (s, it, some i)
      else
        let ceilF := (j.rem (Fl.lit 1)).min ratio
        let ceilA : Frame k c := Frame.ofF64 ceilF
        let floorA : Frame k c := Frame.ofF64 (ratio.sub ceilF)
        match it.next with
        | .error e => .error e
        | .ok (none, it) => .ok (s, it, srclen)
        | .ok (some src, it) => match (src.convert c : R (Frame k c)) with
          | .error e => .error e
          | .ok src => match modAt s.buf floor (fun b => b.add (src.mul floorA)) with
            | .error e => .error e
            | .ok buf =>
              if ceil < dstEnd then
                match modAt buf ceil (fun b => b.add (src.mul ceilA)) with
                | .error e => .error e
                | .ok buf => loopC rel ratio dstEnd srclen fuel ((i + 1) % 2 ^ 64) { s with buf } it
              else
                loopC rel ratio dstEnd srclen fuel ((i + 1) % 2 ^ 64)
                  { s with
                    buf := buf
                    res := { s.res with partial_ := s.res.partial_.add (src.mul ceilA) } } it

/-- `Sink::stream` (streaming.rs:70-125) with a `usize` as loop counter. -/
def streamC (rel : Bool) (fuel : Nat) (s : Sink k c) (st : Src k' c') : R (Sink k c × It k' c') :=
  match s.ratio st with
  | .error e => .error e
  | .ok (ratio, st) =>
    let dstEnd := dstEnd ratio st.len s.buf.length
    match loopC rel ratio dstEnd st.len fuel 0 (s.prepare dstEnd) st.iter with
    | .error e => .error e
    | .ok (s, it, srclen) => match srclen with
      | none => .error .unwrapNone
      | some n => .ok ({ s with
          res := { s.res with offseti := s.res.offseti.add (ratio.mul (f64OfUsize n)) } }, it)

end Fon.Sink
