import Verif.Model.Streaming

/-!
# `Sink::stream` on the parts of a stream

`Stream` is a public trait, and nothing forces `len` to agree with the iterator (streaming.rs:133-135 only documents it).
The streams of `Verif.Model.Streaming` keep the contract; here the length reported and the iterator are separate.
-/

namespace Fon
variable {k k' : Kind} {c c' : ChTy}

/-- `Sink::stream` after the ratio is known (streaming.rs:80-124), for a stream that reports the length `len` and
iterates as `it`. -/
def Sink.streamOf (fuel : Nat) (s : Sink k c) (ratio : F64) (len : Option Nat) (it : It k' c') :
    R (Sink k c × It k' c') :=
  let dstEnd := Sink.dstEnd ratio len s.buf.length
  match Sink.loop ratio dstEnd len fuel 0 (s.prepare dstEnd) it with
  | .error e => .error e
  | .ok (s, it, srclen) => match srclen with
    | none => .error .unwrapNone
    | some n => .ok ({ s with
        res := { s.res with offseti := s.res.offseti.add (ratio.mul (f64OfUsize n)) } }, it)

end Fon
