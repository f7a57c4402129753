import Verif.Spec.Sink

/-!
# Playing into a part of a buffer
-/

namespace Fon
variable {k : Kind} {c : ChTy}

/-- What can be done with a sink. -/
inductive Cmd where
  | stream (k : Kind) (c : ChTy) (fuel : Nat) (st : Src k c)
  | flush

/-- Give the calls to a sink, one after another. -/
def AudioSink.obey : AudioSink k c → List Cmd → R (AudioSink k c)
  | s, [] => .ok s
  | s, .stream _ _ fuel st :: l => match s.stream fuel st with
    | .error e => .error e
    | .ok (t, _) => t.obey l
  | s, .flush :: l => match s.flush with
    | .error e => .error e
    | .ok t => t.obey l

/-- Borrow the sink of a region, give it the calls, and let it go. -/
def Audio.play (a : Audio k c) (reg : Rng) (p : List Cmd) : R (Audio k c) :=
  match a.sink reg with
  | .error e => .error e
  | .ok s => match s.obey p with
    | .error e => .error e
    | .ok t => .ok t.release

end Fon
