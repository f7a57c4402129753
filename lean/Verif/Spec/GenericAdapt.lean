import Verif.Model.GenericAdapt
import Verif.Spec.Generic

/-!
# Specification vocabulary for adaptors of user-defined streams
-/

namespace Fon.Gen
variable {S τ ι : Type}

/-- Position `p` is before the end of a stream of this length. -/
def Before (p : Nat) (len : Option Nat) : Prop := ∀ l, len = some l → p < l

/-- The stream says the length `len` and then yields `f 0`, `f 1`, ... up to there (`inv p it`: `p` frames were taken). -/
def Plays (M : StreamImpl τ ι S) (st : τ) (len : Option Nat) (f : Nat → S) (inv : Nat → ι → Prop) : Prop :=
  M.len st = len ∧ (∃ it, M.iter st = .ok it ∧ inv 0 it) ∧
  ∀ p it, inv p it →
    (Before p len → ∃ it', M.next it = .ok (some (f p), it') ∧ inv (p + 1) it') ∧
    (¬ Before p len → ∃ it', M.next it = .ok (none, it') ∧ inv p it')

/-- Calling `next` up to `n` times, stopping at the first `None`: the frames in order, and the iterator afterwards. -/
def takes (M : StreamImpl τ ι S) : Nat → ι → R (List S × ι)
  | 0, it => .ok ([], it)
  | n + 1, it => match M.next it with
    | .error e => .error e
    | .ok (none, it) => .ok ([], it)
    | .ok (some x, it) => (takes M n it).map fun r => (x :: r.1, r.2)

end Fon.Gen
