import Verif.Model.Streaming

/-!
# Streams that are never dropped

`mem::forget`, `ManuallyDrop` and `Box::leak` are safe, so `Drop for AudioDrain` (audio.rs:478-482) need not run.  The borrow
of the `Audio` still ends.  `AudioDrain::next` (audio.rs:458-466) reads frames without taking them out.
-/

namespace Fon.It

/-- The contents of the drained `Audio` buffers, in order, if the iterator is leaked. -/
def forgotten {k : Kind} {c : ChTy} : It k c → List ((k : Kind) × (c : ChTy) × Audio k c)
  | .frame _ => []
  | .audio _ => []
  | @It.drain k c a _ => [⟨k, c, a⟩]
  | .user _ _ _ => []
  | .take it _ => it.forgotten
  | .blend a b _ => a.forgotten ++ b.forgotten

end Fon.It
