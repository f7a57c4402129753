import Verif.Model.Streaming

/-!
# Buffers drained by a stream
-/

namespace Fon

/-- The `Audio` buffers that are drained somewhere inside a stream, in order. -/
def Src.drains {k : Kind} {c : ChTy} : Src k c → List ((k : Kind) × (c : ChTy) × Audio k c)
  | .frame _ => []
  | .audio _ => []
  | @Src.drain k c a => [⟨k, c, a⟩]
  | .user _ _ _ _ => []
  | .take s _ => s.drains
  | .blend a b _ => a.drains ++ b.drains

/-- A buffer without its first `n` frames. -/
def behead (n : Nat) (x : (k : Kind) × (c : ChTy) × Audio k c) : (k : Kind) × (c : ChTy) × Audio k c :=
  ⟨x.1, x.2.1, ⟨x.2.2.rate, x.2.2.frames.drop n⟩⟩

/-- What is left of the buffers if `None` comes when `n` frames were yielded: streams before the one that ended have
lost one frame more than the others. -/
def Src.exhausted {k : Kind} {c : ChTy} : Src k c → Nat → List ((k : Kind) × (c : ChTy) × Audio k c)
  | .take s m, n => if n < m then s.exhausted n else s.drains.map (behead n)
  | .blend a b _, n =>
    if a.len.any (· ≤ n) then a.exhausted n ++ b.drains.map (behead n)
    else a.drains.map (behead (n + 1)) ++ b.exhausted n
  | s, n => s.drains.map (behead n)

end Fon
