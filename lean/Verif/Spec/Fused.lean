import Verif.Spec.Drains

/-!
# Calling `next` after the end
-/

namespace Fon

/-- Calling `next` `n` times, whatever it returns. -/
def It.again {k : Kind} {c : ChTy} : Nat → It k c → R (List (Option (Frame k c)) × It k c)
  | 0, it => .ok ([], it)
  | n + 1, it => do
    let (o, it) ← it.next
    let (os, it) ← it.again n
    return (o :: os, it)

/-- Streams that drain no buffer in the first part of a blend. -/
def Src.dry {k : Kind} {c : ChTy} : Src k c → Bool
  | .take s _ => s.dry
  | .blend a b _ => a.drains.isEmpty && b.dry
  | _ => true

end Fon
