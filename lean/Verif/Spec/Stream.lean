import Verif.Model.Streaming

/-!
# Specification vocabulary for streams
-/

namespace Fon
variable {k : Kind} {c : ChTy}

/-- What a stream consists of: its `i`-th frame, or `none` past the end.  A blend of frames may
panic. -/
def Src.nth {k : Kind} {c : ChTy} : Src k c → Nat → R (Option (Frame k c))
  | .frame f, _ => .ok (some f)
  | .audio a, i => .ok a.frames[i]?
  | .drain a, i => .ok a.frames[i]?
  | .user _ _ l g, i => match l with
    | none => .ok (some (g i))
    | some n => .ok (if i < n then some (g i) else none)
  | .take s n, i => if i < n then s.nth i else .ok none
  | .blend a b op, i => do
    match ← a.nth i with
    | none => return none
    | some x => match ← b.nth i with
      | none => return none
      | some y => return some (← op.mixFrames x (← y.convert _))

/-- Calling `next` up to `n` times, stopping at the first `None`: the frames in order. -/
def It.run {k : Kind} {c : ChTy} : Nat → It k c → R (List (Frame k c) × It k c)
  | 0, it => .ok ([], it)
  | n + 1, it => do
    match ← it.next with
    | (none, it) => return ([], it)
    | (some f, it) => let (fs, it) ← it.run n; return (f :: fs, it)

/-- Streams of which the rate can be set. -/
def Src.configurable {k : Kind} {c : ChTy} : Src k c → Bool
  | .frame _ => true
  | .audio _ => false
  | .drain _ => false
  | .user _ fixed _ _ => !fixed
  | .take s _ => s.configurable
  | .blend a b _ => a.configurable && b.configurable

/-- Streams that report the rate they were told (the first stream of a blend answers for it). -/
def Src.stores {k : Kind} {c : ChTy} : Src k c → Bool
  | .frame _ => false
  | .audio _ => false
  | .drain _ => false
  | .user _ fixed _ _ => !fixed
  | .take s _ => s.stores
  | .blend a _ _ => a.stores

/-- Streams that only blend built-in layouts, with operations other than `Compress` and `Blend.custom`. -/
def Src.safe {k : Kind} {c : ChTy} : Src k c → Bool
  | .frame _ => true
  | .audio _ => true
  | .drain _ => true
  | .user _ _ _ _ => true
  | .take s _ => s.safe
  | @Src.blend k k' _ _ a b op => a.safe && b.safe && k.builtin && k'.builtin &&
    (match op with | .compress => false | .custom _ _ => false | _ => true)

/-- The frames that `run` yields. -/
def It.yields (it : It k c) (n : Nat) : R (List (Frame k c)) := (·.1) <$> it.run n

/-- The frames of a list of finite streams, one stream after another. -/
def Src.chained : List (Src k' c') → Nat → R (Option (Frame k' c'))
  | [], _ => .ok none
  | st :: sts, i => match st.len with
    | none => st.nth i
    | some l => if i < l then st.nth i else Src.chained sts (i - l)

/-- The value of a computation that returns one, for the examples. -/
def R.out {α : Type} (x : R α) (h : x.toBool = true) : α := match x, h with | .ok a, _ => a

theorem R.returns {α : Type} {x : R α} (h : x.toBool = true) : x = .ok (R.out x h) := by
  cases x with
  | error e => cases h
  | ok a => rfl

/-- The panic of a computation that does not return. -/
def R.err {α : Type} (x : R α) (h : x.toBool = false) : Panic := match x, h with | .error e, _ => e

theorem R.panics {α : Type} {x : R α} (h : x.toBool = false) : x = .error (R.err x h) := by
  cases x with
  | error e => rfl
  | ok a => cases h

theorem R.returns₂ {α β : Type} {x : R (α × β)} (h : x.toBool = true) :
    x = .ok ((R.out x h).1, (R.out x h).2) := R.returns h

theorem R.returnsSnd {α β : Type} {x : α × R β} (h : x.2.toBool = true) :
    x = (x.1, .ok (R.out x.2 h)) := Prod.ext rfl (R.returns h)

end Fon
