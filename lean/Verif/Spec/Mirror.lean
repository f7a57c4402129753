import Verif.Model.Audio

/-!
# Exchanging left and right
-/

namespace Fon

/-- The channel on the other side.  Stereo is left, right.  Surround is rear left, front left, center, front right, rear right,
LFE (the order of the code, see C98).  Nothing is known about the layouts of a user, so they stay. -/
def Kind.other : (k : Kind) → Fin k.chans → Fin k.chans
  | .mono, i => i
  | .stereo, i => i.rev
  | .surround, i => if h : i.val < 5 then ⟨4 - i.val, by simp only [Kind.chans]; omega⟩ else i
  | .custom _ _, i => i

/-- A frame with left and right exchanged. -/
def Frame.mirror {k : Kind} {c : ChTy} (f : Frame k c) : Frame k c := Vector.ofFn fun i => f[k.other i]

/-- The same for audio. -/
def Audio.mirror {k : Kind} {c : ChTy} (a : Audio k c) : Audio k c := ⟨a.rate, a.frames.map Frame.mirror⟩

/-- The same for all streams. -/
def Src.mirror {k : Kind} {c : ChTy} : Src k c → Src k c
  | .frame f => .frame f.mirror
  | .audio a => .audio a.mirror
  | .drain a => .drain a.mirror
  | .user r fx l g => .user r fx l fun i => (g i).mirror
  | .take s n => .take s.mirror n
  | .blend a b op => .blend a.mirror b.mirror op

/-- And for iterators of streams. -/
def It.mirror {k : Kind} {c : ChTy} : It k c → It k c
  | .frame f => .frame f.mirror
  | .audio fs => .audio (fs.map Frame.mirror)
  | .drain a n => .drain a.mirror n
  | .user l g n => .user l (fun i => (g i).mirror) n
  | .take it n => .take it.mirror n
  | .blend a b op => .blend a.mirror b.mirror op

/-- And for sinks. -/
def Sink.mirror {k : Kind} {c : ChTy} (s : Sink k c) : Sink k c :=
  ⟨s.rate, ⟨s.res.partial_.mirror, s.res.offseti⟩, s.buf.map Frame.mirror⟩

/-- Operations that work channel by channel and return. -/
def Blend.even : Blend → Bool
  | .src | .dest | .clear | .amplify | .plus | .user _ => true
  | .compress | .pan _ | .custom _ _ => false

/-- Streams that use no other operation. -/
def Src.even {k : Kind} {c : ChTy} : Src k c → Bool
  | .take s _ => s.even
  | .blend a b op => a.even && b.even && op.even
  | _ => true

/-- The same for iterators. -/
def It.even {k : Kind} {c : ChTy} : It k c → Bool
  | .take it _ => it.even
  | .blend a b op => a.even && b.even && op.even
  | _ => true

end Fon
