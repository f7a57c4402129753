import Verif.Model.Frame

/-!
# Model of `/repo/src/ops.rs`
-/

namespace Fon

/-- The trigonometric functions `f64::sin`, `f64::cos` (used in ops.rs:132-133).  Their values are
platform dependent; they are parameters of the model. -/
structure Trig where
  sin : F64 → F64
  cos : F64 → F64

/-- The blend operations (ops.rs:34-58), and those that a user of the library defines (`Blend` is a public trait,
ops.rs:16-32): `user` has a `mix` that returns and the provided `mix_frames`; `custom` has a `mix` and perhaps a `mix_frames` of
its own, which may panic.  They are functions of their arguments (no state). -/
inductive Blend where
  | src | dest | clear | amplify | plus | compress
  | pan (t : Trig)
  | user (mix : (c : ChTy) → c.T → c.T → c.T)
  | custom (mix : (c : ChTy) → c.T → c.T → R c.T) 
      (frames : Option ((k : Kind) → (c : ChTy) → Frame k c → Frame k c → R (Frame k c)))

namespace Blend

/-- `Blend::mix` (ops.rs:60-106). -/
def mix (op : Blend) (c : ChTy) (dst src : c.T) : R c.T :=
  match op with
  | .src => .ok src
  | .dest => .ok dst
  | .clear => .ok c.dflt
  | .amplify => .ok (c.mul src dst)
  | .plus => .ok (c.add src dst)
  | .compress => .error .todo
  | .pan _ => .error .panMono
  | .user m => .ok (m c dst src)
  | .custom m _ => m c dst src

/-- `Vec::get` on a slice, panicking out of bounds. -/
def idx {α : Type} (l : List α) (i : Nat) : R α :=
  match l[i]? with
  | some x => .ok x
  | none => .error .bounds

/-- Mutate channel `i` of a frame, panicking out of bounds (`channels_mut()[i] += ..`). -/
def modChan {k : Kind} {c : ChTy} (fr : Frame k c) (i : Nat) (g : c.T → c.T) : R (Frame k c) :=
  if h : i < k.chans then .ok (fr.set i (g fr[i])) else .error .bounds

/-- `core::f64::consts::FRAC_PI_2`. -/
def fracPi2 : F64 := Fl.lit 1.57079632679489661923132169163975144

/-- The search loop of `Pan` (ops.rs:115-121): first speaker whose location is `<= s`, else the
last. -/
def panStart (cfg : List F64) (s : F64) : R Nat :=
  if cfg.length = 0 then .error .overflow
  else .ok ((cfg.findIdx? (fun loc => Fl.le loc s)).getD (cfg.length - 1))

/-- One iteration of `Pan::mix_frames` (ops.rs:111-134). -/
def panStep (t : Trig) {k : Kind} {c : ChTy} (out : Frame k c) (d s : c.T) : R (Frame k c) := do
  let s := c.toF64 s
  let start ← panStart k.config s
  let stop := (start + 1) % k.config.length
  let ce ← idx k.config stop
  let cs ← idx k.config start
  let dist := ce.sub cs
  let dist := if dist.lt (Fl.lit 0) then (Fl.lit 2).sub dist else dist
  let closeness := (s.sub (ce.min cs)).div dist
  let angle := closeness.mul fracPi2
  let out ← modChan out start (fun o => c.add o (c.mul d (c.ofF64 (t.cos angle))))
  modChan out stop (fun o => c.add o (c.mul d (c.ofF64 (t.sin angle))))

/-- `Blend::mix_frames` (ops.rs:21-31), overridden by `Pan` (ops.rs:108-136) and perhaps by the user. -/
def mixFrames (op : Blend) {k : Kind} {c : ChTy} (dst src : Frame k c) : R (Frame k c) :=
  match op with
  | .pan t =>
    (List.zip dst.toList src.toList).foldlM (fun out p => panStep t out p.1 p.2) Frame.dflt
  | .custom _ (some f) => f k c dst src
  | op => (Vector.zip dst src).mapM (fun p => op.mix c p.1 p.2)

end Blend
end Fon
