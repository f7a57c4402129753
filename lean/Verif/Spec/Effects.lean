import Verif.Model.Effects
import Verif.Spec.Generic
import Verif.Spec.Sink

/-!
# Specification vocabulary for implementations that share state
-/

namespace Fon.Eff
open Gen (Both)
variable {W F G S T σ σ' τ τ' ι ι' α β : Type}

/-- While the shared state satisfies `Inv`, the computation does what one without shared state does, up to `Q`, and leaves
the shared state that way, also when it panics. -/
def Sim (Inv : W → Prop) (Q : α → β → Prop) (x : E W α) (y : R β) : Prop :=
  ∀ w, Inv w → Both Q (x w).1 y ∧ Inv (x w).2

/-- The arithmetic of frames with shared state against one without. -/
structure FrameSim (Inv : W → Prop) (A : FrameImpl W F) (B : Gen.FrameImpl G) (P : F → G → Prop) : Prop where
  dflt : Sim Inv P A.dflt (.ok B.dflt)
  ofF64 : ∀ x, Sim Inv P (A.ofF64 x) (B.ofF64 x)
  add : ∀ a b a' b', P a b → P a' b' → Sim Inv P (A.add a a') (B.add b b')
  mul : ∀ a b a' b', P a b → P a' b' → Sim Inv P (A.mul a a') (B.mul b b')

/-- A sink with shared state against one without (compare `Gen.SinkRel`). -/
def SinkSim (Inv : W → Prop) (I : SinkImpl W σ F) (J : Gen.SinkImpl σ' G) (P : F → G → Prop) (Z : σ → σ' → Prop) : Prop :=
  ∀ s t, Z s t → Sim Inv (· = ·) (I.rate s) (.ok (J.rate t)) ∧
    Sim Inv (fun a b => (P a.1.partial_ b.1.partial_ ∧ a.1.offseti = b.1.offseti) ∧
      ∀ r r', P r.partial_ r'.partial_ → r.offseti = r'.offseti → Z (a.2 r) (b.2 r')) (I.resampler s) (J.resampler t) ∧
    Sim Inv (fun a b => List.Forall₂ P a.1 b.1 ∧ ∀ x y, x.length = a.1.length → List.Forall₂ P x y → Z (a.2 x) (b.2 y))
      (I.buffer s) (J.buffer t)

/-- A stream with shared state against one without (compare `Gen.StreamRel`). -/
structure StreamSim (Inv : W → Prop) (M : StreamImpl W τ ι S) (L : Gen.StreamImpl τ' ι' T) (conv : S → E W F) (conv' : T → R G)
    (P : F → G → Prop) (V : τ → τ' → Prop) (N : ι → ι' → Prop) : Prop where
  rate : ∀ st st', V st st' → Sim Inv (· = ·) (M.rate st) (.ok (L.rate st'))
  len : ∀ st st', V st st' → Sim Inv (· = ·) (M.len st) (.ok (L.len st'))
  setRate : ∀ st st' r, V st st' → L.rate st' = none → Sim Inv V (M.setRate st r) (L.setRate st' r)
  iter : ∀ st st', V st st' → Sim Inv N (M.iter st) (L.iter st')
  next : ∀ it it', N it it' → Sim Inv (fun a b => N a.2 b.2 ∧ match a.1, b.1 with
    | none, none => True
    | some x, some y => Sim Inv P (conv x) (conv' y)
    | _, _ => False) (M.next it) (L.next it')

/-- The calls that `Sink::stream` makes. -/
inductive Call where
  | streamRate | sinkRate | setRate | resampler | buffer | len | default_ | fromF64 | addAssign | mul | intoIter | next | convert
deriving DecidableEq

/-- Write down a call, then do it. -/
def log (c : Call) (x : R α) : E (List Call) α := fun w => (x, w ++ [c])

/-- Frames that write down the calls. -/
def logFrame (A : Gen.FrameImpl F) : FrameImpl (List Call) F :=
  ⟨log .default_ (.ok A.dflt), fun x => log .fromF64 (A.ofF64 x), fun a b => log .addAssign (A.add a b),
    fun a b => log .mul (A.mul a b)⟩

/-- A sink that writes down the calls. -/
def logSink (I : Gen.SinkImpl σ F) : SinkImpl (List Call) σ F :=
  ⟨fun s => log .sinkRate (.ok (I.rate s)), fun s => log .resampler (I.resampler s), fun s => log .buffer (I.buffer s)⟩

/-- A stream that writes down the calls. -/
def logStream (M : Gen.StreamImpl τ ι S) : StreamImpl (List Call) τ ι S :=
  ⟨fun st => log .streamRate (.ok (M.rate st)), fun st => log .len (.ok (M.len st)), fun st r => log .setRate (M.setRate st r),
    fun st => log .intoIter (M.iter st), fun it => log .next (M.next it)⟩

/-- The calls before the loop, for a stream with a rate: `n` slots, of which `d` are cleared. -/
def startCalls (n d : Nat) : List Call :=
  [.streamRate, .sinkRate, .resampler, .buffer] ++ (if n = 0 then [] else [.addAssign]) ++ [.len, .len, .buffer, .buffer] ++
    List.replicate d .default_ ++ [.intoIter]

open Classical in
/-- The calls for frame `i`. -/
noncomputable def frameCalls (q off : F64) (len : Option Nat) (n i : Nat) : List Call :=
  [.resampler, .fromF64, .fromF64, .next, .convert, .buffer, .mul, .addAssign, .buffer] ++
    if InDst q len n (hiSlot (posOf q off i)) then [.mul, .addAssign] else [.resampler, .mul, .addAssign]

/-- The calls at the end, after `m` frames: the stream is asked for another frame only if there is a slot for it. -/
def endCalls (q off : F64) (len : Option Nat) (n m : Nat) : List Call :=
  (if InDst q len n (posOf q off m).toUsize then [.resampler, .fromF64, .fromF64, .next] else [.resampler]) ++ [.resampler]

/-- The computation returns a value with `Q`, and the shared state keeps to `Inv`. -/
def Returns (Inv : W → Prop) (Q : α → Prop) (x : E W α) : Prop :=
  ∀ w, Inv w → ∃ a w', x w = (.ok a, w') ∧ Q a ∧ Inv w'

/-- The arithmetic of the frames does not panic. -/
structure FrameImpl.Total (Inv : W → Prop) (A : FrameImpl W F) : Prop where
  dflt : Returns Inv (fun _ => True) A.dflt
  ofF64 : ∀ x, Returns Inv (fun _ => True) (A.ofF64 x)
  add : ∀ a b, Returns Inv (fun _ => True) (A.add a b)
  mul : ∀ a b, Returns Inv (fun _ => True) (A.mul a b)

/-- A sink of which only the outline is known, as `Gen.Steady`. -/
def Steady (Inv : W → Prop) (I : SinkImpl W σ F) (r : F64) (n : Nat) (inv : F64 → σ → Prop) : Prop :=
  ∀ o s, inv o s → Returns Inv (· = r) (I.rate s) ∧
    Returns Inv (fun x => x.1.offseti = o ∧ ∀ y, inv y.offseti (x.2 y)) (I.resampler s) ∧
    Returns Inv (fun x => x.1.length = n ∧ ∀ b, b.length = n → inv o (x.2 b)) (I.buffer s)

/-- The stream has a rate, and yields exactly the number of frames it says, as `Gen.Keeps`. -/
def Keeps (Inv : W → Prop) (M : StreamImpl W τ ι S) (st : τ) (rate : F64) (len : Option Nat) (pos : Nat → ι → Prop) : Prop :=
  Returns Inv (· = some rate) (M.rate st) ∧ Returns Inv (· = len) (M.len st) ∧ Returns Inv (pos 0) (M.iter st) ∧
  ∀ p it, pos p it →
    if ∀ l, len = some l → p < l then Returns Inv (fun x => x.1.isSome ∧ pos (p + 1) x.2) (M.next it)
    else Returns Inv (fun x => x.1 = none ∧ pos p x.2) (M.next it)

end Fon.Eff
