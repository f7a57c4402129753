import Verif.Model.Generic

/-!
# Specification vocabulary for user-defined frames, sinks and streams
-/

namespace Fon.Gen
variable {F G S T σ σ' τ τ' ι ι' : Type}

/-- Both panic in the same way, or both return and the results are related. -/
def Both {α β : Type} (Q : α → β → Prop) : R α → R β → Prop
  | .ok a, .ok b => Q a b
  | .error e, .error e' => e = e'
  | _, _ => False

/-- The arithmetic of two frame types respects a relation between their frames. -/
structure FrameRel (A : FrameImpl F) (B : FrameImpl G) (P : F → G → Prop) : Prop where
  dflt : P A.dflt B.dflt
  ofF64 : ∀ x, Both P (A.ofF64 x) (B.ofF64 x)
  add : ∀ a b a' b', P a b → P a' b' → Both P (A.add a a') (B.add b b')
  mul : ∀ a b a' b', P a b → P a' b' → Both P (A.mul a a') (B.mul b b')

/-- Two sinks respect a relation `W` between their states: same rate, resamplers with the same index and related left-over
frames, buffers of the same length with related frames; and writing related values keeps `W`. -/
def SinkRel (I : SinkImpl σ F) (J : SinkImpl σ' G) (P : F → G → Prop) (W : σ → σ' → Prop) : Prop :=
  ∀ s t, W s t → I.rate s = J.rate t ∧
    Both (fun a b => (P a.1.partial_ b.1.partial_ ∧ a.1.offseti = b.1.offseti) ∧
      ∀ r r', P r.partial_ r'.partial_ → r.offseti = r'.offseti → W (a.2 r) (b.2 r')) (I.resampler s) (J.resampler t) ∧
    Both (fun a b => List.Forall₂ P a.1 b.1 ∧ ∀ x y, x.length = a.1.length → List.Forall₂ P x y → W (a.2 x) (b.2 y))
      (I.buffer s) (J.buffer t)

/-- Two streams respect a relation `V` between themselves, and `N` between their iterators: same rate, same length, and
frames that convert to frames in the relation `P`. -/
structure StreamRel (M : StreamImpl τ ι S) (L : StreamImpl τ' ι' T) (conv : S → R F) (conv' : T → R G) (P : F → G → Prop)
    (V : τ → τ' → Prop) (N : ι → ι' → Prop) : Prop where
  rate : ∀ st st', V st st' → M.rate st = L.rate st'
  len : ∀ st st', V st st' → M.len st = L.len st'
  setRate : ∀ st st' r, V st st' → M.rate st = none → Both V (M.setRate st r) (L.setRate st' r)
  iter : ∀ st st', V st st' → Both N (M.iter st) (L.iter st')
  next : ∀ it it', N it it' → Both (fun a b => N a.2 b.2 ∧ match a.1, b.1 with
    | none, none => True
    | some x, some y => Both P (conv x) (conv' y)
    | _, _ => False) (M.next it) (L.next it')

/-- A lawful sink: its state shows as a rate, a resampler and a buffer, and writing through the references changes just
those. -/
def Lawful {k : Kind} {c : ChTy} (I : SinkImpl σ (Frame k c)) (view : σ → Sink k c) : Prop :=
  ∀ s, I.rate s = (view s).rate ∧
    (∃ put, I.resampler s = .ok (⟨(view s).res.partial_, (view s).res.offseti⟩, put) ∧
      ∀ r, view (put r) = { view s with res := ⟨r.partial_, r.offseti⟩ }) ∧
    ∃ put, I.buffer s = .ok ((view s).buf, put) ∧
      ∀ b, b.length = (view s).buf.length → view (put b) = { view s with buf := b }

/-- A sink of which only the outline is known: `inv o s` says it is in a proper state with index `o`.  The rate is `r`, the
buffer has `n` slots whatever is written, the index is what was last written; `buffer` and `resampler` do not panic.
Nothing is said about the frames: they may be the same every time or not. -/
def Steady (I : SinkImpl σ F) (r : F64) (n : Nat) (inv : F64 → σ → Prop) : Prop :=
  ∀ o s, inv o s → I.rate s = r ∧
    (∃ x put, I.resampler s = .ok (x, put) ∧ x.offseti = o ∧ ∀ y, inv y.offseti (put y)) ∧
    ∃ b put, I.buffer s = .ok (b, put) ∧ b.length = n ∧ ∀ b', b'.length = n → inv o (put b')

/-- The arithmetic of the frames does not panic. -/
def FrameImpl.Total (A : FrameImpl F) : Prop :=
  (∀ x, ∃ y, A.ofF64 x = .ok y) ∧ (∀ a b, ∃ y, A.add a b = .ok y) ∧ ∀ a b, ∃ y, A.mul a b = .ok y

/-- The stream has a rate, and yields exactly the number of frames it says (`inv p it`: `p` frames were taken). -/
def Keeps (M : StreamImpl τ ι S) (st : τ) (rate : F64) (len : Option Nat) (inv : Nat → ι → Prop) : Prop :=
  M.rate st = some rate ∧ M.len st = len ∧ (∃ it, M.iter st = .ok it ∧ inv 0 it) ∧
  ∀ p it, inv p it →
    if ∀ l, len = some l → p < l then ∃ x it', M.next it = .ok (some x, it') ∧ inv (p + 1) it'
    else ∃ it', M.next it = .ok (none, it') ∧ inv p it'

end Fon.Gen
