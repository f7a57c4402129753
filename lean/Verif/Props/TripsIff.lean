import Verif.Props.TripsAny
import Verif.Props.DelayUp

/-!
# C158: the factors at which trips panic or lose the last frame
-/

namespace Fon
open Fon.Fl hiding min max
open Fon.Fmt Fon.Sink
variable {k : Kind} {c : ChTy}

/-- Making audio of one whole rate into audio of another panics exactly if `extend` does (C129). -/
theorem with_iff {a : Audio k c} {rate : F64} {dst src : Nat} (hk : k.builtin = true) (hr : rate.Is (dst:ℚ)) (ha : a.rate.Is (src:ℚ))
    (h0 : 0 < src) (hd0 : 0 < dst) (hs' : src ≤ 2 ^ 51) (hd' : dst ≤ 2 ^ 51) (hN : dst * a.len < 2 ^ 51) :
    (∃ b : Audio k c, Audio.withStream rate (.audio a) = .ok b) ↔
      ¬ (src ∣ dst * a.len ∧ 2 ^ ((Nat.log 2 (dst * a.len / src) : ℤ) - 53) < (binary64.rnd ((dst:ℚ) / src) - dst / src) * a.len) := by
  have hf : (Audio.withFrames rate [] : Audio k c).Fits ⌈(dst * a.len : ℚ) / src⌉₊ := by
    have hn : ⌈(dst * a.len : ℚ) / src⌉₊ < 2 ^ 51 + 1 := by
      refine Nat.lt_succ_of_le (Nat.ceil_le.mpr ?_)
      have h1 : (1:ℚ) ≤ src := by exact_mod_cast h0
      have h2 : (dst * a.len : ℚ) ≤ 2 ^ 51 := by exact_mod_cast hN.le
      rw [div_le_iff₀ (by linarith)]
      push_cast
      nlinarith
    generalize ⌈(dst * a.len : ℚ) / src⌉₊ = n at *
    have hs : k.size c ≤ 48 := by
      cases k with
      | custom => cases hk
      | mono => cases c <;> decide
      | stereo => cases c <;> decide
      | surround => cases c <;> decide
    refine ⟨?_, ?_⟩
    · have : usizeMax = 2 ^ 64 - 1 := rfl
      simp only [Audio.withFrames, List.length_nil]; omega
    · have : Audio.isizeMax = 2 ^ 63 - 1 := rfl
      simp only [Audio.withFrames, List.length_nil]
      have : (0 + n) * k.size c ≤ (2 ^ 51 + 1) * 48 := Nat.mul_le_mul (by omega) hs
      omega
  rw [← C129_iff (Audio.withFrames rate [] : Audio k c) (.audio a) a.rate dst src a.len rfl hr ha rfl h0 hd0 hs' hd' hN hk hk rfl hf]
  unfold Audio.withStream
  cases he : (Audio.withFrames rate [] : Audio k c).extend (.audio a) with
  | mk x y =>
    cases y with
    | ok it => exact iff_of_true ⟨x, rfl⟩ (by rintro ⟨e, h⟩; cases h)
    | error e => exact iff_of_false (by rintro ⟨b, h⟩; cases h) (fun h => h ⟨e, rfl⟩)

/-- The lengths during a trip. -/
theorem trip_len {rate : F64} {lo N l : Nat} {a b e : Audio k c} (hr : rate.Is ((N * lo : Nat):ℚ))
    (ha : a.rate.Is (lo:ℚ)) (h0 : 0 < lo) (hp : 0 < N) (hl : a.len = l) (hN : N * lo * (l + 1) ≤ 2 ^ 51)
    (h1 : Audio.withStream rate (.audio a) = .ok b) :
    b.rate = rate ∧ b.len = N * l ∧ (Audio.withStream a.rate (.audio b) = .ok e → e.rate = a.rate ∧ e.len = l) := by
  have hloN : N * lo ≤ 2 ^ 51 := le_trans (Nat.le_mul_of_pos_right _ (by omega)) hN
  have hlo51 : lo ≤ 2 ^ 51 := le_trans (Nat.le_mul_of_pos_left _ hp) hloN
  have hNl : N * lo * l < 2 ^ 51 := by
    have : N * lo * (l + 1) = N * lo * l + N * lo := by ring
    have : 0 < N * lo := by positivity
    omega
  have hlq : (lo:ℚ) ≠ 0 := by exact_mod_cast h0.ne'
  have hNq : (N:ℚ) ≠ 0 := by exact_mod_cast hp.ne'
  have hml : N * l ≤ N * lo * l := by rw [mul_right_comm]; exact Nat.le_mul_of_pos_right _ h0
  have hll : l ≤ N * l := Nat.le_mul_of_pos_left _ hp
  obtain ⟨b1, -⟩ := C48_withStream _ _ _ h1
  have hb2 : b.len = N * l := by
    rw [C49_partial rate a.rate (N * lo) lo l hr ha h0 (by omega) (by omega) hlo51 (.audio a) (by rw [← hl]; rfl) rfl b h1]
    have e1 : (((N * lo : Nat):ℚ) * l) / lo = ((N * l : Nat):ℚ) := by push_cast; field_simp
    rw [e1, Nat.ceil_natCast]
  have hc : lo * (N * l) = N * lo * l := by ring
  refine ⟨b1, hb2, fun h2 => ⟨(C48_withStream _ _ _ h2).1, ?_⟩⟩
  rw [C49_partial a.rate rate lo (N * lo) (N * l) ha hr (by positivity) (by omega) (by omega) hloN (.audio b) (by rw [← hb2]; rfl)
    (by rw [← b1]; rfl) e h2]
  have e3 : ((lo:ℚ) * (N * l : Nat)) / (N * lo : Nat) = l := by push_cast; field_simp
  rw [e3, Nat.ceil_natCast]

/-- The lengths during all trips. -/
theorem trips_len {rate : F64} {lo N l n : Nat} {a e : Audio k c} (hr : rate.Is ((N * lo : Nat):ℚ))
    (ha : a.rate.Is (lo:ℚ)) (h0 : 0 < lo) (hp : 0 < N) (hl : a.len = l) (hN : N * lo * (l + 1) ≤ 2 ^ 51) (h : Trips rate n a e) :
    e.rate = a.rate ∧ e.len = l := by
  induction h with
  | none => exact ⟨rfl, hl⟩
  | more _ h1 h2 ih =>
    obtain ⟨i1, i2⟩ := ih ha hl
    rw [← i1] at ha
    obtain ⟨t1, t2⟩ := (trip_len hr ha h0 hp i2 hN h1).2.2 h2
    exact ⟨t1.trans i1, t2⟩

/-- Trips of `l` frames through the `N`-fold rate do not panic exactly if the rounding error of `1 / N`, summed over the frames on the
way back, is at most half of a unit in the last place of `l`. -/
theorem C158_ok_iff {rate : F64} {lo N l : Nat} {a : Audio k c} (hk : k.builtin = true) (hr : rate.Is ((N * lo : Nat):ℚ))
    (ha : a.rate.Is (lo:ℚ)) (h0 : 0 < lo) (hp : 0 < N) (hl : a.len = l) (hN : N * lo * (l + 1) ≤ 2 ^ 51) (n : Nat) :
    (∃ e, Trips rate (n + 1) a e) ↔ (binary64.rnd (1 / N) - 1 / N) * (N * l) ≤ 2 ^ ((Nat.log 2 l : ℤ) - 53) := by
  have hloN : N * lo ≤ 2 ^ 51 := le_trans (Nat.le_mul_of_pos_right _ (by omega)) hN
  have hlo51 : lo ≤ 2 ^ 51 := le_trans (Nat.le_mul_of_pos_left _ hp) hloN
  have hNlo : N ≤ N * lo := Nat.le_mul_of_pos_right _ h0
  have hNl : N * lo * l < 2 ^ 51 := by
    have : N * lo * (l + 1) = N * lo * l + N * lo := by ring
    have : 0 < N * lo := by positivity
    omega
  have hlq : (lo:ℚ) ≠ 0 := by exact_mod_cast h0.ne'
  have hNq : (N:ℚ) ≠ 0 := by exact_mod_cast hp.ne'
  have hc : lo * (N * l) = N * lo * l := by ring
  -- the way there
  have up : ∀ e : Audio k c, e.rate.Is (lo:ℚ) → e.len = l → ∃ b : Audio k c, Audio.withStream rate (.audio e) = .ok b := fun e e1 e2 => by
    refine with_ok_near hk hr e1 h0 (by positivity) hlo51 hloN (by rw [e2]; exact hNl) ?_
    have e3 : ((N * lo : Nat):ℚ) / lo = (N:ℕ) := by push_cast; field_simp
    rw [e3, rnd_of_rep (rep_nat53 (by omega))]
    exact le_mul_of_one_le_right N.cast_nonneg (by norm_num)
  -- the way back
  have back : ∀ e b : Audio k c, e.rate.Is (lo:ℚ) → e.len = l → Audio.withStream rate (.audio e) = .ok b →
      ((∃ e' : Audio k c, Audio.withStream e.rate (.audio b) = .ok e') ↔
        (binary64.rnd (1 / N) - 1 / N) * (N * l) ≤ 2 ^ ((Nat.log 2 l : ℤ) - 53)) := fun e b e1 e2 hb => by
    obtain ⟨b1, b2, -⟩ := trip_len (e := e) hr e1 h0 hp e2 hN hb
    rw [with_iff hk e1 (by rw [b1]; exact hr) (by positivity) h0 hloN hlo51 (by rw [b2, hc]; exact hNl), b2, hc,
      Nat.mul_div_cancel_left l (by positivity)]
    have e3 : (lo:ℚ) / ((N * lo : Nat):ℚ) = 1 / N := by push_cast; field_simp
    rw [e3, not_and, not_lt]
    push_cast
    exact ⟨fun h => h ⟨l, rfl⟩, fun h _ => h⟩
  constructor
  · rintro ⟨e, h⟩
    cases h with
    | @more _ _ e b e' h h1 h2 =>
      obtain ⟨t1, t2⟩ := trips_len hr ha h0 hp hl hN h
      exact (back e b (by rw [t1]; exact ha) t2 h1).mp ⟨_, h2⟩
  · intro hle
    have all : ∀ m, ∃ e, Trips rate m a e := fun m => by
      induction m with
      | zero => exact ⟨a, .none a⟩
      | succ m ih =>
        obtain ⟨e, h⟩ := ih
        obtain ⟨t1, t2⟩ := trips_len hr ha h0 hp hl hN h
        rw [← t1] at ha
        obtain ⟨b, hb⟩ := up e ha t2
        obtain ⟨e', he⟩ := (back e b ha t2 hb).mpr hle
        exact ⟨e', h.more hb he⟩
    exact all (n + 1)

/-- Up to 74 the rounding of `1 / N` is small enough. -/
theorem inv_up : ∀ N : Fin 75, binary64.rnd (1 / (N : Nat)) ≤ 1 / (N : Nat) * (1 + 2 ^ (-54 : ℤ)) := by decide +kernel

/-- Up to 48 also downwards. -/
theorem inv_down : ∀ N : Fin 49, 1 / ((N : Nat) : ℚ) * (1 - 2 ^ (-54 : ℤ)) ≤ binary64.rnd (1 / (N : Nat)) := by decide +kernel

/-- Trips through up to 74 times the rate never panic. -/
theorem C158_ok_74 {rate : F64} {lo N : Nat} {a : Audio k c} (hk : k.builtin = true) (hr : rate.Is ((N * lo : Nat):ℚ))
    (ha : a.rate.Is (lo:ℚ)) (h0 : 0 < lo) (hp : 0 < N) (h74 : N ≤ 74) (hN : N * lo * (a.len + 1) ≤ 2 ^ 51) (n : Nat) :
    ∃ e, Trips rate n a e := by
  obtain ⟨e, h, -⟩ := C158_ok_near hk hr ha h0 hp rfl hN (by omega) (inv_up ⟨N, by omega⟩) n
  exact ⟨e, h⟩

/-- 74 is the best bound: seven frames never come back from 75 times the rate. -/
theorem C158_panics {rate : F64} {lo : Nat} {a : Audio k c} (hk : k.builtin = true) (hr : rate.Is ((75 * lo : Nat):ℚ))
    (ha : a.rate.Is (lo:ℚ)) (h0 : 0 < lo) (hl : a.len = 7) (hN : 75 * lo * (7 + 1) ≤ 2 ^ 51) (n : Nat) :
    ¬ ∃ e, Trips rate (n + 1) a e := by
  rw [C158_ok_iff hk hr ha h0 (by decide) hl hN n]
  have : ¬ (binary64.rnd (1 / (75 : Nat)) - 1 / (75 : Nat)) * ((75 : Nat) * (7 : Nat)) ≤ 2 ^ ((2 : ℤ) - 53) := by decide +kernel
  have h7 : Nat.log 2 7 = 2 := by decide +kernel
  rw [h7]
  exact this

/-- C158 for the factors up to 48, with no condition on the length: no trip panics, and every trip of a quiet signal changes float samples by
no more than `tripErr`. -/
theorem C158_48 {rate : F64} {lo N l : Nat} {a : Audio k c} (hk : k.builtin = true) (hr : rate.Is ((N * lo : Nat):ℚ))
    (ha : a.rate.Is (lo:ℚ)) (h0 : 0 < lo) (hN2 : 2 ≤ N) (h48 : N ≤ 48) (hl : a.len = l) (hN : N * lo * (l + 1) ≤ 2 ^ 48) (n : Nat)
    {ch : Nat} (hch : ch < k.chans) {w : Nat → ℚ} (hw : ∀ j f, a.get j = some f → SampleVal c f[ch] (w j))
    (hquiet : ∀ j, (|w j| + n * tripErr c N l) * (N + 1) + mixErr c * (N + 5) ≤ 1) (hend : ∀ j, l ≤ j → w j = 0) :
    ∃ e : Audio k c, Trips rate n a e ∧ e.rate = a.rate ∧ e.len = l ∧ ∃ v : Nat → ℚ,
      (∀ j f, e.get j = some f → SampleVal c f[ch] (v j)) ∧ ∀ j, |v j - w j * (gain c N / N) ^ n| ≤ n * tripErr c N l := by
  have hlN : l + 1 ≤ N * lo * (l + 1) := Nat.le_mul_of_pos_left _ (by positivity)
  obtain ⟨e, h⟩ := C158_ok_74 hk hr ha h0 (by omega) (by omega) (by rw [hl]; omega) n
  have hfit : (l:ℚ) ≤ binary64.rnd (binary64.rnd (1 / N) * (N * l)) := by
    refine rnd_near_nat (by omega) ?_
    have hNq : (N:ℚ) ≠ 0 := by have : N ≠ 0 := by omega
                               exact_mod_cast this
    have h1 := mul_le_mul_of_nonneg_right (inv_down ⟨N, by omega⟩) (show (0:ℚ) ≤ N * l by positivity)
    refine le_trans (le_of_eq ?_) h1
    field_simp
  obtain ⟨t1, t2, v, t3, _, t4⟩ := C158_near hk hr ha h0 hN2 (by omega) hl hN hfit h hch hw hquiet hend
  exact ⟨e, h, t1, t2, v, t3, t4⟩

/-- The whole multiples among the usual rates. -/
theorem usual_multiple : ∀ lo ∈ usualRates, ∀ hi ∈ usualRates, lo ∣ hi → 0 < hi / lo ∧ hi / lo ≤ 48 := by decide

/-- Trips from one of the usual rates through a multiple of it that is a usual rate, too, never panic. -/
theorem C158_usual {rate : F64} {lo hi : Nat} {a : Audio k c} (hk : k.builtin = true) (hr : rate.Is (hi:ℚ)) (ha : a.rate.Is (lo:ℚ))
    (h1 : lo ∈ usualRates) (h2 : hi ∈ usualRates) (hd : lo ∣ hi) (hN : hi * (a.len + 1) ≤ 2 ^ 51) (n : Nat) : ∃ e, Trips rate n a e := by
  obtain ⟨m1, m2⟩ := usual_multiple lo h1 hi h2 hd
  have hm : hi / lo * lo = hi := Nat.div_mul_cancel hd
  exact C158_ok_74 (N := hi / lo) hk (by rw [hm]; exact hr) ha (usual_range lo h1).1 m1 (by omega) (by rw [hm]; exact hN) n

/-! ## Examples -/

example : ∃ e, Trips (lit 192000) 100 (⟨lit 8000, List.replicate 7 #v[5#16, 9#16]⟩ : Audio .stereo .ch16) e :=
  C158_usual (lo := 8000) (hi := 192000) rfl (by decide +kernel) (by decide +kernel) (by decide) (by decide) (by decide) (by decide) 100

/-- Seven frames. -/
def exSeven : Audio .stereo .ch16 := ⟨lit 8, List.replicate 7 #v[5#16, 9#16]⟩

example : ¬ ∃ e, Trips (lit 600) 1 exSeven e :=
  C158_panics (lo := 8) rfl (by decide +kernel) (by decide +kernel) (by decide) rfl (by decide) 0

example : ∃ e, Trips (lit 592) 100 exSeven e :=
  C158_ok_74 (lo := 8) (N := 74) rfl (by decide +kernel) (by decide +kernel) (by decide) (by decide) (by decide) (by decide) 100

/-- Three frames do come back from 75 times the rate. -/
example : ∃ e, Trips (lit 600) 100 (⟨lit 8, List.replicate 3 #v[5#16]⟩ : Audio .mono .ch16) e :=
  (C158_ok_iff (lo := 8) (N := 75) (l := 3) rfl (by decide +kernel) (by decide +kernel) (by decide) (by decide) rfl (by decide) 99).mpr (by
    have h3 : Nat.log 2 3 = 1 := by decide +kernel
    rw [h3]
    decide +kernel)

example : ∃ (e : Audio .mono .ch64) (v : Nat → ℚ), Trips (lit 24) 100 exLow e ∧ (∀ j f, e.get j = some f → SampleVal .ch64 f[0] (v j)) ∧
    ∀ j, |v j - exLowVal j * (gain .ch64 (3 : Nat) / (3 : Nat)) ^ 100| ≤ (100 : Nat) * tripErr .ch64 3 2 := by
  obtain ⟨e, h, _, _, v, v1, v2⟩ := C158_48 (rate := lit 24) (lo := 8) (N := 3) (l := 2) (a := exLow) rfl (by decide +kernel)
    (by decide +kernel) (by decide) (by decide) (by decide) rfl (by decide) 100 (ch := 0) (by decide) exLow_val
    (fun j => (add_le_add (mul_le_mul_of_nonneg_right (add_le_add (exLow_le j) le_rfl) (by norm_num)) le_rfl).trans (by decide +kernel)) exLow_end
  exact ⟨e, v, h, v1, v2⟩

end Fon
