import Verif.Props.Convert
import Verif.Props.Stable

/-!
# Changing the format after resampling, when the rate goes up
-/

namespace Fon
open Fon.Fl hiding min max
open Fon.Fmt Fon.Sink
variable {k : Kind} {c d : ChTy}

/-- C132 for a change of the format after resampling, when the rate goes up: between two integer formats and between two float
formats streaming into a sink of another format gives what streaming into a sink of the format of the stream and converting
its slots gives, up to the errors of `C101_mix` in the two formats and of the conversions. -/
theorem C132_up (fuel fuel' : Nat) (s s' : Sink k c) (t t' : Sink k d) (st : Src k c) (it it' : It k c)
    (hk : k.builtin = true) (hcd : gain c = gain d) (h : s.stream fuel st = .ok (s', it)) (h' : t.stream fuel' st = .ok (t', it'))
    (hrt : t.rate = s.rate) (hbt : t.buf.length = s.buf.length)
    (ho : s.res.offseti = lit 0) (ho' : t.res.offseti = lit 0) (r : ℚ)
    (hq : (ratioOf s.rate st.rate).Is r) (hr : 1 ≤ r) (hr1 : r ≤ 2 ^ 20) (hb : s.buf.length ≤ 2 ^ 51)
    (hw : ∀ j f, st.nth j = .ok (some f) → ∀ i (hi : i < k.chans), (∃ w, SampleVal c f[i] w ∧ |w| ≤ 1) ∧
      ∃ w, SampleVal d (d.ofF64 (c.toF64 f[i])) w ∧ |w| ≤ 1)
    (x : Nat) (hx : InDst (ratioOf s.rate st.rate) st.len s.buf.length x) :
    ∃ (y : Frame k c) (m z : Frame k d), s'.buf[x]? = some y ∧ y.convert d = .ok m ∧ t'.buf[x]? = some z ∧
      ∀ i (hi : i < k.chans), ∃ a b : ℚ, SampleVal d m[i] a ∧ SampleVal d z[i] b ∧
      |b - a| ≤ mixErr c * (r + 5) + mixErr d * (r + 5) +
        (convErr c d * (r + 2 * ((s.buf.length + 1) * 2 ^ (-53 : ℤ))) + convErr c d) := by
  obtain ⟨n, g, a1, a2, a0, _⟩ := C58_mix fuel s s' st it h
  obtain ⟨n', g', b1, b2, b0, _⟩ := C58_mix fuel' t t' st it' h'
  rw [ho] at a1 a0
  rw [ho', hrt, hbt] at b1
  rw [ho', hrt, hbt] at b0
  cases takes_unique b1 a1
  have hg : ∀ l, l < n → ∃ f, st.nth l = .ok (some f) ∧ g l = f ∧ g' l = f.map (fun x => d.ofF64 (c.toF64 x)) := by
    intro l hl
    obtain ⟨f, f1, f2⟩ := a2 l hl
    obtain ⟨f', f1', f2'⟩ := b2 l hl
    rw [f1] at f1'
    cases f1'
    rw [C21_id hk] at f2
    rw [C21_inplace hk] at f2'
    cases f2
    exact ⟨_, f1, rfl, (Except.ok.inj f2').symm⟩
  refine ⟨_, _, _, a0 x hx, C21_inplace hk _, b0 x hx, fun i hi => ?_⟩
  have hE : 0 < convErr c d := by cases c <;> cases d <;> norm_num [convErr, scaleErr, downErr]
  have hv : ∀ l, ∃ u w : ℚ, |u| ≤ 1 ∧ |w| ≤ 1 ∧ |w - u| ≤ convErr c d ∧
      (l < n → SampleVal c (g l)[i] u ∧ SampleVal d (g' l)[i] w) := by
    intro l
    by_cases hl : l < n
    · obtain ⟨f, f1, f2, f3⟩ := hg l hl
      obtain ⟨⟨u, u1, u2⟩, ⟨w, w1, w2⟩⟩ := hw l f f1 i hi
      obtain ⟨w', w1', w2'⟩ := conv_val (d := d) u1 (valid_of u1 u2)
      have : w' = w := by
        cases d
        · exact Eq.trans w1' (Eq.symm w1)
        · exact Eq.trans w1' (Eq.symm w1)
        · exact Fl.Is.unique w1' w1
        · exact Fl.Is.unique w1' w1
      subst this
      exact ⟨u, w', u2, w2, w2', fun _ => ⟨by rw [f2]; exact u1, by rw [f3, Vector.getElem_map]; exact w1⟩⟩
    · exact ⟨0, 0, by simp, by simp, by simpa using hE.le, fun h => absurd h hl⟩
  choose u w hu hw' hm hval using hv
  obtain ⟨hn, hp, hlt, hmono⟩ := up_pos hq hr hr1 (by omega) a1
  have hP : ∀ j, j < n → (posOf (ratioOf s.rate st.rate) (lit 0) j).Is (binary64.rnd (r * j)) ∧ 0 ≤ binary64.rnd (r * j) ∧
      binary64.rnd (r * j) < 2 ^ 64 := fun j hj => by
    refine ⟨(hp j (by omega)).2.1, (hp j (by omega)).2.2.1, (hlt j hj).trans_le ?_⟩
    have : (s.buf.length:ℚ) ≤ 2 ^ 51 := by exact_mod_cast hb
    linarith
  obtain ⟨p, p1, p2, -⟩ := up_mixed (k := k) (c := c) hq hr hr1 i hi (fun j => binary64.rnd (r * j)) u g x n hP
    (fun j j' h1 h2 => hmono j j' h1 h2.le) (fun j hj => ⟨val_of (hval j hj).1 (hu j), hu j⟩)
  obtain ⟨b, q1, q2, -⟩ := up_mixed (k := k) (c := d) hq hr hr1 i hi (fun j => binary64.rnd (r * j)) w g' x n hP
    (fun j j' h1 h2 => hmono j j' h1 h2.le) (fun j hj => ⟨val_of (hval j hj).2 (hw' j), hw' j⟩)
  obtain ⟨a, m1, m3⟩ := conv_val (d := d) (of_val p1) (mixed_valid _ _ _ _ _ _ _)
  refine ⟨a, b, by rw [Vector.getElem_map]; exact m1, of_val q1, ?_⟩
  have hS := share_le c hr (η := (s.buf.length + 1) * 2 ^ (-53 : ℤ))
    (mul_nonneg (by positivity) (two_zpow_pos _).le) (fun j => binary64.rnd (r * j)) n x
    (fun j hj => up_acc hq hr hr1 hb a1 j hj) (fun j j' h1 h2 => hmono j j' h1 h2.le)
  have hT := share_abs c hr _ (fun j => w j - u j) n x hE.le (fun j _ => hm j) hS
  simp only [sub_mul, Finset.sum_sub_distrib] at hT
  have hcd' : ∀ j : ℕ, upShare d r x (binary64.rnd (r * j)) = upShare c r x (binary64.rnd (r * j)) := fun j => by
    unfold upShare; rw [hcd]
  simp only [hcd'] at q2
  have hc := (clampQ_lip (∑ j ∈ Finset.range n, w j * upShare c r x (binary64.rnd (r * j)))
    (∑ j ∈ Finset.range n, u j * upShare c r x (binary64.rnd (r * j)))).trans hT
  generalize convErr c d * (r + 2 * (((s.buf.length:ℚ) + 1) * 2 ^ (-53 : ℤ))) = A at *
  rw [abs_le] at *
  constructor <;> linarith [p2.1, p2.2, q2.1, q2.2, m3.1, m3.2, hc.1, hc.2]

/-- Four stereo samples of 16 bit at 12 Hz, five slots of 16 and of 8 bit at 18 Hz. -/
example := C132_up (k := .stereo) (c := .ch16) (d := .ch8) 6 6 ⟨lit 18, .dflt, List.replicate 5 Frame.dflt⟩ _
  ⟨lit 18, .dflt, List.replicate 5 Frame.dflt⟩ _ (.audio exFour) _ _ rfl rfl
  (R.returns₂ (x := (⟨lit 18, .dflt, List.replicate 5 Frame.dflt⟩ : Sink .stereo .ch16).stream 6 (.audio exFour)) (by decide +kernel))
  (R.returns₂ (x := (⟨lit 18, .dflt, List.replicate 5 Frame.dflt⟩ : Sink .stereo .ch8).stream 6 (.audio exFour)) (by decide +kernel))
  rfl rfl rfl rfl (3 / 2) (by decide +kernel) (by norm_num) (by norm_num) (by decide) (by
    intro j f hf i hi
    match j with
    | 0 | 1 | 2 | 3 =>
      cases hf
      obtain rfl | rfl : i = 0 ∨ i = 1 := by change i < 2 at hi; omega
      all_goals exact ⟨⟨_, rfl, by decide +kernel +revert⟩, _, rfl, by decide +kernel +revert⟩
    | j + 4 => cases hf) 1 (by decide +kernel)

/-- When the rate goes up the order matters between integer and float formats: a sample of a quarter, in a sink of half the
time per slot, is written as it is in 16 bit, and as a half in a float format. -/
theorem C132_up_false :
    ((Audio.withStream (lit 24) (.audio ⟨lit 12, [#v[8192#16]]⟩ : Src .mono .ch16) : R (Audio .mono .ch16)).bind fun b =>
      (Audio.withStream (lit 24) (.audio b) : R (Audio .mono .ch64))).map (·.frames) =
        .ok [#v[lit ((8192 * 2 + 1) / 65535)], #v[lit (1 / 65535)]] ∧
    (Audio.withStream (lit 24) (.audio ⟨lit 12, [#v[8192#16]]⟩ : Src .mono .ch16) : R (Audio .mono .ch64)).map (·.frames) =
      .ok [#v[lit ((8192 * 2 + 1) * 2 / 65535)], #v[lit 0]] := by
  refine ⟨by decide +kernel, by decide +kernel⟩

end Fon
