import Verif.Props.Mix

/-!
# C110: the context of the resampler can be saved and restored
-/

namespace Fon
open Fon.Fl hiding min max
open Fon.Fmt Fon.Sink
variable {k k' : Kind} {c c' : ChTy}

/-- C110: `new`, `frame` and `index` are consistent. -/
theorem C110_new (f : Frame k c) (x : F64) : (Resampler.new f x).frame = f ∧ (Resampler.new f x).index = x := ⟨rfl, rfl⟩

/-- C110: a sink with a context made from `frame()` and `index()` goes on like the old one. -/
theorem C110_restore (s : Sink k c) :
    let t : Sink k c := ⟨s.rate, Resampler.new s.res.frame s.res.index, s.buf⟩
    t.flush = s.flush ∧ ∀ (k' : Kind) (c' : ChTy) (fuel : Nat) (st : Src k' c'), t.stream fuel st = s.stream fuel st :=
  ⟨rfl, fun _ _ _ _ => rfl⟩

/-- C110: what `frame()` and `index()` are after a stream of which `n` frames were taken. -/
theorem C110_after (fuel : Nat) (s s' : Sink k c) (st : Src k' c') (it : It k' c') (h : s.stream fuel st = .ok (s', it)) :
    ∃ (n : Nat) (g : Nat → Frame k c), Takes (ratioOf s.rate st.rate) s.res.index st.len s.buf.length n ∧
      (∀ j, j < n → ∃ f, st.nth j = .ok (some f) ∧ f.convert c = .ok (g j)) ∧
      s'.res.index = s.res.index.add ((ratioOf s.rate st.rate).mul (f64OfUsize n)) ∧
      s'.res.frame = leftOver (ratioOf s.rate st.rate) s.res.index st.len s.buf.length g n s.res.frame := by
  obtain ⟨n, g, a1, a2, _, a4, a5, _⟩ := C58_mix fuel s s' st it h
  exact ⟨n, g, a1, a2, a5, a4⟩

example := C110_after 6 (exSink 3 8) _ (.audio (exAudio 12)) _
  (R.returns₂ (x := (exSink 3 8).stream 6 (.audio (exAudio 12))) (by decide +kernel))

/-- C110: `index()` after an endless stream into a fresh sink is the position of the next frame, less than one source
frame behind the end of the buffer.  (It counts from the start of the buffer, see `C76_false` for what that means for
the next buffer.) -/
theorem C110_index (fuel : Nat) (s s' : Sink k c) (st : Src k' c') (it : It k' c') (h : s.stream fuel st = .ok (s', it))
    (hl : st.len = none) (ho : s.res.index = lit 0) (r : ℚ) (hq : (ratioOf s.rate st.rate).Is r) (hr : 0 < r)
    (hr1 : r ≤ 2 ^ 20) (hB : s.buf.length ≤ 2 ^ 52) (hb : (s.buf.length : ℚ) ≤ r * 2 ^ 53) :
    ∃ p, s'.res.index.Is p ∧ (s.buf.length : ℚ) ≤ p ∧ p ≤ binary64.rnd (s.buf.length + r) := by
  obtain ⟨n, g, a1, _, a3, _⟩ := C110_after fuel s s' st it h
  rw [ho] at a1 a3
  rw [hl] at a1
  set q := ratioOf s.rate st.rate
  set B := s.buf.length
  have hp : ∀ j : ℕ, j ≤ 2 ^ 53 → (q.mul (f64OfUsize j)).Is (binary64.rnd (r * j)) ∧
      (posOf q (lit 0) j).Is (binary64.rnd (r * j)) := by
    intro j hj
    have hjq : (j:ℚ) ≤ 2 ^ 53 := by exact_mod_cast hj
    have h1 : (q.mul (f64OfUsize j)).Is (binary64.rnd (r * j)) := by
      refine hq.mul (is_usize hj) (small ?_)
      rw [abs_of_nonneg (by positivity)]
      calc r * j ≤ 2 ^ 20 * 2 ^ 53 := mul_le_mul hr1 hjq (by positivity) (by norm_num)
        _ ≤ _ := by norm_num
    exact ⟨h1, add_zero' h1 is_zero⟩
  have hgB : binary64.Gen (B:ℚ) := (rep_nat53 (by omega)).gen
  have hn : n ≤ 2 ^ 53 := by
    by_contra hc
    have h2 : (B:ℚ) ≤ binary64.rnd (r * (2 ^ 53 : ℕ)) := le_rnd_of_gen hgB (by push_cast; exact hb)
    have := le_toUsize (hp (2 ^ 53) le_rfl).2 h2 (by omega)
    have := (a1.1 (2 ^ 53) (by omega)).1
    omega
  obtain ⟨p1, p2⟩ := hp n hn
  refine ⟨binary64.rnd (r * n), ?_, ?_, ?_⟩
  · rw [a3]
    have e : binary64.rnd (0 + binary64.rnd (r * n)) = binary64.rnd (r * n) := by rw [zero_add, rnd_rnd]
    have := is_zero.add p1 (by rw [e]; exact p1.rep.le_maxF)
    rwa [e] at this
  · rcases a1.2.2 with h' | h'
    · cases h'
    · by_contra hc
      refine h' ⟨?_, nofun⟩
      rw [toUsize_is p2 (rnd_nonneg (by positivity)) (by
        have : (B:ℚ) ≤ 2 ^ 52 := by exact_mod_cast hB
        linarith [not_le.mp hc])]
      have := Int.floor_nonneg.mpr (rnd_nonneg (f := binary64) (show 0 ≤ r * n by positivity))
      have := Int.floor_lt.mpr (show binary64.rnd (r * n) < ((B:ℤ):ℚ) by push_cast; exact not_le.mp hc)
      omega
  · refine rnd_mono ?_
    rcases Nat.eq_zero_or_pos n with h0 | h0
    · rw [h0]; push_cast; have : (0:ℚ) ≤ B := by positivity
      linarith
    · have hlt := (a1.1 (n - 1) (by omega)).1
      have : r * ((n - 1 : ℕ):ℚ) < B := by
        by_contra hc
        have := le_toUsize (hp (n - 1) (by omega)).2 (le_rnd_of_gen hgB (not_lt.mp hc)) (by omega)
        omega
      rw [Nat.cast_sub h0] at this
      push_cast at this
      linarith

/-- An endless tone. -/
def exTone : Src .mono .ch8 := .user (some (lit 12)) true none (fun i => #v[BitVec.ofNat 8 (10 * i)])

example := C110_index 6 (exSink 3 8) _ exTone _
  (R.returns₂ (x := (exSink 3 8).stream 6 exTone) (by decide +kernel)) rfl rfl (Fmt.rnd binary64 (2 / 3))
  (by decide +kernel) (by decide +kernel) (by decide +kernel) (by decide +kernel) (by decide +kernel)

/-- After five frames of rate 12 into three slots of rate 8, a part of the last frame is left over. -/
example : ((⟨lit 8, Resampler.dflt, List.replicate 2 #v[0#8]⟩ : Sink .mono .ch8).stream 6
    (.audio (k := .mono) (c := .ch8) ⟨lit 16, List.replicate 4 #v[100#8]⟩)).map (fun r => (r.1.res.frame, r.1.res.index)) =
    .ok (#v[49#8], lit 2) ∧ (Resampler.new (k := .mono) (c := .ch8) #v[50#8] (lit 2)).frame = #v[50#8] := by
  decide +kernel

end Fon
