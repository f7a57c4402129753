import Verif.Props.Stream

/-!
# The loop of `Sink::stream`
-/

namespace Fon
open Fmt Fl
variable {k k' : Kind} {c c' : ChTy}

theorem usizeMax_eq : usizeMax = 18446744073709551615 := by unfold usizeMax; norm_num

/-- A nonnegative float with a fractional part is below `2 ^ prec`. -/
theorem lt_of_fract {f : Fmt} {q : ℚ} (h : f.Rep q) (h0 : 0 ≤ q) (hf : q ≠ ⌊q⌋) : q < 2 ^ f.prec := by
  obtain ⟨m, e, h1, h2, h3⟩ := h.gen
  rcases lt_or_ge e 0 with he | he
  · have hm : (m:ℚ) < 2 ^ f.prec := by
      have := (abs_lt.mp h1).2
      exact_mod_cast this
    have hm0 : (0:ℚ) ≤ m := by
      by_contra hneg
      push Not at hneg
      have := mul_neg_of_neg_of_pos hneg (two_zpow_pos e)
      rw [← h3] at this; linarith
    have : (2:ℚ) ^ e ≤ 1 := zpow_le_one_of_nonpos₀ (by norm_num) he.le
    calc q = m * 2 ^ e := h3
      _ ≤ m * 1 := by gcongr
      _ < 2 ^ f.prec := by simpa using hm
  · exfalso
    apply hf
    obtain ⟨n, rfl⟩ := Int.eq_ofNat_of_zero_le he
    have : q = ((m * 2 ^ n : ℤ) : ℚ) := by rw [h3]; push_cast; simp
    rw [this, Int.floor_intCast]

/-- The value of `ceil_usize`. -/
def ceilU (j : F64) : Nat := if Fl.lt Fl.epsilon (j.rem (Fl.lit 1)) then j.toUsize + 1 else j.toUsize

/-- `ceil_usize` never overflows: a float with a fractional part is below 2^53. -/
theorem ceilUsize_ok (j : F64) : Math.ceilUsize j = .ok (ceilU j) := by
  unfold Math.ceilUsize ceilU
  split
  · rename_i h
    have hlt : (j.toUsize : ℤ) + 1 ≤ usizeMax := by
      cases j with
      | nan =>
        obtain ⟨_, _, e⟩ := (is_epsilon : (Fl.epsilon : F64).Is _)
        rw [e] at h; cases h
      | inf s =>
        obtain ⟨_, _, e⟩ := (is_epsilon : (Fl.epsilon : F64).Is _)
        obtain ⟨_, _, e1⟩ := (is_one : (Fl.lit 1 : F64).Is _)
        rw [e, e1] at h; cases h
      | fin q nz hh =>
        have hq : (Fl.fin q nz hh : F64).Is q := ⟨_, _, rfl⟩
        rcases lt_or_ge q 0 with h0 | h0
        · rw [usizeMax_eq]
          have : (Fl.fin q nz hh : F64).toUsize = 0 := by
            unfold Fl.toUsize Fl.toIntSat
            simp only
            rw [truncQ_neg h0]
            have : 0 ≤ ⌊-q⌋ := Int.floor_nonneg.mpr (by linarith)
            rw [usizeMax_eq]; omega
          rw [this]; norm_num
        · have hr := hq.rem_one h0
          rw [is_epsilon.lt hr, decide_eq_true_eq] at h
          have hf : q ≠ ⌊q⌋ := by
            intro he
            have : q - ⌊q⌋ = 0 := by linarith
            rw [this] at h
            exact absurd h (not_lt.mpr (two_zpow_pos _).le)
          have hlt := lt_of_fract hh.1 h0 hf
          have hfl : ⌊q⌋ < 2 ^ 53 := by
            have : (⌊q⌋:ℚ) < ((2 ^ 53 : ℤ):ℚ) := by
              push_cast
              exact lt_of_le_of_lt (Int.floor_le q) hlt
            exact_mod_cast this
          have h1 : 0 ≤ ⌊q⌋ := Int.floor_nonneg.mpr h0
          unfold Fl.toUsize Fl.toIntSat
          simp only
          rw [truncQ_nonneg h0, usizeMax_eq]
          norm_num at hfl
          omega
    simp only [h, hlt, if_true]
  · rename_i h
    simp only [h]; rfl

namespace Sink

/-- Destination position of frame `i` (streaming.rs:100). -/
def pos (ratio off : F64) (i : Nat) : F64 := (ratio.mul (f64OfUsize i)).add off
/-- Weight of the later slot (streaming.rs:107). -/
def wCeil (ratio off : F64) (i : Nat) : F64 := ((pos ratio off i).rem (Fl.lit 1)).min ratio
/-- Weight of the earlier slot (streaming.rs:109). -/
def wFloor (ratio off : F64) (i : Nat) : F64 := ratio.sub (wCeil ratio off i)

/-- Adding frame `i` to the buffer and the left over frame (streaming.rs:116-121). -/
def place (ratio off : F64) (dstEnd i : Nat) (src : Frame k c) (st : List (Frame k c) × Frame k c) :
    List (Frame k c) × Frame k c :=
  let buf := st.1.modify (pos ratio off i).toUsize
    (fun b => b.add (src.mul (Frame.ofF64 (wFloor ratio off i))))
  if ceilU (pos ratio off i) < dstEnd then
    (buf.modify (ceilU (pos ratio off i))
      (fun b => b.add (src.mul (Frame.ofF64 (wCeil ratio off i)))), st.2)
  else (buf, st.2.add (src.mul (Frame.ofF64 (wCeil ratio off i))))

/-- Adding frames `i .. i + n`. -/
def placeN (ratio off : F64) (dstEnd : Nat) (g : Nat → Frame k c) :
    Nat → Nat → List (Frame k c) × Frame k c → List (Frame k c) × Frame k c
  | _, 0, st => st
  | i, n + 1, st => placeN ratio off dstEnd g (i + 1) n (place ratio off dstEnd i (g i) st)

theorem place_length (ratio off : F64) (dstEnd i : Nat) (src : Frame k c) (st) :
    (place ratio off dstEnd i src st).1.length = st.1.length := by
  unfold place; simp only []; split <;> simp

theorem placeN_length (ratio off : F64) (dstEnd : Nat) (g : Nat → Frame k c) (i n : Nat) (st) :
    (placeN ratio off dstEnd g i n st).1.length = st.1.length := by
  induction n generalizing i st with
  | zero => rfl
  | succ n ih => rw [placeN, ih, place_length]

/-- Frame `i` of a stream, converted. -/
def Conv (st : Src k' c') (i : Nat) (x : Frame k c) : Prop :=
  ∃ f, st.nth i = .ok (some f) ∧ f.convert c = .ok x

/-- What the loop does: some number `n` of frames are placed, then it stops because the position
leaves the range or because the stream ends. -/
theorem loop_run (ratio : F64) (dstEnd : Nat) (srclen : Option Nat) (st : Src k' c') (fuel i : Nat)
    (s : Sink k c) (hb : dstEnd ≤ s.buf.length) (r : Sink k c × It k' c' × Option Nat)
    (h : loop ratio dstEnd srclen fuel i s (st.iterAt i) = .ok r) :
    ∃ n g, n < fuel ∧
      (∀ j, i ≤ j → j < i + n → (pos ratio s.res.offseti j).toUsize < dstEnd ∧ Conv st j (g j)) ∧
      (r.1.buf, r.1.res.partial_) =
        placeN ratio s.res.offseti dstEnd g i n (s.buf, s.res.partial_) ∧
      r.1.rate = s.rate ∧ r.1.res.offseti = s.res.offseti ∧
      ((¬ (pos ratio s.res.offseti (i + n)).toUsize < dstEnd ∧ r.2.1 = st.iterAt (i + n) ∧
          r.2.2 = some (i + n)) ∨
       ((pos ratio s.res.offseti (i + n)).toUsize < dstEnd ∧ st.nth (i + n) = .ok none ∧
          (st.iterAt (i + n)).next = .ok (none, r.2.1) ∧ r.2.2 = srclen)) := by
  induction fuel generalizing i s with
  | zero => cases h
  | succ fuel ih =>
    unfold loop at h
    dsimp only at h
    rw [ceilUsize_ok] at h
    simp only at h
    by_cases hfl : (pos ratio s.res.offseti i).toUsize < dstEnd
    · have hfl' : ((ratio.mul (f64OfUsize i)).add s.res.offseti).toUsize < dstEnd := hfl
      rw [if_neg (not_not.mpr hfl')] at h
      cases ho : st.nth i with
      | error e => rw [st.next_err i e ho] at h; cases h
      | ok o => cases o with
        | none =>
          obtain ⟨it, hit⟩ := st.next_none i ho
          rw [hit] at h
          cases h
          exact ⟨0, fun _ => Frame.dflt, by omega, by intro j h1 h2; omega, rfl, rfl, rfl,
            .inr ⟨hfl, ho, hit, rfl⟩⟩
        | some f =>
          rw [st.next_some i f ho] at h
          simp only at h
          cases hc : (f.convert c : R (Frame k c)) with
          | error e => rw [hc] at h; cases h
          | ok x =>
            rw [hc] at h
            simp only at h
            rw [show modAt s.buf ((ratio.mul (f64OfUsize i)).add s.res.offseti).toUsize _ = .ok _ from
              if_pos (by omega)] at h
            simp only at h
            have key : ∀ (s' : Sink k c), dstEnd ≤ s'.buf.length → s'.rate = s.rate →
                s'.res.offseti = s.res.offseti →
                (s'.buf, s'.res.partial_) = place ratio s.res.offseti dstEnd i x (s.buf, s.res.partial_) →
                loop ratio dstEnd srclen fuel (i + 1) s' (st.iterAt (i + 1)) = .ok r → ∃ n g, n < fuel + 1 ∧
      (∀ j, i ≤ j → j < i + n → (pos ratio s.res.offseti j).toUsize < dstEnd ∧ Conv st j (g j)) ∧
      (r.1.buf, r.1.res.partial_) =
        placeN ratio s.res.offseti dstEnd g i n (s.buf, s.res.partial_) ∧
      r.1.rate = s.rate ∧ r.1.res.offseti = s.res.offseti ∧
      ((¬ (pos ratio s.res.offseti (i + n)).toUsize < dstEnd ∧ r.2.1 = st.iterAt (i + n) ∧
          r.2.2 = some (i + n)) ∨
       ((pos ratio s.res.offseti (i + n)).toUsize < dstEnd ∧ st.nth (i + n) = .ok none ∧
          (st.iterAt (i + n)).next = .ok (none, r.2.1) ∧ r.2.2 = srclen)) :=
              fun s' hb' hr ho' hp hl => by
                obtain ⟨n, g, a1, a2, a3, a4, a5, a6⟩ := ih (i + 1) s' hb' hl
                rw [ho'] at a2 a3 a5 a6
                have g1 : ∀ j, i + 1 ≤ j → (fun j => if j = i then x else g j) j = g j := by
                  intro j hj; simp; intro hj'; omega
                refine ⟨n + 1, fun j => if j = i then x else g j, by omega, ?_, ?_, ?_, a5, ?_⟩
                · intro j h1 h2
                  rcases Nat.eq_or_lt_of_le h1 with rfl | h1
                  · exact ⟨hfl, by simp only [if_true]; exact ⟨f, ho, hc⟩⟩
                  · rw [g1 j h1]; exact a2 j h1 (by omega)
                · rw [a3, placeN, hp]
                  simp only [if_true]
                  have : ∀ m i' st', i + 1 ≤ i' → placeN ratio s.res.offseti dstEnd g i' m st' =
                      placeN ratio s.res.offseti dstEnd (fun j => if j = i then x else g j) i' m st' := by
                    intro m
                    induction m with
                    | zero => intros; rfl
                    | succ m ihm =>
                      intro i' st' hi'
                      rw [placeN, placeN, if_neg (by omega), ihm _ _ (by omega)]
                  exact this n (i + 1) _ (le_refl _)
                · rw [a4, hr]
                · rwa [show i + 1 + n = i + (n + 1) by omega] at a6
            split at h
            · rename_i hce
              rw [show modAt (s.buf.modify _ _) (ceilU ((ratio.mul (f64OfUsize i)).add s.res.offseti)) _
                = .ok _ from if_pos (by simp; omega)] at h
              simp only at h
              refine key _ ?_ ?_ ?_ ?_ h
              · simpa using hb
              · rfl
              · rfl
              · unfold place
                simp only
                rw [if_pos (show ceilU (pos ratio s.res.offseti i) < dstEnd from hce)]
                rfl
            · rename_i hce
              refine key _ ?_ ?_ ?_ ?_ h
              · simpa using hb
              · rfl
              · rfl
              · unfold place
                simp only
                rw [if_neg (show ¬ ceilU (pos ratio s.res.offseti i) < dstEnd from hce)]
                rfl
    · have hfl' : ¬ ((ratio.mul (f64OfUsize i)).add s.res.offseti).toUsize < dstEnd := hfl
      rw [if_pos hfl'] at h
      cases h
      exact ⟨0, fun _ => Frame.dflt, by omega, by intro j h1 h2; omega, rfl, rfl, rfl,
        .inl ⟨hfl, rfl, rfl⟩⟩

/-- The loop returns if it has a reason to stop in reach and no frame panics before. -/
theorem loop_ok (ratio : F64) (dstEnd : Nat) (srclen : Option Nat) (st : Src k' c') (fuel i m : Nat)
    (s : Sink k c) (hb : dstEnd ≤ s.buf.length) (him : i ≤ m) (hf : m < i + fuel)
    (hn : ∀ j, i ≤ j → j ≤ m → (pos ratio s.res.offseti j).toUsize < dstEnd → ∃ o, st.nth j = .ok o)
    (hc : ∀ j f, i ≤ j → j < m → (pos ratio s.res.offseti j).toUsize < dstEnd →
      st.nth j = .ok (some f) → ∃ x : Frame k c, f.convert c = .ok x)
    (hm : ¬ (pos ratio s.res.offseti m).toUsize < dstEnd ∨ st.nth m = .ok none) :
    ∃ r, loop ratio dstEnd srclen fuel i s (st.iterAt i) = .ok r := by
  induction fuel generalizing i s with
  | zero => omega
  | succ fuel ih =>
    unfold loop
    dsimp only
    rw [ceilUsize_ok]
    simp only
    by_cases hfl : (pos ratio s.res.offseti i).toUsize < dstEnd
    · have hfl' : ((ratio.mul (f64OfUsize i)).add s.res.offseti).toUsize < dstEnd := hfl
      rw [if_neg (not_not.mpr hfl')]
      obtain ⟨o, ho⟩ := hn i (le_refl _) him hfl
      cases o with
      | none =>
        obtain ⟨it, hit⟩ := st.next_none i ho
        rw [hit]; exact ⟨_, rfl⟩
      | some f =>
        have hlt : i < m := by
          rcases Nat.eq_or_lt_of_le him with rfl | h
          · rcases hm with hm | hm
            · exact absurd hfl hm
            · rw [hm] at ho; cases ho
          · exact h
        obtain ⟨x, hx⟩ := hc i f (le_refl _) hlt hfl ho
        rw [st.next_some i f ho]
        simp only
        rw [hx]
        simp only
        rw [show modAt s.buf ((ratio.mul (f64OfUsize i)).add s.res.offseti).toUsize _ = .ok _ from
          if_pos (by omega)]
        simp only
        split
        · rename_i hce
          rw [show modAt (s.buf.modify _ _) (ceilU ((ratio.mul (f64OfUsize i)).add s.res.offseti)) _
            = .ok _ from if_pos (by simp; omega)]
          simp only
          exact ih (i + 1) _ (by simpa using hb) hlt (by omega) (fun j h1 => hn j (by omega))
            (fun j f h1 => hc j f (by omega)) hm
        · exact ih (i + 1) _ (by simpa using hb) hlt (by omega) (fun j h1 => hn j (by omega))
            (fun j f h1 => hc j f (by omega)) hm
    · have hfl' : ¬ ((ratio.mul (f64OfUsize i)).add s.res.offseti).toUsize < dstEnd := hfl
      rw [if_pos hfl']
      exact ⟨_, rfl⟩

theorem ratio_same {s : Sink k c} {st st' : Src k' c'} {q : F64} (h : s.ratio st = .ok (q, st')) :
    (∀ i, st'.nth i = st.nth i) ∧ st'.len = st.len ∧ st'.iter = st.iter := by
  unfold ratio at h
  split at h
  · cases h; exact ⟨fun _ => rfl, rfl, rfl⟩
  · cases hs : st.setRate s.rate with
    | error e => rw [hs] at h; cases h
    | ok t =>
      rw [hs] at h; cases h
      obtain ⟨a, b, _, _, d⟩ := setRate_same st _ s.rate hs
      exact ⟨a, b, d⟩

theorem dstEnd_le (q : F64) (l : Option Nat) (n : Nat) : dstEnd q l n ≤ n := by
  unfold dstEnd; cases l <;> simp

theorem prepare_length (s : Sink k c) (d : Nat) : (s.prepare d).buf.length = s.buf.length := by
  unfold prepare; simp; omega

/-- What `Sink::stream` does when it returns. -/
theorem stream_run (fuel : Nat) (s s' : Sink k c) (st : Src k' c') (it : It k' c')
    (h : s.stream fuel st = .ok (s', it)) :
    ∃ q st' n g, s.ratio st = .ok (q, st') ∧ n < fuel ∧
      (∀ j, j < n → (pos q s.res.offseti j).toUsize < dstEnd q st.len s.buf.length ∧ Conv st j (g j)) ∧
      (s'.buf, s'.res.partial_) = placeN q s.res.offseti (dstEnd q st.len s.buf.length) g 0 n
        ((s.prepare (dstEnd q st.len s.buf.length)).buf, s.res.partial_) ∧
      s'.rate = s.rate ∧ s'.res.offseti = s.res.offseti.add (q.mul (f64OfUsize n)) ∧
      ((¬ (pos q s.res.offseti n).toUsize < dstEnd q st.len s.buf.length ∧ it = st'.iterAt n) ∨
       ((pos q s.res.offseti n).toUsize < dstEnd q st.len s.buf.length ∧ st.len = some n ∧
          (st'.iterAt n).next = .ok (none, it))) := by
  unfold stream at h
  cases hq : s.ratio st with
  | error e => rw [hq] at h; cases h
  | ok p =>
    obtain ⟨q, st'⟩ := p
    obtain ⟨e1, e2, e3⟩ := ratio_same hq
    rw [hq] at h
    simp only [e2, ← Src.iterAt_zero] at h
    cases hl : loop q (dstEnd q st.len s.buf.length) st.len fuel 0
      (s.prepare (dstEnd q st.len s.buf.length)) (st'.iterAt 0) with
    | error e => rw [hl] at h; cases h
    | ok r =>
      obtain ⟨n, g, a1, a2, a3, a4, a5, a6⟩ := loop_run _ _ _ st' _ _ _
        (by rw [prepare_length]; exact dstEnd_le _ _ _) r hl
      rw [hl] at h
      obtain ⟨t, it', sl⟩ := r
      simp only [Nat.zero_add] at a2 a3 a4 a5 a6 h
      have ho : (s.prepare (dstEnd q st.len s.buf.length)).res = s.res := rfl
      rw [ho] at a2 a3 a5 a6
      have hsl : sl = some n ∧ ((¬ (pos q s.res.offseti n).toUsize < dstEnd q st.len s.buf.length ∧
          it' = st'.iterAt n) ∨
          ((pos q s.res.offseti n).toUsize < dstEnd q st.len s.buf.length ∧ st.len = some n ∧
          (st'.iterAt n).next = .ok (none, it'))) := by
        rcases a6 with ⟨b1, b2, b3⟩ | ⟨b1, b2, b3, b4⟩
        · exact ⟨b3, .inl ⟨b1, b2⟩⟩
        · obtain ⟨m, hm, hle⟩ := (st'.nth_len n none b2).mp rfl
          rw [e2] at hm
          have : m = n := by
            by_contra hne
            obtain ⟨f, hf, _⟩ := (a2 m (by omega) (by omega)).2
            have := (st'.nth_len m _ hf).mpr ⟨m, by rw [e2]; exact hm, le_refl _⟩
            cases this
          subst this
          exact ⟨b4.trans hm, .inr ⟨b1, hm, b3⟩⟩
      rw [hsl.1] at h
      cases h
      refine ⟨q, st', n, g, rfl, a1, ?_, a3, a4, ?_, hsl.2⟩
      · intro j hj
        obtain ⟨b1, f, b2, b3⟩ := a2 j (by omega) hj
        exact ⟨b1, f, by rw [← e1]; exact b2, b3⟩
      · simp only [a5]

/-- When `Sink::stream` returns. -/
theorem stream_ok (fuel m : Nat) (s : Sink k c) (st st' : Src k' c') (q : F64)
    (hq : s.ratio st = .ok (q, st')) (hf : m < fuel)
    (hn : ∀ j, j ≤ m → (pos q s.res.offseti j).toUsize < dstEnd q st.len s.buf.length →
      ∃ o, st.nth j = .ok o)
    (hc : ∀ j f, j < m → (pos q s.res.offseti j).toUsize < dstEnd q st.len s.buf.length →
      st.nth j = .ok (some f) → ∃ x : Frame k c, f.convert c = .ok x)
    (hm : ¬ (pos q s.res.offseti m).toUsize < dstEnd q st.len s.buf.length ∨ st.nth m = .ok none) :
    ∃ r, s.stream fuel st = .ok r := by
  obtain ⟨e1, e2, e3⟩ := ratio_same hq
  have hb : dstEnd q st.len s.buf.length ≤ (s.prepare (dstEnd q st.len s.buf.length)).buf.length := by
    rw [prepare_length]; exact dstEnd_le _ _ _
  obtain ⟨r, hr⟩ := loop_ok q (dstEnd q st.len s.buf.length) st.len st' fuel 0 m
    (s.prepare (dstEnd q st.len s.buf.length)) hb (by omega) (by omega)
    (fun j _ h1 h2 => by rw [e1]; exact hn j h1 h2)
    (fun j f _ h1 h2 h3 => hc j f h1 h2 (by rw [← e1]; exact h3))
    (by rw [e1]; exact hm)
  obtain ⟨n, g, a1, a2, a3, a4, a5, a6⟩ := loop_run _ _ _ st' _ _ _ hb r hr
  unfold stream
  rw [hq]
  simp only [e2, ← Src.iterAt_zero]
  rw [hr]
  obtain ⟨t, it', sl⟩ := r
  have : ∃ x, sl = some x := by
    rcases a6 with ⟨_, _, b⟩ | ⟨_, b1, _, b2⟩
    · exact ⟨_, b⟩
    · obtain ⟨m, hm, _⟩ := (st'.nth_len _ none b1).mp rfl
      rw [e2] at hm
      exact ⟨m, b2.trans hm⟩
  obtain ⟨x, rfl⟩ := this
  exact ⟨_, rfl⟩

end Sink
end Fon
