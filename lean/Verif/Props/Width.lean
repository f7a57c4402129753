import Verif.Model.Width
import Verif.Spec.Width
import Verif.Props.Counter
import Verif.Props.Mix
import Verif.Props.Extend

/-!
# Targets with a narrower `usize`
-/

namespace Fon
variable {k k' : Kind} {c c' : ChTy}
open Fl Sink Fmt

/-! ## Conversions -/

theorem toUsizeW_min {W : Nat} (hW : W ≤ 64) {f : Fmt} (x : Fl f) : x.toUsizeW W = min x.toUsize (2 ^ W - 1) := by
  have h1 : (2:ℤ) ^ W ≤ 2 ^ 64 := pow_le_pow_right₀ (by norm_num) hW
  have h2 : (1:ℤ) ≤ 2 ^ W := one_le_pow₀ (by norm_num)
  have h3 : ((2 ^ W - 1 : ℕ) : ℤ) = 2 ^ W - 1 := by
    rw [Nat.cast_sub (Nat.one_le_two_pow)]; push_cast; rfl
  norm_num at h1
  unfold Fl.toUsizeW Fl.toUsize Fl.toIntSat
  rw [usizeMax_eq]
  cases x with
  | nan => simp
  | inf s => cases s with
    | true => simp
    | false => simp; omega
  | fin q nz h => simp only; omega

theorem fract_iff (x : F64) : Fl.lt Fl.epsilon (x.rem (Fl.lit 1)) = true ↔ ∃ q, x.Is q ∧ 2 ^ (-52 : ℤ) < q - truncQ q := by
  have h := hiSlot_eq x
  unfold hiSlot ceilU at h
  by_cases h1 : ∃ q, x.Is q ∧ 2 ^ (-52 : ℤ) < q - truncQ q
  · rw [if_pos h1] at h
    refine ⟨fun _ => h1, fun _ => ?_⟩
    by_contra h2
    rw [if_neg h2] at h; omega
  · rw [if_neg h1] at h
    refine ⟨fun h2 => ?_, fun h2 => absurd h2 h1⟩
    rw [if_pos h2] at h; omega

theorem beyond_iff {W : Nat} (hW : W ≤ 64) (x : F64) :
    Beyond W x ↔ Fl.lt Fl.epsilon (x.rem (Fl.lit 1)) = true ∧ 2 ^ W - 1 ≤ x.toUsize := by
  have h2 : 1 ≤ 2 ^ W := Nat.one_le_two_pow
  have h3 : ((2 ^ W - 1 : ℕ) : ℚ) = 2 ^ W - 1 := by
    rw [Nat.cast_sub h2]; push_cast; rfl
  rw [fract_iff]
  constructor
  · rintro ⟨p, hp, h, hf⟩
    refine ⟨⟨p, hp, hf⟩, le_toUsize hp (by rw [h3]; exact h) ?_⟩
    have : 2 ^ W ≤ 2 ^ 64 := Nat.pow_le_pow_right (by norm_num) hW
    omega
  · rintro ⟨⟨p, hp, hf⟩, h⟩
    refine ⟨p, hp, ?_, hf⟩
    rw [← h3]
    rcases lt_or_ge p 0 with h0 | h0
    · exfalso
      have e : p - (truncQ p : ℚ) = -(-p - ⌊-p⌋) := by rw [truncQ_neg h0]; push_cast; ring
      have := Int.floor_le (-p)
      have := two_zpow_pos (-52)
      rw [e] at hf
      linarith
    · have h4 : ((x.toUsize : ℕ) : ℚ) ≤ p := by
        obtain ⟨_, _, rfl⟩ := hp
        unfold Fl.toUsize Fl.toIntSat
        simp only
        rw [truncQ_nonneg h0]
        have h5 : 0 ≤ ⌊p⌋ := Int.floor_nonneg.mpr h0
        have h6 : ((max 0 (min usizeMax ⌊p⌋)).toNat : ℤ) ≤ ⌊p⌋ := by omega
        have h7 : (((max 0 (min usizeMax ⌊p⌋)).toNat : ℤ) : ℚ) ≤ (⌊p⌋ : ℚ) := by exact_mod_cast h6
        rw [Int.cast_natCast] at h7
        exact le_trans h7 (Int.floor_le p)
      exact le_trans (by exact_mod_cast h) h4

theorem ceilUsizeW_near (rel : Bool) {W : Nat} (hW : W ≤ 64) (x : F64) (h : x.toUsize < 2 ^ W - 1) :
    Math.ceilUsizeW rel W x = .ok (ceilU x) := by
  unfold Math.ceilUsizeW ceilU
  have e : x.toUsizeW W = x.toUsize := by rw [toUsizeW_min hW]; omega
  dsimp only
  rw [e]
  split
  · rw [if_neg (by rintro ⟨_, h'⟩; omega), Nat.mod_eq_of_lt (by omega)]
  · rfl

open Classical in
theorem ceilUsizeW_far (rel : Bool) {W : Nat} (hW : W ≤ 64) (x : F64) (h : 2 ^ W - 1 ≤ x.toUsize) :
    ∃ n, Math.ceilUsizeW rel W x = if rel = false ∧ Beyond W x then .error .overflow else .ok n := by
  have e : x.toUsizeW W = 2 ^ W - 1 := by rw [toUsizeW_min hW]; omega
  have h2 : 1 ≤ 2 ^ W := Nat.one_le_two_pow
  unfold Math.ceilUsizeW
  dsimp only
  rw [e, beyond_iff hW]
  split
  · rename_i hf
    refine ⟨(2 ^ W - 1 + 1) % 2 ^ W, ?_⟩
    by_cases hr : rel = false
    · rw [if_pos ⟨hr, by omega⟩, if_pos ⟨hr, hf, h⟩]
    · rw [if_neg (fun h => hr h.1), if_neg (fun h => hr h.1)]
  · rename_i hf
    exact ⟨_, by rw [if_neg (fun h => hf h.2.1)]⟩

theorem not_beyond {W : Nat} (hW : W ≤ 64) (x : F64) (h : x.toUsize < 2 ^ W - 1) : ¬ Beyond W x := by
  rw [beyond_iff hW]; rintro ⟨_, h'⟩; omega

/-! ## The loop -/

/-- One iteration with the position inside the range. -/
def stepBody (q : F64) (d : Nat) (sl : Option Nat) (i : Nat) (s : Sink k c) (it : It k' c')
    (rec : Sink k c → It k' c' → R (Sink k c × It k' c' × Option Nat)) : R (Sink k c × It k' c' × Option Nat) :=
  let j := pos q s.res.offseti i
  let ceilF := (j.rem (Fl.lit 1)).min q
  let ceilA : Frame k c := Frame.ofF64 ceilF
  let floorA : Frame k c := Frame.ofF64 (q.sub ceilF)
  match it.next with
  | .error e => .error e
  | .ok (none, it) => .ok (s, it, sl)
  | .ok (some src, it) => match (src.convert c : R (Frame k c)) with
    | .error e => .error e
    | .ok src => match modAt s.buf j.toUsize (fun b => b.add (src.mul floorA)) with
      | .error e => .error e
      | .ok buf =>
        if ceilU j < d then
          match modAt buf (ceilU j) (fun b => b.add (src.mul ceilA)) with
          | .error e => .error e
          | .ok buf => rec { s with buf } it
        else
          rec { s with
                buf := buf
                res := { s.res with partial_ := s.res.partial_.add (src.mul ceilA) } } it

theorem loop_body (q : F64) (d : Nat) (sl : Option Nat) (fuel i : Nat) (s : Sink k c) (it : It k' c')
    (h : (pos q s.res.offseti i).toUsize < d) :
    loop q d sl (fuel + 1) i s it = stepBody q d sl i s it (loop q d sl fuel (i + 1)) := by
  rw [loop]
  dsimp only
  rw [ceilUsize_ok]
  simp only
  rw [← Sink.pos, if_neg (not_not.mpr h)]
  rfl

theorem loopW_body (rel : Bool) {W : Nat} (hW : W ≤ 64) (q : F64) (d : Nat) (sl : Option Nat) (fuel i : Nat) (s : Sink k c)
    (it : It k' c') (h : (pos q s.res.offseti i).toUsize < d) (hd : d ≤ 2 ^ W - 1) (hi : i + 1 < 2 ^ W) :
    loopW rel W q d sl (fuel + 1) i s it = stepBody q d sl i s it (loopW rel W q d sl fuel (i + 1)) := by
  have e : ((q.mul (f64OfUsize i)).add s.res.offseti).toUsizeW W = (pos q s.res.offseti i).toUsize := by
    rw [toUsizeW_min hW, ← Sink.pos]; omega
  rw [loopW, if_neg (by rintro ⟨_, h'⟩; omega), Nat.mod_eq_of_lt hi]
  dsimp only
  have e' := ceilUsizeW_near rel hW (pos q s.res.offseti i) (lt_of_lt_of_le h hd)
  rw [Sink.pos] at e'
  rw [e']
  simp only
  rw [e, if_neg (not_not.mpr h)]
  rfl

theorem loop_stop (q : F64) (d : Nat) (sl : Option Nat) (fuel i : Nat) (s : Sink k c) (it : It k' c')
    (h : ¬ (pos q s.res.offseti i).toUsize < d) : loop q d sl (fuel + 1) i s it = .ok (s, it, some i) := by
  rw [loop]
  dsimp only
  rw [ceilUsize_ok]
  simp only
  rw [← Sink.pos, if_pos h]

open Classical in
theorem loopW_stop (rel : Bool) {W : Nat} (hW : W ≤ 64) (q : F64) (d : Nat) (sl : Option Nat) (fuel i : Nat) (s : Sink k c)
    (it : It k' c') (h : ¬ (pos q s.res.offseti i).toUsize < d) (hd : d ≤ 2 ^ W - 1) (hi : i + 1 < 2 ^ W) :
    loopW rel W q d sl (fuel + 1) i s it =
      if rel = false ∧ Beyond W (pos q s.res.offseti i) then .error .overflow else .ok (s, it, some i) := by
  have e : ¬ ((q.mul (f64OfUsize i)).add s.res.offseti).toUsizeW W < d := by
    rw [toUsizeW_min hW, ← Sink.pos]; omega
  rw [loopW, if_neg (by rintro ⟨_, h'⟩; omega)]
  dsimp only
  rw [← Sink.pos] at e ⊢
  rcases Nat.lt_or_ge (pos q s.res.offseti i).toUsize (2 ^ W - 1) with h1 | h1
  · rw [ceilUsizeW_near rel hW _ h1, if_neg (fun hh => not_beyond hW _ h1 hh.2)]
    simp only
    rw [if_pos e]
  · obtain ⟨n, hn⟩ := ceilUsizeW_far rel hW _ h1
    rw [hn]
    split
    · rename_i h'
      split at h' <;> first | (rename_i hh; cases h'; rw [if_pos hh]) | cases h'
    · rename_i h'
      split at h'
      · cases h'
      · rename_i hh
        rw [if_neg hh, if_pos e]

theorem stepBody_cases (q : F64) (d : Nat) (sl : Option Nat) (i : Nat) (s : Sink k c) (it : It k' c') :
    (∃ e, ∀ rec, stepBody q d sl i s it rec = .error e) ∨
    (∃ it', it.next = .ok (none, it') ∧ ∀ rec, stepBody q d sl i s it rec = .ok (s, it', sl)) ∨
    ∃ s' it' f, it.next = .ok (some f, it') ∧ s'.res.offseti = s.res.offseti ∧
      ∀ rec, stepBody q d sl i s it rec = rec s' it' := by
  cases hn : it.next with
  | error e => exact .inl ⟨e, fun rec => by unfold stepBody; rw [hn]⟩
  | ok r =>
    obtain ⟨o, it'⟩ := r
    cases o with
    | none => exact .inr (.inl ⟨it', rfl, fun rec => by unfold stepBody; rw [hn]⟩)
    | some src =>
      cases hc : (src.convert c : R (Frame k c)) with
      | error e => exact .inl ⟨e, fun rec => by unfold stepBody; simp only [hn, hc]⟩
      | ok x =>
        cases hm : modAt s.buf (pos q s.res.offseti i).toUsize (fun b => b.add (x.mul
            (Frame.ofF64 (q.sub (((pos q s.res.offseti i).rem (Fl.lit 1)).min q))))) with
        | error e => exact .inl ⟨e, fun rec => by unfold stepBody; simp only [hn, hc, hm]⟩
        | ok buf =>
          by_cases hce : ceilU (pos q s.res.offseti i) < d
          · cases hm' : modAt buf (ceilU (pos q s.res.offseti i)) (fun b => b.add (x.mul
                (Frame.ofF64 (((pos q s.res.offseti i).rem (Fl.lit 1)).min q)))) with
            | error e => exact .inl ⟨e, fun rec => by unfold stepBody; simp only [hn, hc, hm, if_pos hce, hm']⟩
            | ok buf' =>
              exact .inr (.inr ⟨{ s with buf := buf' }, it', src, rfl, rfl, fun rec => by
                unfold stepBody; simp only [hn, hc, hm, if_pos hce, hm']⟩)
          · exact .inr (.inr ⟨{ s with
                buf := buf
                res := { s.res with partial_ := s.res.partial_.add (x.mul
                  (Frame.ofF64 (((pos q s.res.offseti i).rem (Fl.lit 1)).min q))) } }, it', src, rfl, rfl, fun rec => by
              unfold stepBody; simp only [hn, hc, hm, if_neg hce]⟩)

theorem loopW_release {W : Nat} (hW : W ≤ 64) (q : F64) (d : Nat) (sl : Option Nat) (fuel i : Nat) (s : Sink k c)
    (it : It k' c') (hd : d ≤ 2 ^ W - 1) (hi : i + fuel < 2 ^ W) :
    loopW true W q d sl fuel i s it = loop q d sl fuel i s it := by
  induction fuel generalizing i s it with
  | zero => rfl
  | succ fuel ih =>
    by_cases h : (pos q s.res.offseti i).toUsize < d
    · rw [loop_body _ _ _ _ _ _ _ h, loopW_body true hW _ _ _ _ _ _ _ h hd (by omega)]
      congr 1
      funext s' it'
      exact ih _ _ _ (by omega)
    · rw [loop_stop _ _ _ _ _ _ _ h, loopW_stop true hW _ _ _ _ _ _ _ h hd (by omega), if_neg (by simp)]

theorem loopW_error {W : Nat} (hW : W ≤ 64) (q : F64) (d : Nat) (sl : Option Nat) (fuel i : Nat) (s : Sink k c)
    (it : It k' c') (hd : d ≤ 2 ^ W - 1) (hi : i + fuel < 2 ^ W) (e : Panic) (he : loop q d sl fuel i s it = .error e) :
    loopW false W q d sl fuel i s it = .error e := by
  induction fuel generalizing i s it with
  | zero => exact he
  | succ fuel ih =>
    by_cases h : (pos q s.res.offseti i).toUsize < d
    · rw [loop_body _ _ _ _ _ _ _ h] at he
      rw [loopW_body false hW _ _ _ _ _ _ _ h hd (by omega)]
      rcases stepBody_cases q d sl i s it with ⟨e', h1⟩ | ⟨it', _, h1⟩ | ⟨s', it', f, _, _, h1⟩
      · rw [h1] at he ⊢; exact he
      · rw [h1] at he; cases he
      · rw [h1] at he ⊢; exact ih _ _ _ (by omega) he
    · rw [loop_stop _ _ _ _ _ _ _ h] at he; cases he

theorem iterAt_next (st : Src k c) (i : Nat) (o : Option (Frame k c)) (it : It k c) (h : (st.iterAt i).next = .ok (o, it)) :
    st.nth i = .ok o ∧ (o.isSome → it = st.iterAt (i + 1)) := by
  cases hn : st.nth i with
  | error e => rw [st.next_err i e hn] at h; cases h
  | ok o' =>
    cases o' with
    | none => obtain ⟨it', h'⟩ := st.next_none i hn; rw [h'] at h; cases h; exact ⟨rfl, nofun⟩
    | some f => rw [st.next_some i f hn] at h; cases h; exact ⟨rfl, fun _ => rfl⟩

open Classical in
theorem loopW_debug {W : Nat} (hW : W ≤ 64) (q : F64) (d : Nat) (sl : Option Nat) (st : Src k' c') (fuel i : Nat) (s : Sink k c)
    (hd : d ≤ 2 ^ W - 1) (hi : i + fuel < 2 ^ W) (r) (he : loop q d sl fuel i s (st.iterAt i) = .ok r) :
    ∃ n, i ≤ n ∧ (∀ j, i ≤ j → j < n → ∃ f, st.nth j = .ok (some f)) ∧ r.1.res.offseti = s.res.offseti ∧
      (r.2.2 = some n ∨ st.nth n = .ok none ∧ r.2.2 = sl) ∧
      loopW false W q d sl fuel i s (st.iterAt i) =
        if Beyond W (pos q s.res.offseti n) then .error .overflow else .ok r := by
  induction fuel generalizing i s with
  | zero => cases he
  | succ fuel ih =>
    by_cases h : (pos q s.res.offseti i).toUsize < d
    · rw [loop_body _ _ _ _ _ _ _ h] at he
      rw [loopW_body false hW _ _ _ _ _ _ _ h hd (by omega)]
      rcases stepBody_cases q d sl i s (st.iterAt i) with ⟨e', h1⟩ | ⟨it', h2, h1⟩ | ⟨s', it', f, h2, h3, h1⟩
      · rw [h1] at he; cases he
      · rw [h1] at he ⊢
        cases he
        exact ⟨i, le_refl _, fun j _ _ => by omega, rfl, .inr ⟨(iterAt_next st i _ _ h2).1, rfl⟩,
          by rw [if_neg (not_beyond hW _ (by omega))]⟩
      · obtain ⟨h4, h5⟩ := iterAt_next st i _ _ h2
        rw [h1, h5 rfl] at he
        rw [h1, h5 rfl]
        obtain ⟨n, a1, a2, a3, a4, a5⟩ := ih (i + 1) s' (by omega) he
        rw [h3] at a3 a5
        refine ⟨n, by omega, fun j h6 h7 => ?_, a3, a4, a5⟩
        rcases Nat.eq_or_lt_of_le h6 with rfl | h8
        · exact ⟨f, h4⟩
        · exact a2 j h8 h7
    · rw [loop_stop _ _ _ _ _ _ _ h] at he
      cases he
      refine ⟨i, le_refl _, fun j _ _ => by omega, rfl, .inl rfl, ?_⟩
      rw [loopW_stop false hW _ _ _ _ _ _ _ h hd (by omega)]
      simp

/-! ## Streaming -/

theorem dstEndW_eq {W : Nat} (hW : W ≤ 64) (q : F64) (l : Option Nat) (n : Nat) (h : n < 2 ^ W) :
    dstEndW W q l n = dstEnd q l n := by
  unfold dstEndW dstEnd
  cases l with
  | none => rfl
  | some l => simp only; rw [toUsizeW_min hW]; omega

/-- C121: without overflow checks streaming does the same on a target with a narrower `usize`. -/
theorem C121_release {W : Nat} (hW : W ≤ 64) (fuel : Nat) (s : Sink k c) (st : Src k' c') (hf : fuel < 2 ^ W)
    (hb : s.buf.length < 2 ^ W) : s.streamW true W fuel st = s.stream fuel st := by
  unfold streamW Sink.stream
  cases hq : s.ratio st with
  | error e => rfl
  | ok p =>
    obtain ⟨q, st'⟩ := p
    dsimp only
    rw [dstEndW_eq hW _ _ _ hb, loopW_release hW _ _ _ _ _ _ _ (by have := dstEnd_le q st'.len s.buf.length; omega) (by omega)]
    rfl

example := C121_release (W := 32) (by norm_num) 6 (exSink 3 8) (.audio (exAudio 12)) (by norm_num) (by simp [exSink])

open Classical in
theorem streamW_debug {W : Nat} (hW : W ≤ 64) (fuel : Nat) (s : Sink k c) (st : Src k' c') (hf : fuel < 2 ^ W)
    (hb : s.buf.length < 2 ^ W) :
    (∀ e, s.stream fuel st = .error e → s.streamW false W fuel st = .error e) ∧
    ∀ s' it, s.stream fuel st = .ok (s', it) →
      s.streamW false W fuel st = if Beyond W s'.res.offseti then .error .overflow else .ok (s', it) := by
  unfold streamW Sink.stream
  cases hq : s.ratio st with
  | error e => exact ⟨fun e' h => h, fun s' it h => by cases h⟩
  | ok p =>
    obtain ⟨q, st'⟩ := p
    dsimp only
    have hd : dstEnd q st'.len s.buf.length ≤ 2 ^ W - 1 := by
      have := dstEnd_le q st'.len s.buf.length; omega
    rw [dstEndW_eq hW _ _ _ hb, ← Src.iterAt_zero]
    cases hl : loop q (dstEnd q st'.len s.buf.length) st'.len fuel 0
        (s.prepare (dstEnd q st'.len s.buf.length)) (st'.iterAt 0) with
    | error e =>
      rw [loopW_error hW _ _ _ _ _ _ _ hd (by omega) e hl]
      exact ⟨fun e' h => h, fun s' it h => by cases h⟩
    | ok r =>
      obtain ⟨n, -, h2, h3, h4, h5⟩ := loopW_debug hW _ _ _ st' _ _ _ hd (by omega) r hl
      obtain ⟨t, it', sl⟩ := r
      have ho : (s.prepare (dstEnd q st'.len s.buf.length)).res = s.res := rfl
      rw [ho] at h3 h5
      have hsl : sl = some n := by
        rcases h4 with h4 | ⟨h4, h6⟩
        · exact h4
        · obtain ⟨m, h7, h8⟩ := (st'.nth_len n none h4).mp rfl
          have h6 : sl = st'.len := h6
          rw [h6, h7]
          rcases Nat.eq_or_lt_of_le h8 with rfl | h9
          · rfl
          · obtain ⟨f, hf'⟩ := h2 m (Nat.zero_le _) h9
            cases (st'.nth_len m _ hf').mpr ⟨m, h7, le_refl _⟩
      subst hsl
      rw [h5]
      dsimp only at h3 ⊢
      refine ⟨nofun, ?_⟩
      rintro s' it ⟨⟩
      have e : t.res.offseti.add (q.mul (f64OfUsize n)) = pos q s.res.offseti n := by
        rw [h3, Fl.add_comm', Sink.pos]
      rw [e]
      by_cases hB : Beyond W (pos q s.res.offseti n)
      · simp only [if_pos hB]
      · simp only [if_neg hB, e]

/-- C121: with overflow checks every panic happens there as well. -/
theorem C121_panics {W : Nat} (hW : W ≤ 64) (fuel : Nat) (s : Sink k c) (st : Src k' c') (hf : fuel < 2 ^ W)
    (hb : s.buf.length < 2 ^ W) (e : Panic) (h : s.stream fuel st = .error e) : s.streamW false W fuel st = .error e :=
  (streamW_debug hW fuel s st hf hb).1 e h

example := C121_panics (W := 32) (by norm_num) 2 (exSink 3 8) (.audio (exAudio 12)) (by norm_num) (by simp [exSink]) _
  (R.panics (x := (exSink 3 8).stream 2 (.audio (exAudio 12))) (by decide +kernel))

/-- C121: with overflow checks streaming does the same, except that it panics if it ends between two slots past the largest
`usize`. -/
theorem C121_debug {W : Nat} (hW : W ≤ 64) (fuel : Nat) (s : Sink k c) (st : Src k' c') (hf : fuel < 2 ^ W)
    (hb : s.buf.length < 2 ^ W) (s' : Sink k c) (it : It k' c') (h : s.stream fuel st = .ok (s', it)) :
    (Beyond W s'.res.offseti → s.streamW false W fuel st = .error .overflow) ∧
    (¬ Beyond W s'.res.offseti → s.streamW false W fuel st = .ok (s', it)) := by
  have := (streamW_debug hW fuel s st hf hb).2 s' it h
  exact ⟨fun hB => by rw [this, if_pos hB], fun hB => by rw [this, if_neg hB]⟩

example := C121_debug (W := 32) (by norm_num) 6 (exSink 3 8) (.audio (exAudio 12)) (by norm_num) (by simp [exSink]) _ _
  (R.returns₂ (x := (exSink 3 8).stream 6 (.audio (exAudio 12))) (by decide +kernel))

/-- C121: no position is like that with 64 bits. -/
theorem C121_wide {W : Nat} (hW : 53 < W) (x : F64) : ¬ Beyond W x := by
  rintro ⟨p, hp, h1, h2⟩
  have h64 : (2:ℚ) ^ 54 ≤ 2 ^ W := pow_le_pow_right₀ (by norm_num) hW
  have h0 : 0 ≤ p := by norm_num at h64; linarith
  rw [truncQ_nonneg h0] at h2
  obtain ⟨_, hh, rfl⟩ := hp
  have := lt_of_fract hh.1 h0 (by
    intro he
    have : p - ⌊p⌋ = 0 := by linarith
    rw [this] at h2
    exact absurd h2 (not_lt.mpr (two_zpow_pos _).le))
  have e : (2:ℚ) ^ binary64.prec = 2 ^ 53 := rfl
  rw [e] at this
  norm_num at this h64
  linarith

example : ¬ Beyond 64 (lit (2 ^ 52 - 1 / 2)) := C121_wide (by norm_num) _

/-- Two slots at a rate of 2^32 + 1/2. -/
def exTall : Sink .mono .ch8 := ⟨lit (2 ^ 32 + 1 / 2), Resampler.dflt, List.replicate 2 #v[9#8]⟩
/-- Two frames at rate 1. -/
def exCrawl : Audio .mono .ch8 := ⟨lit 1, [#v[100#8], #v[50#8]]⟩

/-- C121: a call that returns on 64 bits panics on 32 bits in a debug build. -/
theorem C121_false : (∃ r, exTall.stream 3 (.audio exCrawl) = .ok r) ∧
    exTall.streamW false 32 3 (.audio exCrawl) = .error .overflow :=
  ⟨⟨_, R.returns (x := exTall.stream 3 (.audio exCrawl)) (by decide +kernel)⟩,
    (R.panics (x := exTall.streamW false 32 3 (.audio exCrawl)) (by decide +kernel)).trans
      (congrArg Except.error (by decide +kernel))⟩

/-- It ends past `u32::MAX`, between two slots. -/
example : Beyond 32 (R.out (exTall.stream 3 (.audio exCrawl)) (by decide +kernel)).1.res.offseti := by
  by_contra h
  have := (C121_debug (W := 32) (by norm_num) 3 exTall (.audio exCrawl) (by norm_num) (by simp [exTall]) _ _
    (R.returns₂ (x := exTall.stream 3 (.audio exCrawl)) (by decide +kernel))).2 h
  rw [C121_false.2] at this
  cases this

/-! ## Extending -/

theorem flushW_eq {W : Nat} (hW : W ≤ 64) (s : Sink k c) (h : s.buf.length < 2 ^ W) : s.flushW W = s.flush := by
  have e : ∀ g, modAt s.buf (s.res.offseti.toUsizeW W) g = modAt s.buf s.res.offseti.toUsize g := by
    intro g
    rw [toUsizeW_min hW]
    rcases Nat.lt_or_ge s.res.offseti.toUsize s.buf.length with h1 | h1
    · rw [show min s.res.offseti.toUsize (2 ^ W - 1) = s.res.offseti.toUsize by omega]
    · unfold modAt
      rw [if_neg (by omega), if_neg (by omega)]
  unfold flushW flush
  dsimp only
  rw [e]

theorem flush_beyond {W : Nat} (hW : W ≤ 64) (s : Sink k c) (h : s.buf.length < 2 ^ W) (hB : Beyond W s.res.offseti) :
    s.flush = .error .bounds := by
  rw [beyond_iff hW] at hB
  unfold flush
  dsimp only
  rw [if_pos (by rw [hB.1]; rfl)]
  unfold modAt
  rw [if_neg (by omega)]
  rfl

theorem dstLenW_cases {W : Nat} (hW : W ≤ 64) (r : F64) (l : Nat) (sr : Option F64) :
    Audio.dstLenW W r l sr = Audio.dstLen r l sr ∨ Audio.dstLenW W r l sr = 2 ^ W - 1 ∧ 2 ^ W - 1 < Audio.dstLen r l sr := by
  unfold Audio.dstLenW Audio.dstLen
  cases sr with
  | none => exact .inl rfl
  | some sr => simp only; rw [toUsizeW_min hW]; omega

theorem extendW_eq (rel : Bool) (W : Nat) (a : Audio k c) (st : Src k' c') (l : Nat) (hl : st.len = some l)
    (h1 : a.frames.length + Audio.dstLenW W a.rate l st.rate < 2 ^ W)
    (h2 : (a.frames.length + Audio.dstLenW W a.rate l st.rate) * k.size c ≤ 2 ^ (W - 1) - 1) :
    a.extendInternalW rel W st =
      match (⟨a.rate, Resampler.dflt, List.replicate (Audio.dstLenW W a.rate l st.rate) Frame.dflt⟩ : Sink k c).streamW rel W
        (l + 1) st with
      | .error e => .error e
      | .ok (t, it) => match t.flushW W with
        | .error e => .error e
        | .ok t => .ok (⟨t.rate, a.frames ++ t.buf⟩, it) := by
  unfold Audio.extendInternalW
  rw [hl]
  dsimp only
  set D := Audio.dstLenW W a.rate l st.rate
  rw [if_neg (by rintro ⟨_, h⟩; omega), Nat.mod_eq_of_lt h1, if_neg (by rintro ⟨_, h⟩; omega),
    Nat.add_sub_cancel_left, List.take_of_length_le (Nat.le_add_right _ _)]
  unfold Audio.sink
  have hr : (Rng.from_ a.frames.length).resolve
      (Audio.withFrames a.rate (a.frames ++ List.replicate D (Frame.dflt : Frame k c))).frames.length =
      .ok (a.frames.length, a.frames.length + D) := by
    simp [Rng.resolve, Audio.withFrames]
  rw [hr]
  simp only [Audio.withFrames]
  have e1 : (a.frames ++ List.replicate D (Frame.dflt : Frame k c)).take a.frames.length = a.frames := by simp
  have e2 : ((a.frames ++ List.replicate D (Frame.dflt : Frame k c)).drop a.frames.length).take
      (a.frames.length + D - a.frames.length) = List.replicate D Frame.dflt := by
    rw [List.drop_left, Nat.add_sub_cancel_left, List.take_of_length_le (by simp)]
  have e3 : (a.frames ++ List.replicate D (Frame.dflt : Frame k c)).drop (a.frames.length + D) = [] :=
    List.drop_of_length_le (by simp)
  rw [e1, e2, e3]
  cases hs : (⟨a.rate, Resampler.dflt, List.replicate D Frame.dflt⟩ : Sink k c).streamW rel W (l + 1) st with
  | error e => rfl
  | ok p =>
    simp only
    cases p.1.flushW W with
    | error e => rfl
    | ok t => simp [AudioSink.release]

theorem extendW_core (rel : Bool) {W : Nat} (hW : W ≤ 64) (a : Audio k c) (st : Src k' c') (l : Nat) (hl : st.len = some l)
    (hl' : l + 1 < 2 ^ W) (hD : Audio.dstLenW W a.rate l st.rate = Audio.dstLen a.rate l st.rate)
    (h1 : a.frames.length + Audio.dstLen a.rate l st.rate < 2 ^ W)
    (h2 : (a.frames.length + Audio.dstLen a.rate l st.rate) * k.size c ≤ 2 ^ (W - 1) - 1) (r : Audio k c × It k' c') :
    a.extendInternalW rel W st = .ok r ↔ a.extendInternal st = .ok r := by
  have hf : a.Fits (Audio.dstLen a.rate l st.rate) := by
    have e1 : 2 ^ W ≤ 2 ^ 64 := Nat.pow_le_pow_right (by norm_num) hW
    have e2 : 2 ^ (W - 1) ≤ 2 ^ 63 := Nat.pow_le_pow_right (by norm_num) (by omega)
    refine ⟨?_, ?_⟩
    · rw [usizeMax_eq]; norm_num at e1; omega
    · unfold Audio.isizeMax; omega
  rw [extendW_eq rel W a st l hl (by rw [hD]; exact h1) (by rw [hD]; exact h2), extend_eq a st l hl hf, hD]
  set s : Sink k c := ⟨a.rate, Resampler.dflt, List.replicate (Audio.dstLen a.rate l st.rate) Frame.dflt⟩ with hs
  have hb : s.buf.length < 2 ^ W := by rw [hs]; simp; omega
  cases h : s.stream (l + 1) st with
  | error e =>
    have : s.streamW rel W (l + 1) st = .error e := by
      cases rel with
      | true => rw [C121_release hW _ _ _ hl' hb, h]
      | false => exact C121_panics hW _ _ _ hl' hb e h
    rw [this]
  | ok p =>
    obtain ⟨s', it⟩ := p
    have hb' : s'.buf.length < 2 ^ W := by rw [(C36_stream _ _ _ _ _ h).1]; exact hb
    simp only
    by_cases hB : rel = false ∧ Beyond W s'.res.offseti
    · obtain ⟨rfl, hB⟩ := hB
      rw [(C121_debug hW _ _ _ hl' hb s' it h).1 hB, flush_beyond hW s' hb' hB]
      simp
    · have : s.streamW rel W (l + 1) st = .ok (s', it) := by
        cases rel with
        | true => rw [C121_release hW _ _ _ hl' hb, h]
        | false => exact (C121_debug hW _ _ _ hl' hb s' it h).2 (fun h => hB ⟨rfl, h⟩)
      rw [this]
      simp only
      rw [flushW_eq hW s' hb']
      exact Iff.rfl

/-- C121: `extend` returns on a target with a narrower `usize` if it does on 64 bits and the result fits into the memory
there.  The result is the same. -/
theorem C121_extend (rel : Bool) {W : Nat} (hW : W ≤ 64) (a : Audio k c) (st : Src k' c') (hk : 0 < k.size c)
    (ha : a.frames.length < 2 ^ W) (hl : ∀ l, st.len = some l → l + 1 < 2 ^ W) (r : Audio k c × It k' c') :
    a.extendInternalW rel W st = .ok r ↔
      a.extendInternal st = .ok r ∧ r.1.frames.length * k.size c ≤ 2 ^ (W - 1) - 1 := by
  have e0 : 2 ^ (W - 1) ≤ 2 ^ W := Nat.pow_le_pow_right (by norm_num) (by omega)
  have e1 : 1 ≤ 2 ^ (W - 1) := Nat.one_le_two_pow
  cases hsl : st.len with
  | none =>
    unfold Audio.extendInternalW Audio.extendInternal
    rw [hsl]
    simp
  | some l =>
    have hl' := hl l hsl
    have hlen : ∀ r, a.extendInternal st = .ok r → r.1.frames.length = a.frames.length + Audio.dstLen a.rate l st.rate := by
      rintro ⟨b, it⟩ h
      obtain ⟨l', s, t, h1, -, h3, h4, h5⟩ := extend_run a b st it h
      rw [hsl] at h1
      cases h1
      rw [h5]
      simp only [List.length_append, (flush_keeps s t h4).1, (C36_stream _ _ _ _ _ h3).1, List.length_replicate]
    constructor
    · intro h
      have h1 : a.frames.length + Audio.dstLenW W a.rate l st.rate < 2 ^ W := by
        by_contra hc
        unfold Audio.extendInternalW at h
        rw [hsl] at h
        dsimp only at h
        split at h
        · cases h
        · split at h
          · cases h
          · have hD : Audio.dstLenW W a.rate l st.rate < 2 ^ W := by
              unfold Audio.dstLenW
              cases st.rate with
              | none => simp only; omega
              | some sr => simp only; rw [toUsizeW_min hW]; omega
            have hm : (a.frames.length + Audio.dstLenW W a.rate l st.rate) % 2 ^ W < a.frames.length := by
              rw [Nat.mod_eq_sub_mod (by omega), Nat.mod_eq_of_lt (by omega)]
              omega
            unfold Audio.sink at h
            rw [show Rng.resolve _ _ = .error .bounds by
              simp only [Rng.resolve, Audio.withFrames]
              exact if_neg (by
                simp only [List.length_append, List.length_take, List.length_replicate]
                omega)] at h
            cases h
      have h2 : (a.frames.length + Audio.dstLenW W a.rate l st.rate) * k.size c ≤ 2 ^ (W - 1) - 1 := by
        by_contra hc
        unfold Audio.extendInternalW at h
        rw [hsl] at h
        dsimp only at h
        rw [if_neg (by rintro ⟨_, h⟩; omega), Nat.mod_eq_of_lt h1, if_pos ⟨by omega, by omega⟩] at h
        cases h
      have hD : Audio.dstLenW W a.rate l st.rate = Audio.dstLen a.rate l st.rate := by
        rcases dstLenW_cases hW a.rate l st.rate with hD | ⟨hD, hD'⟩
        · exact hD
        · exfalso
          have := Nat.le_mul_of_pos_right (a.frames.length + Audio.dstLenW W a.rate l st.rate) hk
          have e2 : 2 ^ W = 2 * 2 ^ (W - 1) ∨ W = 0 := by
            cases W with
            | zero => exact .inr rfl
            | succ W => left; rw [pow_succ]; simp; ring
          rcases e2 with e2 | rfl
          · omega
          · simp at hl'
      rw [hD] at h1 h2
      have h3 := (extendW_core rel hW a st l hsl hl' hD h1 h2 r).mp h
      exact ⟨h3, by rw [hlen r h3]; exact h2⟩
    · rintro ⟨h, h2⟩
      rw [hlen r h] at h2
      have h1 : a.frames.length + Audio.dstLen a.rate l st.rate < 2 ^ W := by
        have := Nat.le_mul_of_pos_right (a.frames.length + Audio.dstLen a.rate l st.rate) hk
        omega
      have hD : Audio.dstLenW W a.rate l st.rate = Audio.dstLen a.rate l st.rate := by
        rcases dstLenW_cases hW a.rate l st.rate with hD | ⟨hD, hD'⟩
        · exact hD
        · omega
      exact (extendW_core rel hW a st l hsl hl' hD h1 h2 r).mpr h

example := (C121_extend false (W := 32) (by norm_num) (exAudio 8) (.audio (exAudio 12)) (by decide) (by simp [exAudio])
  (by simp [Src.len, exAudio]) ((exAudio 8).extendInternal (.audio (exAudio 12)) |>.out (by decide +kernel))).mpr
  ⟨R.returns _, by decide +kernel⟩

/-- `n` frames. -/
def exMany (n : Nat) : Audio .mono .ch8 := ⟨lit 1, List.replicate n #v[7#8]⟩

/-- On 8 bits there is no memory for 130 frames, but there is for 125. -/
example : ((exAudio 1).extendInternal (.audio (exMany 125))).toBool = true ∧
    ((exAudio 1).extendInternalW true 8 (.audio (exMany 125))).toBool = false ∧
    ((exAudio 1).extendInternalW false 8 (.audio (exMany 120))).toBool = true := by decide +kernel

end Fon
