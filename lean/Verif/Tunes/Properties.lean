import Verif.Tunes.Amp
import Verif.Tunes.Failure
import Mathlib.Tactic.IntervalCases

/-!
# Properties C184-C186: betatron tunes
-/

namespace Verif.Tunes

open Verif Spec

/-! ## C184: `FFT` -/

theorem rev_zero : ∀ b, rev b 0 = 0
  | 0 => rfl
  | b + 1 => by rw [rev, Nat.zero_div, rev_zero b]; simp

theorem partials_start (b : Nat) (x : Nat → ℂ) (k : Nat) : partials b 0 x k = x (rev b k) := by
  simp [partials]

theorem partials_end (b : Nat) (x : Nat → ℂ) (k : Nat) (hk : k < 2 ^ b) : partials b b x k = dft (2 ^ b) x k := by
  rw [partials, dft]
  refine Finset.sum_congr rfl fun t _ => ?_
  rw [Nat.sub_self, rev, Nat.mod_eq_of_lt hk, pow_zero, mul_one, zero_add]

/-- C184: if the number of turns is a power of two, `FFT` replaces the data by their discrete Fourier transform. -/
theorem fft_dft (size b : Nat) (hsize : size / 2 = 2 ^ b) (d : Data) :
    ∃ d', fft size d = .ok d' ∧ ∀ q < 2 ^ b, complex d' q = dft (2 ^ b) (complex d) q := by
  have hb : 0 < 2 ^ b := by positivity
  obtain ⟨d1, h1, e1⟩ := reorder_spec size b (by omega) (complex d) (2 ^ b) 0 1 d (by omega) (fun _ => by rw [rev_zero])
    (fun k _ => by rw [if_neg (by omega)])
  obtain ⟨d2, h2, e2⟩ := stages_spec size b hsize (complex d) (2 * 2 ^ b) 0 d1 (by omega)
    (by have := Nat.lt_two_pow_self (n := b); omega)
    (fun k hk => by rw [e1 k hk, partials_start])
  refine ⟨d2, ?_, fun q hq => by rw [e2 q hq, partials_end b _ q hq]⟩
  rw [fft]
  simp only [hsize]
  simp only [Nat.mul_zero, Nat.zero_add] at h1
  rw [h1]
  exact h2

example : ∃ d', fft 8 (fun k => if k = 0 then 1 else if k = 2 then 3 else 0) = .ok d' ∧
    complex d' 2 = dft 4 (complex fun k => if k = 0 then 1 else if k = 2 then 3 else 0) 2 := by
  obtain ⟨d', h, e⟩ := fft_dft 8 2 rfl (fun k => if k = 0 then 1 else if k = 2 then 3 else 0)
  exact ⟨d', h, e 2 (by norm_num)⟩

/-- C184, violation: for any other number of turns (at least one) `FFT` leaves the bounds of the data. -/
theorem fft_not_power_violated (size : Nat) (h1 : 1 ≤ size / 2) (h : ∀ b, size / 2 ≠ 2 ^ b) (d : Data) : fft size d = .ub := by
  have hs := Nat.pow_log_le_self 2 (x := size / 2) (by omega)
  have hl : size / 2 < 2 ^ (Nat.log 2 (size / 2) + 1) := Nat.lt_pow_succ_log_self (by norm_num) _
  have hlt : 2 ^ Nat.log 2 (size / 2) < size / 2 := lt_of_le_of_ne hs (Ne.symm (h _))
  rw [fft]
  rcases reorder_result size (size / 2) (size / 2) 1 1 d with ⟨d', h'⟩ | h'
  · simp only [h']
    exact stages_ub size (size / 2) (Nat.log 2 (size / 2)) rfl hlt hl (2 * (size / 2)) 0 d' (by omega)
      (by have := Nat.lt_two_pow_self (n := Nat.log 2 (size / 2)); omega)
  · simp only [h']
    rfl

example (d : Data) : fft 2000 d = .ub := fft_not_power_violated 2000 (by norm_num) (fun b hb => by
  have h2 : b < 10 := (Nat.pow_lt_pow_iff_right (by norm_num : 1 < 2)).1 (by omega)
  interval_cases b <;> omega) d

/-! ## C185: `FindTune` -/

theorem height_norm (d : Data) (k : Nat) : height d k = ‖complex d k‖ := by
  rw [height, Complex.norm_def, Complex.normSq_apply]
  rfl

/-- The search finds the first of the highest bins. -/
theorem peak_first (v : Nat → ℝ) (p : Nat) (h1 : 1 ≤ p) (h0 : 0 < v p) : ∀ c, p ≤ c → (∀ q, 1 ≤ q → q ≤ c → v q ≤ v p) →
    (∀ q, 1 ≤ q → q < p → v q < v p) → peak v c = (v p, p) := by
  have below : ∀ c, c < p → (∀ q, 1 ≤ q → q < p → v q < v p) → (peak v c).1 < v p := by
    intro c
    induction c with
    | zero => intro _ _; exact h0
    | succ c ih =>
      intro hc hl
      rw [peak]
      split
      · exact hl _ (by omega) hc
      · exact ih (by omega) hl
  intro c
  induction c with
  | zero => intro hc; omega
  | succ c ih =>
    intro hc hm hl
    rw [peak]
    by_cases h : p = c + 1
    · subst h
      rw [if_pos (below c (by omega) hl)]
    · rw [ih (by omega) (fun q a b => hm q a (by omega)) hl, if_neg]
      exact not_lt.2 (hm (c + 1) (by omega) le_rfl)

/-- C185: two neighbouring bins give the distance of a tone from the first of them exactly. -/
theorem interpolation_exact (n : Nat) (hn : 4 ≤ n) (a : ℂ) (ha : a ≠ 0) (q : Nat) (de : ℝ) (h1 : -1 ≤ de) (h2 : de < 1) :
    ∃ A, amp (‖dft n (tone n a ((q + de) / n)) q‖ / Real.sqrt n) (‖dft n (tone n a ((q + de) / n)) (q + 1)‖ / Real.sqrt n)
        (Real.cos (2 * Real.pi / n)) = .ok A ∧
      -1 ≤ A * Real.sin (2 * Real.pi / n) ∧ A * Real.sin (2 * Real.pi / n) ≤ 1 ∧
      n * Real.arcsin (A * Real.sin (2 * Real.pi / n)) / (2 * Real.pi) = de := by
  obtain ⟨t0, t4⟩ := theta_bounds n hn
  obtain ⟨ka, hk, e1, e2⟩ := two_bins n hn de h1 h2
  have hp := Real.pi_pos
  have hnr : (0 : ℝ) < n := by exact_mod_cast (by omega : 0 < n)
  have hq1 : Real.pi * ((q : ℝ) / n - (q + de) / n) = -(de * (Real.pi / n)) := by field_simp; ring
  have hq2 : Real.pi * (((q + 1 : Nat) : ℝ) / n - (q + de) / n) = Real.pi / n - de * (Real.pi / n) := by push_cast; field_simp; ring
  rw [dft_tone n (by omega), dft_tone n (by omega), hq1, hq2, norm_mul, norm_mul, e1, e2, show 2 * Real.pi / n = 2 * (Real.pi / n) by ring]
  have hS : 0 < Real.sin (2 * (Real.pi / n)) := Real.sin_pos_of_pos_of_lt_pi (by linarith) (by linarith)
  have ha' := norm_pos_iff.2 ha
  have hsq : 0 < Real.sqrt n := Real.sqrt_pos.2 hnr
  have b1 : -(2 * (Real.pi / n)) ≤ 2 * (de * (Real.pi / n)) := by nlinarith
  have b2 : 2 * (de * (Real.pi / n)) ≤ 2 * (Real.pi / n) := by nlinarith
  have hA := amp_heights (‖a‖ * ka / Real.sqrt n) (Real.pi / n) (2 * (de * (Real.pi / n))) (by positivity) t0 t4 b1 b2
  refine ⟨Real.sin (2 * (de * (Real.pi / n))) / Real.sin (2 * (Real.pi / n)), ?_, ?_, ?_, ?_⟩
  · rw [← hA]
    congr 1 <;> ring
  · rw [div_mul_cancel₀ _ hS.ne']
    exact Real.neg_one_le_sin _
  · rw [div_mul_cancel₀ _ hS.ne']
    exact Real.sin_le_one _
  · rw [div_mul_cancel₀ _ hS.ne', Real.arcsin_sin (by linarith) (by linarith)]
    field_simp

example : ∃ A, amp (‖dft 8 (tone 8 1 ((2 + 1 / 4) / (8 : Nat))) 2‖ / Real.sqrt (8 : Nat))
    (‖dft 8 (tone 8 1 ((2 + 1 / 4) / (8 : Nat))) 3‖ / Real.sqrt (8 : Nat))
    (Real.cos (2 * Real.pi / (8 : Nat))) = .ok A := by
  obtain ⟨A, h, _⟩ := interpolation_exact 8 (by norm_num) 1 one_ne_zero 2 (1 / 4) (by norm_num) (by norm_num)
  exact ⟨A, h⟩

theorem dft_congr (n : Nat) (x y : Nat → ℂ) (h : ∀ k < n, x k = y k) (q : Nat) : dft n x q = dft n y q := by
  rw [dft, dft]
  exact Finset.sum_congr rfl fun k hk => by rw [h k (Finset.mem_range.1 hk)]

theorem dft_scale (n : Nat) (hn : 0 < n) (a : ℂ) (nu : ℝ) (q : Nat) : ‖dft n (tone n a nu) q‖ = ‖a‖ * ‖dft n (tone n 1 nu) q‖ := by
  rw [dft_tone n hn, dft_tone n hn, norm_mul, one_mul]

/-- The position which `FindTune` uses. -/
theorem find_tune_at (size b : Nat) (hsize : size / 2 = 2 ^ b) (d : Data) (a : ℂ) (ha : a ≠ 0) (nu : ℝ)
    (hd : ∀ k < 2 ^ b, complex d k = tone (2 ^ b) a nu k) (p : Nat) (hp : Peaked (2 ^ b) nu p) :
    ∃ d', fft size d = .ok d' ∧ (∀ q < 2 ^ b, height d' q = ‖dft (2 ^ b) (tone (2 ^ b) a nu) q‖) ∧ (peak (height d') (2 ^ b - 1)).2 = p := by
  obtain ⟨p1, p2, p3, p4, p5⟩ := hp
  obtain ⟨d', h, e⟩ := fft_dft size b hsize d
  have hb : 0 < 2 ^ b := by positivity
  have hh : ∀ q < 2 ^ b, height d' q = ‖dft (2 ^ b) (tone (2 ^ b) a nu) q‖ := fun q hq => by
    rw [height_norm, e q hq, dft_congr _ _ _ hd]
  have ha' := norm_pos_iff.2 ha
  refine ⟨d', h, hh, ?_⟩
  rw [peak_first (height d') p p1 _ (2 ^ b - 1) (by omega) _ _]
  · rw [hh p p2, dft_scale _ hb]
    exact mul_pos ha' (norm_pos_iff.2 p3)
  · intro q q1 q2
    rw [hh p p2, hh q (by omega), dft_scale _ hb, dft_scale _ hb a nu p]
    exact mul_le_mul_of_nonneg_left (p4 q q1 (by omega)) ha'.le
  · intro q q1 q2
    rw [hh p p2, hh q (by omega), dft_scale _ hb, dft_scale _ hb a nu p]
    exact mul_lt_mul_of_pos_left (p5 q q1 q2) ha'

/-- C185, violation: the tune of a pure tone comes out one bin too low, `1/n` below the tune. -/
theorem find_tune_shifted_violated (size b : Nat) (hsize : size / 2 = 2 ^ b) (hb : 2 ≤ b) (d : Data) (a : ℂ) (ha : a ≠ 0) (nu : ℝ)
    (hd : ∀ k < 2 ^ b, complex d k = tone (2 ^ b) a nu k) (p : Nat) (hp : Peaked (2 ^ b) nu p) (hlast : p + 2 < 2 ^ b)
    (h1 : p ≤ 2 ^ b * nu) (h2 : 2 ^ b * nu < p + 2) : findTune size d = .ok (nu - 1 / 2 ^ b) := by
  obtain ⟨d', hf, hh, hpk⟩ := find_tune_at size b hsize d a ha nu hd p hp
  have h4 : 4 ≤ 2 ^ b := le_trans (by norm_num) (Nat.pow_le_pow_right (by norm_num : 0 < 2) hb)
  have hnr : (0 : ℝ) < 2 ^ b := by positivity
  have hnu : nu = (((p + 1 : Nat) : ℝ) + (2 ^ b * nu - (p + 1))) / ((2 ^ b : Nat) : ℝ) := by
    push_cast
    field_simp
    ring
  obtain ⟨A, hA, c1, c2, hde⟩ := interpolation_exact (2 ^ b) h4 a ha (p + 1) (2 ^ b * nu - (p + 1)) (by linarith) (by linarith)
  rw [← hnu] at hA
  rw [findTune]
  simp only [hsize]
  rw [hf]
  simp only [Outcome.bind, hpk]
  rw [spectrum, if_pos (by omega), spectrum, if_pos (by omega)]
  simp only [hh (p + 1) (by omega), hh (p + 1 + 1) (by omega)]
  rw [hA]
  simp only []
  rw [if_neg (by rintro (h | h) <;> linarith), hde]
  congr 1
  push_cast
  field_simp
  ring

/-- The peak of a tone whose tune is on a bin. -/
theorem peaked_exact (n p : Nat) (hn : 4 ≤ n) (h1 : 1 ≤ p) (h2 : p < n) : Peaked n (p / n) p := by
  have hnr : (0 : ℝ) < n := by exact_mod_cast (by omega : 0 < n)
  have centre : ‖dft n (tone n 1 (p / n)) p‖ = n / 2 := by
    rw [dft_tone n (by omega), sub_self, mul_zero, one_mul, filtered_centre n hn]
  have off : ∀ q < n, q ≠ p → ‖dft n (tone n 1 (p / n)) q‖ ≤ n / 4 := fun q hq hne => by
    have : Real.pi * ((q : ℝ) / n - p / n) = ((q - p : ℤ) : ℝ) * (Real.pi / n) := by push_cast; ring
    rw [dft_tone n (by omega), one_mul, this]
    apply filtered_off n hn
    intro hdvd
    have := Int.eq_zero_of_abs_lt_dvd hdvd (by rw [abs_lt]; omega)
    omega
  refine ⟨h1, h2, ?_, fun q _ hq => ?_, fun q _ hq => ?_⟩
  · intro h
    rw [h, norm_zero] at centre
    linarith
  · by_cases hqp : q = p
    · rw [hqp]
    · rw [centre]
      linarith [off q hq hqp]
  · rw [centre]
    linarith [off q (by omega) (by omega)]

/-- C185, violation: the tone of bin `p` is found at bin `p - 1`. -/
theorem find_tune_bin_violated (size b : Nat) (hsize : size / 2 = 2 ^ b) (hb : 2 ≤ b) (d : Data) (a : ℂ) (ha : a ≠ 0) (p : Nat) (hp : 1 ≤ p)
    (hlast : p + 2 < 2 ^ b) (hd : ∀ k < 2 ^ b, complex d k = tone (2 ^ b) a (p / 2 ^ b) k) :
    findTune size d = .ok ((p - 1 : ℝ) / 2 ^ b) := by
  have h4 : 4 ≤ 2 ^ b := le_trans (by norm_num) (Nat.pow_le_pow_right (by norm_num : 0 < 2) hb)
  have hpk := peaked_exact (2 ^ b) p h4 hp (by omega)
  push_cast at hpk
  have hnr : (0 : ℝ) < 2 ^ b := by positivity
  have e : (2 : ℝ) ^ b * (p / 2 ^ b) = p := by field_simp
  rw [find_tune_shifted_violated size b hsize hb d a ha _ hd p hpk hlast (by rw [e]) (by rw [e]; linarith)]
  congr 1
  ring

/-- C185, violation: a tone of one of the two last bins is read beyond the end of the spectrum. -/
theorem find_tune_last_violated (size b : Nat) (hsize : size / 2 = 2 ^ b) (d : Data) (a : ℂ) (ha : a ≠ 0) (nu : ℝ)
    (hd : ∀ k < 2 ^ b, complex d k = tone (2 ^ b) a nu k) (p : Nat) (hp : Peaked (2 ^ b) nu p) (hlast : 2 ^ b ≤ p + 2) :
    findTune size d = .ub := by
  obtain ⟨d', hf, hh, hpk⟩ := find_tune_at size b hsize d a ha nu hd p hp
  rw [findTune]
  simp only [hsize]
  rw [hf]
  simp only [Outcome.bind, hpk]
  rw [spectrum, spectrum, if_neg (by omega : ¬ p + 1 < 2 ^ b - 1)]
  by_cases h : p < 2 ^ b - 1
  · rw [if_pos h]
  · rw [if_neg h]

/-- The data of a tone. -/
noncomputable def toneData (n : Nat) (a : ℂ) (nu : ℝ) : Data := fun k => if k % 2 = 0 then (tone n a nu (k / 2)).re else (tone n a nu (k / 2)).im

theorem complex_toneData (n : Nat) (a : ℂ) (nu : ℝ) (k : Nat) : complex (toneData n a nu) k = tone n a nu k := by
  apply Complex.ext
  · show toneData n a nu (2 * k) = _
    rw [toneData, if_pos (by omega), show 2 * k / 2 = k by omega]
  · show toneData n a nu (2 * k + 1) = _
    rw [toneData, if_neg (by omega), show (2 * k + 1) / 2 = k by omega]

example : findTune 16 (toneData 8 2 (3 / 8)) = .ok (2 / 8) := by
  have := find_tune_bin_violated 16 3 rfl (by norm_num) (toneData 8 2 (3 / 8)) 2 two_ne_zero 3 (by norm_num) (by norm_num)
    (fun k _ => by rw [complex_toneData]; norm_num)
  rw [this]
  norm_num

example : findTune 16 (toneData 8 2 (7 / 8)) = .ub :=
  find_tune_last_violated 16 3 rfl (toneData 8 2 (7 / 8)) 2 two_ne_zero (7 / 8) (fun k _ => by rw [complex_toneData]; norm_num) 7
    (by have := peaked_exact 8 7 (by norm_num) (by norm_num) (by norm_num); norm_num at this ⊢; exact this) (by norm_num)

/-! ## C186: `FindTunes` -/

/-- C186: a particle which is lost or leaves the range in one of the turns gives zero everywhere. -/
theorem unstable_zero (track : Nat → Option P) (ntrack : Nat) (diffusion : Bool) (t : Nat) (ht : t < if diffusion then 2 * ntrack else ntrack)
    (h : track t = none ∨ ∃ p, track t = some p ∧ (10000000000 < |p.x| ∨ 10000000000 < |p.y|)) :
    findTunes track ntrack diffusion = .ok ⟨0, 0, 0, 0⟩ := by
  have hg : good (track t) = false := by
    rcases h with h | ⟨p, h, hx | hx⟩
    · rw [h]; rfl
    · rw [h, good]; simp [hx]
    · rw [h, good]; simp [hx]
  rw [findTunes, if_neg]
  · simp
  · rw [List.all_eq_true]
    intro hall
    have := hall t (List.mem_range.2 ht)
    rw [hg] at this
    exact absurd this (by decide)

example : findTunes (fun t => if t = 5 then none else some ⟨1, 0, 1, 0⟩) 1000 false = .ok ⟨0, 0, 0, 0⟩ :=
  unstable_zero _ 1000 false 5 (by norm_num) (.inl rfl)

/-- C186, violation: without diffusion the change of the tunes is not zero, it is the negative tune. -/
theorem no_diffusion_violated (track : Nat → Option P) (ntrack : Nat) (o : Out) (h : findTunes track ntrack false = .ok o) :
    o.dqx = -o.qx ∧ o.dqy = -o.qy := by
  rw [findTunes] at h
  simp only [Bool.false_eq_true, if_false] at h
  split at h
  · generalize findTune (2 * ntrack) (collect P.x P.xp track ntrack 0) = r1 at h
    generalize findTune (2 * ntrack) (collect P.y P.yp track ntrack 0) = r2 at h
    cases r1 with
    | ok q1 =>
      cases r2 with
      | ok q2 =>
        simp only [Outcome.bind, Outcome.ok.injEq] at h
        subst h
        simp
      | throw e => simp [Outcome.bind] at h
      | ub => simp [Outcome.bind] at h
    | throw e => simp [Outcome.bind] at h
    | ub => simp [Outcome.bind] at h
  · simp only [Outcome.ok.injEq] at h
    subst h
    simp

/-- C186, violation: a stable particle has tunes only if the number of turns is a power of two and at least four. -/
theorem turns_violated (track : Nat → Option P) (ntrack : Nat) (diffusion : Bool) (hb : ∀ b, 2 ≤ b → ntrack ≠ 2 ^ b)
    (hs : ∀ t < if diffusion then 2 * ntrack else ntrack, good (track t) = true) : findTunes track ntrack diffusion = .ub := by
  have hft : ∀ d, findTune (2 * ntrack) d = .ub := by
    intro d
    rw [findTune]
    simp only [show 2 * ntrack / 2 = ntrack by omega]
    by_cases hp : ∃ b, ntrack = 2 ^ b
    · obtain ⟨b, rfl⟩ := hp
      have hb2 : b < 2 := by
        by_contra h
        exact hb b (by omega) rfl
      obtain ⟨d', h, _⟩ := fft_dft (2 * 2 ^ b) b (by omega) d
      rw [h]
      simp only [Outcome.bind]
      have h2 : 2 ^ b ≤ 2 := by interval_cases b <;> norm_num
      rw [spectrum, spectrum]
      split
      · rename_i r h'
        rw [if_neg (by omega)]
      · rename_i r e h'
        split at h' <;> simp at h'
      · rfl
    · by_cases h0 : ntrack = 0
      · subst h0
        have : fft (2 * 0) d = .ok d := by
          rw [fft]
          rfl
        rw [this]
        simp only [Outcome.bind]
        rw [spectrum, if_neg (by omega)]
      · rw [fft_not_power_violated (2 * ntrack) (by omega) (fun b e => hp ⟨b, by omega⟩)]
        rfl
  rw [findTunes]
  simp only [hft]
  rw [if_pos]
  · rfl
  · rw [List.all_eq_true]
    intro t ht
    exact hs t (List.mem_range.1 ht)

example : findTunes (fun _ => some ⟨1, 0, 1, 0⟩) 1000 false = .ub :=
  turns_violated _ 1000 false (fun b _ hb => by
    have h2 : b < 10 := (Nat.pow_lt_pow_iff_right (by norm_num : 1 < 2)).1 (by omega)
    interval_cases b <;> omega) (fun t _ => by rw [good]; norm_num)

/-- Regular motion: a rotation in both planes. -/
noncomputable def regular (r1 a1 nu1 r2 a2 nu2 : ℝ) (t : Nat) : Option P :=
  some ⟨r1 * Real.cos (2 * Real.pi * nu1 * t + a1), -(r1 * Real.sin (2 * Real.pi * nu1 * t + a1)),
    r2 * Real.cos (2 * Real.pi * nu2 * t + a2), -(r2 * Real.sin (2 * Real.pi * nu2 * t + a2))⟩

theorem rotation_tone (n : Nat) (r al nu : ℝ) (t0 k : Nat) :
    (⟨r * Real.cos (2 * Real.pi * nu * (t0 + k : Nat) + al) * Real.sin (Real.pi * (k + 1) / n) ^ 2,
      -(r * Real.sin (2 * Real.pi * nu * (t0 + k : Nat) + al)) * Real.sin (Real.pi * (k + 1) / n) ^ 2⟩ : ℂ) =
      tone n (r * Complex.exp (((-(2 * Real.pi * nu * t0 + al) : ℝ) : ℂ) * Complex.I)) nu k := by
  have e : Complex.exp (-(2 * Real.pi * Complex.I * (nu * k))) = Complex.exp (((-(2 * Real.pi * nu * k) : ℝ) : ℂ) * Complex.I) := by
    congr 1
    push_cast
    ring
  have e2 : (r : ℂ) * Complex.exp (((-(2 * Real.pi * nu * t0 + al) : ℝ) : ℂ) * Complex.I) *
      Complex.exp (((-(2 * Real.pi * nu * k) : ℝ) : ℂ) * Complex.I) =
      r * Complex.exp (((-(2 * Real.pi * nu * (t0 + k : Nat) + al) : ℝ) : ℂ) * Complex.I) := by
    rw [mul_assoc, ← Complex.exp_add]
    congr 2
    push_cast
    ring
  rw [tone, e, e2]
  apply Complex.ext
  · rw [Complex.re_mul_ofReal, Complex.re_ofReal_mul, Complex.exp_ofReal_mul_I_re, Real.cos_neg]
  · rw [Complex.im_mul_ofReal, Complex.im_ofReal_mul, Complex.exp_ofReal_mul_I_im, Real.sin_neg]
    ring

theorem hanning_shift (n : Nat) (hn : 0 < n) (c k : Nat) (hc : c = 0 ∨ c = n) : hanning n (c + k) = Real.sin (Real.pi * (k + 1) / n) ^ 2 := by
  have hnr : (n : ℝ) ≠ 0 := by exact_mod_cast hn.ne'
  rw [hanning]
  rcases hc with rfl | rfl
  · rw [Nat.zero_add]; ring
  · rw [show Real.pi * (((c + k : Nat) : ℝ) + 1) / c = Real.pi * (k + 1) / c + Real.pi by push_cast; field_simp; ring, Real.sin_add_pi]
    ring

/-- C186: regular motion has tunes which do not change; each of them is `1/n` below the tune of the motion. -/
theorem regular_motion_violated (b : Nat) (hb : 2 ≤ b) (r1 a1 nu1 r2 a2 nu2 : ℝ) (h1 : r1 ≠ 0) (h2 : r2 ≠ 0)
    (l1 : |r1| ≤ 10000000000) (l2 : |r2| ≤ 10000000000) (p1 p2 : Nat) (hp1 : Peaked (2 ^ b) nu1 p1) (hp2 : Peaked (2 ^ b) nu2 p2)
    (e1 : p1 + 2 < 2 ^ b) (e2 : p2 + 2 < 2 ^ b) (c1 : p1 ≤ 2 ^ b * nu1) (c2 : p2 ≤ 2 ^ b * nu2) (c1' : 2 ^ b * nu1 < p1 + 2)
    (c2' : 2 ^ b * nu2 < p2 + 2) :
    findTunes (regular r1 a1 nu1 r2 a2 nu2) (2 ^ b) true = .ok ⟨nu1 - 1 / 2 ^ b, nu2 - 1 / 2 ^ b, 0, 0⟩ := by
  have hn : 0 < 2 ^ b := by positivity
  have hx : ∀ c, c = 0 ∨ c = 2 ^ b →
      findTune (2 * 2 ^ b) (collect P.x P.xp (regular r1 a1 nu1 r2 a2 nu2) (2 ^ b) c) = .ok (nu1 - 1 / 2 ^ b) := fun c hc => by
    apply find_tune_shifted_violated (2 * 2 ^ b) b (by omega) hb _ (r1 * Complex.exp (((-(2 * Real.pi * nu1 * c + a1) : ℝ) : ℂ) * Complex.I))
      (mul_ne_zero (by exact_mod_cast h1) (Complex.exp_ne_zero _)) nu1 _ p1 hp1 e1 c1 c1'
    intro k _
    rw [← rotation_tone, ← hanning_shift (2 ^ b) hn c k hc]
    apply Complex.ext
    · show collect P.x P.xp (regular r1 a1 nu1 r2 a2 nu2) (2 ^ b) c (2 * k) = _
      rw [collect, show 2 * k / 2 = k by omega, regular]
      simp
    · show collect P.x P.xp (regular r1 a1 nu1 r2 a2 nu2) (2 ^ b) c (2 * k + 1) = _
      rw [collect, show (2 * k + 1) / 2 = k by omega, regular]
      simp only []
      rw [if_neg (by omega)]
  have hy : ∀ c, c = 0 ∨ c = 2 ^ b →
      findTune (2 * 2 ^ b) (collect P.y P.yp (regular r1 a1 nu1 r2 a2 nu2) (2 ^ b) c) = .ok (nu2 - 1 / 2 ^ b) := fun c hc => by
    apply find_tune_shifted_violated (2 * 2 ^ b) b (by omega) hb _ (r2 * Complex.exp (((-(2 * Real.pi * nu2 * c + a2) : ℝ) : ℂ) * Complex.I))
      (mul_ne_zero (by exact_mod_cast h2) (Complex.exp_ne_zero _)) nu2 _ p2 hp2 e2 c2 c2'
    intro k _
    rw [← rotation_tone, ← hanning_shift (2 ^ b) hn c k hc]
    apply Complex.ext
    · show collect P.y P.yp (regular r1 a1 nu1 r2 a2 nu2) (2 ^ b) c (2 * k) = _
      rw [collect, show 2 * k / 2 = k by omega, regular]
      simp
    · show collect P.y P.yp (regular r1 a1 nu1 r2 a2 nu2) (2 ^ b) c (2 * k + 1) = _
      rw [collect, show (2 * k + 1) / 2 = k by omega, regular]
      simp only []
      rw [if_neg (by omega)]
  have bound : ∀ r al : ℝ, |r| ≤ 10000000000 → ¬ 10000000000 < |r * Real.cos al| := fun r al hr => by
    rw [abs_mul]
    have := Real.abs_cos_le_one al
    have := abs_nonneg r
    nlinarith
  rw [findTunes]
  simp only [if_true]
  rw [if_pos, hx 0 (.inl rfl), hy 0 (.inl rfl), hx (2 ^ b) (.inr rfl), hy (2 ^ b) (.inr rfl)]
  · simp [Outcome.bind]
  · rw [List.all_eq_true]
    intro t _
    rw [regular, good]
    simp only [gt_iff_lt, bound r1 _ l1, bound r2 _ l2, decide_false, Bool.or_self, Bool.not_false]

/-- Turning by 5/32 and 9/32: the tunes come out as 4/32 and 8/32. -/
example : findTunes (regular 1 0 (5 / 32) 2 1 (9 / 32)) 32 true = .ok ⟨4 / 32, 8 / 32, 0, 0⟩ := by
  have k1 := peaked_exact 32 5 (by norm_num) (by norm_num) (by norm_num)
  have k2 := peaked_exact 32 9 (by norm_num) (by norm_num) (by norm_num)
  norm_num at k1 k2
  have := regular_motion_violated 5 (by norm_num) 1 0 (5 / 32) 2 1 (9 / 32) one_ne_zero two_ne_zero (by norm_num) (by norm_num) 5 9
    (by norm_num; exact k1) (by norm_num; exact k2) (by norm_num) (by norm_num) (by norm_num) (by norm_num) (by norm_num) (by norm_num)
  norm_num at this ⊢
  exact this

end Verif.Tunes
