import Verif.Generators.Spec
import Verif.Beam.Lemmas
import Mathlib.MeasureTheory.Integral.IntervalIntegral.Periodic
import Mathlib.Analysis.SpecialFunctions.Integrals.Basic
import Mathlib.MeasureTheory.Measure.Lebesgue.Basic

/-!
# Properties of the generators of particle distributions
-/

namespace Verif.Generators
open Real Verif.Beam Verif.Beam.Spec Verif.Generators.Spec MeasureTheory

/-! ## Normal numbers with a cut off -/

theorem reject_first (c : ℝ) : ∀ (l : List ℝ) (x : ℝ) (rest : List ℝ), reject 0 1 c l = some (x, rest) ↔ FirstWithin c l x rest := by
  intro l
  induction l with
  | nil =>
    intro x rest
    constructor
    · intro h; cases h
    · rintro ⟨before, h, -⟩; cases before <;> cases h
  | cons g l ih =>
    intro x rest
    unfold reject
    simp only [zero_add, one_mul, sub_zero]
    by_cases hg : |g| > c
    · rw [if_pos hg, ih]
      constructor
      · rintro ⟨before, rfl, h1, h2⟩
        refine ⟨g :: before, rfl, h1, ?_⟩
        intro b hb
        rcases List.mem_cons.mp hb with rfl | hb
        · exact hg
        · exact h2 b hb
      · rintro ⟨before, h, h1, h2⟩
        cases before with
        | nil =>
          injection h with ha hb
          subst ha
          exact absurd hg (not_lt.mpr h1)
        | cons b before =>
          injection h with ha hb
          exact ⟨before, hb, h1, fun b hb => h2 b (List.mem_cons_of_mem _ hb)⟩
    · rw [if_neg hg]
      constructor
      · intro h
        injection h with h
        injection h with h1 h2
        subst h1 h2
        exact ⟨[], rfl, not_lt.mp hg, fun b hb => (by cases hb)⟩
      · rintro ⟨before, h, h1, h2⟩
        cases before with
        | nil =>
          injection h with ha hb
          subst ha hb
          rfl
        | cons b before =>
          injection h with ha hb
          subst ha
          exact absurd (h2 g (List.mem_cons_self ..)) hg

/-- **C313.** With a cut off, of either sign, the first normal number not further from zero is used; without, the next one.  Others are only
skipped. -/
theorem gauss_spec (cutoff : ℝ) (s s' : Source) (x : ℝ) : gauss 1 cutoff s = some (x, s') ↔
    s'.uniform = s.uniform ∧ ((cutoff ≠ 0 ∧ FirstWithin |cutoff| s.normal x s'.normal) ∨ (cutoff = 0 ∧ s.normal = x :: s'.normal)) := by
  unfold gauss normalCut normal
  by_cases hc : cutoff = 0
  · rw [if_pos hc, if_neg one_ne_zero]
    cases hn : s.normal with
    | nil => simp [hc]
    | cons g l =>
      cases s'
      simp only [sqrt_one, one_mul, zero_add, Option.some.injEq, Prod.mk.injEq, hc, ne_eq, not_true_eq_false, false_and, false_or, true_and,
        List.cons.injEq, Source.mk.injEq]
      constructor
      · rintro ⟨rfl, rfl, rfl⟩; exact ⟨rfl, rfl, rfl⟩
      · rintro ⟨rfl, rfl, rfl⟩; exact ⟨rfl, rfl, rfl⟩
  · rw [if_neg hc, if_neg hc, if_neg one_ne_zero]
    cases s'
    simp only [sqrt_one, mul_one, Option.map_eq_some_iff, Prod.exists, Prod.mk.injEq, Source.mk.injEq, hc, ne_eq, not_false_eq_true, true_and,
      false_and, or_false]
    constructor
    · rintro ⟨a, b, h, rfl, rfl, rfl⟩
      exact ⟨rfl, (reject_first _ _ _ _).mp h⟩
    · rintro ⟨rfl, h⟩
      exact ⟨_, _, (reject_first _ _ _ _).mpr h, rfl, rfl, rfl⟩

example : gauss 1 (-2) ⟨[1 / 2], [3, -5, 1, 7]⟩ = some (1, ⟨[1 / 2], [7]⟩) :=
  (gauss_spec _ _ _ _).mpr ⟨rfl, Or.inl ⟨by norm_num, [3, -5], rfl, by norm_num, by norm_num⟩⟩

/-- The cut off of one coordinate. -/
theorem gauss_cut (cutoff : ℝ) (s : Source) (r : ℝ × Source) (h : gauss 1 cutoff s = some r) (hc : cutoff ≠ 0) : |r.1| ≤ |cutoff| := by
  obtain ⟨-, ⟨-, b, -, h, -⟩ | ⟨h0, -⟩⟩ := (gauss_spec cutoff s r.2 r.1).mp h
  · exact h
  · exact absurd h0 hc

/-- **C313.** Every coordinate of a normal distribution keeps to its own cut off. -/
theorem normal_within (c : Nat → ℝ) (s s' : Source) (u : Nat → ℝ) (h : generate (.normal c) s = some (u, s')) (i : Nat) (hi : i < 6) (hc : c i ≠ 0) :
    |u i| ≤ |c i| := by
  simp only [generate, Option.bind_eq_some_iff] at h
  obtain ⟨x, h0, xp, h1, y, h2, yp, h3, dp, h5, ct, h4, h⟩ := h
  injection h with h
  injection h with h _
  subst h
  interval_cases i <;> simp only [vec]
  · exact gauss_cut _ _ _ h0 hc
  · exact gauss_cut _ _ _ h1 hc
  · exact gauss_cut _ _ _ h2 hc
  · exact gauss_cut _ _ _ h3 hc
  · exact gauss_cut _ _ _ h4 hc
  · exact gauss_cut _ _ _ h5 hc

/-- **C313.** Without cut offs six numbers are used as they come: x, x', y, y', the momentum and then the delay. -/
theorem normal_plain (a b c d e f : ℝ) (l v : List ℝ) : generate (.normal fun _ => 0) ⟨v, a :: b :: c :: d :: e :: f :: l⟩
    = some (vec a b c d f e, ⟨v, l⟩) := by
  have h : ∀ (x : ℝ) (l : List ℝ), gauss 1 0 ⟨v, x :: l⟩ = some (x, ⟨v, l⟩) := fun x l => (gauss_spec _ _ _ _).mpr ⟨rfl, Or.inr ⟨rfl, rfl⟩⟩
  simp only [generate, h, Option.bind_some]

/-! ## Amplitudes -/

theorem particle_row (t : BeamData) (u : Nat → ℝ) (i : Nat) : particle t u i = normalTransform t i 0 * (scale t 0 * u 0)
    + normalTransform t i 1 * (scale t 1 * u 1) + normalTransform t i 2 * (scale t 2 * u 2) + normalTransform t i 3 * (scale t 3 * u 3)
    + normalTransform t i 4 * (scale t 4 * u 4) + normalTransform t i 5 * (scale t 5 * u 5) + centroid t i := by
  unfold particle
  simp [List.range_succ]
  ring

/-- The coordinates of a particle that do not come from the centre or the dispersion. -/
theorem betatron_particle (t : BeamData) (h : Good t) (u : Nat → ℝ) :
    betatron t (particle t u) 0 = √t.beta_x * √t.emit_x * u 0 ∧
    betatron t (particle t u) 1 = √t.emit_x / √t.beta_x * (u 1 - t.alpha_x * u 0) ∧
    betatron t (particle t u) 2 = √t.beta_y * √t.emit_y * u 2 ∧
    betatron t (particle t u) 3 = √t.emit_y / √t.beta_y * (u 3 - t.alpha_y * u 2) ∧
    particle t u 5 = √t.sig_dp * u 5 ∧ particle t u 4 = t.ct0 + √t.sig_z * u 4 := by
  obtain ⟨hc, -⟩ := h
  have e : ∀ i j, i < 6 → normalTransform t i j = nrow t identity i j := fun i j hi => normal_uncoupled t hc i j hi
  have h5 : particle t u 5 = √t.sig_dp * u 5 := by
    rw [particle_row]
    simp only [e _ _ (by norm_num : 5 < 6), nrow, identity, centroid, scale]
    norm_num
  refine ⟨?_, ?_, ?_, ?_, h5, ?_⟩
  · simp only [betatron]
    rw [h5, particle_row]
    simp only [e _ _ (by norm_num : 0 < 6), nrow, identity, centroid, scale]
    norm_num
    ring
  · simp only [betatron]
    rw [h5, particle_row]
    simp only [e _ _ (by norm_num : 1 < 6), nrow, identity, centroid, scale]
    norm_num
    ring
  · simp only [betatron]
    rw [h5, particle_row]
    simp only [e _ _ (by norm_num : 2 < 6), nrow, identity, centroid, scale]
    norm_num
    ring
  · simp only [betatron]
    rw [h5, particle_row]
    simp only [e _ _ (by norm_num : 3 < 6), nrow, identity, centroid, scale]
    norm_num
    ring
  · rw [particle_row]
    simp only [e _ _ (by norm_num : 4 < 6), nrow, identity, centroid, scale]
    norm_num
    ring

/-- A beam with dispersion, off its axis, for the examples. -/
def sample : BeamData :=
  { beta_x := 4, beta_y := 9, alpha_x := 1, alpha_y := -2, emit_x := 1, emit_y := 4, sig_dp := 1, sig_z := 1, x0 := 3, xp0 := 1, y0 := 2, yp0 := 5
    ct0 := 7, p0 := 45, c_xy := 0, c_xyp := 0, c_xpy := 0, c_xpyp := 0, Dx := 2, Dxp := 1, Dy := 1, Dyp := 0 }

theorem sample_good : Good sample := by
  unfold Good Uncoupled sample
  norm_num

theorem action_eq (t : BeamData) (h : Good t) (u : Nat → ℝ) :
    actionX t (particle t u) = t.emit_x * (u 0 ^ 2 + u 1 ^ 2) ∧ actionY t (particle t u) = t.emit_y * (u 2 ^ 2 + u 3 ^ 2) := by
  obtain ⟨b0, b1, b2, b3, -, -⟩ := betatron_particle t h u
  obtain ⟨-, hx, hy, ex, ey⟩ := h
  have s1 : √t.beta_x ≠ 0 := (sqrt_pos.mpr hx).ne'
  have s2 : √t.beta_y ≠ 0 := (sqrt_pos.mpr hy).ne'
  have q1 := sq_sqrt hx.le
  have q2 := sq_sqrt hy.le
  have q3 := sq_sqrt ex
  have q4 := sq_sqrt ey
  constructor
  · unfold actionX
    simp only [b0, b1]
    generalize √t.beta_x = r at *
    generalize √t.emit_x = m at *
    rw [← q1, ← q3]
    field_simp
    ring
  · unfold actionY
    simp only [b2, b3]
    generalize √t.beta_y = r at *
    generalize √t.emit_y = m at *
    rw [← q2, ← q4]
    field_simp
    ring

theorem tail_eq (x xp y yp : ℝ) (s : Source) (r : (Nat → ℝ) × Source) (h : tail x xp y yp s = some r) :
    r.1 0 = x ∧ r.1 1 = xp ∧ r.1 2 = y ∧ r.1 3 = yp := by
  simp only [tail, Option.bind_eq_some_iff] at h
  obtain ⟨dp, -, ct, -, h⟩ := h
  injection h with h
  subst h
  exact ⟨rfl, rfl, rfl, rfl⟩

theorem circle (w h : ℝ) : (cos w * h) ^ 2 + (sin w * h) ^ 2 = h ^ 2 := by
  have := sin_sq_add_cos_sq w
  linear_combination h ^ 2 * this

/-- **C314.** A ring: both amplitudes are one sigma. -/
theorem ring_amplitude (t : BeamData) (ht : Good t) (s s' : Source) (u : Nat → ℝ) (h : generate .ring s = some (u, s')) :
    actionX t (particle t u) = t.emit_x ∧ actionY t (particle t u) = t.emit_y := by
  simp only [generate, Option.bind_eq_some_iff] at h
  obtain ⟨a, -, b, -, h⟩ := h
  obtain ⟨h0, h1, h2, h3⟩ := tail_eq _ _ _ _ _ _ h
  obtain ⟨ax, ay⟩ := action_eq t ht u
  simp only at h0 h1 h2 h3
  rw [ax, ay, h0, h1, h2, h3]
  constructor
  · have := sin_sq_add_cos_sq a.1; linear_combination t.emit_x * this
  · have := sin_sq_add_cos_sq b.1; linear_combination t.emit_y * this

example : ∃ u s', generate .ring ⟨[1 / 4, 1 / 2, 0, 0], []⟩ = some (u, s') ∧ actionY sample (particle sample u) = 4 := by
  have h : ∃ r, generate .ring ⟨[1 / 4, 1 / 2, 0, 0], []⟩ = some r := by simp [generate, uniform, tail]
  obtain ⟨r, h⟩ := h
  exact ⟨r.1, r.2, h, (ring_amplitude sample sample_good _ _ _ h).2⟩

/-- **C314.** The horizontal halo has its amplitude in one plane and nothing in the other. -/
theorem horizontal1_amplitude (t : BeamData) (ht : Good t) (size : ℝ) (s s' : Source) (u : Nat → ℝ) (h : generate (.horizontal1 size) s = some (u, s')) :
    actionX t (particle t u) = t.emit_x * size ^ 2 ∧ betatron t (particle t u) 2 = 0 ∧ betatron t (particle t u) 3 = 0 := by
  simp only [generate, Option.bind_eq_some_iff] at h
  obtain ⟨a, -, h⟩ := h
  obtain ⟨h0, h1, h2, h3⟩ := tail_eq _ _ _ _ _ _ h
  obtain ⟨-, -, b2, b3, -, -⟩ := betatron_particle t ht u
  simp only at h0 h1 h2 h3
  rw [(action_eq t ht u).1, b2, b3, h0, h1, h2, h3, circle]
  exact ⟨rfl, by ring, by ring⟩

/-- **C314.** The vertical halo likewise. -/
theorem vertical1_amplitude (t : BeamData) (ht : Good t) (size : ℝ) (s s' : Source) (u : Nat → ℝ) (h : generate (.vertical1 size) s = some (u, s')) :
    actionY t (particle t u) = t.emit_y * size ^ 2 ∧ betatron t (particle t u) 0 = 0 ∧ betatron t (particle t u) 1 = 0 := by
  simp only [generate, Option.bind_eq_some_iff] at h
  obtain ⟨a, -, h⟩ := h
  obtain ⟨h0, h1, h2, h3⟩ := tail_eq _ _ _ _ _ _ h
  obtain ⟨b0, b1, -, -, -, -⟩ := betatron_particle t ht u
  simp only at h0 h1 h2 h3
  rw [(action_eq t ht u).2, b0, b1, h0, h1, h2, h3, circle]
  exact ⟨rfl, by ring, by ring⟩

theorem sq_cut {a c : ℝ} (h : |a| ≤ |c|) : a ^ 2 ≤ c ^ 2 := sq_le_sq.mpr h

/-- **C314.** The other horizontal halo is normal in the vertical plane, within the cut offs of that plane. -/
theorem horizontal2_amplitude (t : BeamData) (ht : Good t) (size : ℝ) (c : Nat → ℝ) (s s' : Source) (u : Nat → ℝ)
    (h : generate (.horizontal2 size c) s = some (u, s')) :
    actionX t (particle t u) = t.emit_x * size ^ 2 ∧ (c 2 ≠ 0 → c 3 ≠ 0 → actionY t (particle t u) ≤ t.emit_y * (c 2 ^ 2 + c 3 ^ 2)) ∧
    ∃ l1 l2, gauss 1 (c 2) l1 = some (u 2, l2) ∧ ∃ l3, gauss 1 (c 3) l2 = some (u 3, l3) := by
  simp only [generate, Option.bind_eq_some_iff] at h
  obtain ⟨a, -, y, hy, yp, hyp, h⟩ := h
  obtain ⟨h0, h1, h2, h3⟩ := tail_eq _ _ _ _ _ _ h
  simp only at h0 h1 h2 h3
  rw [(action_eq t ht u).1, (action_eq t ht u).2, h0, h1, h2, h3, circle]
  refine ⟨rfl, fun c2 c3 => ?_, a.2, y.2, hy, yp.2, hyp⟩
  have e1 := sq_cut (gauss_cut _ _ _ hy c2)
  have e2 := sq_cut (gauss_cut _ _ _ hyp c3)
  exact mul_le_mul_of_nonneg_left (by linarith) ht.2.2.2.2

/-- **C314.** The other vertical halo likewise. -/
theorem vertical2_amplitude (t : BeamData) (ht : Good t) (size : ℝ) (c : Nat → ℝ) (s s' : Source) (u : Nat → ℝ)
    (h : generate (.vertical2 size c) s = some (u, s')) :
    actionY t (particle t u) = t.emit_y * size ^ 2 ∧ (c 0 ≠ 0 → c 1 ≠ 0 → actionX t (particle t u) ≤ t.emit_x * (c 0 ^ 2 + c 1 ^ 2)) ∧
    ∃ l1 l2, gauss 1 (c 0) l1 = some (u 0, l2) ∧ ∃ l3, gauss 1 (c 1) l2 = some (u 1, l3) := by
  simp only [generate, Option.bind_eq_some_iff] at h
  obtain ⟨a, -, y, hy, yp, hyp, h⟩ := h
  obtain ⟨h0, h1, h2, h3⟩ := tail_eq _ _ _ _ _ _ h
  simp only at h0 h1 h2 h3
  rw [(action_eq t ht u).1, (action_eq t ht u).2, h0, h1, h2, h3, circle]
  refine ⟨rfl, fun c2 c3 => ?_, a.2, y.2, hy, yp.2, hyp⟩
  have e1 := sq_cut (gauss_cut _ _ _ hy c2)
  have e2 := sq_cut (gauss_cut _ _ _ hyp c3)
  exact mul_le_mul_of_nonneg_left (by linarith) ht.2.2.2.1

/-! ## Matched halos -/

theorem horizontal1_eq (size v a b : ℝ) (l n : List ℝ) : generate (.horizontal1 size) ⟨v :: a :: b :: l, n⟩
    = some (vec (cos (2 * π * v - π) * size) (sin (2 * π * v - π) * size) 0 0 (2 * b - 1) (2 * a - 1), ⟨l, n⟩) := by
  simp only [generate, uniform, tail, Option.bind_some]
  rw [show -π + (π - -π) * v = 2 * π * v - π by ring, show (-1 : ℝ) + (1 - -1) * a = 2 * a - 1 by ring, show (-1 : ℝ) + (1 - -1) * b = 2 * b - 1 by ring]

theorem vertical1_eq (size v a b : ℝ) (l n : List ℝ) : generate (.vertical1 size) ⟨v :: a :: b :: l, n⟩
    = some (vec 0 0 (cos (2 * π * v - π) * size) (sin (2 * π * v - π) * size) (2 * b - 1) (2 * a - 1), ⟨l, n⟩) := by
  simp only [generate, uniform, tail, Option.bind_some]
  rw [show -π + (π - -π) * v = 2 * π * v - π by ring, show (-1 : ℝ) + (1 - -1) * a = 2 * a - 1 by ring, show (-1 : ℝ) + (1 - -1) * b = 2 * b - 1 by ring]

/-- The mean over a random angle does not depend on where the angle begins. -/
theorem mean_angle (F : ℝ → ℝ) (hF : Function.Periodic F (2 * π)) (m : ℝ) :
    mean1 (fun v => F (2 * π * v - π - m)) = mean1 fun v => F (2 * π * v - π) := by
  unfold mean1
  have h : ∀ d : ℝ, (∫ v in (0 : ℝ)..1, F (2 * π * v + d)) = (2 * π)⁻¹ • ∫ x in (0 : ℝ)..(0 + 2 * π), F x := by
    intro d
    rw [intervalIntegral.integral_comp_mul_add F (by positivity) d, mul_zero, mul_one, zero_add, add_comm (2 * π) d, hF.intervalIntegral_add_eq d 0]
  have e1 : (fun v => F (2 * π * v - π - m)) = fun v => F (2 * π * v + (-π - m)) := by
    funext v; congr 1; ring
  have e2 : (fun v => F (2 * π * v - π)) = fun v => F (2 * π * v + (-π)) := by
    funext v; congr 1
  rw [e1, e2, h, h]

/-- **C315.** Halos and rings are matched: turning the normalised coordinates by any phase advance leaves the mean of every function of them. -/
theorem horizontal_matched (size a b : ℝ) : ∃ out : ℝ → Nat → ℝ, (∀ v, generate (.horizontal1 size) ⟨[v, a, b], []⟩ = some (out v, ⟨[], []⟩)) ∧
    ∀ (f : ℝ → ℝ → ℝ) (m : ℝ), mean1 (fun v => f (cos m * out v 0 + sin m * out v 1) (-sin m * out v 0 + cos m * out v 1))
      = mean1 fun v => f (out v 0) (out v 1) := by
  refine ⟨fun v => vec (cos (2 * π * v - π) * size) (sin (2 * π * v - π) * size) 0 0 (2 * b - 1) (2 * a - 1), fun v => horizontal1_eq size v a b [] [], ?_⟩
  intro f m
  have h := mean_angle (fun w => f (cos w * size) (sin w * size)) (fun w => by simp only [cos_add_two_pi, sin_add_two_pi]) m
  refine Eq.trans ?_ h
  congr 1
  funext v
  simp only [vec]
  rw [cos_sub (2 * π * v - π) m, sin_sub (2 * π * v - π) m]
  congr 1 <;> ring

theorem vertical_matched (size a b : ℝ) : ∃ out : ℝ → Nat → ℝ, (∀ v, generate (.vertical1 size) ⟨[v, a, b], []⟩ = some (out v, ⟨[], []⟩)) ∧
    ∀ (f : ℝ → ℝ → ℝ) (m : ℝ), mean1 (fun v => f (cos m * out v 2 + sin m * out v 3) (-sin m * out v 2 + cos m * out v 3))
      = mean1 fun v => f (out v 2) (out v 3) := by
  refine ⟨fun v => vec 0 0 (cos (2 * π * v - π) * size) (sin (2 * π * v - π) * size) (2 * b - 1) (2 * a - 1), fun v => vertical1_eq size v a b [] [], ?_⟩
  intro f m
  have h := mean_angle (fun w => f (cos w * size) (sin w * size)) (fun w => by simp only [cos_add_two_pi, sin_add_two_pi]) m
  refine Eq.trans ?_ h
  congr 1
  funext v
  simp only [vec]
  rw [cos_sub (2 * π * v - π) m, sin_sub (2 * π * v - π) m]
  congr 1 <;> ring

theorem ring_eq (v w a b : ℝ) (l n : List ℝ) : generate .ring ⟨v :: w :: a :: b :: l, n⟩
    = some (vec (cos (2 * π * v - π)) (sin (2 * π * v - π)) (cos (2 * π * w - π)) (sin (2 * π * w - π)) (2 * b - 1) (2 * a - 1), ⟨l, n⟩) := by
  have h : ∀ x : ℝ, (-1 : ℝ) + (1 - -1) * x = 2 * x - 1 := fun x => by ring
  have h' : ∀ x : ℝ, -π + (π - -π) * x = 2 * π * x - π := fun x => by ring
  simp only [generate, uniform, tail, Option.bind_some, h, h']

/-- **C315.** Rings are matched in both planes, with different phase advances. -/
theorem ring_matched (a b : ℝ) : ∃ out : ℝ → ℝ → Nat → ℝ, (∀ v w, generate .ring ⟨[v, w, a, b], []⟩ = some (out v w, ⟨[], []⟩)) ∧
    ∀ (f : ℝ → ℝ → ℝ → ℝ → ℝ) (m n : ℝ), mean1 (fun v => mean1 fun w =>
        f (cos m * out v w 0 + sin m * out v w 1) (-sin m * out v w 0 + cos m * out v w 1)
          (cos n * out v w 2 + sin n * out v w 3) (-sin n * out v w 2 + cos n * out v w 3))
      = mean1 fun v => mean1 fun w => f (out v w 0) (out v w 1) (out v w 2) (out v w 3) := by
  refine ⟨fun v w => vec (cos (2 * π * v - π)) (sin (2 * π * v - π)) (cos (2 * π * w - π)) (sin (2 * π * w - π)) (2 * b - 1) (2 * a - 1),
    fun v w => ring_eq v w a b [] [], ?_⟩
  intro f m n
  have turn : ∀ x k : ℝ, cos k * cos x + sin k * sin x = cos (x - k) ∧ -sin k * cos x + cos k * sin x = sin (x - k) := by
    intro x k
    rw [cos_sub, sin_sub]
    constructor <;> ring
  simp only [vec, (turn _ _).1, (turn _ _).2]
  have h1 : ∀ p q : ℝ, mean1 (fun w => f p q (cos (2 * π * w - π - n)) (sin (2 * π * w - π - n)))
      = mean1 fun w => f p q (cos (2 * π * w - π)) (sin (2 * π * w - π)) := fun p q =>
    mean_angle (fun x => f p q (cos x) (sin x)) (fun x => by simp only [cos_add_two_pi, sin_add_two_pi]) n
  simp only [h1]
  exact mean_angle (fun x => mean1 fun w => f (cos x) (sin x) (cos (2 * π * w - π)) (sin (2 * π * w - π)))
    (fun x => by simp only [cos_add_two_pi, sin_add_two_pi]) m

/-! ## Spread of the coordinates -/

/-- The mean of a function of a random angle. -/
theorem mean_angle_eq (F : ℝ → ℝ) : mean1 (fun v => F (2 * π * v - π)) = (2 * π)⁻¹ * ∫ x in (-π)..π, F x := by
  unfold mean1
  have e2 : (fun v => F (2 * π * v - π)) = fun v => F (2 * π * v + (-π)) := by
    funext v; congr 1
  rw [e2, intervalIntegral.integral_comp_mul_add F (by positivity) (-π), mul_zero, mul_one, zero_add, smul_eq_mul,
    show 2 * π + -π = π by ring]

theorem mean_cos_sq (h : ℝ) : mean1 (fun v => (cos (2 * π * v - π) * h) ^ 2) = h ^ 2 / 2 := by
  rw [mean_angle_eq (fun w => (cos w * h) ^ 2)]
  have e : (fun w => (cos w * h) ^ 2) = fun w => h ^ 2 * cos w ^ 2 := by funext w; ring
  rw [e, intervalIntegral.integral_const_mul, integral_cos_sq]
  have := pi_ne_zero
  simp only [sin_pi, sin_neg, cos_pi]
  field_simp
  ring

theorem mean_sin_sq (h : ℝ) : mean1 (fun v => (sin (2 * π * v - π) * h) ^ 2) = h ^ 2 / 2 := by
  rw [mean_angle_eq (fun w => (sin w * h) ^ 2)]
  have e : (fun w => (sin w * h) ^ 2) = fun w => h ^ 2 * sin w ^ 2 := by funext w; ring
  rw [e, intervalIntegral.integral_const_mul, integral_sin_sq]
  have := pi_ne_zero
  simp only [sin_pi, sin_neg, cos_pi]
  field_simp
  ring

theorem mean_sin_cos (h : ℝ) : mean1 (fun v => cos (2 * π * v - π) * h * (sin (2 * π * v - π) * h)) = 0 := by
  rw [mean_angle_eq (fun w => cos w * h * (sin w * h))]
  have e : (fun w => cos w * h * (sin w * h)) = fun w => h ^ 2 * (sin w * cos w) := by funext w; ring
  rw [e, intervalIntegral.integral_const_mul, integral_sin_mul_cos₁]
  simp

theorem mean_uniform_sq : mean1 (fun v => (2 * v - 1) ^ 2) = 1 / 3 := by
  unfold mean1
  have e : (fun v : ℝ => (2 * v - 1) ^ 2) = fun v => (fun x : ℝ => x ^ 2) (2 * v - 1) := rfl
  rw [e, intervalIntegral.integral_comp_mul_sub (fun x : ℝ => x ^ 2) (by norm_num : (2 : ℝ) ≠ 0) 1, integral_pow]
  norm_num

/-- **C316.** A halo of `size` has the emittance of the beam times size squared over two; its slopes are correlated as those of the beam. -/
theorem horizontal_emittance (t : BeamData) (ht : Good t) (size a b : ℝ) :
    ∃ out : ℝ → Nat → ℝ, (∀ v, generate (.horizontal1 size) ⟨[v, a, b], []⟩ = some (out v, ⟨[], []⟩)) ∧
    mean1 (fun v => betatron t (particle t (out v)) 0 ^ 2) = t.beta_x * (t.emit_x * (size ^ 2 / 2)) ∧
    mean1 (fun v => betatron t (particle t (out v)) 0 * betatron t (particle t (out v)) 1) = -t.alpha_x * (t.emit_x * (size ^ 2 / 2)) ∧
    mean1 (fun v => betatron t (particle t (out v)) 1 ^ 2) = (1 + t.alpha_x ^ 2) / t.beta_x * (t.emit_x * (size ^ 2 / 2)) := by
  refine ⟨fun v => vec (cos (2 * π * v - π) * size) (sin (2 * π * v - π) * size) 0 0 (2 * b - 1) (2 * a - 1), fun v => horizontal1_eq size v a b [] [], ?_⟩
  have hb := fun u => betatron_particle t ht u
  have r0 := fun u => (hb u).1
  have r1 := fun u => (hb u).2.1
  simp only [r0, r1, vec]
  obtain ⟨-, hx, hy, ex, ey⟩ := ht
  have s1 : √t.beta_x ≠ 0 := (sqrt_pos.mpr hx).ne'
  have q1 := sq_sqrt hx.le
  have q3 := sq_sqrt ex
  have c1 := mean_cos_sq size
  have c2 := mean_sin_sq size
  have c3 := mean_sin_cos size
  have i1 : IntervalIntegrable (fun v => (cos (2 * π * v - π) * size) ^ 2) volume 0 1 := Continuous.intervalIntegrable (by fun_prop) _ _
  have i2 : IntervalIntegrable (fun v => (sin (2 * π * v - π) * size) ^ 2) volume 0 1 := Continuous.intervalIntegrable (by fun_prop) _ _
  have i3 : IntervalIntegrable (fun v => cos (2 * π * v - π) * size * (sin (2 * π * v - π) * size)) volume 0 1 :=
    Continuous.intervalIntegrable (by fun_prop) _ _
  unfold mean1 at *
  generalize √t.beta_x = r at *
  generalize √t.emit_x = m at *
  refine ⟨?_, ?_, ?_⟩
  · have e : (fun v => (r * m * (cos (2 * π * v - π) * size)) ^ 2) = fun v => (r * m) ^ 2 * (cos (2 * π * v - π) * size) ^ 2 := by
      funext v; ring
    rw [e, intervalIntegral.integral_const_mul, c1, ← q1, ← q3]
    ring
  · have e : (fun v => r * m * (cos (2 * π * v - π) * size) * (m / r * (sin (2 * π * v - π) * size - t.alpha_x * (cos (2 * π * v - π) * size))))
        = fun v => m ^ 2 * (cos (2 * π * v - π) * size * (sin (2 * π * v - π) * size)) - m ^ 2 * t.alpha_x * (cos (2 * π * v - π) * size) ^ 2 := by
      funext v; field_simp
    rw [e, intervalIntegral.integral_sub (i3.const_mul _) (i1.const_mul _), intervalIntegral.integral_const_mul, intervalIntegral.integral_const_mul,
      c1, c3, ← q3]
    ring
  · have e : (fun v => (m / r * (sin (2 * π * v - π) * size - t.alpha_x * (cos (2 * π * v - π) * size))) ^ 2)
        = fun v => (m / r) ^ 2 * (sin (2 * π * v - π) * size) ^ 2
          - (m / r) ^ 2 * (2 * t.alpha_x) * (cos (2 * π * v - π) * size * (sin (2 * π * v - π) * size))
          + (m / r) ^ 2 * t.alpha_x ^ 2 * (cos (2 * π * v - π) * size) ^ 2 := by
      funext v; ring
    rw [e, intervalIntegral.integral_add ((i2.const_mul _).sub (i3.const_mul _)) (i1.const_mul _),
      intervalIntegral.integral_sub (i2.const_mul _) (i3.const_mul _), intervalIntegral.integral_const_mul, intervalIntegral.integral_const_mul,
      intervalIntegral.integral_const_mul, c1, c2, c3, ← q3, ← q1]
    field_simp
    ring

/-- **C316 fails:** the bunch of a halo of one sigma has half the emittance of the beam it was made for. -/
theorem emittance_violated (t : BeamData) (ht : Good t) (he : 0 < t.emit_x) (a b : ℝ) :
    ∃ out : ℝ → Nat → ℝ, (∀ v, generate (.horizontal1 1) ⟨[v, a, b], []⟩ = some (out v, ⟨[], []⟩)) ∧
    mean1 (fun v => betatron t (particle t (out v)) 0 ^ 2) ≠ t.beta_x * t.emit_x := by
  obtain ⟨out, h, h1, -⟩ := horizontal_emittance t ht 1 a b
  refine ⟨out, h, ?_⟩
  rw [h1]
  have := mul_pos ht.2.1 he
  intro e
  nlinarith

/-- **C316 fails:** in halos the momenta have a third of the variance of normal ones, and not that of the beam. -/
theorem momentum_spread_violated (t : BeamData) (ht : Good t) (hs : 0 < t.sig_dp) (hs3 : t.sig_dp ≠ 1 / 3) (size v b : ℝ) :
    ∃ out : ℝ → Nat → ℝ, (∀ a, generate (.horizontal1 size) ⟨[v, a, b], []⟩ = some (out a, ⟨[], []⟩)) ∧
    mean1 (fun a => out a 5 ^ 2) = 1 / 3 ∧ mean1 (fun a => particle t (out a) 5 ^ 2) = t.sig_dp / 3 ∧
    mean1 (fun a => particle t (out a) 5 ^ 2) ≠ t.sig_dp ^ 2 := by
  refine ⟨fun a => vec (cos (2 * π * v - π) * size) (sin (2 * π * v - π) * size) 0 0 (2 * b - 1) (2 * a - 1), fun a => horizontal1_eq size v a b [] [], ?_⟩
  have h := fun u => (betatron_particle t ht u).2.2.2.2.1
  simp only [h, vec]
  have q := sq_sqrt hs.le
  have c := mean_uniform_sq
  unfold mean1 at *
  generalize √t.sig_dp = r at *
  have e : (fun a : ℝ => (r * (2 * a - 1)) ^ 2) = fun a => r ^ 2 * (2 * a - 1) ^ 2 := by funext a; ring
  rw [e, intervalIntegral.integral_const_mul, c, q]
  refine ⟨rfl, by ring, ?_⟩
  intro e
  apply hs3
  have := mul_left_cancel₀ hs.ne' (e.trans (sq t.sig_dp))
  exact this.symm

/-- **C316.** A uniform bunch: six numbers, x, x', y, y', the momentum and then the delay, each stretched to [-1, 1). -/
theorem uniform_plain (a b c d e f : ℝ) (l n : List ℝ) : generate .uniform ⟨a :: b :: c :: d :: e :: f :: l, n⟩
    = some (vec (2 * a - 1) (2 * b - 1) (2 * c - 1) (2 * d - 1) (2 * f - 1) (2 * e - 1), ⟨l, n⟩) := by
  have h : ∀ x : ℝ, (-1 : ℝ) + (1 - -1) * x = 2 * x - 1 := fun x => by ring
  simp only [generate, uniform, tail, Option.bind_some, h]

/-! ## Halos of the hollow electron lens -/

theorem thick_eq (inner outer v r a b : ℝ) (l n : List ℝ) : generate (.thick inner outer) ⟨v :: r :: a :: b :: l, n⟩
    = some (vec (cos (2 * π * v - π) * (inner + (outer - inner) * r)) 0 (sin (2 * π * v - π) * (inner + (outer - inner) * r)) 0 (2 * b - 1) (2 * a - 1),
      ⟨l, n⟩) := by
  simp only [generate, uniform, tail, Option.bind_some]
  rw [show -π + (π - -π) * v = 2 * π * v - π by ring, show (-1 : ℝ) + (1 - -1) * a = 2 * a - 1 by ring, show (-1 : ℝ) + (1 - -1) * b = 2 * b - 1 by ring]

/-- The positions of a particle in units of the beam sizes. -/
theorem sizes (t : BeamData) (ht : Good t) (hx : 0 < t.emit_x) (hy : 0 < t.emit_y) (u : Nat → ℝ) :
    betatron t (particle t u) 0 ^ 2 / (t.beta_x * t.emit_x) + betatron t (particle t u) 2 ^ 2 / (t.beta_y * t.emit_y) = u 0 ^ 2 + u 2 ^ 2 := by
  obtain ⟨b0, -, b2, -⟩ := betatron_particle t ht u
  obtain ⟨-, h1, h2, -, -⟩ := ht
  rw [b0, b2, mul_pow, mul_pow, mul_pow, mul_pow, sq_sqrt h1.le, sq_sqrt h2.le, sq_sqrt hx.le, sq_sqrt hy.le]
  field_simp

/-- **C317.** A thin halo: an ellipse of the given number of beam sizes, in the plane of x and y. -/
theorem thin_ellipse (t : BeamData) (ht : Good t) (hx : 0 < t.emit_x) (hy : 0 < t.emit_y) (inner outer : ℝ) (s s' : Source) (u : Nat → ℝ)
    (h : generate (.thin inner outer) s = some (u, s')) :
    betatron t (particle t u) 0 ^ 2 / (t.beta_x * t.emit_x) + betatron t (particle t u) 2 ^ 2 / (t.beta_y * t.emit_y) = outer ^ 2 := by
  rw [sizes t ht hx hy]
  simp only [generate, Option.bind_eq_some_iff] at h
  obtain ⟨a, -, h⟩ := h
  obtain ⟨h0, h1, h2, h3⟩ := tail_eq _ _ _ _ _ _ h
  simp only at h0 h2
  rw [h0, h2, circle]

/-- **C317.** A thick halo: between the ellipses of two numbers of beam sizes. -/
theorem thick_annulus (t : BeamData) (ht : Good t) (hx : 0 < t.emit_x) (hy : 0 < t.emit_y) (inner outer : ℝ) (hi : 0 ≤ inner) (ho : inner ≤ outer)
    (s s' : Source) (hs : ∀ v ∈ s.uniform, 0 ≤ v ∧ v < 1) (u : Nat → ℝ) (h : generate (.thick inner outer) s = some (u, s')) :
    inner ^ 2 ≤ betatron t (particle t u) 0 ^ 2 / (t.beta_x * t.emit_x) + betatron t (particle t u) 2 ^ 2 / (t.beta_y * t.emit_y) ∧
    betatron t (particle t u) 0 ^ 2 / (t.beta_x * t.emit_x) + betatron t (particle t u) 2 ^ 2 / (t.beta_y * t.emit_y) ≤ outer ^ 2 := by
  rw [sizes t ht hx hy]
  simp only [generate, Option.bind_eq_some_iff] at h
  obtain ⟨a, ha, r, hr, h⟩ := h
  obtain ⟨h0, h1, h2, h3⟩ := tail_eq _ _ _ _ _ _ h
  simp only at h0 h2
  rw [h0, h2, circle]
  have hr' : ∃ v, 0 ≤ v ∧ v < 1 ∧ r.1 = inner + (outer - inner) * v := by
    cases hu : s.uniform with
    | nil => simp [uniform, hu] at ha
    | cons v1 l1 =>
      simp only [uniform, hu, Option.some.injEq] at ha
      subst ha
      cases hl : l1 with
      | nil => simp [uniform, hl] at hr
      | cons v2 l2 =>
        simp only [uniform, hl, Option.some.injEq] at hr
        subst hr
        have := hs v2 (by rw [hu, hl]; simp)
        exact ⟨v2, this.1, this.2, rfl⟩
  obtain ⟨v, v0, v1, hv⟩ := hr'
  have g1 : 0 ≤ (outer - inner) * v := mul_nonneg (by linarith) v0
  have g2 : (outer - inner) * v ≤ (outer - inner) * 1 := mul_le_mul_of_nonneg_left v1.le (by linarith)
  rw [hv]
  exact ⟨pow_le_pow_left₀ hi (by linarith) 2, pow_le_pow_left₀ (by linarith) (by linarith) 2⟩

/-- What holds of the slopes: they are those of particles at the ends of their oscillation, zero without alpha. -/
theorem thick_slopes (t : BeamData) (ht : Good t) (inner outer : ℝ) (s s' : Source) (u : Nat → ℝ)
    (h : generate (.thick inner outer) s = some (u, s') ∨ generate (.thin inner outer) s = some (u, s')) :
    betatron t (particle t u) 1 = -(t.alpha_x / t.beta_x) * betatron t (particle t u) 0 ∧
    betatron t (particle t u) 3 = -(t.alpha_y / t.beta_y) * betatron t (particle t u) 2 := by
  have hu : u 1 = 0 ∧ u 3 = 0 := by
    rcases h with h | h <;> simp only [generate, Option.bind_eq_some_iff] at h
    · obtain ⟨a, -, r, -, h⟩ := h
      obtain ⟨-, h1, -, h3⟩ := tail_eq _ _ _ _ _ _ h
      exact ⟨h1, h3⟩
    · obtain ⟨a, -, h⟩ := h
      obtain ⟨-, h1, -, h3⟩ := tail_eq _ _ _ _ _ _ h
      exact ⟨h1, h3⟩
  obtain ⟨b0, b1, b2, b3, -, -⟩ := betatron_particle t ht u
  obtain ⟨-, h1, h2, -, -⟩ := ht
  rw [b0, b1, b2, b3, hu.1, hu.2]
  have s1 : √t.beta_x ≠ 0 := (sqrt_pos.mpr h1).ne'
  have s2 : √t.beta_y ≠ 0 := (sqrt_pos.mpr h2).ne'
  have q1 := sq_sqrt h1.le
  have q2 := sq_sqrt h2.le
  generalize √t.beta_x = r1 at *
  generalize √t.beta_y = r2 at *
  rw [← q1, ← q2]
  constructor <;> field_simp <;> ring

/-- **C317 fails:** the particles are not at zero in x' and y' once alpha is not zero. -/
theorem slopes_violated (t : BeamData) (ht : Good t) (he : 0 < t.emit_x) (ha : t.alpha_x ≠ 0) (inner outer a b : ℝ) (ho : outer ≠ 0) :
    ∃ u, generate (.thin inner outer) ⟨[1 / 2, a, b], []⟩ = some (u, ⟨[], []⟩) ∧ betatron t (particle t u) 1 ≠ 0 := by
  refine ⟨vec outer 0 0 0 (2 * b - 1) (2 * a - 1), ?_, ?_⟩
  · have h : ∀ x : ℝ, (-1 : ℝ) + (1 - -1) * x = 2 * x - 1 := fun x => by ring
    simp only [generate, uniform, tail, Option.bind_some, h]
    rw [show -π + (π - -π) * (1 / 2) = 0 by ring, cos_zero, sin_zero, one_mul, zero_mul]
  · rw [(betatron_particle t ht _).2.1]
    have s1 : √t.beta_x ≠ 0 := (sqrt_pos.mpr ht.2.1).ne'
    have s2 : √t.emit_x ≠ 0 := (sqrt_pos.mpr he).ne'
    simp only [vec, zero_sub]
    exact mul_ne_zero (div_ne_zero s2 s1) (neg_ne_zero.mpr (mul_ne_zero ha ho))

/-- **C317 fails:** of a thick halo, more than half of the particles are in the inner half of its area: the radius is uniform, not the density. -/
theorem thick_density_violated (inner outer a b v : ℝ) (hi : 0 ≤ inner) (ho : inner < outer) :
    ∃ out : ℝ → Nat → ℝ, (∀ r, generate (.thick inner outer) ⟨[v, r, a, b], []⟩ = some (out r, ⟨[], []⟩)) ∧
    volume {r : ℝ | 0 ≤ r ∧ r < 1 ∧ out r 0 ^ 2 + out r 2 ^ 2 < (inner ^ 2 + outer ^ 2) / 2} > ENNReal.ofReal (1 / 2) := by
  refine ⟨fun r => vec (cos (2 * π * v - π) * (inner + (outer - inner) * r)) 0 (sin (2 * π * v - π) * (inner + (outer - inner) * r)) 0 (2 * b - 1) (2 * a - 1),
    fun r => thick_eq inner outer v r a b [] [], ?_⟩
  simp only [vec, circle]
  obtain ⟨e, he0, he1, he⟩ : ∃ e : ℝ, 1 / 2 < e ∧ e < 1 ∧ (inner + (outer - inner) * e) ^ 2 ≤ (inner ^ 2 + outer ^ 2) / 2 := by
    have hd : 0 < outer - inner := by linarith
    have hp : 0 < outer + inner := by linarith
    set d := outer - inner with hdd
    refine ⟨1 / 2 + d / (8 * (outer + inner)), by have : 0 < d / (8 * (outer + inner)) := by positivity
                                                  linarith, ?_, ?_⟩
    · have : d / (8 * (outer + inner)) ≤ 1 / 8 := by
        rw [div_le_div_iff₀ (by positivity) (by norm_num)]; linarith
      linarith
    · have h8 : d / (8 * (outer + inner)) ≤ 1 / 8 := by
        rw [div_le_div_iff₀ (by positivity) (by norm_num)]; linarith
      set q := d / (8 * (outer + inner)) with hq
      have hq0 : 0 ≤ q := by positivity
      have hqe : q * (outer + inner) = d / 8 := by
        rw [hq]; field_simp
      have e1 : (inner + d * (1 / 2 + q)) ^ 2 = (inner ^ 2 + outer ^ 2) / 2 - d ^ 2 / 4 + d * (q * (outer + inner)) + d ^ 2 * q ^ 2 := by
        rw [hdd]; ring
      rw [e1, hqe]
      nlinarith [mul_nonneg (sq_nonneg d) hq0, mul_nonneg (sq_nonneg d) (mul_nonneg hq0 (by linarith : 0 ≤ 1 / 8 - q)), sq_nonneg d]
  have hsub : Set.Ico (0 : ℝ) e ⊆ {r : ℝ | 0 ≤ r ∧ r < 1 ∧ (inner + (outer - inner) * r) ^ 2 < (inner ^ 2 + outer ^ 2) / 2} := by
    intro r hr
    refine ⟨hr.1, lt_trans hr.2 he1, lt_of_lt_of_le ?_ he⟩
    have h1 : 0 ≤ (outer - inner) * r := mul_nonneg (by linarith) hr.1
    have h2 : (outer - inner) * r < (outer - inner) * e := mul_lt_mul_of_pos_left hr.2 (by linarith)
    exact pow_lt_pow_left₀ (by linarith) (by linarith) (by norm_num)
  refine lt_of_lt_of_le ?_ (measure_mono hsub)
  rw [Real.volume_Ico]
  exact (ENNReal.ofReal_lt_ofReal_iff (by linarith)).mpr (by linarith)

example : ∃ out : ℝ → Nat → ℝ, (∀ v, generate (.horizontal1 3) ⟨[v, 0, 0], []⟩ = some (out v, ⟨[], []⟩)) ∧
    mean1 (fun v => betatron sample (particle sample (out v)) 0 ^ 2) = 18 := by
  obtain ⟨out, h, h1, -⟩ := horizontal_emittance sample sample_good 3 0 0
  exact ⟨out, h, h1.trans (by norm_num [sample])⟩

example : ∃ u s', generate (.thick 2 5) ⟨[1 / 4, 1 / 2, 0, 0], []⟩ = some (u, s') ∧
    4 ≤ betatron sample (particle sample u) 0 ^ 2 / 4 + betatron sample (particle sample u) 2 ^ 2 / 36 := by
  obtain h := thick_eq 2 5 (1 / 4) (1 / 2) 0 0 [] []
  refine ⟨_, _, h, ?_⟩
  have := (thick_annulus sample sample_good (by norm_num [sample]) (by norm_num [sample]) 2 5 (by norm_num) (by norm_num) _ _
    (by intro v hv; simp at hv; rcases hv with rfl | rfl | rfl <;> norm_num) _ h).1
  refine le_trans (by norm_num) (this.trans (le_of_eq ?_))
  norm_num [sample]

end Verif.Generators
