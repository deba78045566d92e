import Mathlib.Analysis.SpecialFunctions.Trigonometric.Deriv
import Mathlib.Tactic.FieldSimp
import Mathlib.Tactic.LinearCombination
import Mathlib.Tactic.Positivity
import Verif.Spin.Spec
import Verif.Transform.Properties

/-!
# Properties of spin tracking
-/

set_option linter.unusedSimpArgs false

namespace Verif.Spin
open Verif Verif.Rotation Verif.Transform Verif.Spin.Spec

/-! ## C123 -/

/-- The vector about which spins are turned is that of the Thomas-BMT equation. -/
theorem precession_bmt (e : Env) (isBend : Bool) (b : V3 ℝ) (gamma : ℝ) :
    precession e isBend b gamma = bmt e.ge gamma isBend b := by
  cases isBend <;> ext <;> simp [precession, bmt] <;> ring

theorem turn_eq (e : Env) (w : V3 ℝ) (ds : ℝ) (s : V3 ℝ) : ∃ o co si : ℝ, o = Real.sqrt (len2 w) ∧
    co = Real.cos (ds / e.c * o) ∧ si = Real.sin (ds / e.c * o) ∧ turn e w ds s =
    ⟨s.x * co + w.x * dot w s * (1 - co) / len2 w + (cross w s).x * si / o,
     s.y * co + w.y * dot w s * (1 - co) / len2 w + (cross w s).y * si / o,
     s.z * co + w.z * dot w s * (1 - co) / len2 w + (cross w s).z * si / o⟩ := by
  have h : w.x * w.x + w.y * w.y + w.z * w.z = len2 w := by simp only [len2]; ring
  have h' : w.z * s.z + w.y * s.y + w.x * s.x = dot w s := by simp only [dot]; ring
  refine ⟨_, _, _, rfl, rfl, rfl, ?_⟩
  simp only [turn, h, h', cross]

theorem len2_pos {w : V3 ℝ} (h : w ≠ ⟨0, 0, 0⟩) : 0 < len2 w := by
  rcases lt_or_eq_of_le (show 0 ≤ len2 w by unfold len2; positivity) with h' | h'
  · exact h'
  · exfalso
    apply h
    unfold len2 at h'
    have hx : w.x ^ 2 = 0 := by nlinarith [sq_nonneg w.x, sq_nonneg w.y, sq_nonneg w.z]
    have hy : w.y ^ 2 = 0 := by nlinarith [sq_nonneg w.x, sq_nonneg w.y, sq_nonneg w.z]
    have hz : w.z ^ 2 = 0 := by nlinarith [sq_nonneg w.x, sq_nonneg w.y, sq_nonneg w.z]
    ext
    · exact pow_eq_zero_iff (two_ne_zero) |>.1 hx
    · exact pow_eq_zero_iff (two_ne_zero) |>.1 hy
    · exact pow_eq_zero_iff (two_ne_zero) |>.1 hz

/-- Unit axis form of `turn`. -/
theorem turn_unit (e : Env) (w : V3 ℝ) (hw : w ≠ ⟨0, 0, 0⟩) : ∃ (o : ℝ) (u : V3 ℝ), 0 < o ∧
    o ^ 2 = len2 w ∧ o = Real.sqrt (len2 w) ∧ w = ⟨o * u.x, o * u.y, o * u.z⟩ ∧ len2 u = 1 ∧ ∀ ds s, turn e w ds s =
    ⟨s.x * Real.cos (ds / e.c * o) + u.x * dot u s * (1 - Real.cos (ds / e.c * o)) + (cross u s).x * Real.sin (ds / e.c * o),
     s.y * Real.cos (ds / e.c * o) + u.y * dot u s * (1 - Real.cos (ds / e.c * o)) + (cross u s).y * Real.sin (ds / e.c * o),
     s.z * Real.cos (ds / e.c * o) + u.z * dot u s * (1 - Real.cos (ds / e.c * o)) + (cross u s).z * Real.sin (ds / e.c * o)⟩ := by
  have hp := len2_pos hw
  have ho : 0 < Real.sqrt (len2 w) := Real.sqrt_pos.2 hp
  have ho2 : Real.sqrt (len2 w) ^ 2 = len2 w := Real.sq_sqrt hp.le
  refine ⟨Real.sqrt (len2 w), ⟨w.x / Real.sqrt (len2 w), w.y / Real.sqrt (len2 w), w.z / Real.sqrt (len2 w)⟩, ho, ho2, rfl, ?_, ?_, ?_⟩
  · ext <;> simp only <;> field_simp
  · generalize Real.sqrt (len2 w) = o at ho ho2
    unfold len2 at *
    field_simp
    linarith
  · intro ds s
    obtain ⟨o, co, si, rfl, rfl, rfl, h⟩ := turn_eq e w ds s
    rw [h]
    generalize Real.cos (ds / e.c * Real.sqrt (len2 w)) = co
    generalize Real.sin (ds / e.c * Real.sqrt (len2 w)) = si
    clear h
    generalize Real.sqrt (len2 w) = o at *
    rw [← ho2]
    ext <;> simp only [dot, cross] <;> field_simp

/-- Turning keeps the length of a spin. -/
theorem turn_len2 (e : Env) (w : V3 ℝ) (hw : w ≠ ⟨0, 0, 0⟩) (ds : ℝ) (s : V3 ℝ) : len2 (turn e w ds s) = len2 s := by
  obtain ⟨o, u, _, _, _, _, hu, h⟩ := turn_unit e w hw
  rw [h ds s]
  have hs := Real.sin_sq_add_cos_sq (ds / e.c * o)
  generalize Real.cos (ds / e.c * o) = C at *
  generalize Real.sin (ds / e.c * o) = S at *
  simp only [len2, dot, cross] at *
  linear_combination ((u.x * s.x + u.y * s.y + u.z * s.z) ^ 2 * (1 - C) ^ 2 + (s.x ^ 2 + s.y ^ 2 + s.z ^ 2) * S ^ 2) * hu +
    (s.x ^ 2 + s.y ^ 2 + s.z ^ 2 - (u.x * s.x + u.y * s.y + u.z * s.z) ^ 2) * hs

/-- Turning keeps the component of the spin along the axis. -/
theorem turn_axis (e : Env) (w : V3 ℝ) (hw : w ≠ ⟨0, 0, 0⟩) (ds : ℝ) (s : V3 ℝ) : dot w (turn e w ds s) = dot w s := by
  obtain ⟨o, u, _, _, _, hw', hu, h⟩ := turn_unit e w hw
  rw [h ds s, hw']
  generalize Real.cos (ds / e.c * o) = C at *
  generalize Real.sin (ds / e.c * o) = S at *
  simp only [len2, dot, cross] at *
  linear_combination (o * (u.x * s.x + u.y * s.y + u.z * s.z) * (1 - C)) * hu

/-- Two steps are one step of the total length: it does not matter into how many steps a magnet is divided. -/
theorem turn_add (e : Env) (w : V3 ℝ) (hw : w ≠ ⟨0, 0, 0⟩) (d1 d2 : ℝ) (s : V3 ℝ) :
    turn e w d2 (turn e w d1 s) = turn e w (d1 + d2) s := by
  obtain ⟨o, u, _, _, _, _, hu, h⟩ := turn_unit e w hw
  rw [h d2, h d1, h (d1 + d2)]
  have ha : (d1 + d2) / e.c * o = d1 / e.c * o + d2 / e.c * o := by ring
  rw [ha, Real.cos_add, Real.sin_add]
  generalize Real.cos (d1 / e.c * o) = C1 at *
  generalize Real.sin (d1 / e.c * o) = S1 at *
  generalize Real.cos (d2 / e.c * o) = C2 at *
  generalize Real.sin (d2 / e.c * o) = S2 at *
  simp only [len2, dot, cross] at *
  ext
  · simp only
    linear_combination (u.x * (u.x * s.x + u.y * s.y + u.z * s.z) * (1 - C1) * (1 - C2) - s.x * S1 * S2) * hu
  · simp only
    linear_combination (u.y * (u.x * s.x + u.y * s.y + u.z * s.z) * (1 - C1) * (1 - C2) - s.y * S1 * S2) * hu
  · simp only
    linear_combination (u.z * (u.x * s.x + u.y * s.y + u.z * s.z) * (1 - C1) * (1 - C2) - s.z * S1 * S2) * hu

theorem turn_zero (e : Env) (w : V3 ℝ) (s : V3 ℝ) : turn e w 0 s = s := by
  simp [turn]

theorem turn_neg (e : Env) (w : V3 ℝ) (ds : ℝ) (s : V3 ℝ) : turn e ⟨-w.x, -w.y, -w.z⟩ ds s = turn e w (-ds) s := by
  have h : ∀ a : ℝ, -ds / e.c * a = -(ds / e.c * a) := fun a => by ring
  simp only [turn, neg_mul_neg, h, Real.cos_neg, Real.sin_neg]
  ext <;> simp only <;> ring

/-- The opposite field turns the spin back. -/
theorem turn_back (e : Env) (w : V3 ℝ) (hw : w ≠ ⟨0, 0, 0⟩) (ds : ℝ) (s : V3 ℝ) :
    turn e ⟨-w.x, -w.y, -w.z⟩ ds (turn e w ds s) = s := by
  rw [turn_neg, turn_add e w hw, add_neg_cancel, turn_zero]

/-- Spins obey the equation of motion `dS/ds = Ω × S / c`. -/
theorem turn_motion (e : Env) (w : V3 ℝ) (hw : w ≠ ⟨0, 0, 0⟩) (ds : ℝ) (s : V3 ℝ) :
    HasDerivAt (fun d => (turn e w d s).x) ((cross w (turn e w ds s)).x / e.c) ds ∧
    HasDerivAt (fun d => (turn e w d s).y) ((cross w (turn e w ds s)).y / e.c) ds ∧
    HasDerivAt (fun d => (turn e w d s).z) ((cross w (turn e w ds s)).z / e.c) ds := by
  obtain ⟨o, u, _, _, _, hw', hu, h⟩ := turn_unit e w hw
  simp only [h]
  have ha : HasDerivAt (fun d : ℝ => d / e.c * o) (1 / e.c * o) ds := ((hasDerivAt_id ds).div_const e.c).mul_const o
  have key : ∀ a b k : ℝ, HasDerivAt (fun d => a * Real.cos (d / e.c * o) + b * (1 - Real.cos (d / e.c * o)) +
      k * Real.sin (d / e.c * o)) (a * (-Real.sin (ds / e.c * o) * (1 / e.c * o)) +
      b * (0 - (-Real.sin (ds / e.c * o) * (1 / e.c * o))) + k * (Real.cos (ds / e.c * o) * (1 / e.c * o))) ds := by
    intro a b k
    exact ((ha.cos.const_mul a).add (((hasDerivAt_const ds (1 : ℝ)).sub ha.cos).const_mul b)).add (ha.sin.const_mul k)
  have hx : w.x = o * u.x := by rw [hw']
  have hy : w.y = o * u.y := by rw [hw']
  have hz : w.z = o * u.z := by rw [hw']
  refine ⟨(key _ _ _).congr_deriv ?_, (key _ _ _).congr_deriv ?_, (key _ _ _).congr_deriv ?_⟩
  · generalize Real.cos (ds / e.c * o) = C at *
    generalize Real.sin (ds / e.c * o) = S at *
    simp only [len2, dot, cross, hx, hy, hz] at *
    linear_combination (s.x * S * o / e.c) * hu
  · generalize Real.cos (ds / e.c * o) = C at *
    generalize Real.sin (ds / e.c * o) = S at *
    simp only [len2, dot, cross, hx, hy, hz] at *
    linear_combination (s.y * S * o / e.c) * hu
  · generalize Real.cos (ds / e.c * o) = C at *
    generalize Real.sin (ds / e.c * o) = S at *
    simp only [len2, dot, cross, hx, hy, hz] at *
    linear_combination (s.z * S * o / e.c) * hu

/-- The constants are positive. -/
structure Env.Ok (e : Env) : Prop where
  ge : 0 < e.ge
  c : 0 < e.c
  eV : 0 < e.eV
  mass : 0 < e.mass

theorem precession_ne {e : Env} (he : e.Ok) (isBend : Bool) {b : V3 ℝ} {gamma : ℝ} (hg : 0 < gamma)
    (hb : b.x ≠ 0 ∨ b.y ≠ 0 ∨ b.z ≠ 0) : precession e isBend b gamma ≠ ⟨0, 0, 0⟩ := by
  have h1 : -(1 + e.ge * gamma) ≠ 0 := by have := mul_pos he.ge hg; intro h; linarith
  have h2 : -(e.ge * gamma) ≠ 0 := by have := mul_pos he.ge hg; intro h; linarith
  have h3 : -(1 + e.ge) ≠ 0 := by have := he.ge; intro h; linarith
  intro h
  cases isBend <;> simp only [precession, if_true, if_false, Bool.false_eq_true, V3.mk.injEq, mul_eq_zero] at h <;> tauto

/-- The spin of a particle follows the Thomas-BMT equation through a constant field: the right derivative, no change of
length, and independence of the number of steps. -/
theorem rotateSpin_motion {e : Env} (he : e.Ok) (isBend : Bool) {b : V3 ℝ} {gamma : ℝ} (hg : 0 < gamma)
    (hb : b.x ≠ 0 ∨ b.y ≠ 0 ∨ b.z ≠ 0) (s : V3 ℝ) :
    rotateSpin e isBend b 0 s gamma = s ∧
    (∀ d, HasDerivAt (fun d => (rotateSpin e isBend b d s gamma).x)
      ((cross (bmt e.ge gamma isBend b) (rotateSpin e isBend b d s gamma)).x / e.c) d ∧
     HasDerivAt (fun d => (rotateSpin e isBend b d s gamma).y)
      ((cross (bmt e.ge gamma isBend b) (rotateSpin e isBend b d s gamma)).y / e.c) d ∧
     HasDerivAt (fun d => (rotateSpin e isBend b d s gamma).z)
      ((cross (bmt e.ge gamma isBend b) (rotateSpin e isBend b d s gamma)).z / e.c) d) := by
  have h := precession_ne he isBend hg hb
  refine ⟨turn_zero _ _ _, fun d => ?_⟩
  have := turn_motion e _ h d s
  rw [← precession_bmt]
  exact this

theorem rotateSpin_steps {e : Env} (he : e.Ok) (isBend : Bool) {b : V3 ℝ} {gamma : ℝ} (hg : 0 < gamma)
    (hb : b.x ≠ 0 ∨ b.y ≠ 0 ∨ b.z ≠ 0) (d1 d2 : ℝ) (s : V3 ℝ) :
    rotateSpin e isBend b d2 (rotateSpin e isBend b d1 s gamma) gamma = rotateSpin e isBend b (d1 + d2) s gamma :=
  turn_add e _ (precession_ne he isBend hg hb) d1 d2 s

theorem rotateSpin_len2 {e : Env} (he : e.Ok) (isBend : Bool) {b : V3 ℝ} {gamma : ℝ} (hg : 0 < gamma)
    (hb : b.x ≠ 0 ∨ b.y ≠ 0 ∨ b.z ≠ 0) (d : ℝ) (s : V3 ℝ) : len2 (rotateSpin e isBend b d s gamma) = len2 s :=
  turn_len2 e _ (precession_ne he isBend hg hb) d s

/-- The opposite field undoes the rotation. -/
theorem rotateSpin_back {e : Env} (he : e.Ok) (isBend : Bool) {b : V3 ℝ} {gamma : ℝ} (hg : 0 < gamma)
    (hb : b.x ≠ 0 ∨ b.y ≠ 0 ∨ b.z ≠ 0) (d : ℝ) (s : V3 ℝ) :
    rotateSpin e isBend ⟨-b.x, -b.y, -b.z⟩ d (rotateSpin e isBend b d s gamma) gamma = s := by
  have h := turn_back e _ (precession_ne he isBend hg hb) d s
  have e1 : precession e isBend ⟨-b.x, -b.y, -b.z⟩ gamma = ⟨-(precession e isBend b gamma).x,
      -(precession e isBend b gamma).y, -(precession e isBend b gamma).z⟩ := by
    cases isBend <;> ext <;> simp [precession]
  unfold rotateSpin
  rw [e1]
  exact h

theorem doProcess_eq (e : Env) (k : Kind) (field : ℝ → ℝ → V3 ℝ) (st : Settings) (p0 ds : ℝ) (p : Part) (s : V3 ℝ) :
    doProcess e k field st p0 ds p s =
      if |st.intS + ds - st.clength| ≤ st.eps then
        exitFringe e k (e.c / (p0 / e.eV / e.c) / (1 + p.dp)) ((if st.pspin ≠ 0 then st.pspin else p0) * (1 + p.dp) / e.mass) p
          (body e k field (e.c / (p0 / e.eV / e.c) / (1 + p.dp))
            ((if st.pspin ≠ 0 then st.pspin else p0) * (1 + p.dp) / e.mass) ds p
            (if st.intS = 0 then entranceFringe e k (e.c / (p0 / e.eV / e.c) / (1 + p.dp))
              ((if st.pspin ≠ 0 then st.pspin else p0) * (1 + p.dp) / e.mass) p s else s))
      else
        body e k field (e.c / (p0 / e.eV / e.c) / (1 + p.dp))
          ((if st.pspin ≠ 0 then st.pspin else p0) * (1 + p.dp) / e.mass) ds p
          (if st.intS = 0 then entranceFringe e k (e.c / (p0 / e.eV / e.c) / (1 + p.dp))
            ((if st.pspin ≠ 0 then st.pspin else p0) * (1 + p.dp) / e.mass) p s else s) := rfl

/-- Whatever the magnet and wherever the step is in it, the length of the spin of a particle does not change. -/
theorem process_len2 {e : Env} (he : e.Ok) (k : Kind) (field : ℝ → ℝ → V3 ℝ) (st : Settings) (hst : 0 ≤ st.pspin) {p0 : ℝ}
    (hp : 0 < p0) (ds : ℝ) (p : Part) (hd : 0 < 1 + p.dp) (s : V3 ℝ) :
    len2 (doProcess e k field st p0 ds p s) = len2 s := by
  rw [doProcess_eq]
  have hpg : 0 < (if st.pspin ≠ 0 then st.pspin else p0) := by
    split
    · exact lt_of_le_of_ne hst (Ne.symm ‹_›)
    · exact hp
  have hg : 0 < (if st.pspin ≠ 0 then st.pspin else p0) * (1 + p.dp) / e.mass := div_pos (mul_pos hpg hd) he.mass
  have hn : e.c / (p0 / e.eV / e.c) / (1 + p.dp) ≠ 0 := by
    have := he.c
    have := he.eV
    positivity
  generalize (if st.pspin ≠ 0 then st.pspin else p0) * (1 + p.dp) / e.mass = gamma at hg
  generalize e.c / (p0 / e.eV / e.c) / (1 + p.dp) = norm at hn
  have he1 : ∀ s, len2 (entranceFringe e k norm gamma p s) = len2 s := by
    intro s
    unfold entranceFringe
    split
    · simp only
      split_ifs with h
      · exact rotateSpin_len2 he _ hg (by tauto) _ _
      · rfl
    · simp only
      split_ifs with h
      · exact rotateSpin_len2 he _ hg (by tauto) _ _
      · rfl
    · rfl
  have he2 : ∀ s, len2 (exitFringe e k norm gamma p s) = len2 s := by
    intro s
    unfold exitFringe
    split
    · simp only
      split_ifs with h
      · exact rotateSpin_len2 he _ hg (by tauto) _ _
      · rfl
    · simp only
      split_ifs with h
      · exact rotateSpin_len2 he _ hg (by tauto) _ _
      · rfl
    · rfl
  have he3 : ∀ s, len2 (body e k field norm gamma ds p s) = len2 s := by
    intro s
    unfold body
    simp only
    split_ifs with h
    · exact rotateSpin_len2 he _ hg (by simp only [ne_eq, mul_eq_zero, hn, or_false]; exact h) _ _
    · rfl
  split_ifs <;> simp only [he1, he2, he3]

example : (⟨0.001, 3, 1, 0.5⟩ : Env).Ok := ⟨by norm_num, by norm_num, by norm_num, by norm_num⟩

/-! ## C124 -/

/-- All fields of a magnet scaled by `κ`. -/
def Kind.scale (κ : ℝ) : Kind → Kind
  | .bend b0 i o => .bend (κ * b0) i o
  | .solenoid bz => .solenoid (κ * bz)
  | .other => .other

/-- Scaling the momentum of the beam and all fields, with the momentum for precession held fixed, does not change the motion of
spins in bends and multipoles.  Missing: solenoids, see `scaling_solenoid_violated`. -/
theorem scaling_partial (e : Env) (k : Kind) (hk : ∀ bz, k ≠ .solenoid bz) (field : ℝ → ℝ → V3 ℝ) (st : Settings)
    (hst : st.pspin ≠ 0) (p0 ds : ℝ) (p : Part) (s : V3 ℝ) {κ : ℝ} (hκ : κ ≠ 0) :
    doProcess e (k.scale κ) (fun x y => ⟨κ * (field x y).x, κ * (field x y).y, κ * (field x y).z⟩) st (κ * p0) ds p s =
      doProcess e k field st p0 ds p s := by
  have hn : κ * (e.c / (κ * p0 / e.eV / e.c) / (1 + p.dp)) = e.c / (p0 / e.eV / e.c) / (1 + p.dp) := by
    by_cases h : p0 = 0
    · simp [h]
    · by_cases h1 : e.eV = 0
      · simp [h1]
      · by_cases h2 : e.c = 0
        · simp [h2]
        · by_cases h3 : 1 + p.dp = 0
          · simp [h3]
          · field_simp
  have hm : ∀ a, κ * a * (e.c / (κ * p0 / e.eV / e.c) / (1 + p.dp)) = a * (e.c / (p0 / e.eV / e.c) / (1 + p.dp)) := by
    intro a
    rw [← hn]
    ring
  unfold doProcess
  simp only [hst, ne_eq, not_false_eq_true, if_true]
  have hbody : ∀ g s, body e (k.scale κ) (fun x y => ⟨κ * (field x y).x, κ * (field x y).y, κ * (field x y).z⟩)
      (e.c / (κ * p0 / e.eV / e.c) / (1 + p.dp)) g ds p s = body e k field (e.c / (p0 / e.eV / e.c) / (1 + p.dp)) g ds p s := by
    intro g s
    have hb : (k.scale κ).isBend = k.isBend := by cases k <;> rfl
    simp only [body, hm, hb, ne_eq, mul_eq_zero, hκ, false_or]
  rw [show ∀ g s, entranceFringe e (k.scale κ) (e.c / (κ * p0 / e.eV / e.c) / (1 + p.dp)) g p s =
      entranceFringe e k (e.c / (p0 / e.eV / e.c) / (1 + p.dp)) g p s from ?_,
    show ∀ g s, exitFringe e (k.scale κ) (e.c / (κ * p0 / e.eV / e.c) / (1 + p.dp)) g p s =
      exitFringe e k (e.c / (p0 / e.eV / e.c) / (1 + p.dp)) g p s from ?_, hbody]
  · intro g s
    cases k with
    | bend b0 i o =>
      have : 0.5 * (κ * b0) * p.y * (e.c / (κ * p0 / e.eV / e.c) / (1 + p.dp)) =
          0.5 * b0 * p.y * (e.c / (p0 / e.eV / e.c) / (1 + p.dp)) := by rw [← hn]; ring
      simp only [Kind.scale, exitFringe, this]
    | solenoid bz => exact absurd rfl (hk bz)
    | other => rfl
  · intro g s
    cases k with
    | bend b0 i o =>
      have : 0.5 * (κ * b0) * p.y * (e.c / (κ * p0 / e.eV / e.c) / (1 + p.dp)) =
          0.5 * b0 * p.y * (e.c / (p0 / e.eV / e.c) / (1 + p.dp)) := by rw [← hn]; ring
      simp only [Kind.scale, entranceFringe, this]
    | solenoid bz => exact absurd rfl (hk bz)
    | other => rfl

example : ∀ bz, Kind.bend 1 0.1 0.2 ≠ .solenoid bz := by intro bz h; cases h

theorem turn_x (e : Env) {w : ℝ} (hw : 0 < w) {ds : ℝ} (σ : ℝ) :
    turn e ⟨w, 0, 0⟩ ds ⟨0, 0, σ⟩ = ⟨0, -(Real.sin (ds / e.c * w) * σ), Real.cos (ds / e.c * w) * σ⟩ := by
  have h : Real.sqrt (w * w) = w := Real.sqrt_mul_self hw.le
  have hw' : w ≠ 0 := hw.ne'
  ext <;> simp [turn, h]
  · field_simp
  · ring

theorem turn_z (e : Env) (w ds σ : ℝ) : turn e ⟨0, 0, w⟩ ds ⟨0, 0, σ⟩ = ⟨0, 0, σ⟩ := by
  by_cases hw : w = 0
  · ext <;> simp [turn, hw]
  · ext <;> simp [turn]
    field_simp
    ring

theorem body_z (e : Env) (bz bz' norm gamma ds : ℝ) (p : Part) (σ : ℝ) :
    body e (.solenoid bz') (fun _ _ => ⟨0, 0, bz⟩) norm gamma ds p ⟨0, 0, σ⟩ = ⟨0, 0, σ⟩ := by
  unfold body
  simp only
  split
  · simp only [Kind.isBend, rotateSpin, precession, zero_mul, mul_zero, Bool.false_eq_true, if_false]
    exact turn_z _ _ _ _
  · rfl

/-- In a solenoid it does: the fringe field is not divided by the momentum.  The same solenoid, relative to the momentum of the
beam, turns the spin of an electron over at one momentum and leaves it alone at twice the momentum. -/
theorem scaling_solenoid_violated (e : Env) (he : e.Ok) (p0 : ℝ) (hp : 0 < p0) : ∃ (bz : ℝ) (st : Settings) (ds : ℝ) (p : Part)
    (s : V3 ℝ), st.pspin ≠ 0 ∧ len2 s = 1 ∧
    doProcess e (.solenoid bz) (fun _ _ => ⟨0, 0, bz⟩) st p0 ds p s = ⟨0, 0, -1⟩ ∧
    doProcess e (.solenoid (2 * bz)) (fun _ _ => ⟨0, 0, 2 * bz⟩) st (2 * p0) ds p s = ⟨0, 0, 1⟩ := by
  have hg : 0 < 1 + e.ge * (p0 * (1 + 0) / e.mass) := by
    have := he.ge
    have := he.mass
    positivity
  have hc := he.c
  have hpi := Real.pi_pos
  refine ⟨Real.pi * e.c / (1 + e.ge * (p0 * (1 + 0) / e.mass)), ⟨0, 2, p0, 0⟩, 1, ⟨1, 0, 0⟩, ⟨0, 0, 1⟩, hp.ne', by norm_num [len2],
    ?_, ?_⟩
  all_goals
    rw [doProcess_eq]
    have hps : (⟨0, 2, p0, 0⟩ : Settings).pspin ≠ 0 := hp.ne'
    rw [if_pos hps, if_neg (by norm_num), if_pos rfl]
  · have h1 : entranceFringe e (.solenoid (Real.pi * e.c / (1 + e.ge * (p0 * (1 + 0) / e.mass))))
        (e.c / (p0 / e.eV / e.c) / (1 + 0)) (p0 * (1 + 0) / e.mass) ⟨1, 0, 0⟩ ⟨0, 0, 1⟩ = ⟨0, 0, -1⟩ := by
      generalize p0 * (1 + 0) / e.mass = g at *
      have hb : Real.pi * e.c / (1 + e.ge * g) ≠ 0 := by positivity
      unfold entranceFringe
      simp only
      rw [if_pos (by left; simp [hpi.ne', hc.ne', hg.ne'])]
      unfold rotateSpin
      have hw : precession e false ⟨-(Real.pi * e.c / (1 + e.ge * g)) * 1, -(Real.pi * e.c / (1 + e.ge * g)) * 0, 0⟩ g =
          ⟨Real.pi * e.c, 0, 0⟩ := by
        ext <;> simp [precession]
        field_simp
        ring
      rw [hw, turn_x e (mul_pos hpi hc)]
      have : 1 / e.c * (Real.pi * e.c) = Real.pi := by field_simp
      rw [this]
      simp
    refine (congrArg _ h1).trans ?_
    exact body_z _ _ _ _ _ _ _ _
  · have h1 : entranceFringe e (.solenoid (2 * (Real.pi * e.c / (1 + e.ge * (p0 * (1 + 0) / e.mass)))))
        (e.c / (2 * p0 / e.eV / e.c) / (1 + 0)) (p0 * (1 + 0) / e.mass) ⟨1, 0, 0⟩ ⟨0, 0, 1⟩ = ⟨0, 0, 1⟩ := by
      generalize p0 * (1 + 0) / e.mass = g at *
      unfold entranceFringe
      simp only
      rw [if_pos (by left; simp [hpi.ne', hc.ne', hg.ne'])]
      unfold rotateSpin
      have hw : precession e false ⟨-(2 * (Real.pi * e.c / (1 + e.ge * g))) * 1,
          -(2 * (Real.pi * e.c / (1 + e.ge * g))) * 0, 0⟩ g = ⟨2 * Real.pi * e.c, 0, 0⟩ := by
        ext <;> simp [precession]
        field_simp
        ring
      rw [hw, turn_x e (by positivity)]
      have : 1 / e.c * (2 * Real.pi * e.c) = 2 * Real.pi := by field_simp
      rw [this]
      simp
    refine (congrArg _ h1).trans ?_
    exact body_z _ _ _ _ _ _ _ _

/-! ## C125 -/

section bunch
variable {P S : Type}

/-- Adding, erasing and transforming particles keeps each particle with its spin.  Missing: sorting, clearing and exchanging. -/
theorem spins_follow_partial (up : S) (le : P → P → Bool) (l : List (P × S)) (os : List (Op P S)) (h : ∀ o ∈ os, Keeps o)
    (r : List (P × S)) (hr : idealRun up le l os = some r) :
    run up le ⟨l.map Prod.fst, l.map Prod.snd⟩ os = .ok ⟨r.map Prod.fst, r.map Prod.snd⟩ := by
  induction os generalizing l with
  | nil =>
    simp only [idealRun, Option.some.injEq] at hr
    rw [hr]
    rfl
  | cons o os ih =>
    have h' : ∀ o ∈ os, Keeps o := fun o ho => h o (List.mem_cons_of_mem _ ho)
    have ho := h o List.mem_cons_self
    rw [idealRun] at hr
    rw [run]
    cases o with
    | add p =>
      have := ih _ h' hr
      simpa [step, Outcome.bind] using this
    | addWith p s =>
      have := ih _ h' hr
      simpa [step, Outcome.bind] using this
    | erase i =>
      simp only [ideal] at hr
      split at hr
      · next hi =>
        have := ih _ h' hr
        simpa [step, Outcome.bind, hi, List.eraseIdx_map] using this
      · cases hr
    | transform f g =>
      have := ih _ h' hr
      simpa [step, Outcome.bind, Function.comp_def] using this
    | sort => exact absurd ho id
    | clear => exact absurd ho id
    | swap ps => exact absurd ho id

example : idealRun 0 (fun a b => decide (a ≤ b)) [] [.add 5, .addWith 3 7, .addWith 4 9, .erase 1, .transform (· + 1) (· + 2)] =
    some [(6, 2), (5, 11)] := by decide

/-- Sorting by time separates particles from their spins. -/
theorem sort_violated : ∃ (os : List (Op Nat Nat)) (r : List (Nat × Nat)) (b : SpinBunch Nat Nat),
    idealRun 0 (fun a b => decide (a ≤ b)) [] os = some r ∧
    run 0 (fun a b => decide (a ≤ b)) ⟨[], []⟩ os = .ok b ∧ b.ps = r.map Prod.fst ∧ b.ss ≠ r.map Prod.snd :=
  ⟨[.addWith 2 20, .addWith 1 10, .sort], [(1, 10), (2, 20)], ⟨[1, 2], [20, 10]⟩, by decide +kernel, by decide +kernel, rfl,
    by decide⟩

/-- A bunch that is cleared keeps the spins, so that particles added later get those of earlier ones. -/
theorem clear_violated (up s s' : S) (p p' : P) (le : P → P → Bool) (h : s ≠ s') :
    idealRun up le [] [.addWith p s, .clear, .addWith p' s'] = some [(p', s')] ∧
    run up le ⟨[], []⟩ [.addWith p s, .clear, .addWith p' s'] = .ok ⟨[p'], [s, s']⟩ ∧ [s, s'].head? ≠ some s' := by
  refine ⟨rfl, rfl, ?_⟩
  simpa using h

/-- Exchanging particles with another bunch leaves the spins of the old ones. -/
theorem swap_violated (up s : S) (p p' : P) (le : P → P → Bool) (h : s ≠ up) :
    idealRun up le [] [.addWith p s, .swap [p']] = some [(p', up)] ∧
    run up le ⟨[], []⟩ [.addWith p s, .swap [p']] = .ok ⟨[p'], [s]⟩ ∧ [s] ≠ [up] := by
  refine ⟨rfl, rfl, ?_⟩
  simpa using h

end bunch

/-- A transformation turns spins by its rotation, also where the rotation is skipped. -/
theorem transform_spin {K : Type} [Field K] [LinearOrder K] [IsStrictOrderedRing K] {cos sin : K → K} (ht : Trig cos sin) {t : T3 K}
    (h : Reachable cos sin t) (s : V3 K) : transformSpin t s = t.r.rotate s := by
  unfold transformSpin
  cases hi : t.r.isIdentity with
  | false => rfl
  | true =>
    simp only [Bool.not_true, Bool.false_eq_true, if_false]
    exact (identity_sound (h.ok ht) hi s).symm

/-! ### Polarisation -/

theorem fold_vadd (ss : List (V3 ℝ)) (a : V3 ℝ) : ss.foldl (fun pa s => vadd pa s) a =
    ⟨a.x + (ss.map (·.x)).sum, a.y + (ss.map (·.y)).sum, a.z + (ss.map (·.z)).sum⟩ := by
  induction ss generalizing a with
  | nil => simp
  | cons s ss ih =>
    rw [List.foldl_cons, ih]
    ext <;> simp [vadd] <;> ring

theorem average_eq (ss : List (V3 ℝ)) (h : ss ≠ []) : averageSpin ss =
    .ok ⟨(ss.map (·.x)).sum / ss.length, (ss.map (·.y)).sum / ss.length, (ss.map (·.z)).sum / ss.length⟩ := by
  have h' : ss.length ≠ 0 := by simpa using h
  simp [averageSpin, fold_vadd, h']

theorem spread (ss : List (V3 ℝ)) (v : V3 ℝ) :
    0 ≤ (ss.map len2).sum - 2 * ((ss.map (·.x)).sum * v.x + (ss.map (·.y)).sum * v.y + (ss.map (·.z)).sum * v.z) +
      ss.length * len2 v := by
  induction ss with
  | nil => simp
  | cons s ss ih =>
    simp only [List.map_cons, List.sum_cons, List.length_cons, Nat.cast_add, Nat.cast_one, len2] at ih ⊢
    nlinarith [sq_nonneg (s.x - v.x), sq_nonneg (s.y - v.y), sq_nonneg (s.z - v.z)]

theorem cauchy (ss : List (V3 ℝ)) :
    (ss.map (·.x)).sum ^ 2 + (ss.map (·.y)).sum ^ 2 + (ss.map (·.z)).sum ^ 2 ≤ ss.length * (ss.map len2).sum := by
  induction ss with
  | nil => simp
  | cons s ss ih =>
    have h := spread ss s
    simp only [List.map_cons, List.sum_cons, List.length_cons, Nat.cast_add, Nat.cast_one, len2] at ih h ⊢
    nlinarith

/-- The polarisation of a bunch of unit spins is at most one. -/
theorem polarisation_le_one (ss : List (V3 ℝ)) (h : ss ≠ []) (hu : ∀ s ∈ ss, len2 s = 1) :
    ∃ a, averageSpin ss = .ok a ∧ len2 a ≤ 1 := by
  refine ⟨_, average_eq ss h, ?_⟩
  have hc := cauchy ss
  have hs : (ss.map len2).sum = ss.length := by
    rw [List.map_congr_left hu]
    simp
  have hl : (0 : ℝ) < ss.length := by
    have : 0 < ss.length := List.length_pos_iff.2 h
    exact_mod_cast this
  rw [hs] at hc
  simp only [len2]
  rw [div_pow, div_pow, div_pow, ← add_div, ← add_div, div_le_one (by positivity)]
  nlinarith

/-- The average spin turns with the spins. -/
theorem average_turns (r : Rep ℝ) (hr : r.Ok) (ss : List (V3 ℝ)) (a : V3 ℝ) (h : averageSpin ss = .ok a) :
    averageSpin (ss.map r.rotate) = .ok (r.rotate a) := by
  by_cases hn : ss = []
  · subst hn
    simp [averageSpin] at h
  · rw [average_eq ss hn] at h
    have e := average_eq (ss.map r.rotate) (by simpa using hn)
    rw [e]
    injection h with h
    subst h
    have hrot := hr.isRotation
    have hsum : ∀ ss : List (V3 ℝ), r.rotate ⟨(ss.map (·.x)).sum, (ss.map (·.y)).sum, (ss.map (·.z)).sum⟩ =
        ⟨((ss.map r.rotate).map (·.x)).sum, ((ss.map r.rotate).map (·.y)).sum, ((ss.map r.rotate).map (·.z)).sum⟩ := by
      intro ss
      induction ss with
      | nil =>
        have := hrot.smul 0 ⟨0, 0, 0⟩
        simpa [Rotation.Spec.smul] using this
      | cons s ss ih =>
        have := hrot.add s ⟨(ss.map (·.x)).sum, (ss.map (·.y)).sum, (ss.map (·.z)).sum⟩
        rw [ih] at this
        simpa [Rotation.Spec.add] using this
    have := hrot.smul (1 / (ss.length : ℝ)) ⟨(ss.map (·.x)).sum, (ss.map (·.y)).sum, (ss.map (·.z)).sum⟩
    rw [hsum] at this
    simp only [Rotation.Spec.smul] at this
    simp only [List.length_map, div_eq_inv_mul]
    simp only [one_div] at this
    rw [this]

example : ∀ s ∈ [(⟨1, 0, 0⟩ : V3 ℝ), ⟨0, 0.6, 0.8⟩], len2 s = 1 := by
  simp [len2]
  norm_num

end Verif.Spin
