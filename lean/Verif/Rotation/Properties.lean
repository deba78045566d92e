import Verif.Rotation.Lemmas
import Mathlib.Algebra.Order.Field.Basic
import Mathlib.Tactic.Linarith
import Mathlib.Tactic.NormNum
import Mathlib.Analysis.SpecialFunctions.Trigonometric.Basic

/-!
# Properties of `Rotation3D` (C18)
-/

namespace Verif.Rotation
open Spec

section
variable {K : Type} [Field K] [DecidableEq K]

/-- C18: every rotation obtainable through the public interface acts exactly as its mathematical
meaning: products compose, inverses undo, the half-turn functions conjugate; which of the five
classes represents it makes no difference. -/
theorem rotation_meaning {cos sin : K → K} (ht : Trig cos sin) (e : Expr K) (p q : V3 K) :
    (e.eval cos sin).rotate p = q ↔ Means cos sin e p q := by
  induction e generalizing p q with
  | identity => exact eq_comm
  | rotationX a =>
    simp only [Expr.eval, rotationX, Means]
    split
    · next h => subst h; rw [ht.cos0, ht.sin0]; simp [Rep.rotate]; exact eq_comm
    · rw [eq_comm, show Rep.rotate (.x (cos a) (sin a)) p =
        ⟨p.x, cos a * p.y + sin a * p.z, cos a * p.z - sin a * p.y⟩ by
          ext <;> simp only [Rep.rotate] <;> ring]
  | rotationY a =>
    simp only [Expr.eval, rotationY, Means]
    split
    · next h => subst h; rw [ht.cos0, ht.sin0]; simp [Rep.rotate]; exact eq_comm
    · rw [eq_comm, show Rep.rotate (.y (cos a) (sin a)) p =
        ⟨cos a * p.x - sin a * p.z, p.y, cos a * p.z + sin a * p.x⟩ by
          ext <;> simp only [Rep.rotate] <;> ring]
  | rotationZ a =>
    simp only [Expr.eval, rotationZ, Means]
    split
    · next h => subst h; rw [ht.cos0, ht.sin0]; simp [Rep.rotate]; exact eq_comm
    · rw [eq_comm, show Rep.rotate (.z (cos a) (sin a)) p =
        ⟨cos a * p.x + sin a * p.y, cos a * p.y - sin a * p.x, p.z⟩ by
          ext <;> simp only [Rep.rotate] <;> ring]
  | mul e f he hf =>
    simp only [Expr.eval, Means]
    rw [rotate_dot _ _ (eval_ok ht e) (eval_ok ht f)]
    constructor
    · intro h; exact ⟨_, (hf p _).1 rfl, (he _ q).1 h⟩
    · rintro ⟨r, h1, h2⟩; rw [(hf p r).2 h1, (he r q).2 h2]
  | inv e he =>
    simp only [Expr.eval, Means]
    rw [← he]
    constructor
    · rintro rfl; exact inv_right _ (eval_ok ht e) p
    · rintro rfl; exact inv_left _ (eval_ok ht e) q
  | xPI e he =>
    simp only [Expr.eval, Means]
    rw [rotXbyPI_conj, ← he]
    constructor
    · rintro rfl; simp [halfX]
    · intro h; rw [h]; simp [halfX]
  | yPI e he =>
    simp only [Expr.eval, Means]
    rw [rotYbyPI_conj, ← he]
    constructor
    · rintro rfl; simp [halfY]
    · intro h; rw [h]; simp [halfY]
  | zPI e he =>
    simp only [Expr.eval, Means]
    rw [rotZbyPI_conj, ← he]
    constructor
    · rintro rfl; simp [halfZ]
    · intro h; rw [h]; simp [halfZ]

/-- C18: every such object is a proper rotation: linear, length- and angle-preserving, without
reflection. -/
theorem rotation_proper {cos sin : K → K} (ht : Trig cos sin) (e : Expr K) :
    IsRotation (e.eval cos sin).rotate :=
  (eval_ok ht e).isRotation

/-- C18: composition and inverse, directly on the objects. -/
theorem rotation_group {cos sin : K → K} (ht : Trig cos sin) (e f : Expr K) (p : V3 K) :
    ((e.eval cos sin).dot (f.eval cos sin)).rotate p =
      (e.eval cos sin).rotate ((f.eval cos sin).rotate p) ∧
    (e.eval cos sin).inv.rotate ((e.eval cos sin).rotate p) = p ∧
    (e.eval cos sin).rotate ((e.eval cos sin).inv.rotate p) = p :=
  ⟨rotate_dot _ _ (eval_ok ht e) (eval_ok ht f) p, inv_left _ (eval_ok ht e) p,
    inv_right _ (eval_ok ht e) p⟩

omit [DecidableEq K] in
/-- C18: `getMatrix` returns the matrix of the action. -/
theorem getMatrix_action (a : Rep K) (p : V3 K) :
    (Rep.gen a.getMatrix).rotate p = a.rotate p := by
  cases a <;> ext <;> simp only [Rep.getMatrix, Rep.rotate, declX, declY, declZ] <;> ring

end

section
variable {K : Type} [Field K] [LinearOrder K] [IsStrictOrderedRing K]

theorem sum_sq_one {u v : K} (h : 1 * 1 + u * u + v * v = 1) : u = 0 ∧ v = 0 := by
  have h1 := mul_self_nonneg u
  have h2 := mul_self_nonneg v
  exact ⟨mul_self_eq_zero.1 (by linarith), mul_self_eq_zero.1 (by linarith)⟩

theorem columns {m : M3 K} (h : IsRotation (Rep.rotate (.gen m))) :
    m.m00 * m.m00 + m.m10 * m.m10 + m.m20 * m.m20 = 1 ∧
    m.m11 * m.m11 + m.m01 * m.m01 + m.m21 * m.m21 = 1 ∧
    m.m22 * m.m22 + m.m02 * m.m02 + m.m12 * m.m12 = 1 := by
  have d1 := h.dot ⟨1, 0, 0⟩ ⟨1, 0, 0⟩
  have d2 := h.dot ⟨0, 1, 0⟩ ⟨0, 1, 0⟩
  have d3 := h.dot ⟨0, 0, 1⟩ ⟨0, 0, 1⟩
  simp only [Spec.dot, Rep.rotate] at d1 d2 d3
  exact ⟨by linear_combination d1, by linear_combination d2, by linear_combination d3⟩

theorem identity_sound {a : Rep K} (hok : a.Ok) (h : a.isIdentity = true) (p : V3 K) :
    a.rotate p = p := by
  cases a with
  | ident => rfl
  | x c s => simp [Rep.isIdentity] at h
  | y c s => simp [Rep.isIdentity] at h
  | z c s => simp [Rep.isIdentity] at h
  | gen m =>
    obtain ⟨d1, d2, d3⟩ := columns hok
    simp only [Rep.isIdentity, Bool.and_eq_true, decide_eq_true_eq] at h
    obtain ⟨⟨h0, h1⟩, h2⟩ := h
    rw [h0] at d1; rw [h1] at d2; rw [h2] at d3
    obtain ⟨a1, a2⟩ := sum_sq_one d1
    obtain ⟨b1, b2⟩ := sum_sq_one d2
    obtain ⟨c1, c2⟩ := sum_sq_one d3
    simp [Rep.rotate, h0, h1, h2, a1, a2, b1, b2, c1, c2]

/-- C18: the tests are sound: `isIdentity` only for the null rotation, `isXrot`, `isYrot`, `isZrot` only
for rotations that leave the axis fixed. -/
theorem tests_sound {cos sin : K → K} (ht : Trig cos sin) (e : Expr K) :
    ((e.eval cos sin).isIdentity = true → ∀ p, (e.eval cos sin).rotate p = p) ∧
    ((e.eval cos sin).isXrot = true → (e.eval cos sin).rotate ⟨1, 0, 0⟩ = ⟨1, 0, 0⟩) ∧
    ((e.eval cos sin).isYrot = true → (e.eval cos sin).rotate ⟨0, 1, 0⟩ = ⟨0, 1, 0⟩) ∧
    ((e.eval cos sin).isZrot = true → (e.eval cos sin).rotate ⟨0, 0, 1⟩ = ⟨0, 0, 1⟩) := by
  have hok := eval_ok ht e
  generalize e.eval cos sin = a at hok
  refine ⟨fun h p => identity_sound hok h p, ?_⟩
  cases a with
  | ident => simp [Rep.isXrot, Rep.isYrot, Rep.isZrot]
  | x c s => simp [Rep.isXrot, Rep.isYrot, Rep.isZrot, Rep.rotate]
  | y c s => simp [Rep.isXrot, Rep.isYrot, Rep.isZrot, Rep.rotate]
  | z c s => simp [Rep.isXrot, Rep.isYrot, Rep.isZrot, Rep.rotate]
  | gen m =>
    obtain ⟨d1, d2, d3⟩ := columns hok
    simp only [Rep.isXrot, Rep.isYrot, Rep.isZrot, Bool.and_eq_true, decide_eq_true_eq]
    refine ⟨?_, ?_, ?_⟩
    · rintro ⟨⟨h0, h1⟩, h2⟩
      rw [h0] at d1
      obtain ⟨a1, a2⟩ := sum_sq_one d1
      simp [Rep.rotate, h0, a1, a2]
    · rintro ⟨⟨h0, h1⟩, h2⟩
      rw [h1] at d2
      obtain ⟨a1, a2⟩ := sum_sq_one d2
      simp [Rep.rotate, h1, a1, a2]
    · rintro ⟨⟨h0, h1⟩, h2⟩
      rw [h2] at d3
      obtain ⟨a1, a2⟩ := sum_sq_one d3
      simp [Rep.rotate, h2, a1, a2]

end

theorem real_trig : Trig Real.cos Real.sin :=
  ⟨fun a => by have := Real.cos_sq_add_sin_sq a; linarith [this, sq (Real.cos a), sq (Real.sin a)],
    Real.cos_zero, Real.sin_zero⟩

open Classical in
/-- The test for the null rotation is not complete: a full turn about an axis is not recognised. -/
theorem isIdentity_incomplete : ∃ e : Expr ℝ,
    (∀ p, (e.eval Real.cos Real.sin).rotate p = p) ∧
    (e.eval Real.cos Real.sin).isIdentity = false := by
  refine ⟨.rotationX (2 * Real.pi), fun p => ?_, ?_⟩
  · rw [rotation_meaning real_trig]
    simp [Means]
  · have h : (2 * Real.pi : ℝ) ≠ 0 := by have := Real.pi_pos; positivity
    simp [Expr.eval, rotationX, Rep.isIdentity, Real.pi_ne_zero]

open Classical in
/-- Example for `rotation_meaning`: a product of three rotations with an inverse. -/
example : (Expr.eval Real.cos Real.sin
    (.mul (.rotationX (Real.pi / 2)) (.mul (.inv (.rotationY (Real.pi / 2))) (.rotationZ Real.pi)))).rotate
      ⟨1, 2, 3⟩ = ⟨3, 1, 2⟩ := by
  rw [rotation_meaning real_trig]
  refine ⟨⟨3, -2, 1⟩, ⟨⟨-1, -2, 3⟩, ?_, ?_⟩, ?_⟩ <;> simp [Means]

/-- Example for `tests_sound`: a product of two rotations about different axes that is recognised as an x
rotation. -/
example : (Rep.dot (Rep.dot (.x (3 / 5) (4 / 5)) (.y (0 : ℚ) 1)) (.y 0 (-1))).isXrot = true := by
  norm_num [Rep.dot, Rep.isXrot, Rep.genXY, M3.mul, declY]

#print axioms rotation_meaning
#print axioms rotation_proper
#print axioms rotation_group
#print axioms getMatrix_action
#print axioms tests_sound
#print axioms isIdentity_incomplete

end Verif.Rotation
