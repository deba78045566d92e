import Verif.Transform.Model
import Verif.Rotation.Properties
import Mathlib.Tactic.Positivity

/-!
# Properties of `Transform3D` and `Transform2D` (C19, C20, C58)
-/

namespace Verif.Transform
open Verif.Rotation Verif.Rotation.Spec

section
variable {K : Type} [Field K] [DecidableEq K]

/-- A 2-D rotation made of a cosine and a sine. -/
def R2.Ok (r : R2 K) : Prop := r.c * r.c + r.s * r.s = 1

/-- Transformations obtainable through the public interface. -/
inductive Reachable (cos sin : K → K) : T3 K → Prop where
  | ident : Reachable cos sin T3.ident
  | make (x : V3 K) (e : Expr K) : Reachable cos sin ⟨x, e.eval cos sin⟩
  | translation (dx dy dz : K) : Reachable cos sin (T3.translation dx dy dz)
  | ofT2 (t : T2 K) (h : t.r.Ok) : Reachable cos sin (T3.ofT2 t)
  | mul {s t : T3 K} : Reachable cos sin s → Reachable cos sin t → Reachable cos sin (s.mul t)
  | mulEq {s t : T3 K} : Reachable cos sin s → Reachable cos sin t → Reachable cos sin (s.mulEq t)
  | inv {t : T3 K} : Reachable cos sin t → Reachable cos sin t.inv
  | invert {t : T3 K} : Reachable cos sin t → Reachable cos sin t.invert
  | xPI {t : T3 K} : Reachable cos sin t → Reachable cos sin t.rotXbyPI
  | yPI {t : T3 K} : Reachable cos sin t → Reachable cos sin t.rotYbyPI
  | zPI {t : T3 K} : Reachable cos sin t → Reachable cos sin t.rotZbyPI

theorem Reachable.ok {cos sin : K → K} (ht : Trig cos sin) {t : T3 K} (h : Reachable cos sin t) :
    t.r.Ok := by
  induction h with
  | ident => trivial
  | make x e => exact eval_ok ht e
  | translation => trivial
  | ofT2 t h => simp only [T3.ofT2]; split; trivial; exact h
  | mul _ _ h1 h2 => exact dot_ok _ _ h1 h2
  | mulEq _ _ h1 h2 => exact dot_ok _ _ h2 h1
  | inv _ h => exact inv_ok _ h
  | invert _ h => exact inv_ok _ h
  | xPI _ h => exact rotXbyPI_ok _ h
  | yPI _ h => exact rotYbyPI_ok _ h
  | zPI _ h => exact rotZbyPI_ok _ h

omit [DecidableEq K] in
theorem rotate_sub {r : Rep K} (h : r.Ok) (p q : V3 K) :
    r.rotate (vsub p q) = vsub (r.rotate p) (r.rotate q) := by
  have h1 := h.isRotation.add p (Spec.smul (-1) q)
  rw [h.isRotation.smul] at h1
  have e1 : vsub p q = Spec.add p (Spec.smul (-1) q) := by
    ext <;> simp only [vsub, Spec.add, Spec.smul] <;> ring
  rw [e1, h1]
  ext <;> simp only [vsub, Spec.add, Spec.smul] <;> ring

omit [DecidableEq K] in
theorem rotate_neg {r : Rep K} (h : r.Ok) (p : V3 K) : r.rotate (vneg p) = vneg (r.rotate p) := by
  have h1 := h.isRotation.smul (-1) p
  have e1 : vneg p = Spec.smul (-1) p := by ext <;> simp only [vneg, Spec.smul] <;> ring
  rw [e1, h1]
  ext <;> simp only [vneg, Spec.smul] <;> ring

/-! ## C19 -/

/-- C19: the product acts as one transformation after the other, on points and on vectors; `s *= t`
is `t * s`. -/
theorem transform_compose {cos sin : K → K} (ht : Trig cos sin) {s t : T3 K}
    (hs : Reachable cos sin s) (htt : Reachable cos sin t) (p : V3 K) :
    (s.mul t).point p = s.point (t.point p) ∧ (s.mul t).vector p = s.vector (t.vector p) ∧
    (s.mulEq t).point p = t.point (s.point p) ∧ (s.mulEq t).vector p = t.vector (s.vector p) := by
  have aux : ∀ {s t : T3 K}, Reachable cos sin s → Reachable cos sin t →
      (s.mul t).point p = s.point (t.point p) ∧ (s.mul t).vector p = s.vector (t.vector p) := by
    intro s t hs htt
    have h1 := hs.ok ht
    have h2 := htt.ok ht
    constructor
    · simp only [T3.mul, T3.mulEq, T3.point]
      rw [rotate_dot _ _ h1 h2]
      congr 1
      have e : vsub p (vadd t.x0 (t.r.inv.rotate s.x0)) =
          vsub (vsub p t.x0) (t.r.inv.rotate s.x0) := by
        ext <;> simp only [vsub, vadd] <;> ring
      rw [e, rotate_sub h2, inv_right _ h2]
    · simp only [T3.mul, T3.mulEq, T3.vector]
      rw [rotate_dot _ _ h1 h2]
  exact ⟨(aux hs htt).1, (aux hs htt).2, (aux htt hs).1, (aux htt hs).2⟩

/-- C19: `inv` and `invert` undo the transformation on both sides. -/
theorem transform_inverse {cos sin : K → K} (ht : Trig cos sin) {t : T3 K}
    (h : Reachable cos sin t) (p : V3 K) :
    t.inv.point (t.point p) = p ∧ t.point (t.inv.point p) = p ∧
    t.inv.vector (t.vector p) = p ∧ t.vector (t.inv.vector p) = p ∧ t.invert = t.inv := by
  have hk := h.ok ht
  refine ⟨?_, ?_, inv_left _ hk p, inv_right _ hk p, rfl⟩
  · simp only [T3.inv, T3.point]
    rw [rotate_sub hk]
    have e : vsub (vsub (t.r.rotate p) (t.r.rotate t.x0)) (vneg (t.r.rotate t.x0)) =
        t.r.rotate p := by ext <;> simp only [vsub, vneg] <;> ring
    rw [e, inv_left _ hk]
  · simp only [T3.inv, T3.point]
    have e : vsub p (vneg (t.r.rotate t.x0)) = vsub p (t.r.rotate (vneg t.x0)) := by
      rw [rotate_neg hk]
    rw [e, rotate_sub (inv_ok _ hk), inv_left _ hk]
    have e2 : vsub (vsub (t.r.inv.rotate p) (vneg t.x0)) t.x0 = t.r.inv.rotate p := by
      ext <;> simp only [vsub, vneg] <;> ring
    rw [e2, inv_right _ hk]

/-- C19: transformations keep distances and orientation. -/
theorem transform_rigid {cos sin : K → K} (ht : Trig cos sin) {t : T3 K}
    (h : Reachable cos sin t) (p q : V3 K) :
    Spec.dot (vsub (t.point p) (t.point q)) (vsub (t.point p) (t.point q)) =
      Spec.dot (vsub p q) (vsub p q) ∧ IsRotation t.vector := by
  have hk := h.ok ht
  refine ⟨?_, hk.isRotation⟩
  have e : vsub (t.point p) (t.point q) = t.r.rotate (vsub p q) := by
    simp only [T3.point]
    rw [← rotate_sub hk]
    congr 1
    ext <;> simp only [vsub] <;> ring
  rw [e, hk.isRotation.dot]

omit [DecidableEq K] in
/-- C19: the half-turn functions are conjugation with the half turn. -/
theorem transform_byPI (t : T3 K) (p : V3 K) :
    t.rotXbyPI.point p = halfX (t.point (halfX p)) ∧
    t.rotYbyPI.point p = halfY (t.point (halfY p)) ∧
    t.rotZbyPI.point p = halfZ (t.point (halfZ p)) := by
  refine ⟨?_, ?_, ?_⟩
  · simp only [T3.rotXbyPI, T3.point, rotXbyPI_conj]
    congr 2; ext <;> simp only [vsub, halfX] <;> ring
  · simp only [T3.rotYbyPI, T3.point, rotYbyPI_conj]
    congr 2; ext <;> simp only [vsub, halfY] <;> ring
  · simp only [T3.rotZbyPI, T3.point, rotZbyPI_conj]
    congr 2; ext <;> simp only [vsub, halfZ] <;> ring

/-! ## C20 -/

omit [DecidableEq K] in
/-- C20: products of 2-D transformations compose; `*=` is the product from the left. -/
theorem transform2_compose (s t : T2 K) (p : V2 K) :
    (s.mul t).point p = s.point (t.point p) ∧ (s.mul t).vector p = s.vector (t.vector p) ∧
    s.mulEq t = t.mul s ∧ s.r.mulEq t.r = t.r.mul s.r := by
  refine ⟨?_, ?_, rfl, rfl⟩
  · ext <;> simp only [T2.mul, T2.point, R2.mul, R2.rotate] <;> ring
  · ext <;> simp only [T2.mul, T2.vector, R2.mul, R2.rotate] <;> ring

omit [DecidableEq K] in
/-- C20: the inverse undoes the transformation on both sides. -/
theorem transform2_inverse (t : T2 K) (h : t.r.Ok) (p : V2 K) :
    t.invert.point (t.point p) = p ∧ t.point (t.invert.point p) = p := by
  have h : t.r.c * t.r.c + t.r.s * t.r.s = 1 := h
  constructor
  · ext <;> simp only [T2.invert, T2.point, R2.inv, R2.rotate]
    · linear_combination p.x * h
    · linear_combination p.y * h
  · ext <;> simp only [T2.invert, T2.point, R2.inv, R2.rotate]
    · linear_combination (p.x + t.x0.x) * h
    · linear_combination (p.y + t.x0.y) * h

omit [DecidableEq K] in
/-- C20: the rotations stay rotations. -/
theorem transform2_ok (s t : T2 K) (hs : s.r.Ok) (ht : t.r.Ok) :
    (s.mul t).r.Ok ∧ t.invert.r.Ok := by
  have hs : s.r.c * s.r.c + s.r.s * s.r.s = 1 := hs
  have ht : t.r.c * t.r.c + t.r.s * t.r.s = 1 := ht
  constructor
  · simp only [R2.Ok, T2.mul, R2.mul]
    linear_combination (t.r.c * t.r.c + t.r.s * t.r.s) * hs + ht
  · simp only [R2.Ok, T2.invert, R2.inv]
    linear_combination ht

end

section
variable {K : Type} [Field K] [LinearOrder K] [IsStrictOrderedRing K]

/-- C20 is violated: `isIdentity` only looks at the sine, so the half turn is called the identity. -/
theorem isIdentity2_violated (eps : K) (heps : 0 ≤ eps) :
    let t : T2 K := ⟨⟨-1, 0⟩, ⟨0, 0⟩⟩
    t.r.Ok ∧ t.isIdentity eps = true ∧ t.point ⟨1, 2⟩ = ⟨-1, -2⟩ := by
  refine ⟨?_, ?_, ?_⟩
  · show (-1 : K) * -1 + 0 * 0 = 1; ring
  · simp [T2.isIdentity, isZero2, R2.isIdentity, fequal, heps]
  · simp [T2.point, R2.rotate]

/-- C20 (partial: exact comparison, and the cosine must not be negative): then `isIdentity` means that
no point moves. -/
theorem isIdentity2_partial (t : T2 K) (h : t.r.Ok) (hc : 0 ≤ t.r.c) :
    t.isIdentity 0 = true ↔ ∀ p, t.point p = p := by
  have h : t.r.c * t.r.c + t.r.s * t.r.s = 1 := h
  simp only [T2.isIdentity, isZero2, R2.isIdentity, fequal, sub_zero, Bool.and_eq_true,
    decide_eq_true_eq, abs_nonpos_iff]
  constructor
  · rintro ⟨⟨h1, h2⟩, h3⟩ p
    rw [h3] at h
    have hc1 : t.r.c = 1 := by nlinarith
    simp [T2.point, R2.rotate, h1, h2, h3, hc1]
  · intro hp
    have h0 := hp ⟨0, 0⟩
    have h1 := hp ⟨1, 0⟩
    simp only [T2.point, R2.rotate, V2.mk.injEq] at h0 h1
    refine ⟨⟨?_, ?_⟩, ?_⟩
    · linarith [h0.1]
    · linarith [h0.2]
    · linarith [h0.2, h1.2]

/-- The test for the zero vector in the plane uses the tolerance for x but not for y. -/
theorem isZero2_asymmetric (eps : K) (heps : 0 < eps) :
    isZero2 eps ⟨eps, 0⟩ = true ∧ isZero2 eps (⟨0, eps⟩ : V2 K) = false := by
  constructor
  · simp [isZero2, fequal, abs_of_pos heps]
  · simp [isZero2, fequal, heps.le, heps.ne']

/-- Equality and inequality of 3-D vectors can both hold: the one is tested with tolerance, the other
exactly. -/
theorem eq_ne_overlap (eps : K) (heps : 0 < eps) :
    eq3 eps ⟨0, 0, 0⟩ ⟨eps, 0, 0⟩ = true ∧ ne3 (⟨0, 0, 0⟩ : V3 K) ⟨eps, 0, 0⟩ = true := by
  constructor
  · simp [eq3, fequal, abs_of_pos heps, heps.le]
  · simp [ne3, heps.ne]

/-- C19: `isIdentity` of a 3-D transformation means that points move by at most the tolerance in
each coordinate. -/
theorem isIdentity3_sound {cos sin : K → K} (ht : Trig cos sin) {t : T3 K}
    (h : Reachable cos sin t) (eps : K) (hi : t.isIdentity eps = true) (p : V3 K) :
    |(t.point p).x - p.x| ≤ eps ∧ |(t.point p).y - p.y| ≤ eps ∧ |(t.point p).z - p.z| ≤ eps := by
  have hok := h.ok ht
  simp only [T3.isIdentity, isZero3, fequal, sub_zero, Bool.and_eq_true, decide_eq_true_eq] at hi
  obtain ⟨⟨⟨h1, h2⟩, h3⟩, h4⟩ := hi
  have hr : t.point p = vsub p t.x0 := identity_sound hok h4 _
  rw [hr]
  simp only [vsub]
  refine ⟨?_, ?_, ?_⟩
  · rw [show p.x - t.x0.x - p.x = -t.x0.x by ring, abs_neg]; exact h1
  · rw [show p.y - t.x0.y - p.y = -t.x0.y by ring, abs_neg]; exact h2
  · rw [show p.z - t.x0.z - p.z = -t.x0.z by ring, abs_neg]; exact h3

/-! ## C58 -/

/-- C58 is violated: a 2-D transformation and the 3-D transformation made from it move a point of the
plane differently: the rotation goes the other way round. -/
theorem lift_violated :
    let t : T2 ℚ := ⟨⟨0, 1⟩, ⟨0, 0⟩⟩
    t.r.Ok ∧ t.point ⟨1, 0⟩ = ⟨0, 1⟩ ∧ (T3.ofT2 t).point ⟨1, 0, 0⟩ = ⟨0, -1, 0⟩ := by
  refine ⟨?_, ?_, ?_⟩
  · show (0 : ℚ) * 0 + 1 * 1 = 1; norm_num
  · norm_num [T2.point, R2.rotate]
  · norm_num [T3.ofT2, T3.point, Rep.rotate, vsub]

omit [IsStrictOrderedRing K] in
/-- C58, what holds: the lifted transformation acts on the plane as
`p ↦ R⁻¹ (p - x0)`, where the 2-D one is `p ↦ R p - x0`; the third coordinate is kept. -/
theorem lift_characterised (t : T2 K) (h : t.r.Ok) (x y z : K) :
    (T3.ofT2 t).point ⟨x, y, z⟩ =
      ⟨(t.r.inv.rotate ⟨x - t.x0.x, y - t.x0.y⟩).x, (t.r.inv.rotate ⟨x - t.x0.x, y - t.x0.y⟩).y, z⟩ := by
  have h : t.r.c * t.r.c + t.r.s * t.r.s = 1 := h
  simp only [T3.ofT2]
  split
  · next hc =>
    have hs := sin_zero h hc
    ext <;> simp [T3.point, Rep.rotate, vsub, R2.inv, R2.rotate, hc, hs]
  · ext <;> simp only [T3.point, Rep.rotate, vsub, R2.inv, R2.rotate] <;> ring

/-- C58 (partial: only pure displacements agree). -/
theorem lift_partial (t : T2 K) (h : t.r.Ok) :
    (∀ x y z, (T3.ofT2 t).point ⟨x, y, z⟩ = ⟨(t.point ⟨x, y⟩).x, (t.point ⟨x, y⟩).y, z⟩) ↔
      t.r.s = 0 ∧ (t.r.c = 1 ∨ t.x0 = ⟨0, 0⟩) := by
  have h' : t.r.c * t.r.c + t.r.s * t.r.s = 1 := h
  simp only [lift_characterised t h, V3.mk.injEq, and_true, T2.point, R2.inv, R2.rotate]
  constructor
  · intro hp
    have h0 := hp 0 0 0
    have h1 := hp 1 0 0
    have hs : t.r.s = 0 := by linarith [h0.2, h1.2]
    refine ⟨hs, ?_⟩
    rw [hs] at h0 h'
    by_cases hc : t.r.c = 1
    · exact Or.inl hc
    · right
      have hx : (t.r.c - 1) * t.x0.x = 0 := by linarith [h0.1]
      have hy : (t.r.c - 1) * t.x0.y = 0 := by linarith [h0.2]
      have hne : t.r.c - 1 ≠ 0 := sub_ne_zero.2 hc
      ext
      · exact (mul_eq_zero.1 hx).resolve_left hne
      · exact (mul_eq_zero.1 hy).resolve_left hne
  · rintro ⟨hs, hc⟩ x y z
    rw [hs]
    rcases hc with hc | hx
    · rw [hc]; constructor <;> ring
    · rw [hx]; constructor <;> ring

end

/-! ## Examples -/

open Classical in
example : ((T3.mk ⟨1, 0, 0⟩ (Expr.eval Real.cos Real.sin (.rotationZ (Real.pi / 2)))).mul
    (T3.translation 0 2 0)).point ⟨5, 5, 5⟩ = ⟨3, -4, 5⟩ := by
  rw [(transform_compose real_trig (.make _ _) (.translation _ _ _) _).1]
  have : (Real.pi / 2 : ℝ) ≠ 0 := by have := Real.pi_pos; positivity
  simp [T3.point, T3.translation, Rep.rotate, vsub, Expr.eval, rotationZ, this]
  norm_num

example : (T2.mk ⟨3 / 5, 4 / 5⟩ ⟨1, 2⟩ : T2 ℚ).invert.point
    ((T2.mk ⟨3 / 5, 4 / 5⟩ ⟨1, 2⟩ : T2 ℚ).point ⟨7, 8⟩) = ⟨7, 8⟩ :=
  (transform2_inverse _ (by show (3 / 5 : ℚ) * (3 / 5) + 4 / 5 * (4 / 5) = 1; norm_num) _).1

example : (T2.mk ⟨1, 0⟩ ⟨0, 0⟩ : T2 ℚ).isIdentity 0 = true :=
  (isIdentity2_partial _ (by show (1 : ℚ) * 1 + 0 * 0 = 1; norm_num) (by norm_num)).2
    (fun p => by simp [T2.point, R2.rotate])

#print axioms transform_compose
#print axioms transform_inverse
#print axioms transform_rigid
#print axioms transform_byPI
#print axioms transform2_compose
#print axioms transform2_inverse
#print axioms transform2_ok
#print axioms isIdentity2_violated
#print axioms isIdentity2_partial
#print axioms isZero2_asymmetric
#print axioms eq_ne_overlap
#print axioms isIdentity3_sound
#print axioms lift_violated
#print axioms lift_characterised
#print axioms lift_partial

end Verif.Transform
