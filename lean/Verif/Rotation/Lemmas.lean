import Verif.Rotation.Spec
import Mathlib.Tactic.LinearCombination

/-! # Lemmas: every object of the interface is a rotation. -/

namespace Verif.Rotation
open Spec

variable {K : Type} [Field K] [DecidableEq K]

omit [DecidableEq K] in
theorem Spec.IsRotation.comp {f g : V3 K → V3 K} (hf : IsRotation f) (hg : IsRotation g) :
    IsRotation (fun p => f (g p)) where
  add p q := by rw [hg.add, hf.add]
  smul a p := by rw [hg.smul, hf.smul]
  dot p q := by rw [hf.dot, hg.dot]
  cross p q := by rw [hg.cross, hf.cross]

omit [DecidableEq K] in
theorem Spec.IsRotation.inverse {f g : V3 K → V3 K} (hf : IsRotation f) (hgf : ∀ p, g (f p) = p)
    (hfg : ∀ p, f (g p) = p) : IsRotation g where
  add p q := by rw [← hgf (Spec.add (g p) (g q)), hf.add, hfg, hfg]
  smul a p := by rw [← hgf (Spec.smul a (g p)), hf.smul, hfg]
  dot p q := by rw [← hf.dot, hfg, hfg]
  cross p q := by rw [← hgf (Spec.cross (g p) (g q)), hf.cross, hfg, hfg]

/-- The invariant of the representations. -/
def Rep.Ok : Rep K → Prop
  | .ident => True
  | .x c s => c * c + s * s = 1
  | .y c s => c * c + s * s = 1
  | .z c s => c * c + s * s = 1
  | .gen m => IsRotation (Rep.rotate (.gen m))

omit [DecidableEq K] in
theorem Rep.Ok.isRotation {r : Rep K} (h : r.Ok) : IsRotation r.rotate := by
  cases r with
  | ident => exact ⟨fun _ _ => rfl, fun _ _ => rfl, fun _ _ => rfl, fun _ _ => rfl⟩
  | gen m => exact h
  | x c s =>
    have h : c * c + s * s = 1 := h
    refine ⟨fun p q => ?_, fun a p => ?_, fun p q => ?_, fun p q => ?_⟩
    · ext <;> simp only [rotate, Spec.add] <;> ring
    · ext <;> simp only [rotate, Spec.smul] <;> ring
    · simp only [rotate, Spec.dot]; linear_combination (p.y * q.y + p.z * q.z) * h
    · ext <;> simp only [rotate, Spec.cross]
      · linear_combination (-(p.y * q.z - p.z * q.y)) * h
      · ring
      · ring
  | y c s =>
    have h : c * c + s * s = 1 := h
    refine ⟨fun p q => ?_, fun a p => ?_, fun p q => ?_, fun p q => ?_⟩
    · ext <;> simp only [rotate, Spec.add] <;> ring
    · ext <;> simp only [rotate, Spec.smul] <;> ring
    · simp only [rotate, Spec.dot]; linear_combination (p.x * q.x + p.z * q.z) * h
    · ext <;> simp only [rotate, Spec.cross]
      · ring
      · linear_combination (-(p.z * q.x - p.x * q.z)) * h
      · ring
  | z c s =>
    have h : c * c + s * s = 1 := h
    refine ⟨fun p q => ?_, fun a p => ?_, fun p q => ?_, fun p q => ?_⟩
    · ext <;> simp only [rotate, Spec.add] <;> ring
    · ext <;> simp only [rotate, Spec.smul] <;> ring
    · simp only [rotate, Spec.dot]; linear_combination (p.x * q.x + p.y * q.y) * h
    · ext <;> simp only [rotate, Spec.cross]
      · ring
      · ring
      · linear_combination (-(p.x * q.y - p.y * q.x)) * h

omit [DecidableEq K] in
theorem sin_zero {c s : K} (h : c * c + s * s = 1) (hc : c = 1) : s = 0 := by
  subst hc
  have : s * s = 0 := by linear_combination h
  exact mul_self_eq_zero.1 this

/-- Composition: the product acts as one rotation after the other. -/
theorem rotate_dot (a b : Rep K) (ha : a.Ok) (hb : b.Ok) (p : V3 K) :
    (a.dot b).rotate p = a.rotate (b.rotate p) := by
  cases a <;> cases b
  case x.x c s c' s' =>
    have h1 : c * c + s * s = 1 := ha
    have h2 : c' * c' + s' * s' = 1 := hb
    simp only [Rep.dot, Rep.sameAxis]
    split
    · next hn =>
      have h3 : (c' * c - s' * s) * (c' * c - s' * s) + (s' * c + c' * s) * (s' * c + c' * s) = 1 := by
        linear_combination (c' * c' + s' * s') * h1 + h2
      have h4 := sin_zero h3 hn
      ext <;> simp only [Rep.rotate]
      · linear_combination (-p.y) * hn - p.z * h4
      · linear_combination p.y * h4 - p.z * hn
    · ext <;> simp only [Rep.rotate] <;> ring
  case y.y c s c' s' =>
    have h1 : c * c + s * s = 1 := ha
    have h2 : c' * c' + s' * s' = 1 := hb
    simp only [Rep.dot, Rep.sameAxis]
    split
    · next hn =>
      have h3 : (c' * c - s' * s) * (c' * c - s' * s) + (s' * c + c' * s) * (s' * c + c' * s) = 1 := by
        linear_combination (c' * c' + s' * s') * h1 + h2
      have h4 := sin_zero h3 hn
      ext <;> simp only [Rep.rotate]
      · linear_combination (-p.x) * hn + p.z * h4
      · linear_combination (-p.x) * h4 - p.z * hn
    · ext <;> simp only [Rep.rotate] <;> ring
  case z.z c s c' s' =>
    have h1 : c * c + s * s = 1 := ha
    have h2 : c' * c' + s' * s' = 1 := hb
    simp only [Rep.dot, Rep.sameAxis]
    split
    · next hn =>
      have h3 : (c' * c - s' * s) * (c' * c - s' * s) + (s' * c + c' * s) * (s' * c + c' * s) = 1 := by
        linear_combination (c' * c' + s' * s') * h1 + h2
      have h4 := sin_zero h3 hn
      ext <;> simp only [Rep.rotate]
      · linear_combination (-p.x) * hn - p.y * h4
      · linear_combination p.x * h4 - p.y * hn
    · ext <;> simp only [Rep.rotate] <;> ring
  all_goals
    first
    | rfl
    | (ext <;> simp only [Rep.dot, Rep.rotate, Rep.genXY, Rep.genXZ, Rep.genYX, Rep.genYZ, Rep.genZX,
        Rep.genZY, M3.mul, declX, declY, declZ] <;> ring)

theorem sameAxis_ok {mk : K → K → Rep K} (hmk : ∀ c s, c * c + s * s = 1 → (mk c s).Ok) {c s c' s' : K}
    (h1 : c * c + s * s = 1) (h2 : c' * c' + s' * s' = 1) : (Rep.sameAxis mk c s c' s').Ok := by
  simp only [Rep.sameAxis]
  split
  · trivial
  · apply hmk
    linear_combination (c * c + s * s) * h2 + h1

omit [DecidableEq K] in
theorem gen_ok_of_comp {m : M3 K} {f g : V3 K → V3 K} (hf : IsRotation f) (hg : IsRotation g)
    (h : ∀ p, (Rep.gen m).rotate p = f (g p)) : (Rep.gen m).Ok := by
  have : Rep.rotate (.gen m) = fun p => f (g p) := funext h
  show IsRotation _
  rw [this]
  exact hf.comp hg

theorem dot_ok (a b : Rep K) (ha : a.Ok) (hb : b.Ok) : (a.dot b).Ok := by
  have hc := rotate_dot a b ha hb
  have hA := ha.isRotation
  have hB := hb.isRotation
  cases a <;> cases b
  case x.x => exact sameAxis_ok (mk := .x) (fun _ _ h => h) hb ha
  case y.y => exact sameAxis_ok (mk := .y) (fun _ _ h => h) hb ha
  case z.z => exact sameAxis_ok (mk := .z) (fun _ _ h => h) hb ha
  all_goals
    first
    | exact ha
    | exact hb
    | exact gen_ok_of_comp hA hB hc

/-! ## Inverse -/

omit [DecidableEq K] in
theorem inv_left (a : Rep K) (ha : a.Ok) (p : V3 K) : a.inv.rotate (a.rotate p) = p := by
  cases a with
  | ident => rfl
  | x c s =>
    have h : c * c + s * s = 1 := ha
    ext <;> simp only [Rep.inv, Rep.rotate]
    · linear_combination p.y * h
    · linear_combination p.z * h
  | y c s =>
    have h : c * c + s * s = 1 := ha
    ext <;> simp only [Rep.inv, Rep.rotate]
    · linear_combination p.x * h
    · linear_combination p.z * h
  | z c s =>
    have h : c * c + s * s = 1 := ha
    ext <;> simp only [Rep.inv, Rep.rotate]
    · linear_combination p.x * h
    · linear_combination p.y * h
  | gen m =>
    have h : IsRotation (Rep.rotate (.gen m)) := ha
    have e1 := h.dot ⟨1, 0, 0⟩ p
    have e2 := h.dot ⟨0, 1, 0⟩ p
    have e3 := h.dot ⟨0, 0, 1⟩ p
    simp only [Spec.dot, Rep.rotate] at e1 e2 e3
    ext <;> simp only [Rep.inv, Rep.rotate]
    · linear_combination e1
    · linear_combination e2
    · linear_combination e3

omit [DecidableEq K] in
/-- Entries of a rotation matrix equal their cofactors. -/
theorem cofactors {m : M3 K} (h : IsRotation (Rep.rotate (.gen m))) :
    (m.m00 = m.m11 * m.m22 - m.m12 * m.m21 ∧ m.m10 = m.m21 * m.m02 - m.m22 * m.m01 ∧
      m.m20 = m.m01 * m.m12 - m.m02 * m.m11) ∧
    (m.m01 = m.m12 * m.m20 - m.m10 * m.m22 ∧ m.m11 = m.m22 * m.m00 - m.m20 * m.m02 ∧
      m.m21 = m.m02 * m.m10 - m.m00 * m.m12) ∧
    (m.m02 = m.m10 * m.m21 - m.m11 * m.m20 ∧ m.m12 = m.m20 * m.m01 - m.m21 * m.m00 ∧
      m.m22 = m.m00 * m.m11 - m.m01 * m.m10) := by
  have e1 := h.cross ⟨0, 1, 0⟩ ⟨0, 0, 1⟩
  have e2 := h.cross ⟨0, 0, 1⟩ ⟨1, 0, 0⟩
  have e3 := h.cross ⟨1, 0, 0⟩ ⟨0, 1, 0⟩
  simp only [Spec.cross, Rep.rotate, V3.mk.injEq] at e1 e2 e3
  obtain ⟨a1, a2, a3⟩ := e1
  obtain ⟨b1, b2, b3⟩ := e2
  obtain ⟨c1, c2, c3⟩ := e3
  refine ⟨⟨?_, ?_, ?_⟩, ⟨?_, ?_, ?_⟩, ?_, ?_, ?_⟩
  · linear_combination a1
  · linear_combination a2
  · linear_combination a3
  · linear_combination b1
  · linear_combination b2
  · linear_combination b3
  · linear_combination c1
  · linear_combination c2
  · linear_combination c3

omit [DecidableEq K] in
theorem inv_right (a : Rep K) (ha : a.Ok) (p : V3 K) : a.rotate (a.inv.rotate p) = p := by
  cases a with
  | ident => rfl
  | x c s =>
    have h : c * c + s * s = 1 := ha
    ext <;> simp only [Rep.inv, Rep.rotate]
    · linear_combination p.y * h
    · linear_combination p.z * h
  | y c s =>
    have h : c * c + s * s = 1 := ha
    ext <;> simp only [Rep.inv, Rep.rotate]
    · linear_combination p.x * h
    · linear_combination p.z * h
  | z c s =>
    have h : c * c + s * s = 1 := ha
    ext <;> simp only [Rep.inv, Rep.rotate]
    · linear_combination p.x * h
    · linear_combination p.y * h
  | gen m =>
    have h : IsRotation (Rep.rotate (.gen m)) := ha
    obtain ⟨⟨x00, x10, x20⟩, ⟨x01, x11, x21⟩, ⟨x02, x12, x22⟩⟩ := cofactors h
    have d := h.dot ⟨1, 0, 0⟩ ⟨1, 0, 0⟩
    simp only [Spec.dot, Rep.rotate] at d
    have r00 : m.m00 * m.m00 + m.m01 * m.m01 + m.m02 * m.m02 = 1 := by
      linear_combination m.m00 * x00 + m.m01 * x01 + m.m02 * x02 - m.m00 * x00 - m.m10 * x10
        - m.m20 * x20 + d
    have r11 : m.m10 * m.m10 + m.m11 * m.m11 + m.m12 * m.m12 = 1 := by
      linear_combination m.m10 * x10 + m.m11 * x11 + m.m12 * x12 - m.m00 * x00 - m.m10 * x10
        - m.m20 * x20 + d
    have r22 : m.m20 * m.m20 + m.m21 * m.m21 + m.m22 * m.m22 = 1 := by
      linear_combination m.m20 * x20 + m.m21 * x21 + m.m22 * x22 - m.m00 * x00 - m.m10 * x10
        - m.m20 * x20 + d
    have r01 : m.m00 * m.m10 + m.m01 * m.m11 + m.m02 * m.m12 = 0 := by
      linear_combination m.m00 * x10 + m.m01 * x11 + m.m02 * x12
    have r02 : m.m00 * m.m20 + m.m01 * m.m21 + m.m02 * m.m22 = 0 := by
      linear_combination m.m00 * x20 + m.m01 * x21 + m.m02 * x22
    have r12 : m.m10 * m.m20 + m.m11 * m.m21 + m.m12 * m.m22 = 0 := by
      linear_combination m.m10 * x20 + m.m11 * x21 + m.m12 * x22
    ext <;> simp only [Rep.inv, Rep.rotate]
    · linear_combination p.x * r00 + p.y * r01 + p.z * r02
    · linear_combination p.x * r01 + p.y * r11 + p.z * r12
    · linear_combination p.x * r02 + p.y * r12 + p.z * r22

omit [DecidableEq K] in
theorem inv_ok (a : Rep K) (ha : a.Ok) : a.inv.Ok := by
  cases a with
  | ident => trivial
  | x c s => have h : c * c + s * s = 1 := ha; show c * c + -s * -s = 1; linear_combination h
  | y c s => have h : c * c + s * s = 1 := ha; show c * c + -s * -s = 1; linear_combination h
  | z c s => have h : c * c + s * s = 1 := ha; show c * c + -s * -s = 1; linear_combination h
  | gen m =>
    exact IsRotation.inverse (f := Rep.rotate (.gen m)) ha (inv_left (.gen m) ha)
      (inv_right (.gen m) ha)

/-! ## Half turns -/

omit [DecidableEq K] in
theorem halfX_rotation : IsRotation (halfX : V3 K → V3 K) := by
  refine ⟨fun p q => ?_, fun a p => ?_, fun p q => ?_, fun p q => ?_⟩
  · ext <;> simp only [halfX, Spec.add] <;> ring
  · ext <;> simp only [halfX, Spec.smul] <;> ring
  · simp only [halfX, Spec.dot]; ring
  · ext <;> simp only [halfX, Spec.cross] <;> ring

omit [DecidableEq K] in
theorem halfY_rotation : IsRotation (halfY : V3 K → V3 K) := by
  refine ⟨fun p q => ?_, fun a p => ?_, fun p q => ?_, fun p q => ?_⟩
  · ext <;> simp only [halfY, Spec.add] <;> ring
  · ext <;> simp only [halfY, Spec.smul] <;> ring
  · simp only [halfY, Spec.dot]; ring
  · ext <;> simp only [halfY, Spec.cross] <;> ring

omit [DecidableEq K] in
theorem halfZ_rotation : IsRotation (halfZ : V3 K → V3 K) := by
  refine ⟨fun p q => ?_, fun a p => ?_, fun p q => ?_, fun p q => ?_⟩
  · ext <;> simp only [halfZ, Spec.add] <;> ring
  · ext <;> simp only [halfZ, Spec.smul] <;> ring
  · simp only [halfZ, Spec.dot]; ring
  · ext <;> simp only [halfZ, Spec.cross] <;> ring

omit [DecidableEq K] in
theorem rotXbyPI_conj (a : Rep K) (p : V3 K) :
    a.rotXbyPI.rotate p = halfX (a.rotate (halfX p)) := by
  cases a <;> ext <;> simp only [Rep.rotXbyPI, Rep.rotate, halfX] <;> ring

omit [DecidableEq K] in
theorem rotYbyPI_conj (a : Rep K) (p : V3 K) :
    a.rotYbyPI.rotate p = halfY (a.rotate (halfY p)) := by
  cases a <;> ext <;> simp only [Rep.rotYbyPI, Rep.rotate, halfY] <;> ring

omit [DecidableEq K] in
theorem rotZbyPI_conj (a : Rep K) (p : V3 K) :
    a.rotZbyPI.rotate p = halfZ (a.rotate (halfZ p)) := by
  cases a <;> ext <;> simp only [Rep.rotZbyPI, Rep.rotate, halfZ] <;> ring

omit [DecidableEq K] in
theorem rotXbyPI_ok (a : Rep K) (ha : a.Ok) : a.rotXbyPI.Ok := by
  cases a with
  | ident => trivial
  | x c s => exact ha
  | y c s => exact inv_ok (.y c s) ha
  | z c s => exact inv_ok (.z c s) ha
  | gen m =>
    exact gen_ok_of_comp halfX_rotation (ha.isRotation.comp halfX_rotation)
      (rotXbyPI_conj (.gen m))

omit [DecidableEq K] in
theorem rotYbyPI_ok (a : Rep K) (ha : a.Ok) : a.rotYbyPI.Ok := by
  cases a with
  | ident => trivial
  | x c s => exact inv_ok (.x c s) ha
  | y c s => exact ha
  | z c s => exact inv_ok (.z c s) ha
  | gen m =>
    exact gen_ok_of_comp halfY_rotation (ha.isRotation.comp halfY_rotation)
      (rotYbyPI_conj (.gen m))

omit [DecidableEq K] in
theorem rotZbyPI_ok (a : Rep K) (ha : a.Ok) : a.rotZbyPI.Ok := by
  cases a with
  | ident => trivial
  | x c s => exact inv_ok (.x c s) ha
  | y c s => exact inv_ok (.y c s) ha
  | z c s => exact ha
  | gen m =>
    exact gen_ok_of_comp halfZ_rotation (ha.isRotation.comp halfZ_rotation)
      (rotZbyPI_conj (.gen m))

/-! ## Expressions -/

/-- The assumptions on the C library functions. -/
structure Trig (cos sin : K → K) : Prop where
  pyth : ∀ a, cos a * cos a + sin a * sin a = 1
  cos0 : cos 0 = 1
  sin0 : sin 0 = 0

theorem eval_ok {cos sin : K → K} (ht : Trig cos sin) (e : Expr K) : (e.eval cos sin).Ok := by
  induction e with
  | identity => trivial
  | rotationX a => simp only [Expr.eval, rotationX]; split; trivial; exact ht.pyth a
  | rotationY a => simp only [Expr.eval, rotationY]; split; trivial; exact ht.pyth a
  | rotationZ a => simp only [Expr.eval, rotationZ]; split; trivial; exact ht.pyth a
  | mul e f he hf => exact dot_ok _ _ he hf
  | inv e he => exact inv_ok _ he
  | xPI e he => exact rotXbyPI_ok _ he
  | yPI e he => exact rotYbyPI_ok _ he
  | zPI e he => exact rotZbyPI_ok _ he

end Verif.Rotation
