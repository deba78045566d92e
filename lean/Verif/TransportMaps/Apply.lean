import Verif.TransportMaps.Jets

/-!
# The action of a map in closed form
-/

namespace Verif.TransportMaps
open Verif Verif.Symplectic Verif.TransportMaps.Spec Real

/-- Sum of the linear terms of one row. -/
noncomputable def linSum (x : Nat → ℝ) (i : Nat) : LinMap.Map ℝ → ℝ
  | [] => 0
  | t :: m => (if t.i = i then t.val * x t.j else 0) + linSum x i m

/-- Sum of the second order terms of one row. -/
noncomputable def quadSum (x : Nat → ℝ) (i : Nat) : List (LinMap.Tijk ℝ) → ℝ
  | [] => 0
  | t :: m => (if t.i = i then t.val * (x t.j * x t.k) else 0) + quadSum x i m

/-- All indices lie within the vector. -/
def Inside (m : RT) : Prop := (∀ t ∈ m.r, t.i < 6 ∧ t.j < 6) ∧ ∀ t ∈ m.t, t.i < 6 ∧ t.j < 6 ∧ t.k < 6

theorem applyLoop_eq (x : Nat → ℝ) : ∀ (m : LinMap.Map ℝ) (y : Nat → ℝ), (∀ t ∈ m, t.i < 6 ∧ t.j < 6) →
    LinMap.applyLoop x m y = .ok fun i => y i + linSum x i m := by
  intro m
  induction m with
  | nil => intro y _; simp [LinMap.applyLoop, linSum]
  | cons t m ih =>
    intro y h
    rw [LinMap.applyLoop, LinMap.applyTerm, if_pos (h t (by simp)), Outcome.bind, ih _ fun u hu => h u (by simp [hu])]
    refine congrArg Outcome.ok (funext fun i => ?_)
    rw [linSum, LinMap.upd]
    by_cases hi : t.i = i
    · subst hi; rw [if_pos rfl, if_pos rfl]; ring
    · rw [if_neg (Ne.symm hi), if_neg hi]; ring

theorem applyT_eq (x : Nat → ℝ) : ∀ (m : List (LinMap.Tijk ℝ)) (y : Nat → ℝ), (∀ t ∈ m, t.i < 6 ∧ t.j < 6 ∧ t.k < 6) →
    LinMap.applyT x m y = .ok fun i => y i + quadSum x i m := by
  intro m
  induction m with
  | nil => intro y _; simp [LinMap.applyT, quadSum]
  | cons t m ih =>
    intro y h
    rw [LinMap.applyT, if_pos (h t (by simp)), ih _ fun u hu => h u (by simp [hu])]
    refine congrArg Outcome.ok (funext fun i => ?_)
    rw [quadSum, LinMap.upd]
    by_cases hi : t.i = i
    · subst hi; rw [if_pos rfl, if_pos rfl]; ring
    · rw [if_neg (Ne.symm hi), if_neg hi]; ring

/-- The action of a map: a linear and a quadratic part. -/
noncomputable def act (m : RT) (v : PS) : PS := ofVec fun i => linSum (toVec v) i m.r + quadSum (toVec v) i m.t

theorem applyMap_eq (m : RT) (h : Inside m) (v : PS) : applyMap m v = .ok (act m v) := by
  unfold applyMap LinMap.applyRT
  rw [applyLoop_eq _ _ _ h.1, Outcome.bind, applyT_eq _ _ _ h.2, Outcome.bind, Outcome.bind]
  refine congrArg Outcome.ok ?_
  simp only [act, zero_add]

@[simp] theorem toVec_scale (e : ℝ) (v : PS) (i : Nat) : toVec (scale e v) i = e * toVec v i := by
  unfold toVec; split <;> simp [scale]

theorem linSum_scale (e : ℝ) (v : PS) (i : Nat) (m : LinMap.Map ℝ) :
    linSum (toVec (scale e v)) i m = e * linSum (toVec v) i m := by
  induction m with
  | nil => simp [linSum]
  | cons t m ih => rw [linSum, linSum, ih, toVec_scale]; split <;> ring

theorem quadSum_scale (e : ℝ) (v : PS) (i : Nat) (m : List (LinMap.Tijk ℝ)) :
    quadSum (toVec (scale e v)) i m = e ^ 2 * quadSum (toVec v) i m := by
  induction m with
  | nil => simp [quadSum]
  | cons t m ih => rw [quadSum, quadSum, ih, toVec_scale, toVec_scale]; split <;> ring

/-- Linear part of the action. -/
noncomputable def lin (m : RT) (v : PS) : PS := ofVec fun i => linSum (toVec v) i m.r

/-- Quadratic part of the action. -/
noncomputable def quad (m : RT) (v : PS) : PS := ofVec fun i => quadSum (toVec v) i m.t

/-- Linear combination of two vectors. -/
def comb (e : ℝ) (a b : PS) : PS :=
  ⟨a.x * e + b.x * e ^ 2, a.px * e + b.px * e ^ 2, a.y * e + b.y * e ^ 2, a.py * e + b.py * e ^ 2,
    a.ct * e + b.ct * e ^ 2, a.dp * e + b.dp * e ^ 2⟩

theorem act_scale (m : RT) (e : ℝ) (v : PS) : act m (scale e v) = comb e (lin m v) (quad m v) := by
  simp only [act, linSum_scale, quadSum_scale, comb, lin, quad, ofVec]
  congr 1 <;> ring

/-- A map of second order, the linear and quadratic parts of which have known derivatives. -/
theorem comb_der {a b : ℝ → PS} {a' b' : PS} {s : ℝ} (ha : Symplectic.Spec.Der a a' s) (hb : Symplectic.Spec.Der b b' s)
    (e : ℝ) : Symplectic.Spec.Der (fun s => comb e (a s) (b s)) (comb e a' b') s := by
  obtain ⟨h1, h2, h3, h4, h5, h6⟩ := ha
  obtain ⟨g1, g2, g3, g4, g5, g6⟩ := hb
  exact ⟨(h1.mul_const e).add (g1.mul_const _), (h2.mul_const e).add (g2.mul_const _),
    (h3.mul_const e).add (g3.mul_const _), (h4.mul_const e).add (g4.mul_const _),
    (h5.mul_const e).add (g5.mul_const _), (h6.mul_const e).add (g6.mul_const _)⟩

/-- The Lorentz equations to second order: linear part. -/
noncomputable def lorLin (h k1 : ℝ) (a : PS) : PS :=
  ⟨a.px, -((h * h + k1) * a.x) + h * a.dp, a.py, k1 * a.y, -(h * a.x), 0⟩

/-- The Lorentz equations to second order: quadratic part. -/
noncomputable def lorQuad (h k1 k2 : ℝ) (a : PS) : PS :=
  ⟨h * (a.x * a.px), -(h * (a.px ^ 2 + a.py ^ 2) / 2) - (k2 + h * k1) * a.x ^ 2 + (h * k1 + 2 * k2) / 2 * a.y ^ 2 +
      (h * h + k1) * (a.x * a.dp) - h * a.dp ^ 2, h * (a.x * a.py),
    (2 * k2 + h * k1) * (a.x * a.y) - k1 * (a.y * a.dp), -((a.px ^ 2 + a.py ^ 2) / 2), 0⟩

/-- Sum of two vectors. -/
def addPS (a b : PS) : PS := ⟨a.x + b.x, a.px + b.px, a.y + b.y, a.py + b.py, a.ct + b.ct, a.dp + b.dp⟩

theorem jet_comb (a b : ℝ) : Jet (fun e => a * e + b * e ^ 2) 0 a b := jet_quad a b

/-- The expansion of the Lorentz equations along `comb`. -/
theorem lorentz_jets (h k1 k2 : ℝ) (a b : PS) :
    let V := fun e => lorentz h (bxField k1 k2) (byField h k1 k2) (comb e a b)
    let A := lorLin h k1 a
    let B := addPS (lorLin h k1 b) (lorQuad h k1 k2 a)
    Jet (fun e => (V e).x) 0 A.x B.x ∧ Jet (fun e => (V e).px) 0 A.px B.px ∧ Jet (fun e => (V e).y) 0 A.y B.y ∧
    Jet (fun e => (V e).py) 0 A.py B.py ∧ Jet (fun e => (V e).ct) 0 A.ct B.ct ∧ Jet (fun e => (V e).dp) 0 A.dp B.dp := by
  have jx := jet_quad a.x b.x
  have ju := jet_quad a.px b.px
  have jy := jet_quad a.y b.y
  have jv := jet_quad a.py b.py
  have jd := jet_quad a.dp b.dp
  have j1 := jet_const 1
  have jg := j1.add ((jet_const h).mul jx)
  have jr0 := (j1.add ju.pow_two).add jv.pow_two
  have jr := (jr0.congr (a' := 1) (by ring) rfl rfl).sqrt
  have jp := ((j1.add jd).congr (a' := 1) (by ring) rfl rfl).div jr
  have jgp := (jg.congr (a' := 1) (by ring) rfl rfl).div jp
  have jby := (((jet_const h).add ((jet_const k1).mul jx)).add ((jet_const k2).mul jx.pow_two)).sub
    ((jet_const ((h * k1 + 2 * k2) / 2)).mul jy.pow_two)
  have jbx := ((jet_const k1).mul jy).add ((jet_const (2 * k2)).mul (jx.mul jy))
  refine ⟨(jg.mul ju).congr ?_ ?_ ?_, (((jet_const h).mul (j1.add ju.pow_two)).sub
    (jgp.mul ((jby.mul (j1.add ju.pow_two)).sub ((ju.mul jv).mul jbx)))).congr ?_ ?_ ?_, (jg.mul jv).congr ?_ ?_ ?_,
    (((jet_const h).mul (ju.mul jv)).add
    (jgp.mul ((jbx.mul (j1.add jv.pow_two)).sub ((ju.mul jv).mul jby)))).congr ?_ ?_ ?_,
    (j1.sub (jg.mul jr)).congr ?_ ?_ ?_, (jet_const 0).congr rfl rfl (add_zero (0 : ℝ)).symm⟩ <;>
  · try simp only [lorLin, lorQuad, addPS]
    ring

/-- A family of maps follows the Lorentz equations if its parts have the right derivatives. -/
theorem follows_lorentz (h k1 k2 : ℝ) (z : PS) (F : ℝ → PS → Outcome Unit PS) (m : ℝ → RT)
    (hF : ∀ s v, F s v = .ok (act (m s) v)) (h0 : ∀ v, act (m 0) v = v)
    (hl : ∀ s, Symplectic.Spec.Der (fun s => lin (m s) z) (lorLin h k1 (lin (m s) z)) s)
    (hq : ∀ s, Symplectic.Spec.Der (fun s => quad (m s) z)
      (addPS (lorLin h k1 (quad (m s) z)) (lorQuad h k1 k2 (lin (m s) z))) s) :
    Follows (lorentz h (bxField k1 k2) (byField h k1 k2)) F z := by
  refine ⟨fun s e => comb e (lin (m s) z) (quad (m s) z), fun s e => ?_, fun e => ?_, fun s =>
    ⟨fun e => comb e (lorLin h k1 (lin (m s) z))
      (addPS (lorLin h k1 (quad (m s) z)) (lorQuad h k1 k2 (lin (m s) z))), fun e => comb_der (hl s) (hq s) e, ?_⟩⟩
  · rw [hF, act_scale]
  · show comb e _ _ = _
    rw [← act_scale, h0]
  · obtain ⟨h1, h2, h3, h4, h5, h6⟩ := lorentz_jets h k1 k2 (lin (m s) z) (quad (m s) z)
    exact ⟨(((jet_quad _ _).sub h1).congr (by ring) (sub_self _) (sub_self _)).third,
      (((jet_quad _ _).sub h2).congr (by ring) (sub_self _) (sub_self _)).third,
      (((jet_quad _ _).sub h3).congr (by ring) (sub_self _) (sub_self _)).third,
      (((jet_quad _ _).sub h4).congr (by ring) (sub_self _) (sub_self _)).third,
      (((jet_quad _ _).sub h5).congr (by ring) (sub_self _) (sub_self _)).third,
      (((jet_quad _ _).sub h6).congr (by ring) (sub_self _) (sub_self _)).third⟩

end Verif.TransportMaps
