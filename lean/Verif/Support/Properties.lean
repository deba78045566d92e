import Mathlib.Analysis.SpecialFunctions.Trigonometric.Deriv
import Mathlib.Algebra.Order.Ring.Rat
import Mathlib.Algebra.Field.Rat
import Verif.Support.Spec
import Verif.Transform.Properties

/-!
# Properties of support structures
-/

set_option linter.unusedSectionVars false

namespace Verif.Support
open Verif Verif.Rotation Verif.Transform Verif.Support.Spec

variable {K : Type} [Field K] [LinearOrder K] [IsStrictOrderedRing K]

theorem run_cons {f : Fixed K} {s s' : Structure K} {op : Op K} {q : List (T3 K)} {l : List (Op K)} {r : List (T3 K)}
    (h : step f s op = .ok (s', q)) (h' : run f s' l = .ok r) : run f s (op :: l) = .ok (q ++ r) := by
  simp [run, h, h', Outcome.bind]

theorem rotate_zero (r : Rep K) : r.rotate ⟨0, 0, 0⟩ = ⟨0, 0, 0⟩ := by
  cases r <;> simp [Rep.rotate]

/-! ## C121 -/

/-- A simple mount: whatever is done with its support, the frame moves by the offset of the support at the time. -/
theorem simple_mount (f : Fixed K) (rg : Rep K) (l : List (Op K)) :
    run f { (new false : Structure K) with rg := rg } l =
      .ok (seen (fun o _ => T3.translation (rg.rotate o).x (rg.rotate o).y (rg.rotate o).z) (⟨0, 0, 0⟩, ⟨0, 0, 0⟩) l) := by
  have key : ∀ (l : List (Op K)) (s : Structure K) (o2 : V3 K), s.sup2 = .null → s.rg = rg →
      (s.sup1.modified = false → s.ts = T3.translation (rg.rotate s.sup1.offset).x (rg.rotate s.sup1.offset).y
        (rg.rotate s.sup1.offset).z) →
      run f s l = .ok (seen (fun o _ => T3.translation (rg.rotate o).x (rg.rotate o).y (rg.rotate o).z)
        (s.sup1.offset, o2) l) := by
    intro l
    induction l with
    | nil => exact fun _ _ _ _ _ => rfl
    | cons op l ih =>
      intro s o2 h2 hr hts
      cases op with
      | set1 v => exact run_cons (s := s) (op := .set1 v) (q := []) rfl (ih { s with sup1 := s.sup1.set v } o2 h2 hr (by simp [Sup.set]))
      | inc1 v => exact run_cons (s := s) (op := .inc1 v) (q := []) rfl (ih { s with sup1 := s.sup1.increment v } o2 h2 hr (by simp [Sup.increment]))
      | reset1 => exact run_cons (s := s) (op := .reset1) (q := []) rfl (ih { s with sup1 := s.sup1.reset } o2 h2 hr (by simp [Sup.reset]))
      | set2 v => exact run_cons (s := s) (op := .set2 v) (q := []) rfl (ih { s with sup2 := s.sup2.map (·.set v) } v (by simp only [h2]; rfl) hr hts)
      | inc2 v =>
        exact run_cons (s := s) (op := .inc2 v) (q := []) rfl (ih { s with sup2 := s.sup2.map (·.increment v) } (vadd o2 v) (by simp only [h2]; rfl) hr hts)
      | reset2 =>
        exact run_cons (s := s) (op := .reset2) (q := []) rfl (ih { s with sup2 := s.sup2.map (·.reset) } ⟨0, 0, 0⟩ (by simp only [h2]; rfl) hr hts)
      | look =>
        cases hm : s.sup1.modified with
        | false =>
          have h := run_cons (op := .look) (q := [s.ts]) (f := f) (s := s) (by simp [step, update, h2, hm, Outcome.bind])
            (ih s o2 h2 hr hts)
          rw [h, hts hm]
          rfl
        | true =>
          have h := run_cons (op := .look) (q := [simpleTransform s.rg s.sup1.offset]) (f := f) (s := s)
            (s' := { s with ts := simpleTransform s.rg s.sup1.offset, sup1 := { s.sup1 with modified := false } })
            (by simp [step, update, h2, hm, Outcome.bind])
            (ih _ o2 h2 hr (fun _ => by simp [simpleTransform, hr]))
          rw [h]
          simp [seen, simpleTransform, hr]
  rw [key l _ ⟨0, 0, 0⟩ rfl rfl]
  · rfl
  · intro _
    show T3.ident = T3.translation (rg.rotate ⟨0, 0, 0⟩).x (rg.rotate ⟨0, 0, 0⟩).y (rg.rotate ⟨0, 0, 0⟩).z
    rw [rotate_zero]
    rfl

/-- A girder follows its supports as long as both are moved together between looks.  Missing: a girder of which only one
support was moved (`girder_violated`). -/
theorem girder_partial (f : Fixed K) (heps : 0 ≤ f.eps) (rg : Rep K)
    (l : List (Op K)) (hl : Together (false, false) l) :
    run f { (new true : Structure K) with rg := rg } l =
      .ok (seen (girderTransform f rg) (⟨0, 0, 0⟩, ⟨0, 0, 0⟩) l) := by
  have key : ∀ (l : List (Op K)) (s : Structure K) (s2 : Sup K), s.sup2 = .sup s2 → s.rg = rg →
      Together (s.sup1.modified, s2.modified) l →
      (s.sup1.modified = false → s2.modified = false → s.ts = girderTransform f rg s.sup1.offset s2.offset) →
      run f s l = .ok (seen (girderTransform f rg) (s.sup1.offset, s2.offset) l) := by
    intro l
    induction l with
    | nil => exact fun _ _ _ _ _ _ => rfl
    | cons op l ih =>
      intro s s2 h2 hr ht hts
      cases op with
      | set1 v =>
        exact run_cons (s := s) (op := .set1 v) (q := []) rfl (ih { s with sup1 := s.sup1.set v } s2 h2 hr
          (by simpa [Together, touches, Sup.set] using ht) (by simp [Sup.set]))
      | inc1 v =>
        exact run_cons (s := s) (op := .inc1 v) (q := []) rfl (ih { s with sup1 := s.sup1.increment v } s2 h2 hr
          (by simpa [Together, touches, Sup.increment] using ht) (by simp [Sup.increment]))
      | reset1 =>
        exact run_cons (s := s) (op := .reset1) (q := []) rfl (ih { s with sup1 := s.sup1.reset } s2 h2 hr
          (by simpa [Together, touches, Sup.reset] using ht) (by simp [Sup.reset]))
      | set2 v =>
        exact run_cons (s := s) (op := .set2 v) (q := []) rfl (ih { s with sup2 := s.sup2.map (·.set v) } (s2.set v) (by simp only [h2]; rfl) hr
          (by simpa [Together, touches, Sup.set] using ht) (by simp [Sup.set]))
      | inc2 v =>
        exact run_cons (s := s) (op := .inc2 v) (q := []) rfl (ih { s with sup2 := s.sup2.map (·.increment v) } (s2.increment v) (by simp only [h2]; rfl) hr
          (by simpa [Together, touches, Sup.increment] using ht) (by simp [Sup.increment]))
      | reset2 =>
        exact run_cons (s := s) (op := .reset2) (q := []) rfl (ih { s with sup2 := s.sup2.map (·.reset) } s2.reset (by simp only [h2]; rfl) hr
          (by simpa [Together, touches, Sup.reset] using ht) (by simp [Sup.reset]))
      | look =>
        obtain ⟨hm, ht⟩ := ht
        simp only at hm
        cases hm1 : s.sup1.modified with
        | false =>
          rw [hm1] at hm
          have h := run_cons (op := .look) (q := [s.ts]) (f := f) (s := s) (by simp [step, update, h2, hm1, Outcome.bind])
            (ih s s2 h2 hr (by rw [hm1, ← hm]; exact ht) hts)
          rw [h, hts hm1 hm.symm]
          rfl
        | true =>
          rw [hm1] at hm
          have h := run_cons (op := .look) (q := [girderTransform f s.rg s.sup1.offset s2.offset]) (f := f) (s := s)
            (s' := { s with ts := girderTransform f s.rg s.sup1.offset s2.offset,
                            sup1 := { s.sup1 with modified := false }, sup2 := .sup { s2 with modified := false } })
            (by simp [step, update, h2, hm1, ← hm, Outcome.bind])
            (ih _ { s2 with modified := false } rfl hr ht (fun _ _ => by simp [hr]))
          rw [h]
          simp [seen, hr]
  rw [key l { (new true : Structure K) with rg := rg } .new rfl rfl hl]
  · rfl
  · intro _ _
    show T3.ident = girderTransform f rg ⟨0, 0, 0⟩ ⟨0, 0, 0⟩
    unfold girderTransform
    rw [rotate_zero]
    simp [eq3, fequal, heps]
    rfl

example : Together (false, false)
    [.set1 (⟨1, 0, 0⟩ : V3 ℚ), .set2 ⟨1, 0, 0⟩, .look, .look, .inc2 ⟨0, 1, 0⟩, .reset1, .look] := by
  simp [Together, touches]

/-- A straight girder of length 2 with its origin in the centre. -/
def straight2 : Fixed ℚ := ⟨T3.translation 0 0 (-1), 2, 0, fun _ => 1, fun x => x⟩

/-- Moving one support of a girder has no effect until the other one is touched as well. -/
theorem girder_violated :
    (∀ (f : Fixed K) (v : V3 K), run f (new true) [.set1 v, .look] = .ok [T3.ident] ∧
      run f (new true) [.set2 v, .look] = .ok [T3.ident]) ∧
    (girderTransform straight2 .ident ⟨1, 0, 0⟩ ⟨0, 0, 0⟩).point ⟨0, 0, -1⟩ ≠ T3.ident.point ⟨0, 0, -1⟩ := by
  refine ⟨fun f v => ⟨rfl, rfl⟩, ?_⟩
  decide +kernel

/-- The copy of a structure stands on fresh supports; the copy of a simple mount has an uninitialised pointer to a second
support, which is followed as soon as the first one has been moved. -/
theorem copy_violated (f : Fixed K) (v : V3 K) : run f (copy (new false)) [.set1 v, .look] = .ub := rfl

/-- The copy of a girder begins with supports that are not displaced. -/
theorem copy_girder (f : Fixed K) (heps : 0 ≤ f.eps) (s : Structure K) (s2 : Sup K) (h : s.sup2 = .sup s2)
    (l : List (Op K)) (hl : Together (false, false) l) :
    run f (copy s) l = .ok (seen (girderTransform f .ident) (⟨0, 0, 0⟩, ⟨0, 0, 0⟩) l) := by
  have e : copy s = { (new true : Structure K) with rg := .ident } := by
    unfold copy
    rw [h]
    rfl
  rw [e]
  exact girder_partial f heps .ident l hl

/-! ## C122 -/

/-- A straight girder of length `len` with its origin in the centre. -/
noncomputable def straight (len : ℝ) : Fixed ℝ := ⟨T3.translation 0 0 (-(len / 2)), len, 0, Real.cos, Real.sin⟩

theorem trig_reachable (f : Fixed K) (x : V3 K) (a b : K) :
    Reachable f.cos f.sin ⟨x, (rotationX f.cos f.sin a).dot (rotationY f.cos f.sin b)⟩ :=
  .make x (.mul (.rotationX a) (.rotationY b))

/-- The entrance of the girder follows the first support exactly: the point that was displaced from the entrance by the
offset of the first support, seen in the entrance frame, is the entrance of the displaced girder. -/
theorem girder_entrance (f : Fixed K) (ht : Trig f.cos f.sin) (htin : Reachable f.cos f.sin f.tin) (rg : Rep K)
    (o1 o2 : V3 K) (hne : eq3 f.eps (rg.rotate o1) (rg.rotate o2) = false) :
    (girderTransform f rg o1 o2).point (f.tin.inv.point (rg.rotate o1)) = f.tin.inv.point ⟨0, 0, 0⟩ := by
  have hr := trig_reachable f (rg.rotate o1) (-(vsub (rg.rotate o2) (rg.rotate o1)).y / f.dist)
    ((vsub (rg.rotate o2) (rg.rotate o1)).x / f.dist)
  unfold girderTransform
  simp only [hne, Bool.false_eq_true, if_false]
  rw [(transform_compose ht (.mul (.inv htin) hr) htin _).1, (transform_compose ht (.inv htin) hr _).1,
    (transform_inverse ht htin _).2.1]
  congr 1
  have e : vsub (rg.rotate o1) (rg.rotate o1) = ⟨0, 0, 0⟩ := by simp [vsub]
  simp only [T3.point, e]
  exact rotate_zero _

example : Reachable Real.cos Real.sin (straight 2).tin ∧ Trig (straight 2).cos (straight 2).sin ∧
    eq3 (straight 2).eps (Rep.rotate .ident ⟨1, 0, 0⟩) (Rep.rotate .ident ⟨0, 0, 0⟩) = false :=
  ⟨.translation _ _ _, real_trig, by simp [eq3, fequal, Rep.rotate, straight]⟩

/-- When both supports move alike, a girder whose entrance is not turned against its origin moves by that offset. -/
theorem girder_common_partial (f : Fixed K) (rg : Rep K) (o1 o2 : V3 K) (a b c : K)
    (htin : f.tin = T3.translation a b c) (heq : eq3 f.eps (rg.rotate o1) (rg.rotate o2) = true) (p : V3 K) :
    (girderTransform f rg o1 o2).point (f.tin.inv.point (vadd (rg.rotate o1) p)) = f.tin.inv.point p := by
  unfold girderTransform
  simp only [heq, if_true, htin]
  ext <;> simp only [T3.translation, T3.inv, T3.point, Rep.rotate, Rep.inv, vsub, vadd, vneg] <;> ring

/-- A bent girder does not: the offset, seen in the entrance frame, is applied in the frame of the origin.  Here the entrance
frame is turned by a quarter. -/
theorem girder_common_violated : ∃ f : Fixed ℚ, Reachable f.cos f.sin f.tin ∧ Trig f.cos f.sin ∧
    ∃ o : V3 ℚ, (girderTransform f .ident o o).point (f.tin.inv.point (Rep.rotate .ident o)) ≠ f.tin.inv.point ⟨0, 0, 0⟩ := by
  refine ⟨⟨⟨⟨0, 0, -1⟩, rotationY (fun x => if x = 0 then 1 else 0) (fun x => if x = 0 then 0 else if 0 < x then 1 else -1) 1⟩,
    2, 0, fun x => if x = 0 then 1 else 0, fun x => if x = 0 then 0 else if 0 < x then 1 else -1⟩,
    .make _ (.rotationY 1), ?_, ⟨1, 0, 0⟩, ?_⟩
  · refine ⟨fun a => ?_, by simp, by simp⟩
    by_cases h : a = 0
    · simp [h]
    · by_cases h1 : 0 < a <;> simp [h, h1]
  · decide +kernel

/-! ### First order -/

theorem ident_rotate (p : V3 ℝ) : Rep.rotate .ident p = p := rfl

theorem rotX_rotate (a : ℝ) (p : V3 ℝ) : (rotationX Real.cos Real.sin a).rotate p =
    ⟨p.x, p.y * Real.cos a + p.z * Real.sin a, -p.y * Real.sin a + p.z * Real.cos a⟩ := by
  unfold rotationX
  split
  · next h => subst h; simp [Rep.rotate]
  · rfl

theorem rotY_rotate (a : ℝ) (p : V3 ℝ) : (rotationY Real.cos Real.sin a).rotate p =
    ⟨p.x * Real.cos a - p.z * Real.sin a, p.y, p.z * Real.cos a + p.x * Real.sin a⟩ := by
  unfold rotationY
  split
  · next h => subst h; simp [Rep.rotate]
  · rfl

/-- The exit of a straight girder follows the second support to first order in the offsets; along the girder it follows the
first support (the girder is not stretched). -/
theorem girder_exit (len : ℝ) (hlen : 0 < len) (x1 x2 : V3 ℝ) : ∃ q : ℝ → V3 ℝ,
    (∀ t, (girderTransform (straight len) .ident ⟨t * x1.x, t * x1.y, t * x1.z⟩ ⟨t * x2.x, t * x2.y, t * x2.z⟩).point (q t) =
      ⟨0, 0, len / 2⟩) ∧
    q 0 = ⟨0, 0, len / 2⟩ ∧ HasDerivAt (fun t => (q t).x) x2.x 0 ∧ HasDerivAt (fun t => (q t).y) x2.y 0 ∧
    HasDerivAt (fun t => (q t).z) x1.z 0 := by
  have ha : HasDerivAt (fun t : ℝ => (t * x2.x - t * x1.x) / len) ((1 * x2.x - 1 * x1.x) / len) 0 :=
    (((hasDerivAt_id (0 : ℝ)).mul_const x2.x).sub ((hasDerivAt_id (0 : ℝ)).mul_const x1.x)).div_const len
  have hb : HasDerivAt (fun t : ℝ => -(t * x2.y - t * x1.y) / len) (-(1 * x2.y - 1 * x1.y) / len) 0 :=
    (((hasDerivAt_id (0 : ℝ)).mul_const x2.y).sub ((hasDerivAt_id (0 : ℝ)).mul_const x1.y)).neg.div_const len
  refine ⟨fun t => ⟨t * x1.x + len * (Real.cos (-(t * x2.y - t * x1.y) / len) * Real.sin ((t * x2.x - t * x1.x) / len)),
    t * x1.y - len * Real.sin (-(t * x2.y - t * x1.y) / len),
    t * x1.z + len * (Real.cos (-(t * x2.y - t * x1.y) / len) * Real.cos ((t * x2.x - t * x1.x) / len)) - len / 2⟩,
    ?_, ?_, ?_, ?_, ?_⟩
  · intro t
    have htin : Reachable Real.cos Real.sin (straight len).tin := .translation _ _ _
    unfold girderTransform
    by_cases hne : eq3 (straight len).eps (Rep.rotate .ident ⟨t * x1.x, t * x1.y, t * x1.z⟩)
      (Rep.rotate .ident ⟨t * x2.x, t * x2.y, t * x2.z⟩) = true
    · simp only [hne, if_true]
      simp only [eq3, fequal, Rep.rotate, straight, Bool.and_eq_true, decide_eq_true_eq, abs_nonpos_iff, sub_eq_zero] at hne
      obtain ⟨⟨h1, h2⟩, h3⟩ := hne
      ext <;> simp [T3.translation, T3.point, Rep.rotate, vsub, h1, h2]
      ring
    · rw [Bool.not_eq_true] at hne
      simp only [hne, Bool.false_eq_true, if_false]
      have hr := trig_reachable (straight len) (Rep.rotate .ident ⟨t * x1.x, t * x1.y, t * x1.z⟩)
        (-(vsub (Rep.rotate .ident ⟨t * x2.x, t * x2.y, t * x2.z⟩)
          (Rep.rotate .ident ⟨t * x1.x, t * x1.y, t * x1.z⟩)).y / (straight len).dist)
        ((vsub (Rep.rotate .ident ⟨t * x2.x, t * x2.y, t * x2.z⟩)
          (Rep.rotate .ident ⟨t * x1.x, t * x1.y, t * x1.z⟩)).x / (straight len).dist)
      have ht : Trig (straight len).cos (straight len).sin := real_trig
      rw [(transform_compose ht (.mul (.inv htin) hr) htin _).1, (transform_compose ht (.inv htin) hr _).1]
      simp only [straight, T3.translation, T3.inv, T3.point, ident_rotate, Rep.inv, vsub, vneg]
      generalize -(t * x2.y - t * x1.y) / len = a
      generalize (t * x2.x - t * x1.x) / len = b
      rw [rotate_dot (rotationX Real.cos Real.sin a) (rotationY Real.cos Real.sin b) (eval_ok real_trig (.rotationX a))
        (eval_ok real_trig (.rotationY b)), rotY_rotate, rotX_rotate]
      have ha := Real.sin_sq_add_cos_sq a
      have hb := Real.sin_sq_add_cos_sq b
      ext
      · simp only
        ring
      · simp only
        linear_combination (len * Real.cos a * Real.sin a) * hb
      · simp only
        linear_combination (len * Real.cos a ^ 2) * hb + len * ha
  · simp
    ring
  · have h := (((hasDerivAt_id (0 : ℝ)).mul_const x1.x).add
      (((((hb.cos).mul (ha.sin))).const_mul len)))
    refine h.congr_deriv ?_
    simp
    field_simp
    ring
  · have h := (((hasDerivAt_id (0 : ℝ)).mul_const x1.y).sub ((hb.sin).const_mul len))
    refine h.congr_deriv ?_
    simp
    field_simp
    ring
  · have h := (((hasDerivAt_id (0 : ℝ)).mul_const x1.z).add
      ((((hb.cos).mul (ha.cos))).const_mul len)).sub_const (len / 2)
    refine h.congr_deriv ?_
    simp

end Verif.Support
