import Verif.LinMap.Properties
import Verif.SMPMaps.Model
import Verif.SMPMaps.Spec
import Verif.Transport.Properties

/-!
# Linear maps of slices and clouds
-/

namespace Verif.SMPMaps
open Verif Real Verif.Multipole Verif.LinMap Verif.LinMap.Spec Verif.Slices Verif.Slices.Spec Verif.Transport
  Verif.SMPMaps.Spec

noncomputable section

/-! ## Clouds -/

theorem total_moved (f : Pt → Pt) (l : Cloud ℝ) : total (moved f l) = total l := by
  simp [total, moved, Function.comp_def]

theorem moved_moved (f g : Pt → Pt) (l : Cloud ℝ) : moved g (moved f l) = moved (fun p => g (f p)) l := by
  simp [moved, Function.comp_def]

theorem first_lin (l : Cloud ℝ) (a : Pt) (b : ℝ) (f : Pt → Pt) (i : Nat)
    (hf : ∀ p, f p i = sumTo 6 (fun j => a j * p j) + b) :
    first (moved f l) i = sumTo 6 (fun j => a j * first l j) + total l * b := by
  induction l with
  | nil => simp [first, moved, total, sumTo]
  | cons p l ih =>
    simp only [first, moved, total, List.map_cons, List.sum_cons, List.map_map, sumTo6] at ih ⊢
    rw [ih, hf, sumTo6]
    ring

theorem second_lin (l : Cloud ℝ) (x y : Pt) (A : Nat → Pt) (f : Pt → Pt) (i j : Nat)
    (hi : ∀ p ∈ l, f p.2 i - y i = sumTo 4 (fun k => A i k * (p.2 k - x k)))
    (hj : ∀ p ∈ l, f p.2 j - y j = sumTo 4 (fun k => A j k * (p.2 k - x k))) :
    second (moved f l) y i j = conjugate 4 A (fun a b => second l x a b) i j := by
  unfold conjugate
  simp only [sumTo4]
  induction l with
  | nil => simp [second, moved]
  | cons p l ih =>
    have h1 := hi p List.mem_cons_self
    have h2 := hj p List.mem_cons_self
    have ih' := ih (fun q hq => hi q (List.mem_cons_of_mem _ hq)) (fun q hq => hj q (List.mem_cons_of_mem _ hq))
    simp only [second, moved, List.map_cons, List.sum_cons, List.map_map, sumTo4] at ih' h1 h2 ⊢
    rw [ih', h1, h2]
    ring

theorem conjugate_scale (A : Nat → Pt) (q : ℝ) (S T : Nat → Pt) (h : ∀ a < 4, ∀ b < 4, T a b = q * S a b) (i j : Nat) :
    conjugate 4 A T i j = q * conjugate 4 A S i j := by
  unfold conjugate
  simp only [sumTo4]
  rw [h 0 (by omega) 0 (by omega), h 0 (by omega) 1 (by omega), h 0 (by omega) 2 (by omega), h 0 (by omega) 3 (by omega),
    h 1 (by omega) 0 (by omega), h 1 (by omega) 1 (by omega), h 1 (by omega) 2 (by omega), h 1 (by omega) 3 (by omega),
    h 2 (by omega) 0 (by omega), h 2 (by omega) 1 (by omega), h 2 (by omega) 2 (by omega), h 2 (by omega) 3 (by omega),
    h 3 (by omega) 0 (by omega), h 3 (by omega) 1 (by omega), h 3 (by omega) 2 (by omega), h 3 (by omega) 3 (by omega)]
  ring

/-- A slice whose moments change by an affine map follows particles that do. -/
theorem follows_affine {s s' : Slice ℝ} (A : Nat → Pt) (b : Pt) (f : Pt → Pt) {R : Pt → Pt → Prop}
    (hq : s'.q = s.q) (hx : ∀ i < 6, s'.x i = sumTo 6 (fun j => A i j * s.x j) + b i)
    (hc : ∀ i < 4, ∀ j < 4, sig 4 s'.c i j = conjugate 4 A (sig 4 s.c) i j) (h4 : ∀ i < 4, A i 4 = 0)
    (h5 : ∀ p : Pt, p 5 = s.x 5 → f p 5 = s'.x 5)
    (hf : ∀ p, ∀ i < 6, f p i = sumTo 6 (fun j => A i j * p j) + b i) (hR : ∀ p, p 5 = s.x 5 → R p (f p)) :
    Follows R s s' := by
  intro l hs hm
  refine ⟨f, fun p hp => hR _ (hm p hp), ⟨?_, ?_, ?_⟩, ?_⟩
  · rw [total_moved, hs.charge, hq]
  · intro i hi
    rw [first_lin l (A i) (b i) f i (fun p => hf p i hi), hs.charge, hq, hx i hi]
    simp only [sumTo6]
    rw [hs.mean 0 (by omega), hs.mean 1 (by omega), hs.mean 2 (by omega), hs.mean 3 (by omega), hs.mean 4 (by omega),
      hs.mean 5 (by omega)]
    ring
  · intro i hi j hj
    have key : ∀ i < 4, ∀ p ∈ l, f p.2 i - s'.x i = sumTo 4 (fun k => A i k * (p.2 k - s.x k)) := by
      intro i hi p hp
      rw [hf p.2 i (by omega), hx i (by omega)]
      simp only [sumTo4, sumTo6]
      rw [h4 i hi, hm p hp]
      ring
    rw [second_lin l s.x s'.x A f i j (key i hi) (key j hj), conjugate_scale A s.q (sig 4 s.c) _ hs.cov, hq,
      hc i hi j hj]
  · intro p hp
    simp only [moved, List.mem_map] at hp
    obtain ⟨p0, hp0, rfl⟩ := hp
    exact h5 _ (hm p0 hp0)

theorem follows_after {R R' : Pt → Pt → Prop} {s s' s'' : Slice ℝ} (h : Follows R s s') (h' : Follows R' s' s'') :
    Follows (After R R') s s'' := by
  intro l hs hm
  obtain ⟨f, hf, hs', hm'⟩ := h l hs hm
  obtain ⟨g, hg, hs'', hm''⟩ := h' _ hs' hm'
  refine ⟨fun p => g (f p), fun p hp => ⟨f p.2, hf p hp, ?_⟩, ?_, ?_⟩
  · exact hg (p.1, f p.2) (by simp only [moved, List.mem_map]; exact ⟨p, hp, rfl⟩)
  · rw [← moved_moved]; exact hs''
  · rw [← moved_moved]; exact hm''

theorem follows_mono {R R' : Pt → Pt → Prop} {s s' : Slice ℝ} (h : Follows R s s')
    (hR : ∀ p p', p 5 = s.x 5 → R p p' → R' p p') : Follows R' s s' := by
  intro l hs hm
  obtain ⟨f, hf, r⟩ := h l hs hm
  exact ⟨f, fun p hp => hR _ _ (hm p hp) (hf p hp), r⟩

theorem follows_id (s : Slice ℝ) : Follows (fun p p' => p' = p) s s := by
  intro l hs hm
  refine ⟨fun p => p, fun p _ => rfl, ?_, ?_⟩ <;> simpa [moved] using ‹_›

/-! ## Application of maps -/

/-- A block matrix of the two planes with unchanged other coordinates. -/
def wide (A : Nat → Pt) (i j : Nat) : ℝ := if i < 4 ∧ j < 4 then A i j else if i = j then 1 else 0

theorem conjugate_wide (A S : Nat → Pt) (i j : Nat) (hi : i < 4) (hj : j < 4) :
    conjugate 4 (wide A) S i j = conjugate 4 A S i j := by
  unfold conjugate
  simp [sumTo4, wide, hi, hj]

/-- The particle map of two planes. -/
def planes (rx ry : R2 ℝ) (p : Pt) : Pt
  | 0 => rx.r11 * p 0 + rx.r12 * p 1
  | 1 => rx.r21 * p 0 + rx.r22 * p 1
  | 2 => ry.r11 * p 2 + ry.r12 * p 3
  | 3 => ry.r21 * p 2 + ry.r22 * p 3
  | n => p n

theorem planes_affine (rx ry : R2 ℝ) (p : Pt) (i : Nat) (hi : i < 6) :
    planes rx ry p i = sumTo 6 (fun j => wide (blocks rx ry) i j * p j) + 0 := by
  rw [sumTo6]
  interval_cases i <;> simp [planes, wide, blocks]

theorem applyR2_x (rx ry : R2 ℝ) (s : Slice ℝ) (i : Nat) : (applyR2 rx ry s).x i = planes rx ry s.x i := by
  simp only [applyR2]
  rw [planes_vector]
  match i with
  | 0 => simp [mulVec, sumTo4, blocks, planes]
  | 1 => simp [mulVec, sumTo4, blocks, planes]
  | 2 => simp [mulVec, sumTo4, blocks, planes]
  | 3 => simp [mulVec, sumTo4, blocks, planes]
  | n + 4 => simp [planes]

theorem applyR2_follows (rx ry : R2 ℝ) (s : Slice ℝ) :
    Follows (fun p p' => p' = planes rx ry p) s (applyR2 rx ry s) := by
  refine follows_affine (wide (blocks rx ry)) (fun _ => 0) (planes rx ry) rfl ?_ ?_ ?_ ?_ ?_ fun _ _ => rfl
  · intro i hi
    rw [applyR2_x, planes_affine _ _ _ _ hi]
  · intro i hi j hj
    rw [conjugate_wide _ _ _ _ hi hj]
    exact planes_moments rx ry s.c i j hi hj
  · intro i hi; simp [wide]; omega
  · intro p hp; rw [applyR2_x]; exact hp
  · intro p i hi; exact planes_affine rx ry p i hi

/-- A displacement of the means moves all particles of the cloud. -/
theorem shift_follows (s : Slice ℝ) (b : Pt) (hb : b 5 = 0) :
    Follows (fun p p' => ∀ i, p' i = p i + b i) s { s with x := fun i => s.x i + b i } := by
  refine follows_affine (fun i j => if i = j then 1 else 0) b (fun p i => p i + b i) rfl ?_ ?_ ?_ ?_ ?_
    fun _ _ _ => rfl
  · intro i hi; rw [sumTo6]; interval_cases i <;> simp
  · intro i hi j hj
    unfold conjugate
    simp only [sumTo4]
    interval_cases i <;> interval_cases j <;> simp
  · intro i hi; simp; omega
  · intro p hp; simp [hp]
  · intro p i hi; rw [sumTo6]; interval_cases i <;> simp

/-- The result of a sparse map on a slice. -/
theorem applyR_ok {m : Map ℝ} (hw : Within 6 m) (s : Slice ℝ) :
    ∃ s', applyR m s = .ok s' ∧ s'.q = s.q ∧ (∀ i, s'.x i = mulVec 6 (mat m) s.x i) ∧
      ∀ i < 4, ∀ j < 4, sig 4 s'.c i j = conjugate 4 (mat m) (sig 4 s.c) i j := by
  obtain ⟨y, h1, h2⟩ := apply_vector m hw s.x
  exact ⟨⟨y, applyCov 4 m s.c, s.q⟩, by simp [applyR, h1, Outcome.bind], rfl, h2,
    fun i hi j hj => apply_covariance 4 m s.c i j hi hj⟩

theorem applyR_follows {m : Map ℝ} (hw : Within 6 m) (h4 : ∀ i < 4, mat m i 4 = 0)
    (h5 : ∀ j < 6, mat m 5 j = if j = 5 then 1 else 0) (s : Slice ℝ) :
    ∃ s', applyR m s = .ok s' ∧ Follows (fun p p' => ∀ i, p' i = mulVec 6 (mat m) p i) s s' ∧ s'.x 5 = s.x 5 := by
  obtain ⟨s', h, hq, hx, hc⟩ := applyR_ok hw s
  have e5 : ∀ p : Pt, mulVec 6 (mat m) p 5 = p 5 := by
    intro p
    unfold mulVec
    rw [sumTo6, h5 0 (by omega), h5 1 (by omega), h5 2 (by omega), h5 3 (by omega), h5 4 (by omega), h5 5 (by omega)]
    simp
  refine ⟨s', h, ?_, by rw [hx, e5]⟩
  refine follows_affine (mat m) (fun _ => 0) (fun p i => mulVec 6 (mat m) p i) hq ?_ hc h4 ?_ ?_ fun _ _ _ => rfl
  · intro i _; rw [hx]; simp [mulVec]
  · intro p hp; rw [hx, e5, e5, hp]
  · intro p i _; simp [mulVec]

theorem drift_follows (z : ℝ) (s : Slice ℝ) :
    Follows (fun p p' => ∀ i < 6, p' i = mulVec 6 (driftMat z) p i) s (driftApply z s) := by
  refine follows_affine (driftMat z) (fun _ => 0) (fun p i => mulVec 6 (driftMat z) p i) rfl ?_ ?_ ?_ ?_ ?_
    fun _ _ _ _ => rfl
  · intro i hi; simp only [driftApply]; rw [drift_vector z s.x i hi]; simp [mulVec]
  · intro i hi j hj; exact drift_moments4 z s.c i j hi hj
  · intro i hi; interval_cases i <;> simp [driftMat]
  · intro p hp
    simp [driftApply, driftVec, upd, mulVec, sumTo6, driftMat, hp]
  · intro p i _; simp [mulVec]

/-! ## Motion -/

/-- The solution of `u'' = -k u` is determined by its start. -/
theorem hill_unique {k : ℝ} {u v : ℝ → ℝ} (hu : ∀ t, HasDerivAt u (v t) t) (hv : ∀ t, HasDerivAt v (-k * u t) t)
    (t : ℝ) : u t = cK k t * u 0 + sK k t * v 0 ∧ v t = -k * sK k t * u 0 + cK k t * v 0 := by
  have d1 : ∀ t, HasDerivAt (fun t => u t * cK k t - v t * sK k t) 0 t := fun t => by
    refine (((hu t).mul (hasDerivAt_cK k t)).sub ((hv t).mul (hasDerivAt_sK k t))).congr_deriv ?_
    ring
  have d2 : ∀ t, HasDerivAt (fun t => k * (u t * sK k t) + v t * cK k t) 0 t := fun t => by
    refine ((((hu t).mul (hasDerivAt_sK k t)).const_mul k).add ((hv t).mul (hasDerivAt_cK k t))).congr_deriv ?_
    ring
  have c1 := is_const_of_deriv_eq_zero (fun t => (d1 t).differentiableAt) (fun t => (d1 t).deriv) t 0
  have c2 := is_const_of_deriv_eq_zero (fun t => (d2 t).differentiableAt) (fun t => (d2 t).deriv) t 0
  simp only [cK_zero, sK_zero, mul_one, mul_zero, sub_zero, zero_add] at c1 c2
  have h := cK_sq k t
  constructor
  · linear_combination cK k t * c1 + sK k t * c2 - u t * h
  · linear_combination -k * sK k t * c1 + cK k t * c2 - v t * h

theorem const_of_deriv {u : ℝ → ℝ} (hu : ∀ t, HasDerivAt u 0 t) (t : ℝ) : u t = u 0 :=
  is_const_of_deriv_eq_zero (fun t => (hu t).differentiableAt) (fun t => (hu t).deriv) t 0

end

end Verif.SMPMaps
