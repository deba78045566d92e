import Verif.MatrixMap.Spec

/-!
# Properties of matrix maps
-/

namespace Verif.MatrixMap
open Verif Verif.Beam Verif.LinMap Verif.MatrixMap.Spec
open Verif.LinMap.Spec (sumTo)

/-! ## Loops -/

theorem loopSum_eq (n : Nat) (f : Nat → ℝ) : loopSum n f = sumTo n f := by
  induction n with
  | zero => rfl
  | succ n ih => rw [loopSum, ih, Beam.sumTo_succ]

theorem sig_setRow (i : Nat) (v : Nat → ℝ) (hi : i < 6) : ∀ (m : Nat) (c : Cov ℝ) (a b : Nat), m ≤ i + 1 → a < 6 → b < 6 →
    sig 6 (setRow i v m c) a b =
      if a = i ∧ b < m then v b else if b = i ∧ a < m then v a else sig 6 c a b
  | 0, c, a, b, _, _, _ => by simp [setRow]
  | m + 1, c, a, b, hm, ha, hb => by
    rw [setRow, sig_setSig 6 _ i m a b (v m) ha hb, sig_setRow i v hi m c a b (by omega) ha hb]
    split_ifs <;> first
      | rfl
      | omega
      | (congr 1; omega)

/-- Twofold sum of the transformation. -/
noncomputable def conj (n : Nat) (R : Mat) (S : Cov ℝ) (i j : Nat) : ℝ :=
  sumTo n fun k => sumTo n fun l => R i k * R j l * sig 6 S k l

theorem sumTo_comm (n m : Nat) (f : Nat → Nat → ℝ) :
    (sumTo n fun k => sumTo m fun l => f k l) = sumTo m fun l => sumTo n fun k => f k l := by
  induction n with
  | zero =>
    have : ∀ l, (sumTo 0 fun k => f k l) = 0 := fun l => rfl
    simp only [this]
    rw [LinMap.sumTo_zero]
    rfl
  | succ n ih =>
    simp only [Beam.sumTo_succ]
    rw [ih, ← LinMap.sumTo_add]

theorem conj_comm (n : Nat) (R : Mat) (S : Cov ℝ) (i j : Nat) : conj n R S i j = conj n R S j i := by
  unfold conj
  rw [sumTo_comm]
  congr 1; funext k
  congr 1; funext l
  rw [sig_comm]
  ring

theorem sig_covLoop (n : Nat) (R : Mat) (S : Cov ℝ) : ∀ (m a b : Nat), m ≤ 6 → a < 6 → b < 6 →
    sig 6 (covLoop n R S m) a b = if a < m ∧ b < m then conj n R S a b else 0
  | 0, a, b, _, ha, hb => by simp [covLoop, sig]
  | m + 1, a, b, hm, ha, hb => by
    rw [covLoop, sig_setRow m _ (by omega) (m + 1) _ a b le_rfl ha hb, sig_covLoop n R S m a b (by omega) ha hb]
    simp only [loopSum_eq]
    by_cases h1 : a = m ∧ b < m + 1
    · rw [if_pos h1, if_pos (by omega), h1.1]
      rfl
    · rw [if_neg h1]
      by_cases h2 : b = m ∧ a < m + 1
      · rw [if_pos h2, if_pos (by omega), h2.1, conj_comm]
        rfl
      · rw [if_neg h2]
        by_cases h3 : a < m ∧ b < m
        · rw [if_pos h3, if_pos (by omega)]
        · rw [if_neg h3, if_neg (by omega)]

/-! ## C117 -/

theorem sumTo_congr' {n : Nat} {f g : Nat → ℝ} (h : ∀ k < n, f k = g k) : sumTo n f = sumTo n g :=
  Transport.sumTo_congr h

/-- The moments of mapped particles, in the dimensions the matrix acts on. -/
theorem moments_block_partial (n : Nat) (hn : n ≤ 6) (R : Mat) (S : Moments) (l : List (Nat → ℝ)) (hl : l ≠ [])
    (h : MomentsOf S l) :
    (∀ i < n, (transformMoments n R S).mean i = Bunch.Spec.mean ((l.map (applyVec n R)).map fun x => x i)) ∧
    ∀ i < n, ∀ j < n, sig 6 (transformMoments n R S).cov i j = Bunch.Spec.cov (l.map (applyVec n R)) i j := by
  have hmean : ∀ i < n, Bunch.Spec.mean (l.map fun x => applyVec n R x i) =
      sumTo n fun k => R i k * Bunch.Spec.mean (l.map fun x => x k) := by
    intro i hi
    simp only [applyVec, if_pos hi, loopSum_eq]
    rw [Beam.mean_sumTo]
    simp only [Beam.mean_mul]
  constructor
  · intro i hi
    rw [List.map_map]
    show (if i < n then _ else _) = Bunch.Spec.mean (l.map fun x => applyVec n R x i)
    rw [if_pos hi, loopSum_eq, hmean i hi]
    exact sumTo_congr' fun k hk => by rw [h.1 k (by omega)]
  · intro i hi j hj
    show sig 6 (covLoop n R S.cov n) i j = _
    rw [sig_covLoop n R S.cov n i j hn (by omega) (by omega), if_pos ⟨hi, hj⟩]
    have key := Beam.cov_affine l hl n R (fun _ => 0) i j
    simp only [add_zero] at key
    have e : Bunch.Spec.cov (l.map (applyVec n R)) i j =
        Bunch.Spec.cov (l.map fun u => fun i => sumTo n fun k => R i k * u k) i j := by
      unfold Bunch.Spec.cov
      simp only [List.map_map, Function.comp_def, applyVec, if_pos hi, if_pos hj, loopSum_eq]
    rw [e, key]
    unfold conj
    exact sumTo_congr' fun k hk => sumTo_congr' fun m hm => by rw [h.2 k (by omega) m (by omega)]

/-- A matrix in three degrees of freedom: first and second moments are those of the mapped particles. -/
theorem moments_of_particles (R : Mat) (S : Moments) (l : List (Nat → ℝ)) (hl : l ≠ []) (h : MomentsOf S l) :
    MomentsOf (transformMoments 6 R S) (l.map (applyVec 6 R)) :=
  moments_block_partial 6 le_rfl R S l hl h

/-- A vector by its components. -/
def vec (a b c d e f : ℝ) : Nat → ℝ := fun i => match i with | 0 => a | 1 => b | 2 => c | 3 => d | 4 => e | 5 => f | _ => 0

/-- The moments of a list exist. -/
theorem exists_moments (l : List (Nat → ℝ)) : ∃ S, MomentsOf S l := by
  refine ⟨⟨fun i => Bunch.Spec.mean (l.map fun x => x i), fun k =>
    ∑ p ∈ (Finset.range 6 ×ˢ Finset.range 6).filter (fun p => p.1 ≤ p.2 ∧ off p.1 p.2 = k), Bunch.Spec.cov l p.1 p.2⟩,
    fun _ _ => rfl, ?_⟩
  have hs : ∀ i j, Bunch.Spec.cov l i j = Bunch.Spec.cov l j i := fun i j => by
    unfold Bunch.Spec.cov
    congr 2
    funext p
    ring
  intro i hi j hj
  rw [sig, if_pos ⟨hi, hj⟩]
  have hu : (Finset.range 6 ×ˢ Finset.range 6).filter (fun p => p.1 ≤ p.2 ∧ off p.1 p.2 = off i j) = {(min i j, max i j)} := by
    ext ⟨a, b⟩
    simp only [Finset.mem_filter, Finset.mem_product, Finset.mem_range, Finset.mem_singleton, Prod.mk.injEq, off_inj]
    omega
  simp only
  rw [hu, Finset.sum_singleton]
  rcases le_total i j with h | h
  · rw [min_eq_left h, max_eq_right h]
  · rw [min_eq_right h, max_eq_left h, hs]

/-- A matrix in fewer dimensions leaves the other coordinates of particles alone, but sets their moments to zero. -/
theorem lost_moments_violated (n : Nat) (hn : n < 6) (R : Mat) : ∃ (l : List (Nat → ℝ)) (S : Moments), l ≠ [] ∧ MomentsOf S l ∧
    ¬ MomentsOf (transformMoments n R S) (l.map (applyVec n R)) := by
  obtain ⟨S, h⟩ := exists_moments [vec 0 0 0 0 0 1]
  refine ⟨[vec 0 0 0 0 0 1], S, by simp, h, fun hx => ?_⟩
  have := hx.1 5 (by omega)
  have h5 : ¬ 5 < n := by omega
  simp [transformMoments, h5, applyVec, Bunch.Spec.mean, vec] at this

/-- A drift with momentum compaction. -/
def compaction : Mat := fun i j => if i = j then 1 else if i = 4 ∧ j = 5 then 1 else 0

example : ∃ S, MomentsOf S [vec 1 0 0 0 2 3, vec 0 1 0 0 0 1] ∧
    Bunch.Spec.cov ([vec 1 0 0 0 2 3, vec 0 1 0 0 0 1].map (applyVec 6 compaction)) 4 5 = 2 := by
  obtain ⟨S, h⟩ := exists_moments [vec 1 0 0 0 2 3, vec 0 1 0 0 0 1]
  refine ⟨S, h, ?_⟩
  norm_num [Bunch.Spec.cov, Bunch.Spec.mean, applyVec, loopSum, compaction, vec]

/-! ## C118 -/

theorem express_express (p0 p1 : ℝ) (h0 : p0 ≠ 0) (h1 : p1 ≠ 0) (x : Nat → ℝ) : express p1 p0 (express p0 p1 x) = x := by
  funext i
  unfold express
  by_cases h : i = 5
  · subst h
    rw [if_pos rfl, if_pos rfl]
    field_simp
    ring
  · simp [h]

/-- Matrices that do not change the momentum deviation: the map acts on a particle given relative to `p0` as it acts on
the same particle given relative to its own reference momentum. -/
theorem reference_momentum_partial (n : Nat) (R : Mat) (pref p0 : ℝ) (h1 : pref ≠ 0) (h0 : p0 ≠ 0) (x : Nat → ℝ)
    (hR : n ≤ 5 ∨ (n = 6 ∧ ∀ j < 6, R 5 j = if j = 5 then 1 else 0)) :
    withMomentum (applyVec n R) pref p0 x = express pref p0 (applyVec n R (express p0 pref x)) := by
  have hup : upd x 5 (scaledp pref p0 (x 5)) = express p0 pref x := by
    funext i
    unfold upd express scaledp
    split <;> rfl
  have h5 : ∀ y : Nat → ℝ, applyVec n R y 5 = y 5 := by
    intro y
    rcases hR with h | ⟨rfl, h⟩
    · simp [applyVec, show ¬ 5 < n by omega]
    · simp [applyVec, loopSum, h]
  rw [withMomentum, if_neg h1, hup]
  funext i
  unfold upd
  by_cases hi : i = 5
  · subst hi
    rw [if_pos rfl]
    unfold express
    rw [if_pos rfl, h5, if_pos rfl]
    field_simp
    ring
  · rw [if_neg hi]
    unfold express
    rw [if_neg hi]

example : (compaction 5 5 = 1 ∧ compaction 5 4 = 0) ∧
    withMomentum (applyVec 6 compaction) 2 1 (vec 0 0 0 0 0 1) 4 = 0 ∧
    withMomentum (applyVec 6 compaction) 2 1 (vec 0 0 0 0 0 0) 4 = -(1 / 2) := by
  norm_num [compaction, withMomentum, applyVec, loopSum, vec, upd, scaledp]

/-- The momentum changed by the matrix is forgotten: the effect of an accelerating matrix depends on the reference
momentum the particle is given in. -/
theorem reference_momentum_violated : ∃ (R : Mat) (pref p0 : ℝ) (x : Nat → ℝ), pref ≠ 0 ∧ p0 ≠ 0 ∧
    withMomentum (applyVec 6 R) pref p0 x ≠ express pref p0 (applyVec 6 R (express p0 pref x)) := by
  refine ⟨fun i j => if i = j then 1 else if i = 5 ∧ j = 4 then 1 else 0, 1, 2, vec 0 0 0 0 1 0, by norm_num, by norm_num,
    fun h => ?_⟩
  have := congrFun h 5
  norm_num [withMomentum, upd, applyVec, loopSum, express, vec, scaledp] at this

theorem sig_scaleCorr (r : ℝ) : ∀ (m : Nat) (c : Cov ℝ) (a b : Nat), m ≤ 5 → a < 6 → b < 6 →
    sig 6 (scaleCorr r m c) a b = if (a < m ∧ b = 5) ∨ (b < m ∧ a = 5) then sig 6 c a b * r else sig 6 c a b
  | 0, c, a, b, _, _, _ => by simp [scaleCorr]
  | m + 1, c, a, b, hm, ha, hb => by
    rw [scaleCorr]
    rw [sig_setSig 6 _ m 5 a b _ ha hb, sig_scaleCorr r m c a b (by omega) ha hb,
      sig_scaleCorr r m c m 5 (by omega) (by omega) (by omega)]
    rw [if_neg (show ¬ ((m < m ∧ 5 = 5) ∨ (5 < m ∧ m = 5)) by omega)]
    by_cases h1 : (a = m ∧ b = 5) ∨ (a = 5 ∧ b = m)
    · rw [if_pos h1, if_pos (by omega)]
      rcases h1 with ⟨rfl, rfl⟩ | ⟨rfl, rfl⟩
      · rfl
      · rw [sig_comm]
    · rw [if_neg h1]
      by_cases h2 : (a < m ∧ b = 5) ∨ (b < m ∧ a = 5)
      · rw [if_pos h2, if_pos (by omega)]
      · rw [if_neg h2, if_neg (by omega)]

theorem sig_rescale (p0 p1 : ℝ) (S : Moments) (a b : Nat) (ha : a < 6) (hb : b < 6) :
    sig 6 (rescaleMoments p0 p1 S).cov a b = sig 6 S.cov a b *
      (if a = 5 ∧ b = 5 then (p0 / p1) * (p0 / p1) else if (a < 4 ∧ b = 5) ∨ (b < 4 ∧ a = 5) then p0 / p1 else 1) := by
  unfold rescaleMoments
  simp only
  rw [sig_setSig 6 _ 5 5 a b _ ha hb, sig_scaleCorr _ 4 _ 5 5 (by omega) (by omega) (by omega),
    sig_scaleCorr _ 4 _ a b (by omega) ha hb]
  by_cases h : a = 5 ∧ b = 5
  · obtain ⟨rfl, rfl⟩ := h
    simp
  · rw [if_neg (by omega), if_neg h]
    by_cases h2 : (a < 4 ∧ b = 5) ∨ (b < 4 ∧ a = 5)
    · rw [if_pos h2, if_pos h2]
    · rw [if_neg h2, if_neg h2, mul_one]

/-- Moments of particles given relative to another momentum. -/
theorem cov_express (p0 p1 : ℝ) (l : List (Nat → ℝ)) (hl : l ≠ []) (i j : Nat) (hi : i < 6) (hj : j < 6) :
    Bunch.Spec.cov (l.map (express p0 p1)) i j = Bunch.Spec.cov l i j *
      ((if i = 5 then p0 / p1 else 1) * (if j = 5 then p0 / p1 else 1)) := by
  let G : Mat := fun i k => if i = k then (if i = 5 then p0 / p1 else 1) else 0
  have key := Beam.cov_affine l hl 6 G (fun i => if i = 5 then p0 / p1 - 1 else 0) i j
  have e : ∀ u : Nat → ℝ, ∀ a < 6, express p0 p1 u a = (sumTo 6 fun k => G a k * u k) + (if a = 5 then p0 / p1 - 1 else 0) := by
    intro u a ha
    rw [Beam.sum6]
    interval_cases a <;> simp [express, G]
    ring
  have e2 : Bunch.Spec.cov (l.map (express p0 p1)) i j =
      Bunch.Spec.cov (l.map fun u => fun i => (sumTo 6 fun k => G i k * u k) + (if i = 5 then p0 / p1 - 1 else 0)) i j := by
    unfold Bunch.Spec.cov
    simp only [List.map_map, Function.comp_def, e _ i hi, e _ j hj]
  rw [e2, key, Beam.sum6]
  simp only [Beam.sum6]
  interval_cases i <;> interval_cases j <;> simp [G] <;> ring

/-- Moments relative to another momentum are right if the time is not correlated with the momentum. -/
theorem rescale_partial (p0 p1 : ℝ) (S : Moments) (l : List (Nat → ℝ)) (hl : l ≠ []) (h : MomentsOf S l)
    (h45 : Bunch.Spec.cov l 4 5 = 0) : MomentsOf (rescaleMoments p0 p1 S) (l.map (express p0 p1)) := by
  constructor
  · intro i hi
    rw [List.map_map]
    show (upd S.mean 5 _) i = Bunch.Spec.mean (l.map fun x => express p0 p1 x i)
    unfold upd
    by_cases h5 : i = 5
    · subst h5
      rw [if_pos rfl]
      have : ∀ x : Nat → ℝ, express p0 p1 x 5 = p0 / p1 * x 5 + (p0 / p1 - 1) := fun x => by
        simp only [express, if_true]
        ring
      simp only [this]
      rw [Beam.mean_add, Beam.mean_mul, Beam.mean_const l hl, h.1 5 (by omega)]
      ring
    · rw [if_neg h5, h.1 i hi]
      simp only [express, if_neg h5]
  · intro i hi j hj
    have hs : Bunch.Spec.cov l 5 4 = 0 := by
      rw [← h45]
      unfold Bunch.Spec.cov
      congr 2
      funext p
      ring
    rw [sig_rescale p0 p1 S i j hi hj, cov_express p0 p1 l hl i j hi hj, h.2 i hi j hj]
    interval_cases i <;> interval_cases j <;> simp [h45, hs]

/-- The correlation of time and momentum is not rescaled. -/
theorem rescale_violated : ∃ (S : Moments) (l : List (Nat → ℝ)), l ≠ [] ∧ MomentsOf S l ∧
    sig 6 (rescaleMoments 2 1 S).cov 4 5 ≠ Bunch.Spec.cov (l.map (express 2 1)) 4 5 := by
  obtain ⟨S, h⟩ := exists_moments [vec 0 0 0 0 0 0, vec 0 0 0 0 2 2]
  refine ⟨S, _, by simp, h, ?_⟩
  rw [sig_rescale 2 1 S 4 5 (by omega) (by omega), h.2 4 (by omega) 5 (by omega)]
  norm_num [Bunch.Spec.cov, Bunch.Spec.mean, express, vec]

/-- So the moments mapped with a reference momentum are not those of the mapped particles. -/
theorem moments_reference_violated : ∃ (S : Moments) (l : List (Nat → ℝ)), l ≠ [] ∧ MomentsOf S l ∧
    ¬ MomentsOf (momentsWithMomentum (transformMoments 6 compaction) 1 2 S)
      (l.map fun x => express 1 2 (applyVec 6 compaction (express 2 1 x))) := by
  obtain ⟨S, h⟩ := exists_moments [vec 0 0 0 0 0 0, vec 0 0 0 0 2 2]
  refine ⟨S, _, by simp, h, fun hx => ?_⟩
  have := hx.2 4 (by omega) 4 (by omega)
  rw [momentsWithMomentum, if_neg one_ne_zero, sig_rescale 1 2 _ 4 4 (by omega) (by omega)] at this
  show False
  have e : sig 6 (transformMoments 6 compaction (rescaleMoments 2 1 S)).cov 4 4 =
      conj 6 compaction (rescaleMoments 2 1 S).cov 4 4 := by
    show sig 6 (covLoop 6 compaction (rescaleMoments 2 1 S).cov 6) 4 4 = _
    rw [sig_covLoop 6 _ _ 6 4 4 le_rfl (by omega) (by omega)]
    simp
  rw [e] at this
  unfold conj at this
  simp only [Beam.sum6, compaction, sig_rescale 2 1 S 4 4 (by omega) (by omega), sig_rescale 2 1 S 4 5 (by omega) (by omega),
    sig_rescale 2 1 S 5 4 (by omega) (by omega), sig_rescale 2 1 S 5 5 (by omega) (by omega), h.2 4 (by omega) 4 (by omega),
    h.2 4 (by omega) 5 (by omega), h.2 5 (by omega) 4 (by omega), h.2 5 (by omega) 5 (by omega)] at this
  norm_num [Bunch.Spec.cov, Bunch.Spec.mean, express, vec, applyVec, loopSum, compaction] at this

/-- The moments mapped with a reference momentum by a matrix that does not change the momentum, if time and momentum are
uncorrelated before: all but their correlation after. -/
theorem moments_reference_partial (R : Mat) (pref p0 : ℝ) (h1 : pref ≠ 0) (S : Moments) (l : List (Nat → ℝ)) (hl : l ≠ [])
    (h : MomentsOf S l) (h45 : Bunch.Spec.cov l 4 5 = 0) (i j : Nat) (hi : i < 6) (hj : j < 6)
    (hij : ¬ ((i = 4 ∧ j = 5) ∨ (i = 5 ∧ j = 4))) :
    sig 6 (momentsWithMomentum (transformMoments 6 R) pref p0 S).cov i j =
      Bunch.Spec.cov (l.map fun x => express pref p0 (applyVec 6 R (express p0 pref x))) i j := by
  have a := rescale_partial p0 pref S l hl h h45
  have b := moments_of_particles R _ _ (by simpa using hl) a
  have hne : (l.map (express p0 pref)).map (applyVec 6 R) ≠ [] := by simpa using hl
  rw [momentsWithMomentum, if_neg h1, sig_rescale pref p0 _ i j hi hj, b.2 i hi j hj]
  have e : (l.map fun x => express pref p0 (applyVec 6 R (express p0 pref x))) =
      ((l.map (express p0 pref)).map (applyVec 6 R)).map (express pref p0) := by
    rw [List.map_map, List.map_map]
    rfl
  rw [e, cov_express pref p0 _ hne i j hi hj]
  congr 1
  interval_cases i <;> interval_cases j <;> simp at hij ⊢

example : Bunch.Spec.cov [vec 0 0 0 0 0 0, vec 1 0 0 0 2 0, vec 0 0 0 0 0 3, vec 0 0 0 0 2 3] 4 5 = 0 ∧
    Bunch.Spec.cov [vec 0 0 0 0 0 0, vec 1 0 0 0 2 0, vec 0 0 0 0 0 3, vec 0 0 0 0 2 3] 0 5 ≠ 0 := by
  norm_num [Bunch.Spec.cov, Bunch.Spec.mean, vec]

/-! ## C119 -/

/-- Multiplication is first the one map and then the other. -/
theorem composition (n : Nat) (A B : Mat) (x : Nat → ℝ) :
    applyVec n (mulAssign n A B) x = applyVec n B (applyVec n A x) := by
  funext i
  unfold applyVec mulAssign
  by_cases hi : i < n
  · simp only [if_pos hi, loopSum_eq]
    have e : (sumTo n fun j => B i j * (if j < n then sumTo n fun k => A j k * x k else x j)) =
        sumTo n fun j => sumTo n fun k => B i j * (A j k * x k) :=
      sumTo_congr' fun j hj => by rw [if_pos hj, Beam.sumTo_mul_left]
    rw [e, sumTo_comm]
    congr 1; funext k
    rw [Beam.sumTo_mul_right]
    congr 1; funext j
    ring
  · simp [hi]

/-- Also for moments. -/
theorem composition_moments (A B : Mat) (S : Moments) (i j : Nat) (hi : i < 6) (hj : j < 6) :
    (transformMoments 6 (mulAssign 6 A B) S).mean i = (transformMoments 6 B (transformMoments 6 A S)).mean i ∧
    sig 6 (transformMoments 6 (mulAssign 6 A B) S).cov i j =
      sig 6 (transformMoments 6 B (transformMoments 6 A S)).cov i j := by
  constructor
  · have := congrFun (composition 6 A B S.mean) i
    simp only [applyVec, if_pos hi] at this
    simp only [transformMoments, if_pos hi]
    rw [this]
    simp only [loopSum_eq]
    exact sumTo_congr' fun k hk => by rw [if_pos hk, if_pos hk]
  · show sig 6 (covLoop 6 _ S.cov 6) i j = sig 6 (covLoop 6 B (covLoop 6 A S.cov 6) 6) i j
    rw [sig_covLoop 6 _ _ 6 i j le_rfl hi hj, sig_covLoop 6 _ _ 6 i j le_rfl hi hj, if_pos ⟨hi, hj⟩, if_pos ⟨hi, hj⟩]
    unfold conj mulAssign
    have e : (sumTo 6 fun k => sumTo 6 fun l => B i k * B j l * sig 6 (covLoop 6 A S.cov 6) k l) =
        sumTo 6 fun k => sumTo 6 fun l => B i k * B j l * conj 6 A S.cov k l :=
      sumTo_congr' fun k hk => sumTo_congr' fun l hl => by
        rw [sig_covLoop 6 _ _ 6 k l le_rfl hk hl, if_pos ⟨hk, hl⟩]
    rw [e]
    unfold conj
    simp only [loopSum_eq]
    -- both are the fourfold sum
    have l1 : ∀ k l, (sumTo 6 fun a => B i a * A a k) * (sumTo 6 fun b => B j b * A b l) * sig 6 S.cov k l =
        sumTo 6 fun a => sumTo 6 fun b => B i a * B j b * (A a k * A b l * sig 6 S.cov k l) := by
      intro k l
      rw [Beam.sumTo_mul_right, Beam.sumTo_mul_right]
      congr 1; funext a
      rw [Beam.sumTo_mul_left, Beam.sumTo_mul_right]
      congr 1; funext b
      ring
    have l2 : ∀ a b, B i a * B j b * (sumTo 6 fun k => sumTo 6 fun l => A a k * A b l * sig 6 S.cov k l) =
        sumTo 6 fun k => sumTo 6 fun l => B i a * B j b * (A a k * A b l * sig 6 S.cov k l) := by
      intro a b
      rw [Beam.sumTo_mul_left]
      congr 1; funext k
      rw [Beam.sumTo_mul_left]
    simp only [l1, l2]
    have s1 : ∀ k, (sumTo 6 fun l => sumTo 6 fun a => sumTo 6 fun b => B i a * B j b * (A a k * A b l * sig 6 S.cov k l)) =
        sumTo 6 fun a => sumTo 6 fun b => sumTo 6 fun l => B i a * B j b * (A a k * A b l * sig 6 S.cov k l) := by
      intro k
      rw [sumTo_comm]
      congr 1; funext a
      rw [sumTo_comm]
    simp only [s1]
    rw [sumTo_comm]
    congr 1; funext a
    rw [sumTo_comm]

/-- With the same reference momentum, for maps that do not change the momentum deviation. -/
theorem composition_reference_partial (n : Nat) (hn : n ≤ 5) (A B : Mat) (pref p0 : ℝ) (x : Nat → ℝ) :
    withMomentum (applyVec n (mulAssign n A B)) pref p0 x =
      withMomentum (applyVec n B) pref p0 (withMomentum (applyVec n A) pref p0 x) := by
  unfold withMomentum
  by_cases h : pref = 0
  · simp only [if_pos h, composition]
  · simp only [if_neg h, composition]
    have h5 : ¬ 5 < n := by omega
    funext i
    by_cases hi : i = 5
    · simp [upd, hi]
    · simp only [upd, if_neg hi, if_true]
      refine congrFun (congrArg (applyVec n B) ?_) i
      funext k
      by_cases hk : k = 5
      · subst hk
        simp [applyVec, h5, upd]
      · simp [upd, hk]

/-- The reference momentum of the factor is ignored: the product of maps with different reference momenta is not the one
map after the other. -/
theorem composition_momentum_violated : ∃ (A B : Mat) (pa pb p0 : ℝ) (x : Nat → ℝ), pa ≠ 0 ∧ pb ≠ 0 ∧
    withMomentum (applyVec 6 (mulAssign 6 A B)) pa p0 x ≠
      withMomentum (applyVec 6 B) pb p0 (withMomentum (applyVec 6 A) pa p0 x) := by
  refine ⟨compaction, compaction, 1, 2, 1, vec 0 0 0 0 0 0, by norm_num, by norm_num, fun h => ?_⟩
  have := congrFun h 4
  norm_num [withMomentum, upd, applyVec, mulAssign, loopSum, compaction, vec, scaledp] at this

/-! ## C120 -/

/-- Particles with the same momentum deviation: moments mapped with the chromatic correction are those of the mapped
particles. -/
theorem chromatic_moments_partial (R T : Mat) (d : ℝ) (S : Moments) (l : List (Nat → ℝ)) (hl : l ≠ []) (h : MomentsOf S l)
    (hd : ∀ x ∈ l, x 5 = d) : MomentsOf (rdpMoments 6 R T S) (l.map (applyRdp 6 R T)) := by
  have hm : S.mean 5 = d := by
    rw [h.1 5 (by omega), List.map_congr_left hd, Beam.mean_const l hl]
  have e : l.map (applyRdp 6 R T) = l.map (applyVec 6 fun i j => R i j + T i j * S.mean 5) := by
    refine List.map_congr_left fun x hx => ?_
    funext i
    simp only [applyRdp, applyVec, hd x hx, hm]
  rw [e]
  exact moments_of_particles _ S l hl h

example : ∃ S, MomentsOf S [vec 1 0 0 0 0 2, vec 0 1 0 0 0 2] ∧ ∀ x ∈ [vec 1 0 0 0 0 2, vec 0 1 0 0 0 2], x 5 = 2 := by
  obtain ⟨S, h⟩ := exists_moments [vec 1 0 0 0 0 2, vec 0 1 0 0 0 2]
  exact ⟨S, h, by simp [vec]⟩

/-- With a momentum spread even the first moments differ: the matrix is taken at the mean momentum. -/
theorem chromatic_moments_violated : ∃ (R T : Mat) (S : Moments) (l : List (Nat → ℝ)), l ≠ [] ∧ MomentsOf S l ∧
    ¬ MomentsOf (rdpMoments 6 R T S) (l.map (applyRdp 6 R T)) := by
  obtain ⟨S, h⟩ := exists_moments [vec 0 0 0 0 0 0, vec 2 0 0 0 0 2]
  refine ⟨fun i j => if i = j then 1 else 0, fun i j => if i = 0 ∧ j = 0 then 1 else 0, S, _, by simp, h, fun hx => ?_⟩
  have := hx.1 0 (by omega)
  simp only [rdpMoments, transformMoments, loopSum, h.1 0 (by omega), h.1 1 (by omega), h.1 2 (by omega), h.1 3 (by omega),
    h.1 4 (by omega), h.1 5 (by omega)] at this
  norm_num [Bunch.Spec.mean, applyRdp, loopSum, vec] at this

/-- Without correction it is the linear map. -/
theorem chromatic_linear (n : Nat) (R : Mat) (x : Nat → ℝ) : applyRdp n R (fun _ _ => 0) x = applyVec n R x := by
  funext i
  simp [applyRdp, applyVec]

/-- In fewer than three degrees of freedom the particle is mapped by the matrix taken at its momentum, which it keeps. -/
theorem chromatic_particle (n : Nat) (hn : n ≤ 5) (R T : Mat) (x : Nat → ℝ) :
    applyRdp n R T x = applyVec n (fun i j => R i j + x 5 * T i j) x ∧ applyRdp n R T x 5 = x 5 := by
  have h5 : ¬ 5 < n := by omega
  constructor
  · funext i
    simp only [applyRdp, applyVec, mul_comm (x 5)]
  · simp [applyRdp, h5]

end Verif.MatrixMap
