import Verif.Range.Model
import Mathlib.Tactic.Linarith

/-! # C12: numerical ranges -/

namespace Verif.Range

variable {K : Type} [Field K] [LinearOrder K] [IsStrictOrderedRing K]

/-- A range with ordered bounds is never taken for the unbounded one. -/
theorem not_unbounded {eps : K} (he : eps < 1) (r : NumRange K) (h : r.lower ≤ r.upper) :
    isUnbounded eps r = false := by
  by_contra hc
  have hc : isUnbounded eps r = true := by simpa using hc
  simp only [isUnbounded, fequal, Bool.and_eq_true, decide_eq_true_eq, abs_le] at hc
  linarith [hc.1.1, hc.2.2]

omit [Field K] [IsStrictOrderedRing K] in
theorem mk2_bounds (lo hi : K) :
    (mk2 lo hi).lower = min lo hi ∧ (mk2 lo hi).upper = max lo hi := by
  unfold mk2
  split
  · next h => exact ⟨(min_eq_right h.le).symm, (max_eq_left h.le).symm⟩
  · next h => exact ⟨(min_eq_left (not_lt.1 h)).symm, (max_eq_right (not_lt.1 h)).symm⟩

/-- C12: a range made from two bounds in either order is the closed interval between them: its
bounds are ordered, it is not unbounded, it accepts exactly the values between the bounds. -/
theorem range_closed_interval (eps : K) (he : eps < 1) (lo hi x : K) :
    (mk2 lo hi).lower ≤ (mk2 lo hi).upper ∧ isUnbounded eps (mk2 lo hi) = false ∧
    (contains eps (mk2 lo hi) x = true ↔ min lo hi ≤ x ∧ x ≤ max lo hi) ∧
    eq (mk2 lo hi) (mk2 hi lo) = true := by
  obtain ⟨h1, h2⟩ := mk2_bounds lo hi
  obtain ⟨h3, h4⟩ := mk2_bounds hi lo
  have hle : (mk2 lo hi).lower ≤ (mk2 lo hi).upper := by rw [h1, h2]; exact min_le_max
  have hu := not_unbounded he _ hle
  refine ⟨hle, hu, ?_, ?_⟩
  · simp [contains, hu, h1, h2]
  · simp [eq, h1, h2, h3, h4, min_comm, max_comm]

/-- C12: `Check` tells on which side of the interval the value lies. -/
theorem check_side (eps : K) (he : eps < 1) (lo hi x : K) :
    (check eps (mk2 lo hi) x = .ok ↔ min lo hi ≤ x ∧ x ≤ max lo hi) ∧
    (check eps (mk2 lo hi) x = .belowlower ↔ x < min lo hi) ∧
    (check eps (mk2 lo hi) x = .aboveupper ↔ max lo hi < x) := by
  obtain ⟨h1, h2⟩ := mk2_bounds lo hi
  obtain ⟨hle, hu, _⟩ := range_closed_interval eps he lo hi x
  have hmm : min lo hi ≤ max lo hi := min_le_max
  unfold check
  rw [hu, h1, h2]
  simp only [Bool.false_eq_true, if_false]
  generalize min lo hi = a at *
  generalize max lo hi = b at *
  by_cases hx : x < a
  · rw [if_pos hx]
    have hb : ¬ b < x := not_lt.2 (hx.le.trans hmm)
    simp [hx, hb, not_le.2 hx]
  · rw [if_neg hx]
    by_cases hy : x ≤ b
    · simp [hy, hx, not_lt.1 hx]
    · simp [hy, hx, not_le.1 hy]

/-- C12: the unbounded range accepts everything, and so does `Check`. -/
theorem unbounded_accepts (eps : K) (he : 0 ≤ eps) (x : K) :
    isUnbounded eps (unbounded : NumRange K) = true ∧ contains eps unbounded x = true ∧
    check eps unbounded x = .ok := by
  have : isUnbounded eps (unbounded : NumRange K) = true := by
    simp [isUnbounded, fequal, unbounded, he]
  simp [this, contains, check]

/-- A fixed point range accepts its point only. -/
theorem fixed_accepts (eps : K) (he : eps < 1) (p x : K) :
    isFixedPoint (fixed p) = true ∧ (contains eps (fixed p) x = true ↔ x = p) := by
  have hu := not_unbounded he (fixed p) le_rfl
  refine ⟨by simp [isFixedPoint, fixed], ?_⟩
  unfold contains
  rw [hu]
  simp only [Bool.false_eq_true, if_false, Bool.and_eq_true, decide_eq_true_eq]
  show p ≤ x ∧ x ≤ p ↔ x = p
  exact ⟨fun h => le_antisymm h.2 h.1, fun h => ⟨h.ge, h.le⟩⟩

omit [Field K] [IsStrictOrderedRing K] in
/-- `==` and `!=` are complementary. -/
theorem eq_ne (a b : NumRange K) : ne a b = !eq a b := by
  unfold ne eq
  by_cases h1 : a.lower = b.lower <;> by_cases h2 : a.upper = b.upper <;> simp [h1, h2]

/-- The documentation's interval is not what a range with `lower > upper` set through the public
members means: the bounds `1, -1` accept everything. Constructed ranges never get there
(`range_closed_interval`). -/
theorem sentinel_collision (x : K) : contains 0 (⟨1, -1⟩ : NumRange K) x = true :=
  (unbounded_accepts 0 le_rfl x).2.1

example : contains (0 : ℚ) (mk2 3 (-2)) 1 = true :=
  ((range_closed_interval 0 (by norm_num) (3 : ℚ) (-2) 1).2.2.1).2 (by norm_num)

example : check (1 / 1000 : ℚ) (mk2 1 (-1)) 5 = .aboveupper :=
  ((check_side (1 / 1000) (by norm_num) (1 : ℚ) (-1) 5).2.2).2 (by norm_num)

example : contains (0 : ℚ) (fixed 1) 1 = true := ((fixed_accepts 0 (by norm_num) 1 1).2).2 rfl

#print axioms range_closed_interval
#print axioms check_side
#print axioms unbounded_accepts
#print axioms fixed_accepts
#print axioms eq_ne
#print axioms sentinel_collision

end Verif.Range
