import Mathlib.Data.List.Perm.Basic
import Mathlib.Algebra.Order.BigOperators.Group.List
import Mathlib.Algebra.Order.Ring.Rat
import Mathlib.Algebra.Field.Rat
import Mathlib.Tactic.NormNum
import Mathlib.Data.Fin.VecNotation
import Verif.Bunch.Lemmas
import Verif.Bunch.MpiLemmas
import Verif.Bunch.TextLemmas

/-!
# Properties of particle bunches
-/

namespace Verif.Bunch
open Verif Verif.Bunch.Spec

set_option linter.unusedSectionVars false

variable {K : Type} [Field K] [LinearOrder K] [IsStrictOrderedRing K]

/-- A particle of the examples. -/
def exP (x dp : ℚ) (id : Int) : Particle ℚ := ⟨![x, 0, 0, 0, 0, dp], some id⟩

/-! ## Moments -/

/-- The first moments are the means of the coordinates. -/
theorem getMoments_mean (l : List (Particle K)) (i : Coord) :
    (getMoments l).1 i = mean (l.map fun p => p.v i) ∧ getCentroid l i = mean (l.map fun p => p.v i) :=
  ⟨getCentroid_eq l i, getCentroid_eq l i⟩

/-- The second moments are the covariances. -/
theorem getMoments_cov (l : List (Particle K)) (i j : Coord) :
    (getMoments l).2 i j = cov (l.map Particle.v) i j := getMoments_cov_eq l i j

/-- The moments of one coordinate: mean and variance (of which the code returns the root). -/
theorem getMoments1_spec (l : List (Particle K)) (i : Coord) :
    getMoments1 l i = (mean (l.map fun p => p.v i), cov (l.map Particle.v) i i) ∧ 0 ≤ (getMoments1 l i).2 := by
  have h : getMoments1 l i = (mean (l.map fun p => p.v i), cov (l.map Particle.v) i i) := by
    unfold getMoments1
    simp only
    rw [running_mean (fun p : Particle K => (p.v i - meanOf l i) * (p.v i - meanOf l i)) l, meanOf_eq]
    simp only [cov, List.map_map, Function.comp_def]
  refine ⟨h, ?_⟩
  rw [h]
  simp only [cov, mean]
  refine div_nonneg (List.sum_nonneg ?_) (Nat.cast_nonneg _)
  intro x hx
  obtain ⟨p, -, rfl⟩ := List.mem_map.1 hx
  exact mul_self_nonneg _

theorem mean_perm {l l' : List K} (h : l.Perm l') : mean l = mean l' := by
  unfold mean
  rw [h.sum_eq, h.length_eq]

/-- The order of the particles does not matter. -/
theorem getMoments_perm {l l' : List (Particle K)} (h : l.Perm l') : getMoments l = getMoments l' := by
  refine Prod.ext (funext fun i => ?_) (funext fun i => funext fun j => ?_)
  · rw [(getMoments_mean l i).1, (getMoments_mean l' i).1]
    exact mean_perm (h.map _)
  · rw [getMoments_cov, getMoments_cov]
    unfold cov
    have e : ∀ k : Coord, mean ((l.map Particle.v).map fun q => q k) = mean ((l'.map Particle.v).map fun q => q k) :=
      fun k => mean_perm ((h.map _).map _)
    rw [e i, e j]
    exact mean_perm ((h.map _).map _)

example : let l := [exP 1 2 0, exP 3 6 1, exP 8 1 2]
    (getMoments l).1 0 = 4 ∧ (getMoments l).2 0 5 = -8 / 3 ∧ (getMoments l).2 0 0 = 26 / 3 := by
  decide +kernel

/-- The projected moments are those of the whole bunch if the caller gives zero second moments. -/
theorem getProjectedMoments_partial (l : List (Particle K)) (u v : Coord) (sigma : Moments2D K)
    (h : sigma.s00 = 0 ∧ sigma.s01 = 0 ∧ sigma.s11 = 0) :
    getProjectedMoments l u v sigma = ⟨mean (l.map fun p => p.v u), mean (l.map fun p => p.v v),
      cov (l.map Particle.v) u u, cov (l.map Particle.v) u v, cov (l.map Particle.v) v v⟩ := by
  rw [getProjectedMoments_eq, h.1, h.2.1, h.2.2]
  simp

/-- What the second moments contained before is added to the result. -/
theorem getProjectedMoments_added (l : List (Particle K)) (u v : Coord) (sigma : Moments2D K) :
    getProjectedMoments l u v sigma = ⟨mean (l.map fun p => p.v u), mean (l.map fun p => p.v v),
      sigma.s00 + cov (l.map Particle.v) u u, sigma.s01 + cov (l.map Particle.v) u v,
      sigma.s11 + cov (l.map Particle.v) v v⟩ := getProjectedMoments_eq l u v sigma

/-- So a second call with the result of the first gives other values. -/
theorem getProjectedMoments_violated : ∃ (l : List (Particle ℚ)) (u v : Coord) (sigma : Moments2D ℚ),
    getProjectedMoments l u v (getProjectedMoments l u v sigma) ≠ getProjectedMoments l u v sigma :=
  ⟨[exP 0 0 0, exP 2 0 1], 0, 5, ⟨0, 0, 0, 0, 0⟩, by decide +kernel⟩

/-- The projected centroid holds the means. -/
theorem projCentroid_mean (l : List (Particle K)) (u v : Coord) :
    projCentroid l u v = (mean (l.map fun p => p.v u), mean (l.map fun p => p.v v)) := projCentroid_eq l u v

example : getProjectedMoments [exP 0 0 0, exP 2 4 1] 0 5 ⟨7, 7, 0, 0, 0⟩ = ⟨1, 2, 1, 2, 4⟩ := by decide +kernel

/-! ## Reference momentum and time -/

theorem mean_affine {α : Type} (l : List α) (hl : l ≠ []) (f : α → K) (a b : K) :
    mean (l.map fun x => a * f x + b) = a * mean (l.map f) + b := by
  have hn : ((l.length : Nat) : K) ≠ 0 := by
    have : 0 < l.length := List.length_pos_of_ne_nil hl
    positivity
  have hs : (l.map fun x => a * f x + b).sum = a * (l.map f).sum + l.length * b := by
    clear hl hn
    induction l with
    | nil => simp
    | cons x l ih => simp only [List.map_cons, List.sum_cons, List.length_cons, ih]; push_cast; ring
  unfold mean
  rw [List.length_map, List.length_map, hs]
  field_simp

/-- Changing the reference momentum is possible for `1 + dpp > 0`, scales it, and keeps the physical momentum, the other
coordinates and the id of every particle. -/
theorem adjustRefMomentum_keeps (b : PBunch K) (dpp : K) (hp : 0 < b.p0) (hd : 0 < 1 + dpp) :
    ∃ b' : PBunch K, adjustRefMomentum b dpp = .ok (b', b'.p0) ∧ b'.p0 = b.p0 * (1 + dpp) ∧ b'.ct0 = b.ct0 ∧
      b'.ps.length = b.ps.length ∧
      ∀ (k : Nat) (p : Particle K), b.ps[k]? = some p → ∃ p' : Particle K, b'.ps[k]? = some p' ∧
        momentum b'.p0 (p'.v ps_DP) = momentum b.p0 (p.v ps_DP) ∧ p'.pid = p.pid ∧ ∀ i, i ≠ ps_DP → p'.v i = p.v i := by
  have h0 : 0 < (1 + dpp) * b.p0 := mul_pos hd hp
  refine ⟨{ b with p0 := (1 + dpp) * b.p0, ps := b.ps.map fun p =>
    { p with v := Function.update p.v ps_DP ((p.v ps_DP - dpp) / (1 + dpp)) } }, ?_, mul_comm _ _, rfl, by simp, ?_⟩
  · simp [adjustRefMomentum, setReferenceMomentum, h0, Outcome.bind]
  · intro k p hk
    refine ⟨{ p with v := Function.update p.v ps_DP ((p.v ps_DP - dpp) / (1 + dpp)) }, by simp [hk], ?_, rfl, ?_⟩
    · have : 1 + dpp ≠ 0 := hd.ne'
      simp only [momentum, Function.update_self]
      field_simp
      ring
    · intro i hi
      simp [Function.update_of_ne hi]

/-- A deviation that leaves no positive momentum fails. -/
theorem adjustRefMomentum_ub (b : PBunch K) (dpp : K) (hp : 0 < b.p0) (hd : 1 + dpp ≤ 0) :
    adjustRefMomentum b dpp = .ub := by
  have h0 : ¬ 0 < (1 + dpp) * b.p0 := not_lt.2 (mul_nonpos_of_nonpos_of_nonneg hd hp.le)
  simp [adjustRefMomentum, setReferenceMomentum, h0, Outcome.bind]

/-- After adjusting to the mean, the reference momentum is the mean physical momentum and the mean deviation is zero. -/
theorem adjustRefMomentumToMean_mean (b : PBunch K) (hb : b.ps ≠ []) (hp : 0 < b.p0)
    (hd : 0 < 1 + mean (b.ps.map fun p => p.v ps_DP)) :
    ∃ b' : PBunch K, adjustRefMomentumToMean b = .ok (b', b'.p0) ∧
      b'.p0 = mean (b.ps.map fun p => momentum b.p0 (p.v ps_DP)) ∧ mean (b'.ps.map fun p => p.v ps_DP) = 0 := by
  unfold adjustRefMomentumToMean
  rw [meanOf_eq]
  generalize hm : mean (b.ps.map fun p => p.v ps_DP) = m at hd
  have h0 : 0 < (1 + m) * b.p0 := mul_pos hd hp
  have h1 : 1 + m ≠ 0 := hd.ne'
  refine ⟨{ b with p0 := (1 + m) * b.p0, ps := b.ps.map fun p =>
    { p with v := Function.update p.v ps_DP ((p.v ps_DP - m) / (1 + m)) } }, ?_, ?_, ?_⟩
  · simp [adjustRefMomentum, setReferenceMomentum, h0, Outcome.bind]
  · have e := mean_affine b.ps hb (fun p => p.v ps_DP) b.p0 b.p0
    rw [hm] at e
    simp only [momentum]
    rw [show (fun p : Particle K => b.p0 * (1 + p.v ps_DP)) = fun p => b.p0 * p.v ps_DP + b.p0 from
      funext fun p => by ring, e]
    ring
  · have e := mean_affine b.ps hb (fun p => p.v ps_DP) (1 / (1 + m)) (-m / (1 + m))
    rw [hm] at e
    simp only [List.map_map, Function.comp_def, Function.update_self]
    rw [show (fun p : Particle K => (p.v ps_DP - m) / (1 + m)) = fun p => 1 / (1 + m) * p.v ps_DP + -m / (1 + m) from
      funext fun p => by ring, e]
    ring

example : let b : PBunch ℚ := ⟨10, 0, 1, [exP 0 (1/10) 0, exP 0 (3/10) 1]⟩
    0 < b.p0 ∧ 0 < 1 + mean (b.ps.map fun p => p.v ps_DP) ∧ mean (b.ps.map fun p => p.v ps_DP) = 1 / 5 := by
  decide +kernel

/-- Adjusting the reference time keeps the physical arrival time of every particle, and the mean `ct` is zero after. -/
theorem adjustRefTimeToMean_spec (b : PBunch K) (hb : b.ps ≠ []) :
    let r := adjustRefTimeToMean b
    r.2 = r.1.ct0 ∧ r.1.p0 = b.p0 ∧ r.1.ct0 = mean (b.ps.map fun p => arrival b.ct0 (p.v ps_CT)) ∧
      mean (r.1.ps.map fun p => p.v ps_CT) = 0 ∧
      ∀ (k : Nat) (p : Particle K), b.ps[k]? = some p → ∃ p' : Particle K, r.1.ps[k]? = some p' ∧
        arrival r.1.ct0 (p'.v ps_CT) = arrival b.ct0 (p.v ps_CT) ∧ p'.pid = p.pid ∧
        ∀ i, i ≠ ps_CT → p'.v i = p.v i := by
  simp only [adjustRefTimeToMean]
  rw [meanOf_eq]
  generalize hm : mean (b.ps.map fun p => p.v ps_CT) = m
  refine ⟨trivial, trivial, ?_, ?_, ?_⟩
  · have e := mean_affine b.ps hb (fun p => p.v ps_CT) (-1) b.ct0
    rw [hm] at e
    simp only [arrival]
    rw [show (fun p : Particle K => b.ct0 - p.v ps_CT) = fun p => -1 * p.v ps_CT + b.ct0 from
      funext fun p => by ring, e]
    ring
  · have e := mean_affine b.ps hb (fun p => p.v ps_CT) 1 (-m)
    rw [hm] at e
    simp only [List.map_map, Function.comp_def, Function.update_self]
    rw [show (fun p : Particle K => p.v ps_CT - m) = fun p => 1 * p.v ps_CT + -m from funext fun p => by ring, e]
    ring
  · intro k p hk
    refine ⟨{ p with v := Function.update p.v ps_CT (p.v ps_CT - m) }, by simp [hk], ?_, rfl, ?_⟩
    · simp only [arrival, Function.update_self]
      ring
    · intro i hi
      simp [Function.update_of_ne hi]

example : let b : PBunch ℚ := ⟨10, 5, 1, [⟨![0, 0, 0, 0, 1, 0], some 0⟩, ⟨![0, 0, 0, 0, 3, 0], some 1⟩]⟩
    (adjustRefTimeToMean b).2 = 3 := by
  decide +kernel

/-! ## The centroid particle -/

/-- Exact effect of `SetCentroid`: the first particle is kept, and the distance between mean and first particle is
divided by the number of particles. -/
theorem setCentroid_mean (b : PBunch K) (first : Particle K) (rest : List (Particle K)) (hb : b.ps = first :: rest) :
    ∃ b', setCentroid b = .ok b' ∧ b'.ps.head? = some first ∧ b'.ps.length = b.ps.length ∧
      ∀ i, mean (b'.ps.map fun p => p.v i) - first.v i =
        (mean (b.ps.map fun p => p.v i) - first.v i) / b.ps.length := by
  refine ⟨_, by simp only [setCentroid, hb]; rfl, rfl, by simp [hb], fun i => ?_⟩
  simp only [getCentroid_eq]
  have hs : ∀ (l : List (Particle K)) (c : K), (l.map fun p => p.v i - c).sum =
      (l.map fun p => p.v i).sum - l.length * c := by
    intro l c
    induction l with
    | nil => simp
    | cons p l ih => simp only [List.map_cons, List.sum_cons, List.length_cons, ih]; push_cast; ring
  have hn : ((rest.length : Nat) : K) + 1 ≠ 0 := by positivity
  rw [hb]
  simp only [List.map_cons, List.map_map, Function.comp_def, mean, List.sum_cons, List.length_cons,
    List.length_map, hs]
  push_cast
  field_simp
  ring

/-- So the mean is the first particle afterwards only if it was before. -/
theorem setCentroid_iff (b : PBunch K) (first : Particle K) (rest : List (Particle K)) (hb : b.ps = first :: rest)
    (i : Coord) : ∃ b', setCentroid b = .ok b' ∧
      (mean (b'.ps.map fun p => p.v i) = first.v i ↔ mean (b.ps.map fun p => p.v i) = first.v i) := by
  obtain ⟨b', e, -, -, h⟩ := setCentroid_mean b first rest hb
  refine ⟨b', e, ?_⟩
  have hn : ((b.ps.length : Nat) : K) ≠ 0 := by rw [hb]; simp only [List.length_cons]; positivity
  rw [← sub_eq_zero, h i, div_eq_zero_iff, sub_eq_zero]
  simp [hn]

theorem setCentroid_violated : ∃ (b b' : PBunch ℚ), setCentroid b = .ok b' ∧
    ∃ first, b'.ps.head? = some first ∧ mean (b'.ps.map fun p => p.v 0) ≠ first.v 0 := by
  obtain ⟨b', e, h1, -, h2⟩ := setCentroid_mean (K := ℚ) ⟨1, 0, 1, [exP 0 0 0, exP 2 0 1]⟩ (exP 0 0 0) [exP 2 0 1] rfl
  refine ⟨_, b', e, _, h1, fun h => ?_⟩
  have := h2 0
  rw [h] at this
  exact absurd this (by decide +kernel)

/-- The same with a given centroid: it becomes the first particle, the mean is off by a fraction. -/
theorem setCentroidTo_mean (b : PBunch K) (x0 first : Particle K) (rest : List (Particle K))
    (hb : b.ps = first :: rest) :
    ∃ b', setCentroidTo b x0 = .ok b' ∧ b'.ps.head? = some x0 ∧
      ∀ i, mean (b'.ps.map fun p => p.v i) - x0.v i =
        (mean ((x0 :: rest).map fun p => p.v i) - x0.v i) / b.ps.length := by
  obtain ⟨b', e, h1, -, h2⟩ := setCentroid_mean { b with ps := x0 :: rest } x0 rest rfl
  refine ⟨b', ?_, h1, ?_⟩
  · rw [← e]
    simp only [setCentroidTo, hb]
  · intro i
    rw [h2 i, hb]
    simp

/-! ## Charge, swap and construction -/

/-- A bunch made from an array has the given charge and all the particles; the array is empty afterwards. -/
theorem fromArray_spec (P0 Q : K) (l : List (Particle K)) (hP : 0 < P0) (hl : l ≠ []) :
    ∃ b, fromArray P0 Q l = .ok (b, []) ∧ b.ps = l ∧ b.p0 = P0 ∧ getTotalCharge b = Q := by
  refine ⟨_, by simp [fromArray, hP]; rfl, rfl, rfl, ?_⟩
  have hn : ((l.length : Nat) : K) ≠ 0 := by
    have : 0 < l.length := List.length_pos_of_ne_nil hl
    positivity
  simp only [getTotalCharge]
  field_simp

/-- The charge goes with the number of particles. -/
theorem charge_lost (b b' : PBunch K) (hq : b'.qPerMP = b.qPerMP) (hl : b.ps ≠ []) :
    getTotalCharge b' = getTotalCharge b * (b'.ps.length / b.ps.length) := by
  have hn : ((b.ps.length : Nat) : K) ≠ 0 := by
    have : 0 < b.ps.length := List.length_pos_of_ne_nil hl
    positivity
  simp only [getTotalCharge, hq]
  field_simp

/-- `swap` gives this bunch the particles of the other. -/
theorem swap_partial (a b : PBunch K) : (swap a b).1.ps = b.ps := rfl

/-- The other bunch keeps its particles, so the two do not exchange them unless they had the same. -/
theorem swap_violated (a b : PBunch K) : (swap a b).2.ps = a.ps ↔ b.ps = a.ps := Iff.rfl

example : ∃ a b : PBunch ℚ, b.ps ≠ a.ps := ⟨⟨1, 0, 1, [exP 0 0 0]⟩, ⟨1, 0, 1, []⟩, by simp⟩

/-- The particles the loop of the constructor appends: numbered in order, each made from a later draw than the one before,
accepted by the filter, and no accepted draw is left out. -/
inductive Accepted (draw : Nat → Coord → K) (F : (Coord → K) → Coord → K) (c : Coord → K)
    (filter : Particle K → Bool) : Nat → Nat → List (Particle K) → Prop
  | nil (k i : Nat) : Accepted draw F c filter k i []
  | skip (k i : Nat) (l : List (Particle K)) : filter ⟨fun j => F (draw k) j + c j, some i⟩ = false →
      Accepted draw F c filter (k + 1) i l → Accepted draw F c filter k i l
  | take (k i : Nat) (l : List (Particle K)) : filter ⟨fun j => F (draw k) j + c j, some i⟩ = true →
      Accepted draw F c filter (k + 1) (i + 1) l →
      Accepted draw F c filter k i (⟨fun j => F (draw k) j + c j, some i⟩ :: l)

theorem genLoop_spec (draw : Nat → Coord → K) (F : (Coord → K) → Coord → K) (c : Coord → K)
    (filter : Option (Particle K → Bool)) (np : Nat) : ∀ (fuel k i : Nat) (acc l : List (Particle K)),
    genLoop draw F c filter np fuel k i acc = some l →
    ∃ new, l = acc ++ new ∧ new.length = np - i ∧ Accepted draw F c (fun p => filter.all (fun f => f p)) k i new
  | 0, k, i, acc, l, h => by
    simp only [genLoop] at h
    split_ifs at h with hi
    simp only [Option.some.injEq] at h
    exact ⟨[], by simp [h], by simp only [List.length_nil]; omega, .nil k i⟩
  | fuel + 1, k, i, acc, l, h => by
    simp only [genLoop] at h
    split_ifs at h with hi hf
    · obtain ⟨new, e, hl, hA⟩ := genLoop_spec draw F c filter np fuel (k + 1) (i + 1) _ l h
      exact ⟨⟨fun j => F (draw k) j + c j, some i⟩ :: new, by simp [e], by simp only [List.length_cons]; omega,
        .take k i new hf hA⟩
    · obtain ⟨new, e, hl, hA⟩ := genLoop_spec draw F c filter np fuel (k + 1) i _ l h
      exact ⟨new, e, hl, .skip k i new (by simpa using hf) hA⟩
    · simp only [Option.some.injEq] at h
      exact ⟨[], by simp [h], by simp only [List.length_nil]; omega, .nil k i⟩

theorem accepted_ids {draw : Nat → Coord → K} {F : (Coord → K) → Coord → K} {c : Coord → K} {f : Particle K → Bool}
    {k i : Nat} {l : List (Particle K)} (h : Accepted draw F c f k i l) :
    ∀ (m : Nat) (p : Particle K), l[m]? = some p → p.pid = some ((i + m : Nat) : Int) ∧ f p = true := by
  induction h with
  | nil k i => intro m p h; simp at h
  | skip k i l _ _ ih => exact ih
  | take k i l hf _ ih =>
    intro m p h
    cases m with
    | zero =>
      simp only [List.getElem?_cons_zero, Option.some.injEq] at h
      subst h
      exact ⟨rfl, hf⟩
    | succ m =>
      have := ih m p (by simpa using h)
      rw [this.1]
      refine ⟨?_, this.2⟩
      congr 2
      omega

/-- If the constructor ends, the bunch has `np` particles (one if `np` is 0) with the ids 0, 1, …, the first is the
centroid, the others passed the filter, and the charge is that of the beam. -/
theorem generate_spec (draw : Nat → Coord → K) (F : (Coord → K) → Coord → K) (p0 charge : K) (c : Coord → K)
    (filter : Option (Particle K → Bool)) (np fuel : Nat) (b : PBunch K)
    (h : generate draw F p0 charge c filter np fuel = some b) :
    b.p0 = p0 ∧ b.ps.length = max np 1 ∧ b.ps.head? = some ⟨c, some 0⟩ ∧ getTotalCharge b = charge ∧
      (∀ (m : Nat) (p : Particle K), b.ps[m]? = some p → p.pid = some (m : Int)) ∧
      (∀ p ∈ b.ps.tail, ∀ f, filter = some f → f p = true) ∧
      Accepted draw F c (fun p => filter.all (fun f => f p)) 0 1 b.ps.tail := by
  unfold generate at h
  simp only [Option.map_eq_some_iff] at h
  obtain ⟨l, hl, rfl⟩ := h
  obtain ⟨new, rfl, hn, hA⟩ := genLoop_spec draw F c filter np fuel 0 1 _ l hl
  have ids := accepted_ids hA
  refine ⟨rfl, ?_, rfl, ?_, ?_, ?_, hA⟩
  · simp only [List.length_append, List.length_cons, List.length_nil, hn]
    omega
  · have : ((([(⟨c, some 0⟩ : Particle K)] ++ new).length : Nat) : K) ≠ 0 := by
      simp only [List.length_append, List.length_cons, List.length_nil]
      positivity
    simp only [getTotalCharge]
    field_simp
  · intro m p hp
    cases m with
    | zero =>
      simp only [List.singleton_append, List.getElem?_cons_zero, Option.some.injEq] at hp
      subst hp
      rfl
    | succ m =>
      rw [(ids m p (by simpa using hp)).1, Nat.add_comm]
  · intro p hp f hf
    obtain ⟨m, hm⟩ := List.getElem?_of_mem (show p ∈ new from hp)
    have := (ids m p hm).2
    subst hf
    simpa using this

/-- Without a filter the constructor ends after `np` draws at most. -/
theorem generate_ends (draw : Nat → Coord → K) (F : (Coord → K) → Coord → K) (p0 charge : K) (c : Coord → K)
    (np : Nat) : ∃ b, generate draw F p0 charge c none np np = some b := by
  have key : ∀ (fuel k i : Nat) (acc : List (Particle K)), np ≤ i + fuel →
      ∃ l, genLoop draw F c none np fuel k i acc = some l := by
    intro fuel
    induction fuel with
    | zero => intro k i acc h; exact ⟨acc, by simp [genLoop]; omega⟩
    | succ fuel ih =>
      intro k i acc h
      unfold genLoop
      by_cases hi : i < np
      · simp only [hi, if_true, Option.all_none]
        exact ih (k + 1) (i + 1) _ (by omega)
      · exact ⟨acc, by simp [hi]⟩
  obtain ⟨l, hl⟩ := key np 0 1 [⟨c, some 0⟩] (by omega)
  exact ⟨_, by simp [generate, hl]; rfl⟩

/-- With a filter that accepts nothing it does not end if more than one particle is asked for. -/
theorem generate_endless (draw : Nat → Coord → K) (F : (Coord → K) → Coord → K) (p0 charge : K) (c : Coord → K)
    (np : Nat) (hn : 2 ≤ np) (fuel : Nat) : generate draw F p0 charge c (some fun _ => false) np fuel = none := by
  have key : ∀ (fuel k : Nat) (acc : List (Particle K)),
      genLoop draw F c (some fun _ => false) np fuel k 1 acc = none := by
    intro fuel
    induction fuel with
    | zero => intro k acc; simp [genLoop]; omega
    | succ fuel ih =>
      intro k acc
      unfold genLoop
      simp only [show 1 < np by omega, if_true, Option.all_some]
      exact ih _ _
  simp [generate, key]

/-- Asking for no particles gives one. -/
theorem generate_zero_violated (draw : Nat → Coord → K) (F : (Coord → K) → Coord → K) (p0 charge : K) (c : Coord → K)
    (filter : Option (Particle K → Bool)) (fuel : Nat) :
    ∃ b, generate draw F p0 charge c filter 0 fuel = some b ∧ b.ps.length = 1 := by
  refine ⟨_, by unfold generate; cases fuel <;> simp [genLoop] <;> rfl, rfl⟩

/-- The centroid is in the bunch even if the filter rejects it. -/
theorem generate_filter_violated : ∃ (draw : Nat → Coord → ℚ) (f : Particle ℚ → Bool) (c : Coord → ℚ) (b : PBunch ℚ),
    generate draw id 1 1 c (some f) 2 5 = some b ∧ ∃ p ∈ b.ps, f p = false := by
  refine ⟨fun k _ => k, fun p => decide (1 < p.v 0), fun _ => 0,
    ⟨1, 0, 1 / 2, [⟨fun _ => 0, some 0⟩, ⟨fun _ => 2, some 1⟩]⟩, ?_, ⟨fun _ => 0, some 0⟩, by simp, by decide +kernel⟩
  have h : genLoop (fun k _ => (k : ℚ)) id (fun _ => 0) (some fun p => decide (1 < p.v 0)) 2 5 0 1
      [⟨fun _ => 0, some 0⟩] = some [⟨fun _ => 0, some 0⟩, ⟨fun _ => 2, some 1⟩] := by decide +kernel
  simp [generate, h]

/-! ## Files -/

theorem inputLoop_rows (t p : K) (hp : 0 < p) : ∀ (l : List (Particle K)) (b : PBunch K),
    inputLoop (l.map fun q => Line.row t p q.v none) none b =
      .ok (if l = [] then b else { b with ps := b.ps ++ l.map fun q => ⟨q.v, none⟩, ct0 := t, p0 := p })
  | [], b => by simp [inputLoop]
  | q :: l, b => by
    simp only [List.map_cons, inputLoop, setReferenceMomentum, hp, if_true, Outcome.bind, Option.orElse_none]
    rw [inputLoop_rows t p hp l]
    by_cases hl : l = []
    · simp [hl]
    · simp [hl]

/-- A bunch written with `Output` and read with `Input` into an empty bunch has the coordinates of all particles in order,
the reference time and momentum, and the charge given to `Input`.  Missing: the ids (see `input_ids_violated`). -/
theorem input_output_partial (header : Bool) (b : PBunch K) (hb : b.ps ≠ []) (hp : 0 < b.p0) (Q : K) (e : PBunch K)
    (he : e.ps = []) :
    ∃ b', input Q (output header b) e = .ok b' ∧ b'.ps.map Particle.v = b.ps.map Particle.v ∧ b'.p0 = b.p0 ∧
      b'.ct0 = b.ct0 ∧ getTotalCharge b' = Q := by
  have h : inputLoop (output header b) none e =
      .ok { e with ps := b.ps.map fun q => ⟨q.v, none⟩, ct0 := b.ct0, p0 := b.p0 } := by
    have := inputLoop_rows b.ct0 b.p0 hp b.ps e
    rw [if_neg hb, he] at this
    cases header <;> simpa [output, inputLoop] using this
  refine ⟨⟨b.p0, b.ct0, Q / (b.ps.map fun q => (⟨q.v, none⟩ : Particle K)).length, b.ps.map fun q => ⟨q.v, none⟩⟩,
    by simp only [input, h, Outcome.bind], by simp, rfl, rfl, ?_⟩
  have hn : ((b.ps.length : Nat) : K) ≠ 0 := by
    have : 0 < b.ps.length := List.length_pos_of_ne_nil hb
    positivity
  simp only [getTotalCharge, List.length_map]
  field_simp

/-- All ids are lost. -/
theorem input_ids_violated (header : Bool) (b : PBunch K) (hp : 0 < b.p0) (Q : K) (e : PBunch K)
    (he : e.ps = []) :
    ∃ b', input Q (output header b) e = .ok b' ∧ b'.ps.length = b.ps.length ∧ ∀ p ∈ b'.ps, p.pid = none := by
  have h := inputLoop_rows b.ct0 b.p0 hp b.ps e
  have h' : inputLoop (output header b) none e = inputLoop (b.ps.map fun q => Line.row b.ct0 b.p0 q.v none) none e := by
    cases header <;> simp [output, inputLoop]
  by_cases hb : b.ps = []
  · rw [if_pos hb] at h
    refine ⟨_, by simp only [input, h', h, Outcome.bind]; rfl, by simp [he, hb], by simp [he]⟩
  · rw [if_neg hb] at h
    refine ⟨_, by simp only [input, h', h, Outcome.bind]; rfl, by simp [he], ?_⟩
    intro p hp
    simp only [he, List.nil_append, List.mem_map] at hp
    obtain ⟨q, -, rfl⟩ := hp
    rfl

example : let b : PBunch ℚ := ⟨10, 5, 1, [exP 1 2 7, exP 3 4 8]⟩
    b.ps ≠ [] ∧ 0 < b.p0 ∧ ∀ p ∈ b.ps, p.pid ≠ none := by decide +kernel

/-! ## Text of one particle -/

section
open Text

/-- A particle with a negative id is read back as it was written.  Missing: the other ids, for which it is false. -/
theorem read_write_partial (cs : List Num) (id : Int') (hc : cs.length = 6) (h : ∀ n ∈ cs, Printed n)
    (hid : Digits id.digits) (hn : id.neg = true) : read (write cs id) = some ((cs, id), ['\n']) := by
  have e := readNums_write_neg cs id h hn
  rw [hc] at e
  have hr : readInt ('-' :: (id.digits ++ ['\n'])) = some (id, ['\n']) := by
    have t := takeWhile_digits hid.2 (show NoDigit ['\n'] from rfl)
    have d := dropWhile_digits hid.2 (show NoDigit ['\n'] from rfl)
    obtain ⟨neg, digits⟩ := id
    simp only at hn hid t d
    subst hn
    simp [readInt, isWs, sign, t, d, hid.1]
  simp only [Text.read, e, Option.bind_some, hr, Option.map_some]

/-- A particle with an id that is not negative cannot be read back: the digits of the id are taken as part of the
exponent of the last coordinate, and no id is left. -/
theorem read_write_violated (cs : List Num) (n : Num) (id : Int') (hc : cs.length = 5)
    (h : ∀ m ∈ cs ++ [n], Printed m) (hid : Digits id.digits) (hn : id.neg = false) :
    read (write (cs ++ [n]) id) = none ∧ ∀ fuel, readAll fuel (write (cs ++ [n]) id) = [] := by
  have e := readNums_write cs n id h hid hn
  rw [hc] at e
  have hr : read (write (cs ++ [n]) id) = none := by
    simp only [Text.read, e, Option.bind_some]
    rfl
  refine ⟨hr, fun fuel => ?_⟩
  cases fuel with
  | zero => rfl
  | succ f => simp [readAll, hr]

/-- The number one. -/
def one : Num := ⟨false, ['1'], "0000000000".toList, false, ['0', '0']⟩

theorem one_printed : Printed one := ⟨by unfold Digits; decide, by unfold Digits; decide, by unfold Digits; decide⟩

example : (∀ m ∈ [one, one, one, one, one] ++ [one], Printed m) ∧ Digits ['5'] := by
  refine ⟨?_, by unfold Digits; decide⟩
  intro m hm
  simp only [List.cons_append, List.nil_append, List.mem_cons, List.not_mem_nil, or_false, or_self] at hm
  subst hm
  exact one_printed

/-- With more particles the numbers read are others: a deviation of 1 of a particle with the id 5 becomes 1e5, the id is
taken from the next line, and the next coordinate is what is left of the number there. -/
example : ((readAll 10 (write [one, one, one, one, one, one] ⟨false, ['5']⟩ ++
    write [one, one, one, one, one, one] ⟨false, ['6']⟩)).map fun p => (p.1.map Num.ex, p.2)) =
    [([['0', '0'], ['0', '0'], ['0', '0'], ['0', '0'], ['0', '0'], ['0', '0', '5']], ⟨false, ['1']⟩)] := by
  decide +kernel

end

/-! ## Processes -/

/-- With buffers of six numbers per particle, distributing a bunch puts each particle on one process: the nodes have
`n / size` particles each, in order, and the master the rest. -/
theorem distribute_partial (size : Nat) (hs : 0 < size) (l : List (Mem K)) :
    ∃ m nodes, distribute 6 size l = .ok (m, nodes) ∧ nodes.length = size - 1 ∧
      (nodes.flatten ++ m).map Mem.v = l.map Mem.v ∧ (∀ n ∈ nodes, n.length = l.length / size) ∧
      m.length = l.length / size + l.length % size := by
  have hle : l.length / size * (size - 1) + l.length / size = l.length / size * size := by
    obtain ⟨k, rfl⟩ : ∃ k, size = k + 1 := ⟨size - 1, by omega⟩
    simp [Nat.mul_succ]
  have hdm := Nat.div_add_mod' l.length size
  refine ⟨_, _, distribute_eq size l, by simp, ?_, ?_, ?_⟩
  · have h := slices (l.length / size) l (size - 1)
    have e : ((List.range (size - 1)).map fun n =>
        ((l.drop (l.length / size * n)).take (l.length / size)).map noId).flatten =
        (((List.range (size - 1)).map fun n => (l.drop (l.length / size * n)).take (l.length / size)).flatten).map
          noId := by
      rw [List.map_flatten, List.map_map]
      rfl
    rw [e, h, ← List.map_append, List.take_append_drop, List.map_map]
    rfl
  · intro n hn
    obtain ⟨k, hk, rfl⟩ := List.mem_map.1 hn
    rw [List.mem_range] at hk
    rw [List.length_map, List.length_take, List.length_drop]
    have : l.length / size * k + l.length / size ≤ l.length / size * (size - 1) := by
      rw [← Nat.mul_succ]
      exact Nat.mul_le_mul_left _ (by omega)
    omega
  · rw [List.length_map, List.length_drop]
    generalize l.length / size * (size - 1) = a at hle ⊢
    generalize l.length / size * size = b at hle hdm
    generalize l.length / size = c at hle hdm ⊢
    generalize l.length % size = d at hle hdm ⊢
    omega

/-- Gathering appends the particles of the nodes to those of the master. -/
theorem gather_partial (m : List (Mem K)) (nodes : List (List (Mem K))) :
    ∃ m', gather 6 (m, nodes) = .ok (m', nodes) ∧ m'.map Mem.v = (m ++ nodes.flatten).map Mem.v := by
  refine ⟨_, by simp only [gather, gatherLoop_eq, Outcome.bind]; rfl, ?_⟩
  simp [noId, Function.comp_def]

/-- Distributing and gathering gives the master the same particles, in another order. -/
theorem gather_distribute_partial (size : Nat) (hs : 0 < size) (l : List (Mem K)) :
    ∃ m nodes, ((distribute 6 size l).bind (gather 6)) = .ok (m, nodes) ∧
      (m.map Mem.v).Perm (l.map Mem.v) := by
  obtain ⟨m, nodes, e, -, h, -, -⟩ := distribute_partial size hs l
  obtain ⟨m', e', h'⟩ := gather_partial m nodes
  refine ⟨m', nodes, ?_, ?_⟩
  · rw [e]
    exact e'
  · rw [h', ← h]
    simp only [List.map_append]
    exact List.perm_append_comm

/-- With the number of cells the code computes, seven, any bunch with a particle fails: the master always keeps one, and
reading it goes beyond the six coordinates. -/
theorem distribute_violated (size : Nat) (hs : 0 < size) (l : List (Mem K)) (hl : l ≠ []) :
    distribute coordsCode size l = .ub := by
  have hpos : 0 < l.length := List.length_pos_of_ne_nil hl
  have hlt : l.length / size * (size - 1) < l.length := by
    rcases Nat.eq_zero_or_pos (l.length / size) with h0 | h0
    · rw [h0]; omega
    · have hle : l.length / size * (size - 1) + l.length / size = l.length / size * size := by
        obtain ⟨k, rfl⟩ : ∃ k, size = k + 1 := ⟨size - 1, by omega⟩
        simp [Nat.mul_succ]
      have hdm := Nat.div_add_mod' l.length size
      omega
  have hne : (l.map (pack coordsCode)).drop (l.length / size * (size - 1)) ≠ [] := by
    intro h
    have := congrArg List.length h
    simp only [List.length_drop, List.length_map, List.length_nil] at this
    omega
  have h2 := unpackAll_ub coordsCode (by decide) _ hne
  simp only [distribute, h2, Outcome.bind]
  have h3 : ∀ ns : List Nat, (∃ x, sendNodes coordsCode (l.length / size) (l.map (pack coordsCode)) ns = .ok x) ∨
      sendNodes coordsCode (l.length / size) (l.map (pack coordsCode)) ns = .ub := by
    intro ns
    induction ns with
    | nil => exact .inl ⟨[], rfl⟩
    | cons n ns ih =>
      have hu : ∀ b : List (List (Option K)), (∃ x, unpackAll coordsCode b = .ok x) ∨ unpackAll coordsCode b = .ub := by
        intro b
        by_cases hb : b = []
        · subst hb; exact .inl ⟨[], rfl⟩
        · exact .inr (unpackAll_ub coordsCode (by decide) b hb)
      simp only [sendNodes]
      rcases hu ((List.drop (l.length / size * n) (l.map (pack coordsCode))).take (l.length / size)) with ⟨x, hx⟩ | hx
      · rw [hx]
        rcases ih with ⟨y, hy⟩ | hy
        · rw [hy]; exact .inl ⟨_, rfl⟩
        · rw [hy]; exact .inr rfl
      · rw [hx]; exact .inr rfl
  rcases h3 (List.range (size - 1)) with ⟨x, hx⟩ | hx
  · rw [hx]
  · rw [hx]

/-- Gathering also fails as soon as a node has a particle. -/
theorem gather_violated (m node : List (Mem K)) (nodes : List (List (Mem K))) (h : node ≠ []) :
    gather coordsCode (m, node :: nodes) = .ub := by
  have hne : node.map (pack coordsCode) ≠ [] := by simpa using h
  simp [gather, gatherLoop, unpackAll_ub coordsCode (by decide) _ hne, Outcome.bind]

/-- After `gather` the nodes still have their particles, so a second `gather` duplicates them. -/
theorem gather_twice_violated (m node : List (Mem K)) :
    ∃ m' m'' nodes', gather 6 (m, [node]) = .ok (m', [node]) ∧ gather 6 (m', [node]) = .ok (m'', nodes') ∧
      m''.length = m.length + 2 * node.length := by
  refine ⟨_, _, _, by simp only [gather, gatherLoop_eq, Outcome.bind]; rfl,
    by simp only [gather, gatherLoop_eq, Outcome.bind]; rfl, ?_⟩
  simp
  omega

/-- The ids are not transferred. -/
theorem distribute_ids_violated (size : Nat) (l : List (Mem K)) :
    ∃ m nodes, distribute 6 size l = .ok (m, nodes) ∧ ∀ p ∈ m, p.pid = none := by
  refine ⟨_, _, distribute_eq size l, ?_⟩
  intro p hp
  obtain ⟨q, -, rfl⟩ := List.mem_map.1 hp
  rfl

example : [mem (exP 1 2 0), mem (exP 3 4 1), mem (exP 5 6 2)] ≠ [] ∧ 0 < 2 := by simp

end Verif.Bunch
