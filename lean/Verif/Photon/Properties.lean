import Verif.Photon.Law
import Mathlib.Analysis.SpecialFunctions.Pow.Deriv

/-!
# Photon energies (C299-C305)

C299 is `synRad_low`, `synRad_high` and `synRad_zero`, C300 `synRad_pos`, `below_power` and `below_exp` (Envelope.lean), C301
`round_law`, `round_ratio` and `total_integral` (Law.lean).
-/

namespace Verif.Photon
open Verif.Photon.Spec Real MeasureTheory Set

example : ∃ x : ℝ, 0 < x ∧ x < 6 ∧ |x ^ 2 / 32 - 1| ≤ 1 := ⟨1, by norm_num, by norm_num, (synRad_low one_pos (by norm_num)).2⟩
example : 0 < synRad 3 := synRad_pos (by norm_num) (by norm_num)
example : synRad (1 / 2) ≤ (consts 0).a1 * (1 / 2 : ℝ) ^ (-2 / 3 : ℝ) := below_power (by norm_num) (by norm_num)
example : synRad 3 ≤ (consts 0).a2 * exp (-3) := below_exp (by norm_num) (by norm_num)
example : MeasurableSet (Icc (2 : ℝ) 3) ∧ Icc (2 : ℝ) 3 ⊆ Ici 1e-38 :=
  ⟨measurableSet_Icc, fun x hx => le_trans (by norm_num : (1e-38 : ℝ) ≤ 2) hx.1⟩

/-- Energies of an interval come out with a probability that is not zero. -/
example : volume {p : ℝ × ℝ × ℝ | p.1 ∈ Icc 0 1 ∧ p.2.1 ∈ Icc 0 1 ∧ p.2.2 ∈ Icc 0 1 ∧
    ∃ x ∈ Icc (2 : ℝ) 3, round (consts 0) p.1 p.2.1 p.2.2 = (some x, false)} ≠ 0 := by
  rw [round_total le_rfl one_pos measurableSet_Icc (fun x hx => le_trans (by norm_num : (1e-38 : ℝ) ≤ 2) hx.1)]
  refine mul_ne_zero (by simp [total_pos le_rfl one_pos]) ?_
  have hi : Icc (2 : ℝ) 3 ∩ Ioi 0 = Icc 2 3 := inter_eq_left.mpr fun x hx => mem_Ioi.mpr (lt_of_lt_of_le (by norm_num) hx.1)
  rw [hi]
  have hm : Measurable fun x => ENNReal.ofReal (synRad x) := ENNReal.measurable_ofReal.comp measurable_synRad
  rw [Ne, lintegral_eq_zero_iff hm, Filter.EventuallyEq, ae_restrict_iff' measurableSet_Icc, ae_iff]
  intro h
  have h2 : Icc (2 : ℝ) 3 ⊆ {a | ¬ (a ∈ Icc (2 : ℝ) 3 → ENNReal.ofReal (synRad a) = (0 : ℝ → ENNReal) a)} := by
    intro x hx h3
    have := h3 hx
    simp only [Pi.zero_apply, ENNReal.ofReal_eq_zero] at this
    exact absurd (synRad_pos (by linarith [hx.1]) (by linarith [hx.2])) (not_lt.mpr this)
  have := measure_mono_null h2 h
  rw [Real.volume_Icc] at this
  norm_num at this

/-- C302: the energy returned is that of the first round that is accepted, and three random numbers are used in each. -/
theorem loop_first (k : Consts) (draws : List ℝ) (e : Option ℝ) (rest : List ℝ) :
    loop k draws = some (e, rest) ↔
      ∃ (rs : List (ℝ × ℝ × ℝ)) (w v u : ℝ), draws = rs.flatMap (fun t => [t.1, t.2.1, t.2.2]) ++ w :: v :: u :: rest ∧
        (∀ t ∈ rs, (round k t.1 t.2.1 t.2.2).2 = true) ∧ round k w v u = (e, false) := by
  constructor
  · intro h
    induction draws using loop.induct k with
    | case1 w v u tl hr ih =>
      rw [loop, if_pos hr] at h
      obtain ⟨rs, w', v', u', h1, h2, h3⟩ := ih h
      refine ⟨(w, v, u) :: rs, w', v', u', by simp [h1], ?_, h3⟩
      intro t ht
      rcases List.mem_cons.mp ht with rfl | ht
      · exact hr
      · exact h2 t ht
    | case2 w v u tl hr =>
      rw [loop, if_neg hr] at h
      obtain ⟨h1, h2⟩ := Prod.mk.inj (Option.some.inj h)
      exact ⟨[], w, v, u, by simp [h2], by simp, Prod.ext h1 (by simpa using hr)⟩
    | case3 l hl =>
      rw [loop] at h
      · exact absurd h (by simp)
      · exact hl
  · rintro ⟨rs, w, v, u, rfl, h2, h3⟩
    induction rs with
    | nil => simp [loop, h3]
    | cons t rs ih =>
      simp only [List.flatMap_cons, List.cons_append, List.nil_append, loop]
      rw [if_pos (h2 t (by simp))]
      exact ih fun t ht => h2 t (by simp [ht])

/-- A rejected round and an accepted one. -/
example : ∃ e, loop (consts 0) [(consts 0).ratio, 1, 2, (consts 0).ratio, 1, 0] = some (e, []) := by
  have hx : (consts 0).xlow = 1 := by simp [consts]
  have ha := a2_pos (xmin := 0) (by norm_num)
  have hb := below_exp (xmin := 0) (x := 1) (by norm_num) le_rfl
  refine ⟨some 1, (loop_first _ _ _ _).mpr ⟨[((consts 0).ratio, 1, 2)], (consts 0).ratio, 1, 0, rfl, ?_, ?_⟩⟩
  · simp only [List.mem_singleton, forall_eq, round, lt_irrefl, if_false, high, one_ne_zero, hx, Real.log_one, sub_zero, decide_eq_true_eq]
    have : 0 < (consts 0).a2 * exp (-1) := by positivity
    linarith
  · simp only [round, lt_irrefl, if_false, high, one_ne_zero, hx, Real.log_one, sub_zero, mul_zero, Prod.mk.injEq, true_and,
      decide_eq_false_iff_not, not_lt]
    exact synRad_nonneg 1

/-- C302: a round chooses the approximation with its first random number and the energy with its second. -/
theorem round_choice (k : Consts) (w v u : ℝ) :
    (round k w v u).1 = if w < k.ratio then some ((k.c1 + (1 - k.c1) * v) ^ 3) else if v = 0 then none else some (k.xlow - log v) := by
  unfold round
  split
  · simp only [low]
    congr 1
    ring
  · simp only [high]
    split <;> rfl

/-- The static variables after earlier calls. -/
noncomputable def Spec.calls : List (ℝ × List ℝ) → Static
  | [] => none
  | c :: cs => (synGen c.1 (Spec.calls cs) c.2).1

/-- C303: the energies do not depend on earlier calls with other or the same limits. -/
theorem calls_forgotten (earlier : List (ℝ × List ℝ)) (xmin : ℝ) (draws : List ℝ) :
    (synGen xmin (Spec.calls earlier) draws).2 = loop (consts xmin) draws := by
  have h : Spec.calls earlier = none ∨ ∃ x, Spec.calls earlier = some (x, consts x) := by
    induction earlier with
    | nil => exact Or.inl rfl
    | cons c cs ih =>
      right
      simp only [Spec.calls, synGen]
      rcases ih with h | ⟨x, h⟩
      · exact ⟨c.1, by simp [h, prepare]⟩
      · rw [h]
        by_cases hx : c.1 = x
        · exact ⟨x, by simp [prepare, hx]⟩
        · exact ⟨c.1, by simp [prepare, hx]⟩
  simp only [synGen]
  rcases h with h | ⟨x, h⟩
  · rw [h]; rfl
  · rw [h]
    by_cases hx : xmin = x
    · simp [prepare, hx]
    · simp [prepare, hx]

example : ∃ earlier : List (ℝ × List ℝ), earlier.length = 2 ∧ Spec.calls earlier ≠ none := ⟨[(0, []), (2, [])], rfl, by simp [Spec.calls, synGen]⟩

/-- C304: energies are not below the limit. -/
theorem energy_range {xmin : ℝ} (h0 : 0 ≤ xmin) {draws : List ℝ} (hd : ∀ d ∈ draws, 0 ≤ d ∧ d ≤ 1) {x : ℝ} {rest : List ℝ}
    (h : loop (consts xmin) draws = some (some x, rest)) : xmin ≤ x := by
  obtain ⟨rs, w, v, u, rfl, -, h3⟩ := (loop_first _ _ _ _).mp h
  have hv := hd v (by simp)
  have hr := round_choice (consts xmin) w v u
  rw [h3] at hr
  have hc3 : (consts xmin).c1 ^ 3 = xmin := by
    rw [c1_eq, ← Real.rpow_natCast, ← Real.rpow_mul h0]
    norm_num
  by_cases hw : w < (consts xmin).ratio
  · rw [if_pos hw] at hr
    rw [Option.some.inj hr]
    by_cases h1 : xmin < 1
    · obtain ⟨hc0, hc1, -⟩ := c1_lt h0 h1
      refine hc3.symm.le.trans (pow_le_pow_left₀ hc0 ?_ 3)
      have : 0 ≤ (1 - (consts xmin).c1) * v := mul_nonneg (by linarith) hv.1
      linarith
    · have : (consts xmin).ratio = 0 := by simp only [consts, if_neg h1]
      rw [this] at hw
      exact absurd (hd w (by simp)).1 (not_le.mpr hw)
  · rw [if_neg hw] at hr
    by_cases hv0 : v = 0
    · rw [if_pos hv0] at hr
      exact absurd hr (by simp)
    · rw [if_neg hv0] at hr
      rw [Option.some.inj hr]
      have h2 := Real.log_nonpos hv.1 hv.2
      have h3 : xmin ≤ (consts xmin).xlow := by
        simp only [consts]
        split <;> linarith
      linarith

/-- C304: an energy is finite if no random number is zero. -/
theorem energy_finite_partial {xmin : ℝ} {draws : List ℝ} (hd : ∀ d ∈ draws, d ≠ 0) {e : Option ℝ} {rest : List ℝ}
    (h : loop (consts xmin) draws = some (e, rest)) : ∃ x, e = some x := by
  obtain ⟨rs, w, v, u, rfl, -, h3⟩ := (loop_first _ _ _ _).mp h
  have hr := round_choice (consts xmin) w v u
  rw [h3, if_neg (hd v (by simp))] at hr
  split at hr
  · exact ⟨_, hr⟩
  · exact ⟨_, hr⟩

/-- C304: a random number zero gives a photon of infinite energy, and it is accepted whatever the next number. -/
theorem infinite_energy_violated (uc : ℝ) (earlier : List (ℝ × List ℝ)) (u : ℝ) :
    ∃ w, 0 ≤ w ∧ w < 1 ∧ (hbGen uc (Spec.calls earlier) [w, 0, u]).2 = some (none, []) := by
  obtain ⟨h0, h1⟩ := ratio_range (xmin := 0) le_rfl one_pos
  refine ⟨(consts 0).ratio, h0.le, h1, ?_⟩
  simp only [hbGen, calls_forgotten]
  have : loop (consts 0) [(consts 0).ratio, 0, u] = some (none, []) :=
    (loop_first _ _ _ _).mpr ⟨[], _, _, _, rfl, by simp, by simp [round, high]⟩
  rw [this]
  rfl

/-- C304: photons of an energy scale: the energies are those of the generator times the critical energy. -/
theorem hbGen_scale (uc : ℝ) (earlier : List (ℝ × List ℝ)) {draws : List ℝ} {x : ℝ} {rest : List ℝ}
    (h : loop (consts 0) draws = some (some x, rest)) : (hbGen uc (Spec.calls earlier) draws).2 = some (some (uc * x), rest) := by
  simp only [hbGen, calls_forgotten, h]
  rfl

/-- C305: the other generator gives positive energies which fall with the random number. -/
theorem awGen_falls {uc : ℝ} (huc : 0 < uc) {u v : ℝ} (h0 : 0 < u) (huv : u < v) (h1 : v < 1) :
    ∃ x y, awGen uc u = some x ∧ awGen uc v = some y ∧ 0 < y ∧ y < x := by
  refine ⟨_, _, by rw [awGen, if_neg h0.ne'], by rw [awGen, if_neg (h0.trans huv).ne'], ?_, ?_⟩
  · have := h0.trans huv
    have h2 : (0 : ℝ) < v ^ (-1 / 3 : ℝ) := Real.rpow_pos_of_pos this _
    have h3 : (0 : ℝ) < (1 - v) ^ π := Real.rpow_pos_of_pos (by linarith) _
    positivity
  · have hv := h0.trans huv
    have h2 : v ^ (-1 / 3 : ℝ) < u ^ (-1 / 3 : ℝ) := Real.rpow_lt_rpow_of_neg h0 huv (by norm_num)
    have h3 : (1 - v) ^ π < (1 - u) ^ π := Real.rpow_lt_rpow (by linarith) (by linarith) Real.pi_pos
    have h4 : (0 : ℝ) < v ^ (-1 / 3 : ℝ) := Real.rpow_pos_of_pos hv _
    have h5 : (0 : ℝ) < (1 - v) ^ π := Real.rpow_pos_of_pos (by linarith) _
    have h6 : v ^ (-1 / 3 : ℝ) * (1 - v) ^ π < u ^ (-1 / 3 : ℝ) * (1 - u) ^ π := mul_lt_mul'' h2 h3 h4.le h5.le
    have h7 : (0 : ℝ) < 0.57 * uc := by positivity
    have := mul_lt_mul_of_pos_left h6 h7
    linarith [mul_assoc (0.57 * uc) (v ^ (-1 / 3 : ℝ)) ((1 - v) ^ π), mul_assoc (0.57 * uc) (u ^ (-1 / 3 : ℝ)) ((1 - u) ^ π)]

/-- C305: its energies have no upper limit. -/
theorem awGen_large {uc : ℝ} (huc : 0 < uc) (b : ℝ) : ∃ u x, 0 < u ∧ u < 1 ∧ awGen uc u = some x ∧ b < x := by
  have h1 : Filter.Tendsto (fun u : ℝ => u ^ (-1 / 3 : ℝ)) (nhdsWithin 0 (Ioi 0)) Filter.atTop := by
    have := tendsto_rpow_neg_nhdsGT_zero (y := -1 / 3) (by norm_num)
    exact this
  have h2 : Filter.Tendsto (fun u : ℝ => (1 - u) ^ π) (nhdsWithin 0 (Ioi 0)) (nhds 1) := by
    have : ContinuousAt (fun u : ℝ => (1 - u) ^ π) 0 :=
      ContinuousAt.rpow_const (by fun_prop) (Or.inl (by norm_num))
    have h := this.tendsto
    simp only [sub_zero, Real.one_rpow] at h
    exact h.mono_left nhdsWithin_le_nhds
  have h3 := (h1.atTop_mul_pos one_pos h2).const_mul_atTop (by positivity : (0 : ℝ) < 0.57 * uc)
  obtain ⟨u, hu, hu2⟩ := ((h3.eventually_gt_atTop b).and (Ioo_mem_nhdsGT (one_pos : (0 : ℝ) < 1))).exists
  refine ⟨u, _, hu2.1, hu2.2, by rw [awGen, if_neg hu2.1.ne'], ?_⟩
  rw [mul_assoc]
  exact hu

/-- C305: for the random number zero its energy is infinite. -/
theorem awGen_infinite_violated (uc : ℝ) : awGen uc 0 = none := by simp [awGen]

/-- C305: without zero its energies are finite. -/
theorem awGen_finite_partial (uc : ℝ) {u : ℝ} (h : u ≠ 0) : ∃ x, awGen uc u = some x := ⟨_, by rw [awGen, if_neg h]⟩

example : ∃ x y, awGen 2 (1 / 4) = some x ∧ awGen 2 (1 / 2) = some y ∧ 0 < y ∧ y < x := awGen_falls (by norm_num) (by norm_num) (by norm_num) (by norm_num)

end Verif.Photon
