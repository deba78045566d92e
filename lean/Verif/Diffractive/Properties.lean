import Verif.Diffractive.Law
import Verif.Diffractive.Match

/-!
# Properties of single diffractive scattering: tables and choice of t and mass
-/

namespace Verif.Diffractive
open Finset Spec Verif MeasureTheory

/-! ## Generation -/

/-- The histograms of a cross section. -/
noncomputable def Spec.rows (c : Setup) (NN : Nat) (f : ℝ → ℝ → ℝ) (i : Nat) : ℝ :=
  ∑ j ∈ range NN, f (c.tmin + (i : ℝ) * ((c.tmax - c.tmin) / NN)) (c.ximin + (j : ℝ) * ((c.ximax - c.ximin) / NN))

noncomputable def Spec.columns (c : Setup) (NN : Nat) (f : ℝ → ℝ → ℝ) (j : Nat) : ℝ :=
  ∑ i ∈ range NN, f (c.tmin + (i : ℝ) * ((c.tmax - c.tmin) / NN)) (c.ximin + (j : ℝ) * ((c.ximax - c.ximin) / NN))

theorem rows_columns (c : Setup) (NN : Nat) (f : ℝ → ℝ → ℝ) : ∑ j ∈ range NN, columns c NN f j = ∑ i ∈ range NN, rows c NN f i := by
  unfold columns rows
  exact Finset.sum_comm

/-- What `build` needs: a cross section that is not negative on the grid and not zero everywhere, of which the first row and the first column have
less than the N-th part. -/
def Spec.Fit (N : Nat) (c : Setup) (f : ℝ → ℝ → ℝ) : Prop :=
  (∀ i, i < 10 * N → ∀ j, j < 10 * N → 0 ≤ f (c.tmin + (i : ℝ) * ((c.tmax - c.tmin) / ((10 * N : Nat) : ℝ))) (c.ximin + (j : ℝ) * ((c.ximax - c.ximin) / ((10 * N : Nat) : ℝ)))) ∧
  0 < ∑ i ∈ range (10 * N), rows c (10 * N) f i ∧
  share (rows c (10 * N) f) (10 * N) 0 < 1 / (N : ℝ) ∧ share (columns c (10 * N) f) (10 * N) 0 < 1 / (N : ℝ)

theorem build_eq (N : Nat) (c : Setup) (s : ℝ) (f : ℝ → ℝ → ℝ) : build N c s f = (table (columns c (10 * N) f) N (10 * N)).bind fun xa =>
    (table (rows c (10 * N) f) N (10 * N)).bind fun ta => .ok ⟨s, 1 / 1000 * (∑ i ∈ range (10 * N), rows c (10 * N) f i) * ((c.ximax - c.ximin) / ((10 * N : Nat) : ℝ))
      * ((c.tmax - c.tmin) / ((10 * N : Nat) : ℝ)), ta, xa⟩ := by
  unfold build rows columns point
  simp only [accumulate_eq]

/-- The tables of a generation. -/
theorem build_spec (N : Nat) (hN : 1 ≤ N) (c : Setup) (s : ℝ) (f : ℝ → ℝ → ℝ) (h : Fit N c f) :
    ∃ b, build N c s f = .ok b ∧ b.s = s ∧
      b.sig = (∑ i ∈ range (10 * N), rows c (10 * N) f i) / 1000 * ((c.tmax - c.tmin) / ((10 * N : Nat) : ℝ)) * ((c.ximax - c.ximin) / ((10 * N : Nat) : ℝ)) ∧
      Rising N b.tarr ∧ (∀ i, 1 ≤ i → i < N → Quantile (rows c (10 * N) f) (10 * N) ((i : ℝ) / N) (b.tarr.getD i 0)) ∧
      Rising N b.xarr ∧ (∀ i, 1 ≤ i → i < N → Quantile (columns c (10 * N) f) (10 * N) ((i : ℝ) / N) (b.xarr.getD i 0)) := by
  obtain ⟨hp, hT, h1, h2⟩ := h
  obtain ⟨ta, et, rt, qt⟩ := table_spec (rows c (10 * N) f) N (10 * N) hN (by omega)
    (fun i hi => Finset.sum_nonneg fun j hj => hp i hi j (Finset.mem_range.mp hj)) hT h1
  obtain ⟨xa, ex, rx, qx⟩ := table_spec (columns c (10 * N) f) N (10 * N) hN (by omega)
    (fun j hj => Finset.sum_nonneg fun i hi => hp i (Finset.mem_range.mp hi) j hj) (by rw [rows_columns]; exact hT) h2
  rw [build_eq, ex]
  simp only [Outcome.bind]
  rw [et]
  exact ⟨_, rfl, rfl, by ring, rt, qt, rx, qx⟩

theorem run_tables (N : Nat) (cross : ℝ → ℝ → ℝ → ℝ) (b : Tables) : ∀ (l : List Op) (o o' : Obj), o.tables = some b → o.configured = true →
    o.run N cross l = .ok o' → o'.tables = some b := by
  intro l
  induction l with
  | nil =>
    intro o o' h1 _ h
    rw [Obj.run] at h
    injection h with h
    rw [← h]
    exact h1
  | cons a l ih =>
    intro o o' h1 h2 h
    rw [Obj.run] at h
    cases a with
    | generate e =>
      simp only [Obj.op, h2, if_true, Outcome.bind] at h
      exact ih o o' h1 h2 h
    | setTMin v => exact ih ⟨⟨v, o.setup.tmax, o.setup.ximin, o.setup.ximax⟩, o.tables, o.configured⟩ o' h1 h2 h
    | setTMax v => exact ih ⟨⟨o.setup.tmin, v, o.setup.ximin, o.setup.ximax⟩, o.tables, o.configured⟩ o' h1 h2 h
    | setXiMin v => exact ih ⟨⟨o.setup.tmin, o.setup.tmax, v, o.setup.ximax⟩, o.tables, o.configured⟩ o' h1 h2 h
    | setXiMax v => exact ih ⟨⟨o.setup.tmin, o.setup.tmax, o.setup.ximin, v⟩, o.tables, o.configured⟩ o' h1 h2 h

/-- **C326.** A generation keeps the square of the invariant mass and the cross section, the sum over the grid of left edges in barn; the tables for t
and xi rise from zero and hold the quantiles of the sums over the other variable.  Nothing done later changes them. -/
theorem generation (N : Nat) (hN : 1 ≤ N) (cross : ℝ → ℝ → ℝ → ℝ) (c : Setup) (energy : ℝ) (later : List Op) (o : Obj)
    (h : Fit N c fun t x => cross t x ((energy + mp) ^ 2 - (energy ^ 2 - mp ^ 2)))
    (ho : (⟨c, none, false⟩ : Obj).run N cross (.generate energy :: later) = .ok o) :
    let f := fun t x => cross t x ((energy + mp) ^ 2 - (energy ^ 2 - mp ^ 2))
    ∃ b, o.tables = some b ∧ b.s = (energy + mp) ^ 2 - (energy ^ 2 - mp ^ 2) ∧ mp = 938272013 / 1000000000 ∧
      b.sig = (∑ i ∈ range (10 * N), rows c (10 * N) f i) / 1000 * ((c.tmax - c.tmin) / ((10 * N : Nat) : ℝ)) * ((c.ximax - c.ximin) / ((10 * N : Nat) : ℝ)) ∧
      Rising N b.tarr ∧ (∀ i, 1 ≤ i → i < N → Quantile (rows c (10 * N) f) (10 * N) ((i : ℝ) / N) (b.tarr.getD i 0)) ∧
      Rising N b.xarr ∧ (∀ i, 1 ≤ i → i < N → Quantile (columns c (10 * N) f) (10 * N) ((i : ℝ) / N) (b.xarr.getD i 0)) := by
  intro f
  have hs : sOf energy = (energy + mp) ^ 2 - (energy ^ 2 - mp ^ 2) := by unfold sOf; ring
  obtain ⟨b, hb, h1, h2⟩ := build_spec N hN c _ f h
  refine ⟨b, ?_, h1, rfl, h2⟩
  rw [Obj.run] at ho
  simp only [Obj.op, Bool.false_eq_true, if_false, hs] at ho
  change ((build N c _ f).bind _).bind _ = _ at ho
  rw [hb] at ho
  exact run_tables N cross b later ⟨c, some b, true⟩ o rfl rfl ho

/-- **C326 fails:** after a first generation another energy is ignored. -/
theorem energy_violated (N : Nat) (hN : 1 ≤ N) (cross : ℝ → ℝ → ℝ → ℝ) (c : Setup) (e1 e2 : ℝ) (he : e1 ≠ e2)
    (h : Fit N c fun t x => cross t x (sOf e1)) :
    ∃ (o : Obj) (b : Tables), (⟨c, none, false⟩ : Obj).run N cross [.generate e1, .generate e2] = .ok o ∧ o.tables = some b ∧ b.s = sOf e1 ∧ b.s ≠ sOf e2 := by
  obtain ⟨b, hb, h1, -⟩ := build_spec N hN c (sOf e1) _ h
  refine ⟨⟨c, some b, true⟩, b, ?_, rfl, h1, ?_⟩
  · simp only [Obj.run, Obj.op, Bool.false_eq_true, if_false, hb, Outcome.bind, if_true]
  · rw [h1]
    unfold sOf
    intro hc
    apply he
    have : mp ≠ 0 := by unfold mp; norm_num
    have : 2 * mp * (e1 - e2) = 0 := by linarith
    rcases mul_eq_zero.mp this with h | h
    · simp_all
    · linarith

theorem rows_const (c : Setup) (NN i : Nat) : rows c NN (fun _ _ => 1) i = NN := by
  simp [rows]

/-- A case: a cross section of one, tables of any size above one. -/
theorem fit_const (N : Nat) (hN : 1 ≤ N) (c : Setup) : Fit N c fun _ _ => 1 := by
  have hNpos : (0 : ℝ) < N := by exact_mod_cast hN
  have hc : ∀ j, columns c (10 * N) (fun _ _ => 1) j = ((10 * N : Nat) : ℝ) := fun j => by simp [columns]
  refine ⟨fun _ _ _ _ => zero_le_one, ?_, ?_, ?_⟩
  · simp only [rows_const]
    simp
    omega
  · unfold share
    simp only [rows_const]
    simp
    have := inv_pos.mpr hNpos
    linarith
  · unfold share
    simp only [hc]
    simp
    have := inv_pos.mpr hNpos
    linarith

example (c : Setup) : Fit size c fun _ _ => 1 := fit_const size (by decide) c

/-! ## Choice -/

theorem width_eq (N : Nat) (a : List ℝ) (i : Nat) : width N a i = delta N a i := by
  unfold width delta
  by_cases h : i + 1 < N
  · rw [if_pos h, if_pos (by omega)]
  · rw [if_neg h, if_neg (by omega)]

theorem not_refused (N : Nat) (c : Setup) (b : Tables) (hN : 1 ≤ N) (ht : Rising N b.tarr) (h0 : 0 ≤ c.tmin) (h1 : c.tmin < c.tmax) (v : ℝ) (hv0 : 0 ≤ v) (hv1 : v < 1) :
    ¬ refused N c b v := by
  have hp := place_bounds N b.tarr ht hN v hv0 hv1
  have hd := delta_pos N b.tarr ht _ (cell_lt N v hN hv0 hv1)
  unfold refused tOf
  rintro (h | h)
  · have := mul_nonneg hp.1 (sub_nonneg.mpr h1.le)
    linarith
  · linarith

theorem ratio_eq (N : Nat) (c : Setup) (b : Tables) (f : ℝ → ℝ → ℝ) (fudge v1 v2 : ℝ) : ratio N c b f fudge v1 v2
    = fudge / (1000 * b.sig) * (f (tOf N c b v1) (xOf N c b v2) * ((N : ℝ) * delta N b.xarr (cell N v2) * (c.ximax - c.ximin)))
      * ((N : ℝ) * delta N b.tarr (cell N v1) * (c.tmax - c.tmin)) := by
  unfold ratio
  simp only [div_eq_mul_inv, mul_inv, inv_inv]
  ring

theorem ratio_bounds (N : Nat) (c : Setup) (b : Tables) (f : ℝ → ℝ → ℝ) (fudge v1 v2 : ℝ) (hN : 1 ≤ N) (ht : Rising N b.tarr) (hx : Rising N b.xarr)
    (h1 : c.tmin < c.tmax) (h2 : c.ximin < c.ximax) (hsig : 0 < b.sig) (hf : 0 < fudge)
    (hb : Below N c.tmin c.tmax c.ximin c.ximax b.tarr b.xarr b.sig f fudge) (a1 : 0 ≤ v1) (a2 : v1 < 1) (a3 : 0 ≤ v2) (a4 : v2 < 1) :
    0 ≤ ratio N c b f fudge v1 v2 ∧ ratio N c b f fudge v1 v2 ≤ 1 := by
  have hNpos : (0 : ℝ) < N := by exact_mod_cast hN
  have k1 := cell_lt N v1 hN a1 a2
  have k2 := cell_lt N v2 hN a3 a4
  have f1 : (cell N v1 : ℝ) ≤ N * v1 := Nat.floor_le (by positivity)
  have f2 : N * v1 < (cell N v1 : ℝ) + 1 := Nat.lt_floor_add_one _
  have g1 : (cell N v2 : ℝ) ≤ N * v2 := Nat.floor_le (by positivity)
  have g2 : N * v2 < (cell N v2 : ℝ) + 1 := Nat.lt_floor_add_one _
  have hd1 := delta_pos N _ ht _ k1
  have hd2 := delta_pos N _ hx _ k2
  obtain ⟨p1, p2⟩ := hb _ k1 _ k2 (N * v1 - cell N v1) (by linarith) (by linarith) (N * v2 - cell N v2) (by linarith) (by linarith)
  simp only [width_eq] at p1 p2
  change 0 ≤ f (tOf N c b v1) (xOf N c b v2) / 1000 at p1
  change fudge * (f (tOf N c b v1) (xOf N c b v2) / 1000) * _ ≤ _ at p2
  have r1 : 0 < c.tmax - c.tmin := by linarith
  have r2 : 0 < c.ximax - c.ximin := by linarith
  rw [ratio_eq]
  have hf0 : 0 ≤ f (tOf N c b v1) (xOf N c b v2) := by linarith
  refine ⟨by positivity, ?_⟩
  rw [le_div_iff₀ (by positivity)] at p2
  have e : fudge / (1000 * b.sig) * (f (tOf N c b v1) (xOf N c b v2) * ((N : ℝ) * delta N b.xarr (cell N v2) * (c.ximax - c.ximin)))
      * ((N : ℝ) * delta N b.tarr (cell N v1) * (c.tmax - c.tmin))
      = (fudge * (f (tOf N c b v1) (xOf N c b v2) / 1000) * (delta N b.tarr (cell N v1) * (c.tmax - c.tmin) * (delta N b.xarr (cell N v2) * (c.ximax - c.ximin))) * (N * N)) / b.sig := by
    field_simp
  rw [e, div_le_one hsig]
  exact p2

theorem select_three (N : Nat) (c : Setup) (b : Tables) (f : ℝ → ℝ → ℝ) (fudge v1 v2 v3 : ℝ) (l : List ℝ) (h : ¬ refused N c b v1) (hr : ratio N c b f fudge v1 v2 ≤ 1) :
    select N c b f fudge (v1 :: v2 :: v3 :: l) = if v3 > ratio N c b f fudge v1 v2 then select N c b f fudge l
      else some ((tOf N c b v1, √(b.s * xOf N c b v2)), fudge, l) := by
  have hl : lowered fudge (ratio N c b f fudge v1 v2) = fudge := by unfold lowered; rw [if_neg (not_lt.mpr hr)]
  rw [select.eq_def]
  simp only
  rw [if_neg h, hl]

/-- **C327.** The law of the choice: as long as the cross section stays below the ceiling of the tables, a try with three uniform random numbers gives pairs of t and mass with
a density proportional to the cross section, whatever function of them is averaged. -/
theorem law (N : Nat) (c : Setup) (b : Tables) (f : ℝ → ℝ → ℝ) (fudge : ℝ) (hN : 1 ≤ N) (ht : Rising N b.tarr) (hx : Rising N b.xarr)
    (h0 : 0 ≤ c.tmin) (h1 : c.tmin < c.tmax) (h2 : c.ximin < c.ximax) (hsig : 0 < b.sig) (hf : 0 < fudge)
    (hb : Below N c.tmin c.tmax c.ximin c.ximax b.tarr b.xarr b.sig f fudge) (G : ℝ → ℝ → ℝ)
    (hi : ∀ t, IntervalIntegrable (fun x => G t √(b.s * x) * f t x) volume c.ximin c.ximax)
    (ho : IntervalIntegrable (fun t => ∫ x in c.ximin..c.ximax, G t √(b.s * x) * f t x) volume c.tmin c.tmax) :
    (∫ v1 in (0 : ℝ)..1, ∫ v2 in (0 : ℝ)..1, ∫ v3 in (0 : ℝ)..1, match select N c b f fudge [v1, v2, v3] with | some r => G r.1.1 r.1.2 | none => 0)
      = fudge / (1000 * b.sig) * ∫ t in c.tmin..c.tmax, ∫ x in c.ximin..c.ximax, G t √(b.s * x) * f t x := by
  have e3 : ∀ v1 ∈ Set.Ioo (0 : ℝ) 1, ∀ v2 ∈ Set.Ioo (0 : ℝ) 1,
      (∫ v3 in (0 : ℝ)..1, match select N c b f fudge [v1, v2, v3] with | some r => G r.1.1 r.1.2 | none => 0)
        = (G (tOf N c b v1) √(b.s * xOf N c b v2) * f (tOf N c b v1) (xOf N c b v2)) * ((N : ℝ) * delta N b.xarr (cell N v2) * (c.ximax - c.ximin))
          * (fudge / (1000 * b.sig) * ((N : ℝ) * delta N b.tarr (cell N v1) * (c.tmax - c.tmin))) := by
    intro v1 m1 v2 m2
    obtain ⟨r0, r1⟩ := ratio_bounds N c b f fudge v1 v2 hN ht hx h1 h2 hsig hf hb m1.1.le m1.2 m2.1.le m2.2
    have hre := not_refused N c b hN ht h0 h1 v1 m1.1.le m1.2
    have e : (fun v3 : ℝ => match select N c b f fudge [v1, v2, v3] with | some r => G r.1.1 r.1.2 | none => 0)
        = fun v3 => if v3 > ratio N c b f fudge v1 v2 then 0 else G (tOf N c b v1) √(b.s * xOf N c b v2) := by
      funext v3
      rw [select_three N c b f fudge v1 v2 v3 [] hre r1]
      split_ifs
      · simp [select]
      · rfl
    rw [e, accept_integral _ _ r0 r1, ratio_eq]
    ring
  have e2 : ∀ v1 ∈ Set.Ioo (0 : ℝ) 1,
      (∫ v2 in (0 : ℝ)..1, ∫ v3 in (0 : ℝ)..1, match select N c b f fudge [v1, v2, v3] with | some r => G r.1.1 r.1.2 | none => 0)
        = (fun t => ∫ x in c.ximin..c.ximax, G t √(b.s * x) * f t x) (tOf N c b v1) * ((N : ℝ) * delta N b.tarr (cell N v1) * (c.tmax - c.tmin))
          * (fudge / (1000 * b.sig)) := by
    intro v1 m1
    rw [intervalIntegral.integral_congr_Ioo_of_le zero_le_one (e3 v1 m1), intervalIntegral.integral_mul_const]
    have := cell_integral_scaled N b.xarr hx hN c.ximin c.ximax h2 (fun x => G (tOf N c b v1) √(b.s * x) * f (tOf N c b v1) x) (hi _)
    unfold xOf
    rw [this]
    ring
  rw [intervalIntegral.integral_congr_Ioo_of_le zero_le_one e2, intervalIntegral.integral_mul_const]
  have := cell_integral_scaled N b.tarr ht hN c.tmin c.tmax h1 _ ho
  unfold tOf
  rw [this]
  ring

/-- **C327.** A try that fails leaves everything as it was: the next one has the same law. -/
theorem retry (N : Nat) (c : Setup) (b : Tables) (f : ℝ → ℝ → ℝ) (fudge : ℝ) (hN : 1 ≤ N) (ht : Rising N b.tarr) (hx : Rising N b.xarr)
    (h0 : 0 ≤ c.tmin) (h1 : c.tmin < c.tmax) (h2 : c.ximin < c.ximax) (hsig : 0 < b.sig) (hf : 0 < fudge)
    (hb : Below N c.tmin c.tmax c.ximin c.ximax b.tarr b.xarr b.sig f fudge) (v1 v2 v3 : ℝ) (a1 : 0 ≤ v1) (a2 : v1 < 1) (a3 : 0 ≤ v2) (a4 : v2 < 1) (l : List ℝ) :
    select N c b f fudge (v1 :: v2 :: v3 :: l) = match select N c b f fudge [v1, v2, v3] with
      | some r => some (r.1, fudge, l)
      | none => select N c b f fudge l := by
  obtain ⟨-, r1⟩ := ratio_bounds N c b f fudge v1 v2 hN ht hx h1 h2 hsig hf hb a1 a2 a3 a4
  have hre := not_refused N c b hN ht h0 h1 v1 a1 a2
  rw [select_three N c b f fudge v1 v2 v3 l hre r1, select_three N c b f fudge v1 v2 v3 [] hre r1]
  by_cases h : v3 > ratio N c b f fudge v1 v2
  · rw [if_pos h, if_pos h]
    simp [select]
  · rw [if_neg h, if_neg h]

/-- **C327.** Whatever random numbers of [0, 1) are used: t is within its bounds and the mass is that of a xi within its bounds. -/
theorem within (N : Nat) (c : Setup) (b : Tables) (f : ℝ → ℝ → ℝ) (hN : 1 ≤ N) (ht : Rising N b.tarr) (hx : Rising N b.xarr)
    (h1 : c.tmin < c.tmax) (h2 : c.ximin < c.ximax) : ∀ (m : Nat) (l : List ℝ) (fudge : ℝ), l.length ≤ m → (∀ v ∈ l, 0 ≤ v ∧ v < 1) → ∀ t mass fudge' l',
    select N c b f fudge l = some ((t, mass), fudge', l') → c.tmin ≤ t ∧ t < c.tmax ∧ ∃ xi, c.ximin ≤ xi ∧ xi < c.ximax ∧ mass = √(b.s * xi) := by
  intro m
  induction m with
  | zero =>
    intro l fudge hl _ t mass fudge' l' h
    have : l = [] := List.length_eq_zero_iff.mp (by omega)
    subst this
    simp [select] at h
  | succ m ih =>
    intro l fudge hl hv t mass fudge' l' h
    rcases l with _ | ⟨v1, l⟩
    · simp [select] at h
    · rw [select.eq_def] at h
      simp only at h
      have hlen : l.length ≤ m := by simpa using hl
      by_cases hr : refused N c b v1
      · rw [if_pos hr] at h
        exact ih l fudge hlen (fun v hv' => hv v (List.mem_cons_of_mem _ hv')) t mass fudge' l' h
      · rw [if_neg hr] at h
        rcases l with _ | ⟨v2, _ | ⟨v3, l⟩⟩
        · simp at h
        · simp at h
        · simp only at h
          by_cases hc : v3 > ratio N c b f fudge v1 v2
          · rw [if_pos hc] at h
            exact ih l _ (by simp at hlen; omega) (fun v hv' => hv v (by simp [hv'])) t mass fudge' l' h
          · rw [if_neg hc] at h
            simp only [Option.some.injEq, Prod.mk.injEq] at h
            obtain ⟨⟨rfl, rfl⟩, -⟩ := h
            have b1 := hv v1 (by simp)
            have b2 := hv v2 (by simp)
            have p1 := place_bounds N _ ht hN v1 b1.1 b1.2
            have p2 := place_bounds N _ hx hN v2 b2.1 b2.2
            have r1 : 0 < c.tmax - c.tmin := by linarith
            have r2 : 0 < c.ximax - c.ximin := by linarith
            unfold tOf
            refine ⟨?_, ?_, xOf N c b v2, ?_, ?_, rfl⟩
            · have := mul_nonneg p1.1 r1.le
              linarith
            · have := mul_lt_mul_of_pos_right p1.2 r1
              linarith
            · unfold xOf
              have := mul_nonneg p2.1 r2.le
              linarith
            · unfold xOf
              have := mul_lt_mul_of_pos_right p2.2 r2
              linarith

/-- A case for the law: two cells of the same width and a constant cross section. -/
theorem rising_two : Rising 2 [0, 1 / 2] := by
  refine ⟨rfl, rfl, ?_, ?_⟩
  · intro i j hij hj
    interval_cases j
    · omega
    · interval_cases i
      norm_num
  · intro i hi
    interval_cases i <;> norm_num

example : Below 2 0 1 0 1 [0, 1 / 2] [0, 1 / 2] (1 / 1000) (fun _ _ => 1) 1 := by
  intro i hi j hj u _ _ w _ _
  interval_cases i <;> interval_cases j <;> norm_num [width]

/-! ## Below the lower bound -/

theorem share_zero_nonneg (d : Nat → ℝ) (NN : Nat) (h0 : 0 ≤ d 0) (hT : 0 < ∑ i ∈ range NN, d i) : 0 ≤ share d NN 0 := by
  unfold share
  simp only [zero_add, Finset.sum_range_one]
  positivity

theorem bind_ok_inv {α β : Type} (x : Res α) (g : α → Res β) (r : β) (h : x.bind g = .ok r) : ∃ a, x = .ok a ∧ g a = .ok r := by
  cases x with
  | ok a => exact ⟨a, rfl, h⟩
  | throw e => cases e
  | ub => cases h

theorem seek_ok (c : Nat → ℝ) (NN : Nat) (target : ℝ) (hl : target ≤ c (NN - 1)) : ∀ (m k : Nat), NN - k = m → k + 1 < NN →
    ∃ k', seek c NN target k = .ok k' ∧ k' + 1 < NN := by
  intro m
  induction m using Nat.strong_induction_on with
  | _ m ih =>
    intro k hm hk
    rw [seek, if_pos hk]
    by_cases h : c (k + 1) < target
    · rw [if_pos h]
      have hk2 : k + 1 + 1 < NN := by
        by_contra hcon
        have : NN - 1 = k + 1 := by omega
        rw [this] at hl
        linarith
      exact ih (NN - (k + 1)) (by omega) (k + 1) rfl hk2
    · rw [if_neg h]
      exact ⟨k, rfl, hk⟩

theorem fill_ok (c : Nat → ℝ) (N NN : Nat) (hN : 1 ≤ N) (hc : 1 ≤ c (NN - 1)) (hm : ∀ k, k + 1 < NN → c k < c (k + 1)) : ∀ (m i k : Nat), i + m ≤ N → k + 1 < NN →
    ∃ l, fill c N NN m i k = .ok l := by
  intro m
  induction m with
  | zero => intro i k _ _; exact ⟨[], rfl⟩
  | succ m ih =>
    intro i k him hk
    have hNpos : (0 : ℝ) < N := by exact_mod_cast hN
    have hi1 : (i : ℝ) / N ≤ 1 := by
      rw [div_le_one hNpos]
      exact_mod_cast (by omega : i ≤ N)
    obtain ⟨k', e1, hk'⟩ := seek_ok c NN ((i : ℝ) / N) (hi1.trans hc) _ k rfl hk
    obtain ⟨l, e3⟩ := ih (i + 1) k' (by omega) hk'
    have hne : c (k' + 1) - c k' ≠ 0 := by linarith [sub_pos.mpr (hm k' hk')]
    rw [fill, e1]
    simp only [Outcome.bind, entry, if_neg hne, e3]
    exact ⟨_, rfl⟩

/-- **C328 fails:** if the first bin of t has more than two parts in N, the table of t goes below zero, and values of t below the lower bound are chosen. -/
theorem below_violated (N : Nat) (hN : 3 ≤ N) (c : Setup) (s : ℝ) (f : ℝ → ℝ → ℝ) (hf : ∀ t x, 0 < f t x)
    (hcol : share (columns c (10 * N) f) (10 * N) 0 < 1 / (N : ℝ)) (h0 : 2 / (N : ℝ) < share (rows c (10 * N) f) (10 * N) 0)
    (h1 : c.tmin < c.tmax) (h2 : c.ximin < c.ximax)
    (hmin : (share (rows c (10 * N) f) (10 * N) 0 - 1 / (N : ℝ)) / (share (rows c (10 * N) f) (10 * N) 1 - share (rows c (10 * N) f) (10 * N) 0) / ((10 * N : Nat) : ℝ) * (c.tmax - c.tmin) ≤ c.tmin) :
    ∃ b, build N c s f = .ok b ∧
      ∃ v1 t mass fudge, 0 ≤ v1 ∧ v1 < 1 ∧ select N c b f 1 [v1, 0, 0] = some ((t, mass), fudge, []) ∧ t < c.tmin := by
  have hrow : ∀ i, i < 10 * N → 0 < rows c (10 * N) f i := fun i _ => Finset.sum_pos (fun j _ => hf _ _) ⟨0, by simp; omega⟩
  have hTr : 0 < ∑ i ∈ range (10 * N), rows c (10 * N) f i := Finset.sum_pos (fun i hi => hrow i (Finset.mem_range.mp hi)) ⟨0, by simp; omega⟩
  obtain ⟨xa, ex, hx, -⟩ := table_spec (columns c (10 * N) f) N (10 * N) (by omega) (by omega) (fun j _ => Finset.sum_nonneg fun i _ => (hf _ _).le)
    (by rw [rows_columns]; exact hTr) hcol
  have hstrict : ∀ k, k + 1 < 10 * N → share (rows c (10 * N) f) (10 * N) k < share (rows c (10 * N) f) (10 * N) (k + 1) := by
    intro k hk
    unfold share
    gcongr 1
    rw [Finset.sum_range_succ _ (k + 1)]
    have := hrow (k + 1) hk
    linarith
  obtain ⟨lt, elt⟩ := fill_ok (share (rows c (10 * N) f) (10 * N)) N (10 * N) (by omega) (share_last _ _ (by omega) hTr).ge hstrict (N - 1) 1 0 (by omega) (by omega)
  obtain ⟨b, hb, hx⟩ : ∃ b, build N c s f = .ok b ∧ Rising N b.xarr := by
    rw [build_eq, ex]
    simp only [Outcome.bind, table]
    rw [if_neg (by rw [running_eq, Nat.sub_add_cancel (by omega)]; exact hTr.ne'),
      show normalised (rows c (10 * N) f) (10 * N) = share (rows c (10 * N) f) (10 * N) from funext fun k => normalised_eq _ _ k (by omega), elt]
    exact ⟨_, rfl, hx⟩
  refine ⟨b, hb, ?_⟩
  set d := rows c (10 * N) f with hd
  set NN := 10 * N with hNN
  have hNpos : (0 : ℝ) < N := by exact_mod_cast (by omega : 0 < N)
  have hNNpos : (0 : ℝ) < (NN : ℝ) := by exact_mod_cast (by omega : 0 < NN)
  have hT : 0 < ∑ i ∈ range NN, d i := Finset.sum_pos (fun i hi => hrow i (Finset.mem_range.mp hi)) ⟨0, by simp; omega⟩
  have hc01 : share d NN 0 < share d NN 1 := by
    unfold share
    gcongr 1
    rw [Finset.sum_range_succ _ 1]
    have := hrow 1 (by omega)
    simp
    linarith
  set c0 := share d NN 0
  set c1 := share d NN 1
  have hdiff : 0 < c1 - c0 := by linarith
  have h12 : 1 / (N : ℝ) < 2 / N := by gcongr; norm_num
  have hcn : normalised d NN = share d NN := funext fun k => normalised_eq d NN k (by omega)
  -- the entries
  rw [build_eq] at hb
  obtain ⟨xa, ex, hb⟩ := bind_ok_inv _ _ _ hb
  obtain ⟨ta, et, hb⟩ := bind_ok_inv _ _ _ hb
  injection hb with hb
  have hta : b.tarr = ta := by rw [← hb]
  have hsig : 0 < b.sig := by
    rw [← hb]
    have r1 : 0 < c.tmax - c.tmin := by linarith
    have r2 : 0 < c.ximax - c.ximin := by linarith
    have := hT
    simp only
    positivity
  unfold table at et
  rw [if_neg (by rw [running_eq, Nat.sub_add_cancel (by omega)]; exact hT.ne'), hcn] at et
  obtain ⟨l, el, et⟩ := bind_ok_inv _ _ _ et
  injection et with et
  obtain ⟨m, hm⟩ : ∃ m, N - 1 = m + 2 := ⟨N - 3, by omega⟩
  rw [hm, fill] at el
  have hseek : ∀ p : ℝ, p < c0 → seek (share d NN) NN p 0 = .ok 0 := by
    intro p hp
    rw [seek, if_pos (by omega), if_neg]
    rw [not_lt]
    change p ≤ c1
    linarith
  have hentry : ∀ p : ℝ, p < c0 → entry (share d NN) NN p 0 = .ok (((p - c0) / (c1 - c0)) / NN) := by
    intro p hp
    unfold entry
    rw [if_neg (show ¬ (share d NN (0 + 1) - share d NN 0 = 0) from hdiff.ne')]
    change Outcome.ok ((((0 : Nat) : ℝ) + min 1 ((p - c0) / (c1 - c0))) / (NN : ℝ)) = _
    rw [min_eq_right, Nat.cast_zero, zero_add]
    rw [div_le_one hdiff]
    linarith
  have p1 : ((1 : Nat) : ℝ) / N < c0 := by rw [Nat.cast_one]; linarith
  have p2 : ((1 + 1 : Nat) : ℝ) / N < c0 := by norm_num; linarith
  rw [hseek _ p1] at el
  simp only [Outcome.bind] at el
  rw [hentry _ p1] at el
  simp only at el
  obtain ⟨l2, el2, el⟩ := bind_ok_inv _ _ _ el
  rw [fill, hseek _ p2] at el2
  simp only [Outcome.bind] at el2
  rw [hentry _ p2] at el2
  simp only at el2
  obtain ⟨l3, el3, el2⟩ := bind_ok_inv _ _ _ el2
  injection el with el
  injection el2 with el2
  set e1 : ℝ := ((((1 : Nat) : ℝ) / N - c0) / (c1 - c0)) / NN with he1
  set e2 : ℝ := ((((1 + 1 : Nat) : ℝ) / N - c0) / (c1 - c0)) / NN with he2
  have htarr : b.tarr = 0 :: e1 :: e2 :: l3 := by rw [hta, ← et, ← el, ← el2]
  have he12 : e1 < e2 := by
    rw [he1, he2]
    gcongr
    norm_num
  have he1neg : e1 < 0 := by
    rw [he1]
    apply div_neg_of_neg_of_pos _ hNNpos
    apply div_neg_of_neg_of_pos _ hdiff
    linarith
  have hcell : cell N (1 / (N : ℝ)) = 1 := cell_eq N _ 1 (by omega) (by simp) (by push_cast; gcongr; norm_num)
  have hdelta : delta N b.tarr 1 = e2 - e1 := by
    unfold delta
    rw [if_pos (by omega), htarr]
    rfl
  have hplace : place N b.tarr (1 / (N : ℝ)) = e1 := by
    unfold place
    rw [hcell, htarr]
    have : (N : ℝ) * (1 / N) - ((1 : Nat) : ℝ) = 0 := by field_simp; norm_num
    rw [this]
    simp
  have ht : tOf N c b (1 / (N : ℝ)) = c.tmin + e1 * (c.tmax - c.tmin) := by unfold tOf; rw [hplace]
  have r1 : 0 < c.tmax - c.tmin := by linarith
  have r2 : 0 < c.ximax - c.ximin := by linarith
  have hre : ¬ refused N c b (1 / (N : ℝ)) := by
    unfold refused
    rw [ht, hcell, hdelta]
    rintro (h | h)
    · have : e1 * (c.tmax - c.tmin) = -((c0 - 1 / (N : ℝ)) / (c1 - c0) / (NN : ℝ) * (c.tmax - c.tmin)) := by
        rw [he1]
        push_cast
        ring
      linarith
    · linarith
  have hcell0 : cell N 0 = 0 := by unfold cell; simp
  have hd0 := delta_pos N b.xarr hx 0 (by omega)
  have hrat : 0 < ratio N c b f 1 (1 / (N : ℝ)) 0 := by
    rw [ratio_eq, hcell, hcell0, hdelta]
    have := hf (tOf N c b (1 / (N : ℝ))) (xOf N c b 0)
    have : 0 < e2 - e1 := by linarith
    positivity
  refine ⟨1 / (N : ℝ), tOf N c b (1 / (N : ℝ)), √(b.s * xOf N c b 0), lowered 1 (ratio N c b f 1 (1 / (N : ℝ)) 0), by positivity, ?_, ?_, ?_⟩
  · rw [div_lt_one hNpos]
    exact_mod_cast (by omega : 1 < N)
  · rw [select.eq_def]
    simp only
    rw [if_neg hre, if_neg (not_lt.mpr hrat.le)]
  · rw [ht]
    have := mul_neg_of_neg_of_pos he1neg r1
    linarith

theorem case_rows (i : Nat) : rows ⟨1, 2, 0, 1⟩ 5000 (fun t _ => if t ≤ 1 then 30 else 1) i = if i = 0 then 150000 else 5000 := by
  unfold rows
  by_cases h : i = 0
  · subst h
    simp
    norm_num
  · have : (0 : ℝ) < i := by exact_mod_cast Nat.pos_of_ne_zero h
    have h' : ¬ (1 + (i : ℝ) * ((2 - 1) / ((5000 : Nat) : ℝ)) ≤ 1) := by
      rw [not_le]
      have : 0 < (i : ℝ) * ((2 - 1) / ((5000 : Nat) : ℝ)) := by positivity
      linarith
    simp only [if_neg h', if_neg h]
    simp

theorem sum_ite_zero (m n : Nat) (hm : m = n + 1) (x y : ℝ) : ∑ i ∈ range m, (if i = 0 then x else y) = x + n * y := by
  subst hm
  rw [Finset.sum_range_succ']
  simp
  ring

theorem case_columns (j : Nat) : columns ⟨1, 2, 0, 1⟩ 5000 (fun t _ => if t ≤ 1 then 30 else 1) j = 5029 := by
  unfold columns
  have : ∀ i : Nat, (if 1 + (i : ℝ) * ((2 - 1) / ((5000 : Nat) : ℝ)) ≤ 1 then (30 : ℝ) else 1) = if i = 0 then 30 else 1 := by
    intro i
    by_cases h : i = 0
    · subst h
      simp
    · have : (0 : ℝ) < i := by exact_mod_cast Nat.pos_of_ne_zero h
      have h' : ¬ (1 + (i : ℝ) * ((2 - 1) / ((5000 : Nat) : ℝ)) ≤ 1) := by
        rw [not_le]
        have : 0 < (i : ℝ) * ((2 - 1) / ((5000 : Nat) : ℝ)) := by positivity
        linarith
      rw [if_neg h', if_neg h]
  simp only [this]
  rw [sum_ite_zero 5000 4999 (by norm_num)]
  norm_num

theorem case_total : ∑ i ∈ range 5000, (if i = 0 then (150000 : ℝ) else 5000) = 25145000 := by
  rw [sum_ite_zero 5000 4999 (by norm_num)]
  norm_num

theorem case_share0 : share (rows ⟨1, 2, 0, 1⟩ 5000 (fun t _ => if t ≤ 1 then 30 else 1)) 5000 0 = 30 / 5029 := by
  unfold share
  simp only [case_rows, case_total]
  norm_num

theorem case_share1 : share (rows ⟨1, 2, 0, 1⟩ 5000 (fun t _ => if t ≤ 1 then 30 else 1)) 5000 1 = 31 / 5029 := by
  unfold share
  simp only [case_rows, case_total]
  norm_num [Finset.sum_range_succ]

theorem case_sharec : share (columns ⟨1, 2, 0, 1⟩ 5000 (fun t _ => if t ≤ 1 then 30 else 1)) 5000 0 = 1 / 5000 := by
  unfold share
  simp only [case_columns, Finset.sum_const, Finset.card_range, nsmul_eq_mul]
  norm_num

theorem case_all (N : Nat) (hN : N = 500) : ∃ b, build N ⟨1, 2, 0, 1⟩ 1 (fun t _ => if t ≤ 1 then 30 else 1) = .ok b ∧
    ∃ v1 t mass fudge, 0 ≤ v1 ∧ v1 < 1 ∧ select N ⟨1, 2, 0, 1⟩ b (fun t _ => if t ≤ 1 then 30 else 1) 1 [v1, 0, 0] = some ((t, mass), fudge, []) ∧ t < 1 := by
  have hn : 10 * N = 5000 := by omega
  have hz : (N : ℝ) = 500 := by rw [hN]; norm_num
  refine below_violated N (by omega) ⟨1, 2, 0, 1⟩ 1 _ ?_ ?_ ?_ ?_ ?_ ?_
  · intro t x
    split_ifs <;> norm_num
  · rw [hn, case_sharec, hz]; norm_num
  · rw [hn, case_share0, hz]; norm_num
  · norm_num
  · norm_num
  · rw [hn, case_share0, case_share1, hz]
    norm_num

/-- A case: the first bin is thirty times as high as the others. -/
theorem below_case : ∃ b, build size ⟨1, 2, 0, 1⟩ 1 (fun t _ => if t ≤ 1 then 30 else 1) = .ok b ∧
    ∃ v1 t mass fudge, 0 ≤ v1 ∧ v1 < 1 ∧ select size ⟨1, 2, 0, 1⟩ b (fun t _ => if t ≤ 1 then 30 else 1) 1 [v1, 0, 0] = some ((t, mass), fudge, []) ∧ t < 1 :=
  case_all size rfl

/-! ## The factor -/

/-- **C329.** The factor never grows and stays positive. -/
theorem factor_falls (N : Nat) (c : Setup) (b : Tables) (f : ℝ → ℝ → ℝ) : ∀ (m : Nat) (l : List ℝ) (fudge : ℝ), l.length ≤ m → 0 < fudge → ∀ p fudge' l',
    select N c b f fudge l = some (p, fudge', l') → 0 < fudge' ∧ fudge' ≤ fudge := by
  have hlow : ∀ fudge rat : ℝ, 0 < fudge → 0 < lowered fudge rat ∧ lowered fudge rat ≤ fudge := by
    intro fudge rat hf
    unfold lowered
    split_ifs with h
    · exact ⟨div_pos hf (by linarith), div_le_self hf.le h.le⟩
    · exact ⟨hf, le_rfl⟩
  intro m
  induction m with
  | zero =>
    intro l fudge hl _ p fudge' l' h
    have : l = [] := List.length_eq_zero_iff.mp (by omega)
    subst this
    simp [select] at h
  | succ m ih =>
    intro l fudge hl hf p fudge' l' h
    rcases l with _ | ⟨v1, l⟩
    · simp [select] at h
    · rw [select.eq_def] at h
      simp only at h
      have hlen : l.length ≤ m := by simpa using hl
      by_cases hr : refused N c b v1
      · rw [if_pos hr] at h
        exact ih l fudge hlen hf p fudge' l' h
      · rw [if_neg hr] at h
        rcases l with _ | ⟨v2, _ | ⟨v3, l⟩⟩
        · simp at h
        · simp at h
        · simp only at h
          have hl' := hlow fudge (ratio N c b f fudge v1 v2) hf
          by_cases hc : v3 > ratio N c b f fudge v1 v2
          · rw [if_pos hc] at h
            obtain ⟨q1, q2⟩ := ih l _ (by simp at hlen; omega) hl'.1 p fudge' l' h
            exact ⟨q1, q2.trans hl'.2⟩
          · rw [if_neg hc] at h
            simp only [Option.some.injEq, Prod.mk.injEq] at h
            obtain ⟨-, rfl, -⟩ := h
            exact hl'

theorem ratio_scale (N : Nat) (c : Setup) (b : Tables) (f : ℝ → ℝ → ℝ) (fudge v1 v2 r : ℝ) :
    ratio N c b f (fudge / r) v1 v2 = ratio N c b f fudge v1 v2 / r := by
  rw [ratio_eq, ratio_eq]
  simp only [div_eq_mul_inv]
  ring

/-- **C329 fails:** after a pair with a ratio above one, which is accepted always, others are accepted less often than before: the first choices have another law than later ones. -/
theorem history_violated (N : Nat) (c : Setup) (b : Tables) (f : ℝ → ℝ → ℝ) (fudge v1 v2 w1 w2 : ℝ) (hv : ¬ refused N c b v1) (hw : ¬ refused N c b w1)
    (h1 : 1 < ratio N c b f fudge v1 v2) (h2 : 0 < ratio N c b f fudge w1 w2) (h3 : ratio N c b f fudge w1 w2 ≤ 1) :
    (∀ v3, v3 < 1 → ∃ p, select N c b f fudge [v1, v2, v3] = some (p, fudge / ratio N c b f fudge v1 v2, [])) ∧
    ∃ w3, 0 ≤ w3 ∧ w3 < 1 ∧ (∃ p, select N c b f fudge [w1, w2, w3] = some (p, fudge, [])) ∧ select N c b f (fudge / ratio N c b f fudge v1 v2) [w1, w2, w3] = none := by
  set r := ratio N c b f fudge v1 v2 with hr
  set q := ratio N c b f fudge w1 w2 with hq
  have hrq : q / r < q := div_lt_self h2 h1
  have hq0 : 0 < q / r := div_pos h2 (by linarith)
  refine ⟨fun v3 hv3 => ⟨(tOf N c b v1, √(b.s * xOf N c b v2)), ?_⟩, (q / r + q) / 2, by linarith, by linarith, ⟨(tOf N c b w1, √(b.s * xOf N c b w2)), ?_⟩, ?_⟩
  · rw [select.eq_def]
    simp only
    rw [if_neg hv, ← hr, if_neg (not_lt.mpr (by linarith))]
    unfold lowered
    rw [if_pos h1]
  · rw [select_three N c b f fudge w1 w2 _ [] hw h3, ← hq, if_neg (not_lt.mpr (by linarith))]
  · have hs : ratio N c b f (fudge / r) w1 w2 = q / r := ratio_scale N c b f fudge w1 w2 r
    rw [select_three N c b f (fudge / r) w1 w2 _ [] hw (by rw [hs]; linarith), hs, if_pos (by linarith)]
    simp [select]

/-- A case: one cell, and a cross section that is larger for small t. -/
example : let b : Tables := ⟨1, 1 / 1000, [0], [0]⟩
    let f : ℝ → ℝ → ℝ := fun t _ => if t < 1 / 2 then 3 / 2 else 1 / 2
    ¬ refused 1 ⟨0, 1, 0, 1⟩ b 0 ∧ ¬ refused 1 ⟨0, 1, 0, 1⟩ b (3 / 4) ∧ 1 < ratio 1 ⟨0, 1, 0, 1⟩ b f 1 0 0 ∧ 0 < ratio 1 ⟨0, 1, 0, 1⟩ b f 1 (3 / 4) 0
      ∧ ratio 1 ⟨0, 1, 0, 1⟩ b f 1 (3 / 4) 0 ≤ 1 := by
  have c0 : cell 1 0 = 0 := by simp [cell]
  have c1 : cell 1 (3 / 4) = 0 := by
    unfold cell
    rw [Nat.floor_eq_zero]
    norm_num
  intro b f
  refine ⟨?_, ?_, ?_, ?_, ?_⟩ <;> simp [b, f, refused, ratio, tOf, xOf, place, delta, c0, c1] <;> norm_num

/-- **C330 fails:** `SelectT` and `SelectXi` follow a pointer that was never set. -/
theorem single_violated : selectT = .ub := rfl

end Verif.Diffractive
