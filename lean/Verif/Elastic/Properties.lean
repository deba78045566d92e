import Verif.Elastic.Lemmas
import Verif.Elastic.Coulomb
import Mathlib.MeasureTheory.Measure.Lebesgue.Basic
import Mathlib.Analysis.SumIntegralComparisons

/-!
# Properties of elastic scattering: cross section and choice of t
-/

namespace Verif.Elastic
open Finset Verif Verif.Interpolation Verif.Interpolation.Spec Verif.Elastic.Spec MeasureTheory

/-- The table of quantiles (used for the theorems below). -/
theorem table_spec (c : Setup) (ds : Bool → ℝ → ℝ) (n : Nat) (h : Steps c n) (hn : 1 ≤ n) (hp : ∀ k, 1 ≤ k → k ≤ n → 0 < ds true (place c k)) :
    ∃ (t : Table) (q : Nat → ℝ), build c ds = .ok t ∧ t.sigElastic = total c (ds true) n ∧ t.sigElasticN = total c (ds false) n ∧ q 0 = c.tmin ∧ q (n + 1) = c.tmax ∧
      (∀ k, 1 ≤ k → k ≤ n → Quantile c (ds true) n ((k : ℝ) / ((n : ℝ) + 1)) (q k)) ∧ (∀ i j, i < j → j ≤ n + 1 → q i < q j) ∧
      ∀ v : ℝ, 0 ≤ v → v < 1 → ∃ i, i ≤ n ∧ (i : ℝ) / ((n : ℝ) + 1) ≤ v ∧ v ≤ ((i : ℝ) + 1) / ((n : ℝ) + 1) ∧
        (equalValueAt t.lin v : Res ℝ) = .ok (q i + (q (i + 1) - q i) * (v * ((n : ℝ) + 1) - i)) := by
  obtain ⟨hs, hb, ht1, ht2⟩ := h
  have hn1 : (0 : ℝ) < (n : ℝ) + 1 := by positivity
  have hT : 0 < total c (ds true) n := by
    have := total_lt c hs (ds true) n hp 0 n (by omega) le_rfl
    rwa [total_zero] at this
  have hts : ts c n = (List.range (n + 1)).map (place c) := ts_eq c n
  have hlen : (ts c n).length = n + 1 := by rw [hts]; simp
  have hd : ∀ f : ℝ → ℝ, (ts c n).map f = f (place c 0) :: (List.range' 1 n).map fun k => f (place c k) := by
    intro f
    rw [hts, range_succ']
    simp
  have hx : 0 :: ((List.range' 1 n).map (total c (ds true))).map (· / total c (ds true) n) = (List.range (n + 1)).map (cum c (ds true) n) := by
    rw [range_succ', List.map_cons, List.map_map]
    congr 1
    · simp [cum, total_zero]
  obtain ⟨inv, hinv⟩ : ∃ inv, (mkArb ((List.range (n + 1)).map (cum c (ds true) n)) ((List.range (n + 1)).map (place c)) 1 : Res (Arb ℝ)) = .ok inv := by
    unfold mkArb
    rw [if_pos (by simp)]
    exact ⟨_, rfl⟩
  obtain ⟨q0, hq0, hQ⟩ := inverse_list inv (n + 1) (fun k v => Quantile c (ds true) n ((k : ℝ) / ((n : ℝ) + 1)) v) (List.range' 1 n) (by
    intro k hk
    obtain ⟨k1, k2⟩ := List.mem_range'_1.mp hk
    have e : ((n + 1 : Nat) : ℝ) = (n : ℝ) + 1 := by push_cast; ring
    rw [e]
    refine inverse_value c (ds true) n hs hn hp inv hinv _ (by positivity) ?_
    rw [div_le_one hn1]
    have : (k : ℝ) ≤ n := by exact_mod_cast (by omega : k ≤ n)
    linarith)
  set q : Nat → ℝ := fun k => if k = 0 then c.tmin else if k = n + 1 then c.tmax else q0 k with hqd
  have hq : ∀ k, 1 ≤ k → k ≤ n → q k = q0 k := by
    intro k h1 h2
    rw [hqd]
    simp only
    rw [if_neg (by omega), if_neg (by omega)]
  have hy : c.tmin :: (List.range' 1 n).map q0 ++ [c.tmax] = (List.range (n + 2)).map q := by
    rw [List.range_succ, List.map_append, range_succ', List.map_cons]
    congr 1
    · congr 1
      apply List.map_congr_left
      intro k hk
      obtain ⟨k1, k2⟩ := List.mem_range'_1.mp hk
      exact (hq k k1 (by omega)).symm
    · simp [hqd]
  have hylen : ((List.range (n + 2)).map q).length = n + 2 := by simp
  obtain ⟨lin, hlin⟩ : ∃ lin, (mkEqual ((List.range (n + 2)).map q) 0 (1 / ((n : ℝ) + 1)) : Res (Equal ℝ)) = .ok lin := by
    unfold mkEqual
    rw [if_pos (by positivity)]
    exact ⟨_, rfl⟩
  have hQ' : ∀ k, 1 ≤ k → k ≤ n → Quantile c (ds true) n ((k : ℝ) / ((n : ℝ) + 1)) (q k) := by
    intro k h1 h2
    rw [hq k h1 h2]
    exact hQ k (List.mem_range'_1.mpr ⟨h1, by omega⟩)
  have hq00 : q 0 = c.tmin := by simp [hqd]
  have hqn : q (n + 1) = c.tmax := by simp [hqd]
  have hQ0 : Quantile c (ds true) n 0 c.tmin := by
    refine ⟨0, by omega, by simp [place], ?_, by simp [total_zero, place]⟩
    simp [place, hs.le]
  have hQn : Quantile c (ds true) n 1 (place c n) := by
    refine ⟨n - 1, by omega, place_le c hs (by omega), le_of_eq (by congr 1; omega), ?_⟩
    have e := total_succ c (ds true) (n - 1)
    have e' := place_succ c (n - 1)
    rw [show n - 1 + 1 = n by omega] at e e' ⊢
    rw [e]
    have : place c n - place c (n - 1) = c.step := by linarith
    rw [this, one_mul]
  refine ⟨⟨total c (ds true) n, total c (ds false) n, lin⟩, q, ?_, rfl, rfl, hq00, hqn, hQ', ?_, ?_⟩
  · unfold build
    rw [nSteps_eq c n ⟨hs, hb, ht1, ht2⟩]
    show integrate c (ts c n) _ _ = _
    rw [hd, hd]
    unfold integrate
    simp only [running_total c (ds true) n, running_total c (ds false) n, hlen]
    rw [if_neg (by rintro ⟨-, h⟩; exact hT.ne' h), hx, hts, hinv]
    show (inverse inv (n + 1) (List.range' 1 (n + 1 - 1))).bind _ = _
    rw [Nat.add_sub_cancel, hq0]
    show (mkEqual (c.tmin :: (List.range' 1 n).map q0 ++ [c.tmax]) 0 (1 / ((n + 1 : Nat) : ℝ))).bind _ = _
    rw [hy, show ((n + 1 : Nat) : ℝ) = (n : ℝ) + 1 by push_cast; ring, hlin]
    rfl
  · intro i j hij hj
    have hjq : ∀ k, 1 ≤ k → k ≤ n → q k < c.tmax := by
      intro k h1 h2
      have := quantile_lt c (ds true) n hs hp hT (hQ' k h1 h2) hQn (by
        rw [div_lt_one hn1]
        have : (k : ℝ) ≤ n := by exact_mod_cast h2
        linarith)
      linarith
    by_cases hi0 : i = 0
    · subst hi0
      rw [hq00]
      by_cases hjn : j = n + 1
      · rw [hjn, hqn]
        have := place_lt c hs (show 0 < n by omega)
        have e0 : place c 0 = c.tmin := by simp [place]
        linarith
      · exact quantile_lt c (ds true) n hs hp hT hQ0 (hQ' j (by omega) (by omega)) (by
          have : (0 : ℝ) < j := by exact_mod_cast hij
          positivity)
    · by_cases hjn : j = n + 1
      · rw [hjn, hqn]
        exact hjq i (by omega) (by omega)
      · refine quantile_lt c (ds true) n hs hp hT (hQ' i (by omega) (by omega)) (hQ' j (by omega) (by omega)) ?_
        have : (i : ℝ) < j := by exact_mod_cast hij
        exact div_lt_div_of_pos_right this hn1
  · intro v h0 h1
    have e := equal_spaced_partial ((List.range (n + 2)).map q) 0 (1 / ((n : ℝ) + 1)) (by simp) lin hlin v (by
      rw [hylen]
      push_cast
      have : ((n : ℝ) + 2 - 1) * (1 / ((n : ℝ) + 1)) = 1 := by field_simp; ring
      rw [zero_add, this]
      exact h1.ne)
    obtain ⟨i, hi, hv, hlo, hhi, -, -⟩ := e
    rw [hylen] at hi
    refine ⟨i, by omega, ?_, ?_, ?_⟩
    · have := hlo h0
      rw [zero_add] at this
      calc (i : ℝ) / ((n : ℝ) + 1) = i * (1 / ((n : ℝ) + 1)) := by ring
        _ ≤ v := this
    · have := hhi (by
        rw [hylen]
        push_cast
        have : ((n : ℝ) + 2 - 1) * (1 / ((n : ℝ) + 1)) = 1 := by field_simp; ring
        rw [zero_add, this]
        exact h1.le)
      rw [zero_add] at this
      calc v ≤ ((i : ℝ) + 1) * (1 / ((n : ℝ) + 1)) := this
        _ = ((i : ℝ) + 1) / ((n : ℝ) + 1) := by ring
    · show equalValueAt lin v = _
      rw [hv]
      simp only [List.getElem_map, List.getElem_range, zero_add]
      congr 1
      field_simp

theorem run_table (cross : ℝ → Bool → ℝ → ℝ) (t : Table) : ∀ (l : List Op) (o o' : Obj), o.table = some t → o.configured = true → o.run cross l = .ok o' →
    o'.table = some t ∧ o'.configured = true := by
  intro l
  induction l with
  | nil =>
    intro o o' h1 h2 h
    injection h with h
    subst h
    exact ⟨h1, h2⟩
  | cons a l ih =>
    intro o o' h1 h2 h
    cases a with
    | generate e =>
      simp only [Obj.run, Obj.op, h2, if_true] at h
      exact ih o o' h1 h2 h
    | setTMin v => exact ih ⟨⟨v, o.setup.tmax, o.setup.step⟩, o.table, o.configured⟩ o' h1 h2 h
    | setTMax v => exact ih ⟨⟨o.setup.tmin, v, o.setup.step⟩, o.table, o.configured⟩ o' h1 h2 h
    | setStep v => exact ih ⟨⟨o.setup.tmin, o.setup.tmax, v⟩, o.table, o.configured⟩ o' h1 h2 h

theorem op_generate (cross : ℝ → Bool → ℝ → ℝ) (c : Setup) (energy : ℝ) (t : Table) (h : build c (cross (sqrtS energy)) = .ok t) :
    (⟨c, none, false⟩ : Obj).op cross (.generate energy) = .ok ⟨c, some t, true⟩ := by
  simp only [Obj.op, Bool.false_eq_true, if_false, h]
  rfl

/-- **C318.** The energy of the collision is the invariant mass of the proton and a proton at rest. -/
theorem invariant_mass (energy : ℝ) (h : mp ≤ energy) :
    sqrtS energy = √((energy + mp) ^ 2 - √(energy ^ 2 - mp ^ 2) ^ 2) ∧ mp = 938272013 / 1000000000 := by
  refine ⟨?_, rfl⟩
  have hm : 0 < mp := by unfold mp; norm_num
  rw [Real.sq_sqrt (by nlinarith)]
  unfold sqrtS
  congr 1
  ring

example : mp ≤ 7000 := by unfold mp; norm_num

/-- **C318.** The cross sections are the sums over the steps, with and without the Coulomb part, and do not change any more. -/
theorem cross_sections (cross : ℝ → Bool → ℝ → ℝ) (c : Setup) (energy : ℝ) (n : Nat) (h : Steps c n) (hn : 1 ≤ n)
    (hp : ∀ k, 1 ≤ k → k ≤ n → 0 < cross (sqrtS energy) true (place c k)) (later : List Op) (o : Obj)
    (ho : (⟨c, none, false⟩ : Obj).run cross (.generate energy :: later) = .ok o) :
    ∃ t, o.table = some t ∧ t.sigElastic = total c (cross (sqrtS energy) true) n ∧ t.sigElasticN = total c (cross (sqrtS energy) false) n := by
  obtain ⟨t, q, hb, h1, h2, -⟩ := table_spec c (cross (sqrtS energy)) n h hn hp
  rw [Obj.run, op_generate cross c energy t hb] at ho
  exact ⟨t, (run_table cross t later _ o rfl rfl ho).1, h1, h2⟩

/-- **C319.** Once a distribution has been made, whatever is set later: every random number of [0, 1) gives a t between the bounds, larger numbers
give larger t, and at every multiple of one over the number of points t is the quantile of the cross section. -/
theorem select_quantiles (cross : ℝ → Bool → ℝ → ℝ) (c : Setup) (energy : ℝ) (n : Nat) (h : Steps c n) (hn : 1 ≤ n)
    (hp : ∀ k, 1 ≤ k → k ≤ n → 0 < cross (sqrtS energy) true (place c k)) (later : List Op) (o : Obj)
    (ho : (⟨c, none, false⟩ : Obj).run cross (.generate energy :: later) = .ok o) :
    ∃ sel : ℝ → ℝ, (∀ v, 0 ≤ v → v < 1 → o.selectT v = .ok (sel v)) ∧ sel 0 = c.tmin ∧ (∀ v, 0 ≤ v → v < 1 → c.tmin ≤ sel v ∧ sel v < c.tmax) ∧
      (∀ v w, 0 ≤ v → v < w → w < 1 → sel v < sel w) ∧
      ∀ k : Nat, 1 ≤ k → k ≤ n → Quantile c (cross (sqrtS energy) true) n ((k : ℝ) / ((n : ℝ) + 1)) (sel ((k : ℝ) / ((n : ℝ) + 1))) := by
  obtain ⟨t, q, hb, -, -, q0, qn, hQ, hlt, hv⟩ := table_spec c (cross (sqrtS energy)) n h hn hp
  rw [Obj.run, op_generate cross c energy t hb] at ho
  have ht := (run_table cross t later _ o rfl rfl ho).1
  have hn1 : (0 : ℝ) < (n : ℝ) + 1 := by positivity
  -- the value does not depend on which of two neighbouring intervals is used
  have hval : ∀ (v : ℝ) (i : Nat), i ≤ n → (i : ℝ) / ((n : ℝ) + 1) ≤ v → v ≤ ((i : ℝ) + 1) / ((n : ℝ) + 1) → 0 ≤ v → v < 1 →
      o.selectT v = .ok (q i + (q (i + 1) - q i) * (v * ((n : ℝ) + 1) - i)) := by
    intro v i hi l1 l2 v0 v1
    obtain ⟨j, hj, m1, m2, e⟩ := hv v v0 v1
    rw [div_le_iff₀ hn1] at l1 m1
    rw [le_div_iff₀ hn1] at l2 m2
    unfold Obj.selectT
    rw [ht]
    show equalValueAt t.lin v = _
    rw [e]
    rcases Nat.lt_trichotomy i j with hij | hij | hij
    · have h1 : ((i : ℝ) + 1) ≤ j := by exact_mod_cast hij
      have h2 : v * ((n : ℝ) + 1) = j := by linarith
      have h3 : j = i + 1 := by
        have : (j : ℝ) = i + 1 := by linarith
        exact_mod_cast this
      subst h3
      rw [h2]
      push_cast
      congr 1
      ring
    · subst hij; rfl
    · have h1 : ((j : ℝ) + 1) ≤ i := by exact_mod_cast hij
      have h2 : v * ((n : ℝ) + 1) = i := by linarith
      have h3 : i = j + 1 := by
        have : (i : ℝ) = j + 1 := by linarith
        exact_mod_cast this
      subst h3
      rw [h2]
      push_cast
      congr 1
      ring
  have hcell : ∀ v, 0 ≤ v → v < 1 → ∃ i, i ≤ n ∧ (i : ℝ) ≤ v * ((n : ℝ) + 1) ∧ v * ((n : ℝ) + 1) < i + 1 := by
    intro v v0 v1
    have h0 : 0 ≤ v * ((n : ℝ) + 1) := by positivity
    refine ⟨⌊v * ((n : ℝ) + 1)⌋₊, ?_, Nat.floor_le h0, Nat.lt_floor_add_one _⟩
    have : v * ((n : ℝ) + 1) < ((n + 1 : Nat) : ℝ) := by push_cast; nlinarith
    have := (Nat.floor_lt h0).mpr this
    omega
  have hsel : ∀ v, ∃ y, 0 ≤ v → v < 1 → ∃ i, i ≤ n ∧ (i : ℝ) ≤ v * ((n : ℝ) + 1) ∧ v * ((n : ℝ) + 1) < i + 1 ∧
      y = q i + (q (i + 1) - q i) * (v * ((n : ℝ) + 1) - i) ∧ o.selectT v = .ok y := by
    intro v
    by_cases hv01 : 0 ≤ v ∧ v < 1
    · obtain ⟨i, hi, l1, l2⟩ := hcell v hv01.1 hv01.2
      exact ⟨_, fun _ _ => ⟨i, hi, l1, l2, rfl, hval v i hi ((div_le_iff₀ hn1).mpr l1) ((le_div_iff₀ hn1).mpr l2.le) hv01.1 hv01.2⟩⟩
    · exact ⟨0, fun a b => absurd ⟨a, b⟩ hv01⟩
  choose sel hsel using hsel
  have hbetween : ∀ v, 0 ≤ v → v < 1 → ∀ i, i ≤ n → (i : ℝ) ≤ v * ((n : ℝ) + 1) → v * ((n : ℝ) + 1) < i + 1 → q i ≤ sel v ∧ sel v < q (i + 1) := by
    intro v v0 v1 i hi l1 l2
    obtain ⟨j, hj, m1, m2, e, -⟩ := hsel v v0 v1
    have hij : i = j := by
      have h1 : (i : ℝ) < j + 1 := by linarith
      have h2 : (j : ℝ) < i + 1 := by linarith
      have h1 : i < j + 1 := by exact_mod_cast h1
      have h2 : j < i + 1 := by exact_mod_cast h2
      omega
    subst hij
    have hq := hlt i (i + 1) (by omega) (by omega)
    rw [e]
    constructor
    · have := mul_nonneg (sub_nonneg.mpr hq.le) (sub_nonneg.mpr m1); linarith
    · have := mul_lt_mul_of_pos_left (show v * ((n : ℝ) + 1) - i < 1 by linarith) (sub_pos.mpr hq); linarith
  have hqle : ∀ i j : Nat, i ≤ j → j ≤ n + 1 → q i ≤ q j := by
    intro i j hij hj
    rcases Nat.lt_or_eq_of_le hij with h' | rfl
    · exact (hlt i j h' hj).le
    · exact le_rfl
  refine ⟨sel, fun v v0 v1 => ?_, ?_, fun v v0 v1 => ?_, ?_, ?_⟩
  · obtain ⟨i, _, _, _, _, e⟩ := hsel v v0 v1
    exact e
  · obtain ⟨i, hi, l1, l2, e, -⟩ := hsel 0 le_rfl one_pos
    have : i = 0 := by
      have : (i : ℝ) ≤ 0 := by simpa using l1
      exact_mod_cast le_antisymm this (Nat.cast_nonneg i)
    subst this
    rw [e, q0]
    simp
  · obtain ⟨i, hi, l1, l2⟩ := hcell v v0 v1
    obtain ⟨b1, b2⟩ := hbetween v v0 v1 i hi l1 l2
    constructor
    · have := hqle 0 i (by omega) (by omega); linarith
    · have := hqle (i + 1) (n + 1) (by omega) le_rfl; linarith
  · intro v w v0 hvw w1
    obtain ⟨i, hi, l1, l2, e, -⟩ := hsel v v0 (by linarith)
    obtain ⟨j, hj, m1, m2, e', -⟩ := hsel w (by linarith) w1
    have hvw' : v * ((n : ℝ) + 1) < w * ((n : ℝ) + 1) := mul_lt_mul_of_pos_right hvw hn1
    rcases Nat.lt_trichotomy i j with hij | hij | hij
    · have b := (hbetween v v0 (by linarith) i hi l1 l2).2
      have b' := (hbetween w (by linarith) w1 j hj m1 m2).1
      have := hqle (i + 1) j (by omega) (by omega)
      linarith
    · subst hij
      have hq := hlt i (i + 1) (by omega) (by omega)
      rw [e, e']
      have := mul_lt_mul_of_pos_left (sub_lt_sub_right hvw' (i : ℝ)) (sub_pos.mpr hq)
      linarith
    · have h1 : ((j : ℝ) + 1) ≤ i := by exact_mod_cast hij
      linarith
  · intro k k1 k2
    have hk0 : (0 : ℝ) ≤ (k : ℝ) / ((n : ℝ) + 1) := by positivity
    have hk1 : (k : ℝ) / ((n : ℝ) + 1) < 1 := by
      rw [div_lt_one hn1]
      have : (k : ℝ) ≤ n := by exact_mod_cast k2
      linarith
    obtain ⟨i, hi, l1, l2, e, -⟩ := hsel _ hk0 hk1
    have ek : (k : ℝ) / ((n : ℝ) + 1) * ((n : ℝ) + 1) = k := by field_simp
    rw [ek] at l1 l2
    have : i = k := by
      have h1 : i ≤ k := by exact_mod_cast l1
      have h2 : k < i + 1 := by exact_mod_cast l2
      omega
    subst this
    rw [e, ek]
    simpa using hQ i k1 k2

/-- **C319.** The law of t: the chance of a value below a quantile is that of the quantile. -/
theorem select_law (cross : ℝ → Bool → ℝ → ℝ) (c : Setup) (energy : ℝ) (n : Nat) (h : Steps c n) (hn : 1 ≤ n)
    (hp : ∀ k, 1 ≤ k → k ≤ n → 0 < cross (sqrtS energy) true (place c k)) (later : List Op) (o : Obj)
    (ho : (⟨c, none, false⟩ : Obj).run cross (.generate energy :: later) = .ok o) :
    ∃ sel : ℝ → ℝ, (∀ v, 0 ≤ v → v < 1 → o.selectT v = .ok (sel v)) ∧ ∀ k : Nat, 1 ≤ k → k ≤ n → ∃ q,
      Quantile c (cross (sqrtS energy) true) n ((k : ℝ) / ((n : ℝ) + 1)) q ∧
      volume {v : ℝ | 0 ≤ v ∧ v < 1 ∧ sel v < q} = ENNReal.ofReal ((k : ℝ) / ((n : ℝ) + 1)) := by
  obtain ⟨sel, hs, -, -, hm, hq⟩ := select_quantiles cross c energy n h hn hp later o ho
  refine ⟨sel, hs, fun k k1 k2 => ⟨_, hq k k1 k2, ?_⟩⟩
  have hn1 : (0 : ℝ) < (n : ℝ) + 1 := by positivity
  have hk0 : (0 : ℝ) ≤ (k : ℝ) / ((n : ℝ) + 1) := by positivity
  have hk1 : (k : ℝ) / ((n : ℝ) + 1) < 1 := by
    rw [div_lt_one hn1]
    have : (k : ℝ) ≤ n := by exact_mod_cast k2
    linarith
  have : {v : ℝ | 0 ≤ v ∧ v < 1 ∧ sel v < sel ((k : ℝ) / ((n : ℝ) + 1))} = Set.Ico 0 ((k : ℝ) / ((n : ℝ) + 1)) := by
    ext v
    constructor
    · rintro ⟨v0, v1, hv⟩
      refine ⟨v0, ?_⟩
      by_contra hc
      push Not at hc
      rcases lt_or_eq_of_le hc with hc | hc
      · exact absurd (hm _ _ hk0 hc v1) (not_lt.mpr hv.le)
      · rw [hc] at hv; exact lt_irrefl _ hv
    · rintro ⟨v0, hv⟩
      exact ⟨v0, hv.trans hk1, hm v _ v0 hv hk1⟩
  rw [this, Real.volume_Ico, sub_zero]

/-- **C320 fails:** a distribution is made once; asking for another energy, or other bounds, leaves the first one. -/
theorem energy_violated (cross : ℝ → Bool → ℝ → ℝ) (c : Setup) (e1 e2 tmax : ℝ) (n : Nat) (h : Steps c n) (hn : 1 ≤ n)
    (hp : ∀ k, 1 ≤ k → k ≤ n → 0 < cross (sqrtS e1) true (place c k)) :
    ∃ o1 o2 : Obj, (⟨c, none, false⟩ : Obj).run cross [.generate e1] = .ok o1 ∧
      (⟨c, none, false⟩ : Obj).run cross [.generate e1, .setTMax tmax, .generate e2] = .ok o2 ∧ o2.setup.tmax = tmax ∧ ∀ v, o1.selectT v = o2.selectT v := by
  obtain ⟨t, q, hb, -⟩ := table_spec c (cross (sqrtS e1)) n h hn hp
  refine ⟨⟨c, some t, true⟩, ⟨⟨c.tmin, tmax, c.step⟩, some t, true⟩, ?_, ?_, rfl, fun v => rfl⟩
  · rw [Obj.run, op_generate cross c e1 t hb]; rfl
  · rw [Obj.run, op_generate cross c e1 t hb]; rfl

/-- **C321.** For a falling cross section the sum is below the integral over the steps, by at most one step times the drop. -/
theorem sum_integral (c : Setup) (hs : 0 < c.step) (f : ℝ → ℝ) (n : Nat) (hf : AntitoneOn f (Set.Icc (place c 0) (place c n))) :
    total c f n ≤ ∫ t in (place c 0)..(place c n), f t ∧
    ∫ t in (place c 0)..(place c n), f t ≤ total c f n + c.step * (f (place c 0) - f (place c n)) := by
  set g : ℝ → ℝ := fun x => f (c.step * x + c.tmin) with hg
  have hpl : ∀ k : Nat, place c k = c.step * k + c.tmin := fun k => by unfold place; ring
  have hga : AntitoneOn g (Set.Icc ((0 : Nat) : ℝ) ((0 + n : Nat) : ℝ)) := by
    intro x hx y hy hxy
    have e0 := hpl 0
    have en := hpl n
    rw [zero_add] at hx hy
    have hx0 := hx.1
    have hy0 := hy.1
    push_cast at hx0 hy0 e0
    have m1 : ∀ z : ℝ, 0 ≤ z → z ≤ n → c.step * z + c.tmin ∈ Set.Icc (place c 0) (place c n) := by
      intro z z0 zn
      rw [e0, en]
      exact ⟨by nlinarith, by nlinarith⟩
    exact hf (m1 x hx0 hx.2) (m1 y hy0 hy.2) (by nlinarith)
  have hint : ∫ t in (place c 0)..(place c n), f t = c.step * ∫ x in (0 : ℝ)..n, g x := by
    rw [hg, intervalIntegral.integral_comp_mul_add f hs.ne' c.tmin, hpl, hpl, smul_eq_mul]
    push_cast
    rw [← mul_assoc, mul_inv_cancel₀ hs.ne', one_mul]
  have hga' : AntitoneOn g (Set.Icc ((0 : ℝ)) ((0 : ℝ) + (n : ℝ))) := by
    have := hga; push_cast at this; simpa using this
  have u := AntitoneOn.sum_le_integral hga'
  have l := AntitoneOn.integral_le_sum hga'
  have tot : total c f n = c.step * ∑ i ∈ range n, g (0 + ((i + 1 : Nat) : ℝ)) := by
    unfold total
    rw [Finset.sum_Ico_eq_sum_range]
    congr 1
    apply Finset.sum_congr (by simp)
    intro k _
    rw [hpl, hg]
    simp only
    congr 1
    push_cast
    ring
  have tot0 : ∑ i ∈ range n, g (0 + (i : ℝ)) = ∑ i ∈ range n, g (0 + ((i + 1 : Nat) : ℝ)) + (f (place c 0) - f (place c n)) := by
    have := Finset.sum_range_succ (fun i : Nat => g (0 + (i : ℝ))) n
    have := Finset.sum_range_succ' (fun i : Nat => g (0 + (i : ℝ))) n
    have e0 : g (0 + ((0 : Nat) : ℝ)) = f (place c 0) := by rw [hg, hpl]; simp
    have en : g (0 + (n : ℝ)) = f (place c n) := by rw [hg, hpl]; simp
    rw [e0] at this
    linarith
  rw [hint, tot]
  rw [zero_add] at u l
  constructor
  · exact mul_le_mul_of_nonneg_left u hs.le
  · rw [← mul_add, ← tot0]
    exact mul_le_mul_of_nonneg_left l hs.le

/-! An example: a falling cross section, bounds 1 and 4 in steps of one. -/

theorem example_steps : Steps ⟨1, 4, 1⟩ 3 := by
  unfold Steps place
  norm_num

example : ∃ o : Obj, (⟨⟨1, 4, 1⟩, none, false⟩ : Obj).run (fun _ _ t => 1 / t) [.generate 7000, .setStep 2] = .ok o ∧
    ∃ t, o.table = some t ∧ t.sigElastic = total ⟨1, 4, 1⟩ (fun t => 1 / t) 3 := by
  have hp : ∀ k, 1 ≤ k → k ≤ 3 → 0 < (fun (_ : ℝ) (_ : Bool) (t : ℝ) => 1 / t) (sqrtS 7000) true (place ⟨1, 4, 1⟩ k) := by
    intro k _ _
    unfold place
    simp only
    positivity
  obtain ⟨t, q, hb, h1, -⟩ := table_spec ⟨1, 4, 1⟩ ((fun (_ : ℝ) (_ : Bool) (t : ℝ) => 1 / t) (sqrtS 7000)) 3 example_steps (by norm_num) hp
  refine ⟨⟨⟨1, 4, 2⟩, some t, true⟩, ?_, t, rfl, h1⟩
  rw [Obj.run, op_generate _ _ _ t hb]
  rfl

end Verif.Elastic
