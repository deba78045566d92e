import Verif.Scatter.Spec
import Verif.ATL.Properties
import Mathlib.Topology.Algebra.Order.LiminfLimsup
import Mathlib.Analysis.SpecialFunctions.Log.Basic
import Mathlib.Tactic.Ring
import Mathlib.Tactic.FieldSimp
import Mathlib.Tactic.Linarith
import Mathlib.Tactic.NormNum
import Mathlib.Tactic.Positivity

/-!
# Property theorems for scattering (C171-C174)
-/

namespace Verif.Scatter
open Verif Verif.Scatter.Spec

/-! ## C171: laws of free paths and momentum transfers -/

/-- **C171.** The free path has an exponential law: it exceeds `L` exactly for uniform numbers below `exp(-L/lambda)`. -/
theorem path_law (lam u L : ℝ) (hl : 0 < lam) (hu : 0 < u) : L < pathLength lam u ↔ u < Real.exp (-(L / lam)) := by
  unfold pathLength
  rw [← Real.log_lt_iff_lt_exp hu, show -lam * Real.log u = lam * -Real.log u by ring, lt_neg, ← div_lt_iff₀' hl]

example : (0 : ℝ) < 1 / 10 ∧ (0 : ℝ) < Real.exp (-2) ∧ pathLength (1 / 10) (Real.exp (-2)) = 2 / 10 := by
  refine ⟨by norm_num, Real.exp_pos _, ?_⟩
  unfold pathLength; rw [Real.log_exp]; norm_num

/-- **C171.** Momentum transfers of elastic scattering have an exponential law with their slope. -/
theorem transfer_law (b u T : ℝ) (hb : 0 < b) (hu : 0 < u) : T < expT b u ↔ u < Real.exp (-(b * T)) := by
  unfold expT
  rw [← Real.log_lt_iff_lt_exp hu, lt_neg, lt_div_iff₀ hb, mul_comm]

/-- **C171.** Momentum transfers of Rutherford scattering are above the minimum, and exceed `T` with probability
`tmin / T`. -/
theorem rutherford_law (u T : ℝ) (h0 : 0 ≤ u) (h1 : u < 1) (hT : tmin ≤ T) :
    tmin ≤ rutherfordT u ∧ (T < rutherfordT u ↔ 1 - u < tmin / T) := by
  have ht : 0 < tmin := by unfold tmin; norm_num
  have hu : 0 < 1 - u := by linarith
  unfold rutherfordT
  refine ⟨?_, ?_⟩
  · rw [le_div_iff₀ hu]; nlinarith
  · rw [lt_div_iff₀ hu, lt_div_iff₀ (by linarith), mul_comm]

/-- **C171.** The diffractive mass squared lies between one and 0.15 s, with the law 1/M^2: it is at most `M` exactly for uniform
numbers up to `log M / log (0.15 s)`; so at most 15 percent of the energy is lost. -/
theorem mass_law (E u M : ℝ) (hE : 1 < 15 / 100 * (2 * mp * E)) (h0 : 0 ≤ u) (h1 : u ≤ 1) (hM : 0 < M) :
    1 ≤ massSq E u ∧ massSq E u ≤ 15 / 100 * (2 * mp * E) ∧
    (massSq E u ≤ M ↔ u ≤ Real.log M / Real.log (15 / 100 * (2 * mp * E))) ∧
    massSq E u * E / (2 * mp * E) ≤ 15 / 100 * E := by
  have hl : 0 < Real.log (15 / 100 * (2 * mp * E)) := Real.log_pos hE
  have hmp : 0 < mp := by unfold mp; norm_num
  have hE0 : 0 < E := by
    by_contra h
    have : mp * E ≤ 0 := mul_nonpos_of_nonneg_of_nonpos hmp.le (not_lt.1 h)
    linarith
  have h2 : massSq E u ≤ 15 / 100 * (2 * mp * E) := by
    unfold massSq
    rw [← Real.le_log_iff_exp_le (by linarith)]
    nlinarith
  refine ⟨?_, h2, ?_, ?_⟩
  · unfold massSq
    rw [Real.one_le_exp_iff]
    positivity
  · unfold massSq
    rw [← Real.le_log_iff_exp_le hM, le_div_iff₀ hl]
  · rw [div_le_iff₀ (by positivity)]
    nlinarith

example : 1 < 15 / 100 * (2 * mp * 7000) := by unfold mp; norm_num

/-- **C171, partial.** The slope of single diffraction is the one that joins its two ends, outside masses squared between 2 and
5; and it is positive, so that `transfer_law` applies.  Missing: the masses between, where the divisor is 26 instead of 36
(`slope_violated`). -/
theorem slope_partial (b x : ℝ) (hb : 0 < b) : (x < 2 ∨ 5 < x → slopeSD b x = joinedSlope b x) ∧ 0 < slopeSD b x := by
  unfold slopeSD joinedSlope
  refine ⟨?_, ?_⟩
  · rintro (h | h)
    · rw [if_pos h, if_pos h]
    · rw [if_neg (by linarith), if_neg (by linarith), if_neg (by linarith), if_neg (by linarith)]
  · split
    · linarith
    · split
      · rename_i h1 h2
        have : 0 < 106 - 17 * x := by linarith
        positivity
      · linarith

/-- The slope that joins its ends is continuous. -/
theorem joined_continuous (b : ℝ) : Continuous (joinedSlope b) := by
  unfold joinedSlope
  refine Continuous.if ?_ continuous_const (Continuous.if ?_ (by fun_prop) continuous_const)
  · intro a ha
    have : a = 2 := by
      have h := frontier_lt_subset_eq (f := fun x : ℝ => x) (g := fun _ => 2) continuous_id continuous_const ha
      simpa using h
    subst this
    rw [if_pos (by norm_num)]; ring
  · intro a ha
    have : a = 5 := by
      have h := frontier_le_subset_eq (f := fun x : ℝ => x) (g := fun _ => 5) continuous_id continuous_const ha
      simpa using h
    subst this
    ring

/-- **C171, violated.** The slope in the code jumps: just below a mass squared of 2 it is `2 b`, at 2 it is `72 b / 26`; at 5 it is
`21 b / 26` and then `7 b / 12`. -/
theorem slope_violated (b : ℝ) (hb : 0 < b) : ¬ Continuous (slopeSD b) := by
  intro h
  have h1 : IsClosed {x : ℝ | slopeSD b x ≤ 2 * b} := isClosed_le h continuous_const
  have h2 : closure (Set.Iio (2 : ℝ)) ⊆ {x : ℝ | slopeSD b x ≤ 2 * b} := by
    refine closure_minimal ?_ h1
    intro x hx
    show slopeSD b x ≤ 2 * b
    unfold slopeSD
    rw [if_pos (show x < 2 from hx)]
  rw [closure_Iio] at h2
  have h3 : slopeSD b 2 ≤ 2 * b := h2 (show (2 : ℝ) ≤ 2 from le_rfl)
  unfold slopeSD at h3
  rw [if_neg (by norm_num), if_pos (by norm_num)] at h3
  linarith

/-! ## C172: kicks -/

theorem kick (p q : Part) (t E phi : ℝ) (ht : 0 ≤ t) (h1 : q.xp = p.xp + Real.sqrt t / E * Real.cos phi)
    (h2 : q.yp = p.yp + Real.sqrt t / E * Real.sin phi) (h3 : q.x = p.x) (h4 : q.y = p.y) : Kick p q t E := by
  refine ⟨?_, h3, h4⟩
  rw [h1, h2]
  have e : ∀ c s : ℝ, (p.xp + Real.sqrt t / E * c - p.xp) ^ 2 + (p.yp + Real.sqrt t / E * s - p.yp) ^ 2 =
      (Real.sqrt t) ^ 2 / E ^ 2 * (s ^ 2 + c ^ 2) := by intro c s; ring
  rw [e, Real.sin_sq_add_cos_sq, Real.sq_sqrt ht, mul_one]

/-- **C172.** Scattering on a nucleus of mass `m` (Rutherford or elastic) with a momentum transfer `t` takes the energy of the
recoil, `t / (2 m)`, from the particle, and turns it by `sqrt t` over its energy after the recoil; the particle survives if
its energy is above 0.1 GeV. -/
theorem nucleus_kick (A : ℝ) (p : Part) (E u v phi : ℝ) (hE : E ≠ 0) (hu : 0 < u) (hu1 : u < 1) (hA : 0 < A) :
    (let r := scatter (.rutherford A) p E u v phi
     Kick p r.2 (rutherfordT u) (energy r.2 E) ∧ energy r.2 E = energy p E - rutherfordT u / (2 * (amu * A)) ∧
     (r.1 = true ↔ 1 / 10 < energy r.2 E)) ∧
    (let r := scatter (.elasticN A) p E u v phi
     Kick p r.2 (expT (slopeN A) u) (energy r.2 E) ∧ energy r.2 E = energy p E - expT (slopeN A) u / (2 * (amu * A)) ∧
     (r.1 = true ↔ 1 / 10 < energy r.2 E)) := by
  have key : ∀ t m : ℝ, 0 ≤ t → (Kick p (stuffM p t m E phi) t (energy (stuffM p t m E phi) E) ∧
      energy (stuffM p t m E phi) E = energy p E - t / (2 * m) ∧
      (alive (stuffM p t m E phi) E = true ↔ 1 / 10 < energy (stuffM p t m E phi) E)) := by
    intro t m ht
    have he : energy (stuffM p t m E phi) E = energy p E - t / (2 * m) := by
      unfold energy stuffM; simp only; field_simp; ring
    have he' : (p.dp + 1) * E - t / (2 * m) = energy (stuffM p t m E phi) E := by rw [he]; unfold energy; ring
    refine ⟨kick _ _ t _ phi ht ?_ ?_ rfl rfl, he, ?_⟩
    · rw [← he']; rfl
    · rw [← he']; rfl
    · unfold alive energy
      rw [mul_comm E]
      simp
  have ht1 : 0 ≤ rutherfordT u := by
    unfold rutherfordT tmin; exact div_nonneg (by norm_num) (by linarith)
  have ht2 : 0 ≤ expT (slopeN A) u := by
    unfold expT slopeN
    have := Real.log_neg hu hu1
    have := Real.rpow_pos_of_pos hA (66 / 100 : ℝ)
    exact div_nonneg (by linarith) (by positivity)
  exact ⟨key _ _ ht1, key _ _ ht2⟩

/-- **C172.** Scattering without recoil keeps the energy, and turns the particle by `sqrt t` over its energy; diffraction takes
the share of the mass squared; an inelastic process always removes the particle. -/
theorem other_kicks (p : Part) (E t m u v phi : ℝ) (hE : 0 < E) (ht : 0 ≤ t) :
    (let r := scatter (.elasticn t) p E u v phi
     Kick p r.2 t (energy p E) ∧ r.2.dp = p.dp ∧ (r.1 = true ↔ 1 / 10 < energy r.2 E)) ∧
    (let r := scatter (.diffractive t m) p E u v phi
     Kick p r.2 t (energy r.2 E) ∧ energy r.2 E = energy p E - m ^ 2 * E / (2 * mp * (E + mp)) ∧
     (r.1 = true ↔ 1 / 10 < energy r.2 E)) ∧
    (let r := scatter .sixDiffractive p E u v phi
     energy r.2 E = energy p E - massSq E u / (2 * mp) ∧ (r.1 = true ↔ 1 / 10 < energy r.2 E)) ∧
    (scatter .inelastic p E u v phi).1 = false := by
  have hal : ∀ q : Part, alive q E = true ↔ 1 / 10 < energy q E := by
    intro q; unfold alive energy; rw [mul_comm E]; simp
  have hen : ∀ (d t : ℝ), energy (stuffD d p t E phi) E = energy p E - d := by
    intro d t; unfold energy stuffD; simp only; field_simp; ring
  refine ⟨⟨kick _ _ t _ phi ht ?_ ?_ rfl rfl, rfl, hal _⟩, ⟨kick _ _ t _ phi ht ?_ ?_ rfl rfl, ?_, hal _⟩, ⟨?_, hal _⟩, rfl⟩
  · unfold energy; rw [mul_comm E, add_comm 1]; rfl
  · unfold energy; rw [mul_comm E, add_comm 1]; rfl
  · show p.xp + Real.sqrt t / ((p.dp + 1) * E - _) * _ = p.xp + Real.sqrt t / energy (stuffD _ p t E phi) E * _
    rw [hen]; unfold energy; rw [mul_comm E, add_comm 1]
  · show p.yp + Real.sqrt t / ((p.dp + 1) * E - _) * _ = p.yp + Real.sqrt t / energy (stuffD _ p t E phi) E * _
    rw [hen]; unfold energy; rw [mul_comm E, add_comm 1]
  · show energy (stuffD _ p t E phi) E = _
    rw [hen]; congr 1
    rw [show 2 * mp * E + 2 * mp * mp = 2 * mp * (E + mp) by ring, sq]
  · show energy (stuffD _ p _ E phi) E = _
    rw [hen, mul_div_mul_right _ _ hE.ne']

/-- **C172, violated.** `CollimateProtonProcess::DoScatter` passes the energy of the particle as the reference energy, and the
deviation is applied again: a particle of energy `E0 (1 + dp)` is turned as if it had the energy `E0 (1 + dp)^2`. -/
theorem twice_violated (p : Part) (E0 t u v phi : ℝ) (ht : 0 ≤ t) :
    Kick p (scatter (.elasticn t) p (energy p E0) u v phi).2 t (E0 * (1 + p.dp) ^ 2) := by
  refine kick _ _ t _ phi ht ?_ ?_ rfl rfl
  · rw [show E0 * (1 + p.dp) ^ 2 = (p.dp + 1) * energy p E0 by unfold energy; ring]; rfl
  · rw [show E0 * (1 + p.dp) ^ 2 = (p.dp + 1) * energy p E0 by unfold energy; ring]; rfl

example : ∃ (p : Part) (E0 t : ℝ), 0 < t ∧ t / (E0 * (1 + p.dp) ^ 2) ^ 2 ≠ t / (energy p E0) ^ 2 :=
  ⟨⟨0, 0, 0, 0, -1 / 2⟩, 1, 1, by norm_num, by unfold energy; norm_num⟩

/-! ## C173: choice of the process -/

/-- **C173.** A uniform number chooses process `i` of the four listed ones exactly on an interval of length the cross section,
after those before it, and the last process, elastic scattering on the nucleus, on what is left of the total. -/
theorem choose_law (l : List ℝ) (hl : ∀ x ∈ l, 0 ≤ x) (r : ℝ) (h0 : 0 ≤ r) (k : Nat) :
    (∀ i < l.length, choose k l r = k + i ↔ (l.take i).sum ≤ r ∧ r < (l.take (i + 1)).sum) ∧
    (choose k l r = k + l.length ↔ l.sum ≤ r) := by
  have ge : ∀ (l : List ℝ) (k : Nat) (r : ℝ), k ≤ choose k l r := by
    intro l
    induction l with
    | nil => intro k r; exact le_rfl
    | cons x l ih =>
      intro k r
      rw [choose]
      split
      · exact le_rfl
      · have := ih (k + 1) (r - x); omega
  induction l generalizing r k with
  | nil => exact ⟨fun i hi => absurd hi (by simp), by simpa [choose] using h0⟩
  | cons x l ih =>
    rw [choose]
    have hx := hl x List.mem_cons_self
    have hpos : ∀ n, 0 ≤ (l.take n).sum := fun n =>
      List.sum_nonneg fun y hy => hl y (List.mem_cons_of_mem _ (List.mem_of_mem_take hy))
    by_cases h : r - x < 0
    · rw [if_pos h]
      refine ⟨fun i hi => ?_, ?_⟩
      · cases i with
        | zero => simp; exact ⟨h0, by linarith⟩
        | succ i =>
          constructor
          · intro h'; omega
          · rintro ⟨h1, -⟩
            rw [List.take_succ_cons, List.sum_cons] at h1
            have := hpos i
            linarith
      · constructor
        · intro h'; simp only [List.length_cons] at h'; omega
        · intro h1
          rw [List.sum_cons] at h1
          have := hpos l.length
          rw [List.take_length] at this
          linarith
    · rw [if_neg h]
      obtain ⟨i1, i2⟩ := ih (fun y hy => hl y (List.mem_cons_of_mem _ hy)) (r - x) (by linarith) (k + 1)
      refine ⟨fun i hi => ?_, ?_⟩
      · cases i with
        | zero =>
          constructor
          · intro h'
            have := ge l (k + 1) (r - x)
            omega
          · rintro ⟨-, h2⟩
            simp at h2
            linarith
        | succ i =>
          rw [show k + (i + 1) = k + 1 + i by omega, i1 i (by simpa using hi), List.take_succ_cons, List.take_succ_cons,
            List.sum_cons, List.sum_cons]
          constructor <;> rintro ⟨h1, h2⟩ <;> exact ⟨by linarith, by linarith⟩
      · rw [List.length_cons, show k + (l.length + 1) = k + 1 + l.length by omega, i2, List.sum_cons]
        constructor <;> intro h1 <;> linarith

example : choose 1 [1, 2, 3, 4] 4 = 3 ∧ choose 1 [1, 2, 3, 4] 11 = 5 := by
  constructor <;> norm_num [choose]

/-- A run of calls of `ParticleScatter`: addresses and energies. -/
def calls {T : Type} (conf : Nat → ℝ → T) (md : Mode → Mode) (s : Model T) (l : List (Nat × ℝ)) : Model T :=
  l.foldl (fun s c => s.prepare conf md c.1 c.2) s

theorem firstEnergy_append (a : Nat) (l : List (Nat × ℝ)) (c : Nat × ℝ) : firstEnergy a (l ++ [c]) =
    match firstEnergy a l with
    | some e => some e
    | none => if c.1 = a then some c.2 else none := by
  induction l with
  | nil => rfl
  | cons x l ih =>
    rw [List.cons_append, firstEnergy, firstEnergy]
    split
    · rfl
    · exact ih

/-- **C173, partial.** After any sequence of calls the tables in use are those configured for the material of the last call, at
the energy of its first call.  Missing: the energy of the last call, which is ignored (`energy_violated`). -/
theorem tables_partial {T : Type} (conf : Nat → ℝ → T) (md : Mode → Mode) (l : List (Nat × ℝ)) (c : Nat × ℝ) :
    ∃ e, firstEnergy c.1 (l ++ [c]) = some e ∧ (calls conf md Model.new (l ++ [c])).cur = some (conf c.1 e) := by
  have inv : ∀ l : List (Nat × ℝ), (∀ a, (calls conf md Model.new l).saved a = (firstEnergy a l).map (conf a)) ∧
      (∀ a, (calls conf md Model.new l).old = some a → ∃ e, firstEnergy a l = some e ∧
        (calls conf md Model.new l).cur = some (conf a e)) ∧
      (∀ c ∈ l.getLast?, (calls conf md Model.new l).old = some c.1) := by
    intro l
    induction l using List.reverseRecOn with
    | nil => exact ⟨fun _ => rfl, ⟨fun _ h => (by cases h), fun _ h => (by cases h)⟩⟩
    | append_singleton l c ih =>
      obtain ⟨i1, i2, i3⟩ := ih
      have e : calls conf md Model.new (l ++ [c]) = (calls conf md Model.new l).prepare conf md c.1 c.2 := by
        unfold calls; rw [List.foldl_append]; rfl
      rw [e]
      generalize calls conf md Model.new l = s at *
      unfold Model.prepare
      by_cases h : s.old = some c.1
      · rw [if_pos h]
        obtain ⟨e1, h1, h2⟩ := i2 c.1 h
        refine ⟨fun a => ?_, fun a ha => ?_, fun c' hc' => ?_⟩
        · rw [i1 a, firstEnergy_append]
          cases hf : firstEnergy a l with
          | some e => rfl
          | none =>
            by_cases hca : c.1 = a
            · rw [hca, hf] at h1; cases h1
            · simp [hca]
        · obtain ⟨e2, h3, h4⟩ := i2 a ha
          exact ⟨e2, by rw [firstEnergy_append, h3], h4⟩
        · simp at hc'; rw [h, hc']
      · rw [if_neg h]
        cases hs : s.saved c.1 with
        | some t =>
          have ht := i1 c.1
          rw [hs] at ht
          cases hf : firstEnergy c.1 l with
          | none => rw [hf] at ht; cases ht
          | some e1 =>
            rw [hf] at ht
            injection ht with ht
            refine ⟨fun a => ?_, fun a ha => ?_, fun c' hc' => ?_⟩
            · simp only
              rw [i1 a, firstEnergy_append]
              cases hfa : firstEnergy a l with
              | some e => rfl
              | none =>
                by_cases hca : c.1 = a
                · rw [← hca, hf] at hfa; cases hfa
                · simp [hca]
            · simp only at ha ⊢
              injection ha with ha
              subst ha
              exact ⟨e1, by rw [firstEnergy_append, hf], by rw [ht]⟩
            · simp at hc'; simp [hc']
        | none =>
          have ht := i1 c.1
          rw [hs] at ht
          have hf : firstEnergy c.1 l = none := by
            cases hf : firstEnergy c.1 l with
            | none => rfl
            | some e => rw [hf] at ht; cases ht
          refine ⟨fun a => ?_, fun a ha => ?_, fun c' hc' => ?_⟩
          · simp only
            rw [firstEnergy_append]
            by_cases hca : a = c.1
            · subst hca
              rw [if_pos rfl, hf]
              simp
            · rw [if_neg hca, i1 a]
              cases hfa : firstEnergy a l with
              | some e => rfl
              | none =>
                have : ¬ c.1 = a := fun h => hca h.symm
                simp [this]
          · simp only at ha ⊢
            injection ha with ha
            subst ha
            exact ⟨c.2, by rw [firstEnergy_append, hf]; simp, rfl⟩
          · simp at hc'; simp [hc']
  obtain ⟨-, h2, h3⟩ := inv (l ++ [c])
  exact h2 c.1 (h3 c (by simp))

/-- **C173, violated.** A material met again at another energy keeps the cross sections of the first energy. -/
theorem energy_violated {T : Type} (conf : Nat → ℝ → T) (md : Mode → Mode) (a : Nat) (E E' : ℝ) :
    (calls conf md Model.new [(a, E), (a, E')]).cur = some (conf a E) := by
  obtain ⟨e, h1, h2⟩ := tables_partial conf md [(a, E)] (a, E')
  simp only [List.cons_append, List.nil_append, firstEnergy, if_true, Option.some.injEq] at h1
  subst h1
  exact h2

/-- **C173, violated.** The mean free path is that of the sum of total and Rutherford cross section (C168), but the choice is made
within the total: with `n` atoms in a unit of volume the rate of Rutherford scattering is not `n` times its cross section. -/
theorem rate_violated (n sT sR : ℝ) (hn : 0 < n) (hT : 0 < sT) (hR : 0 < sR) : n * (sT + sR) * (sR / sT) > n * sR := by
  rw [gt_iff_lt, mul_assoc, mul_lt_mul_iff_right₀ hn, ← mul_div_assoc, lt_div_iff₀ hT]
  nlinarith

/-- **C173, violated.** A material with an unknown total cross section, -1 in the standard table (C170), makes the range of the
random number negative. -/
theorem total_violated (k : Kind) (el sd : ℝ → ℝ) (m : Mat) (E u : ℝ) (h : m.sT = -1) :
    (configure k el sd m E).choice u = .ub := by
  cases k <;> simp [configure, Tab.choice, h]

/-- **C173.** The tables: total, Rutherford and inelastic cross sections of the material, in all models. -/
theorem tables_material (k : Kind) (el sd : ℝ → ℝ) (m : Mat) (E : ℝ) : ∃ a b,
    configure k el sd m E = ⟨m.sT, [m.sR, a, b, m.sI]⟩ ∧
    ((k = .merlin ∨ k = .elastic) → a = 1618 / 1000 * m.A ^ (333 / 1000 : ℝ) * el E) ∧
    ((k = .merlin ∨ k = .sd) → b = 1618 / 1000 * m.A ^ (333 / 1000 : ℝ) * sd E) := by
  cases k <;> exact ⟨_, _, rfl, by simp, by simp⟩

/-! ## C174: loss of energy and multiple scattering -/

/-- **C174.** With a given loss for a unit of length the simple mode takes it times the length from the energy. -/
theorem simple_loss (m : Mat) (p : Part) (x E0 d : ℝ) (hE : E0 ≠ 0) (hd : m.sixDedx = some d) :
    energy (lossSimple m p x E0) E0 = energy p E0 - x * d := by
  unfold energy lossSimple
  rw [hd]
  simp only [Option.getD_some]
  field_simp
  ring

/-- **C174, violated.** The extra value `SixtrackdEdx` is set nowhere: without it nothing is lost, whatever `dEdx` of the
material. -/
theorem simple_violated (m : Mat) (p : Part) (x E0 : ℝ) (hE : E0 ≠ 0) (hd : m.sixDedx = none) : lossSimple m p x E0 = p := by
  unfold lossSimple
  rw [hd]
  have : (E0 * (1 + p.dp) - x * (none : Option ℝ).getD 0 - E0) / E0 = p.dp := by
    rw [Option.getD_none]; field_simp; ring
  simp only [this]

/-- **C174, violated.** The SixTrack models choose their mode of loss when the first interaction is configured; steps before it
use the full mode. -/
theorem first_steps_violated {T : Type} (conf : Nat → ℝ → T) (k : Kind) (a : Nat) (E : ℝ) :
    (Model.new (T := T)).mode = .full ∧ (k = .sixTrack ∨ k = .elastic ∨ k = .sd →
      (calls conf k.mode Model.new [(a, E)]).mode = .simple) := by
  refine ⟨rfl, ?_⟩
  rintro (h | h | h) <;> subst h <;> rfl

/-- **C174.** The density correction is continuous: zero below, and joined to the asymptotic form. -/
theorem density_continuous (k : LossC) (h : k.C0 < k.C1) : Continuous (density k) ∧ (∀ d, d < k.C0 → density k d = 0) ∧
    (∀ d, k.C1 ≤ d → density k d = 4606 / 1000 * d - k.C) := by
  have hne : k.C1 - k.C0 ≠ 0 := by linarith
  refine ⟨?_, ?_, ?_⟩
  · have e : density k = fun d => if d ≤ k.C1 then (if k.C0 ≤ d then
        4606 / 1000 * d - k.C + 4606 / 1000 * (k.C / (4606 / 1000) - k.C0) / (k.C1 - k.C0) ^ 3 * (k.C1 - d) ^ 3 else 0)
        else 4606 / 1000 * d - k.C := by
      funext d
      unfold density
      by_cases h1 : d > k.C1
      · rw [if_pos h1, if_neg (not_le.2 h1)]
      · have h1' : d ≤ k.C1 := not_lt.1 h1
        rw [if_neg h1]
        simp only [h1', and_true, if_true, ge_iff_le]
    rw [e]
    refine Continuous.if ?_ (Continuous.if ?_ (by fun_prop) continuous_const) (by fun_prop)
    · intro a ha
      have : a = k.C1 := by
        have h := frontier_le_subset_eq (f := fun x : ℝ => x) (g := fun _ => k.C1) continuous_id continuous_const ha
        simpa using h
      subst this
      rw [if_pos h.le]; ring
    · intro a ha
      have : k.C0 = a := by
        have h := frontier_le_subset_eq (f := fun _ => k.C0) (g := fun x : ℝ => x) continuous_const continuous_id ha
        exact h
      rw [← this]
      field_simp
      ring
  · intro d hd
    unfold density
    rw [if_neg (by linarith), if_neg (by rintro ⟨h3, -⟩; linarith)]
  · intro d hd
    unfold density
    rcases hd.lt_or_eq with h1 | h1
    · rw [if_pos h1]
    · rw [if_neg (by linarith), if_pos ⟨by linarith, by linarith⟩, ← h1]; ring

/-- **C174, violated.** The limit of 100 eV for the form of the density correction is compared with a number in units of 1e-9 eV:
carbon, with 78 eV, is treated as a material above it. -/
theorem limit_violated (ph : Phys) (m : Mat) (h : m.mee = some (78 * eV)) : (lossConst ph m).I = 78 ∧ (lossConst ph m).C1 = 3 := by
  unfold lossConst
  have e : 78 * eV / eV = 78 := by unfold eV; norm_num
  simp only [h, e]
  rw [if_neg (by unfold eV; norm_num)]
  split <;> exact ⟨rfl, rfl⟩

/-- **C174, violated.** The most probable loss enters with the wrong sign: the energy after a step is raised by it.  For any
material and energy there are steps on which a particle with a Landau number of zero gains energy. -/
theorem sign_violated (ph : Phys) (k : LossC) (p : Part) (E0 : ℝ) (hE : E0 ≠ 0) :
    (∀ x land, let r := lossFull ph k p x E0 land
      energy r.2.2 E0 = energy p E0 - r.1 * land + r.1 * r.2.1) ∧
    (0 < k.I → 0 < k.xi0 → 0 < ph.charge → 0 < ph.me → ph.mpr * MeV < energy p E0 → 0 < ph.mpr →
      ∃ x, 0 < x ∧ energy p E0 < energy (lossFull ph k p x E0 0).2.2 E0) := by
  have id : ∀ x land, energy (lossFull ph k p x E0 land).2.2 E0 = energy p E0 -
      (lossFull ph k p x E0 land).1 * land + (lossFull ph k p x E0 land).1 * (lossFull ph k p x E0 land).2.1 := by
    intro x land
    unfold energy lossFull
    simp only
    field_simp
    ring
  refine ⟨id, fun hI hxi hch hme hp hmp => ?_⟩
  have hM : (0 : ℝ) < MeV := by unfold MeV; norm_num
  have heV : (0 : ℝ) < eV := by unfold eV; norm_num
  set gamma := E0 * (1 + p.dp) / (ph.mpr * MeV) with hg
  have hg1 : 1 < gamma := by rw [hg, lt_div_iff₀ (by positivity), one_mul]; exact hp
  set beta := Real.sqrt (1 - 1 / (gamma * gamma)) with hb
  have hb0 : 0 < beta := by
    rw [hb, Real.sqrt_pos, sub_pos, div_lt_one (by nlinarith)]
    nlinarith
  obtain ⟨c, hc, hcx⟩ : ∃ c, 0 < c ∧ ∀ x, (lossFull ph k p x E0 0).1 = c * x := by
    refine ⟨k.xi0 / (beta * beta) / ph.charge * (eV / MeV), by positivity, fun x => ?_⟩
    show k.xi0 * x / (beta * beta) / ph.charge * (eV / MeV) = _
    ring
  obtain ⟨d, hd⟩ : ∃ d, ∀ x, (lossFull ph k p x E0 0).2.1 =
      Real.log (2 * ph.me * beta * beta * gamma * gamma * (lossFull ph k p x E0 0).1 / (k.I / MeV) ^ 2) + d := by
    have gen : ∀ L L0 a b c : ℝ, L - a - b + c + 20 / 100 = L + (L0 - a - b + c + 20 / 100 - L0) := by
      intros; ring
    refine ⟨(lossFull ph k p 0 E0 0).2.1 -
      Real.log (2 * ph.me * beta * beta * gamma * gamma * (lossFull ph k p 0 E0 0).1 / (k.I / MeV) ^ 2), fun x => ?_⟩
    exact gen _ _ _ _ _
  have hq : 0 < 2 * ph.me * beta * beta * gamma * gamma / (k.I / MeV) ^ 2 := by
    have : 0 < gamma := by linarith
    positivity
  set q := 2 * ph.me * beta * beta * gamma * gamma / (k.I / MeV) ^ 2 with hqd
  refine ⟨Real.exp (1 - d) / (q * c), by positivity, ?_⟩
  rw [id, hd, hcx, mul_zero, sub_zero]
  have e1 : 2 * ph.me * beta * beta * gamma * gamma * (c * (Real.exp (1 - d) / (q * c))) / (k.I / MeV) ^ 2 =
      Real.exp (1 - d) := by
    rw [mul_div_right_comm, ← hqd]
    field_simp
  rw [e1, Real.log_exp]
  have : 0 < c * (Real.exp (1 - d) / (q * c)) := by positivity
  nlinarith

example : ∃ (ph : Phys) (k : LossC) (p : Part) (E0 : ℝ), E0 ≠ 0 ∧ 0 < k.I ∧ 0 < k.xi0 ∧ 0 < ph.charge ∧ 0 < ph.me ∧
    ph.mpr * MeV < energy p E0 ∧ 0 < ph.mpr := by
  refine ⟨⟨1, 1, 1 / 2, 938, 1, 1⟩, ⟨6, 2 / 10, 3, 78, 1⟩, ⟨0, 0, 0, 0, 0⟩, 7000, by norm_num, by norm_num, by norm_num,
    by norm_num, by norm_num, ?_, by norm_num⟩
  unfold energy MeV; norm_num

/-- **C174.** The value kept for the last material is the one of the material in the call, as long as the materials at their
addresses do not change. -/
theorem memo_law {C : Type} (f : Mat → C) (mats : Nat → Mat) (l : List Nat) (a : Nat) :
    (memo f (l.foldl (fun c b => (memo f c b (mats b)).2) none) a (mats a)).1 = f (mats a) := by
  have inv : ∀ (l : List Nat) (c0 : Option (Nat × C)), (∀ b v, c0 = some (b, v) → v = f (mats b)) →
      ∀ b v, l.foldl (fun c b => (memo f c b (mats b)).2) c0 = some (b, v) → v = f (mats b) := by
    intro l
    induction l with
    | nil => intro c0 h; exact h
    | cons x l ih =>
      intro c0 h
      rw [List.foldl_cons]
      refine ih _ ?_
      intro b v hbv
      unfold memo at hbv
      cases c0 with
      | none =>
        simp only [Option.some.injEq, Prod.mk.injEq] at hbv
        rw [← hbv.2, ← hbv.1]
      | some bv =>
        obtain ⟨b0, v0⟩ := bv
        simp only at hbv
        split at hbv
        · exact h b v hbv
        · simp only [Option.some.injEq, Prod.mk.injEq] at hbv
          rw [← hbv.2, ← hbv.1]
  have key := inv l none (fun b v h => by cases h)
  cases hc : l.foldl (fun c b => (memo f c b (mats b)).2) none with
  | none => rfl
  | some bv =>
    obtain ⟨b, v⟩ := bv
    unfold memo
    simp only
    split
    · rename_i hba
      rw [← hba]
      exact key b v hc
    · rfl

/-- **C174, violated.** A material that has changed, or another one at the address of the last, is used with the old values. -/
theorem memo_violated {C : Type} (f : Mat → C) (a : Nat) (m m' : Mat) :
    (memo f (memo f none a m).2 a m').1 = f m := by
  simp [memo]

/-- **C174.** Multiple scattering with independent standard numbers has the angles of Highland's formula in both planes, the
displacements that belong to them, and no correlation between the planes. -/
theorem straggle_moments (m : Mat) (p : Part) (x E1 E2 : ℝ) (d : List (ℝ × (Nat → ℝ))) (hd : MultiNormal.Spec.Standard 4 d) :
    let av := MultiNormal.Spec.average d
    let q := fun g => straggle (radLength m) p x E1 E2 g
    let t := x / (m.X0 / 100 / (m.density / 1000))
    let th := 136 / 10000 / ((E1 + E2) / 2) * Real.sqrt t * (1 + 38 / 1000 * Real.log t)
    av (fun g => (q g).xp - p.xp) = 0 ∧ av (fun g => (q g).x - p.x) = 0 ∧
    av (fun g => ((q g).xp - p.xp) ^ 2) = th ^ 2 ∧ av (fun g => ((q g).yp - p.yp) ^ 2) = th ^ 2 ∧
    av (fun g => ((q g).x - p.x) ^ 2) = x ^ 2 * th ^ 2 / 3 ∧ av (fun g => ((q g).y - p.y) ^ 2) = x ^ 2 * th ^ 2 / 3 ∧
    av (fun g => ((q g).x - p.x) * ((q g).xp - p.xp)) = x * th ^ 2 / 2 ∧
    av (fun g => ((q g).y - p.y) * ((q g).yp - p.yp)) = x * th ^ 2 / 2 ∧
    av (fun g => ((q g).xp - p.xp) * ((q g).yp - p.yp)) = 0 ∧ av (fun g => ((q g).x - p.x) * ((q g).y - p.y)) = 0 := by
  intro av q t th
  have lin : ∀ (n : Nat) (c : Nat → ℝ) (f : Nat → (Nat → ℝ) → ℝ),
      av (fun g => ((List.range n).map fun i => c i * f i g).sum) = ((List.range n).map fun i => c i * av (f i)).sum := by
    intro n c f
    have hadd : ∀ a b : (Nat → ℝ) → ℝ, av (fun g => a g + b g) = av a + av b := by
      intro a b
      show (d.map _).sum = (d.map _).sum + (d.map _).sum
      clear hd av
      induction d with
      | nil => simp
      | cons y d ih => simp only [List.map_cons, List.sum_cons, ih]; ring
    have hsm : ∀ (r : ℝ) (a : (Nat → ℝ) → ℝ), av (fun g => r * a g) = r * av a := by
      intro r a
      show (d.map _).sum = r * (d.map _).sum
      clear hd av hadd
      induction d with
      | nil => simp
      | cons y d ih => simp only [List.map_cons, List.sum_cons, ih]; ring
    have h0 : av (fun _ => 0) = 0 := by
      have := hsm 0 (fun _ => 0); simpa using this
    generalize List.range n = l
    induction l with
    | nil => simpa using h0
    | cons i l ih => simp only [List.map_cons, List.sum_cons]; rw [hadd, hsm, ih]
  obtain ⟨-, m1, m2⟩ := hd
  have first : ∀ c : Nat → ℝ, av (fun g => c 0 * g 0 + c 1 * g 1 + c 2 * g 2 + c 3 * g 3) = 0 := by
    intro c
    have h := lin 4 c (fun i g => g i)
    simp only [List.range, List.range.loop, List.map_cons, List.map_nil, List.sum_cons, List.sum_nil, add_zero] at h
    have e : (fun g : Nat → ℝ => c 0 * g 0 + c 1 * g 1 + c 2 * g 2 + c 3 * g 3) =
        fun g => c 0 * g 0 + (c 1 * g 1 + (c 2 * g 2 + c 3 * g 3)) := by funext g; ring
    rw [e, h]
    have := m1 0 (by omega); have h1 := m1 1 (by omega); have h2 := m1 2 (by omega); have h3 := m1 3 (by omega)
    show c 0 * MultiNormal.Spec.average d _ + (c 1 * MultiNormal.Spec.average d _ + (c 2 * MultiNormal.Spec.average d _ +
      c 3 * MultiNormal.Spec.average d _)) = 0
    rw [this, h1, h2, h3]; ring
  have second : ∀ c e : Nat → ℝ, av (fun g => (c 0 * g 0 + c 1 * g 1 + c 2 * g 2 + c 3 * g 3) *
      (e 0 * g 0 + e 1 * g 1 + e 2 * g 2 + e 3 * g 3)) = c 0 * e 0 + c 1 * e 1 + c 2 * e 2 + c 3 * e 3 := by
    intro c e
    have h := lin 16 (fun n => c (n / 4) * e (n % 4)) (fun n g => g (n / 4) * g (n % 4))
    simp only [List.range, List.range.loop, List.map_cons, List.map_nil, List.sum_cons, List.sum_nil, add_zero] at h
    have e1 : (fun g : Nat → ℝ => (c 0 * g 0 + c 1 * g 1 + c 2 * g 2 + c 3 * g 3) *
        (e 0 * g 0 + e 1 * g 1 + e 2 * g 2 + e 3 * g 3)) = fun g => ((List.range 16).map fun n =>
          c (n / 4) * e (n % 4) * (g (n / 4) * g (n % 4))).sum := by
      funext g
      simp only [List.range, List.range.loop, List.map_cons, List.map_nil, List.sum_cons, List.sum_nil, add_zero]
      norm_num
      ring
    rw [e1, lin]
    have hm2 : ∀ i < 4, ∀ j < 4, av (fun x => x i * x j) = if i = j then 1 else 0 := m2
    simp only [List.range, List.range.loop, List.map_cons, List.map_nil, List.sum_cons, List.sum_nil, add_zero]
    norm_num [hm2]
    ring
  have hth : 136 / 10 * MeV * Real.sqrt (x / radLength m) * (1 + 38 / 1000 * Real.log (x / radLength m)) / ((E1 + E2) / 2) =
      th := by
    have : x / radLength m = t := by
      show x / (1 / 100 * m.X0 / (m.density / 1000)) = x / (m.X0 / 100 / (m.density / 1000))
      congr 2; ring
    rw [this]
    unfold MeV
    show _ = 136 / 10000 / ((E1 + E2) / 2) * Real.sqrt t * (1 + 38 / 1000 * Real.log t)
    ring
  have h12 : Real.sqrt 12 ≠ 0 := by positivity
  have hs : ((Real.sqrt 12)⁻¹) ^ 2 = 1 / 12 := by rw [inv_pow, Real.sq_sqrt (by norm_num)]; norm_num
  have qx : ∀ g, (q g).x - p.x = (fun i => if i = 0 then x * th / 2 else if i = 2 then x * th * (1 / Real.sqrt 12) else 0 : Nat → ℝ) 0 * g 0
      + 0 * g 1 + x * th * (1 / Real.sqrt 12) * g 2 + 0 * g 3 := by
    intro g
    show p.x + (g 2 * x * _ / Real.sqrt 12 + x * (g 0 * _) / 2) - p.x = _
    rw [hth]; simp only [if_true]; ring
  have qxp : ∀ g, (q g).xp - p.xp = th * g 0 + 0 * g 1 + 0 * g 2 + 0 * g 3 := by
    intro g
    show p.xp + g 0 * _ - p.xp = _
    rw [hth]; ring
  have qy : ∀ g, (q g).y - p.y = 0 * g 0 + x * th / 2 * g 1 + 0 * g 2 + x * th * (1 / Real.sqrt 12) * g 3 := by
    intro g
    show p.y + (g 3 * x * _ / Real.sqrt 12 + x * (g 1 * _) / 2) - p.y = _
    rw [hth]; ring
  have qyp : ∀ g, (q g).yp - p.yp = 0 * g 0 + th * g 1 + 0 * g 2 + 0 * g 3 := by
    intro g
    show p.yp + g 1 * _ - p.yp = _
    rw [hth]; ring
  simp only [if_true] at qx
  clear_value th
  let cx : Nat → ℝ := fun i => if i = 0 then x * th / 2 else if i = 2 then x * th * (1 / Real.sqrt 12) else 0
  let cxp : Nat → ℝ := fun i => if i = 0 then th else 0
  let cy : Nat → ℝ := fun i => if i = 1 then x * th / 2 else if i = 3 then x * th * (1 / Real.sqrt 12) else 0
  let cyp : Nat → ℝ := fun i => if i = 1 then th else 0
  have s : ∀ a b : Nat → ℝ, av (fun g => (a 0 * g 0 + a 1 * g 1 + a 2 * g 2 + a 3 * g 3) *
      (b 0 * g 0 + b 1 * g 1 + b 2 * g 2 + b 3 * g 3)) = _ := second
  refine ⟨?_, ?_, ?_, ?_, ?_, ?_, ?_, ?_, ?_, ?_⟩
  · simp only [qxp]; simpa [cxp] using first cxp
  · simp only [qx]; simpa [cx] using first cx
  · simp only [qxp, sq]; simpa [cxp] using s cxp cxp
  · simp only [qyp, sq]; simpa [cyp] using s cyp cyp
  · simp only [qx]
    have h := s cx cx
    simp only [cx] at h
    norm_num at h
    simp only [pow_two (_ + _ : ℝ)]
    norm_num
    rw [h]
    linear_combination (x * th) ^ 2 * hs
  · simp only [qy]
    have h := s cy cy
    simp only [cy] at h
    norm_num at h
    simp only [pow_two (_ + _ : ℝ)]
    norm_num
    rw [h]
    linear_combination (x * th) ^ 2 * hs
  · simp only [qx, qxp]
    have h := s cx cxp
    simp only [cx, cxp] at h
    norm_num at h ⊢
    rw [h]; ring
  · simp only [qy, qyp]
    have h := s cy cyp
    simp only [cy, cyp] at h
    norm_num at h ⊢
    rw [h]; ring
  · simp only [qxp, qyp]
    have h := s cxp cyp
    simp only [cxp, cyp] at h
    norm_num at h ⊢
    rw [h]
  · simp only [qx, qy]
    have h := s cx cy
    simp only [cx, cy] at h
    norm_num at h ⊢
    rw [h]

example : ∃ d : List (ℝ × (Nat → ℝ)), MultiNormal.Spec.Standard 4 d := ATL.standard_exists 4

end Verif.Scatter
