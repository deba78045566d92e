import Verif.XTFF.Elements

/-!
# Properties of the XTFF interface: tilts, kicks, apertures, types treated as drifts
-/

namespace Verif.XTFF
open Verif Verif.Multipole Verif.Multipole.Spec Verif.XTFF.Spec Real
open Verif.MAD (eV c MV Frame brhoOf bind_ok_iff rigidity_eq obind_ok)
open Verif.MAD.Spec (field rigidity I)

theorem makes_append {d : Data} {i : Interface} {g : Globals} {x : Comp} {r : Option Aper}
    (h : construct d i g = append x r d i g) : Makes d i g x (aperOf i d r) := by
  intro acts n hm
  rw [h, append_ok _ _ _ _ hm]
  exact ⟨_, rfl, rfl⟩

/-! ## C276 -/

theorem skewQuad_iff (t : ℝ) : isSkewQuad t = true ↔ |t / 0.78539816 - 1| < 1e-3 := by simp [isSkewQuad]

theorem skewSext_iff (t : ℝ) : isSkewSext t = true ↔ |t / 0.52359878 - 1| < 1e-3 := by simp [isSkewSext]

theorem skew_quarter : isSkewQuad (π / 4) = true := by
  rw [skewQuad_iff, abs_lt]
  have h1 := pi_gt_d4
  have h2 := pi_lt_d4
  constructor
  · have : (0.9999 : ℝ) < π / 4 / 0.78539816 := by rw [lt_div_iff₀ (by norm_num)]; linarith
    linarith
  · have : π / 4 / 0.78539816 < (1.0001 : ℝ) := by rw [div_lt_iff₀ (by norm_num)]; linarith
    linarith

theorem skew_sixth : isSkewSext (π / 6) = true := by
  rw [skewSext_iff, abs_lt]
  have h1 := pi_gt_d4
  have h2 := pi_lt_d4
  constructor
  · have : (0.9999 : ℝ) < π / 6 / 0.52359878 := by rw [lt_div_iff₀ (by norm_num)]; linarith
    linarith
  · have : π / 6 / 0.52359878 < (1.0001 : ℝ) := by rw [div_lt_iff₀ (by norm_num)]; linarith
    linarith

theorem turn_quad (b : ℝ) (z : Cx ℝ) : turn (-(π / 4)) (fun z => ofReal b * z) z = ofReal b * I * z := by
  have h2 : √2 / 2 * (√2 / 2) = 1 / 2 := by
    rw [div_mul_div_comm, mul_self_sqrt (by norm_num)]; norm_num
  unfold turn
  rw [cos_neg, sin_neg, neg_neg, cos_pi_div_four, sin_pi_div_four]
  generalize √2 / 2 = s at h2
  ext <;> simp [ofReal, MAD.Spec.I] <;> grind

theorem turn_sext (b : ℝ) (z : Cx ℝ) : turn (-(π / 6)) (fun z => ofReal b * z ^ 2) z = ofReal b * I * z ^ 2 := by
  have h3 : √3 * √3 = 3 := mul_self_sqrt (by norm_num)
  unfold turn
  rw [cos_neg, sin_neg, neg_neg, cos_pi_div_six, sin_pi_div_six]
  generalize √3 = s at h3
  ext <;> simp [ofReal, MAD.Spec.I, pow_succ] <;> grind

/-- A quadrupole or sextupole without tilt is a normal one, one turned by the angle of a skew magnet, up to a part in a
thousand, is a skew one, which has the field of the normal one turned by that angle from the vertical to the horizontal
axis.  The field is that of a normal magnet with the strength of the file. -/
theorem tilted {d : Data} {i : Interface} {g : Globals} (ht : d.kw ∉ i.driftTypes) :
    (d.kw = "QUAD" → d.real 6 = 0 → ∃ f, Makes d i g (.magnet .quadrupole d.label (d.real 0) f) (aperOf i d none) ∧
      ∀ z, field f z = ofReal (rigidity g.energy * d.real 2) * z) ∧
    (d.kw = "QUAD" → d.real 6 = π / 4 → ∃ f, Makes d i g (.magnet .skewQuadrupole d.label (d.real 0) f) (aperOf i d none) ∧
      ∀ z, field f z = turn (-(π / 4)) (fun z => ofReal (rigidity g.energy * d.real 2) * z) z) ∧
    (d.kw = "SEXT" → d.real 6 = 0 → ∃ f, Makes d i g (.magnet .sextupole d.label (d.real 0) f) (aperOf i d none) ∧
      ∀ z, field f z = ofReal (rigidity g.energy * d.real 3 / 2) * z ^ 2) ∧
    (d.kw = "SEXT" → d.real 6 = π / 6 → ∃ f, Makes d i g (.magnet .skewSextupole d.label (d.real 0) f) (aperOf i d none) ∧
      ∀ z, field f z = turn (-(π / 6)) (fun z => ofReal (rigidity g.energy * d.real 3 / 2) * z ^ 2) z) := by
  have hs0 : isSkewSext 0 = false := by norm_num [isSkewSext]
  have hn : d.real 6 = 0 → ∀ x, normal d x = .ok x := fun h x => by simp [normal, h, isZero_zero]
  refine ⟨fun hk h6 => ⟨mkGrad 1 (brhoOf g.energy * d.real 2) false, makes_append ?_, fun z => by rw [MAD.field_grad1, rigidity_eq]⟩,
    fun hk h6 => ⟨mkGrad 1 (brhoOf g.energy * d.real 2) true, makes_append ?_, fun z => by rw [MAD.field_grad1_skew, turn_quad, rigidity_eq]⟩,
    fun hk h6 => ⟨mkGrad 2 (brhoOf g.energy * d.real 3) false, makes_append ?_, fun z => by rw [MAD.field_grad2, rigidity_eq]⟩,
    fun hk h6 => ⟨mkGrad 2 (brhoOf g.energy * d.real 3) true, makes_append ?_, fun z => by rw [MAD.field_grad2_skew, turn_sext, rigidity_eq]⟩⟩
  · have hkw := (keyword_same (by rw [hk]; simp) (by rw [hk]; simp) ht).trans hk
    simp only [construct, hkw, h6, skew_zero, Bool.false_eq_true, if_false, hn h6, obind_ok]
    rfl
  · have hkw := (keyword_same (by rw [hk]; simp) (by rw [hk]; simp) ht).trans hk
    simp only [construct, hkw, h6, skew_quarter, if_true]
    rfl
  · have hkw := (keyword_same (by rw [hk]; simp) (by rw [hk]; simp) ht).trans hk
    simp only [construct, hkw, h6, hs0, Bool.false_eq_true, if_false, hn h6, obind_ok]
    rfl
  · have hkw := (keyword_same (by rw [hk]; simp) (by rw [hk]; simp) ht).trans hk
    simp only [construct, hkw, h6, skew_sixth, if_true]
    rfl

/-- A magnet with a tilt that is neither that of a normal nor that of a skew magnet stops the program. -/
theorem other_tilts {d : Data} {i : Interface} {g : Globals} (ht : d.kw ∉ i.driftTypes) (hz : eps < |d.real 6|)
    (hk : d.kw = "QUAD" ∧ ¬ |d.real 6 / 0.78539816 - 1| < 1e-3 ∨ d.kw = "SEXT" ∧ ¬ |d.real 6 / 0.52359878 - 1| < 1e-3 ∨ d.kw = "OCTU" ∨
      d.kw = "DECA") : construct d i g = .ub := by
  have hn : ∀ x, normal d x = .ub := fun x => by simp [normal, not_isZero hz]
  rcases hk with ⟨hk, h⟩ | ⟨hk, h⟩ | hk | hk
  · have hkw := (keyword_same (by rw [hk]; simp) (by rw [hk]; simp) ht).trans hk
    rw [← skewQuad_iff] at h
    simp only [construct, hkw, if_neg h, hn]
    rfl
  · have hkw := (keyword_same (by rw [hk]; simp) (by rw [hk]; simp) ht).trans hk
    rw [← skewSext_iff] at h
    simp only [construct, hkw, if_neg h, hn]
    rfl
  · have hkw := (keyword_same (by rw [hk]; simp) (by rw [hk]; simp) ht).trans hk
    simp only [construct, hkw, hn]
    rfl
  · have hkw := (keyword_same (by rw [hk]; simp) (by rw [hk]; simp) ht).trans hk
    simp only [construct, hkw, hn]
    rfl

/-- A skew quadrupole turned the other way stops the program, although it is as good a skew quadrupole. -/
theorem negative_skew_violated {d : Data} {i : Interface} {g : Globals} (ht : d.kw ∉ i.driftTypes) (hk : d.kw = "QUAD")
    (h6 : d.real 6 = -(π / 4)) : construct d i g = .ub := by
  have hp := two_le_pi
  refine other_tilts ht ?_ (.inl ⟨hk, ?_⟩)
  · rw [h6, abs_neg, abs_of_pos (by positivity)]
    have := eps_lt
    linarith
  · rw [h6, not_lt]
    have : -(π / 4) / 0.78539816 ≤ 0 := div_nonpos_of_nonpos_of_nonneg (by linarith) (by norm_num)
    rw [abs_of_neg (by linarith)]
    linarith

/-- A quadrupole whose tilt is off that of a skew one by half a part in a thousand loses the difference. -/
theorem near_skew_violated {d : Data} {i : Interface} {g : Globals} (ht : d.kw ∉ i.driftTypes) (hk : d.kw = "QUAD")
    (h6 : d.real 6 = 0.7858) : ∃ f, Makes d i g (.magnet .skewQuadrupole d.label (d.real 0) f) (aperOf i d none) ∧
      ∀ z, field f z = turn (-(π / 4)) (fun z => ofReal (rigidity g.energy * d.real 2) * z) z := by
  refine ⟨mkGrad 1 (brhoOf g.energy * d.real 2) true, makes_append ?_, fun z => by rw [MAD.field_grad1_skew, turn_quad, rigidity_eq]⟩
  have hkw := (keyword_same (by rw [hk]; simp) (by rw [hk]; simp) ht).trans hk
  have hs : isSkewQuad 0.7858 = true := by rw [skewQuad_iff, abs_lt]; constructor <;> norm_num
  simp only [construct, hkw, h6, hs, if_true]
  rfl

example : ∃ d : Data, d.kw ∉ ready.driftTypes ∧ d.kw = "QUAD" ∧ d.real 6 = π / 4 ∧ d.real 2 = 3 :=
  ⟨sample "QUAD" ['Q'] [(0, 1), (2, 3), (6, π / 4)], by simp [sample, ready, mk, List.lookup]⟩

example : ∃ d : Data, d.kw ∉ ready.driftTypes ∧ eps < |d.real 6| ∧ d.kw = "OCTU" :=
  ⟨sample "OCTU" ['O'] [(0, 1), (6, 1)], by simp [sample, ready, mk, List.lookup]; have := eps_lt; linarith⟩

example : ∃ d : Data, d.kw ∉ ready.driftTypes ∧ d.kw = "QUAD" ∧ d.real 6 = -(π / 4) :=
  ⟨sample "QUAD" ['Q'] [(0, 1), (2, 3), (6, -(π / 4))], by simp [sample, ready, mk, List.lookup]⟩

/-! ## C277 -/

/-- Correctors have no field, whatever kick the file gives them. -/
theorem kicks_lost_violated {d : Data} {i : Interface} {g : Globals} (ht : d.kw ∉ i.driftTypes) :
    (d.kw = "HKIC" → ∃ f, Makes d i g (.magnet .xcor d.label (d.real 0) f) (aperOf i d none) ∧ ∀ z, field f z = 0) ∧
    (d.kw = "VKIC" → ∃ f, Makes d i g (.magnet .ycor d.label (d.real 0) f) (aperOf i d none) ∧ ∀ z, field f z = 0) := by
  refine ⟨fun hk => ⟨mkGrad 0 0 false, makes_append ?_, fun z => ?_⟩, fun hk => ⟨mkGrad 0 0 true, makes_append ?_, fun z => ?_⟩⟩
  · have hkw := (keyword_same (by rw [hk]; simp) (by rw [hk]; simp) ht).trans hk
    simp only [construct, hkw]
  · ext <;> simp [MAD.Spec.field, mkGrad, ofReal]
  · have hkw := (keyword_same (by rw [hk]; simp) (by rw [hk]; simp) ht).trans hk
    simp only [construct, hkw]
  · ext <;> simp [MAD.Spec.field, mkGrad, ofReal]

example : ∃ d : Data, d.kw ∉ ready.driftTypes ∧ d.kw = "HKIC" ∧ d.real 6 = 0.001 :=
  ⟨sample "HKIC" ['K'] [(0, 1), (6, 0.001)], by simp [sample, ready, mk, List.lookup]⟩

/-! ## C278 -/

theorem aper_one {x : Comp} {r : Option Aper} {d : Data} {i i' : Interface} {g g' : Globals} (h : append x r d i g = .ok (i', g'))
    (hi : i.apertures = false) (hr : r = none) {acts as : List Act} {n n' : Nat} (hm : i.mc = .live acts n)
    (hm' : i'.mc = .live (acts ++ as) n') : apers as = [] := by
  obtain ⟨acts0, n0, h1, rfl, -⟩ := append_inv h
  rw [hm] at h1
  injection h1 with h1 h2
  subst h1 h2
  injection hm' with h3 _
  rw [List.append_cancel_left h3 |>.symm]
  simp [apers, aperOf, hi, hr]

theorem aper_call {a : Act} {p : Ptr} {acts as : List Act} {n n' : Nat} (h : call a (.live acts n) = .ok p)
    (hp : p = .live (acts ++ as) n') (ha : apers [a] = []) : apers as = [] := by
  obtain ⟨acts0, n0, n1, h1, h2⟩ := call_live h
  injection h1 with h1 _
  subst h1
  rw [hp] at h2
  injection h2 with h2 _
  rw [List.append_cancel_left h2]
  exact ha

theorem aper_mark {d : Data} {i i' : Interface} {g g' : Globals} (h : mark d i g = .ok (i', g')) (hi : i.apertures = false)
    {acts as : List Act} {n n' : Nat} (hm : i.mc = .live acts n) (hm' : i'.mc = .live (acts ++ as) n') : apers as = [] := by
  have hplain : ∀ {r : Outcome Exn (Interface × Globals)}, r = (if d.label = ['V', 'P', 'I', 'V'] then
      (call (.xrot d.label) i.mc).bind fun p => append (.marker d.label) none d { i with mc := p } g
      else append (.marker d.label) none d i g) → r = .ok (i', g') → apers as = [] := by
    intro r hr h
    rw [hr] at h
    split at h
    · rw [bind_ok_iff] at h
      obtain ⟨p, hp, h⟩ := h
      obtain ⟨acts0, n0, n1, h1, h2⟩ := call_live hp
      rw [hm] at h1
      injection h1 with h1 h1'
      subst h1 h1'
      obtain ⟨acts1, n2, h3, rfl, -⟩ := append_inv h
      rw [h2] at h3
      injection h3 with h3 h3'
      subst h3 h3'
      injection hm' with hm' _
      rw [List.append_assoc] at hm'
      rw [← List.append_cancel_left hm']
      simp [apers, aperOf, hi]
    · exact aper_one h hi rfl hm hm'
  unfold mark at h
  dsimp only at h
  split at h
  · split at h
    · cases h
    · split at h
      · split at h
        · rw [bind_ok_iff, hm] at h
          obtain ⟨p, hp, h⟩ := h
          injection h with h
          injection h with h1 h2
          exact aper_call hp (by rw [← h1] at hm'; exact hm') rfl
        · rw [bind_ok_iff] at h
          obtain ⟨p, hp, h⟩ := h
          injection h with h
          injection h with h1 h2
          subst h1
          unfold newFrame at hp
          split at hp
          · cases hp
          · split at hp
            · rw [bind_ok_iff] at hp
              obtain ⟨q, hq, hp⟩ := hp
              injection hp with hp
              subst hp
              rw [show ({ i with frames := d.label :: i.frames } : Interface).mc = i.mc from rfl, hm] at hq
              exact aper_call hq hm' rfl
            · cases hp
      · exact hplain rfl h
  · exact hplain rfl h

/-- Without apertures no element of a line has one. -/
theorem no_apertures {ds : List Data} {i i' : Interface} {g g' : Globals} (hi : i.apertures = false)
    (h : constructs ds i g = .ok (i', g')) {acts as : List Act} {n n' : Nat} (hm : i.mc = .live acts n)
    (hm' : i'.mc = .live (acts ++ as) n') : apers as = [] := by
  induction ds generalizing i g acts as n with
  | nil =>
    injection h with h
    injection h with h1 h2
    rw [← h1, hm] at hm'
    injection hm' with h3 _
    have : as = [] := by simpa using h3
    rw [this]; rfl
  | cons d ds ih =>
    simp only [constructs, bind_ok_iff] at h
    obtain ⟨⟨i1, g1⟩, h1, h2⟩ := h
    have e := effect h1
    obtain ⟨acts0, n0, as1, n1, b1, b2, -, -⟩ := e.acts
    rw [hm] at b1
    injection b1 with b1 b1'
    subst b1 b1'
    obtain ⟨-, -, -, -, -, m2⟩ := effects h2
    obtain ⟨as2, n2, c1, -, -⟩ := m2 _ _ b2
    have hi1 : i1.apertures = false := e.apertures.trans hi
    rw [hm'] at c1
    injection c1 with c1 cn
    have r2 := ih hi1 h2 b2 (as := as2) (by rw [hm', c1])
    rw [List.append_assoc] at c1
    rw [List.append_cancel_left c1]
    have r1 : apers as1 = [] := by
      unfold construct at h1
      dsimp only at h1
      split at h1
      case h_14 hk => exact aper_mark h1 hi hm b2
      case h_16 hk =>
        rw [bind_ok_iff, hm] at h1
        obtain ⟨p, hp, h1⟩ := h1
        injection h1 with h1
        injection h1 with h1 h1'
        exact aper_call hp (by rw [← h1] at b2; exact b2) rfl
      case h_8 hk =>
        split at h1
        · obtain ⟨x, -, h1⟩ := bind_append h1; exact aper_one h1 hi rfl hm b2
        · rw [bind_ok_iff] at h1; obtain ⟨p, -, h1⟩ := h1; exact aper_one h1 hi rfl hm b2
      case h_2 hk =>
        split at h1
        · exact aper_one h1 hi rfl hm b2
        · obtain ⟨x, -, h1⟩ := bind_append h1; exact aper_one h1 hi rfl hm b2
      case h_5 hk =>
        split at h1
        · exact aper_one h1 hi rfl hm b2
        · obtain ⟨x, -, h1⟩ := bind_append h1; exact aper_one h1 hi rfl hm b2
      case h_3 hk => obtain ⟨x, -, h1⟩ := bind_append h1; exact aper_one h1 hi rfl hm b2
      case h_4 hk => obtain ⟨x, -, h1⟩ := bind_append h1; exact aper_one h1 hi rfl hm b2
      case h_6 hk => obtain ⟨x, -, h1⟩ := bind_append h1; exact aper_one h1 hi rfl hm b2
      case h_7 hk => obtain ⟨x, -, h1⟩ := bind_append h1; exact aper_one h1 hi rfl hm b2
      case h_15 hk => exact aper_one h1 hi (by simp [hi]) hm b2
      all_goals exact aper_one h1 hi rfl hm b2
    show apers (as1 ++ as2) = []
    rw [apers, List.filterMap_append, ← apers, ← apers, r1, r2]; rfl

/-- With apertures, a drift, quadrupole without tilt or cavity with an aperture in the file has a circular one of that
radius, and without one has none. -/
theorem circular {d : Data} {i : Interface} {g : Globals} (hi : i.apertures = true) (ht : d.kw ∉ i.driftTypes) (hk : d.kw = "DRIF") :
    (eps < |d.real 4| → Makes d i g (.drift d.label (d.real 0)) (some (.circle (d.real 4)))) ∧
    (d.real 4 = 0 → Makes d i g (.drift d.label (d.real 0)) none) := by
  have hkw := (keyword_same (by rw [hk]; simp) (by rw [hk]; simp) ht).trans hk
  have h := makes_append (d := d) (i := i) (g := g) (x := .drift d.label (d.real 0)) (r := none) (by simp only [construct, hkw])
  constructor
  · intro h4
    rw [aperOf, hi, not_isZero h4] at h
    exact h
  · intro h4
    rw [aperOf, h4, isZero_zero] at h
    simpa using h

/-- A rectangular collimator without circular aperture is a drift with a rectangular aperture. -/
theorem collimator {d : Data} {i : Interface} {g : Globals} (hi : i.apertures = true) (ht : d.kw ∉ i.driftTypes) (hk : d.kw = "RCOL")
    (h4 : d.real 4 = 0) : Makes d i g (.drift d.label (d.real 0)) (some (.rect (2 * d.real 6) (2 * d.real 7))) := by
  have hkw := (keyword_same (by rw [hk]; simp) (by rw [hk]; simp) ht).trans hk
  have h := makes_append (d := d) (i := i) (g := g) (x := .drift d.label (d.real 0)) (r := some (.rect (2 * d.real 6) (2 * d.real 7)))
    (by simp only [construct, hkw, hi, if_true])
  rw [aperOf, h4, isZero_zero] at h
  simpa using h

/-- The half widths of the aperture are twice those of the file: a particle at one and a half times the half width, which
would hit the jaw, is inside. -/
theorem wide_collimator_violated {d : Data} {i : Interface} {g : Globals} (hi : i.apertures = true) (ht : d.kw ∉ i.driftTypes)
    (hk : d.kw = "RCOL") (h4 : d.real 4 = 0) (hx : 0 < d.real 6) (hy : 0 < d.real 7) :
    ∃ a, Makes d i g (.drift d.label (d.real 0)) (some a) ∧ Inside a (3 / 2 * d.real 6) 0 ∧ ¬ Inside (.rect (d.real 6) (d.real 7)) (3 / 2 * d.real 6) 0 := by
  refine ⟨_, collimator hi ht hk h4, ?_, ?_⟩
  · simp only [Inside, abs_zero]
    rw [abs_of_pos (by positivity)]
    constructor <;> linarith
  · simp only [Inside, abs_zero]
    rw [abs_of_pos (by positivity)]
    rintro ⟨h, -⟩
    linarith

/-- A collimator that also has a circular aperture loses its jaws. -/
theorem lost_jaws_violated {d : Data} {i : Interface} {g : Globals} (hi : i.apertures = true) (ht : d.kw ∉ i.driftTypes)
    (hk : d.kw = "RCOL") (h4 : eps < |d.real 4|) : Makes d i g (.drift d.label (d.real 0)) (some (.circle (d.real 4))) := by
  have hkw := (keyword_same (by rw [hk]; simp) (by rw [hk]; simp) ht).trans hk
  have h := makes_append (d := d) (i := i) (g := g) (x := .drift d.label (d.real 0)) (r := some (.rect (2 * d.real 6) (2 * d.real 7)))
    (by simp only [construct, hkw, hi, if_true])
  rw [aperOf, hi, not_isZero h4] at h
  exact h

example : ∃ d : Data, ready.apertures = true ∧ d.kw ∉ ready.driftTypes ∧ d.kw = "RCOL" ∧ d.real 4 = 0 ∧ 0 < d.real 6 ∧ 0 < d.real 7 :=
  ⟨sample "RCOL" ['C'] [(0, 1), (6, 0.001), (7, 0.002)], by simp [sample, ready, mk, List.lookup]; norm_num⟩

example : ∃ d : Data, ready.apertures = true ∧ d.kw ∉ ready.driftTypes ∧ d.kw = "RCOL" ∧ eps < |d.real 4| :=
  ⟨sample "RCOL" ['C'] [(0, 1), (4, 1), (6, 0.001), (7, 0.002)], by
    simp [sample, ready, mk, List.lookup]; have := eps_lt; linarith⟩

example : ∃ i g as, constructs [sample "RCOL" ['C'] [(0, 1), (6, 0.001), (7, 0.002)]] (includeApertures false ready) ⟨5, 0, 0, 0⟩ = .ok (i, g) ∧
    i.mc = .live ([] ++ as) 0 ∧ apers as = [] := by
  simp [constructs, construct, keyword, sample, List.lookup, ready, mk, includeApertures, append, call, Outcome.bind, isZero_zero, apers]

/-! ## C279 -/

theorem upper_idem {l : List Char} (h : ∀ ch ∈ l, ¬ ('a' ≤ ch ∧ ch ≤ 'z')) : l.map upper = l := by
  induction l with
  | nil => rfl
  | cons a l ih =>
    simp only [List.map_cons]
    rw [ih fun ch hc => h ch (List.mem_cons_of_mem _ hc), upper, if_neg (h a (List.mem_cons_self ..))]

/-- A type that is to be treated as a drift becomes a drift of the length of the file, whatever else it is, the monitors of one
plane excepted. -/
theorem treated {dt : List Char} {d : Data} {i i' : Interface} {g : Globals} (h : treatAsDrift dt i = .ok i')
    (hk : d.kw = String.ofList ((dt.take 4).map upper)) (h1 : d.kw ≠ "HMON") (h2 : d.kw ≠ "VMON") :
    Makes d i' g (.drift d.label (d.real 0)) (aperOf i' d none) := by
  have hm : d.kw ∈ i'.driftTypes := by
    unfold treatAsDrift at h
    split at h
    · cases h
    · injection h with h
      rw [← h, hk]
      dsimp only
      split
      · assumption
      · simp
  have hkw : keyword i' d.kw = "DRIF" := by simp [keyword, h1, h2, hm]
  exact makes_append (by simp only [construct, hkw])

/-- Asking for a type to be treated as a drift does not change what becomes of other types. -/
theorem others_kept {dt : List Char} {d : Data} {i i' : Interface} (h : treatAsDrift dt i = .ok i')
    (hk : d.kw ≠ String.ofList ((dt.take 4).map upper)) (h1 : d.kw ≠ "HMON") (h2 : d.kw ≠ "VMON") : keyword i' d.kw = keyword i d.kw := by
  unfold treatAsDrift at h
  split at h
  · cases h
  · injection h with h
    rw [← h]
    simp only [keyword, h1, h2, or_self, if_false]
    split
    · rfl
    · simp only [List.mem_cons, hk, false_or]

/-- A request for the monitors of one plane has no effect: they are still position monitors. -/
theorem monitors_kept_violated {dt : List Char} {d : Data} {i i' : Interface} {g : Globals} (h : treatAsDrift dt i = .ok i')
    (hd : (dt.take 4).map upper = "HMON".toList ∨ (dt.take 4).map upper = "VMON".toList) (hi : "MONI" ∉ i.driftTypes)
    (hk : d.kw = String.ofList ((dt.take 4).map upper)) : Makes d i' g (.bpm d.label (d.real 0)) (aperOf i' d none) := by
  have hm : d.kw = "HMON" ∨ d.kw = "VMON" := by
    rcases hd with hd | hd <;> rw [hd] at hk <;> simp [hk]
  have hn : "MONI" ∉ i'.driftTypes := by
    unfold treatAsDrift at h
    split at h
    · cases h
    · injection h with h
      rw [← h]
      dsimp only
      split
      · exact hi
      · rw [List.mem_cons]
        rintro (h' | h')
        · rw [← hk] at h'
          rcases hm with hm | hm <;> rw [hm] at h' <;> simp at h'
        · exact hi h'
  have hkw : keyword i' d.kw = "MONI" := by simp [keyword, hm, hn]
  exact makes_append (by simp only [construct, hkw])

/-- A name of less than three characters is read past its end. -/
theorem short_name_violated (dt : List Char) (h : dt.length < 3) (i : Interface) : treatAsDrift dt i = .ub := by
  simp [treatAsDrift, h]

example : ∃ i, treatAsDrift "quad".toList ready = .ok i ∧ "QUAD" = String.ofList (("quad".toList.take 4).map upper) := by
  refine ⟨_, rfl, ?_⟩
  decide

example : ∃ i, treatAsDrift "hmonitor".toList ready = .ok i ∧ ("hmonitor".toList.take 4).map upper = "HMON".toList ∧
    "MONI" ∉ ready.driftTypes := by
  refine ⟨_, rfl, ?_, ?_⟩
  · decide
  · simp [ready, mk]

/-! ## C286 -/

theorem crab_make {d : Data} {i : Interface} {g : Globals} (hk : d.kw = "LCAV") (ht : "LCAV" ∉ i.driftTypes) {ch : Char} {rest : List Char}
    (hl : d.label = 'C' :: 'R' :: 'A' :: 'B' :: ch :: rest) :
    construct d i g = (crab d (some ch)).bind fun x => append x none d i g := by
  have hkw : keyword i d.kw = "LCAV" := keyword_lcav.2 ⟨hk, ht⟩
  simp only [construct, hkw, hl]
  simp

/-- A cavity whose name begins with `CRABH` or `CRABV` is a transverse one, with the voltage, frequency and phase of the file,
that deflects horizontally or vertically, and does not change the energy. -/
theorem crab_cavity {d : Data} {i : Interface} {g : Globals} (hk : d.kw = "LCAV") (ht : "LCAV" ∉ i.driftTypes) (h0 : d.real 0 ≠ 0)
    {ch : Char} {rest : List Char} (hl : d.label = 'C' :: 'R' :: 'A' :: 'B' :: ch :: rest) (hc : ch = 'H' ∨ ch = 'V') :
    (∃ e, Makes d i g (.crab d.label (d.real 0) (d.real 7 * 1000000) e (2 * π * d.real 9) (if ch = 'H' then 0 else π / 2)) (aperOf i d none) ∧
      e * d.real 0 = d.real 8 / 1000) ∧ gain i.driftTypes g.q d = 0 := by
  refine ⟨⟨d.real 8 * MV / d.real 0, makes_append ?_, ?_⟩, ?_⟩
  · rw [crab_make hk ht hl, show d.real 7 * 1000000 = d.real 7 * MHz by norm_num [MHz]]
    rcases hc with rfl | rfl
    · simp only [crab, quot_ok h0, obind_ok, if_true]
    · simp only [crab, quot_ok h0, obind_ok]
      rw [if_neg (by decide)]
  · unfold MV
    field_simp
    ring
  · unfold gain
    rw [if_neg]
    rintro ⟨-, -, h⟩
    simp [hl] at h

/-- One whose name goes on otherwise is refused. -/
theorem crab_unknown {d : Data} {i : Interface} {g : Globals} (hk : d.kw = "LCAV") (ht : "LCAV" ∉ i.driftTypes)
    {ch : Char} {rest : List Char} (hl : d.label = 'C' :: 'R' :: 'A' :: 'B' :: ch :: rest) (h1 : ch ≠ 'H') (h2 : ch ≠ 'V') :
    construct d i g = .throw .crab := by
  rw [crab_make hk ht hl]
  unfold crab
  dsimp only
  split
  · rename_i h; injection h with h; exact absurd h h1
  · rename_i h; injection h with h; exact absurd h h2
  · rfl

/-- A rotation of the axis has the angle of the file and is no component. -/
theorem axis_turned {d : Data} {i : Interface} {g : Globals} (hk : d.kw = "SROT") (ht : "SROT" ∉ i.driftTypes) {acts : List Act} {n : Nat}
    (hm : i.mc = .live acts n) : construct d i g = .ok ({ i with mc := .live (acts ++ [.srot (d.real 7) d.label]) n }, g) := by
  have hkw : keyword i d.kw = "SROT" := by rw [hk]; exact keyword_same (by simp) (by simp) ht
  simp only [construct, hkw, hm, call, obind_ok]

example : ∃ d : Data, d.kw = "LCAV" ∧ d.real 0 ≠ 0 ∧ d.label = 'C' :: 'R' :: 'A' :: 'B' :: 'V' :: ['1'] ∧ d.real 8 = 3 :=
  ⟨sample "LCAV" ['C', 'R', 'A', 'B', 'V', '1'] [(0, 1), (8, 3)], rfl, by simp [sample, List.lookup], rfl, by simp [sample, List.lookup]⟩

end Verif.XTFF
