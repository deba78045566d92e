import Verif.HollowLens.Lemmas

/-!
# Properties of the hollow electron lens (C214-C222)
-/

namespace Verif.HollowLens
open Verif Verif.Symplectic Verif.HollowLens.Spec Real

/-! ## C214, C215: the kick is that of the current within the radius of the particle -/

theorem theta_ok {l : Lens} {pb R : ℝ} (hr : l.rigidity ≠ 0) (he : l.betaE ≠ 0) (hp : pb ≠ 0) (hR : R ≠ 0) {c : ℝ}
    (hc : c ≠ 0) (F : ℝ) : ∃ t, calcThetaMax l pb R = .ok t ∧
      -(F * t) = if l.opposite then deflection c l.effLen (l.current * F) l.betaE pb l.rigidity 1 R
        else -deflection c l.effLen (l.current * F) l.betaE pb l.rigidity (-1) R := by
  have h : R * 1e7 * l.rigidity * l.betaE * pb ≠ 0 := by
    have : R * 1e7 ≠ 0 := mul_ne_zero hR (by norm_num)
    exact mul_ne_zero (mul_ne_zero (mul_ne_zero this hr) he) hp
  unfold calcThetaMax deflection
  rw [if_neg hR, if_neg h]
  cases l.opposite with
  | true =>
    simp only [if_true]
    refine ⟨_, rfl, ?_⟩
    field_simp
    ring
  | false =>
    simp only [if_false, Bool.false_eq_true]
    refine ⟨_, rfl, ?_⟩
    field_simp
    ring

theorem simple_ok {l : Lens} {a b pb : ℝ} (h : Ready l a b pb) {c : ℝ} (hc : c ≠ 0) {R : ℝ} (hR : 0 ≤ R) :
    calcKickSimple l pb R = .ok (if l.opposite then evenly l c a b pb 1 R else -evenly l c a b pb (-1) R) := by
  have hab : b ^ 2 - a ^ 2 ≠ 0 := by nlinarith [h.pos, h.lt]
  have zero : ∀ s, deflection c l.effLen 0 l.betaE pb l.rigidity s R = 0 := fun s => by simp [deflection]
  unfold calcKickSimple evenly
  rw [h.rmin, h.rmax, enclosed_annulus h.pos h.lt hR]
  simp only
  split
  · simp [zero]
  · rename_i h1
    have hR0 : R ≠ 0 := fun e => h1 (e ▸ h.pos)
    rw [not_le] at h1
    by_cases h2 : R < b
    · simp only [if_neg hab, if_pos h2, if_pos (show R < b ∧ R > a from ⟨h2, h1⟩)]
      obtain ⟨t, e1, e2⟩ := theta_ok h.rigidity h.betaE h.pb hR0 hc ((R ^ 2 - a ^ 2) / (b ^ 2 - a ^ 2))
      rw [e1, Outcome.bind, e2]
    · rw [if_neg (fun h => h2 h.1), if_neg h2]
      obtain ⟨t, e1, e2⟩ := theta_ok h.rigidity h.betaE h.pb hR0 hc 1
      rw [e1, Outcome.bind, ← e2, one_mul]

/-- The density of a lens with measured profile. -/
noncomputable def points (l : Lens) (a : ℝ) : List (ℝ × ℝ) := if l.lhc then forLHC a else tevatron a

/-- The outer radius of a lens with measured profile. -/
noncomputable def outer (l : Lens) (a : ℝ) : ℝ := if l.lhc then 505 / 222.5 * a else 426.5 / 222.5 * a

theorem factor_ok (l : Lens) {a R : ℝ} (ha : 0 < a) (hR : a < R) :
    enclosed (through (points l a)) (outer l a) R = radialFactor l.lhc a R := by
  unfold points outer
  cases l.lhc
  · exact enclosed_tevatron ha hR
  · exact enclosed_lhc ha hR

theorem radial_ok {l : Lens} {a b pb : ℝ} (h : Ready l a b pb) (ha : 0 < a) {c : ℝ} (hc : c ≠ 0) {R : ℝ} (hR : 0 ≤ R) :
    calcKickRadial l pb R = .ok (if l.opposite then measured l (points l a) (outer l a) c pb 1 R
      else -measured l (points l a) (outer l a) c pb (-1) R) := by
  have zero : ∀ s, deflection c l.effLen 0 l.betaE pb l.rigidity s R = 0 := fun s => by simp [deflection]
  unfold calcKickRadial measured
  rw [h.rmin]
  simp only
  split
  · rename_i h1
    have : enclosed (through (points l a)) (outer l a) R = 0 := by
      unfold enclosed points
      cases l.lhc
      · simp only [Bool.false_eq_true, if_false]
        rw [tevatron, through_none (ordered_tevatron ha) hR h1, zero_div]
      · simp only [if_true]
        rw [forLHC, through_none (ordered_lhc ha) hR h1, zero_div]
    simp [this, zero]
  · rename_i h1
    rw [not_le] at h1
    rw [factor_ok l ha h1]
    obtain ⟨t, e1, e2⟩ := theta_ok h.rigidity h.betaE h.pb (ha.trans h1).ne' hc (radialFactor l.lhc a R)
    rw [e1, Outcome.bind, ← e2]
    congr 1; ring

theorem kick_bent {l : Lens} (hc : Centred l) {pb : ℝ} {D : ℝ → ℝ} (h0 : D 0 = 0)
    (h : ∀ v : PS, calcKick l pb v = .ok (D √(v.x ^ 2 + v.y ^ 2))) (v : PS) :
    kickParticle l pb v = .ok (bent 0 0 D v) := by
  rw [kickParticle, h, Outcome.bind]
  congr 1
  simp only [bent, sub_zero]
  split
  · rename_i ht
    have hxy : v.x ≠ 0 ∨ v.y ≠ 0 := by
      by_contra hn
      push Not at hn
      rw [hn.1, hn.2] at ht
      simp [h0] at ht
    rw [addKick_radial _ _ hxy]
  · rename_i ht
    rw [not_not] at ht
    simp [ht]

theorem centred_radius {l : Lens} (h : Centred l) (v : PS) :
    √((v.x - l.xOff) ^ 2 + (v.y - l.yOff) ^ 2) = √(v.x ^ 2 + v.y ^ 2) := by rw [h.1, h.2, sub_zero, sub_zero]

/-- The deflection a lens makes at a radius: with the sign its direction has in the code. -/
noncomputable def made (l : Lens) (c a b pb R : ℝ) : ℝ :=
  if l.simple then if l.opposite then evenly l c a b pb 1 R else -evenly l c a b pb (-1) R
  else if l.opposite then measured l (points l a) (outer l a) c pb 1 R else -measured l (points l a) (outer l a) c pb (-1) R

theorem made_zero (l : Lens) (c a b pb : ℝ) : made l c a b pb 0 = 0 := by
  simp [made, evenly, measured, deflection]

theorem made_ok {l : Lens} {a b pb : ℝ} (h : Ready l a b pb) (ha : l.simple = false → 0 < a) (hc : Centred l) {c : ℝ}
    (hc0 : c ≠ 0) (v : PS) : calcKick l pb v = .ok (made l c a b pb √(v.x ^ 2 + v.y ^ 2)) := by
  simp only [calcKick, centred_radius hc, made]
  cases hs : l.simple with
  | true => simp only [if_true]; exact simple_ok h hc0 (sqrt_nonneg _)
  | false => simp only [if_false, Bool.false_eq_true]; exact radial_ok h (ha hs) hc0 (sqrt_nonneg _)

theorem made_turn (l : Lens) (t : Int) (c a b pb R : ℝ) : made { l with turn := t } c a b pb R = made l c a b pb R := rfl

theorem ready_turn {l : Lens} {a b pb : ℝ} (h : Ready l a b pb) (t : Int) : Ready { l with turn := t } a b pb :=
  ⟨h.1, h.2, h.3, h.4, h.5, h.6, h.7⟩

theorem each_made {l : Lens} {a b pb : ℝ} (h : Ready l a b pb) (ha : l.simple = false → 0 < a) (hc : Centred l) {c : ℝ}
    (hc0 : c ≠ 0) (ps : List PS) : each (kickParticle l pb) ps = .ok (ps.map (bent 0 0 (made l c a b pb))) :=
  each_ok (kick_bent hc (made_zero _ _ _ _ _) (made_ok h ha hc hc0)) ps

theorem operate_dc {l : Lens} (h : l.mode = some .dc) (pb rnd : ℝ) (ps : List PS) :
    operate l pb rnd ps = each (kickParticle l pb) ps := by unfold operate; rw [h]

/-- C214: a lens of evenly spread current with electrons against the protons deflects every particle towards the axis
by the force of the current within its radius. -/
theorem lens_evenly {l : Lens} {a b pb : ℝ} (h : Ready l a b pb) (hc : Centred l) (hs : l.simple = true)
    (ho : l.opposite = true) (hm : l.mode = some .dc) {c : ℝ} (hc0 : c ≠ 0) (rnd : ℝ) (ps : List PS) :
    doProcess l pb rnd ps = .ok ({ l with turn := l.turn + 1 }, ps.map (bent 0 0 (evenly l c a b pb 1))) := by
  have e := each_made (ready_turn h (l.turn + 1)) (fun h => by simp [hs] at h) hc hc0 ps
  have em : (made { l with turn := l.turn + 1 } c a b pb) = evenly l c a b pb 1 := by
    funext R; rw [made_turn]; simp [made, hs, ho]
  rw [em] at e
  simp only [doProcess]
  rw [operate_dc (l := { l with turn := l.turn + 1 }) hm, e]
  rfl

/-- C215: the same for the measured profiles. -/
theorem lens_measured {l : Lens} {a b pb : ℝ} (h : Ready l a b pb) (ha : 0 < a) (hc : Centred l) (hs : l.simple = false)
    (ho : l.opposite = true) (hm : l.mode = some .dc) {c : ℝ} (hc0 : c ≠ 0) (rnd : ℝ) (ps : List PS) :
    doProcess l pb rnd ps = .ok ({ l with turn := l.turn + 1 },
      ps.map (bent 0 0 (measured l (if l.lhc then forLHC a else tevatron a)
        (if l.lhc then 505 / 222.5 * a else 426.5 / 222.5 * a) c pb 1))) := by
  have e := each_made (ready_turn h (l.turn + 1)) (fun _ => ha) hc hc0 ps
  have em : (made { l with turn := l.turn + 1 } c a b pb) = measured l (points l a) (outer l a) c pb 1 := by
    funext R; rw [made_turn]; simp [made, hs, ho]
  rw [em] at e
  simp only [doProcess]
  rw [operate_dc (l := { l with turn := l.turn + 1 }) hm, e]
  rfl

/-- A lens as in the tests of the library. -/
noncomputable def sample : Lens := setRadii (mkLens 0 5 0.195 2e4 3) 0.002 0.005

example : Ready sample 0.002 0.005 1 ∧ Centred sample ∧ sample.simple = true ∧ sample.opposite = true ∧
    sample.mode = some .dc :=
  ⟨⟨rfl, rfl, by norm_num, by norm_num, by norm_num [sample, setRadii, setRmin, setRmax, mkLens],
    by norm_num [sample, setRadii, setRmin, setRmax, mkLens], one_ne_zero⟩, ⟨rfl, rfl⟩, rfl, rfl, rfl⟩

theorem points_ordered (l : Lens) {a : ℝ} (ha : 0 < a) : Ordered (points l a) := by
  unfold points
  cases l.lhc
  · exact ordered_tevatron ha
  · exact ordered_lhc ha

theorem factor_int (l : Lens) {a : ℝ} (ha : 0 < a) : ∃ n, 0 ≤ n ∧ ∃ I : ℝ → ℝ, (∀ R, a < R → radialFactor l.lhc a R = I R / n) ∧
    (∀ R, a < R → 0 ≤ I R) ∧ ∀ R S, a < R → R ≤ S → I R ≤ I S := by
  have hp : ∃ t, points l a = (a, 0) :: t ∧ ∀ q ∈ (a, 0) :: t, (0 : ℝ) ≤ q.2 := by
    unfold points
    cases l.lhc
    · exact ⟨_, rfl, by simp⟩
    · exact ⟨_, rfl, by simp⟩
  obtain ⟨t, et, hy⟩ := hp
  have ho := points_ordered l ha
  have hf := fun R hR => factor_ok l (R := R) ha hR
  rw [et] at ho hf
  have hpos : ∀ R, a ≤ R → 0 ≤ ∫ r in (0 : ℝ)..R, through ((a, 0) :: t) r * r := fun R hR => by
    have := through_mono ho hy ha.le le_rfl hR
    rwa [through_none ho ha.le le_rfl] at this
  refine ⟨_, hpos (outer l a) ?_, fun R => ∫ r in (0 : ℝ)..R, through ((a, 0) :: t) r * r, fun R hR => (hf R hR).symm,
    fun R hR => hpos R hR.le, fun R S hR hS => through_mono ho hy ha.le hR.le hS⟩
  unfold outer
  split <;> norm_num <;> nlinarith

/-- C215: the factor of the measured profile is never negative, does not fall with the radius and is one outside. -/
theorem factor_mono (l : Lens) {a R S : ℝ} (ha : 0 < a) (hR : a < R) (hS : R ≤ S) :
    0 ≤ radialFactor l.lhc a R ∧ radialFactor l.lhc a R ≤ radialFactor l.lhc a S ∧ radialFactor l.lhc a S ≤ 1 := by
  obtain ⟨n, hn, I, h1, h2, h3⟩ := factor_int l ha
  have hS' := hR.trans_le hS
  have mono : ∀ R S, a < R → R ≤ S → radialFactor l.lhc a R ≤ radialFactor l.lhc a S := fun R S hR hS => by
    rw [h1 R hR, h1 S (hR.trans_le hS)]
    exact div_le_div_of_nonneg_right (h3 R S hR hS) hn
  refine ⟨by rw [h1 R hR]; exact div_nonneg (h2 R hR) hn, mono R S hR hS, ?_⟩
  have hone : radialFactor l.lhc a (max S (3 * a)) = 1 := by
    have h3a : 3 * a ≤ max S (3 * a) := le_max_right _ _
    generalize max S (3 * a) = T at *
    have : ∀ q : ℝ, q ≤ 3 → ¬ T < q * a := fun q hq => by nlinarith
    unfold radialFactor
    simp only
    rw [if_neg (by linarith), if_neg (this _ (by split <;> norm_num)), if_neg (this _ (by split <;> norm_num)),
      if_neg (this _ (by split <;> norm_num)), if_neg (this _ (by split <;> norm_num))]
  rw [← hone]
  exact mono _ _ hS' (le_max_left _ _)

/-! ## C216: electrons which move with the protons -/

/-- C216 (partial: the amount): with the electrons in the direction of the protons the deflection has the amount of the
Lorentz force, and the opposite sign. -/
theorem with_protons_partial {l : Lens} {a b pb : ℝ} (h : Ready l a b pb) (hc : Centred l) (hs : l.simple = true)
    (ho : l.opposite = false) (hm : l.mode = some .dc) {c : ℝ} (hc0 : c ≠ 0) (rnd : ℝ) (ps : List PS) :
    doProcess l pb rnd ps =
      .ok ({ l with turn := l.turn + 1 }, ps.map (bent 0 0 fun R => -evenly l c a b pb (-1) R)) := by
  have e := each_made (ready_turn h (l.turn + 1)) (fun h => by simp [hs] at h) hc hc0 ps
  have em : (made { l with turn := l.turn + 1 } c a b pb) = fun R => -evenly l c a b pb (-1) R := by
    funext R; rw [made_turn]; simp [made, hs, ho]
  rw [em] at e
  simp only [doProcess]
  rw [operate_dc (l := { l with turn := l.turn + 1 }) hm, e]
  rfl

theorem deflection_neg {c L I be bp rho s r : ℝ} (hc : 0 < c) (hL : 0 < L) (hI : 0 < I) (he : 0 < be) (hp : 0 < bp)
    (hrho : 0 < rho) (hr : 0 < r) (hs : -1 ≤ s) (hs' : be * bp < 1) : deflection c L I be bp rho s r < 0 := by
  have e : deflection c L I be bp rho s r = -(2 * L * I * (1 + s * (be * bp)) / (1e7 * r * rho * be * bp)) := by
    unfold deflection
    field_simp
    ring
  have hb : 0 < be * bp := mul_pos he hp
  have h1 : 0 < 1 + s * (be * bp) := by nlinarith
  rw [e, neg_lt_zero]
  positivity

theorem enclosed_pos {a b R : ℝ} (ha : 0 ≤ a) (hab : a < b) (hR : a < R) : 0 < enclosed (annulus a b) b R := by
  rw [enclosed_annulus ha hab (ha.trans hR.le), if_neg (not_le.2 hR)]
  split
  · exact div_pos (by nlinarith) (by nlinarith)
  · exact one_pos

theorem evenly_neg {l : Lens} {a b pb c : ℝ} (h : Ready l a b pb) (hp : Physical l pb) (hc : 0 < c) {s : ℝ} (hs : -1 ≤ s)
    {R : ℝ} (hR : a < R) : evenly l c a b pb s R < 0 :=
  deflection_neg hc hp.effLen (mul_pos hp.current (enclosed_pos h.pos h.lt hR)) hp.betaE hp.proton hp.rigidity
    (h.pos.trans_lt hR) hs hp.slow

/-- C216 (violated): electrons attract protons whichever way they move; a lens with electrons in the direction of the
protons pushes them out. -/
theorem with_protons_violated {l : Lens} {a b pb : ℝ} (h : Ready l a b pb) (hp : Physical l pb) (hc : Centred l)
    (hs : l.simple = true) (ho : l.opposite = false) (hm : l.mode = some .dc) {c : ℝ} (hc0 : 0 < c) (rnd : ℝ) {v : PS}
    (hx : a < v.x) (hy : v.y = 0) : ∃ l' w, doProcess l pb rnd [v] = .ok (l', [w]) ∧ v.px < w.px ∧
      (bent 0 0 (evenly l c a b pb (-1)) v).px < v.px := by
  have hx0 : 0 < v.x := h.pos.trans_lt hx
  have hR : √((v.x - 0) ^ 2 + (v.y - 0) ^ 2) = v.x := by rw [hy]; simp [sqrt_sq hx0.le]
  have hn := evenly_neg h hp hc0 (le_refl (-1)) hx
  refine ⟨_, _, with_protons_partial h hc hs ho hm hc0.ne' rnd [v], ?_, ?_⟩
  · simp only [bent, hR]
    rw [sub_zero, div_self hx0.ne']
    linarith
  · simp only [bent, hR]
    rw [sub_zero, div_self hx0.ne']
    linarith

example : Physical { sample with opposite := false } 1 := by
  constructor <;> norm_num [sample, setRadii, setRmin, setRmax, mkLens]

/-! ## C217: a lens off the axis -/

/-- C217 (partial): a lens off the axis deflects by the force at the distance from its own centre, but along the line
from the axis to the particle. -/
theorem off_axis_partial {l : Lens} {a b pb : ℝ} (h : Ready l a b pb) (hs : l.simple = true) (ho : l.opposite = true)
    {c : ℝ} (hc0 : c ≠ 0) {v : PS} (hv : v.x ≠ 0 ∨ v.y ≠ 0) :
    kickParticle l pb v = .ok (bent 0 0 (fun _ => evenly l c a b pb 1 √((v.x - l.xOff) ^ 2 + (v.y - l.yOff) ^ 2)) v) := by
  simp only [kickParticle, calcKick, hs, if_true]
  rw [simple_ok h hc0 (sqrt_nonneg _), ho]
  simp only [if_true, Outcome.bind, bent, sub_zero]
  congr 1
  split
  · rw [addKick_radial _ _ hv]
  · rename_i ht
    rw [not_not] at ht
    simp [ht]

/-- C217 (violated): a particle between the axis and a lens beside it is pushed away from the lens. -/
theorem off_axis_violated {l : Lens} {a b pb : ℝ} (h : Ready l a b pb) (hp : Physical l pb) (hs : l.simple = true)
    (ho : l.opposite = true) {c : ℝ} (hc0 : 0 < c) {v : PS} (hv : 0 < v.x) (hx : v.x < l.xOff - a) (hy : v.y = 0)
    (hyo : l.yOff = 0) : ∃ w, kickParticle l pb v = .ok w ∧ w.px < v.px ∧
      v.px < (bent l.xOff l.yOff (evenly l c a b pb 1) v).px := by
  refine ⟨_, off_axis_partial h hs ho hc0.ne' (Or.inl hv.ne'), ?_, ?_⟩
  · have hR : √((v.x - 0) ^ 2 + (v.y - 0) ^ 2) = v.x := by rw [hy]; simp [sqrt_sq hv.le]
    have hn := evenly_neg h hp hc0 (show (-1 : ℝ) ≤ 1 by norm_num) (R := √((v.x - l.xOff) ^ 2 + (v.y - l.yOff) ^ 2)) (by
      rw [hy, hyo, sub_zero, zero_pow two_ne_zero, add_zero, sqrt_sq_eq_abs, abs_sub_comm, lt_abs]
      left; linarith)
    simp only [bent, hR]
    rw [sub_zero, div_self hv.ne']
    linarith
  · have hR : √((v.x - l.xOff) ^ 2 + (v.y - l.yOff) ^ 2) = l.xOff - v.x := by
      rw [hy, hyo, sub_zero, zero_pow two_ne_zero, add_zero, ← neg_sub, neg_sq, sqrt_sq (by linarith [h.pos])]
    have hn := evenly_neg h hp hc0 (show (-1 : ℝ) ≤ 1 by norm_num) (R := l.xOff - v.x) (by linarith)
    simp only [bent, hR]
    have hd : l.xOff - v.x ≠ 0 := by linarith [h.pos]
    have : (v.x - l.xOff) / (l.xOff - v.x) = -1 := by field_simp; ring
    rw [this]
    linarith

example : Ready { sample with xOff := 0.01 } 0.002 0.005 1 ∧ (0.001 : ℝ) < 0.01 - 0.002 :=
  ⟨⟨rfl, rfl, by norm_num, by norm_num, by norm_num [sample, setRadii, setRmin, setRmax, mkLens],
    by norm_num [sample, setRadii, setRmin, setRmax, mkLens], one_ne_zero⟩, by norm_num⟩

/-! ## C218: velocity and momentum of the protons -/

/-- C218 (partial): the velocity of the protons is right if momentum and mass times the velocity of light are given in
the same units. -/
theorem proton_velocity_partial {m c p M : ℝ} (hM : m * c = M) (hM0 : 0 < M) (hp : 0 ≤ p) : protonBeta m c p = velocity M p := by
  unfold protonBeta velocity
  rw [hM]
  have h1 : 0 < M ^ 2 := by positivity
  have h2 : 0 < p ^ 2 + M ^ 2 := by positivity
  simp only
  rw [mul_self_sqrt (by positivity), show 1 - 1 / (1 + (p / M) ^ 2) = p ^ 2 / (p ^ 2 + M ^ 2) by field_simp; ring,
    sqrt_div (sq_nonneg p), sqrt_sq hp]

/-- C218 (violated): momenta are in GeV, the mass in kilograms (PhysicalConstants.cpp 24, 28).  A proton of 1 GeV/c is
given nearly the velocity of light; it has 73 per cent of it. -/
theorem proton_velocity_violated : 1 - 1e-30 < protonBeta 1.672621637e-27 2.99792458e8 1 ∧ velocity 0.938272013 1 < 0.73 := by
  constructor
  · rw [proton_velocity_partial rfl (by norm_num) (by norm_num)]
    unfold velocity
    rw [lt_div_iff₀ (by positivity)]
    have : √((1 : ℝ) ^ 2 + (1.672621637e-27 * 2.99792458e8) ^ 2) ≤ 1 + 1e-31 := by
      rw [sqrt_le_left (by norm_num)]
      norm_num
    have h2 : (0 : ℝ) < 1 - 1e-30 := by norm_num
    calc (1 - 1e-30) * √((1 : ℝ) ^ 2 + (1.672621637e-27 * 2.99792458e8) ^ 2) ≤ (1 - 1e-30) * (1 + 1e-31) := by
          gcongr
      _ < 1 := by norm_num
  · unfold velocity
    rw [div_lt_iff₀ (by positivity)]
    have : (1.37 : ℝ) < √(1 ^ 2 + 0.938272013 ^ 2) := by
      rw [lt_sqrt (by norm_num)]
      norm_num
    nlinarith

/-- C218 (violated): the kick does not depend on the momentum of the particle. -/
theorem momentum_violated {l : Lens} {pb : ℝ} {v w : PS} (h : kickParticle l pb v = .ok w) (d : ℝ) :
    kickParticle l pb { v with dp := d } = .ok { w with dp := d } := by
  unfold kickParticle at h ⊢
  obtain ⟨t, ht, h⟩ := bind_ok_iff.1 h
  have ht' : calcKick l pb { v with dp := d } = .ok t := ht
  rw [ht', Outcome.bind]
  cases h
  congr 1
  split <;> rfl

/-! ## C219: modes of operation -/

theorem bent_add (D E : ℝ → ℝ) (v : PS) : bent 0 0 E (bent 0 0 D v) = bent 0 0 (fun R => D R + E R) v := by
  simp only [bent]
  ext <;> simp only <;> ring

theorem bent_none (v : PS) : bent 0 0 (fun _ => 0) v = v := by simp [bent]

/-- Turns in which the particles do not move add their kicks. -/
theorem turns_total {l : Lens} {pb : ℝ} {D : ℝ → ℝ} {w : Int → ℝ → ℝ}
    (h : ∀ t r ps, doProcess { l with turn := t } pb r ps =
      .ok ({ l with turn := t + 1 }, ps.map (bent 0 0 fun R => w (t + 1) r * D R))) :
    ∀ (rs : List ℝ) (t : Int) (ps : List PS), turns pb rs { l with turn := t } ps =
      .ok ({ l with turn := t + rs.length }, ps.map (bent 0 0 fun R => total w t rs * D R))
  | [], t, ps => by
    simp only [turns, total, zero_mul, List.length_nil, Int.natCast_zero, add_zero]
    rw [show (bent 0 0 fun _ => (0 : ℝ)) = id from funext bent_none, List.map_id]
  | r :: rs, t, ps => by
    rw [turns, h, Outcome.bind]
    simp only
    rw [turns_total h rs, List.map_map]
    congr 3
    · simp only [List.length_cons]; push_cast; ring
    · congr 1
      funext v
      rw [Function.comp, bent_add]
      congr 1
      funext R
      rw [total]; ring

theorem operate_skip {l : Lens} (h : l.mode = some .turnskip) (pb rnd : ℝ) (ps : List PS) : operate l pb rnd ps =
    if Int.tmod l.turn (if l.skip = 0 then 2 else l.skip) = 0 then each (kickParticle l pb) ps else .ok ps := by
  unfold operate; rw [h]

theorem operate_diffusive {l : Lens} (h : l.mode = some .diffusive) (pb rnd : ℝ) (ps : List PS) : operate l pb rnd ps =
    if rnd ≥ 0 then each (kickParticle l pb) ps else .ok ps := by unfold operate; rw [h]

theorem operate_ac {l : Lens} (h : l.mode = some .ac) {a : AC} (ha : l.ac = some a) (pb rnd : ℝ) (ps : List PS) :
    operate l pb rnd ps = each (kickAC l a pb) ps := by unfold operate; rw [h]; simp only; rw [ha]

theorem weight_if {D : ℝ → ℝ} (P : Prop) [Decidable P] (ps : List PS) :
    (if P then Outcome.ok (ps.map (bent 0 0 D)) else .ok ps : Outcome Unit (List PS)) =
      .ok (ps.map (bent 0 0 fun R => (if P then 1 else 0) * D R)) := by
  split
  · simp
  · simp only [zero_mul]
    rw [show (bent 0 0 fun _ => (0 : ℝ)) = id from funext bent_none, List.map_id]

variable {l : Lens} {a b pb c : ℝ}

/-- The deflection of the lens in one turn of continuous operation. -/
noncomputable abbrev once (l : Lens) (a b pb c : ℝ) : ℝ → ℝ := made l c a b pb

/-- C219: in continuous operation the lens acts in every turn. -/
theorem dc_turns (h : Ready l a b pb) (ha : l.simple = false → 0 < a) (hc : Centred l) (hc0 : c ≠ 0)
    (hm : l.mode = some .dc) (rs : List ℝ) (ps : List PS) : turns pb rs l ps =
      .ok ({ l with turn := l.turn + rs.length }, ps.map (bent 0 0 fun R => rs.length * once l a b pb c R)) := by
  have := turns_total (l := l) (w := fun _ _ => 1) (D := made l c a b pb) (fun t r ps => by
    simp only [doProcess]
    rw [operate_dc (l := { l with turn := t + 1 }) hm, each_made (ready_turn h (t + 1)) ha hc hc0]
    simp only [made_turn, Outcome.bind, one_mul]
    rfl) rs l.turn ps
  have e : ∀ (rs : List ℝ) t, total (fun _ _ => 1) t rs = rs.length := fun rs => by
    induction rs with
    | nil => intro; simp [total]
    | cons r rs ih => intro t; rw [total, ih]; push_cast [List.length_cons]; ring
  rwa [e] at this

/-- C219: in diffusive operation the lens acts in the turns in which the number drawn is not negative, on all particles
alike. -/
theorem diffusive_turns (h : Ready l a b pb) (ha : l.simple = false → 0 < a) (hc : Centred l) (hc0 : c ≠ 0)
    (hm : l.mode = some .diffusive) (rs : List ℝ) (ps : List PS) : turns pb rs l ps =
      .ok ({ l with turn := l.turn + rs.length },
        ps.map (bent 0 0 fun R => (rs.countP fun r => decide (0 ≤ r) : ℕ) * once l a b pb c R)) := by
  have := turns_total (l := l) (w := fun _ r => if r ≥ 0 then 1 else 0) (D := made l c a b pb) (fun t r ps => by
    simp only [doProcess]
    rw [operate_diffusive (l := { l with turn := t + 1 }) hm, each_made (ready_turn h (t + 1)) ha hc hc0]
    rw [show made { l with turn := t + 1 } c a b pb = made l c a b pb from rfl, weight_if]
    rfl) rs l.turn ps
  have e : ∀ (rs : List ℝ) t, total (fun _ r => if r ≥ 0 then 1 else 0) t rs = ((rs.countP fun r => decide (0 ≤ r) : ℕ) : ℝ) :=
    fun rs => by
      induction rs with
      | nil => intro; simp [total]
      | cons r rs ih =>
        intro t
        rw [total, ih, List.countP_cons]
        by_cases hr : 0 ≤ r
        · simp [hr, add_comm]
        · simp [hr]
  rwa [e] at this

/-- C219: with `SetTurnskip(k)` on a new lens the lens acts in one of `k` turns, with zero in one of two. -/
theorem skip_turns (h : Ready l a b pb) (ha : l.simple = false → 0 < a) (hc : Centred l) (hc0 : c ≠ 0)
    (h0 : l.turn = 0) (k : ℕ) (rs : List ℝ) (ps : List PS) : turns pb rs (setTurnskip l k) ps =
      .ok ({ setTurnskip l k with turn := rs.length },
        ps.map (bent 0 0 fun R => (rs.length / (if k = 0 then 2 else k) : ℕ) * once l a b pb c R)) := by
  obtain ⟨n, hn, en⟩ : ∃ n : ℕ, n ≠ 0 ∧ (if k = 0 then 2 else k) = n := ⟨_, by split <;> omega, rfl⟩
  rw [en]
  have hs : (if (setTurnskip l k).skip = 0 then 2 else (setTurnskip l k).skip) = (n : Int) := by
    rw [← en]
    show (if (k : Int) = 0 then (2 : Int) else k) = ((if k = 0 then 2 else k : ℕ) : Int)
    split
    · rename_i hk; rw [if_pos (by exact_mod_cast hk)]; rfl
    · rename_i hk; rw [if_neg (by exact_mod_cast hk)]
  have hr : ∀ t, Ready { setTurnskip l k with turn := t } a b pb := fun t => ⟨h.1, h.2, h.3, h.4, h.5, h.6, h.7⟩
  have := turns_total (l := setTurnskip l k) (w := fun t _ => if Int.tmod t n = 0 then 1 else 0) (D := made l c a b pb)
    (fun t r ps => by
      simp only [doProcess]
      rw [operate_skip (l := { setTurnskip l k with turn := t + 1 }) rfl, each_made (hr (t + 1)) ha hc hc0]
      simp only [hs]
      rw [show made { setTurnskip l k with turn := t + 1 } c a b pb = made l c a b pb from rfl, weight_if]
      rfl) rs 0 ps
  have e : ∀ (rs : List ℝ) (m : ℕ), total (fun t _ => if Int.tmod t n = 0 then 1 else 0) (m : Int) rs =
      ((m + rs.length) / n : ℕ) - ((m / n : ℕ) : ℝ) := fun rs => by
    induction rs with
    | nil => intro; simp [total]
    | cons r rs ih =>
      intro m
      rw [total, show ((m : Int) + 1) = ((m + 1 : ℕ) : Int) by push_cast; ring, ih, List.length_cons, Nat.succ_div (a := m) (b := n),
        show m + 1 + rs.length = m + (rs.length + 1) by ring]
      have hd : Int.tmod ((m + 1 : ℕ) : Int) n = 0 ↔ n ∣ m + 1 := by
        rw [← Int.natCast_dvd_natCast, Int.dvd_iff_tmod_eq_zero]
      by_cases hdv : n ∣ m + 1
      · rw [if_pos (hd.2 hdv), if_pos hdv]; push_cast; ring
      · rw [if_neg (fun hh => hdv (hd.1 hh)), if_neg hdv]; push_cast; ring
  have e0 := e rs 0
  simp only [Nat.cast_zero, zero_add, Nat.zero_div, sub_zero] at e0
  rw [e0] at this
  have hl : setTurnskip l k = { setTurnskip l k with turn := 0 } := by
    simp only [setTurnskip, h0]
  rw [hl]
  simpa using this

/-- C219: in AC operation the kick has the weight of a cosine of the number of the turn times the tune. -/
theorem ac_turn (h : Ready l a b pb) (ha : l.simple = false → 0 < a) (hc : Centred l) (hc0 : c ≠ 0)
    (hm : l.mode = some .ac) {q : AC} (hq : l.ac = some q) {T : ℝ} (hT : opTune q (l.turn + 1) = .ok T) (rnd : ℝ)
    (ps : List PS) : doProcess l pb rnd ps = .ok ({ l with turn := l.turn + 1 },
      ps.map (bent 0 0 fun R => (1 + cos (2 * π * q.multiplier * T * (l.turn + 1))) / 2 * once l a b pb c R)) := by
  simp only [doProcess]
  rw [operate_ac (l := { l with turn := l.turn + 1 }) hm hq]
  rw [each_ok (g := bent 0 0 fun R => (1 + cos (2 * π * q.multiplier * T * (l.turn + 1))) / 2 * once l a b pb c R)]
  · rfl
  · intro v
    have hk : calcKick { l with turn := l.turn + 1 } pb v = .ok (made l c a b pb √(v.x ^ 2 + v.y ^ 2)) :=
      made_ok (ready_turn h (l.turn + 1)) ha hc hc0 v
    rw [kickAC, hk, Outcome.bind]
    split
    · rename_i ht
      have hxy : v.x ≠ 0 ∨ v.y ≠ 0 := by
        by_contra hn
        push Not at hn
        rw [hn.1, hn.2] at ht
        simp [made_zero] at ht
      simp only [acFactor]
      rw [hT]
      simp only [Outcome.bind]
      rw [addKick_radial _ _ hxy]
      simp only [bent, sub_zero]
      have ea : q.multiplier * (((l.turn + 1 : ℤ) : ℝ) * T * 2 * π) = 2 * π * q.multiplier * T * (l.turn + 1) := by
        push_cast; ring
      rw [ea]
      congr 2 <;> ring
    · rename_i ht
      rw [not_not] at ht
      congr 1
      simp only [bent, sub_zero]
      rw [show once l a b pb c √(v.x ^ 2 + v.y ^ 2) = 0 from ht]
      simp

/-- C219: with a fixed tune. -/
theorem ac_fixed (l : Lens) (tune deltaTune tuneVar tps multi : ℝ) (h : tuneVar = 0 ∨ deltaTune = 0) (t : Int) {q : AC}
    (hq : (setAC l tune deltaTune tuneVar tps multi).ac = some q) : opTune q t = .ok tune := by
  cases hq
  rw [opTune, if_neg (by tauto)]

/-- C219: `SetAC` with a fixed tune, also on a lens that has been in use: after `n` turns a particle has been kicked with the
sum of the weights of the turns one to `n`. -/
theorem ac_turns (h : Ready l a b pb) (ha : l.simple = false → 0 < a) (hc : Centred l) (hc0 : c ≠ 0)
    (tune deltaTune tuneVar tps multi : ℝ) (h0 : tuneVar = 0 ∨ deltaTune = 0) (rs : List ℝ) (ps : List PS) :
    turns pb rs (setAC l tune deltaTune tuneVar tps multi) ps =
      .ok ({ setAC l tune deltaTune tuneVar tps multi with turn := rs.length }, ps.map (bent 0 0 fun R =>
        (∑ i ∈ Finset.range rs.length, (1 + cos (2 * π * multi * tune * (i + 1))) / 2) * once l a b pb c R)) := by
  have hr : ∀ t, Ready { setAC l tune deltaTune tuneVar tps multi with turn := t } a b pb :=
    fun t => ⟨h.1, h.2, h.3, h.4, h.5, h.6, h.7⟩
  have := turns_total (l := setAC l tune deltaTune tuneVar tps multi)
    (w := fun t _ => (1 + cos (2 * π * multi * tune * t)) / 2) (D := made l c a b pb) (fun t r ps => by
      have e := ac_turn (l := { setAC l tune deltaTune tuneVar tps multi with turn := t }) (c := c) (hr t) ha hc hc0 rfl rfl
        (ac_fixed l tune deltaTune tuneVar tps multi h0 (t + 1) rfl) r ps
      rw [e]
      simp only [once]
      push_cast
      rfl) rs 0 ps
  have e : ∀ (rs : List ℝ) (t : ℤ), total (fun t _ => (1 + cos (2 * π * multi * tune * t)) / 2) t rs
      = ∑ i ∈ Finset.range rs.length, (1 + cos (2 * π * multi * tune * (t + i + 1))) / 2 := fun rs => by
    induction rs with
    | nil => intro; simp [total]
    | cons r rs ih =>
      intro t
      rw [total, ih, List.length_cons, Finset.sum_range_succ']
      push_cast
      rw [add_comm]
      congr 1
      · refine Finset.sum_congr rfl fun i _ => ?_
        congr 3; ring
      · congr 3; ring
  rw [e] at this
  have hl : setAC l tune deltaTune tuneVar tps multi = { setAC l tune deltaTune tuneVar tps multi with turn := 0 } := rfl
  rw [← hl] at this
  simpa using this

/-- C219: when the step of the tune divides the window, the tune goes through the window step by step from its lower to
its upper end and starts again. -/
theorem ac_sweep (l : Lens) (tune multi : ℝ) {deltaTune tuneVar tps : ℝ} {n : ℕ} (hn : 2 * deltaTune = n * tuneVar)
    (h0 : 0 < tuneVar) (hd : deltaTune ≠ 0) (ht : 0 < tps) {t : ℤ} (htn : 0 ≤ t) {q : AC}
    (hq : (setAC l tune deltaTune tuneVar tps multi).ac = some q) :
    opTune q t = .ok (tune - deltaTune + ((⌊(t : ℝ) / tps⌋ % (n + 1) : ℤ) : ℝ) * tuneVar) := by
  cases hq
  have hs : 2 * deltaTune / tuneVar + 1 = ((n + 1 : ℤ) : ℝ) := by rw [hn]; push_cast; field_simp
  have hs0 : ((n + 1 : ℤ) : ℝ) ≠ 0 := by
    have : (0 : ℝ) < ((n + 1 : ℤ) : ℝ) := by push_cast; positivity
    exact this.ne'
  have hk : 0 ≤ ⌊(t : ℝ) / tps⌋ := Int.floor_nonneg.2 (div_nonneg (by exact_mod_cast htn) ht.le)
  unfold opTune
  simp only
  rw [if_pos ⟨h0.ne', hd⟩, hs, if_neg (by push Not; exact ⟨ht.ne', hs0⟩)]
  congr 3
  unfold fmod
  rw [if_pos (by push_cast; positivity)]
  have hf : ⌊((⌊(t : ℝ) / tps⌋ : ℤ) : ℝ) / ((n + 1 : ℤ) : ℝ)⌋ = ⌊(t : ℝ) / tps⌋ / (n + 1 : ℤ) := by
    rw [show ((n + 1 : ℤ) : ℝ) = ((n + 1 : ℕ) : ℝ) by push_cast; rfl, Int.floor_div_natCast, Int.floor_intCast]
    push_cast
    rfl
  rw [hf, Int.emod_def]
  push_cast
  ring

/-- A window of 0.3 ± 0.01 in steps of 0.005 every ten turns. -/
example : (2 : ℝ) * 0.01 = (4 : ℕ) * 0.005 ∧ (0 : ℝ) < 0.005 ∧ (0 : ℝ) < 10 := by norm_num

/-- C219: then it stays within the window. -/
theorem ac_window (l : Lens) (tune multi : ℝ) {deltaTune tuneVar tps : ℝ} {n : ℕ} (hn : 2 * deltaTune = n * tuneVar)
    (h0 : 0 < tuneVar) (hd : deltaTune ≠ 0) (ht : 0 < tps) {t : ℤ} (htn : 0 ≤ t) {q : AC}
    (hq : (setAC l tune deltaTune tuneVar tps multi).ac = some q) :
    ∃ T, opTune q t = .ok T ∧ tune - deltaTune ≤ T ∧ T ≤ tune + deltaTune := by
  refine ⟨_, ac_sweep l tune multi hn h0 hd ht htn hq, ?_, ?_⟩
  · have : (0 : ℝ) ≤ ((⌊(t : ℝ) / tps⌋ % (n + 1) : ℤ) : ℝ) := by exact_mod_cast Int.emod_nonneg _ (by omega)
    nlinarith
  · have h1 : ⌊(t : ℝ) / tps⌋ % (n + 1) ≤ (n : ℤ) := by
      have := Int.emod_lt_of_pos ⌊(t : ℝ) / tps⌋ (show (0 : ℤ) < n + 1 by omega)
      omega
    have h2 : ((⌊(t : ℝ) / tps⌋ % (n + 1) : ℤ) : ℝ) ≤ n := by exact_mod_cast h1
    nlinarith

/-- C219 (violated): otherwise it leaves the window. -/
theorem ac_window_violated (l : Lens) : ∃ q, (setAC l 0.3 0.015 0.02 1 1).ac = some q ∧ ∃ T, opTune q 2 = .ok T ∧ 0.3 + 0.015 < T := by
  refine ⟨_, rfl, 0.325, ?_, by norm_num⟩
  unfold opTune
  rw [if_pos (by norm_num), if_neg (by norm_num)]
  congr 1
  have h1 : ⌊((2 : ℤ) : ℝ) / 1⌋ = 2 := by norm_num
  simp only [fmod]
  rw [h1]
  norm_num

example : Ready (setAC sample 0.3 0.01 0.005 10 1) 0.002 0.005 1 ∧ Centred (setAC sample 0.3 0.01 0.005 10 1) :=
  ⟨⟨rfl, rfl, by norm_num, by norm_num, by norm_num [sample, setAC, setRadii, setRmin, setRmax, mkLens],
    by norm_num [sample, setAC, setRadii, setRmin, setRmax, mkLens], one_ne_zero⟩, rfl, rfl⟩

/-! ## C220: what the lens leaves alone -/

/-- Only the slopes differ. -/
def SlopesOnly (v w : PS) : Prop := w.x = v.x ∧ w.y = v.y ∧ w.ct = v.ct ∧ w.dp = v.dp

theorem kickParticle_slopes {v w : PS} (h : kickParticle l pb v = .ok w) : SlopesOnly v w := by
  obtain ⟨t, -, h⟩ := bind_ok_iff.1 h
  cases h
  split <;> exact ⟨rfl, rfl, rfl, rfl⟩

theorem kickAC_slopes {q : AC} {v w : PS} (h : kickAC l q pb v = .ok w) : SlopesOnly v w := by
  obtain ⟨t, -, h⟩ := bind_ok_iff.1 h
  split at h
  · obtain ⟨f, -, h⟩ := bind_ok_iff.1 h
    cases h
    exact ⟨rfl, rfl, rfl, rfl⟩
  · cases h
    exact ⟨rfl, rfl, rfl, rfl⟩

theorem slopes_refl : ∀ ps : List PS, List.Forall₂ SlopesOnly ps ps
  | [] => .nil
  | _ :: ps => .cons ⟨rfl, rfl, rfl, rfl⟩ (slopes_refl ps)

/-- C220: in every mode the particles stay in their order, no particle is lost, and only slopes change; the lens counts
one turn. -/
theorem lens_keeps {rnd : ℝ} {ps : List PS} {r : Lens × List PS} (h : doProcess l pb rnd ps = .ok r) :
    r.1 = { l with turn := l.turn + 1 } ∧ List.Forall₂ SlopesOnly ps r.2 := by
  simp only [doProcess] at h
  obtain ⟨qs, hq, h⟩ := bind_ok_iff.1 h
  cases h
  refine ⟨rfl, ?_⟩
  simp only
  generalize ({ l with turn := l.turn + 1 } : Lens) = l' at hq
  unfold operate at hq
  split at hq
  · cases hq
  · exact each_rel (f := kickParticle l' pb) (r := SlopesOnly) (fun _ _ h => kickParticle_slopes h) ps qs hq
  · split at hq
    · exact each_rel (f := kickAC l' _ pb) (r := SlopesOnly) (fun _ _ h => kickAC_slopes h) ps qs hq
    · cases hq; exact slopes_refl ps
  · split at hq
    · exact each_rel (f := kickParticle l' pb) (r := SlopesOnly) (fun _ _ h => kickParticle_slopes h) ps qs hq
    · cases hq; exact slopes_refl ps
  · simp only at hq
    generalize (if l'.skip = 0 then (2 : Int) else l'.skip) = sk at hq
    split at hq
    · exact each_rel (f := kickParticle l' pb) (r := SlopesOnly) (fun _ _ h => kickParticle_slopes h) ps qs hq
    · cases hq; exact slopes_refl ps

/-- C220: particles within the inner radius are not touched. -/
theorem lens_hollow (h : Ready l a b pb) (hs : l.simple = true) {v : PS}
    (hv : √((v.x - l.xOff) ^ 2 + (v.y - l.yOff) ^ 2) ≤ a) : kickParticle l pb v = .ok v := by
  simp only [kickParticle, calcKick, hs, if_true, calcKickSimple, h.rmin, h.rmax]
  rw [if_pos hv]
  simp [Outcome.bind]

/-- C220 (violated): a lens made from a MAD table, or by the constructor alone, has no radii; tracking any particle
through it is undefined. -/
theorem unset_violated (v : PS) (ps : List PS) (rnd : ℝ) : doProcess ofMAD pb rnd (v :: ps) = .ub := by
  rfl

/-- C220 (violated): when the radii are set, the other members of the lens of a MAD table divide zero by zero. -/
theorem mad_violated (ha : 0 ≤ a) {v : PS} (hv : a < √(v.x ^ 2 + v.y ^ 2)) (hv2 : √(v.x ^ 2 + v.y ^ 2) ≥ b) (ps : List PS)
    (rnd : ℝ) : doProcess (setRadii ofMAD a b) pb rnd (v :: ps) = .ub := by
  have hR : √(v.x ^ 2 + v.y ^ 2) ≠ 0 := (ha.trans_lt hv).ne'
  have hk : kickParticle { setRadii ofMAD a b with turn := (setRadii ofMAD a b).turn + 1 } pb v = .ub := by
    simp only [kickParticle, calcKick, setRadii, setRmin, setRmax, ofMAD, mkLens, if_true, sub_zero, calcKickSimple]
    rw [if_neg (not_le.2 hv), if_neg (by intro h; linarith [h.1])]
    simp [calcThetaMax, hR, Outcome.bind]
  simp only [doProcess]
  rw [operate_dc rfl, each, hk]
  rfl

/-- C220: a mode number which is not one of the four leaves the lens without a mode. -/
theorem mode_violated {n : Int} (h : n < 0 ∨ 3 < n) (i be rig len rnd : ℝ) (ps : List PS) :
    doProcess (mkLens n i be rig len) pb rnd ps = .ub := by
  have h0 : n ≠ 0 := by omega
  have h1 : n ≠ 1 := by omega
  have h2 : n ≠ 2 := by omega
  have h3 : n ≠ 3 := by omega
  simp [doProcess, operate, mkLens, h0, h1, h2, h3, Outcome.bind]

example : ((0 : ℝ) ≤ 0.002) ∧ (0.002 : ℝ) < √((0.006 : ℝ) ^ 2 + 0 ^ 2) ∧ √((0.006 : ℝ) ^ 2 + 0 ^ 2) ≥ 0.005 := by
  rw [show (0.006 : ℝ) ^ 2 + 0 ^ 2 = 0.006 ^ 2 by norm_num, sqrt_sq (by norm_num)]
  norm_num

/-! ## C221: dividing the lens into steps -/

/-- C221 (violated): the kick does not depend on the length of the step; with `n` steps the lens acts `n` times, and counts
`n` turns. -/
theorem steps_violated (h : Ready l a b pb) (hp : Physical l pb) (hc : Centred l) (hs : l.simple = true)
    (ho : l.opposite = true) (hm : l.mode = some .dc) (hc0 : 0 < c) (r r' : ℝ) {v : PS} (hx : a < v.x) (hy : v.y = 0) :
    ∃ l1 l2 w1 w2, doProcess l pb r [v] = .ok (l1, [w1]) ∧ turns pb [r, r'] l [v] = .ok (l2, [w2]) ∧ w2.px < w1.px ∧
      w2.px - v.px = 2 * (w1.px - v.px) ∧ l2.turn = l1.turn + 1 := by
  have hx0 : 0 < v.x := h.pos.trans_lt hx
  have hR : √(v.x ^ 2 + v.y ^ 2) = v.x := by rw [hy]; simp [sqrt_sq hx0.le]
  have hn := evenly_neg h hp hc0 (show (-1 : ℝ) ≤ 1 by norm_num) hx
  have em : once l a b pb c = evenly l c a b pb 1 := by funext R; simp [once, made, hs, ho]
  have e2 := dc_turns h (fun h => by simp [hs] at h) hc hc0.ne' hm [r, r'] [v]
  rw [em] at e2
  refine ⟨_, _, _, _, lens_evenly h hc hs ho hm hc0.ne' r [v], e2, ?_, ?_, ?_⟩
  · simp only [bent, sub_zero, hR, div_self hx0.ne', List.length_cons, List.length_nil]
    push_cast
    linarith
  · simp only [bent, sub_zero, hR, div_self hx0.ne', List.length_cons, List.length_nil]
    push_cast
    ring
  · simp only [List.length_cons, List.length_nil]
    push_cast
    ring

example : Physical sample 1 ∧ (0.002 : ℝ) < 0.003 :=
  ⟨by constructor <;> norm_num [sample, setRadii, setRmin, setRmax, mkLens], by norm_num⟩

/-! ## C222: the table of the profile -/

theorem loop_rows {sigma step : ℝ} {K S : ℝ → ℝ} (hK : ∀ R, 0 ≤ R → calcKickRadial l pb R = .ok (K R))
    (hS : ∀ R, 0 ≤ R → calcKickSimple l pb R = .ok (S R)) (hs : 0 ≤ step * sigma) : ∀ (n : ℕ) {r : ℝ}, 0 ≤ r →
    profileLoop l pb sigma step n r = .ok ((List.range n).map fun i : ℕ =>
      let R := r + (i : ℝ) * (step * sigma)
      ⟨R / sigma, K R, S R, |K R|, |S R|⟩)
  | 0, _, _ => rfl
  | n + 1, r, hr => by
    rw [profileLoop, hK r hr, Outcome.bind, hS r hr, Outcome.bind, loop_rows hK hS hs n (add_nonneg hr hs), Outcome.bind,
      List.range_succ_eq_map, List.map_cons, List.map_map]
    simp only [Nat.cast_zero, zero_mul, add_zero, sqrt_sq_eq_abs]
    congr 2
    apply List.map_congr_left
    intro i _
    simp only [Function.comp, Nat.succ_eq_add_one]
    push_cast
    rw [show r + step * sigma + i * (step * sigma) = r + (i + 1) * (step * sigma) by ring]

/-- C222 (partial): the table has 999 lines with the kicks of both profiles, and their amounts, at equal distances in
units of sigma from zero on; the last is a thousandth of the range and more below its end. -/
theorem profile_partial {m cl p lo hi sigma : ℝ} (h : Ready l a b (protonBeta m cl p)) (ha : 0 < a) (hc0 : c ≠ 0)
    (hs : l.sigma = some sigma) (hs0 : 0 < sigma) (hlo : lo ≤ hi) : ∃ K S : ℝ → ℝ,
    (∀ R, 0 ≤ R → calcKickRadial l (protonBeta m cl p) R = .ok (K R)) ∧
    (∀ R, 0 ≤ R → calcKickSimple l (protonBeta m cl p) R = .ok (S R)) ∧
    outputProfile l m cl p lo hi = .ok ((List.range 999).map fun i : ℕ =>
      let r := (i : ℝ) * ((hi - lo) / 1000)
      ⟨r, K (r * sigma), S (r * sigma), |K (r * sigma)|, |S (r * sigma)|⟩) := by
  refine ⟨_, _, fun R hR => radial_ok h ha hc0 hR, fun R hR => simple_ok h hc0 hR, ?_⟩
  rw [outputProfile, hs]
  simp only
  rw [if_neg hs0.ne', loop_rows (fun R hR => radial_ok h ha hc0 hR) (fun R hR => simple_ok h hc0 hR)
    (mul_nonneg (div_nonneg (sub_nonneg.2 hlo) (by norm_num)) hs0.le) 999 le_rfl]
  refine congrArg Outcome.ok (List.map_congr_left fun i _ => ?_)
  simp only [zero_add]
  rw [show (i : ℝ) * ((hi - lo) / 1000 * sigma) = i * ((hi - lo) / 1000) * sigma by ring, mul_div_cancel_right₀ _ hs0.ne']

/-- C222 (violated): asked for the range from 4 to 8 sigma the table has no line within it. -/
theorem profile_violated {m cl p sigma : ℝ} (h : Ready l a b (protonBeta m cl p)) (ha : 0 < a)
    (hs : l.sigma = some sigma) (hs0 : 0 < sigma) : ∃ rows, outputProfile l m cl p 4 8 = .ok rows ∧
      ∀ r ∈ rows, r.r < 4 := by
  obtain ⟨K, S, -, -, e⟩ := profile_partial (lo := 4) (hi := 8) h ha one_ne_zero hs hs0 (by norm_num)
  refine ⟨_, e, fun r hr => ?_⟩
  obtain ⟨i, hi, rfl⟩ := List.mem_map.1 hr
  have : i < 999 := List.mem_range.1 hi
  have h2 : (i : ℝ) < 999 := by exact_mod_cast this
  simp only
  linarith

example : Ready { sample with sigma := some 0.0003 } 0.002 0.005 (protonBeta 1 1 1) := by
  refine ⟨rfl, rfl, by norm_num, by norm_num, by norm_num [sample, setRadii, setRmin, setRmax, mkLens],
    by norm_num [sample, setRadii, setRmin, setRmax, mkLens], ?_⟩
  rw [proton_velocity_partial (mul_one 1) one_pos zero_le_one]
  exact (div_pos one_pos (sqrt_pos.2 (by norm_num))).ne'

/-- C222 (violated): the width of the beam is not set by the constructor or any other function. -/
theorem profile_unset_violated (n : Int) (i be rig len m cl p lo hi : ℝ) :
    outputProfile (mkLens n i be rig len) m cl p lo hi = .ub := rfl

end Verif.HollowLens
