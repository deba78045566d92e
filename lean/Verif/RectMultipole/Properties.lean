import Verif.RectMultipole.Gradient
import Verif.Symplectic.Properties

/-!
# Properties of the rectangular multipoles
-/

namespace Verif.RectMultipole
open Verif Verif.Multipole Verif.Symplectic Verif.Symplectic.Spec Verif.RectMultipole.Spec Verif.TransportMaps
  Verif.TransportMaps.Spec Verif.Transport Real

noncomputable section

/-! ## C207: magnets without a gradient -/

theorem without_none {m : MField ℝ} {n : Nat} (h : m.terms.getD n 0 = 0) : SameField (without m n) m := by
  refine ⟨rfl, fun i => ?_⟩
  simp only [without, List.getD_eq_getElem?_getD, List.getElem?_set] at h ⊢
  by_cases e : n = i
  · subst e; simp only [if_true, h]; split <;> rfl
  · rw [if_neg e]

theorem getD_long {m : MField ℝ} {i : Nat} (h : m.terms.length ≤ i) : m.terms.getD i 0 = 0 := by
  rw [List.getD_eq_getElem?_getD, List.getElem?_eq_none h]; rfl

theorem normK_none {ec : ℝ} {m : MField ℝ} {b : Bunch} {n : Nat} (h : m.terms.getD n 0 = 0) : ¬ normK ec m b n ≠ 0 := by
  unfold normK
  rw [h, not_not]
  ext <;> simp [Cx.smul]

theorem field_off {m : MField ℝ} (h : m.b0 = 0) (v : PS) : fieldAt m v = 0 := by
  ext <;> simp [fieldAt, Multipole.Spec.ofReal, h]

theorem empty_field {m : MField ℝ} (h1 : m.terms.getD 1 0 = 0) (hs : ¬ Split m) (v : PS) : fieldAt m v = 0 := by
  unfold Split at hs
  push Not at hs
  refine field_empty (fun n => ?_) v
  match n with
  | 0 => exact hs.1
  | 1 => exact h1
  | n + 2 => exact getD_long (by omega)

/-- C207: a magnet without gradient in the first set: a straight line to the middle, the deflection by the field there
times the length of the step, a straight line to the end. -/
theorem thin_no_gradient {eps ec : ℝ} {c : Mag} {b : Bunch} (hp : b.p0 ≠ 0) (he : ec ≠ 0) (hb : eps < |c.field.b0|)
    (h1 : c.field.terms.getD 1 0 = 0) {ds : ℝ} (hs : ds ≠ 0) {v : PS} (hd : 1 + v.dp ≠ 0) :
    particle (thinStep eps ec c b ds v) = .ok (line (ds / 2) (bendSlopes (perField ec b)
      (Cx.smul ds (fieldAt c.field (line (ds / 2) v))) (line (ds / 2) v))) := by
  have hK := normK_none (ec := ec) (b := b) h1
  by_cases h : Split c.field
  · obtain ⟨m', -, hm⟩ := thin_split (eps := eps) hp he h hs v
    rw [hm, thinKick_same (without_none h1)]
    simp only [h1, true_or, if_true, thinHalf, hK, if_false]
    rw [thinKick_ok hp (show 1 + (line (ds / 2) v).dp ≠ 0 from hd) hb]
    rfl
  · rw [thin_plain hp he h hs, empty_field h1 h]
    simp only [thinHalf, hK, if_false, particle, Outcome.bind]
    rw [show Cx.smul ds (0 : Cx ℝ) = 0 by ext <;> simp [Cx.smul], bendSlopes_zero, line_add, add_halves]

/-- C207: a magnet without gradient and sextupole component in the second order set: as above, with the delay. -/
theorem tr_no_gradient {eps ec : ℝ} {c : Mag} {b : Bunch} (hp : b.p0 ≠ 0) (he : ec ≠ 0) (hb : eps < |c.field.b0|)
    (h1 : c.field.terms.getD 1 0 = 0) (h2 : c.field.terms.getD 2 0 = 0) {ds : ℝ} (hs : ds ≠ 0) {v : PS} (hd : 1 + v.dp ≠ 0) :
    particle (trStep eps ec c b ds v) = .ok (lineDelay (ds / 2) (bendSlopes (perField ec b)
      (Cx.smul ds (fieldAt c.field (lineDelay (ds / 2) v))) (lineDelay (ds / 2) v))) := by
  have hK1 := normK_none (ec := ec) (b := b) h1
  have hK2 := normK_none (ec := ec) (b := b) h2
  rw [tr_form hp he hs]
  simp only [hK1, hK2, if_false]
  by_cases h : TSplit ec c.field b
  · rw [if_pos h, kick_ok0 hp (show 1 + (lineDelay (ds / 2) v).dp ≠ 0 from hd) hb]
    rfl
  · rw [if_neg h]
    unfold TSplit at h
    push Not at h
    obtain ⟨g1, -, g3⟩ := h
    simp only [particle, Outcome.bind]
    have key : bendSlopes (perField ec b) (Cx.smul ds (fieldAt c.field (lineDelay (ds / 2) v))) (lineDelay (ds / 2) v) =
        lineDelay (ds / 2) v := by
      have sz : Cx.smul ds (0 : Cx ℝ) = 0 := by ext <;> simp [Cx.smul]
      by_cases hB : c.field.b0 = 0
      · rw [field_off hB, sz, bendSlopes_zero]
      by_cases g0 : c.field.terms.getD 0 0 = 0
      · rw [field_empty (fun n => match n with
          | 0 => g0
          | 1 => h1
          | 2 => h2
          | n + 3 => getD_long (by omega)), sz, bendSlopes_zero]
      · have hz : perField ec b = 0 := by
          have : ¬ normK ec c.field b 0 ≠ 0 := not_not.2 g1
          unfold normK at this
          rw [smul_ne] at this
          by_contra hz
          exact this ⟨by simp [factorial, factLoop, hz, hB], g0⟩
        ext <;> simp [bendSlopes, hz]
    rw [key, lineDelay_add, add_halves]

theorem drift_half (ds : ℝ) (v w : PS) : Straight ds v w ↔ ∃ u, Straight (ds / 2) v u ∧ Straight (ds / 2) u w := by
  constructor
  · rintro ⟨pz, τ, h1, h2, h3, rfl⟩
    refine ⟨⟨v.x + τ / 2 * v.px, v.px, v.y + τ / 2 * v.py, v.py, v.ct + (ds / 2 - τ / 2 * (1 + v.dp)), v.dp⟩,
      ⟨pz, τ / 2, h1, h2, by linarith, rfl⟩, pz, τ / 2, h1, h2, by linarith, ?_⟩
    ext <;> simp <;> ring
  · rintro ⟨u, ⟨pz, τ, h1, h2, h3, rfl⟩, qz, σ, g1, g2, g3, rfl⟩
    have e : pz = qz := by
      have : pz ^ 2 = qz ^ 2 := by simp only at g2; linarith
      exact (pow_left_inj₀ h1.le g1.le (by norm_num)).1 this
    subst e
    have : τ = σ := mul_right_cancel₀ h1.ne' (h3.trans g3.symm)
    subst this
    refine ⟨pz, 2 * τ, h1, h2, by linarith, ?_⟩
    ext <;> simp <;> ring

/-- C207: a magnet without gradient in the symplectic set: flight in a straight line to the middle, change of the
momenta by the field there times the length of the step, flight to the end. -/
theorem sy_no_gradient {eps ec : ℝ} {c : Mag} {b : Bunch} (hp : b.p0 ≠ 0) (he : ec ≠ 0) (hb : eps < |c.field.b0|)
    (h1 : c.field.terms.getD 1 0 = 0) {ds : ℝ} (hs : ds ≠ 0) (v w : PS) :
    particle (syStep eps ec c b ds v) = .ok w ↔ ∃ u, Straight (ds / 2) v u ∧
      Straight (ds / 2) (bendMomenta (perField ec b) (Cx.smul ds (fieldAt c.field u)) u) w := by
  have hK := normK_none (ec := ec) (b := b) h1
  obtain ⟨f, g, -, -, hf⟩ := sy_form (eps := eps) hp he hs v
  rw [hf]
  simp only [hK, if_false]
  by_cases h : Split c.field
  · rw [if_pos h]
    unfold particle
    simp only [bind_ok_iff]
    constructor
    · rintro ⟨r, ⟨u, hu, u', hk, w', hw, hr⟩, hrw⟩
      cases hr; cases hrw
      rw [syKick_same (without_none h1), syKick_ok0 hp hb] at hk
      cases hk
      exact ⟨u, (drift_straight _ _ _).1 hu, (drift_straight _ _ _).1 hw⟩
    · rintro ⟨u, hu, hw⟩
      refine ⟨_, ⟨u, (drift_straight _ _ _).2 hu, _, ?_, w, (drift_straight _ _ _).2 hw, rfl⟩, rfl⟩
      rw [syKick_same (without_none h1), syKick_ok0 hp hb]
  · rw [if_neg h]
    have sz : Cx.smul ds (0 : Cx ℝ) = 0 := by ext <;> simp [Cx.smul]
    have hz : ∀ u, bendMomenta (perField ec b) (Cx.smul ds (fieldAt c.field u)) u = u := fun u => by
      rw [empty_field h1 h, sz]; ext <;> simp [bendMomenta]
    simp only [hz]
    rw [← drift_half, ← drift_straight]
    unfold particle
    cases driftMap ds v <;> simp [Outcome.bind]

/-- A dipole corrector: the hypotheses hold. -/
example : particle (thinStep 0 1 ⟨1, ⟨1, [⟨2, 0⟩]⟩⟩ ⟨1, 1, 0⟩ 1 ⟨0, 0, 0, 0, 0, 0⟩) = .ok ⟨-1, -2, 0, 0, 0, 0⟩ := by
  rw [thin_no_gradient (by norm_num) (by norm_num) (by norm_num) rfl (by norm_num) (by norm_num)]
  simp [line, bendSlopes, fieldAt, perField, Cx.smul, Multipole.Spec.ofReal, Multipole.Spec.series, Multipole.Spec.coeff]

/-! ## C208: a pure gradient -/

/-- The orbit in a pure normal gradient. -/
def gradOrbit (K s : ℝ) (v : PS) : PS := if K = 0 then line s v else quadAct s K v

theorem gradOrbit_exact (K s : ℝ) {v : PS} (h : v.dp = 0) : gradOrbit K s v = quadExact s K v := by
  unfold gradOrbit
  split
  · rename_i h0; rw [h0, quadExact_line]
  · exact quadAct_exact s K h

theorem thin_orbit {eps ec : ℝ} {b : Bunch} (hp : b.p0 ≠ 0) (he : ec ≠ 0) (L B k : ℝ) (v : PS) :
    Orbit (thinStep eps ec ⟨L, ⟨B, [0, ⟨k, 0⟩]⟩⟩ b) v fun s => gradOrbit (perField ec b * B * k) s v := by
  refine ⟨?_, fun s => ?_⟩
  · unfold gradOrbit
    split
    · simp [line]
    · exact quadAct_zero _ v
  · obtain ⟨m, hm⟩ := thin_pure (eps := eps) hp he L B ⟨k, 0⟩ s v
    refine ⟨m, hm.trans (congrArg Outcome.ok (Prod.ext ?_ rfl))⟩
    have hsm : Cx.smul (perField ec b * B) (⟨k, 0⟩ : Cx ℝ) = ⟨perField ec b * B * k, 0⟩ := by ext <;> simp [Cx.smul]
    by_cases hs : s = 0
    · subst hs
      simp only [if_true, gradOrbit]
      split
      · simp [line]
      · exact (quadAct_zero _ v).symm
    · simp only [hs, if_false, hsm, gradOrbit]
      by_cases hk : perField ec b * B * k = 0
      · rw [if_pos hk, if_neg (by rw [hk]; exact not_not.2 rfl)]
      · have hn : (⟨perField ec b * B * k, 0⟩ : Cx ℝ) ≠ 0 := fun h => hk (congrArg Cx.re h)
        rw [if_neg hk, if_pos hn, quadMatrices_real rfl hs hn]

/-- C208: particles of the reference momentum in a magnet with a normal gradient alone, first set: oscillation in one
plane and divergence in the other. -/
theorem thin_gradient {eps ec : ℝ} {b : Bunch} (hp : b.p0 ≠ 0) (he : ec ≠ 0) (L B k : ℝ) {v : PS} (hd : v.dp = 0) :
    ∃ o, Orbit (thinStep eps ec ⟨L, ⟨B, [0, ⟨k, 0⟩]⟩⟩ b) v o ∧ InGradient ⟨perField ec b * B * k, 0⟩ o := by
  refine ⟨_, thin_orbit hp he L B k v, ?_⟩
  simp only [gradOrbit_exact _ _ hd]
  exact exact_motion _ v

theorem quad_chrom (l : ℝ) {K : ℝ} (hK : K ≠ 0) (v : PS) : ∃ u, Der (fun d => quadAct l K { v with dp := d }) u 0 ∧
    Der (fun d => quadExact l (K / (1 + d)) { v with dp := d }) u 0 := by
  have h := closed_chrom l K hK
  have h00 := h 0 0 (by omega) (by omega)
  have h01 := h 0 1 (by omega) (by omega)
  have h10 := h 1 0 (by omega) (by omega)
  have h11 := h 1 1 (by omega) (by omega)
  have h22 := h 2 2 (by omega) (by omega)
  have h23 := h 2 3 (by omega) (by omega)
  have h32 := h 3 2 (by omega) (by omega)
  have h33 := h 3 3 (by omega) (by omega)
  simp only [closed, chrom] at h00 h01 h10 h11 h22 h23 h32 h33
  refine ⟨⟨K * l * sK K l / 2 * v.x + (sK K l - l * cK K l) / 2 * v.px,
    K * (l * cK K l + sK K l) / 2 * v.x + K * l * sK K l / 2 * v.px,
    -K * l * sK (-K) l / 2 * v.y + (sK (-K) l - l * cK (-K) l) / 2 * v.py,
    -K * (l * cK (-K) l + sK (-K) l) / 2 * v.y + -K * l * sK (-K) l / 2 * v.py, 0, 1⟩, ?_, ?_⟩
  · simp only [quadAct]
    refine ⟨?_, ?_, ?_, ?_, ?_, ?_⟩ <;>
    · refine HasDerivAt.congr_deriv (by ader) ?_
      ring
  · simp only [quadExact]
    refine ⟨(h00.mul_const _).fun_add (h01.mul_const _), (h10.mul_const _).fun_add (h11.mul_const _),
      (h22.mul_const _).fun_add (h23.mul_const _), (h32.mul_const _).fun_add (h33.mul_const _),
      hasDerivAt_const _ _, hasDerivAt_id' _⟩

/-- C208 (partial: first order in the deviation): the dependence on the momentum is that of the gradient over the
momentum of the particle, to first order. -/
theorem thin_momentum_partial {eps ec : ℝ} {b : Bunch} (hp : b.p0 ≠ 0) (he : ec ≠ 0) (L : ℝ) {B k : ℝ}
    (hK : perField ec b * B * k ≠ 0) (v : PS) : ∃ o e : ℝ → ℝ → PS,
    (∀ d, Orbit (thinStep eps ec ⟨L, ⟨B, [0, ⟨k, 0⟩]⟩⟩ b) { v with dp := d } (o d)) ∧
    (∀ d, e d 0 = { v with dp := d } ∧ InGradient ⟨perField ec b * B * k / (1 + d), 0⟩ (e d)) ∧
    ∀ s, o 0 s = e 0 s ∧ ∃ u, Der (fun d => o d s) u 0 ∧ Der (fun d => e d s) u 0 := by
  refine ⟨fun d s => quadAct s (perField ec b * B * k) { v with dp := d },
    fun d s => quadExact s (perField ec b * B * k / (1 + d)) { v with dp := d }, fun d => ?_, fun d =>
      ⟨quadExact_zero _ _, exact_motion _ _⟩, fun s => ⟨?_, quad_chrom s hK v⟩⟩
  · have := thin_orbit (eps := eps) hp he L B k { v with dp := d }
    simpa only [gradOrbit, hK, if_false] using this
  · simp only [add_zero, div_one]
    exact quadAct_exact _ _ rfl

theorem orbit_of {F G : ℝ → PS → Outcome Unit (PS × MField ℝ)} (h : ∀ s v, particle (F s v) = particle (G s v)) {v : PS}
    {o : ℝ → PS} (ho : Orbit G v o) : Orbit F v o := by
  refine ⟨ho.1, fun s => ?_⟩
  obtain ⟨m, hm⟩ := ho.2 s
  have e := h s v
  rw [hm] at e
  obtain ⟨r, hr, hr'⟩ := bind_ok_iff.1 e
  have e1 : r.1 = o s := Outcome.ok.inj hr'
  exact ⟨r.2, by rw [hr, ← e1]⟩

theorem smul_real_ne {a k : ℝ} (h : a * k ≠ 0) : Cx.smul a (⟨k, 0⟩ : Cx ℝ) ≠ 0 := fun e => h (congrArg Cx.re e)

/-- C208: the same in the symplectic set. -/
theorem sy_gradient {eps ec : ℝ} {b : Bunch} (hp : b.p0 ≠ 0) (he : ec ≠ 0) {L B k : ℝ} (hL : L ≠ 0)
    (hK : perField ec b * B * k ≠ 0) {v : PS} (hd : v.dp = 0) :
    ∃ o, Orbit (syStep eps ec ⟨L, ⟨B, [0, ⟨k, 0⟩]⟩⟩ b) v o ∧ InGradient ⟨perField ec b * B * k, 0⟩ o := by
  obtain ⟨o, h1, h2⟩ := thin_gradient (eps := eps) hp he L B k hd
  exact ⟨o, orbit_of (fun s v => sy_pure hp he hL B (smul_real_ne hK) s v) h1, h2⟩

/-- C208 (partial: first order in the deviation): the same in the symplectic set. -/
theorem sy_momentum_partial {eps ec : ℝ} {b : Bunch} (hp : b.p0 ≠ 0) (he : ec ≠ 0) {L B k : ℝ} (hL : L ≠ 0)
    (hK : perField ec b * B * k ≠ 0) (v : PS) : ∃ o e : ℝ → ℝ → PS,
    (∀ d, Orbit (syStep eps ec ⟨L, ⟨B, [0, ⟨k, 0⟩]⟩⟩ b) { v with dp := d } (o d)) ∧
    (∀ d, e d 0 = { v with dp := d } ∧ InGradient ⟨perField ec b * B * k / (1 + d), 0⟩ (e d)) ∧
    ∀ s, o 0 s = e 0 s ∧ ∃ u, Der (fun d => o d s) u 0 ∧ Der (fun d => e d s) u 0 := by
  obtain ⟨o, e, h1, h2⟩ := thin_momentum_partial (eps := eps) hp he L hK v
  exact ⟨o, e, fun d => orbit_of (fun s v => sy_pure hp he hL B (smul_real_ne hK) s v) (h1 d), h2⟩

/-- C208: what the steps of the symplectic set do to areas in the horizontal plane of particles of one momentum. -/
theorem sy_area {eps ec : ℝ} {b : Bunch} (hp : b.p0 ≠ 0) (he : ec ≠ 0) {L B k : ℝ} (hL : L ≠ 0)
    (hK : perField ec b * B * k ≠ 0) (s : ℝ) (v w : PS) (hd : v.dp = w.dp) :
    ∃ v' w', particle (syStep eps ec ⟨L, ⟨B, [0, ⟨k, 0⟩]⟩⟩ b s v) = .ok v' ∧
      particle (syStep eps ec ⟨L, ⟨B, [0, ⟨k, 0⟩]⟩⟩ b s w) = .ok w' ∧
      v'.x * w'.px - v'.px * w'.x = (1 + v.dp ^ 2 * (perField ec b * B * k) *
        (s ^ 2 - sK (perField ec b * B * k) s ^ 2) / 4) * (v.x * w.px - v.px * w.x) := by
  have ho : ∀ v, particle (syStep eps ec ⟨L, ⟨B, [0, ⟨k, 0⟩]⟩⟩ b s v) = .ok (quadAct s (perField ec b * B * k) v) := by
    intro v
    rw [sy_pure hp he hL B (smul_real_ne hK) s v]
    obtain ⟨m, hm⟩ := (thin_orbit (eps := eps) hp he L B k v).2 s
    rw [hm]
    simp only [particle, Outcome.bind, gradOrbit, hK, if_false]
  refine ⟨_, _, ho v, ho w, ?_⟩
  have h := cK_sq (perField ec b * B * k) s
  generalize perField ec b * B * k = K at *
  simp only [quadAct, ← hd]
  generalize cK K s = C at *
  generalize sK K s = S at *
  linear_combination (v.x * w.px - v.px * w.x) * (1 + v.dp ^ 2 * K * s ^ 2 / 4) * h

theorem sK_lt {K s : ℝ} (hK : 0 < K) (hs : 0 < s) : sK K s ^ 2 < s ^ 2 := by
  obtain ⟨h1, h2⟩ := sqrt_facts hK
  have hp : 0 < √K * s := mul_pos h1 hs
  have := abs_sin_lt_abs hp.ne'
  unfold sK
  rw [if_neg hK.ne', if_pos hK, div_pow, div_lt_iff₀ (by positivity), ← sq_abs (sin _)]
  rw [abs_of_pos hp] at this
  calc |sin (√K * s)| ^ 2 < (√K * s) ^ 2 := by gcongr
    _ = s ^ 2 * √K ^ 2 := by ring

/-- C208 (violated): in the symplectic set a focussing quadrupole enlarges the areas in phase space of particles off
momentum. -/
theorem sy_area_violated {eps ec : ℝ} {b : Bunch} (hp : b.p0 ≠ 0) (he : ec ≠ 0) {L B k s : ℝ} (hL : L ≠ 0)
    (hK : 0 < perField ec b * B * k) (hs : 0 < s) (v w : PS) (hd : v.dp = w.dp) (h0 : v.dp ≠ 0)
    (ha : 0 < v.x * w.px - v.px * w.x) :
    ∃ v' w', particle (syStep eps ec ⟨L, ⟨B, [0, ⟨k, 0⟩]⟩⟩ b s v) = .ok v' ∧
      particle (syStep eps ec ⟨L, ⟨B, [0, ⟨k, 0⟩]⟩⟩ b s w) = .ok w' ∧
      v.x * w.px - v.px * w.x < v'.x * w'.px - v'.px * w'.x := by
  obtain ⟨v', w', e1, e2, e3⟩ := sy_area (eps := eps) hp he hL hK.ne' s v w hd
  refine ⟨v', w', e1, e2, ?_⟩
  rw [e3]
  have := sK_lt hK hs
  have h2 : 0 < v.dp ^ 2 := by positivity
  have h3 : 0 < v.dp ^ 2 * (perField ec b * B * k) * (s ^ 2 - sK (perField ec b * B * k) s ^ 2) / 4 := by
    have : 0 < s ^ 2 - sK (perField ec b * B * k) s ^ 2 := by linarith
    positivity
  nlinarith

/-- The hypotheses hold for a pair of particles one per mille off momentum. -/
example : 0 < perField 1 ⟨1, 1, 0⟩ * 1 * 1 ∧ (0 : ℝ) < 1 * 1 - 0 * 0 := by norm_num [perField]

theorem tr_pure {eps ec : ℝ} {b : Bunch} (hp : b.p0 ≠ 0) (he : ec ≠ 0) (L B : ℝ) {k : Cx ℝ}
    (hK : Cx.smul (perField ec b * B) k ≠ 0) {s : ℝ} (hs : s ≠ 0) (v : PS) :
    trStep eps ec ⟨L, ⟨B, [0, k]⟩⟩ b s v = (quadrupoleTM s (strength (Cx.smul (perField ec b * B) k) 1).1).bind fun M =>
      trBody eps ec ⟨B, [0, k]⟩ 1 M (strength (Cx.smul (perField ec b * B) k) 1).2 false s b v := by
  rw [tr_form hp he hs]
  have hS : ¬ TSplit ec ⟨B, [0, k]⟩ b := by
    unfold TSplit
    rw [not_or]
    exact ⟨normK_none rfl, by simp⟩
  simp only [pure_normK, hK, ne_eq, not_false_eq_true, if_true, hS, if_false, decide_false]

theorem tr_pure2 {eps ec : ℝ} {b : Bunch} (hp : b.p0 ≠ 0) (he : ec ≠ 0) (L B : ℝ) {k : Cx ℝ}
    (hK : Cx.smul (perField ec b * B * 2) k ≠ 0) {s : ℝ} (hs : s ≠ 0) (v : PS) :
    trStep eps ec ⟨L, ⟨B, [0, 0, k]⟩⟩ b s v =
      trBody eps ec ⟨B, [0, 0, k]⟩ 2 (sextupoleTM s (strength (Cx.smul (perField ec b * B * 2) k) 2).1)
        (strength (Cx.smul (perField ec b * B * 2) k) 2).2 false s b v := by
  rw [tr_form hp he hs]
  have hS : ¬ TSplit ec ⟨B, [0, 0, k]⟩ b := by
    unfold TSplit
    rw [not_or, not_or]
    exact ⟨normK_none rfl, fun h => normK_none rfl h.1, by simp⟩
  have h2 : normK ec ⟨B, [0, 0, k]⟩ b 2 = Cx.smul (perField ec b * B * 2) k := by
    simp [normK, factorial, factLoop]
  have h1 : ¬ normK ec ⟨B, [0, 0, k]⟩ b 1 ≠ 0 := normK_none rfl
  simp only [h1, if_false, h2, hK, ne_eq, not_false_eq_true, if_true, hS, decide_false]

theorem tr_still {eps ec : ℝ} {c : Mag} (h : c.len ≠ 0) (b : Bunch) (v : PS) :
    particle (trStep eps ec c b 0 v) = .ok v := by
  rw [trStep, if_neg (by tauto), if_pos rfl]; rfl

/-- C208: a magnet with a normal gradient alone in the second order set follows the Lorentz equations. -/
theorem tr_gradient {eps ec : ℝ} (h0 : 0 ≤ eps) {b : Bunch} (hp : b.p0 ≠ 0) (he : ec ≠ 0) {L B k : ℝ} (hL : L ≠ 0)
    (hK : perField ec b * B * k ≠ 0) (z : PS) :
    Follows (lorentz 0 (bxField (perField ec b * B * k) 0) (byField 0 (perField ec b * B * k) 0))
      (fun s v => particle (trStep eps ec ⟨L, ⟨B, [0, ⟨k, 0⟩]⟩⟩ b s v)) z := by
  refine follows_congr (quad_follows _ hK z) (fun v => tr_still hL b v) fun s v hs => ?_
  rw [tr_pure hp he L B (smul_real_ne hK) hs]
  have hst : strength (Cx.smul (perField ec b * B) (⟨k, 0⟩ : Cx ℝ)) 1 = (perField ec b * B * k, 0) := by
    simp [strength, Cx.smul]
  rw [hst, quad_closed _ _ hK]
  simp only [Outcome.bind, trBody_plain h0, particle]
  cases applyMap (quadClosed s (perField ec b * B * k)) v <;> rfl

/-- C208: a magnet with a normal sextupole component alone in the second order set follows the Lorentz equations. -/
theorem tr_sextupole {eps ec : ℝ} (h0 : 0 ≤ eps) {b : Bunch} (hp : b.p0 ≠ 0) (he : ec ≠ 0) {L B k : ℝ} (hL : L ≠ 0)
    (hK : perField ec b * B * k ≠ 0) (z : PS) :
    Follows (lorentz 0 (bxField 0 (perField ec b * B * k)) (byField 0 0 (perField ec b * B * k)))
      (fun s v => particle (trStep eps ec ⟨L, ⟨B, [0, 0, ⟨k, 0⟩]⟩⟩ b s v)) z := by
  have hf := sext_follows (2 * (perField ec b * B * k)) z
  rw [show 2 * (perField ec b * B * k) / 2 = perField ec b * B * k by ring] at hf
  refine follows_congr hf (fun v => tr_still hL b v) fun s v hs => ?_
  have hK2 : perField ec b * B * 2 * k ≠ 0 := by
    rw [show perField ec b * B * 2 * k = 2 * (perField ec b * B * k) by ring]
    exact mul_ne_zero two_ne_zero hK
  rw [tr_pure2 hp he L B (smul_real_ne hK2) hs]
  have hst : strength (Cx.smul (perField ec b * B * 2) (⟨k, 0⟩ : Cx ℝ)) 2 = (2 * (perField ec b * B * k), 0) := by
    simp [strength, Cx.smul]; ring
  rw [hst]
  simp only [trBody_plain h0, particle]
  cases applyMap (sextupoleTM s (2 * (perField ec b * B * k))) v <;> rfl

/-- The hypotheses hold for a quadrupole. -/
example : (0 : ℝ) ≤ 2 ^ (-52 : ℤ) ∧ perField 3 ⟨6, 1, 0⟩ * 2 * 1 = 1 := by norm_num [perField]

/-! ## C209: skew magnets -/

theorem skew_orbit {eps ec : ℝ} {b : Bunch} (hp : b.p0 ≠ 0) (he : ec ≠ 0) (L B : ℝ) {k : Cx ℝ}
    (hi : (Cx.smul (perField ec b * B) k).im ≠ 0) (ha : Transport.eps < |half (Cx.smul (perField ec b * B) k)|) (v : PS) :
    Orbit (thinStep eps ec ⟨L, ⟨B, [0, k]⟩⟩ b) v fun s => turn (half (Cx.smul (perField ec b * B) k))
      (quadAct s ‖toC (Cx.smul (perField ec b * B) k)‖ (turn (-half (Cx.smul (perField ec b * B) k)) v)) := by
  have hk : Cx.smul (perField ec b * B) k ≠ 0 := fun h => hi (by rw [h]; rfl)
  refine ⟨by simp only [quadAct_zero, turn_turn, add_neg_cancel, turn_zero], fun s => ?_⟩
  obtain ⟨m, hm⟩ := thin_pure (eps := eps) hp he L B k s v
  refine ⟨m, hm.trans (congrArg Outcome.ok (Prod.ext ?_ rfl))⟩
  by_cases hs : s = 0
  · subst hs
    simp only [if_true, quadAct_zero, turn_turn, add_neg_cancel, turn_zero]
  · simp only [hs, if_false, hk, ne_eq, not_false_eq_true, if_true, quadMatrices_skew hi ha hs]

/-- C209: a thick magnet with a gradient that has a skew component acts, in the first set, as the magnet with the
opposite skew component: the turn into its axes is made the wrong way. -/
theorem thin_skew {eps ec : ℝ} {b : Bunch} (hp : b.p0 ≠ 0) (he : ec ≠ 0) (L B : ℝ) {k : Cx ℝ}
    (hi : (Cx.smul (perField ec b * B) k).im ≠ 0) (ha : Transport.eps < |half (Cx.smul (perField ec b * B) k)|) {v : PS}
    (hd : v.dp = 0) : ∃ o, Orbit (thinStep eps ec ⟨L, ⟨B, [0, k]⟩⟩ b) v o ∧
      InGradient (conj (Cx.smul (perField ec b * B) k)) o := by
  refine ⟨_, skew_orbit hp he L B hi ha v, ?_⟩
  generalize Cx.smul (perField ec b * B) k = K at *
  have h := turned_motion (t := half K) (exact_motion ‖toC K‖ (turn (-half K) v))
  have e2 : 2 * half K = Complex.arg (toC K) := by unfold half; ring
  rw [e2, norm_cos_arg, norm_sin_arg] at h
  have hd' : (turn (-half K) v).dp = 0 := hd
  simp only [quadAct_exact _ _ hd']
  exact h

theorem gradient_unique {k k' : Cx ℝ} {o : ℝ → PS} (h : InGradient k o) (h' : InGradient k' o) (s : ℝ) :
    k.re * (o s).x - k.im * (o s).y = k'.re * (o s).x - k'.im * (o s).y ∧
      k.re * (o s).y + k.im * (o s).x = k'.re * (o s).y + k'.im * (o s).x :=
  ⟨neg_injective ((h s).2.1.unique (h' s).2.1), (h s).2.2.2.1.unique (h' s).2.2.2.1⟩

theorem orbit_unique {F : ℝ → PS → Outcome Unit (PS × MField ℝ)} {v : PS} {o o' : ℝ → PS} (h : Orbit F v o)
    (h' : Orbit F v o') : o = o' := by
  funext s
  obtain ⟨m, hm⟩ := h.2 s
  obtain ⟨m', hm'⟩ := h'.2 s
  exact congrArg Prod.fst (Outcome.ok.inj (hm.symm.trans hm'))

theorem conj_differs {k : Cx ℝ} (hi : k.im ≠ 0) {o : ℝ → PS} (h : InGradient k o) (h' : InGradient (conj k) o) :
    (o 0).x = 0 ∧ (o 0).y = 0 := by
  obtain ⟨h1, h2⟩ := gradient_unique h h' 0
  simp only [conj] at h1 h2
  exact ⟨by
    have : k.im * (o 0).x = 0 := by linarith
    exact (mul_eq_zero.1 this).resolve_left hi, by
    have : k.im * (o 0).y = 0 := by linarith
    exact (mul_eq_zero.1 this).resolve_left hi⟩

/-- C209 (violated): no particle off the axis follows the gradient of a skew magnet in the first set. -/
theorem thin_skew_violated {eps ec : ℝ} {b : Bunch} (hp : b.p0 ≠ 0) (he : ec ≠ 0) (L B : ℝ) {k : Cx ℝ}
    (hi : (Cx.smul (perField ec b * B) k).im ≠ 0) (ha : Transport.eps < |half (Cx.smul (perField ec b * B) k)|) {v : PS}
    (hd : v.dp = 0) (hv : v.x ≠ 0 ∨ v.y ≠ 0) : ¬ ∃ o, Orbit (thinStep eps ec ⟨L, ⟨B, [0, k]⟩⟩ b) v o ∧
      InGradient (Cx.smul (perField ec b * B) k) o := by
  rintro ⟨o, h1, h2⟩
  obtain ⟨o', h1', h2'⟩ := thin_skew (eps := eps) hp he L B hi ha hd
  rw [orbit_unique h1' h1] at h2'
  have := conj_differs hi h2 h2'
  rw [h1.1] at this
  tauto

/-- C209: the same turn of a thick skew magnet in the symplectic set. -/
theorem sy_skew {eps ec : ℝ} {b : Bunch} (hp : b.p0 ≠ 0) (he : ec ≠ 0) {L : ℝ} (hL : L ≠ 0) (B : ℝ) {k : Cx ℝ}
    (hi : (Cx.smul (perField ec b * B) k).im ≠ 0) (ha : Transport.eps < |half (Cx.smul (perField ec b * B) k)|) {v : PS}
    (hd : v.dp = 0) : ∃ o, Orbit (syStep eps ec ⟨L, ⟨B, [0, k]⟩⟩ b) v o ∧
      InGradient (conj (Cx.smul (perField ec b * B) k)) o := by
  have hk : Cx.smul (perField ec b * B) k ≠ 0 := fun h => hi (by rw [h]; rfl)
  obtain ⟨o, h1, h2⟩ := thin_skew (eps := eps) hp he L B hi ha hd
  exact ⟨o, orbit_of (fun s v => sy_pure hp he hL B hk s v) h1, h2⟩

/-- C209 (violated): no particle off the axis follows the gradient of a skew magnet in the symplectic set. -/
theorem sy_skew_violated {eps ec : ℝ} {b : Bunch} (hp : b.p0 ≠ 0) (he : ec ≠ 0) {L : ℝ} (hL : L ≠ 0) (B : ℝ) {k : Cx ℝ}
    (hi : (Cx.smul (perField ec b * B) k).im ≠ 0) (ha : Transport.eps < |half (Cx.smul (perField ec b * B) k)|) {v : PS}
    (hd : v.dp = 0) (hv : v.x ≠ 0 ∨ v.y ≠ 0) : ¬ ∃ o, Orbit (syStep eps ec ⟨L, ⟨B, [0, k]⟩⟩ b) v o ∧
      InGradient (Cx.smul (perField ec b * B) k) o := by
  rintro ⟨o, h1, h2⟩
  obtain ⟨o', h1', h2'⟩ := sy_skew (eps := eps) hp he hL B hi ha hd
  rw [orbit_unique h1' h1] at h2'
  have := conj_differs hi h2 h2'
  rw [h1.1] at this
  tauto

/-- A skew quadrupole of strength one meets the hypotheses: its half angle is an eighth of a turn. -/
example : half ⟨0, 1⟩ = π / 4 ∧ Transport.eps < |half ⟨0, 1⟩| := by
  have h : half ⟨0, 1⟩ = π / 4 := by
    have : toC ⟨0, 1⟩ = Complex.I := rfl
    rw [half, this, Complex.arg_I]; ring
  refine ⟨h, ?_⟩
  rw [h, abs_of_pos (by positivity)]
  have := two_le_pi
  unfold Transport.eps
  norm_num
  linarith

/-- C209 (violated): a skew component so small that the angle is below the tolerance leaves the matrices zero: all
particles are put on the axis. -/
theorem thin_small_skew_violated {eps ec : ℝ} {b : Bunch} (hp : b.p0 ≠ 0) (he : ec ≠ 0) (L B : ℝ) {k : Cx ℝ}
    (hi : (Cx.smul (perField ec b * B) k).im ≠ 0) (ha : |half (Cx.smul (perField ec b * B) k)| ≤ Transport.eps) {s : ℝ}
    (hs : s ≠ 0) (v : PS) : particle (thinStep eps ec ⟨L, ⟨B, [0, k]⟩⟩ b s v) = .ok ⟨0, 0, 0, 0, v.ct, v.dp⟩ := by
  have hk : Cx.smul (perField ec b * B) k ≠ 0 := fun h => hi (by rw [h]; rfl)
  obtain ⟨m, hm⟩ := thin_pure (eps := eps) hp he L B k s v
  rw [hm]
  simp only [particle, Outcome.bind, hs, if_false, hk, ne_eq, not_false_eq_true, if_true, quadMatrices_tiny hi ha]

/-- C209 (violated): the same in the symplectic set. -/
theorem sy_small_skew_violated {eps ec : ℝ} {b : Bunch} (hp : b.p0 ≠ 0) (he : ec ≠ 0) {L : ℝ} (hL : L ≠ 0) (B : ℝ) {k : Cx ℝ}
    (hi : (Cx.smul (perField ec b * B) k).im ≠ 0) (ha : |half (Cx.smul (perField ec b * B) k)| ≤ Transport.eps) {s : ℝ}
    (hs : s ≠ 0) (v : PS) : particle (syStep eps ec ⟨L, ⟨B, [0, k]⟩⟩ b s v) = .ok ⟨0, 0, 0, 0, v.ct, v.dp⟩ := by
  have hk : Cx.smul (perField ec b * B) k ≠ 0 := fun h => hi (by rw [h]; rfl)
  rw [sy_pure hp he hL B hk s v, thin_small_skew_violated hp he L B hi ha hs v]

theorem toC_angle (t : ℝ) : toC ⟨cos t, sin t⟩ = Complex.cos (t : ℂ) + Complex.sin (t : ℂ) * Complex.I := by
  rw [← Complex.ofReal_cos, ← Complex.ofReal_sin]
  apply Complex.ext <;> simp only [toC, Complex.add_re, Complex.add_im, Complex.ofReal_re, Complex.ofReal_im,
    Complex.mul_re, Complex.mul_im, Complex.I_re, Complex.I_im] <;> ring

/-- A gradient turned by 1e-17 meets the hypotheses. -/
example : (⟨cos 1e-17, sin 1e-17⟩ : Cx ℝ).im ≠ 0 ∧ |half ⟨cos 1e-17, sin 1e-17⟩| ≤ Transport.eps := by
  have h3 := two_le_pi
  refine ⟨(sin_pos_of_pos_of_lt_pi (by norm_num) (by norm_num; linarith)).ne', ?_⟩
  rw [half, toC_angle, Complex.arg_cos_add_sin_mul_I ⟨by norm_num; linarith, by norm_num; linarith⟩]
  unfold Transport.eps
  norm_num [abs_of_pos]

theorem skew_lorentz (K : Cx ℝ) (v : PS) :
    turn (half K) (lorentz 0 (bxField ‖toC K‖ 0) (byField 0 ‖toC K‖ 0) (turn (-half K) v)) =
      lorentz 0 (gradBx (conj K)) (gradBy (conj K)) v := by
  rw [lorentz_turn]
  have e2 : Complex.arg (toC K) = 2 * half K := by unfold half; ring
  have h1 := norm_cos_arg K
  have h2 := norm_sin_arg K
  rw [e2, cos_two_mul] at h1
  rw [e2, sin_two_mul] at h2
  have h3 := sin_sq_add_cos_sq (half K)
  congr 1 <;> funext x y <;> simp only [bxField, byField, gradBx, gradBy, conj] <;> grind

/-- C209: a thick magnet with a gradient that has a skew component acts, in the second order set, as the magnet with
the opposite skew component. -/
theorem tr_skew {eps ec : ℝ} {b : Bunch} (hp : b.p0 ≠ 0) (he : ec ≠ 0) {L : ℝ} (hL : L ≠ 0) (B : ℝ) {k : Cx ℝ}
    (hi : (Cx.smul (perField ec b * B) k).im ≠ 0) (ha : eps < |half (Cx.smul (perField ec b * B) k)|) (z : PS) :
    Follows (lorentz 0 (gradBx (conj (Cx.smul (perField ec b * B) k))) (gradBy (conj (Cx.smul (perField ec b * B) k))))
      (fun s v => particle (trStep eps ec ⟨L, ⟨B, [0, k]⟩⟩ b s v)) z := by
  have hk : Cx.smul (perField ec b * B) k ≠ 0 := fun h => hi (by rw [h]; rfl)
  have hn : ‖toC (Cx.smul (perField ec b * B) k)‖ ≠ 0 := (toC_ne _).2 hk
  have hst : strength (Cx.smul (perField ec b * B) k) 1 =
      (‖toC (Cx.smul (perField ec b * B) k)‖, half (Cx.smul (perField ec b * B) k)) := by
    unfold strength half
    rw [if_neg hi]
    norm_num
  have hV := follows_turn (half (Cx.smul (perField ec b * B) k)) (quad_follows _ hn (turn (-half (Cx.smul (perField ec b * B) k)) z))
  simp only [skew_lorentz] at hV
  refine follows_congr hV (fun v => tr_still hL b v) fun s v hs => ?_
  rw [tr_pure hp he L B hk hs, hst, quad_closed _ _ hn]
  simp only [Outcome.bind, trBody_turned ha, particle]
  cases applyMap (quadClosed s ‖toC (Cx.smul (perField ec b * B) k)‖) (turn (-half (Cx.smul (perField ec b * B) k)) v) <;> rfl

theorem follows_unique {V V' : PS → PS} {F : ℝ → PS → Outcome Unit PS} {z : PS} (h : Follows V F z) (h' : Follows V' F z) :
    Third (fun e => (V (scale e z)).px - (V' (scale e z)).px) ∧ Third (fun e => (V (scale e z)).py - (V' (scale e z)).py) := by
  obtain ⟨M, h1, h2, h3⟩ := h
  obtain ⟨M', h1', h2', h3'⟩ := h'
  have hM : M = M' := by
    funext s e
    exact Outcome.ok.inj ((h1 s e).symm.trans (h1' s e))
  subst hM
  obtain ⟨W, g1, -, g2, -, g3, -⟩ := h3 0
  obtain ⟨W', g1', -, g2', -, g3', -⟩ := h3' 0
  have e1 : ∀ e, (W e).px = (W' e).px := fun e => (g1 e).2.1.unique (g1' e).2.1
  have e2 : ∀ e, (W e).py = (W' e).py := fun e => (g1 e).2.2.2.1.unique (g1' e).2.2.2.1
  exact ⟨third_of_eq (g2'.sub g2) fun e => by simp only [h2, e1]; ring,
    third_of_eq (g3'.sub g3) fun e => by simp only [h2, e2]; ring⟩

theorem third_linear {c : ℝ} (h : Third fun e => c * e) : c = 0 :=
  (third_zero h ((jet_quad c 0).congr rfl rfl rfl |> fun j => by simpa using j)).1

/-- C209 (violated): no particle off the axis follows the Lorentz equations in a skew magnet in the second order set. -/
theorem tr_skew_violated {eps ec : ℝ} {b : Bunch} (hp : b.p0 ≠ 0) (he : ec ≠ 0) {L : ℝ} (hL : L ≠ 0) (B : ℝ) {k : Cx ℝ}
    (hi : (Cx.smul (perField ec b * B) k).im ≠ 0) (ha : eps < |half (Cx.smul (perField ec b * B) k)|) {x y : ℝ}
    (hv : x ≠ 0 ∨ y ≠ 0) :
    ¬ Follows (lorentz 0 (gradBx (Cx.smul (perField ec b * B) k)) (gradBy (Cx.smul (perField ec b * B) k)))
      (fun s v => particle (trStep eps ec ⟨L, ⟨B, [0, k]⟩⟩ b s v)) ⟨x, 0, y, 0, 0, 0⟩ := by
  intro h
  obtain ⟨t1, t2⟩ := follows_unique h (tr_skew (eps := eps) hp he hL B hi ha ⟨x, 0, y, 0, 0, 0⟩)
  generalize Cx.smul (perField ec b * B) k = K at *
  simp only [lorentz, scale, gradBx, gradBy, conj, mul_zero] at t1 t2
  norm_num at t1 t2
  have a1 : Third fun e => (2 * K.im * y) * e := third_of_eq t1 fun e => by ring
  have a2 : Third fun e => (2 * K.im * x) * e := third_of_eq t2 fun e => by ring
  have b1 := third_linear a1
  have b2 := third_linear a2
  simp [hi] at b1 b2
  tauto

theorem skew_sext_lorentz (K : Cx ℝ) (v : PS) :
    turn (Complex.arg (toC K) / 3) (lorentz 0 (bxField 0 ‖toC K‖) (byField 0 0 ‖toC K‖) (turn (-(Complex.arg (toC K) / 3)) v)) =
      lorentz 0 (sextBx (conj K)) (sextBy (conj K)) v := by
  rw [lorentz_turn]
  have h1 := norm_cos_arg K
  have h2 := norm_sin_arg K
  have e2 : Complex.arg (toC K) = 3 * (Complex.arg (toC K) / 3) := by ring
  generalize Complex.arg (toC K) / 3 = t at *
  rw [e2, cos_three_mul] at h1
  rw [e2, sin_three_mul] at h2
  have h3 := sin_sq_add_cos_sq t
  congr 1 <;> funext x y <;> simp only [bxField, byField, sextBx, sextBy, conj] <;> grind

theorem arg_smul_two (k : Cx ℝ) (a : ℝ) : Complex.arg (toC (Cx.smul (a * 2) k)) = Complex.arg (toC (Cx.smul a k)) ∧
    ‖toC (Cx.smul (a * 2) k)‖ = 2 * ‖toC (Cx.smul a k)‖ := by
  have e : toC (Cx.smul (a * 2) k) = ((2 : ℝ) : ℂ) * toC (Cx.smul a k) := by
    apply Complex.ext <;> simp [toC, Cx.smul] <;> ring
  rw [e]
  exact ⟨Complex.arg_real_mul _ two_pos, by simp⟩

/-- C209: a thick magnet with a sextupole that has a skew component acts, in the second order set, as the magnet with
the opposite skew component. -/
theorem tr_skew_sextupole {eps ec : ℝ} {b : Bunch} (hp : b.p0 ≠ 0) (he : ec ≠ 0) {L : ℝ} (hL : L ≠ 0) (B : ℝ) {k : Cx ℝ}
    (hi : (Cx.smul (perField ec b * B) k).im ≠ 0) (ha : eps < |Complex.arg (toC (Cx.smul (perField ec b * B) k)) / 3|) (z : PS) :
    Follows (lorentz 0 (sextBx (conj (Cx.smul (perField ec b * B) k))) (sextBy (conj (Cx.smul (perField ec b * B) k))))
      (fun s v => particle (trStep eps ec ⟨L, ⟨B, [0, 0, k]⟩⟩ b s v)) z := by
  obtain ⟨e1, e2⟩ := arg_smul_two k (perField ec b * B)
  have hi2 : (Cx.smul (perField ec b * B * 2) k).im ≠ 0 := by
    simp only [Cx.smul] at hi ⊢
    rw [mul_right_comm]
    exact mul_ne_zero hi two_ne_zero
  have hk : Cx.smul (perField ec b * B * 2) k ≠ 0 := fun h => hi2 (by rw [h]; rfl)
  have hst : strength (Cx.smul (perField ec b * B * 2) k) 2 =
      (2 * ‖toC (Cx.smul (perField ec b * B) k)‖, Complex.arg (toC (Cx.smul (perField ec b * B) k)) / 3) := by
    unfold strength
    rw [if_neg hi2, e1, e2]
    norm_num
  have hV := follows_turn (Complex.arg (toC (Cx.smul (perField ec b * B) k)) / 3)
    (sext_follows (2 * ‖toC (Cx.smul (perField ec b * B) k)‖) (turn (-(Complex.arg (toC (Cx.smul (perField ec b * B) k)) / 3)) z))
  rw [mul_div_cancel_left₀ _ (two_ne_zero' ℝ)] at hV
  simp only [skew_sext_lorentz] at hV
  refine follows_congr hV (fun v => tr_still hL b v) fun s v hs => ?_
  rw [tr_pure2 hp he L B hk hs, hst]
  simp only [trBody_turned ha, particle]
  cases applyMap (sextupoleTM s (2 * ‖toC (Cx.smul (perField ec b * B) k)‖))
    (turn (-(Complex.arg (toC (Cx.smul (perField ec b * B) k)) / 3)) v) <;> rfl

/-! ## C210: magnets of length zero -/

/-- C210: a magnet of length zero deflects by its integrated field, second order set. -/
theorem tr_zero_length {eps ec : ℝ} {m : MField ℝ} {b : Bunch} (hp : b.p0 ≠ 0) (hb : eps < |m.b0|) {v : PS}
    (hd : 1 + v.dp ≠ 0) :
    trStep eps ec ⟨0, m⟩ b 0 v = .ok (bendSlopes (perField ec b) (fieldAt m v) v, m) := by
  have hn : isNull eps m = false := by simpa [isNull] using hb
  rw [trStep, if_pos ⟨rfl, rfl, hn⟩, kick_ok0 hp hd hb, Outcome.bind]
  congr
  ext <;> simp [Cx.smul]

/-- C210: a magnet of length zero deflects by its integrated field, symplectic set. -/
theorem sy_zero_length {eps ec : ℝ} {m : MField ℝ} {b : Bunch} (hp : b.p0 ≠ 0) (hb : eps < |m.b0|) (v : PS) :
    syStep eps ec ⟨0, m⟩ b 0 v = .ok (bendMomenta (perField ec b) (fieldAt m v) v, m) := by
  have hn : isNull eps m = false := by simpa [isNull] using hb
  rw [syStep, if_pos ⟨rfl, rfl, hn⟩, syKick_ok0 hp hb, Outcome.bind]
  congr
  ext <;> simp [Cx.smul]

/-- C210 (violated): in the first set a magnet of length zero does nothing, whatever its field. -/
theorem thin_zero_length_violated (eps : ℝ) {ec : ℝ} {m : MField ℝ} {b : Bunch} {v : PS} (hk : perField ec b ≠ 0)
    (hd : 1 + v.dp ≠ 0) (hf : fieldAt m v ≠ 0) : particle (thinStep eps ec ⟨0, m⟩ b 0 v) = .ok v ∧
    particle (thinStep eps ec ⟨0, m⟩ b 0 v) ≠ .ok (bendSlopes (perField ec b) (fieldAt m v) v) := by
  have h : particle (thinStep eps ec ⟨0, m⟩ b 0 v) = .ok v := by rw [thinStep, if_pos rfl]; rfl
  refine ⟨h, fun h' => hf ?_⟩
  have e := Outcome.ok.inj (h.symm.trans h')
  have e1 := congrArg PS.px e
  have e2 := congrArg PS.py e
  simp only [bendSlopes] at e1 e2
  have c1 : perField ec b * (fieldAt m v).re / (1 + v.dp) = 0 := by linarith
  have c2 : perField ec b * (fieldAt m v).im / (1 + v.dp) = 0 := by linarith
  simp only [div_eq_zero_iff, mul_eq_zero, hk, hd, false_or, or_false] at c1 c2
  exact Cx.ext c1 c2

/-- A corrector of strength two on a particle on the axis. -/
example : fieldAt ⟨1, [⟨2, 0⟩]⟩ ⟨0, 0, 0, 0, 0, 0⟩ ≠ 0 := by
  intro h
  have := congrArg Cx.re h
  simp [fieldAt, Multipole.Spec.ofReal, Multipole.Spec.series, Multipole.Spec.coeff] at this

/-! ## C211: what a step keeps -/

theorem step_needs {ec : ℝ} {b : Bunch} (h : b.p0 / ec ≠ 0) : b.p0 ≠ 0 ∧ ec ≠ 0 :=
  ⟨fun e => h (by rw [e, zero_div]), fun e => h (by rw [e, div_zero])⟩

theorem applyRdp_keeps (M : Rdp) (v : PS) : (applyRdp M v).ct = v.ct ∧ (applyRdp M v).dp = v.dp := by
  obtain ⟨R, T⟩ := M
  rw [applyRdp_four]
  exact ⟨rfl, rfl⟩

theorem thinHalf_keeps (ec : ℝ) (m : MField ℝ) (b : Bunch) (l : ℝ) (v : PS) :
    (thinHalf ec m b l v).ct = v.ct ∧ (thinHalf ec m b l v).dp = v.dp := by
  unfold thinHalf
  split
  · exact applyRdp_keeps _ v
  · exact ⟨rfl, rfl⟩

theorem thinKick_keeps {eps ec : ℝ} {m : MField ℝ} {len : ℝ} {b : Bunch} {v w : PS} (h : thinKick eps ec m len b v = .ok w) :
    w.ct = v.ct ∧ w.dp = v.dp ∧ w.x = v.x ∧ w.y = v.y := by
  unfold thinKick at h
  split at h
  · cases h
  · obtain ⟨B, _, h⟩ := bind_ok_iff.1 h
    cases h
    exact ⟨rfl, rfl, rfl, rfl⟩

theorem same_refl (m : MField ℝ) : SameField m m := ⟨rfl, fun _ => rfl⟩

/-- C211: a step of the first set changes neither the field of the magnet nor momentum and delay of the particle. -/
theorem thin_keeps {eps ec : ℝ} {c : Mag} {b : Bunch} {ds : ℝ} {v : PS} {r : PS × MField ℝ}
    (h : thinStep eps ec c b ds v = .ok r) : SameField r.2 c.field ∧ r.1.dp = v.dp ∧ r.1.ct = v.ct := by
  by_cases hs : ds = 0
  · rw [thinStep, if_pos hs] at h
    cases h
    exact ⟨same_refl _, rfl, rfl⟩
  · by_cases hr : b.p0 / ec = 0
    · rw [thinStep, if_neg hs, getKn, if_pos hr] at h
      cases h
    · obtain ⟨hp, he⟩ := step_needs hr
      by_cases hS : Split c.field
      · obtain ⟨m', hm', e⟩ := thin_split (eps := eps) hp he hS hs v
        rw [e] at h
        obtain ⟨u, hu, h⟩ := bind_ok_iff.1 h
        cases h
        obtain ⟨k1, k2, -, -⟩ := thinKick_keeps hu
        obtain ⟨l1, l2⟩ := thinHalf_keeps ec c.field b (ds / 2) v
        refine ⟨hm', ?_, ?_⟩
        · simp only
          split
          · rw [(thinHalf_keeps _ _ _ _ _).2, k2, l2]
          · exact k2.trans l2
        · simp only
          split
          · rw [(thinHalf_keeps _ _ _ _ _).1, k1, l1]
          · exact k1.trans l1
      · rw [thin_plain hp he hS hs] at h
        cases h
        exact ⟨same_grow _ 0, (thinHalf_keeps _ _ _ _ _).2, (thinHalf_keeps _ _ _ _ _).1⟩

theorem rotateZ_dp (eps t : ℝ) (v : PS) : (rotateZ eps t v).dp = v.dp := by
  unfold rotateZ
  split <;> rfl

theorem quadMap_dp (s K : ℝ) (v : PS) : (act (quadClosed s K) v).dp = v.dp := by
  rw [act_eq, quad_lin, quad_quad]; simp [addPS]

theorem sextMap_dp (s K : ℝ) (v : PS) : (act (sextupoleTM s K) v).dp = v.dp := by
  rw [act_eq, sext_lin, sext_quad]; simp [addPS]

theorem trBody_keeps {eps ec : ℝ} {m : MField ℝ} {n : Nat} {M : RT} (hM : ∀ v w, applyMap M v = .ok w → w.dp = v.dp)
    {phi : ℝ} {sp : Bool} {ds : ℝ} {b : Bunch} {v : PS} {r : PS × MField ℝ}
    (h : trBody eps ec m n M phi sp ds b v = .ok r) : SameField r.2 m ∧ r.1.dp = v.dp := by
  unfold trBody at h
  obtain ⟨v1, e1, h⟩ := bind_ok_iff.1 h
  obtain ⟨q, e2, h⟩ := bind_ok_iff.1 h
  cases h
  have d1 : v1.dp = v.dp := by
    rw [hM _ _ e1]
    split
    · exact rotateZ_dp _ _ _
    · rfl
  have d2 : q.1.dp = v1.dp ∧ SameField q.2 m := by
    cases sp with
    | false => cases e2; exact ⟨rfl, same_refl m⟩
    | true =>
      simp only [if_true] at e2
      obtain ⟨v2, k, e2⟩ := bind_ok_iff.1 e2
      obtain ⟨v3, k3, e2⟩ := bind_ok_iff.1 e2
      cases e2
      exact ⟨(hM _ _ k3).trans (kick_dp k), same_back m n⟩
  refine ⟨d2.2, ?_⟩
  simp only
  split
  · rw [rotateZ_dp, d2.1, d1]
  · rw [d2.1, d1]

open Classical in
/-- C211: a step of the second order set changes neither the field of the magnet nor the momentum of the particle. -/
theorem tr_keeps {eps ec : ℝ} {c : Mag} {b : Bunch} {ds : ℝ} {v : PS} {r : PS × MField ℝ}
    (h : trStep eps ec c b ds v = .ok r) : SameField r.2 c.field ∧ r.1.dp = v.dp := by
  by_cases hs : ds = 0
  · rw [trStep] at h
    split at h
    · obtain ⟨w, hw, h⟩ := bind_ok_iff.1 h
      cases h
      exact ⟨same_refl _, kick_dp hw⟩
    · cases h
      exact ⟨same_refl _, rfl⟩
  · by_cases hr : b.p0 / ec = 0
    · rw [trStep, if_neg (by tauto), if_neg hs, getKn, if_pos hr] at h
      cases h
    · obtain ⟨hp, he⟩ := step_needs hr
      rw [tr_form hp he hs] at h
      simp only at h
      split at h
      · obtain ⟨M, e, h⟩ := bind_ok_iff.1 h
        refine trBody_keeps (fun v w hw => ?_) h
        unfold quadrupoleTM at e
        by_cases h0 : (strength (normK ec c.field b 1) 1).1 = 0
        · rw [if_pos h0] at e; cases e
        · have e' := quad_closed (if TSplit ec c.field b then ds / 2 else ds) _ h0
          unfold quadrupoleTM at e'
          rw [e'] at e
          cases e
          rw [applyMap_eq _ (quad_inside _ _)] at hw
          cases hw
          exact quadMap_dp _ _ _
      · split at h
        · refine trBody_keeps (fun v w hw => ?_) h
          rw [applyMap_eq _ (sext_inside _ _)] at hw
          cases hw
          exact sextMap_dp _ _ _
        · split at h
          · obtain ⟨u, hu, h⟩ := bind_ok_iff.1 h
            cases h
            exact ⟨same_refl _, (kick_dp hu :)⟩
          · cases h
            exact ⟨same_refl _, rfl⟩

theorem syKick_dp {eps ec : ℝ} {m : MField ℝ} {len : ℝ} {b : Beam} {phi : ℝ} {v w : PS}
    (h : multipoleKick eps ec m len b phi v = .ok w) : w.dp = v.dp := by
  unfold multipoleKick at h
  split at h
  · cases h
  · obtain ⟨B, _, h⟩ := bind_ok_iff.1 h
    cases h
    rfl

theorem drift_dp {ds : ℝ} {v w : PS} (h : driftMap ds v = .ok w) : w.dp = v.dp := by
  obtain ⟨pz, τ, -, -, -, rfl⟩ := (drift_straight _ _ _).1 h
  rfl

/-- C211: a step of the symplectic set changes neither the field of the magnet nor the momentum of the particle. -/
theorem sy_keeps {eps ec : ℝ} {c : Mag} {b : Bunch} {ds : ℝ} {v : PS} {r : PS × MField ℝ}
    (h : syStep eps ec c b ds v = .ok r) : SameField r.2 c.field ∧ r.1.dp = v.dp := by
  by_cases hs : ds = 0
  · rw [syStep] at h
    split at h
    · obtain ⟨w, hw, h⟩ := bind_ok_iff.1 h
      cases h
      exact ⟨same_refl _, syKick_dp hw⟩
    · cases h
      exact ⟨same_refl _, rfl⟩
  · by_cases hr : b.p0 / ec = 0
    · rw [syStep, if_neg (by tauto), if_neg hs, getKn, if_pos hr] at h
      cases h
    · obtain ⟨hp, he⟩ := step_needs hr
      obtain ⟨f, g, hf, hg, e⟩ := sy_form (eps := eps) (c := c) hp he hs v
      rw [e] at h
      split at h
      · split at h
        · obtain ⟨u, hu, h⟩ := bind_ok_iff.1 h
          obtain ⟨u', hu', h⟩ := bind_ok_iff.1 h
          obtain ⟨w, hw, h⟩ := bind_ok_iff.1 h
          cases h
          refine ⟨hg, ?_⟩
          rw [drift_dp hw, syKick_dp hu', (applyRdp_keeps _ _).2, syKick_dp hu, (applyRdp_keeps _ _).2]
        · cases h
          exact ⟨hf, (applyRdp_keeps _ _).2⟩
      · split at h
        · obtain ⟨u, hu, h⟩ := bind_ok_iff.1 h
          obtain ⟨u', hu', h⟩ := bind_ok_iff.1 h
          obtain ⟨w, hw, h⟩ := bind_ok_iff.1 h
          cases h
          exact ⟨hg, by rw [drift_dp hw, syKick_dp hu', drift_dp hu]⟩
        · obtain ⟨w, hw, h⟩ := bind_ok_iff.1 h
          cases h
          exact ⟨hf, drift_dp hw⟩

/-! ## C212: gradient and other multipoles together -/

theorem fac0 : (factorial 0 : ℝ) = 1 := by simp [factorial, factLoop]

theorem gradOf_normK (ec : ℝ) (m : MField ℝ) (b : Bunch) : normK ec (gradientOf m) b 1 = normK ec m b 1 := rfl

theorem gradOf_unsplit (m : MField ℝ) : ¬ Split (gradientOf m) := pure_unsplit _ _

/-- C212: in the first set a magnet with a gradient and other components is the pure gradient over half the step, the
deflection by the other components, and the pure gradient again. -/
theorem thin_errors {eps ec : ℝ} {m : MField ℝ} {b : Bunch} (hp : b.p0 ≠ 0) (he : ec ≠ 0) (hb : eps < |m.b0|)
    (hK : normK ec m b 1 ≠ 0) (hS : m.terms.getD 0 0 ≠ 0 ∨ 2 < m.terms.length) (L : ℝ) {ds : ℝ} (hs : ds ≠ 0) {v : PS}
    (hd : 1 + v.dp ≠ 0) :
    particle (thinStep eps ec ⟨L, m⟩ b ds v) = (particle (thinStep eps ec ⟨L, gradientOf m⟩ b (ds / 2) v)).bind fun u =>
      particle (thinStep eps ec ⟨L, gradientOf m⟩ b (ds / 2)
        (bendSlopes (perField ec b) (Cx.smul ds (fieldAt (without m 1) u)) u)) := by
  have h2 : ds / 2 ≠ 0 := by simpa using hs
  obtain ⟨m', -, e⟩ := thin_split (eps := eps) (c := ⟨L, m⟩) hp he hS hs v
  have hg : ∀ u, particle (thinStep eps ec ⟨L, gradientOf m⟩ b (ds / 2) u) = .ok (thinHalf ec m b (ds / 2) u) := fun u => by
    rw [thin_plain (c := ⟨L, gradientOf m⟩) hp he (gradOf_unsplit m) h2]; rfl
  rw [e, hg, thinKick_ok hp (by rw [(thinHalf_keeps _ _ _ _ _).2]; exact hd) (show eps < |(without m 1).b0| from hb)]
  simp only [Outcome.bind, particle, hK, ne_eq, not_false_eq_true, or_true, if_true]
  exact (hg _).symm

/-- A quadrupole with a sextupole component meets the hypotheses. -/
example : normK 1 ⟨1, [0, 1, ⟨1 / 10, 0⟩]⟩ ⟨1, 1, 0⟩ 1 ≠ 0 := by
  rw [normK, smul_ne]
  exact ⟨by norm_num [perField, factorial, factLoop], fun h => by simpa using congrArg Cx.re h⟩

theorem tr_half {eps ec : ℝ} (h0 : 0 ≤ eps) {b : Bunch} (hp : b.p0 ≠ 0) (he : ec ≠ 0) (L : ℝ) {m : MField ℝ}
    (hK : normK ec m b 1 ≠ 0) (hi : (normK ec m b 1).im = 0) {s : ℝ} (hs : s ≠ 0) (v : PS) :
    particle (trStep eps ec ⟨L, gradientOf m⟩ b s v) =
      .ok (act (quadClosed s (normK ec m b 1).re) v) := by
  have hr : (normK ec m b 1).re ≠ 0 := fun h => hK (Cx.ext h hi)
  have e := pure_normK ec m.b0 (m.terms.getD 1 0) b
  have e' : Cx.smul (perField ec b * m.b0) (m.terms.getD 1 0) = normK ec m b 1 := by rw [← e]; rfl
  rw [gradientOf, tr_pure hp he L m.b0 (by rwa [e']) hs, e', strength, if_pos hi, quad_closed _ _ hr]
  simp only [Outcome.bind, trBody_plain h0, applyMap_eq _ (quad_inside _ _), particle]

/-- C212: the same in the second order set for a normal gradient. -/
theorem tr_errors {eps ec : ℝ} (h0 : 0 ≤ eps) {m : MField ℝ} {b : Bunch} (hp : b.p0 ≠ 0) (he : ec ≠ 0) (hb : eps < |m.b0|)
    (hK : normK ec m b 1 ≠ 0) (hi : (normK ec m b 1).im = 0) (hS : m.terms.getD 0 0 ≠ 0 ∨ 2 < m.terms.length) (L : ℝ)
    {ds : ℝ} (hs : ds ≠ 0) {v : PS} (hd : 1 + v.dp ≠ 0) :
    particle (trStep eps ec ⟨L, m⟩ b ds v) = (particle (trStep eps ec ⟨L, gradientOf m⟩ b (ds / 2) v)).bind fun u =>
      particle (trStep eps ec ⟨L, gradientOf m⟩ b (ds / 2)
        (bendSlopes (perField ec b) (Cx.smul ds (fieldAt (without m 1) u)) u)) := by
  have h2 : ds / 2 ≠ 0 := by simpa using hs
  have hr : (normK ec m b 1).re ≠ 0 := fun h => hK (Cx.ext h hi)
  have hg := tr_half (eps := eps) h0 hp he L hK hi h2
  have hT : TSplit ec m b := by
    rcases hS with h | h
    · left
      unfold normK at hK ⊢
      rw [smul_ne] at hK ⊢
      refine ⟨?_, h⟩
      have := hK.1
      rw [fac0, mul_one]
      exact left_ne_zero_of_mul this
    · exact Or.inr (Or.inl ⟨hK, h⟩)
  rw [tr_form hp he hs]
  simp only [hg, Outcome.bind, hT, if_true, decide_true, hK, ne_eq, not_false_eq_true, strength, hi,
    quad_closed _ _ hr]
  obtain ⟨m', -, e⟩ := trBody_split (ec := ec) h0 m 1 (quadClosed (ds / 2) (normK ec m b 1).re) ds b v
  rw [e, applyMap_eq _ (quad_inside _ _), Outcome.bind,
    kick_ok0 hp (by rw [quadMap_dp]; exact hd) (show eps < |(without m 1).b0| from hb), Outcome.bind,
    applyMap_eq _ (quad_inside _ _)]
  rfl

/-- C212: the same in the second order set for a normal sextupole component without a gradient. -/
theorem tr_sextupole_errors {eps ec : ℝ} (h0 : 0 ≤ eps) {m : MField ℝ} {b : Bunch} (hp : b.p0 ≠ 0) (he : ec ≠ 0)
    (hb : eps < |m.b0|) (h1 : m.terms.getD 1 0 = 0) (hK : normK ec m b 2 ≠ 0) (hi : (normK ec m b 2).im = 0)
    (hS : m.terms.getD 0 0 ≠ 0 ∨ 3 < m.terms.length) (L : ℝ) {ds : ℝ} (hs : ds ≠ 0) {v : PS} (hd : 1 + v.dp ≠ 0) :
    particle (trStep eps ec ⟨L, m⟩ b ds v) = (particle (trStep eps ec ⟨L, sextupoleOf m⟩ b (ds / 2) v)).bind fun u =>
      particle (trStep eps ec ⟨L, sextupoleOf m⟩ b (ds / 2)
        (bendSlopes (perField ec b) (Cx.smul ds (fieldAt (without m 2) u)) u)) := by
  have h2 : ds / 2 ≠ 0 := by simpa using hs
  have hn1 := normK_none (ec := ec) (b := b) h1
  have hg : ∀ u, particle (trStep eps ec ⟨L, sextupoleOf m⟩ b (ds / 2) u) =
      .ok (act (sextupoleTM (ds / 2) (normK ec m b 2).re) u) := fun u => by
    have e' : Cx.smul (perField ec b * m.b0 * 2) (m.terms.getD 2 0) = normK ec m b 2 := by
      simp [normK, factorial, factLoop]
    rw [sextupoleOf, tr_pure2 hp he L m.b0 (by rwa [e']) h2, e', strength, if_pos hi]
    simp only [Outcome.bind, trBody_plain h0, applyMap_eq _ (sext_inside _ _), particle]
  have hT : TSplit ec m b := by
    rcases hS with h | h
    · left
      unfold normK at hK ⊢
      rw [smul_ne] at hK ⊢
      refine ⟨?_, h⟩
      have := hK.1
      rw [fac0, mul_one]
      exact left_ne_zero_of_mul this
    · exact Or.inr (Or.inr h)
  rw [tr_form hp he hs]
  simp only [hg, Outcome.bind, hT, if_true, decide_true, hn1, if_false, hK, ne_eq, not_false_eq_true, strength, hi]
  obtain ⟨m', -, e⟩ := trBody_split (ec := ec) h0 m 2 (sextupoleTM (ds / 2) (normK ec m b 2).re) ds b v
  rw [e, applyMap_eq _ (sext_inside _ _), Outcome.bind,
    kick_ok0 hp (by rw [sextMap_dp]; exact hd) (show eps < |(without m 2).b0| from hb), Outcome.bind,
    applyMap_eq _ (sext_inside _ _)]
  rfl

theorem particle_ok {r : Outcome Unit (PS × MField ℝ)} {w : PS} (h : particle r = .ok w) : ∃ m, r = .ok (w, m) := by
  cases r with
  | ub => cases h
  | throw => cases h
  | ok a => exact ⟨a.2, by rw [show w = a.1 from (Outcome.ok.inj h).symm]⟩

theorem field_flat {m : MField ℝ} (hm : Normal m) {v : PS} (hy : v.y = 0) : (fieldAt m v).im = 0 := by
  have key : ∀ l : List Nat, ((l.map fun n : Nat => if (-1 : Int) < (n : Int) then
      Multipole.Spec.coeff m.terms n * (⟨v.x, v.y⟩ : Cx ℝ) ^ n else 0).sum).im = 0 := by
    have hpow : ∀ n : Nat, ((⟨v.x, v.y⟩ : Cx ℝ) ^ n).im = 0 := fun n => by
      induction n with
      | zero => rfl
      | succ n ih => rw [pow_succ, Cx.mul_im, ih, hy]; simp
    have hc : ∀ n, (Multipole.Spec.coeff m.terms n).im = 0 := fun n => by
      have := hm n
      rw [List.getD_eq_getElem?_getD] at this
      exact this
    intro l
    induction l with
    | nil => rfl
    | cons n l ih =>
      rw [List.map_cons, List.sum_cons, Cx.add_im, ih, add_zero]
      split
      · rw [Cx.mul_im, hpow, hc]; ring
      · rfl
  simp only [fieldAt, Multipole.Spec.ofReal, Cx.mul_im, zero_mul, add_zero, Multipole.Spec.series]
  rw [key, mul_zero]

theorem normal_without {m : MField ℝ} (hm : Normal m) (n : Nat) : Normal (without m n) := fun i => by
  have := (same_without m n).2 i
  rw [← this, getD_set, getCoefficient_snd]
  split
  · rfl
  · exact hm i

theorem normK_real {ec : ℝ} {m : MField ℝ} (hm : Normal m) (b : Bunch) (n : Nat) : (normK ec m b n).im = 0 := by
  simp only [normK, Cx.smul, hm n, mul_zero]

theorem thinKick_flat {eps ec : ℝ} {m : MField ℝ} (hm : Normal m) {len : ℝ} {b : Bunch} {v w : PS}
    (hv : Flat v) (h : thinKick eps ec m len b v = .ok w) : Flat w := by
  have hk := thinKick_keeps h
  refine ⟨by rw [hk.2.2.2]; exact hv.1, ?_⟩
  unfold thinKick at h
  split at h
  · cases h
  · obtain ⟨B, hB, h⟩ := bind_ok_iff.1 h
    cases h
    have : B.im = 0 := by
      rcases le_or_gt |m.b0| eps with hb | hb
      · rw [field_null eps m hb] at hB
        cases hB; rfl
      · rw [getField_ok hb] at hB
        cases hB
        exact field_flat hm hv.1
    simp [Cx.smul, this, hv.2]

theorem quadAct_flat {l K : ℝ} {v : PS} (hv : Flat v) : Flat (quadAct l K v) := by
  simp [Flat, quadAct, hv.1, hv.2]

theorem thinHalf_flat {ec : ℝ} {m : MField ℝ} (hm : Normal m) {b : Bunch} {l : ℝ} (hl : l ≠ 0) {v : PS} (hv : Flat v) :
    Flat (thinHalf ec m b l v) := by
  unfold thinHalf
  split
  · rename_i h
    rw [quadMatrices_real (normK_real hm b 1) hl h]
    exact quadAct_flat hv
  · simp [Flat, line, hv.1, hv.2]

/-- C212: in the first set particles in the plane of symmetry stay there when the field has no skew components. -/
theorem thin_midplane {eps ec : ℝ} {c : Mag} (hm : Normal c.field) {b : Bunch} {ds : ℝ} {v w : PS} (hv : Flat v)
    (h : particle (thinStep eps ec c b ds v) = .ok w) : Flat w := by
  by_cases hs : ds = 0
  · rw [thinStep, if_pos hs] at h
    cases h
    exact hv
  · by_cases hr : b.p0 / ec = 0
    · rw [thinStep, if_neg hs, getKn, if_pos hr] at h
      cases h
    · obtain ⟨hp, he⟩ := step_needs hr
      by_cases hS : Split c.field
      · obtain ⟨m', hm', e⟩ := thin_split (eps := eps) hp he hS hs v
        rw [e] at h
        have h2 : ds / 2 ≠ 0 := by simpa using hs
        obtain ⟨m', h⟩ := particle_ok h
        obtain ⟨u, hu, h⟩ := bind_ok_iff.1 h
        have hu' := thinKick_flat (normal_without hm 1) (thinHalf_flat hm h2 hv) hu
        cases h
        split
        · exact thinHalf_flat hm h2 hu'
        · exact ⟨rfl, rfl⟩
      · rw [thin_plain hp he hS hs] at h
        cases h
        exact thinHalf_flat hm hs hv

theorem kick_flat {eps ec : ℝ} {m : MField ℝ} (hm : Normal m) {len : ℝ} {b : Bunch} {v w : PS}
    (hv : Flat v) (h : TransportMaps.kick eps ec m len b 0 v = .ok w) : Flat w := by
  unfold TransportMaps.kick at h
  split at h
  · cases h
  · obtain ⟨B, hB, h⟩ := bind_ok_iff.1 h
    cases h
    have : B.im = 0 := by
      rcases le_or_gt |m.b0| eps with hb | hb
      · rw [field_null eps m hb] at hB
        cases hB; rfl
      · rw [getField_ok hb] at hB
        cases hB
        exact field_flat hm hv.1
    exact ⟨hv.1, by simp [Cx.smul, this, hv.2]⟩

theorem act_quad_flat (s K : ℝ) {v : PS} (hv : Flat v) : Flat (act (quadClosed s K) v) := by
  rw [act_eq, quad_lin, quad_quad]
  simp [Flat, addPS, hv.1, hv.2]

theorem act_sext_flat (s K : ℝ) {v : PS} (hv : Flat v) : Flat (act (sextupoleTM s K) v) := by
  rw [act_eq, sext_lin, sext_quad]
  simp [Flat, addPS, hv.1, hv.2]

theorem trBody_flat {eps ec : ℝ} (h0 : 0 ≤ eps) {m : MField ℝ} (hm : Normal m) {n : Nat} {M : RT}
    (hM : ∀ v w, Flat v → applyMap M v = .ok w → Flat w) {sp : Bool} {ds : ℝ} {b : Bunch} {v : PS} {r : PS × MField ℝ}
    (hv : Flat v) (h : trBody eps ec m n M 0 sp ds b v = .ok r) : Flat r.1 := by
  cases sp with
  | false =>
    rw [trBody_plain h0] at h
    obtain ⟨w, hw, h⟩ := bind_ok_iff.1 h
    cases h
    exact hM _ _ hv hw
  | true =>
    obtain ⟨m', -, e⟩ := trBody_split (ec := ec) h0 m n M ds b v
    rw [e] at h
    obtain ⟨v1, e1, h⟩ := bind_ok_iff.1 h
    obtain ⟨v2, e2, h⟩ := bind_ok_iff.1 h
    obtain ⟨v3, e3, h⟩ := bind_ok_iff.1 h
    cases h
    exact hM _ _ (kick_flat (normal_without hm n) (hM _ _ hv e1) e2) e3

open Classical in
/-- C212: the same in the second order set. -/
theorem tr_midplane {eps ec : ℝ} (h0 : 0 ≤ eps) {c : Mag} (hm : Normal c.field) {b : Bunch} {ds : ℝ} {v w : PS} (hv : Flat v)
    (h : particle (trStep eps ec c b ds v) = .ok w) : Flat w := by
  obtain ⟨m', h⟩ := particle_ok h
  by_cases hs : ds = 0
  · rw [trStep] at h
    split at h
    · obtain ⟨w, hw, h⟩ := bind_ok_iff.1 h
      cases h
      exact kick_flat hm hv hw
    · cases h
      exact hv
  · by_cases hr : b.p0 / ec = 0
    · rw [trStep, if_neg (by tauto), if_neg hs, getKn, if_pos hr] at h
      cases h
    · obtain ⟨hp, he⟩ := step_needs hr
      have hst : ∀ n, (strength (normK ec c.field b n) n).2 = 0 := fun n => by
        rw [strength, if_pos (normK_real hm b n)]
      rw [tr_form hp he hs, hst, hst] at h
      simp only at h
      split at h
      · obtain ⟨M, e, h⟩ := bind_ok_iff.1 h
        refine trBody_flat h0 hm (fun v w hv hw => ?_) hv h
        by_cases hz : (strength (normK ec c.field b 1) 1).1 = 0
        · rw [quadrupoleTM, if_pos hz] at e; cases e
        · rw [quad_closed _ _ hz] at e
          cases e
          rw [applyMap_eq _ (quad_inside _ _)] at hw
          cases hw
          exact act_quad_flat _ _ hv
      · split at h
        · refine trBody_flat h0 hm (fun v w hv hw => ?_) hv h
          rw [applyMap_eq _ (sext_inside _ _)] at hw
          cases hw
          exact act_sext_flat _ _ hv
        · have fl : ∀ s {v : PS}, Flat v → Flat (lineDelay s v) := fun s v hv => by
            simp [Flat, lineDelay, line, hv.1, hv.2]
          split at h
          · obtain ⟨u, hu, h⟩ := bind_ok_iff.1 h
            cases h
            exact fl _ (kick_flat hm (fl _ hv) hu)
          · cases h
            exact fl _ hv

/-- C212: what the symplectic set makes of a focussing quadrupole with other components: the deflection by them is
applied twice, once in the middle and once at the end, and half the length is added as a straight line. -/
theorem sy_errors {eps ec : ℝ} {m : MField ℝ} {b : Bunch} (hp : b.p0 ≠ 0) (he : ec ≠ 0) (hb : eps < |m.b0|)
    (hK : 0 < (normK ec m b 1).re) (hi : (normK ec m b 1).im = 0)
    (hS : m.terms.getD 0 0 ≠ 0 ∨ 2 < m.terms.length) (L : ℝ) {ds : ℝ} (hs : ds ≠ 0) (v w : PS) :
    particle (syStep eps ec ⟨L, m⟩ b ds v) = .ok w ↔ ∃ u u' u'',
      particle (thinStep eps ec ⟨L, gradientOf m⟩ b (ds / 2) v) = .ok u ∧
      particle (thinStep eps ec ⟨L, gradientOf m⟩ b (ds / 2)
        (bendMomenta (perField ec b) (Cx.smul ds (fieldAt (without m 1) u)) u)) = .ok u' ∧
      u'' = bendMomenta (perField ec b) (Cx.smul ds (fieldAt (without m 1) u')) u' ∧ Straight (ds / 2) u'' w := by
  have h2 : ds / 2 ≠ 0 := by simpa using hs
  have hk : normK ec m b 1 ≠ 0 := fun h => hK.ne' (by rw [h]; rfl)
  have hg : ∀ u, particle (thinStep eps ec ⟨L, gradientOf m⟩ b (ds / 2) u) =
      .ok (applyRdp (quadMatrices (ds / 2) (normK ec m b 1)) u) := fun u => by
    rw [thin_plain (c := ⟨L, gradientOf m⟩) hp he (gradOf_unsplit m) h2]
    simp only [thinHalf, gradOf_normK, hk, ne_eq, not_false_eq_true, if_true]
    rfl
  have ha : Complex.arg (toC (normK ec m b 1)) = 0 := by
    rw [Complex.arg_eq_zero_iff]
    exact ⟨hK.le, hi⟩
  obtain ⟨f, g, -, -, e⟩ := sy_form (eps := eps) (c := ⟨L, m⟩) hp he hs v
  rw [e]
  simp only [hk, ne_eq, not_false_eq_true, if_true, ha, zero_div, neg_zero, hg]
  rw [if_pos (show Split m from hS)]
  have hk' : ∀ u, multipoleKick eps ec (without m 1) ds (beam b) 0 u =
    .ok (bendMomenta (perField ec b) (Cx.smul ds (fieldAt (without m 1) u)) u) := fun u =>
      syKick_ok0 hp (show eps < |(without m 1).b0| from hb) ds u
  simp only [hk', show ∀ (a : PS) (f : PS → Outcome Unit (PS × MField ℝ)), (Outcome.ok a).bind f = f a from
    fun _ _ => rfl]
  constructor
  · intro h
    obtain ⟨m', h⟩ := particle_ok h
    obtain ⟨w, hd, hw⟩ := bind_ok_iff.1 h
    cases hw
    exact ⟨_, _, _, rfl, rfl, rfl, (drift_straight _ _ _).1 hd⟩
  · rintro ⟨u, u', u'', h1, h2, rfl, h3⟩
    cases h1
    cases h2
    rw [(drift_straight _ _ _).2 h3]
    rfl

/-- C212 (violated): in the symplectic set a sextupole coefficient of zero changes the motion in a quadrupole. -/
theorem sy_errors_violated {eps : ℝ} (h0 : 0 ≤ eps) (h1 : eps < 1) :
    SameField ⟨1, [0, 1, 0]⟩ ⟨1, [0, 1]⟩ ∧
    particle (syStep eps 1 ⟨1, ⟨1, [0, 1, 0]⟩⟩ ⟨1, 1, 0⟩ 1 ⟨1, 0, 0, 0, 0, 0⟩) ≠
      particle (syStep eps 1 ⟨1, ⟨1, [0, 1]⟩⟩ ⟨1, 1, 0⟩ 1 ⟨1, 0, 0, 0, 0, 0⟩) := by
  refine ⟨⟨rfl, fun i => ?_⟩, fun h => ?_⟩
  · match i with
    | 0 => rfl
    | 1 => rfl
    | 2 => rfl
    | n + 3 => rfl
  · have one : Cx.smul (perField 1 ⟨1, 1, 0⟩ * 1) (1 : Cx ℝ) = 1 := by ext <;> simp [Cx.smul, perField]
    have hne : (1 : Cx ℝ) ≠ 0 := fun h => by simpa using congrArg Cx.re h
    rw [sy_pure (by norm_num) (by norm_num) (by norm_num) 1 (by rw [one]; exact hne)] at h
    obtain ⟨m, hm⟩ := (thin_orbit (eps := eps) (ec := 1) (b := ⟨1, 1, 0⟩) (by norm_num) (by norm_num) 1 1 1 ⟨1, 0, 0, 0, 0, 0⟩).2 1
    have hm' : thinStep eps 1 ⟨1, ⟨1, [0, 1]⟩⟩ ⟨1, 1, 0⟩ 1 ⟨1, 0, 0, 0, 0, 0⟩ = _ := hm
    rw [hm'] at h
    have hn : normK 1 (⟨1, [0, 1, 0]⟩ : MField ℝ) ⟨1, 1, 0⟩ 1 = 1 := by
      ext <;> simp [normK, Cx.smul, perField, factorial, factLoop]
    obtain ⟨u, u', u'', e1, e2, e3, e4⟩ := (sy_errors (L := 1) (ec := 1) (b := ⟨1, 1, 0⟩) (m := ⟨1, [0, 1, 0]⟩)
      (by norm_num) (by norm_num) (by simpa using h1) (by rw [hn]; norm_num) (by rw [hn]; rfl) (by simp) one_ne_zero _ _).1 h
    have hfield : ∀ v, fieldAt (without (⟨1, [0, 1, 0]⟩ : MField ℝ) 1) v = 0 := fun v => by
      refine field_empty (fun n => ?_) v
      match n with
      | 0 => rfl
      | 1 => rfl
      | 2 => rfl
      | n + 3 => rfl
    have bz : ∀ v, bendMomenta (perField 1 ⟨1, 1, 0⟩) (Cx.smul 1 (fieldAt (without (⟨1, [0, 1, 0]⟩ : MField ℝ) 1) v)) v = v :=
      fun v => by rw [hfield]; ext <;> simp [bendMomenta, Cx.smul]
    rw [bz] at e2 e3
    subst e3
    have ho : ∀ v, particle (thinStep eps 1 ⟨1, gradientOf ⟨1, [0, 1, 0]⟩⟩ ⟨1, 1, 0⟩ (1 / 2) v) =
        .ok (gradOrbit (perField 1 ⟨1, 1, 0⟩ * 1 * 1) (1 / 2) v) := fun v => by
      obtain ⟨m, hm⟩ := (thin_orbit (eps := eps) (ec := 1) (b := ⟨1, 1, 0⟩) (by norm_num) (by norm_num) 1 1 1 v).2 (1 / 2)
      have hm' : thinStep eps 1 ⟨1, gradientOf ⟨1, [0, 1, 0]⟩⟩ ⟨1, 1, 0⟩ (1 / 2) v = _ := hm
      rw [hm']; rfl
    rw [ho] at e1 e2
    cases e1
    cases e2
    have hK : perField 1 ⟨1, 1, 0⟩ * 1 * 1 = (1 : ℝ) := by norm_num [perField]
    rw [hK] at e4
    have cs : ∀ s, cK 1 s = cos s ∧ sK 1 s = sin s := fun s => by simp [cK, sK]
    obtain ⟨pz, τ, hpz, -, ht, hw⟩ := e4
    have hx := congrArg PS.x hw
    simp [gradOrbit, quadAct, cs] at hx
    have c1 : cos 1 = 2 * cos (1 / 2) ^ 2 - 1 := by rw [← cos_two_mul]; norm_num
    have hsq := sin_sq_add_cos_sq (1 / 2 : ℝ)
    have hS : 0 < sin (1 / 2 : ℝ) := sin_pos_of_pos_of_lt_pi (by norm_num) (by linarith [two_le_pi])
    have hC : 0 < cos (1 / 2 : ℝ) := cos_pos_of_mem_Ioo ⟨by linarith [two_le_pi], by linarith [two_le_pi]⟩
    have ht0 : τ ≠ 0 := fun e => by rw [e] at ht; norm_num at ht
    norm_num at hx
    have : τ * (2 * sin (1 / 2) * cos (1 / 2)) = 0 := by
      linear_combination hx - c1 - hsq
    have h5 : 2 * sin (1 / 2 : ℝ) * cos (1 / 2) ≠ 0 := by positivity
    exact (mul_ne_zero ht0 h5) this

/-- C212 (violated): in the symplectic set a particle on the axis of a defocussing quadrupole with a dipole component,
both without skew components, leaves the plane of symmetry. -/
theorem sy_midplane_violated {eps : ℝ} (h1 : eps < 1) :
    Normal ⟨1, [⟨1 / 10, 0⟩, ⟨-1, 0⟩]⟩ ∧ ∃ w, particle (syStep eps 1 ⟨1, ⟨1, [⟨1 / 10, 0⟩, ⟨-1, 0⟩]⟩⟩ ⟨1, 1, 0⟩ 1
      ⟨0, 0, 0, 0, 0, 0⟩) = .ok w ∧ ¬ Flat w := by
  refine ⟨fun n => ?_, ?_⟩
  · match n with
    | 0 => rfl
    | 1 => rfl
    | n + 2 => rfl
  · have hn : normK 1 (⟨1, [⟨1 / 10, 0⟩, ⟨-1, 0⟩]⟩ : MField ℝ) ⟨1, 1, 0⟩ 1 = ⟨-1, 0⟩ := by
      ext <;> simp [normK, Cx.smul, perField, factorial, factLoop]
    have hne : (⟨-1, 0⟩ : Cx ℝ) ≠ 0 := fun h => by simpa using congrArg Cx.re h
    have harg : Complex.arg (toC ⟨-1, 0⟩) = π := by
      rw [Complex.arg_eq_pi_iff]
      exact ⟨by norm_num [toC], rfl⟩
    have hS : Split (⟨1, [⟨1 / 10, 0⟩, ⟨-1, 0⟩]⟩ : MField ℝ) := Or.inl fun h => by simpa using congrArg Cx.re h
    obtain ⟨f, g, -, -, e⟩ := sy_form (eps := eps) (ec := 1) (b := ⟨1, 1, 0⟩) (ds := 1) (c := ⟨1, ⟨1, [⟨1 / 10, 0⟩, ⟨-1, 0⟩]⟩⟩)
      (by norm_num) (by norm_num) one_ne_zero ⟨0, 0, 0, 0, 0, 0⟩
    have hfield : ∀ v, fieldAt (without (⟨1, [⟨1 / 10, 0⟩, ⟨-1, 0⟩]⟩ : MField ℝ) 1) v = ⟨1 / 10, 0⟩ := fun v => by
      ext <;> simp [fieldAt, without, Multipole.Spec.ofReal, Multipole.Spec.series, Multipole.Spec.coeff, List.range_succ]
    have hk1 : ∀ v, multipoleKick eps 1 (without (⟨1, [⟨1 / 10, 0⟩, ⟨-1, 0⟩]⟩ : MField ℝ) 1) 1 (beam ⟨1, 1, 0⟩) (-(π / 2)) v =
        .ok { v with py := v.py - 1 / 10 } := fun v => by
      rw [multipoleKick, if_neg (by norm_num [beam]), getField_ok (by simpa [without] using h1), hfield]
      simp [Outcome.bind, beam, Cx.smul, cos_pi_div_two, sin_pi_div_two]
      ring
    have hk2 : ∀ v, multipoleKick eps 1 (without (⟨1, [⟨1 / 10, 0⟩, ⟨-1, 0⟩]⟩ : MField ℝ) 1) 1 (beam ⟨1, 1, 0⟩) 0 v =
        .ok { v with px := v.px - 1 / 10 } := fun v => by
      rw [multipoleKick, if_neg (by norm_num [beam]), getField_ok (by simpa [without] using h1), hfield]
      simp [Outcome.bind, beam, Cx.smul]
      ring
    rw [e]
    simp only [hn, hne, ne_eq, not_false_eq_true, if_true, hS, harg]
    rw [quadMatrices_real rfl (by norm_num) hne, hk1, Outcome.bind, quadMatrices_real rfl (by norm_num) hne, hk2, Outcome.bind]
    have cs : ∀ s, cK 1 s = cos s ∧ sK 1 s = sin s := fun s => by simp [cK, sK]
    have hq : ∀ s p, quadAct s (-1) ⟨0, 0, 0, p, 0, 0⟩ = ⟨0, 0, sin s * p, cos s * p, 0, 0⟩ := fun s p => by
      simp [quadAct, cs]
    rw [show quadAct (1 / 2) (⟨-1, 0⟩ : Cx ℝ).re ⟨0, 0, 0, 0, 0, 0⟩ = ⟨0, 0, 0, 0, 0, 0⟩ by simp [quadAct]]
    simp only [hq]
    have hc := cos_le_one (1 / 2)
    have hC : 0 < cos (1 / 2 : ℝ) := cos_pos_of_mem_Ioo ⟨by linarith [two_le_pi], by linarith [two_le_pi]⟩
    have hpos : 0 < (1 + 0) * (1 + 0) - (0 - 1 / 10) * (0 - 1 / 10) -
        (cos (1 / 2) * (0 - 1 / 10)) * (cos (1 / 2 : ℝ) * (0 - 1 / 10)) := by nlinarith
    unfold Symplectic.driftMap
    simp only
    rw [if_pos hpos, Outcome.bind]
    refine ⟨_, rfl, fun h => ?_⟩
    have := h.2
    simp only at this
    nlinarith

theorem turn_inj {t : ℝ} {v w : PS} (h : turn t v = turn t w) : v = w := by
  have := congrArg (turn (-t)) h
  rwa [turn_turn, turn_turn, neg_add_cancel, turn_zero, turn_zero] at this

/-- C212 (violated): in the second order set a dipole component of a skew quadrupole deflects a particle on the axis
in a direction turned by the angle of the skew component. -/
theorem tr_skew_errors_violated {eps : ℝ} (h0 : 0 ≤ eps) (h1 : eps < 1 / 2) :
    particle (trStep eps 1 ⟨1, ⟨1, [1, ⟨0, 1⟩]⟩⟩ ⟨1, 1, 0⟩ 1 ⟨0, 0, 0, 0, 0, 0⟩) ≠
      (particle (trStep eps 1 ⟨1, gradientOf ⟨1, [1, ⟨0, 1⟩]⟩⟩ ⟨1, 1, 0⟩ (1 / 2) ⟨0, 0, 0, 0, 0, 0⟩)).bind fun u =>
      particle (trStep eps 1 ⟨1, gradientOf ⟨1, [1, ⟨0, 1⟩]⟩⟩ ⟨1, 1, 0⟩ (1 / 2)
        (bendSlopes 1 (fieldAt (without ⟨1, [1, ⟨0, 1⟩]⟩ 1) u) u)) := by
  have hone : Cx.smul (perField 1 ⟨1, 1, 0⟩ * 1) (⟨0, 1⟩ : Cx ℝ) = ⟨0, 1⟩ := by ext <;> simp [Cx.smul, perField]
  have hne : (⟨0, 1⟩ : Cx ℝ) ≠ 0 := fun h => by simpa using congrArg Cx.im h
  have hI : toC ⟨0, 1⟩ = Complex.I := rfl
  have hst : strength ⟨0, 1⟩ 1 = (1, π / 4) := by
    rw [strength, if_neg one_ne_zero, hI, Complex.arg_I, Complex.norm_I]
    norm_num
    ring
  have hphi : eps < |π / 4| := by
    rw [abs_of_pos (by positivity)]
    linarith [two_le_pi]
  have hphi' : ¬ |π / 4 - 0| ≤ eps := by simpa using hphi
  have hg : ∀ u, particle (trStep eps 1 ⟨1, gradientOf ⟨1, [1, ⟨0, 1⟩]⟩⟩ ⟨1, 1, 0⟩ (1 / 2) u) =
      .ok (turn (π / 4) (act (quadClosed (1 / 2) 1) (turn (-(π / 4)) u))) := fun u => by
    rw [show gradientOf (⟨1, [1, ⟨0, 1⟩]⟩ : MField ℝ) = ⟨1, [0, ⟨0, 1⟩]⟩ from rfl,
      tr_pure (by norm_num) (by norm_num) 1 1 (by rw [hone]; exact hne) (by norm_num), hone, hst,
      quad_closed _ _ one_ne_zero, Outcome.bind, trBody_turned hphi, applyMap_eq _ (quad_inside _ _)]
    rfl
  have t0 : ∀ t, turn t ⟨0, 0, 0, 0, 0, 0⟩ = ⟨0, 0, 0, 0, 0, 0⟩ := fun t => by simp [turn]
  rw [hg, t0, act_origin, t0, Outcome.bind, hg]
  have hfield : ∀ v, fieldAt (without (⟨1, [1, ⟨0, 1⟩]⟩ : MField ℝ) 1) v = 1 := fun v => by
    ext <;> simp [fieldAt, without, Multipole.Spec.ofReal, Multipole.Spec.series, Multipole.Spec.coeff, List.range_succ]
  have hn : ∀ n, n < 2 → normK 1 (⟨1, [1, ⟨0, 1⟩]⟩ : MField ℝ) ⟨1, 1, 0⟩ n = if n = 0 then 1 else ⟨0, 1⟩ := fun n hn => by
    interval_cases n <;> ext <;> simp [normK, Cx.smul, perField, factorial, factLoop]
  have hn0 : normK 1 (⟨1, [1, ⟨0, 1⟩]⟩ : MField ℝ) ⟨1, 1, 0⟩ 0 = 1 := hn 0 (by omega)
  have hn1 : normK 1 (⟨1, [1, ⟨0, 1⟩]⟩ : MField ℝ) ⟨1, 1, 0⟩ 1 = ⟨0, 1⟩ := hn 1 (by omega)
  have h11 : (1 : Cx ℝ) ≠ 0 := fun h => by simpa using congrArg Cx.re h
  have hT : TSplit 1 (⟨1, [1, ⟨0, 1⟩]⟩ : MField ℝ) ⟨1, 1, 0⟩ := Or.inl (by rw [hn0]; exact h11)
  rw [tr_form (by norm_num) (by norm_num) one_ne_zero]
  simp only [hn1, hne, ne_eq, not_false_eq_true, if_true, hT, decide_true, hst, quad_closed _ _ one_ne_zero]
  unfold trBody
  simp only [Outcome.bind, if_true, if_pos hphi', rotateZ_turn (show eps < |-(π / 4)| by rwa [abs_neg]), rotateZ_turn hphi, t0,
    applyMap_eq _ (quad_inside _ _), act_origin]
  rw [kick_same (same_without _ 1), TransportMaps.kick, if_neg (by norm_num), getField_ok (by simp [without]; linarith), hfield]
  simp only [Outcome.bind, particle]
  intro h
  have e := turn_inj (Outcome.ok.inj h)
  have ey := congrArg PS.y e
  simp only [act_eq, quad_lin, quad_quad, addPS, bendSlopes, turn, Cx.smul, Cx.mul_im, cos_neg, sin_neg] at ey
  have hS : 0 < sK (-1) (1 / 2) := by
    unfold sK
    rw [if_neg (by norm_num), if_neg (by norm_num)]
    simp [sinh_pos_iff]
  have hs : (0 : ℝ) < √2 / 2 := by positivity
  rw [one_div] at hS
  have := mul_pos hS hs
  simp at ey
  linarith

/-! ## C213: magnets switched off -/

theorem off_normK {ec : ℝ} {m : MField ℝ} (h : m.b0 = 0) (b : Bunch) (n : Nat) : ¬ normK ec m b n ≠ 0 := by
  unfold normK
  rw [smul_ne, h]
  simp

/-- C213 (partial: fields without a gradient coefficient, or with nothing else): a magnet whose scale is zero acts as a
straight line, first set. -/
theorem thin_off_partial {eps ec : ℝ} (h0 : 0 ≤ eps) {c : Mag} {b : Bunch} (hp : b.p0 ≠ 0) (he : ec ≠ 0)
    (hb : c.field.b0 = 0) (hn : c.field.terms.getD 1 0 = 0 ∨ (c.field.terms.getD 0 0 = 0 ∧ c.field.terms.length ≤ 2))
    {ds : ℝ} (hs : ds ≠ 0) {v : PS} (hd : 1 + v.dp ≠ 0) : particle (thinStep eps ec c b ds v) = .ok (line ds v) := by
  have hK := off_normK (ec := ec) hb b 1
  by_cases hS : Split c.field
  · have h1 : c.field.terms.getD 1 0 = 0 := by
      rcases hn with h | ⟨h, h'⟩
      · exact h
      · rcases hS with g | g
        · exact absurd h g
        · omega
    obtain ⟨m', -, e⟩ := thin_split (eps := eps) hp he hS hs v
    rw [e]
    simp only [thinHalf, hK, if_false, h1, true_or, if_true]
    have hk : thinKick eps ec (without c.field 1) ds b (line (ds / 2) v) = .ok (line (ds / 2) v) := by
      rw [thinKick, if_neg (by rw [not_or]; exact ⟨hp, hd⟩), field_null eps _ (by simpa [without, hb] using h0)]
      simp [Outcome.bind, Cx.smul]
    rw [hk, Outcome.bind, particle, Outcome.bind, line_add, add_halves]
  · rw [thin_plain hp he hS hs]
    simp only [thinHalf, hK, if_false]
    rfl

/-- C213 (violated): in the first set a magnet with a gradient and other components whose scale is zero puts every
particle on the axis. -/
theorem thin_off_violated {eps ec : ℝ} (h0 : 0 ≤ eps) {c : Mag} {b : Bunch} (hp : b.p0 ≠ 0) (he : ec ≠ 0)
    (hb : c.field.b0 = 0) (h1 : c.field.terms.getD 1 0 ≠ 0) (hS : c.field.terms.getD 0 0 ≠ 0 ∨ 2 < c.field.terms.length)
    {ds : ℝ} (hs : ds ≠ 0) {v : PS} (hd : 1 + v.dp ≠ 0) :
    particle (thinStep eps ec c b ds v) = .ok ⟨0, 0, 0, 0, v.ct, v.dp⟩ := by
  have hK := off_normK (ec := ec) hb b 1
  obtain ⟨m', -, e⟩ := thin_split (eps := eps) hp he hS hs v
  rw [e]
  have hk : thinKick eps ec (without c.field 1) ds b (line (ds / 2) v) = .ok (line (ds / 2) v) := by
    rw [thinKick, if_neg (by rw [not_or]; exact ⟨hp, hd⟩), field_null eps _ (by simpa [without, hb] using h0)]
    simp [Outcome.bind, Cx.smul]
  simp only [thinHalf, hK, if_false, h1, or_self, hk, Outcome.bind, particle]
  rfl

/-- A quadrupole with a sextupole component, switched off. -/
example : (⟨0, [0, 1, 1]⟩ : MField ℝ).terms.getD 1 0 ≠ 0 := fun h => by simpa using congrArg Cx.re h

/-- C213: a magnet whose scale is zero acts as a straight line, second order set. -/
theorem tr_off {eps ec : ℝ} (h0 : 0 ≤ eps) {c : Mag} {b : Bunch} (hp : b.p0 ≠ 0) (he : ec ≠ 0)
    (hb : c.field.b0 = 0) (ds : ℝ) {v : PS} (hd : 1 + v.dp ≠ 0) : particle (trStep eps ec c b ds v) = .ok (lineDelay ds v) := by
  by_cases hs : ds = 0
  · have hn : isNull eps c.field = true := by simpa [isNull, hb] using h0
    rw [trStep, if_neg (by simp [hn]), if_pos hs, hs]
    simp [particle, Outcome.bind, lineDelay, line]
  · rw [tr_form hp he hs]
    have h1 := off_normK (ec := ec) hb b 1
    have h2 := off_normK (ec := ec) hb b 2
    simp only [h1, h2, if_false]
    split
    · have hk : TransportMaps.kick eps ec c.field ds b 0 (lineDelay (ds / 2) v) = .ok (lineDelay (ds / 2) v) := by
        rw [TransportMaps.kick, if_neg (by rw [not_or]; exact ⟨hp, hd⟩), field_null eps _ (by simpa [hb] using h0)]
        simp [Outcome.bind]
      rw [hk, Outcome.bind, particle, Outcome.bind, lineDelay_add, add_halves]
    · rfl

/-- C213: a magnet whose scale is zero acts as a straight line, symplectic set. -/
theorem sy_off {eps ec : ℝ} (h0 : 0 ≤ eps) {c : Mag} {b : Bunch} (hp : b.p0 ≠ 0) (he : ec ≠ 0)
    (hb : c.field.b0 = 0) {ds : ℝ} (hs : ds ≠ 0) (v w : PS) :
    particle (syStep eps ec c b ds v) = .ok w ↔ Straight ds v w := by
  have h1 := off_normK (ec := ec) hb b 1
  obtain ⟨f, g, -, -, e⟩ := sy_form (eps := eps) (c := c) hp he hs v
  rw [e]
  simp only [h1, if_false]
  by_cases hS : Split c.field
  · rw [if_pos hS]
    have hk : ∀ u, multipoleKick eps ec (without c.field 1) ds (beam b) 0 u = .ok u := fun u => by
      rw [multipoleKick, if_neg (show ¬ (beam b).p0 = 0 from hp), field_null eps _ (by simpa [without, hb] using h0)]
      simp [Outcome.bind]
    simp only [hk, show ∀ (a : PS) (f : PS → Outcome Unit (PS × MField ℝ)), (Outcome.ok a).bind f = f a from
      fun _ _ => rfl]
    rw [drift_half]
    constructor
    · intro h
      obtain ⟨m', h⟩ := particle_ok h
      obtain ⟨u, hu, h⟩ := bind_ok_iff.1 h
      obtain ⟨u', hu', h⟩ := bind_ok_iff.1 h
      cases h
      exact ⟨u, (drift_straight _ _ _).1 hu, (drift_straight _ _ _).1 hu'⟩
    · rintro ⟨u, hu, hw⟩
      rw [(drift_straight _ _ _).2 hu, Outcome.bind, (drift_straight _ _ _).2 hw]
      rfl
  · rw [if_neg hS, ← drift_straight]
    unfold particle
    cases Symplectic.driftMap ds v <;> simp [Outcome.bind]

end

end Verif.RectMultipole
