import Verif.TransportMaps.Step

/-!
# Properties C200-C206: the second order maps and the bend of the transport integrators
-/

namespace Verif.TransportMaps
open Verif Verif.Multipole Verif.Symplectic Verif.Symplectic.Spec Verif.TransportMaps.Spec Verif.Transport Real

/-- A particle with all coordinates different from zero. -/
noncomputable def sample : PS := ⟨1 / 100, -1 / 200, 1 / 300, 1 / 400, 1 / 500, 1 / 600⟩

/-! ## C200: straight elements -/

/-- C200: the maps of a drift, a quadrupole and a sextupole follow the Lorentz equations to second order, the delay
included, with slopes as transverse coordinates. -/
theorem straight_follow (z : PS) :
    Follows (lorentz 0 noField noField) (fun s => applyMap (driftTM s)) z ∧
    (∀ K ≠ 0, Follows (lorentz 0 (fun _ y => K * y) (fun x _ => K * x))
      (fun s v => (quadrupoleTM s K).bind fun m => applyMap m v) z) ∧
    ∀ K, Follows (lorentz 0 (fun x y => K * (x * y)) (fun x y => K / 2 * (x ^ 2 - y ^ 2)))
      (fun s => applyMap (sextupoleTM s K)) z := by
  refine ⟨?_, fun K hK => ?_, fun K => ?_⟩
  · have := drift_follows z
    have e1 : bxField 0 0 = noField := by funext x y; simp [bxField, noField]
    have e2 : byField 0 0 0 = noField := by funext x y; simp [byField, noField]
    rwa [e1, e2] at this
  · have := quad_follows K hK z
    have e1 : bxField K 0 = fun _ y => K * y := by funext x y; simp [bxField]
    have e2 : byField 0 K 0 = fun x _ => K * x := by funext x y; simp [byField]
    rwa [e1, e2] at this
  · have := sext_follows K z
    have e1 : bxField 0 (K / 2) = fun x y => K * (x * y) := by funext x y; simp only [bxField]; ring
    have e2 : byField 0 0 (K / 2) = fun x y => K / 2 * (x ^ 2 - y ^ 2) := by funext x y; simp only [byField]; ring
    rwa [e1, e2] at this

/-- A defocusing quadrupole and a particle off the axis. -/
example : Follows (lorentz 0 (fun _ y => -3 * y) (fun x _ => -3 * x))
    (fun s v => (quadrupoleTM s (-3)).bind fun m => applyMap m v) sample := (straight_follow sample).2.1 (-3) (by norm_num)

/-- C200 fails for the quadrupole without gradient: there is no limit, the map consists of numbers which are none. -/
theorem quadrupole_zero_violated (s : ℝ) : quadrupoleTM s 0 = .ub := by simp [quadrupoleTM]

/-! ## C201: the sector bend -/

/-- C201 (partial: particles without mass, or with the reference momentum): the map of a sector bend follows the Lorentz
equations to second order with transverse momenta in units of the reference momentum. -/
theorem sector_follow_partial {h : ℝ} (hh : h ≠ 0) {gamma : Option ℝ} (hg : ∀ g, gamma = some g → 1 < g) {z : PS}
    (hz : gamma = none ∨ z.dp = 0) : Follows (canonical h noField fun _ _ => h)
      (fun s v => (sectorBendTM s h gamma).bind fun m => applyMap m v) z := sector_follows h hh gamma hg z hz

example : Follows (canonical (1 / 10) noField fun _ _ => 1 / 10)
    (fun s v => (sectorBendTM s (1 / 10) none).bind fun m => applyMap m v) sample :=
  sector_follow_partial (by norm_num) (fun g e => by simp at e) (Or.inl rfl)

example : (2 : ℝ) > 1 ∧ ({ sample with dp := 0 } : PS).dp = 0 ∧ sample.x ≠ 0 := ⟨by norm_num, rfl, by norm_num [sample]⟩

/-- C201 fails at any energy of particles with mass: off the reference momentum the map has terms with the energy where
the equations have none. -/
theorem sector_energy_violated {h : ℝ} (hh : h ≠ 0) {g : ℝ} (hg : 1 < g) :
    ∃ z, ¬ FollowsTrans (canonical h noField fun _ _ => h)
      (fun s v => (sectorBendTM s h (some g)).bind fun m => applyMap m v) z :=
  ⟨_, sector_not_canonical h hh g hg⟩

example : (1 / 10 : ℝ) ≠ 0 ∧ (1 : ℝ) < 1000 := by norm_num

/-- C201 fails for a straight magnet: there is no map. -/
theorem sector_straight_violated (s : ℝ) (gamma : Option ℝ) : sectorBendTM s 0 gamma = .ub := by simp [sectorBendTM]

/-! ## C202: the combined function bend -/

/-- C202 (partial: transverse coordinates of particles which start with position or angle zero in the plane of the
bend): the map of a bend with gradient and sextupole component follows the Lorentz equations to second order in the
field that continues the one in the plane of the bend. -/
theorem combined_follow_partial {h K1 : ℝ} (K2 : ℝ) (hh : h ≠ 0) (hK : K1 ≠ 0) (hk : K1 + h * h ≠ 0)
    (hW : K1 + h * h + 4 * K1 ≠ 0) {z : PS} (hz : z.x * z.px = 0) :
    FollowsTrans (lorentz h (bxField K1 K2) (byField h K1 K2))
      (fun s v => (genSectorBendTM s h K1 K2).bind fun m => applyMap m v) z := gen_follows K2 hh hK hk hW z hz

/-- Curvature, gradient and particle for these theorems. -/
example : (1 / 10 : ℝ) ≠ 0 ∧ (2 : ℝ) ≠ 0 ∧ (2 : ℝ) + 1 / 10 * (1 / 10) ≠ 0 ∧ (2 : ℝ) + 1 / 10 * (1 / 10) + 4 * 2 ≠ 0 ∧
    ({ sample with px := 0 } : PS).x * ({ sample with px := 0 } : PS).px = 0 := by norm_num [sample]

/-- C202 fails for all such bends: the term for the product of position and angle is wrong. -/
theorem combined_product_violated {h K1 : ℝ} (K2 : ℝ) (hh : h ≠ 0) (hK : K1 ≠ 0) (hk : K1 + h * h ≠ 0)
    (hW : K1 + h * h + 4 * K1 ≠ 0) : ¬ FollowsTrans (lorentz h (bxField K1 K2) (byField h K1 K2))
      (fun s v => (genSectorBendTM s h K1 K2).bind fun m => applyMap m v) ⟨1, 1, 0, 0, 0, 0⟩ :=
  gen_not_follows K2 hh hK hk hW

/-- C202 fails for all such bends: the delay of particles with an angle is wrong. -/
theorem combined_delay_violated {h K1 : ℝ} (K2 : ℝ) (hh : h ≠ 0) (hK : K1 ≠ 0) (hk : K1 + h * h ≠ 0)
    (hW : K1 + h * h + 4 * K1 ≠ 0) : ¬ Follows (lorentz h (bxField K1 K2) (byField h K1 K2))
      (fun s v => (genSectorBendTM s h K1 K2).bind fun m => applyMap m v) ⟨0, 1, 0, 0, 0, 0⟩ :=
  gen_not_delay K2 hh hK hk hW

/-- C202 fails for two gradients at each curvature, for which nothing is singular in the motion. -/
theorem combined_gradients_violated (s h K2 : ℝ) :
    genSectorBendTM s h (-(h * h)) K2 = .ub ∧ genSectorBendTM s h (-(h * h) / 5) K2 = .ub := by
  constructor
  · rw [genSectorBendTM, if_pos (Or.inr (Or.inr (Or.inl (by ring))))]
  · rw [genSectorBendTM, if_pos (Or.inr (Or.inr (Or.inr (by ring))))]

/-! ## C203: pole faces -/

/-- C203: to first order a pole face is a thin lens with the tangent of its angle, reduced by the gap in the vertical
plane. -/
theorem face_lens {h K1 beta c fint hgap : ℝ} {ent : Bool} {M : RT} (hM : poleFaceTM h K1 beta c fint hgap ent = .ok M)
    (z : PS) : ∃ q : PS, ∀ e, applyMap M (scale e z) = .ok
      ⟨e * z.x + e ^ 2 * q.x, e * (z.px + h * tan beta * z.x) + e ^ 2 * q.px, e * z.y + e ^ 2 * q.y,
        e * (z.py - h * tan (beta - 2 * fint * hgap * h * (1 + sin beta ^ 2) / cos beta) * z.y) + e ^ 2 * q.py,
        e * z.ct, e * z.dp⟩ := by
  unfold poleFaceTM at hM
  simp only at hM
  split at hM
  · cases hM
  · cases hM
    have ea : -(2 * fint * hgap * h * (1 + sin beta * sin beta) / cos beta) + beta =
        beta - 2 * fint * hgap * h * (1 + sin beta ^ 2) / cos beta := by ring
    rw [ea]
    have key : ∀ f g a b A B D : ℝ, ∃ q : PS, ∀ e, faceMap f g a b A B D (scale e z) =
        ⟨e * z.x + e ^ 2 * q.x, e * (z.px + f * z.x) + e ^ 2 * q.px, e * z.y + e ^ 2 * q.y,
          e * (z.py - g * z.y) + e ^ 2 * q.py, e * z.ct, e * z.dp⟩ := fun f g a b A B D => by
      refine ⟨⟨-a * z.x ^ 2 + b * z.y ^ 2, 2 * a * (z.x * z.px - z.y * z.py) + A * z.x ^ 2 + B * z.y ^ 2,
        2 * a * (z.x * z.y), -2 * a * (z.x * z.py) - 2 * b * (z.px * z.y) + D * (z.x * z.y), 0, 0⟩, fun e => ?_⟩
      simp only [faceMap, scale, PS.mk.injEq]
      refine ⟨?_, ?_, ?_, ?_, trivial, trivial⟩ <;> ring
    cases ent
    · simp only [face_exit]
      rw [mul_comm h (tan beta)]
      obtain ⟨q, hq⟩ := key (tan beta * h) _ _ _ _ _ _
      exact ⟨q, fun e => congrArg _ (hq e)⟩
    · simp only [face_entrance]
      rw [mul_comm h (tan beta)]
      obtain ⟨q, hq⟩ := key (tan beta * h) _ _ _ _ _ _
      exact ⟨q, fun e => congrArg _ (hq e)⟩

example : ∃ M, poleFaceTM (1 / 10) 1 (π / 4) 0 0 0 true = .ok M := by
  have hc : cos (π / 4) ≠ 0 := by rw [cos_pi_div_four]; positivity
  simp [poleFaceTM, hc]

/-- C203, characterisation: a pole face keeps the canonical form to second order if and only if the gradient of the
magnet times the tangent of the angle balances the effect of the gap. -/
theorem face_symplectic_iff {h K1 beta fint hgap : ℝ} {ent : Bool} {M : RT}
    (hM : poleFaceTM h K1 beta 0 fint hgap ent = .ok M) : SymplecticTo (applyMap M) ↔
      3 * K1 * tan beta = (if ent then 1 else -1) * (h ^ 2 * tan beta ^ 2 *
        (tan (beta - 2 * fint * hgap * h * (1 + sin beta ^ 2) / cos beta) - tan beta)) := by
  unfold poleFaceTM at hM
  simp only at hM
  split at hM
  · cases hM
  · cases hM
    have ea : -(2 * fint * hgap * h * (1 + sin beta * sin beta) / cos beta) + beta =
        beta - 2 * fint * hgap * h * (1 + sin beta ^ 2) / cos beta := by ring
    rw [ea]
    cases ent
    · rw [face_symplectic _ _ _ _ _ _ _ _ (fun v => face_exit _ _ _ _ _ _ v)]
      simp only [Bool.false_eq_true, if_false]
      constructor <;> intro e <;> linear_combination e
    · rw [face_symplectic _ _ _ _ _ _ _ _ (fun v => face_entrance _ _ _ _ _ _ v)]
      simp only [if_true]
      constructor <;> intro e <;> linear_combination e

/-- C203 (partial: sector faces, or no gradient and no gap): a pole face keeps the canonical form to second order. -/
theorem face_symplectic_partial {h K1 beta fint hgap : ℝ} {ent : Bool} {M : RT}
    (hM : poleFaceTM h K1 beta 0 fint hgap ent = .ok M) (hs : beta = 0 ∨ K1 = 0 ∧ fint * hgap = 0) :
    SymplecticTo (applyMap M) := by
  rw [face_symplectic_iff hM]
  rcases hs with rfl | ⟨rfl, hg⟩
  · simp
  · have : 2 * fint * hgap = 0 := by rw [mul_assoc, hg, mul_zero]
    simp [this]

/-- A face at an angle without gradient, and a gap without fringe. -/
example : ∃ M, poleFaceTM (1 / 10) 0 (π / 4) 0 0 1 false = .ok M ∧ SymplecticTo (applyMap M) := by
  have hc : cos (π / 4) ≠ 0 := by rw [cos_pi_div_four]; positivity
  have he : ∃ M, poleFaceTM (1 / 10) 0 (π / 4) 0 0 1 false = .ok M := by simp [poleFaceTM, hc]
  obtain ⟨M, hM⟩ := he
  exact ⟨M, hM, face_symplectic_partial hM (Or.inr ⟨rfl, by norm_num⟩)⟩

/-- C203 fails: a face at an angle of a magnet with gradient does not keep the form. -/
theorem face_symplectic_violated : ∃ M, poleFaceTM (1 / 10) 1 (π / 4) 0 0 0 true = .ok M ∧ ¬ SymplecticTo (applyMap M) := by
  have hc : cos (π / 4) ≠ 0 := by rw [cos_pi_div_four]; positivity
  have he : ∃ M, poleFaceTM (1 / 10) 1 (π / 4) 0 0 0 true = .ok M := by simp [poleFaceTM, hc]
  obtain ⟨M, hM⟩ := he
  refine ⟨M, hM, fun h => ?_⟩
  rw [face_symplectic_iff hM] at h
  simp [tan_pi_div_four] at h

/-- Passing the entrance and the exit of an upright bend. -/
noncomputable def bothFaces (eps ec : ℝ) (c : Bend) (b : Bunch) (v : PS) : Outcome Unit PS :=
  (trackEntrance eps ec c b v).bind (trackExit eps ec c b)

theorem face_flat (h K : ℝ) (ent : Bool) : ∃ M, poleFaceTM h K 0 0 0 0 ent = .ok M ∧ ∀ v, applyMap M v = .ok
    ⟨v.x + (if ent then 1 else -1) * (h / 2 * v.y ^ 2), v.px, v.y, v.py - (if ent then 1 else -1) * (h * (v.px * v.y)),
      v.ct, v.dp⟩ := by
  have e : poleFaceTM h K 0 0 0 0 ent = .ok (poleFaceTerms h K 0 0 1 0 ent) := by simp [poleFaceTM]
  refine ⟨_, e, fun v => ?_⟩
  cases ent
  · rw [face_exit]
    simp only [faceMap, Outcome.ok.injEq, PS.mk.injEq, Bool.false_eq_true, if_false]
    refine ⟨?_, ?_, ?_, ?_, trivial, trivial⟩ <;> ring
  · rw [face_entrance]
    simp only [faceMap, Outcome.ok.injEq, PS.mk.injEq, if_true]
    refine ⟨?_, ?_, ?_, ?_, trivial, trivial⟩ <;> ring

theorem getKn_ok {m : MField ℝ} {r : ℝ} (hr : r ≠ 0) : ∃ K, getKn m 1 r = .ok K := by
  unfold getKn
  rw [if_neg hr]
  split <;> exact ⟨_, rfl⟩

/-- C203: with two faces given separately and parallel to the ends of the sector, the fringe fields at entrance and exit
are inverse to each other. -/
theorem fringe_cancel (eps : ℝ) {ec h : ℝ} {m : MField ℝ} {b : Bunch} {f g : Face} (hr : b.p0 / ec ≠ 0) (hf : f.rot = 0 ∧ f.fint = 0 ∧ f.hgap = 0)
    (hg : g.rot = 0 ∧ g.fint = 0 ∧ g.hgap = 0) (v : PS) : bothFaces eps ec ⟨h, 0, m, setInfo2 f g⟩ b v = .ok v := by
  obtain ⟨K, hK⟩ := getKn_ok (m := m) hr
  obtain ⟨M1, e1, a1⟩ := face_flat h K.re true
  obtain ⟨M2, e2, a2⟩ := face_flat h K.re false
  simp [bothFaces, trackEntrance, trackExit, applyFace, hK, Outcome.bind, setInfo2, hf.1, hf.2.1, hf.2.2, hg.1, hg.2.1,
    hg.2.2, e1, e2, a1, a2]

example : ((2 : ℝ) / 3 ≠ 0) ∧ ((⟨0, 0, 0, 5⟩ : Face).rot = 0) := by norm_num

/-- C203 fails for a bend without pole faces, and for one face given for both ends: the fringe field at the entrance is
that of an exit, and the two add up. -/
theorem fringe_cancel_violated (eps : ℝ) {ec h : ℝ} {m : MField ℝ} {b : Bunch} (hr : b.p0 / ec ≠ 0) {i : FaceInfo}
    (hi : i = ⟨none, none⟩ ∨ ∃ t, i = setInfo1 ⟨0, 0, 0, t⟩) (v : PS) : bothFaces eps ec ⟨h, 0, m, i⟩ b v = .ok
      ⟨v.x - h * v.y ^ 2, v.px, v.y, v.py + 2 * (h * (v.px * v.y)), v.ct, v.dp⟩ := by
  obtain ⟨K, hK⟩ := getKn_ok (m := m) hr
  obtain ⟨M2, e2, a2⟩ := face_flat h K.re false
  have fin : (⟨v.x + -(h / 2 * v.y ^ 2) + -(h / 2 * v.y ^ 2), v.px, v.y,
      v.py + h * (v.px * v.y) + h * (v.px * v.y), v.ct, v.dp⟩ : PS) =
      ⟨v.x - h * v.y ^ 2, v.px, v.y, v.py + 2 * (h * (v.px * v.y)), v.ct, v.dp⟩ := by
    simp only [PS.mk.injEq]
    refine ⟨?_, trivial, trivial, ?_, trivial, trivial⟩ <;> ring
  rcases hi with rfl | ⟨t, rfl⟩
  · simp [bothFaces, trackEntrance, trackExit, applyFace, hK, Outcome.bind, e2, a2, fin]
  · simp [bothFaces, trackEntrance, trackExit, applyFace, hK, Outcome.bind, e2, a2, fin, setInfo1]

example : (⟨none, none⟩ : FaceInfo) = ⟨none, none⟩ ∧ (1 : ℝ) - 1 * 1 ^ 2 ≠ 1 := by norm_num

/-! ## C204: the step in a bend -/

/-- C204 (partial: dipole field, particles without mass): the steps in a bend which matches the beam within the tolerance
follow the Lorentz equations to second order. -/
theorem bend_follow_partial {eps tol ec cl h t B b : ℝ} {f : FaceInfo} {bu : Bunch} (hh : h ≠ 0) (hq : bu.q ≠ 0)
    (hp : 0 < cl * (b * B) / h / bu.q) (hm : |bu.p0 - cl * (b * B) / h / bu.q| ≤ tol) (h0 : bu.mass = 0) (z : PS) :
    Follows (canonical h noField fun _ _ => h)
      (fun s v => (trackBend eps tol ec cl ⟨h, t, ⟨B, [⟨b, 0⟩]⟩, f⟩ bu s v).bind fun r => .ok r.1) z := by
  have hs := sector_follows h hh none (fun g e => by simp at e) z (Or.inl rfl)
  have e : (fun s v => (trackBend eps tol ec cl ⟨h, t, ⟨B, [⟨b, 0⟩]⟩, f⟩ bu s v).bind fun r => (.ok r.1 : Outcome Unit PS)) =
      fun s v => (sectorBendTM s h none).bind fun m => applyMap m v := by
    funext s v
    by_cases hd : s = 0
    · subst hd
      simp only [sectorBendTM, if_neg hh, Outcome.bind]
      rw [applyMap_eq _ (sector_inside ..), sector_zero h 1 0 hh one_ne_zero, trackBend, if_pos rfl]
    · rw [bend_dipole hd hh hq hp]
      have : gammaOf bu = none := by simp [gammaOf, h0]
      rw [this]
      simp only [sectorBendTM, if_neg hh, Outcome.bind, applyBend, if_pos hm]
      rw [applyMap_eq _ (sector_inside ..)]
  rw [e]; exact hs

example : (0 : ℝ) < 1 * (2 * 3) / 2 / 1 ∧ |(3 : ℝ) - 1 * (2 * 3) / 2 / 1| ≤ 0 := by norm_num

/-- C204 (partial: transverse coordinates of particles which start with position or angle zero, whose momentum enters in
the units of the matched one): with a gradient, the steps follow the Lorentz equations with the normalised gradient. -/
theorem bend_gradient_partial {eps tol ec cl h t B b b1 : ℝ} {f : FaceInfo} {bu : Bunch} (hh : h ≠ 0) (hq : bu.q ≠ 0)
    (hp : 0 < cl * (b * B) / h / bu.q) (hm : |bu.p0 - cl * (b * B) / h / bu.q| ≤ tol) (hr : bu.p0 / ec ≠ 0)
    {K1 : ℝ} (hK : K1 = bu.q * (B * b1) * ec / bu.p0) (hK0 : K1 ≠ 0) (hk : K1 + h * h ≠ 0) (hW : K1 + h * h + 4 * K1 ≠ 0)
    {z : PS} (hz : z.x * z.px = 0) : FollowsTrans (lorentz h (bxField K1 0) (byField h K1 0))
      (fun s v => (trackBend eps tol ec cl ⟨h, t, ⟨B, [⟨b, 0⟩, ⟨b1, 0⟩]⟩, f⟩ bu s v).bind fun r => .ok r.1) z := by
  have hg : gradient ec B b1 bu = K1 := by rw [hK, gradient]; field_simp
  have hs := gen_follows 0 hh hK0 hk hW z hz
  have e : (fun s v => (trackBend eps tol ec cl ⟨h, t, ⟨B, [⟨b, 0⟩, ⟨b1, 0⟩]⟩, f⟩ bu s v).bind
      fun r => (.ok r.1 : Outcome Unit PS)) = fun s v => (genSectorBendTM s h K1 0).bind fun m => applyMap m v := by
    funext s v
    by_cases hd : s = 0
    · subst hd
      rw [gen_closed 0 h K1 0 hh hK0 hk hW, trackBend, if_pos rfl]
      simp only [Outcome.bind]
      rw [applyMap_eq _ (gen_inside ..), gen_act_zero 0 hk hW]
    · rw [bend_gradient hd hh hq hp hr (by rw [hg]; exact hK0), hg, gen_closed s h K1 0 hh hK0 hk hW]
      simp only [Outcome.bind, applyBend, if_pos hm]
      rw [applyMap_eq _ (gen_inside ..)]
  rw [e]; exact hs

example : (2 : ℝ) = 1 * (1 * 2) * 1 / 1 ∧ (2 : ℝ) + 1 * 1 ≠ 0 ∧ (2 : ℝ) + 1 * 1 + 4 * 2 ≠ 0 := by norm_num

/-- C204 fails: a gradient that is skew gives numbers which are none, for every beam. -/
theorem bend_skew_gradient_violated {eps tol ec cl h t B b a ds : ℝ} {f : FaceInfo} {bu : Bunch} (v : PS) (hd : ds ≠ 0)
    (hq : bu.q ≠ 0) (hB : B ≠ 0) (hr : bu.p0 / ec ≠ 0) (ha : a ≠ 0) :
    trackBend eps tol ec cl ⟨h, t, ⟨B, [⟨b, 0⟩, ⟨0, a⟩]⟩, f⟩ bu ds v = .ub := by
  have hk : getKn (⟨B, [⟨b, 0⟩, ⟨0, a⟩]⟩ : MField ℝ) 1 (bu.p0 / ec) = .ok ⟨0, B / (bu.p0 / ec) * a⟩ := by
    simp [getKn, hr, Cx.smul, factorial, factLoop]
  unfold trackBend
  rw [if_neg hd, coef_two]
  simp only
  split
  · rfl
  · split
    · rfl
    · rw [if_pos (by simp [highest]), hk]
      simp only [Outcome.bind]
      have e2 : ¬ (Cx.smul bu.q (⟨0, B / (bu.p0 / ec) * a⟩ : Cx ℝ) = 0) := fun e => by
        have := congrArg Cx.im e
        simp only [Cx.smul] at this
        have h2 : bu.q * (B / (bu.p0 / ec) * a) ≠ 0 := by positivity
        exact h2 this
      rw [if_neg e2]
      have e3 : ∀ s, genSectorBendTM s h (Cx.smul bu.q (⟨0, B / (bu.p0 / ec) * a⟩ : Cx ℝ)).re 0 = .ub := fun s => by
        rw [genSectorBendTM, if_pos (Or.inr (Or.inl (by simp [Cx.smul])))]
      rw [e3]

example : (1 : ℝ) ≠ 0 ∧ (2 : ℝ) / 3 ≠ 0 := by norm_num

/-- C204: in a bend with a sextupole component the particles pass half of the length in the dipole alone, are deflected by
the sextupole over the whole length, inversely to their momentum, and pass the other half in the dipole. -/
theorem bend_sextupole {eps tol ec cl h t B b s ds : ℝ} {f : FaceInfo} {bu : Bunch} {v : PS} (hd : ds ≠ 0) (hh : h ≠ 0)
    (hq : bu.q ≠ 0) (hp : 0 < cl * (b * B) / h / bu.q) (hr : bu.p0 / ec ≠ 0) (hB : eps < |B|) (hv : 1 + v.dp ≠ 0) :
    ((trackBend eps tol ec cl ⟨h, t, ⟨B, [⟨b, 0⟩, ⟨0, 0⟩, ⟨s, 0⟩]⟩, f⟩ bu ds v).bind fun r => .ok r.1) =
      (trackBend eps tol ec cl ⟨h, t, ⟨B, [⟨b, 0⟩]⟩, f⟩ bu (ds / 2) v).bind fun r =>
        (trackBend eps tol ec cl ⟨h, t, ⟨B, [⟨b, 0⟩]⟩, f⟩ bu (ds / 2) { r.1 with
          px := r.1.px - bu.q * ec * ds / bu.p0 * (B * s) * (r.1.x ^ 2 - r.1.y ^ 2) / (1 + v.dp)
          py := r.1.py + bu.q * ec * ds / bu.p0 * (B * s) * (2 * r.1.x * r.1.y) / (1 + v.dp) }).bind fun r => .ok r.1 := by
  have hd2 : ds / 2 ≠ 0 := div_ne_zero hd two_ne_zero
  have hp0 : bu.p0 ≠ 0 := fun e => hr (by rw [e, zero_div])
  have hk : ∀ u : PS, 1 + u.dp ≠ 0 → kick eps ec ⟨B, [⟨0, 0⟩, ⟨0, 0⟩, ⟨s, 0⟩]⟩ ds bu 0 u = .ok { u with
          px := u.px - bu.q * ec * ds / bu.p0 * (B * s) * (u.x ^ 2 - u.y ^ 2) / (1 + u.dp)
          py := u.py + bu.q * ec * ds / bu.p0 * (B * s) * (2 * u.x * u.y) / (1 + u.dp) } := fun u hu => by
    rw [kick, if_neg (by rintro (e | e); exacts [hp0 e, hu e])]
    have hg : getField2D eps (⟨B, [⟨0, 0⟩, ⟨0, 0⟩, ⟨s, 0⟩]⟩ : MField ℝ) u.x u.y (-1) =
        .ok ⟨B * (s * (u.x ^ 2 - u.y ^ 2)), B * (s * (2 * u.x * u.y))⟩ := by
      have hn : ¬ isNull eps (⟨B, [⟨0, 0⟩, ⟨0, 0⟩, ⟨s, 0⟩]⟩ : MField ℝ) = true := by
        simpa [isNull] using hB
      rw [getField2D, if_neg hn, if_neg (by simp), if_neg (by simp)]
      refine congrArg Outcome.ok ?_
      simp only [sumLoop, powLoop, List.drop, Int.reduceNeg, Int.reduceAdd, Int.toNat_zero]
      ext <;> simp [Cx.smul, Cx.mul_re, Cx.mul_im, -mul_eq_mul_left_iff] <;> ring
    simp only [hg, Outcome.bind]
    congr 1
    simp only [PS.mk.injEq, Cx.mul_re, Cx.mul_im, Cx.smul, cos_zero, sin_zero]
    refine ⟨trivial, ?_, trivial, ?_, trivial, trivial⟩ <;> ring
  have e0 : getCoefficient (⟨B, [⟨b, 0⟩, ⟨0, 0⟩, ⟨s, 0⟩]⟩ : MField ℝ) 0 1 = (⟨b, 0⟩, ⟨B, [⟨b, 0⟩, ⟨0, 0⟩, ⟨s, 0⟩]⟩) := by
    simp [getCoefficient, grow, Cx.smul]
  have e1 : getCoefficient (⟨B, [⟨b, 0⟩, ⟨0, 0⟩, ⟨s, 0⟩]⟩ : MField ℝ) 1 1 = (⟨0, 0⟩, ⟨B, [⟨b, 0⟩, ⟨0, 0⟩, ⟨s, 0⟩]⟩) := by
    simp [getCoefficient, grow, Cx.smul]
  have eK : getKn (⟨B, [⟨b, 0⟩, ⟨0, 0⟩, ⟨s, 0⟩]⟩ : MField ℝ) 1 (bu.p0 / ec) = .ok ⟨0, 0⟩ := by
    simp [getKn, hr, Cx.smul]
  have eq0 : Cx.smul bu.q (⟨0, 0⟩ : Cx ℝ) = 0 := by simp [Cx.smul]; rfl
  have es : setCoefficient (setCoefficient (⟨B, [⟨b, 0⟩, ⟨0, 0⟩, ⟨s, 0⟩]⟩ : MField ℝ) 0 ⟨0, 0⟩ 1) 1 ⟨0, 0⟩ 1 =
      ⟨B, [⟨0, 0⟩, ⟨0, 0⟩, ⟨s, 0⟩]⟩ := by simp [setCoefficient, grow]
  have esp : ((0 : ℝ) ≠ 0 ∨ (0 : Cx ℝ).im ≠ 0 ∨ highest (⟨B, [⟨b, 0⟩, ⟨0, 0⟩, ⟨s, 0⟩]⟩ : MField ℝ) > 1) := by
    simp [highest]
  rw [bend_dipole hd2 hh hq hp]
  simp only [bend_dipole hd2 hh hq hp]
  unfold trackBend
  rw [if_neg hd, e0]
  simp only
  rw [if_neg (by rintro (e | e); exacts [hh e, hq e]),
    if_neg (not_not.2 (show 0 < matchedMomentum cl h bu.q (b * B) from hp)), if_pos (by simp [highest]), eK]
  simp only [Outcome.bind, eq0]
  simp only [if_pos esp, if_true, e1, es]
  cases hM : sectorBendTM (ds / 2) h (gammaOf bu) with
  | throw e => rfl
  | ub => rfl
  | ok M =>
    show _ = Outcome.bind (Outcome.bind (applyBend tol M bu.p0 (matchedMomentum cl h bu.q (b * B)) v) _) _
    simp only [Outcome.bind]
    cases hv1 : applyBend tol M bu.p0 (matchedMomentum cl h bu.q (b * B)) v with
    | ok v1 =>
      have d1 := applyBend_dp (sector_keeps hM) hv1
      simp only
      rw [hk v1 (by rw [d1]; exact hv), d1]
      simp only
      rw [show cl * (b * B) / h / bu.q = matchedMomentum cl h bu.q (b * B) from rfl]
      cases applyBend tol M bu.p0 (matchedMomentum cl h bu.q (b * B)) _ <;> rfl
    | throw e => rfl
    | ub => rfl

example : (0 : ℝ) < 1 * (2 * 3) / 2 / 1 ∧ (2 : ℝ) / 1 ≠ 0 ∧ (0 : ℝ) < |3| ∧ (1 : ℝ) + 0 ≠ 0 := by norm_num

/-- C204: a step leaves the momentum of each particle and the field of the magnet as they were. -/
theorem bend_keeps {eps tol ec cl : ℝ} {c : Bend} {b : Bunch} {ds : ℝ} {v : PS} {r : PS × MField ℝ}
    (h : trackBend eps tol ec cl c b ds v = .ok r) : r.1.dp = v.dp ∧ SameField r.2 c.field := by
  have h0 : SameField (getCoefficient c.field 0 1).2 c.field := ⟨rfl, getCoefficient_snd c.field 0⟩
  unfold trackBend at h
  split at h
  · cases h; exact ⟨rfl, rfl, fun _ => rfl⟩
  · simp only at h
    split at h
    · cases h
    · split at h
      · cases h
      · obtain ⟨K, hK, h⟩ := bind_ok_iff.mp h
        obtain ⟨M, hM, h⟩ := bind_ok_iff.mp h
        obtain ⟨v1, hv1, h⟩ := bind_ok_iff.mp h
        have hMk : ∀ v, ∃ w, applyMap M v = .ok w ∧ w.dp = v.dp := by
          split at hM
          · exact sector_keeps hM
          · exact gen_keeps hM
        have d1 := applyBend_dp hMk hv1
        split at h
        · obtain ⟨v2, hv2, h⟩ := bind_ok_iff.mp h
          obtain ⟨v3, hv3, h⟩ := bind_ok_iff.mp h
          cases h
          refine ⟨(applyBend_dp hMk hv3).trans ((kick_dp hv2).trans d1), rfl, fun i => ?_⟩
          simp only [getD_set, getCoefficient_fst, getCoefficient_snd]
          split
          · rename_i e; rw [e]
          · split
            · rename_i e; rw [e]
            · rfl
        · cases h
          exact ⟨d1, h0⟩

/-- A step in a bend for any particle. -/
example (v : PS) : ∃ r, trackBend 0 0 1 1 ⟨1, 0, ⟨1, [⟨1, 0⟩]⟩, ⟨none, none⟩⟩ ⟨1, 1, 0⟩ 1 v = .ok r := by
  rw [bend_dipole one_ne_zero one_ne_zero (by norm_num) (by norm_num)]
  have : gammaOf ⟨1, 1, 0⟩ = none := by simp [gammaOf]
  rw [this]
  have p1 : |(1 : ℝ) - 1 * (1 * 1) / 1 / 1| ≤ 0 := by norm_num
  simp only [sectorBendTM, if_neg (one_ne_zero (α := ℝ)), Outcome.bind, applyBend, if_pos p1]
  rw [applyMap_eq _ (sector_inside ..)]
  exact ⟨_, rfl⟩

/-- C204: a particle on the axis whose momentum matches field and curvature stays on the axis, also if the beam has
another momentum. -/
theorem bend_axis {eps tol ec cl h t B b b1 ds : ℝ} {f : FaceInfo} {bu : Bunch} (ht : 0 ≤ tol) (hp0 : bu.p0 ≠ 0)
    {pref : ℝ} (hpr : pref = cl * (b * B) / h / bu.q) (hm : bu.p0 = pref ∨ tol < |bu.p0 - pref|) {l : List (Cx ℝ)}
    (hl : l = [⟨b, 0⟩] ∨ l = [⟨b, 0⟩, ⟨b1, 0⟩] ∧ gradient ec B b1 bu ≠ 0) {r : PS × MField ℝ}
    (hr : trackBend eps tol ec cl ⟨h, t, ⟨B, l⟩, f⟩ bu ds ⟨0, 0, 0, 0, 0, pref / bu.p0 - 1⟩ = .ok r) :
    r.1 = ⟨0, 0, 0, 0, 0, pref / bu.p0 - 1⟩ := by
  by_cases hd : ds = 0
  · rw [trackBend, if_pos hd] at hr
    cases hr; rfl
  have hh : h ≠ 0 ∧ bu.q ≠ 0 ∧ 0 < cl * (b * B) / h / bu.q := by
    have e : (getCoefficient (⟨B, l⟩ : MField ℝ) 0 1).1 = ⟨b, 0⟩ := by
      rcases hl with rfl | ⟨rfl, _⟩
      · rw [coef_one]
      · rw [coef_two]
    unfold trackBend at hr
    rw [if_neg hd] at hr
    simp only at hr
    split at hr
    · cases hr
    · rename_i hn
      rw [not_or] at hn
      split at hr
      · cases hr
      · rename_i hn2
        rw [not_not, e] at hn2
        exact ⟨hn.1, hn.2, hn2⟩
  obtain ⟨h1, h2, h3⟩ := hh
  have hpz : pref ≠ 0 := by rw [hpr]; exact h3.ne'
  rcases hl with rfl | ⟨rfl, hK⟩
  · rw [bend_dipole hd h1 h2 h3, ← hpr] at hr
    obtain ⟨M, hM, hr⟩ := bind_ok_iff.mp hr
    obtain ⟨w, hw, hr⟩ := bind_ok_iff.mp hr
    have hi : Inside M := by
      unfold sectorBendTM at hM
      rw [if_neg h1] at hM
      split at hM
      · cases hM; exact sector_inside ..
      · split at hM
        · cases hM
        · cases hM; exact sector_inside ..
    rw [applyBend_axis ht hi hp0 hpz hm] at hw
    cases hw; cases hr; rfl
  · have hr0 : bu.p0 / ec ≠ 0 := fun e => hK (by simp [gradient, e])
    rw [bend_gradient hd h1 h2 h3 hr0 hK, ← hpr] at hr
    obtain ⟨M, hM, hr⟩ := bind_ok_iff.mp hr
    obtain ⟨w, hw, hr⟩ := bind_ok_iff.mp hr
    have hi : Inside M := by
      by_cases hc : h = 0 ∨ gradient ec B b1 bu = 0 ∨ gradient ec B b1 bu + h * h = 0 ∨
        gradient ec B b1 bu + h * h + 4 * gradient ec B b1 bu = 0
      · rw [genSectorBendTM, if_pos hc] at hM; cases hM
      · simp only [not_or] at hc
        rw [gen_closed _ _ _ _ hc.1 hc.2.1 hc.2.2.1 hc.2.2.2] at hM
        cases hM; exact gen_inside ..
    rw [applyBend_axis ht hi hp0 hpz hm] at hw
    cases hw; cases hr; rfl

/-- Such a step: a beam of twice the matched momentum. -/
example : ∃ r, trackBend 0 0 1 1 ⟨1, 0, ⟨1, [⟨1, 0⟩]⟩, ⟨none, none⟩⟩ ⟨2, 1, 0⟩ 1 ⟨0, 0, 0, 0, 0, 1 / 2 - 1⟩ = .ok r := by
  rw [bend_dipole one_ne_zero one_ne_zero (by norm_num) (by norm_num)]
  have : gammaOf ⟨2, 1, 0⟩ = none := by simp [gammaOf]
  rw [this]
  simp only [sectorBendTM, if_neg (one_ne_zero (α := ℝ)), Outcome.bind]
  have p1 : ¬ |(2 : ℝ) - 1 * (1 * 1) / 1 / 1| ≤ 0 := by norm_num
  simp only [applyBend, if_neg p1, applyMap1]
  rw [applyMap_eq _ (sector_inside ..)]
  exact ⟨_, rfl⟩

/-- C204 (partial: no gradient, particles without mass): a beam of another momentum is treated as the same particles in a
beam of the matched momentum. -/
theorem bend_momentum_partial {eps tol ec cl h t B b ds : ℝ} {f : FaceInfo} {bu : Bunch} (ht : 0 ≤ tol) (hd : ds ≠ 0)
    (hh : h ≠ 0) (hq : bu.q ≠ 0) {pref : ℝ} (hpr : pref = cl * (b * B) / h / bu.q) (hp : 0 < pref)
    (hm : tol < |bu.p0 - pref|) (h0 : bu.mass = 0) (v : PS) :
    trackBend eps tol ec cl ⟨h, t, ⟨B, [⟨b, 0⟩]⟩, f⟩ bu ds v =
      (trackBend eps tol ec cl ⟨h, t, ⟨B, [⟨b, 0⟩]⟩, f⟩ { bu with p0 := pref } ds
        { v with dp := bu.p0 * (1 + v.dp) / pref - 1 }).bind fun r => .ok ({ r.1 with dp := v.dp }, r.2) := by
  have g1 : gammaOf bu = none := by simp [gammaOf, h0]
  have g2 : gammaOf { bu with p0 := pref } = none := by simp [gammaOf, h0]
  rw [bend_dipole hd hh hq (hpr ▸ hp), bend_dipole (bu := { bu with p0 := pref }) hd hh hq (hpr ▸ hp), g1, g2, ← hpr]
  simp only [sectorBendTM, if_neg hh, Outcome.bind, applyBend, if_neg (not_le.2 hm), sub_self, abs_zero, if_pos ht,
    applyMap1]
  rw [applyMap_eq _ (sector_inside ..), applyMap_eq _ (sector_inside ..)]
  have : bu.p0 / pref * (1 + v.dp) - 1 = bu.p0 * (1 + v.dp) / pref - 1 := by ring
  simp only [this]

example : (3 : ℝ) = 1 * (2 * 3) / 2 / 1 ∧ (1 / 1000 : ℝ) < |2 - 3| := by norm_num

/-- C204 fails with a gradient: its strength follows the momentum of the beam and, with the momentum deviation in units
of the matched momentum, that of the particle too. -/
theorem bend_momentum_violated : ∃ (c : Bend) (bu : Bunch) (v : PS), c.faces = ⟨none, none⟩ ∧
    matchedMomentum 1 c.h bu.q (1 * c.field.b0) = 1 ∧
    ∃ r r', trackBend 0 0 1 1 c bu 1 v = .ok r ∧
      trackBend 0 0 1 1 c { bu with p0 := 1 } 1 { v with dp := bu.p0 * (1 + v.dp) / 1 - 1 } = .ok r' ∧ r.1.y ≠ r'.1.y := by
  refine ⟨⟨1, 0, ⟨1, [⟨1, 0⟩, ⟨2, 0⟩]⟩, ⟨none, none⟩⟩, ⟨2, 1, 0⟩, ⟨0, 0, 1, 0, 0, -1 / 2⟩, rfl, by norm_num [matchedMomentum], ?_⟩
  have g1 : gradient 1 1 2 ⟨2, 1, 0⟩ = 1 := by norm_num [gradient]
  have g2 : gradient 1 1 2 ⟨1, 1, 0⟩ = 2 := by norm_num [gradient]
  have y1 : ∀ K1 C S c y : ℝ, (act (genMap 1 1 K1 0 C S c y) ⟨0, 0, 1, 0, 0, 0⟩).y = c := fun K1 C S c y => by
    have q := (gen_quad (h := 1) (K1 := K1) 1 0 C S c y rfl rfl (by ring) ⟨0, 0, 1, 0, 0, 0⟩).2.2.1
    rw [act_eq]
    simp only [addPS, q, gen_lin]
    ring
  rw [bend_gradient one_ne_zero one_ne_zero (by norm_num) (by norm_num) (by norm_num) (by rw [g1]; norm_num),
    bend_gradient one_ne_zero one_ne_zero (by norm_num) (by norm_num) (by norm_num) (by rw [g2]; norm_num), g1, g2,
    gen_closed 1 1 1 0 (by norm_num) (by norm_num) (by norm_num) (by norm_num),
    gen_closed 1 1 2 0 (by norm_num) (by norm_num) (by norm_num) (by norm_num)]
  have p1 : ¬ |(2 : ℝ) - 1 * (1 * 1) / 1 / 1| ≤ 0 := by norm_num
  have p2 : |(1 : ℝ) - 1 * (1 * 1) / 1 / 1| ≤ 0 := by norm_num
  simp only [Outcome.bind, applyBend, if_neg p1, if_pos p2, applyMap1]
  rw [applyMap_eq _ (gen_inside ..), applyMap_eq _ (gen_inside ..)]
  refine ⟨_, _, rfl, rfl, ?_⟩
  have e1 : (2 : ℝ) / (1 * (1 * 1) / 1 / 1) * (1 + -1 / 2) - 1 = 0 := by norm_num
  have e2 : (2 : ℝ) * (1 + -1 / 2) / 1 - 1 = 0 := by norm_num
  simp only [e1, e2, y1]
  have c1 : cK (-1) 1 = cosh 1 := by
    unfold cK; norm_num
  have c2 : cK (-2) 1 = cosh √2 := by
    unfold cK; norm_num
  rw [c1, c2]
  refine (Real.cosh_lt_cosh.2 ?_).ne
  rw [abs_one, abs_of_nonneg (Real.sqrt_nonneg _)]
  exact Real.lt_sqrt_of_sq_lt (by norm_num)

/-! ## C205: coordinates -/

/-- C205 (partial: particles with the reference momentum): drift and sector bend follow the Lorentz equations in the same
coordinates, be they slopes or momenta in units of the reference momentum. -/
theorem coordinates_partial {z : PS} (hz : z.dp = 0) :
    (Follows (canonical 0 noField fun _ _ => 0) (fun s => applyMap (driftTM s)) z) ∧
    ∀ h ≠ 0, ∀ gamma : Option ℝ, (∀ g, gamma = some g → 1 < g) →
      Follows (lorentz h (bxField 0 0) (byField h 0 0)) (fun s v => (sectorBendTM s h gamma).bind fun m => applyMap m v) z := by
  have same : ∀ h (a b : PS), a.dp = 0 → addPS (lorLin h 0 b) (lorQuad h 0 0 a) = addPS (canLin h b) (canQuad h a) := by
    intro h a b ha
    simp only [addPS, lorLin, lorQuad, canLin, canQuad, ha, PS.mk.injEq]
    refine ⟨?_, ?_, ?_, ?_, ?_, ?_⟩ <;> first | trivial | ring
  have same1 : ∀ h (a : PS), lorLin h 0 a = canLin h a := by
    intro h a
    simp only [lorLin, canLin, PS.mk.injEq]
    refine ⟨?_, ?_, ?_, ?_, ?_, ?_⟩ <;> first | trivial | ring
  constructor
  · refine follows_of _ z _ driftTM (fun s e => applyMap_eq _ (drift_inside s) _) (fun v => ?_) _ _
      (fun s => expand_canonical 0 _ _) (fun s => ?_) (fun s => ?_)
    · rw [act_eq, drift_lin, drift_quad]; simp [addPS]
    · rw [← same1]; simp only [drift_lin]; exact free_lin z s
    · rw [← same 0 _ _ (by rw [drift_lin]; exact hz)]
      simp only [drift_lin, drift_quad, addPS, lorLin, lorQuad]
      refine ⟨?_, ?_, ?_, ?_, ?_, ?_⟩ <;>
      · refine HasDerivAt.congr_deriv (by ader) ?_
        simp [hz]
        try ring
  · intro h hh gamma hg
    obtain ⟨b, g2, hb, -, hF⟩ := sector_run h hh gamma hg
    refine follows_of _ z _ (fun s => sectorTerms s h b g2) (fun s e => hF s _) (fun v => sector_zero h b g2 hh hb v) _ _
      (fun s => expand_lorentz h 0 0 _ _) (fun s => ?_) (fun s => ?_)
    · rw [same1]; exact sector_lin_der h b g2 hh z s
    · rw [same h _ _ (by rw [sector_lin]; exact hz)]
      exact sector_quad_der h b g2 hh hb z (Or.inl hz) s

/-- C205 fails: off the reference momentum the drift uses slopes and the sector bend momenta in units of the reference
momentum, and neither the other, so that no coordinates fit both. -/
theorem coordinates_violated {h : ℝ} (hh : h ≠ 0) (gamma : Option ℝ) (hg : ∀ g, gamma = some g → 1 < g) :
    ¬ FollowsTrans (canonical 0 noField fun _ _ => 0) (fun s => applyMap (driftTM s)) ⟨0, 1, 0, 0, 0, 1⟩ ∧
    ¬ FollowsTrans (lorentz h (bxField 0 0) (byField h 0 0)) (fun s v => (sectorBendTM s h gamma).bind fun m => applyMap m v)
      ⟨0, 1, 0, 0, 0, 1⟩ := by
  refine ⟨fun hf => ?_, sector_not_slopes h hh gamma hg⟩
  have hq : Symplectic.Spec.Der (fun s => quad (driftTM s) ⟨0, 1, 0, 0, 0, 1⟩) ⟨0, 0, 0, 0, -1 / 2, 0⟩ 0 := by
    simp only [drift_quad]
    refine ⟨?_, ?_, ?_, ?_, ?_, ?_⟩ <;>
    · refine HasDerivAt.congr_deriv (by ader) ?_
      norm_num
  have hl : Symplectic.Spec.Der (fun s => lin (driftTM s) ⟨0, 1, 0, 0, 0, 1⟩)
      (lorLin 0 0 (lin (driftTM 0) ⟨0, 1, 0, 0, 0, 1⟩)) 0 := by
    simp only [drift_lin]; exact free_lin ⟨0, 1, 0, 0, 0, 1⟩ 0
  have := (follows_forces (m := driftTM) (fun s e => applyMap_eq _ (drift_inside s) _) (s := 0) (expand_canonical 0 _ _)
    (derTrans_of hl) (derTrans_of hq) hf).1
  simp [drift_lin, drift_quad, canLin, canQuad, addPS] at this

example : (1 / 10 : ℝ) ≠ 0 ∧ ({ sample with dp := 0 } : PS).dp = 0 := ⟨by norm_num, rfl⟩

/-! ## C206: tilts -/

theorem rotateZ_turn {eps t : ℝ} (h : eps < |t|) (v : PS) : rotateZ eps t v = turn t v := by
  simp only [rotateZ, turn]
  rw [if_neg (by rw [sub_zero]; exact not_le.mpr h)]
  ext <;> simp <;> ring

/-- C206 (partial: tilts above the tolerance): the passage of a tilted bend, the pole faces included, is that of the
upright one seen in axes turned by the tilt from the horizontal towards the vertical. -/
theorem tilt_partial {eps tol ec cl : ℝ} {c : Bend} (ht : eps < |c.tilt|) (h0 : c.tilt ≠ 0) (b : Bunch) (ds : ℝ) (v : PS) :
    trackThrough eps tol ec cl c b ds v =
      (trackThrough eps tol ec cl { c with tilt := 0 } b ds (turn (-c.tilt) v)).bind fun w => .ok (turn c.tilt w) := by
  have t1 : ∀ u, rotateZ eps (-c.tilt) u = turn (-c.tilt) u := rotateZ_turn (by rwa [abs_neg])
  have t2 : ∀ u, rotateZ eps c.tilt u = turn c.tilt u := rotateZ_turn ht
  obtain ⟨h, t, m, f⟩ := c
  have hb : ∀ u, trackBend eps tol ec cl ⟨h, t, m, f⟩ b ds u = trackBend eps tol ec cl ⟨h, 0, m, f⟩ b ds u := fun u => rfl
  have ha : ∀ m' g u, applyFace ec ⟨h, t, m', f⟩ b g u = applyFace ec ⟨h, 0, m', f⟩ b g u := fun m' g u => rfl
  simp only at h0 t1 t2
  simp only [trackThrough, trackEntrance, trackExit, t1, t2, if_pos h0, ne_eq, not_true, if_false, hb, ha]
  cases applyFace ec ⟨h, 0, m, f⟩ b f.entrance (turn (-t) v) with
  | ok w =>
    simp only [Outcome.bind]
    cases trackBend eps tol ec cl ⟨h, 0, m, f⟩ b ds w with
    | ok r =>
      simp only
      cases applyFace ec ⟨h, 0, r.2, f⟩ b f.exit r.1 <;> rfl
    | throw e => rfl
    | ub => rfl
  | throw e => rfl
  | ub => rfl

example : (1 / 1000 : ℝ) < |π / 2| ∧ turn (π / 2) ⟨1, 0, 0, 0, 0, 0⟩ = ⟨0, 0, 1, 0, 0, 0⟩ := by
  refine ⟨?_, by simp [turn]⟩
  rw [abs_of_pos (by positivity)]
  linarith [two_le_pi]

/-- C206 fails for tilts within the tolerance of the comparison: all particles leave the bend on its axis. -/
theorem tilt_small_violated {eps tol ec cl : ℝ} {c : Bend} {b : Bunch} {ds : ℝ} {v w : PS} (h0 : c.tilt ≠ 0)
    (ht : |c.tilt| ≤ eps) (h : trackThrough eps tol ec cl c b ds v = .ok w) : w.x = 0 ∧ w.px = 0 ∧ w.y = 0 ∧ w.py = 0 := by
  unfold trackThrough at h
  obtain ⟨v1, _, h⟩ := bind_ok_iff.mp h
  obtain ⟨r, _, h⟩ := bind_ok_iff.mp h
  unfold trackExit at h
  obtain ⟨v3, _, h⟩ := bind_ok_iff.mp h
  simp only at h
  rw [if_pos h0, rotateZ, if_pos (by rwa [sub_zero])] at h
  cases h
  exact ⟨rfl, rfl, rfl, rfl⟩

/-- A tilt within the tolerance. -/
example : ∃ w, trackThrough 1 1 1 1 ⟨1, 1 / 2, ⟨1, [⟨1, 0⟩]⟩, ⟨none, none⟩⟩ ⟨1, 1, 0⟩ 0 sample = .ok w := by
  obtain ⟨K, hK⟩ := getKn_ok (m := ⟨1, [⟨1, 0⟩]⟩) (r := (1 : ℝ) / 1) (by norm_num)
  obtain ⟨M2, e2, a2⟩ := face_flat 1 K.re false
  norm_num at hK
  simp [trackThrough, trackEntrance, trackExit, trackBend, applyFace, hK, Outcome.bind, e2, a2]

/-- C206 fails between the integrator sets: the step of the symplectic set turns the particles into a tilted bend by the
opposite angle. -/
theorem tilt_sign_violated {eps : ℝ} (he : 0 ≤ eps) {t : ℝ} (ht : eps < |t|) (v : PS) :
    Symplectic.tin eps t (if t ≠ 0 then rotateZ eps (-t) v else v) = v := by
  have h0 : t ≠ 0 := fun e => by rw [e, abs_zero] at ht; exact absurd ht (not_lt.2 he)
  rw [if_pos h0, rotateZ_turn (by rwa [abs_neg]), tin, if_pos h0, rotate_turn ht, turn_turn, add_neg_cancel, turn_zero]

example : (0 : ℝ) ≤ 1 / 1000 ∧ (1 / 1000 : ℝ) < |(-1 : ℝ)| := by norm_num

end Verif.TransportMaps
