import Verif.ThinLens.Lemmas

/-!
# Properties C247-C259: bends, standing waves, monitors and solenoids of the standard integrators, integrator sets
-/

namespace Verif.ThinLens
open Verif Verif.Multipole Verif.Symplectic Verif.Symplectic.Spec Verif.Transport Verif.TransportMaps Verif.RectMultipole
  Verif.ThinLens.Spec Real

/-- A particle with all coordinates different from zero. -/
noncomputable def sample : PS := ⟨1 / 100, -1 / 200, 1 / 300, 1 / 400, 1 / 500, 1 / 600⟩

/-- A bunch for the witnesses. -/
noncomputable def bunch1 : Bunch := ⟨1, 1, 0⟩

/-- An upright dipole of curvature one which matches this bunch if the constants are one. -/
noncomputable def dipole (t : ℝ) (f : FaceInfo) : TransportMaps.Bend := ⟨1, t, ⟨1, [⟨1, 0⟩]⟩, f⟩

theorem dipole_linear (t : ℝ) (f : FaceInfo) : Linear (dipole t f).field 1 0 := Or.inl ⟨rfl, rfl⟩

/-! ## C247: what a bend leaves alone -/

/-- C247 (partial: no tilt, or one above the tolerance): a step in a bend leaves the momentum deviation of every particle
and the field of the magnet as they were. -/
theorem bend_keeps_partial {eps ec cl : ℝ} {c : TransportMaps.Bend} {b : Bunch} {ds : ℝ} {v : PS} {r : PS × MField ℝ}
    (ht : c.tilt = 0 ∨ eps < |c.tilt|) (h : thinBend eps ec cl c b ds v = .ok r) :
    r.1.dp = v.dp ∧ SameField r.2 c.field := by
  unfold thinBend at h
  split at h
  · cases h; exact ⟨rfl, rfl, fun _ => rfl⟩
  · simp only at h
    split at h
    · cases h
    · split at h
      · cases h
      · rename_i hp
        have hp' := ne_of_gt (not_not.1 hp)
        obtain ⟨K, -, h⟩ := bind_ok_iff.mp h
        obtain ⟨q, hq, h⟩ := bind_ok_iff.mp h
        cases h
        have key : q.1.dp = (tiltBy eps c.tilt v).dp ∧ SameField q.2 c.field := by
          split at hq
          · obtain ⟨w, hw, hq⟩ := bind_ok_iff.mp hq
            cases hq
            refine ⟨?_, rfl, fun i => ?_⟩
            · rw [applyBend6_dp hp', thinKick_dp hw, applyBend6_dp hp']
            · simp only [getD_set, getCoefficient_fst, getCoefficient_snd]
              by_cases h1 : i = 1
              · rw [if_pos h1, h1]
              · by_cases h2 : i = 0
                · rw [if_neg h1, if_pos h2, h2]
                · rw [if_neg h1, if_neg h2, if_neg h1, if_neg h2]
          · cases hq
            exact ⟨applyBend6_dp hp' _, same_grow c.field 0⟩
        refine ⟨?_, key.2⟩
        simp only
        rw [tilt_turn (neg_cond ht)]
        have e : (turn (-c.tilt) q.1).dp = q.1.dp := rfl
        rw [e, key.1, tilt_turn ht]
        rfl

/-- A bend with a sextupole component, which is split for the kick. -/
example : ∃ r, thinBend 0 1 1 ⟨1, 0, ⟨1, [⟨1, 0⟩, ⟨1, 0⟩, ⟨1, 0⟩]⟩, ⟨none, none⟩⟩ bunch1 1 sample = .ok r := by
  simp [thinBend, getCoefficient, grow, Cx.smul, bunch1, matchedMomentum, highest, getKn, Outcome.bind, factorial,
    factLoop, thinKick, setCoefficient, getField2D, isNull, sumLoop, applyBend6_dp, tiltBy, sample]
  norm_num

/-- C247 fails for tilts within the tolerance of zero: all coordinates of all particles become zero. -/
theorem small_tilt_violated {eps ec cl : ℝ} {c : TransportMaps.Bend} {b : Bunch} {ds : ℝ} {v : PS} {r : PS × MField ℝ}
    (ht : c.tilt ≠ 0) (hs : |c.tilt| ≤ eps) (hd : ds ≠ 0) (h : thinBend eps ec cl c b ds v = .ok r) :
    r.1 = ⟨0, 0, 0, 0, 0, 0⟩ := by
  unfold thinBend at h
  rw [if_neg hd] at h
  simp only at h
  split at h
  · cases h
  · split at h
    · cases h
    · obtain ⟨K, -, h⟩ := bind_ok_iff.mp h
      obtain ⟨q, hq, h⟩ := bind_ok_iff.mp h
      cases h
      simp only [tiltBy]
      rw [if_pos (neg_ne_zero.2 ht), rotate, if_pos (by rwa [sub_zero, abs_neg])]

example : ∃ r, thinBend (1 / 2) 1 1 (dipole (1 / 4) ⟨none, none⟩) bunch1 1 sample = .ok r := by
  refine ⟨_, thin_linear (by norm_num) (by norm_num [dipole]) (by norm_num [bunch1]) (dipole_linear _ _)
    (by norm_num [matched, dipole, bunch1]) (by norm_num [bunch1]) _⟩

/-! ## C248: the reference orbit -/

theorem applyBend6_origin {R : Mat} {pref p0 : ℝ} (hp : pref ≠ 0) (hp0 : p0 ≠ 0) :
    applyBend6 R pref p0 ⟨0, 0, 0, 0, 0, pref / p0 - 1⟩ = ⟨0, 0, 0, 0, 0, pref / p0 - 1⟩ := by
  have e : p0 * (pref / p0) / pref - 1 = 0 := by
    rw [mul_div_cancel₀ _ hp0, div_self hp, sub_self]
  unfold applyBend6 MatrixMap.withMomentum
  rw [if_neg hp]
  simp [ofVec, LinMap.upd, toVec, MatrixMap.applyVec, MatrixMap.loopSum, MatrixMap.scaledp, e]

theorem sumLoop_origin : ∀ (l : List (Cx ℝ)) (b : Cx ℝ), sumLoop ⟨0, 0⟩ l b 0 = b
  | [], b => rfl
  | t :: l, b => by
    rw [sumLoop]
    have e1 : b + t * 0 = b := by ext <;> simp
    have e2 : (0 : Cx ℝ) * ⟨0, 0⟩ = 0 := by ext <;> simp
    rw [e1, e2]
    exact sumLoop_origin l b

theorem thinKick_origin {eps ec len d : ℝ} {m : MField ℝ} {b : Bunch} (h0 : m.terms.getD 0 0 = 0) (hp : b.p0 ≠ 0)
    (hd : 1 + d ≠ 0) : thinKick eps ec m len b ⟨0, 0, 0, 0, 0, d⟩ = .ok ⟨0, 0, 0, 0, 0, d⟩ := by
  have hf : getField2D eps m 0 0 (-1) = .ok 0 := by
    unfold getField2D
    split
    · rfl
    · split
      · rfl
      · rw [if_neg (by norm_num)]
        simp only [Outcome.ok.injEq]
        cases hm : m.terms with
        | nil => ext <;> simp [sumLoop, Cx.smul]
        | cons t l =>
          rw [hm] at h0
          simp only [List.getD_cons_zero] at h0
          subst h0
          have e2 : (1 : Cx ℝ) * ⟨0, 0⟩ = 0 := by ext <;> simp
          have e3 : (0 : Cx ℝ) + 0 * 1 = 0 := by ext <;> simp
          simp only [Int.reduceNeg, Int.reduceAdd, Int.toNat_zero, List.drop_zero, powLoop, sumLoop, e2, e3]
          rw [sumLoop_origin]
          ext <;> simp [Cx.smul]
  unfold thinKick
  rw [if_neg (by tauto), hf]
  simp [Outcome.bind, Cx.smul]

/-- C248: a particle on the axis with the momentum that matches field and curvature stays on the axis, without delay,
whatever the gradient and the higher components of the field and whatever the reference momentum of the bunch. -/
theorem bend_axis {eps ec cl : ℝ} {c : TransportMaps.Bend} {b : Bunch} {ds : ℝ} (ht : c.tilt = 0 ∨ eps < |c.tilt|)
    (hh : c.h ≠ 0) (hq : b.q ≠ 0) (hp0 : b.p0 ≠ 0) (he : ec ≠ 0) (hs : (c.field.terms.getD 0 0).im = 0)
    (hp : 0 < matched cl c b (c.field.terms.getD 0 0).re) :
    ∃ m, thinBend eps ec cl c b ds ⟨0, 0, 0, 0, 0, matched cl c b (c.field.terms.getD 0 0).re / b.p0 - 1⟩ =
      .ok (⟨0, 0, 0, 0, 0, matched cl c b (c.field.terms.getD 0 0).re / b.p0 - 1⟩, m) := by
  set P := matched cl c b (c.field.terms.getD 0 0).re with hP
  have hP' : P ≠ 0 := ne_of_gt hp
  have tu : ∀ t, (t = 0 ∨ eps < |t|) → tiltBy eps t ⟨0, 0, 0, 0, 0, P / b.p0 - 1⟩ = ⟨0, 0, 0, 0, 0, P / b.p0 - 1⟩ :=
    fun t h => by rw [tilt_turn h]; simp [turn]
  have em : matchedMomentum cl c.h b.q
      ((getCoefficient c.field 0 1).1.re * (getCoefficient c.field 0 1).2.b0) = P := by
    rw [getCoefficient_fst]; rfl
  unfold thinBend
  by_cases hd : ds = 0
  · rw [if_pos hd]; exact ⟨_, rfl⟩
  · rw [if_neg hd]
    simp only
    rw [if_neg (by tauto), em, if_neg (not_not.2 hp), tu _ ht]
    have hK : ∃ K, (if highest (getCoefficient c.field 0 1).2 > 0 then
        (getKn (getCoefficient c.field 0 1).2 1 (b.p0 / ec)).bind fun k => (.ok (Cx.smul b.q k) : Outcome Unit (Cx ℝ))
        else .ok 0) = .ok K := by
      split
      · obtain ⟨k, hk, _⟩ := getKn_eq (b := b) hp0 he (getCoefficient c.field 0 1).2 1
        exact ⟨_, by rw [hk]; rfl⟩
      · exact ⟨_, rfl⟩
    obtain ⟨K, hK⟩ := hK
    rw [hK]
    simp only [Outcome.bind]
    rw [applyBend6_origin hP' hp0]
    by_cases hsp : (getCoefficient c.field 0 1).1.im ≠ 0 ∨ K.im ≠ 0 ∨ highest (getCoefficient c.field 0 1).2 > 1
    · simp only [if_pos hsp]
      rw [thinKick_origin ?_ hp0 (by rw [add_sub_cancel]; exact div_ne_zero hP' hp0)]
      · simp only
        rw [applyBend6_origin hP' hp0, tu _ (neg_cond ht)]
        exact ⟨_, rfl⟩
      · rw [getD_set, if_neg (by norm_num), getD_set, if_pos rfl, getCoefficient_fst, hs]
        rfl
    · simp only [if_neg hsp]
      rw [tu _ (neg_cond ht)]
      exact ⟨_, rfl⟩

/-- A tilted bend with a sextupole. -/
example : ((1 / 4 : ℝ) = 0 ∨ (0 : ℝ) < |1 / 4|) ∧
    0 < matched 1 ⟨1, 1 / 4, ⟨1, [⟨2, 0⟩, ⟨1, 0⟩, ⟨1, 0⟩]⟩, ⟨none, none⟩⟩ bunch1 2 := by
  norm_num [matched, bunch1]

/-! ## C249: steps -/

/-- C249 (partial: dipole and gradient without skew parts): the step of a sum of lengths is one step after the other. -/
theorem bend_steps_partial {eps ec cl : ℝ} {c : TransportMaps.Bend} {bu : Bunch} {s1 s2 b b1 : ℝ}
    (ht : c.tilt = 0 ∨ eps < |c.tilt|) (h1 : 0 < s1) (h2 : 0 < s2) (hh : c.h ≠ 0) (hq : bu.q ≠ 0)
    (hl : Linear c.field b b1) (hp : 0 < matched cl c bu b) (hr : bu.p0 / ec ≠ 0) (v : PS) :
    ((thinBend eps ec cl c bu s1 v).bind fun r => thinBend eps ec cl { c with field := r.2 } bu s2 r.1) =
      thinBend eps ec cl c bu (s1 + s2) v := by
  rw [thin_linear h1.ne' hh hq hl hp hr, thin_linear (by positivity) hh hq hl hp hr]
  simp only [Outcome.bind]
  rw [thin_linear h2.ne' hh hq hl hp hr]
  simp only [tilt_turn ht, tilt_turn (neg_cond ht), turn_back, lin_dp, lin_lin (hEff_cond _ _)]

/-- A tilted combined function magnet. -/
example : ((1 / 4 : ℝ) = 0 ∨ (0 : ℝ) < |1 / 4|) ∧ Linear ⟨1, [⟨2, 0⟩, ⟨3, 0⟩]⟩ 2 3 ∧
    0 < matched 1 ⟨1, 1 / 4, ⟨1, [⟨2, 0⟩, ⟨3, 0⟩]⟩, ⟨none, none⟩⟩ bunch1 2 ∧ bunch1.p0 / 1 ≠ 0 :=
  ⟨by norm_num, Or.inr rfl, by norm_num [matched, bunch1], by norm_num [bunch1]⟩

/-! ## C250: the motion -/

/-- C250 (partial: upright, dipole and gradient without skew parts, the gradient not cancelling the focusing by the
curvature): along the magnet a particle follows the linear equations of motion, with its momentum relative to the matched
momentum of the magnet. -/
theorem bend_motion_partial {eps ec cl : ℝ} {c : TransportMaps.Bend} {bu : Bunch} {b b1 : ℝ} (ht : c.tilt = 0)
    (hh : c.h ≠ 0) (hq : bu.q ≠ 0) (hl : Linear c.field b b1) (hp : 0 < matched cl c bu b) (hr : bu.p0 / ec ≠ 0)
    (hK : gradient ec c.field.b0 b1 bu + c.h * c.h ≠ 0) (v : PS) :
    ∃ o : ℝ → PS, o 0 = v ∧ (∀ s, thinBend eps ec cl c bu s v = .ok (o s, c.field)) ∧ ∀ s,
      Der o (bendMotion c.h (gradient ec c.field.b0 b1 bu) (momentum bu.p0 v / matched cl c bu b - 1) (o s)) s := by
  refine ⟨fun s => lin s c.h (gradient ec c.field.b0 b1 bu + c.h * c.h) (-gradient ec c.field.b0 b1 bu)
    (bu.p0 * (1 + v.dp) / matched cl c bu b - 1) v, lin_zero .., fun s => ?_, fun s => ?_⟩
  · by_cases hs : s = 0
    · simp only [hs, lin_zero]; simp [thinBend]
    · rw [thin_linear hs hh hq hl hp hr, ht, neg_zero, tilt_zero, tilt_zero, hEff, if_neg hK]
  · have d := lin_der (Or.inr hK) (-gradient ec c.field.b0 b1 bu) (bu.p0 * (1 + v.dp) / matched cl c bu b - 1) v s (h := c.h)
    have e : bendMotion c.h (gradient ec c.field.b0 b1 bu) (momentum bu.p0 v / matched cl c bu b - 1)
        (lin s c.h (gradient ec c.field.b0 b1 bu + c.h * c.h) (-gradient ec c.field.b0 b1 bu)
          (bu.p0 * (1 + v.dp) / matched cl c bu b - 1) v) =
        ⟨_, _, _, _, _, _⟩ := rfl
    simp only [momentum]
    unfold bendMotion
    rw [neg_neg] at d
    rw [sq]
    exact d

example : gradient 1 1 3 bunch1 + 1 * 1 ≠ 0 := by norm_num [gradient, bunch1]

/-- C250 fails if the gradient cancels the focusing: the momentum of the particle has no effect. -/
theorem bend_motion_violated : ∃ (c : TransportMaps.Bend) (bu : Bunch) (v : PS), c.tilt = 0 ∧ 0 < c.h ∧
    Linear c.field 1 (-1) ∧ matched 1 c bu 1 = 1 ∧ momentum bu.p0 v = 2 ∧ v.x = 0 ∧ v.px = 0 ∧
    ∀ s, ∃ m, thinBend 0 1 1 c bu s v = .ok (v, m) := by
  refine ⟨⟨1, 0, ⟨1, [⟨1, 0⟩, ⟨-1, 0⟩]⟩, ⟨none, none⟩⟩, bunch1, ⟨0, 0, 0, 0, 0, 1⟩, rfl, one_pos, Or.inr rfl,
    by norm_num [matched, bunch1], by norm_num [momentum, bunch1], rfl, rfl, fun s => ?_⟩
  by_cases hs : s = 0
  · rw [hs]; exact ⟨_, by simp [thinBend]; rfl⟩
  · rw [thin_linear (b := 1) (b1 := -1) hs (by norm_num) (by norm_num [bunch1]) (Or.inr rfl)
      (by norm_num [matched, bunch1]) (by norm_num [bunch1])]
    refine ⟨⟨1, [⟨1, 0⟩, ⟨-1, 0⟩]⟩, ?_⟩
    have : hEff 1 (gradient 1 1 (-1) bunch1) = 0 := by simp [hEff, gradient, bunch1]
    simp [lin, this, tilt_zero]

/-! ## C251: momentum -/

/-- C251 (partial: dipole field): where a particle goes depends on its momentum, not on the reference momentum of the
bunch to which it belongs. -/
theorem bend_momentum_partial {eps ec cl : ℝ} {c : TransportMaps.Bend} {bu : Bunch} {ds b : ℝ} {v : PS}
    (ht : c.tilt = 0 ∨ eps < |c.tilt|) (hh : c.h ≠ 0) (hq : bu.q ≠ 0) (hl : Linear c.field b 0)
    (hp : 0 < matched cl c bu b) (hr : bu.p0 / ec ≠ 0) {p1 d1 : ℝ} (h1 : p1 / ec ≠ 0)
    (hm : p1 * (1 + d1) = momentum bu.p0 v) :
    ∃ w, thinBend eps ec cl c bu ds v = .ok (w, c.field) ∧
      thinBend eps ec cl c { bu with p0 := p1 } ds { v with dp := d1 } = .ok ({ w with dp := d1 }, c.field) := by
  by_cases hd : ds = 0
  · exact ⟨v, by simp [thinBend, hd], by simp [thinBend, hd]⟩
  · refine ⟨_, thin_linear hd hh hq hl hp hr v, ?_⟩
    rw [thin_linear hd (bu := { bu with p0 := p1 }) hh hq hl hp h1]
    have g1 : gradient ec c.field.b0 0 bu = 0 := by simp [gradient]
    have g2 : gradient ec c.field.b0 0 { bu with p0 := p1 } = 0 := by simp [gradient]
    rw [g1, g2]
    simp only [tilt_turn ht, tilt_turn (neg_cond ht)]
    have e1 : (turn c.tilt { v with dp := d1 }).dp = d1 := rfl
    have e2 : (turn c.tilt v).dp = v.dp := rfl
    rw [e1, e2, hm]
    rfl

/-- A particle with twice the reference momentum, and the same in a bunch of that momentum. -/
example : (2 : ℝ) * (1 + 0) = momentum bunch1.p0 ⟨1, 0, 0, 0, 0, 1⟩ := by norm_num [momentum, bunch1]

/-- C251 fails in magnets with a gradient: it is that for the reference momentum for all particles. -/
theorem bend_momentum_violated : ∃ (c : TransportMaps.Bend) (bu : Bunch) (v w1 w2 : PS) (p1 : ℝ), c.tilt = 0 ∧
    Linear c.field 1 1 ∧ momentum bu.p0 v = p1 ∧ thinBend 0 1 1 c bu 1 v = .ok (w1, c.field) ∧
    thinBend 0 1 1 c { bu with p0 := p1 } 1 { v with dp := 0 } = .ok (w2, c.field) ∧ w1.y ≠ w2.y := by
  have h1 := fun (bu : Bunch) (v : PS) (hq : bu.q ≠ 0) (hr : bu.p0 / 1 ≠ 0)
      (hm : 0 < matched 1 ⟨1, 0, ⟨1, [⟨1, 0⟩, ⟨1, 0⟩]⟩, ⟨none, none⟩⟩ bu 1) =>
    thin_linear (eps := 0) (ec := 1) (cl := 1) (c := ⟨1, 0, ⟨1, [⟨1, 0⟩, ⟨1, 0⟩]⟩, ⟨none, none⟩⟩) (bu := bu) (ds := 1)
      (b := 1) (b1 := 1) one_ne_zero one_ne_zero hq (Or.inr rfl) hm hr v
  refine ⟨⟨1, 0, ⟨1, [⟨1, 0⟩, ⟨1, 0⟩]⟩, ⟨none, none⟩⟩, bunch1, ⟨0, 0, 1, 0, 0, 3⟩, _, _, 4, rfl, Or.inr rfl,
    by norm_num [momentum, bunch1], h1 _ _ (by norm_num [bunch1]) (by norm_num [bunch1]) (by norm_num [matched, bunch1]),
    h1 _ _ (by norm_num [bunch1]) (by norm_num) (by norm_num [matched, bunch1]), ?_⟩
  simp only [neg_zero, tilt_zero, lin, gradient, bunch1]
  have c1 : cK (-(1 * (1 / (1 / 1) * 1))) 1 = cosh 1 := by norm_num [cK]
  have c2 : cK (-(1 * (1 / (4 / 1) * 1))) 1 = cosh (1 / 2) := by
    have : √(1 / 4 : ℝ) = 1 / 2 := by rw [show (1 / 4 : ℝ) = (1 / 2) ^ 2 by norm_num]; exact sqrt_sq (by norm_num)
    norm_num [cK] at this ⊢
    rw [this]
  rw [c1, c2]
  have : cosh (1 / 2) < cosh 1 := cosh_lt_cosh.2 (by norm_num [abs_of_pos])
  intro e
  simp only [mul_one, mul_zero, add_zero] at e
  linarith

/-! ## C252: tilt -/

/-- C252 (partial: no pole faces, a tilt above the tolerance): a bend turned about the beam acts in the turned axes as
the upright bend does. -/
theorem tilt_partial {eps ec cl : ℝ} {c : TransportMaps.Bend} {bu : Bunch} {ds : ℝ} (ht : eps < |c.tilt|)
    (hf : c.faces = ⟨none, none⟩) (v : PS) : thinThrough eps ec cl c bu ds v =
      (thinThrough eps ec cl { c with tilt := 0 } bu ds (turn c.tilt v)).bind fun w => .ok (turn (-c.tilt) w) := by
  unfold thinThrough
  simp only [hf, thinFace, Outcome.bind]
  have hb : ∀ t (a b : PS), turn (-t) (turn t a) = a := fun t a _ => by
    have := turn_back (-t) a
    rwa [neg_neg] at this
  unfold thinBend
  by_cases hd : ds = 0
  · simp only [if_pos hd]
    rw [hb _ _ v]
  · simp only [if_neg hd]
    by_cases h1 : c.h = 0 ∨ bu.q = 0
    · simp only [if_pos h1]
    · simp only [if_neg h1]
      by_cases h2 : ¬ 0 < matchedMomentum cl c.h bu.q ((getCoefficient c.field 0 1).1.re * (getCoefficient c.field 0 1).2.b0)
      · simp only [if_pos h2]
      · simp only [if_neg h2]
        rw [neg_zero, tilt_turn (Or.inr ht), tilt_zero]
        generalize (if highest (getCoefficient c.field 0 1).2 > 0 then
          (getKn (getCoefficient c.field 0 1).2 1 (bu.p0 / ec)).bind fun k => (.ok (Cx.smul bu.q k) : Outcome Unit (Cx ℝ))
          else .ok 0) = o
        cases o with
        | ub => rfl
        | throw e => rfl
        | ok K =>
          simp only [Outcome.bind]
          by_cases h3 : (getCoefficient c.field 0 1).1.im ≠ 0 ∨ K.im ≠ 0 ∨ highest (getCoefficient c.field 0 1).2 > 1
          · simp only [if_pos h3]
            generalize thinKick eps ec _ ds bu _ = p
            cases p with
            | ub => rfl
            | throw e => rfl
            | ok w => simp only [tilt_zero, tilt_turn (neg_cond (Or.inr ht))]
          · simp only [if_neg h3, tilt_zero, tilt_turn (neg_cond (Or.inr ht))]

example : (0 : ℝ) < |(dipole (π / 2) ⟨none, none⟩).tilt| ∧ (dipole (π / 2) ⟨none, none⟩).faces = ⟨none, none⟩ := by
  refine ⟨abs_pos.2 ?_, rfl⟩
  simp [dipole, pi_ne_zero]

/-- C252: a pole face is a thin lens in both planes by the tangent of its angle, in the vertical plane reduced by the
extent of the fringe field. -/
theorem face_thin_lens {h : ℝ} {f : Face} {v w : PS} (hw : thinFace h (some f) v = .ok w) :
    w = { v with px := v.px + h * tan f.rot * v.x,
                 py := v.py - h * tan (f.rot - 2 * f.fint * f.hgap * h * (1 + sin f.rot ^ 2) / cos f.rot) * v.y } := by
  unfold thinFace at hw
  simp only at hw
  split at hw
  · cases hw
  · cases hw
    simp [poleFaceRot, ofVec, toVec, MatrixMap.applyVec, MatrixMap.loopSum, Transport.set, initR, PS.mk.injEq]
    constructor <;> ring

example : ∃ w, thinFace 1 (some ⟨π / 4, 0, 0, 0⟩) sample = .ok w := by
  have hc : cos (π / 4) ≠ 0 := by rw [cos_pi_div_four]; positivity
  simp [thinFace, hc]

/-- C252 fails for pole faces: they focus in the plane of the laboratory. -/
theorem tilt_face_violated : ∃ (c : TransportMaps.Bend) (v a b : PS), c.tilt = π / 2 ∧
    thinThrough 0 1 1 c bunch1 1 v = .ok a ∧
    thinThrough 0 1 1 { c with tilt := 0 } bunch1 1 (turn c.tilt v) = .ok b ∧ (turn (-c.tilt) b).x ≠ a.x := by
  have hc : cos (π / 4) ≠ 0 := by rw [cos_pi_div_four]; positivity
  have hp : π / 2 ≠ 0 := by positivity
  have hf : ∀ v : PS, thinFace 1 (some ⟨π / 4, 0, 0, 0⟩) v = .ok { v with px := v.px + v.x, py := v.py - v.y } := fun v => by
    simp [thinFace, hc, poleFaceRot, ofVec, toVec, MatrixMap.applyVec, MatrixMap.loopSum, Transport.set, initR,
      tan_pi_div_four, PS.mk.injEq]
    constructor <;> ring
  have g : gradient 1 (1 : ℝ) 0 bunch1 = 0 := by simp [gradient]
  have h2 : ∀ (t : ℝ) (v : PS), thinThrough 0 1 1 (dipole t ⟨some ⟨π / 4, 0, 0, 0⟩, none⟩) bunch1 1 v =
      .ok (tiltBy 0 (-t) (lin 1 (hEff 1 0) (0 + 1 * 1) (-0) (1 * (1 + (tiltBy 0 t
        { v with px := v.px + v.x, py := v.py - v.y }).dp) / matched 1 (dipole t ⟨some ⟨π / 4, 0, 0, 0⟩, none⟩) bunch1 1 - 1)
        (tiltBy 0 t { v with px := v.px + v.x, py := v.py - v.y }))) := fun t v => by
    have h1 := thin_linear (eps := 0) (ec := 1) (cl := 1) (c := dipole t ⟨some ⟨π / 4, 0, 0, 0⟩, none⟩)
      (bu := bunch1) (ds := 1) (b := 1) (b1 := 0) one_ne_zero one_ne_zero (by norm_num [bunch1]) (dipole_linear _ _)
      (by norm_num [matched, dipole, bunch1]) (by norm_num [bunch1]) { v with px := v.px + v.x, py := v.py - v.y }
    unfold thinThrough
    rw [show (dipole t ⟨some ⟨π / 4, 0, 0, 0⟩, none⟩).faces.entrance = some ⟨π / 4, 0, 0, 0⟩ from rfl,
      show (dipole t ⟨some ⟨π / 4, 0, 0, 0⟩, none⟩).h = 1 from rfl, hf]
    simp only [Outcome.bind]
    rw [h1]
    simp only [dipole, thinFace, g]
    rfl
  refine ⟨dipole (π / 2) ⟨some ⟨π / 4, 0, 0, 0⟩, none⟩, ⟨1, 0, 0, 0, 0, 0⟩, _, _, rfl, h2 _ _, h2 0 _, ?_⟩
  have t1 : ∀ v, tiltBy 0 (π / 2) v = turn (π / 2) v := fun v => tilt_turn (Or.inr (abs_pos.2 hp)) v
  have t2 : ∀ v, tiltBy 0 (-(π / 2)) v = turn (-(π / 2)) v := fun v => tilt_turn (Or.inr (abs_pos.2 (neg_ne_zero.2 hp))) v
  simp only [dipole, t1, t2, neg_zero, tilt_zero]
  simp [turn, lin, cK, sK]
  norm_num

/-! ## C253: acceleration by standing waves -/

theorem forEach_map {f : PS → Outcome Unit PS} {g : PS → PS} (h : ∀ v, f v = .ok (g v)) :
    ∀ l, forEach f l = .ok (l.map g)
  | [] => rfl
  | v :: l => by rw [forEach, h, Outcome.bind, forEach_map h l]; rfl

/-- One particle in a standing wave, in closed form: `a` is the phase advance. -/
noncomputable def wave (g phi a p0 p1 gain k : ℝ) (v : PS) : PS :=
  let ux := √2 * cos phi
  let r := (cos a - ux * sin a)
  let q := √8 * p0 * sin a / g
  let s := -g * (2 + cos (2 * phi)) * sin a / p1 / √8
  let t := p0 * (cos a + ux * sin a) / p1
  ⟨r * v.x + q * v.px, s * v.x + t * v.px, r * v.y + q * v.py, s * v.y + t * v.py, v.ct,
    (p0 * (1 + v.dp) + gain * cos (phi - k * v.ct)) / p1 - 1⟩

/-- The step, if it is defined. -/
theorem sw_ok {c g f phi ds p0 p1 : ℝ} {l l' : List PS} (h : swStep c g f phi ds p0 l = .ok (l', p1)) (hd : ds ≠ 0) :
    f ≠ 0 ∧ (∃ n : ℤ, n * (c / f / 2) = ds) ∧ p1 = p0 + g * ds * cos phi ∧
    (g = 0 ∧ l' = l.map (thinDrift ds) ∨ g ≠ 0 ∧ p0 ≠ 0 ∧ cos phi ≠ 0 ∧ 0 < p1 / p0 ∧
      l' = l.map (wave g phi (log (p1 / p0) / cos phi / √8) p0 p1 (g * ds) (2 * π * f / c))) := by
  unfold swStep at h
  rw [if_neg hd] at h
  split at h
  · cases h
  · rename_i hf
    simp only at h
    split at h
    · cases h
    · rename_i hn
      rw [not_not] at hn
      split at h
      · rename_i hg
        cases h
        exact ⟨hf, ⟨_, hn⟩, rfl, Or.inl ⟨hg, rfl⟩⟩
      · rename_i hg
        split at h
        · cases h
        · rename_i hc
          simp only [not_or, not_le] at hc
          obtain ⟨h1, h2, h3⟩ := hc
          have key : ∀ v, applyRFdp (g * ds / p0) (2 * π * f / c) phi
              (swrf 4 (toInt (ds / (c / f / 2))) g (c / f / 2) phi p0) v =
              .ok (wave g phi (log ((p0 + g * ds * cos phi) / p0) / cos phi / √8) p0 (p0 + g * ds * cos phi) (g * ds)
                (2 * π * f / c) v) := fun v => by
            have d0 : 1 + g * ds / p0 * cos phi = (p0 + g * ds * cos phi) / p0 := by field_simp
            have hp1 : p0 + g * ds * cos phi ≠ 0 := fun e => by rw [e, zero_div] at h3; exact lt_irrefl _ h3
            unfold applyRFdp
            simp only
            rw [if_neg (by rw [d0]; exact h3.ne')]
            simp only [swrf, hn, Outcome.ok.injEq, wave, ofVec, MatrixMap.applyVec, MatrixMap.loopSum]
            simp only [PS.mk.injEq]
            refine ⟨?_, ?_, ?_, ?_, ?_, ?_⟩
            · simp [Transport.set, copyBlock, initR, toVec]
            · simp [Transport.set, copyBlock, initR, toVec]
            · simp [Transport.set, copyBlock, initR, toVec]
            · simp [Transport.set, copyBlock, initR, toVec]
            · simp [toVec]
            · simp only [toVec]
              norm_num
              rw [d0]
              field_simp
              ring
          rw [forEach_map key] at h
          cases h
          exact ⟨hf, ⟨_, hn⟩, rfl, Or.inr ⟨hg, h1, h2, h3, rfl⟩⟩

/-- C253: a structure with full cells gives every particle the momentum of its voltage at the phase of its arrival, and
the bunch that at the phase of the structure; the arrival times stay. -/
theorem sw_gain {c g f phi ds p0 p1 : ℝ} {l l' : List PS} (h : swStep c g f phi ds p0 l = .ok (l', p1)) :
    p1 = p0 + g * ds * cos phi ∧ List.Forall₂ (fun v w => w.ct = v.ct ∧
      momentum p1 w = momentum p0 v + g * ds * cos (phi - 2 * π * f / c * v.ct)) l l' := by
  by_cases hd : ds = 0
  · subst hd
    simp only [swStep, if_true, Outcome.ok.injEq, Prod.mk.injEq] at h
    obtain ⟨rfl, rfl⟩ := h
    refine ⟨by ring, ?_⟩
    induction l with
    | nil => exact .nil
    | cons v l ih => exact .cons ⟨rfl, by ring⟩ ih
  · obtain ⟨-, -, h1, h2⟩ := sw_ok h hd
    refine ⟨h1, ?_⟩
    rcases h2 with ⟨hg, rfl⟩ | ⟨-, hp0, -, hr, rfl⟩
    · rw [List.forall₂_map_right_iff, List.forall₂_same]
      intro v _
      rw [thinDrift_straight]
      exact ⟨rfl, by simp [momentum, straight, h1, hg]⟩
    · rw [List.forall₂_map_right_iff, List.forall₂_same]
      intro v _
      refine ⟨rfl, ?_⟩
      have : p1 ≠ 0 := fun e => by rw [e, zero_div] at hr; exact lt_irrefl _ hr
      simp only [momentum, wave]
      field_simp
      ring

/-- The step is defined for whole cells, except where the structure would stop the beam or is at the zero crossing. -/
theorem sw_defined {c g f phi ds p0 : ℝ} {n : ℤ} (hd : ds ≠ 0) (hf : f ≠ 0) (hn : n * (c / f / 2) = ds)
    (hg : g = 0 ∨ p0 ≠ 0 ∧ cos phi ≠ 0 ∧ 0 < (p0 + g * ds * cos phi) / p0) (l : List PS) :
    ∃ l', swStep c g f phi ds p0 l = .ok (l', p0 + g * ds * cos phi) := by
  have hc0 : c / f / 2 ≠ 0 := fun e => by rw [e, mul_zero] at hn; exact hd hn.symm
  have hi : toInt (ds / (c / f / 2)) = n := by
    rw [← hn, mul_div_cancel_right₀ _ hc0]
    unfold toInt
    split_ifs
    · exact Int.floor_intCast _
    · exact Int.ceil_intCast _
  unfold swStep
  rw [if_neg hd, if_neg hf]
  simp only
  rw [hi, if_neg (not_not.2 hn)]
  by_cases h0 : g = 0
  · rw [if_pos h0]; exact ⟨_, rfl⟩
  · obtain ⟨h1, h2, h3⟩ := hg.resolve_left h0
    rw [if_neg h0, if_neg (by simp only [not_or, not_le]; exact ⟨h1, h2, h3⟩)]
    have d0 : 1 + g * ds / p0 * cos phi = (p0 + g * ds * cos phi) / p0 := by field_simp
    have h4 : ∀ R v, applyRFdp (g * ds / p0) (2 * π * f / c) phi R v = .ok _ := fun R v => by
      unfold applyRFdp
      simp only
      rw [if_neg (by rw [d0]; exact h3.ne')]
    rw [forEach_map (h4 _)]
    exact ⟨_, rfl⟩

/-- One cell of half a wavelength at the crest. -/
theorem sw_crest (v : PS) : ∃ l', swStep 2 1 1 0 1 1 [v] = .ok (l', 1 + 1 * 1 * cos 0) :=
  sw_defined (n := 1) one_ne_zero one_ne_zero (by norm_num) (Or.inr (by norm_num)) [v]

/-- C253 fails at the zero crossing, where structures bunch the beam: the coordinates are no numbers any more. -/
theorem sw_crossing_violated {c g f ds p0 : ℝ} (hg : g ≠ 0) (hd : ds ≠ 0) (l : List PS) :
    swStep c g f (π / 2) ds p0 l = .ub := by
  unfold swStep
  simp [hd, hg, cos_pi_div_two]

example : (1 : ℝ) ≠ 0 := one_ne_zero

/-! ## C254: steps in standing waves -/

theorem wave_wave {g phi a b p0 p1 p2 s1 s2 k : ℝ} (hg : g ≠ 0) (h0 : p0 ≠ 0) (h1 : p1 ≠ 0) (h2 : p2 ≠ 0) (v : PS) :
    wave g phi b p1 p2 s2 k (wave g phi a p0 p1 s1 k v) = wave g phi (a + b) p0 p2 (s1 + s2) k v := by
  have r2 : √2 ^ 2 = (2 : ℝ) := sq_sqrt (by norm_num)
  have r8 : √8 ≠ (0 : ℝ) := (sqrt_pos.2 (by norm_num)).ne'
  unfold wave
  simp only [cos_add, sin_add, cos_two_mul, PS.mk.injEq]
  generalize √8 = w at *
  generalize √2 = u at *
  have hx : ∀ x px : ℝ,
      (cos b - u * cos phi * sin b) * ((cos a - u * cos phi * sin a) * x + w * p0 * sin a / g * px) +
        w * p1 * sin b / g * (-g * (2 + (2 * cos phi ^ 2 - 1)) * sin a / p1 / w * x +
          p0 * (cos a + u * cos phi * sin a) / p1 * px) =
      (cos a * cos b - sin a * sin b - u * cos phi * (sin a * cos b + cos a * sin b)) * x +
        w * p0 * (sin a * cos b + cos a * sin b) / g * px := fun x px => by
    field_simp
    linear_combination (g * cos phi ^ 2 * sin a * sin b * x) * r2
  have hp : ∀ x px : ℝ,
      -g * (2 + (2 * cos phi ^ 2 - 1)) * sin b / p2 / w * ((cos a - u * cos phi * sin a) * x + w * p0 * sin a / g * px) +
        p1 * (cos b + u * cos phi * sin b) / p2 * (-g * (2 + (2 * cos phi ^ 2 - 1)) * sin a / p1 / w * x +
          p0 * (cos a + u * cos phi * sin a) / p1 * px) =
      -g * (2 + (2 * cos phi ^ 2 - 1)) * (sin a * cos b + cos a * sin b) / p2 / w * x +
        p0 * (cos a * cos b - sin a * sin b + u * cos phi * (sin a * cos b + cos a * sin b)) / p2 * px := fun x px => by
    field_simp
    linear_combination (p0 * w * cos phi ^ 2 * sin a * sin b * px) * r2
  refine ⟨hx _ _, hp _ _, hx _ _, hp _ _, trivial, ?_⟩
  field_simp
  ring

/-- C254 (partial: steps of whole cells, that is, those which are defined): one step after the other gives the particles
and the reference momentum of the sum of both. -/
theorem sw_steps_partial {c g f phi s1 s2 p0 p1 p2 : ℝ} {l l1 l2 : List PS} (h1 : swStep c g f phi s1 p0 l = .ok (l1, p1))
    (h2 : swStep c g f phi s2 p1 l1 = .ok (l2, p2)) (hs1 : 0 < s1) (hs2 : 0 < s2) :
    swStep c g f phi (s1 + s2) p0 l = .ok (l2, p2) := by
  obtain ⟨hf, ⟨n1, e1⟩, m1, c1⟩ := sw_ok h1 hs1.ne'
  obtain ⟨-, ⟨n2, e2⟩, m2, c2⟩ := sw_ok h2 hs2.ne'
  have hs : s1 + s2 ≠ 0 := by positivity
  have hc0 : c / f / 2 ≠ 0 := fun e => by rw [e, mul_zero] at e1; exact hs1.ne e1
  have mp : p2 = p0 + g * (s1 + s2) * cos phi := by rw [m2, m1]; ring
  have hstep : ∃ l3, swStep c g f phi (s1 + s2) p0 l = .ok (l3, p0 + g * (s1 + s2) * cos phi) := by
    refine sw_defined (n := n1 + n2) hs hf (by rw [← e1, ← e2]; push_cast; ring) ?_ l
    rcases c1 with ⟨hg, -⟩ | ⟨hg, hp0, hcs, hr1, -⟩
    · exact Or.inl hg
    · rcases c2 with ⟨hg2, -⟩ | ⟨-, hp1, -, hr2, -⟩
      · exact absurd hg2 hg
      · refine Or.inr ⟨hp0, hcs, ?_⟩
        rw [← mp, show p2 / p0 = p2 / p1 * (p1 / p0) by field_simp]
        exact mul_pos hr2 hr1
  obtain ⟨l3, h3⟩ := hstep
  obtain ⟨-, -, -, c3⟩ := sw_ok h3 hs
  rw [h3, ← mp]
  congr 2
  rw [← mp] at c3
  rcases c1 with ⟨hg, rfl⟩ | ⟨hg, hp0, hcs, hr1, rfl⟩
  · rcases c2 with ⟨-, rfl⟩ | ⟨hg2, _⟩
    · rcases c3 with ⟨-, rfl⟩ | ⟨hg3, _⟩
      · simp only [List.map_map, List.map_inj_left]
        intro v _
        simp only [Function.comp_apply, thinDrift_straight, straight_straight]
      · exact absurd hg hg3
    · exact absurd hg hg2
  · rcases c2 with ⟨hg2, _⟩ | ⟨-, hp1, -, hr2, rfl⟩
    · exact absurd hg2 hg
    · rcases c3 with ⟨hg3, _⟩ | ⟨-, -, -, -, rfl⟩
      · exact absurd hg3 hg
      · simp only [List.map_map, List.map_inj_left]
        intro v _
        have hp2 : p2 ≠ 0 := fun e => by rw [e, zero_div] at hr2; exact lt_irrefl _ hr2
        rw [Function.comp_apply, wave_wave hg hp0 hp1 hp2]
        have ea : log (p2 / p0) / cos phi / √8 = log (p1 / p0) / cos phi / √8 + log (p2 / p1) / cos phi / √8 := by
          rw [← add_div, ← add_div, ← log_mul hr1.ne' hr2.ne']
          congr 3
          field_simp
        rw [ea, mul_add]

/-- Two cells one after the other. -/
example : ∃ l1 l2, swStep 2 1 1 0 1 1 [sample] = .ok (l1, 1 + 1 * 1 * cos 0) ∧
    swStep 2 1 1 0 1 (1 + 1 * 1 * cos 0) l1 = .ok (l2, 1 + 1 * 1 * cos 0 + 1 * 1 * cos 0) := by
  obtain ⟨l1, h1⟩ := sw_crest sample
  obtain ⟨l2, h2⟩ := sw_defined (c := 2) (g := 1) (f := 1) (phi := 0) (p0 := 1 + 1 * 1 * cos 0) (n := 1) one_ne_zero
    one_ne_zero (by norm_num) (Or.inr (by norm_num)) l1
  exact ⟨l1, l2, h1, h2⟩

/-- C254 fails for every step which is not a number of whole cells, for instance half of a structure of one cell. -/
theorem sw_part_violated {c g f phi ds p0 : ℝ} (hd : ds ≠ 0) (hn : ∀ n : ℤ, n * (c / f / 2) ≠ ds) (l : List PS) :
    swStep c g f phi ds p0 l = .ub := by
  unfold swStep
  rw [if_neg hd]
  split
  · rfl
  · simp only
    rw [if_pos (hn _)]

/-- Half a cell. -/
example : (1 / 2 : ℝ) ≠ 0 ∧ ∀ n : ℤ, (n : ℝ) * (2 / 1 / 2) ≠ 1 / 2 := by
  refine ⟨by norm_num, fun n h => ?_⟩
  have h2 : ((2 * n : ℤ) : ℝ) = ((1 : ℤ) : ℝ) := by push_cast; linarith
  have := Int.cast_injective h2
  omega

/-! ## C255: monitors while tracking -/

theorem monStep_eq {len mp s ds : ℝ} (hl : len ≠ 0) (l : List PS) : ∃ m, monStep len mp s ds l =
    .ok (l.map (straight ds), m) ∧ (mp + len / 2 < s + ds → m = some (l.map (straight (mp + len / 2 - s)))) ∧
    (¬ mp + len / 2 < s + ds → m = none) := by
  unfold monStep
  rw [if_neg hl]
  simp only
  split_ifs with h
  · refine ⟨_, ?_, fun _ => rfl, fun e => absurd h e⟩
    simp only [Outcome.ok.injEq, Prod.mk.injEq, List.map_map, Option.some.injEq]
    refine ⟨List.map_congr_left fun v _ => ?_, List.map_congr_left fun v _ => thinDrift_straight _ v⟩
    simp only [Function.comp_apply, thinDrift_straight, straight_straight]
    congr 1; ring
  · refine ⟨none, ?_, fun e => absurd e h, fun _ => rfl⟩
    simp only [Outcome.ok.injEq, Prod.mk.injEq, and_true]
    exact List.map_congr_left fun v _ => thinDrift_straight _ v

/-- C255: whatever the steps, the bunch moves straight along their sum, and every measurement is made of the bunch at
the place of the measurement point. -/
theorem mon_run {len mp : ℝ} (hl : len ≠ 0) (steps : List ℝ) : ∀ (s : ℝ) (l : List PS), ∃ ms,
    monRun len mp s steps l = .ok (l.map (straight steps.sum), ms) ∧
    ∀ m ∈ ms, m = l.map (straight (mp + len / 2 - s)) := by
  induction steps with
  | nil =>
    intro s l
    refine ⟨[], ?_, by simp⟩
    simp only [monRun, List.sum_nil, Outcome.ok.injEq, Prod.mk.injEq, and_true]
    conv_lhs => rw [← List.map_id l]
    exact List.map_congr_left fun v _ => by simp [straight]
  | cons ds rest ih =>
    intro s l
    obtain ⟨m, h1, h2, h3⟩ := monStep_eq (mp := mp) (s := s) (ds := ds) hl l
    obtain ⟨ms, h4, h5⟩ := ih (s + ds) (l.map (straight ds))
    refine ⟨m.toList ++ ms, ?_, ?_⟩
    · rw [monRun, h1]
      simp only [Outcome.bind]
      rw [h4]
      simp only [List.sum_cons, List.map_map, Outcome.ok.injEq, Prod.mk.injEq, and_true]
      exact List.map_congr_left fun v _ => by rw [Function.comp_apply, straight_straight]
    · intro q hq
      rcases List.mem_append.1 hq with hq | hq
      · by_cases h : mp + len / 2 < s + ds
        · rw [h2 h] at hq; simpa using hq
        · rw [h3 h] at hq; simp at hq
      · rw [h5 q hq, List.map_map]
        exact List.map_congr_left fun v _ => by
          rw [Function.comp_apply, straight_straight]; congr 1; ring

example : ∃ ms, monRun 2 0 0 [1, 1] [sample] = .ok ([sample].map (straight ([1, 1] : List ℝ).sum), ms) :=
  let ⟨ms, h, _⟩ := mon_run (mp := 0) two_ne_zero [1, 1] 0 [sample]
  ⟨ms, h⟩

/-! ## C256: one measurement -/

/-- C256, characterisation: there are as many measurements as steps which end beyond the measurement point. -/
theorem mon_count {len mp : ℝ} (hl : len ≠ 0) (steps : List ℝ) : ∀ (s : ℝ) (l l' : List PS) (ms : List (List PS)),
    monRun len mp s steps l = .ok (l', ms) → ms.length = endsBeyond (mp + len / 2) s steps := by
  induction steps with
  | nil => intro s l l' ms h; simp only [monRun, Outcome.ok.injEq, Prod.mk.injEq] at h; rw [← h.2]; rfl
  | cons ds rest ih =>
    intro s l l' ms h
    obtain ⟨m, h1, h2, h3⟩ := monStep_eq (mp := mp) (s := s) (ds := ds) hl l
    rw [monRun, h1] at h
    simp only [Outcome.bind] at h
    obtain ⟨q, hq, h⟩ := bind_ok_iff.mp (show (monRun len mp (s + ds) rest (l.map (straight ds))).bind
      (fun q => .ok (q.1, m.toList ++ q.2)) = .ok (l', ms) from h)
    cases h
    rw [List.length_append, ih _ _ _ _ hq, endsBeyond]
    congr 1
    split_ifs with hc
    · rw [h2 hc]; rfl
    · rw [h3 hc]; rfl

/-- C256 (partial: the whole monitor in one step, the point inside and not at its end): the bunch is measured once, at
the measurement point. -/
theorem mon_once_partial {len mp : ℝ} (hl : 0 < len) (h2 : mp < len / 2) (l : List PS) :
    monRun len mp 0 [len] l = .ok (l.map (straight len), [l.map (straight (mp + len / 2))]) := by
  obtain ⟨ms, h, hm⟩ := mon_run (mp := mp) hl.ne' [len] 0 l
  have hc := mon_count hl.ne' _ _ _ _ _ h
  have e : endsBeyond (mp + len / 2) 0 [len] = 1 := by
    simp only [endsBeyond]
    rw [if_pos (by linarith)]
  rw [e] at hc
  obtain ⟨m, rfl⟩ := List.length_eq_one_iff.1 hc
  rw [h, List.sum_singleton, hm m (by simp), sub_zero]

example : (0 : ℝ) < 2 ∧ (0 : ℝ) < 2 / 2 := by norm_num

/-- A monitor of length zero measures once. -/
theorem mon_thin (mp : ℝ) (l : List PS) : monRun 0 mp 0 [0] l = .ok (l, [l]) := by
  simp [monRun, monStep, Outcome.bind]

/-- C256 fails if there are several steps: each one after the measurement point repeats the measurement. -/
theorem mon_repeat_violated {len mp : ℝ} (hl : 0 < len) (h1 : mp < 0) (l : List PS) :
    ∃ m, monRun len mp 0 [len / 2, len / 2] l = .ok (l.map (straight len), [m, m]) := by
  obtain ⟨ms, h, hm⟩ := mon_run (mp := mp) hl.ne' [len / 2, len / 2] 0 l
  have hc := mon_count hl.ne' _ _ _ _ _ h
  have e : endsBeyond (mp + len / 2) 0 [len / 2, len / 2] = 2 := by
    simp only [endsBeyond]
    rw [if_pos (by linarith), if_pos (by linarith)]
  rw [e] at hc
  obtain ⟨a, b, rfl⟩ := List.length_eq_two.1 hc
  have ha := hm a (by simp)
  have hb := hm b (by simp)
  refine ⟨a, ?_⟩
  rw [h, hb, ← ha]
  norm_num

example : (0 : ℝ) < 1 ∧ (-1 / 4 : ℝ) < 0 := by norm_num

/-- C256 fails for a measurement point at the end of the monitor: there is no measurement, whatever the steps. -/
theorem mon_end_violated {len : ℝ} (hl : 0 < len) {steps : List ℝ} (hs : steps.sum = len) (hp : ∀ d ∈ steps, 0 ≤ d)
    (l : List PS) : monRun len (len / 2) 0 steps l = .ok (l.map (straight len), []) := by
  obtain ⟨ms, h, -⟩ := mon_run (mp := len / 2) hl.ne' steps 0 l
  have hc := mon_count hl.ne' _ _ _ _ _ h
  have key : ∀ (st : List ℝ) (s : ℝ), (∀ d ∈ st, 0 ≤ d) → s + st.sum ≤ len → endsBeyond (len / 2 + len / 2) s st = 0 := by
    intro st
    induction st with
    | nil => intro s _ _; rfl
    | cons d st ih =>
      intro s h1 h2
      have hn : 0 ≤ st.sum := List.sum_nonneg fun x hx => h1 x (List.mem_cons_of_mem _ hx)
      rw [List.sum_cons] at h2
      rw [endsBeyond, if_neg (by linarith), ih _ (fun x hx => h1 x (List.mem_cons_of_mem _ hx)) (by linarith)]
  rw [key steps 0 hp (by linarith), List.length_eq_zero_iff] at hc
  rw [h, hs, hc]

example : ([1 / 2, 1 / 2] : List ℝ).sum = 1 ∧ ∀ d ∈ ([1 / 2, 1 / 2] : List ℝ), 0 ≤ d := by
  constructor
  · norm_num
  · intro d hd
    simp at hd
    rw [hd]; norm_num

/-! ## C257: solenoids -/

/-- The strength for a particle: field over its rigidity. -/
noncomputable def strength (ec bz : ℝ) (b : Bunch) (v : PS) : ℝ := b.q * bz * ec / momentum b.p0 v

/-- The step in closed form; `t` is half the angle of rotation. -/
noncomputable def sol (k t : ℝ) (v : PS) : PS :=
  let c := cos t
  let s := sin t
  ⟨c * (c * v.x + 2 * s / k * v.px) + s * (c * v.y + 2 * s / k * v.py),
   c * (-k * s / 2 * v.x + c * v.px) + s * (-k * s / 2 * v.y + c * v.py),
   -s * (c * v.x + 2 * s / k * v.px) + c * (c * v.y + 2 * s / k * v.py),
   -s * (-k * s / 2 * v.x + c * v.px) + c * (-k * s / 2 * v.y + c * v.py), v.ct, v.dp⟩

theorem sol_ok {eps ec bz ds : ℝ} {b : Bunch} {v : PS} (hd : ds ≠ 0) (hb : eps < |bz|) (hp : momentum b.p0 v ≠ 0)
    (hk : Transport.eps < |strength ec bz b v / 2 * ds|) :
    solStep eps ec bz b ds v = .ok (sol (strength ec bz b v) (strength ec bz b v / 2 * ds) v) := by
  obtain ⟨h1, h2⟩ := mul_ne_zero_iff.1 hp
  have ek : b.q * bz / (b.p0 / ec) / (1 + v.dp) = strength ec bz b v := by
    unfold strength momentum
    by_cases he : ec = 0
    · simp [he]
    · field_simp
  unfold solStep
  rw [if_neg hd, if_neg (by rw [sub_zero]; exact not_le.2 hb), if_neg (by tauto)]
  simp only
  rw [ek]
  have g := sol_closed ds (strength ec bz b v) 0 true true hk
  have g' : ∀ i j, i < 6 → j < 6 → solenoid ds (strength ec bz b v) 0 true true i j =
    solClosed (strength ec bz b v) (cos (strength ec bz b v / 2 * ds)) (sin (strength ec bz b v / 2 * ds)) i j := g
  simp only [Outcome.ok.injEq, sol, ofVec, MatrixMap.applyVec, MatrixMap.loopSum, PS.mk.injEq]
  refine ⟨?_, ?_, ?_, ?_, ?_, ?_⟩
  · simp [g', solClosed, toVec]; ring
  · simp [g', solClosed, toVec]; ring
  · simp [g', solClosed, toVec]; ring
  · simp [g', solClosed, toVec]; ring
  · simp [toVec]
  · simp [toVec]

theorem strength_ne {k ds : ℝ} (h : Transport.eps < |k / 2 * ds|) : k ≠ 0 := by
  rintro rfl
  simp [Transport.eps] at h
  norm_num at h

/-- C257 (partial: fields and angles above the tolerance): a step in a solenoid leaves the canonical angular momentum,
the energy of the oscillation, the momentum and the arrival time of every particle as they are. -/
theorem sol_invariants_partial {eps ec bz ds : ℝ} {b : Bunch} {v : PS} (hd : ds ≠ 0) (hb : eps < |bz|)
    (hp : momentum b.p0 v ≠ 0) (hk : Transport.eps < |strength ec bz b v / 2 * ds|) :
    ∃ w, solStep eps ec bz b ds v = .ok w ∧ angular w = angular v ∧
      oscillation (strength ec bz b v) w = oscillation (strength ec bz b v) v ∧ w.dp = v.dp ∧ w.ct = v.ct := by
  refine ⟨_, sol_ok hd hb hp hk, ?_, ?_, rfl, rfl⟩
  · have q := sin_sq_add_cos_sq (strength ec bz b v / 2 * ds)
    have k0 := strength_ne hk
    simp only [angular, sol]
    generalize strength ec bz b v = k at *
    generalize sin (k / 2 * ds) = s at *
    generalize cos (k / 2 * ds) = c at *
    have e1 : c ^ 2 = 1 - s ^ 2 := by linarith
    field_simp
    ring_nf
    rw [show c ^ 4 = (c ^ 2) ^ 2 by ring, e1]
    ring
  · have q := sin_sq_add_cos_sq (strength ec bz b v / 2 * ds)
    have k0 := strength_ne hk
    simp only [oscillation, sol]
    generalize strength ec bz b v = k at *
    generalize sin (k / 2 * ds) = s at *
    generalize cos (k / 2 * ds) = c at *
    have e1 : c ^ 2 = 1 - s ^ 2 := by linarith
    field_simp
    ring_nf
    rw [show c ^ 4 = (c ^ 2) ^ 2 by ring, e1]
    ring

/-- C257 (partial: as above): along a solenoid particles follow the motion in canonical momenta: rotation by half the
strength, and focusing by its square in the rotating frame. -/
theorem sol_motion_partial {eps ec bz : ℝ} {b : Bunch} {v : PS} (hb : eps < |bz|) (hp : momentum b.p0 v ≠ 0)
    (h0 : strength ec bz b v ≠ 0) : ∃ o : ℝ → PS, o 0 = v ∧
      (∀ s, Transport.eps < |strength ec bz b v / 2 * s| → solStep eps ec bz b s v = .ok (o s)) ∧
      ∀ s, Der o (solMotion (strength ec bz b v) (o s)) s := by
  refine ⟨fun s => sol (strength ec bz b v) (strength ec bz b v / 2 * s) v, ?_, fun s hs => ?_, fun s => ?_⟩
  · ext <;> simp [sol]
  · refine sol_ok (fun e => ?_) hb hp hs
    rw [e, mul_zero, abs_zero, Transport.eps] at hs
    norm_num at hs
  · generalize strength ec bz b v = k at *
    have dl : HasDerivAt (fun s : ℝ => k / 2 * s) (k / 2) s := by simpa using (hasDerivAt_id' s).const_mul (k / 2)
    have dc := dl.cos
    have ds := dl.sin
    have a1 := fun x px : ℝ => (dc.mul_const x).add (((ds.const_mul 2).div_const k).mul_const px)
    have a2 := fun x px : ℝ => (((ds.const_mul (-k)).div_const 2).mul_const x).add (dc.mul_const px)
    refine ⟨?_, ?_, ?_, ?_, hasDerivAt_const s v.ct, hasDerivAt_const s v.dp⟩
    · refine ((dc.mul (a1 v.x v.px)).add (ds.mul (a1 v.y v.py))).congr_deriv ?_
      simp only [sol, solMotion, Pi.add_apply]; field_simp; ring
    · refine ((dc.mul (a2 v.x v.px)).add (ds.mul (a2 v.y v.py))).congr_deriv ?_
      simp only [sol, solMotion, Pi.add_apply]; field_simp; ring
    · refine ((ds.neg.mul (a1 v.x v.px)).add (dc.mul (a1 v.y v.py))).congr_deriv ?_
      simp only [sol, solMotion, Pi.add_apply, Pi.neg_apply]; field_simp; ring
    · refine ((ds.neg.mul (a2 v.x v.px)).add (dc.mul (a2 v.y v.py))).congr_deriv ?_
      simp only [sol, solMotion, Pi.add_apply, Pi.neg_apply]; field_simp; ring

/-- C257: without field a solenoid is a drift. -/
theorem sol_drift {eps ec bz ds : ℝ} {b : Bunch} (hb : |bz| ≤ eps) (v : PS) :
    solStep eps ec bz b ds v = .ok (straight ds v) := by
  unfold solStep
  split
  · rename_i h; subst h; congr 1; ext <;> simp [straight]
  · rw [if_pos (by rwa [sub_zero]), thinDrift_straight]

example : |(0 : ℝ)| ≤ 1 / 10 ^ 12 := by norm_num

theorem sol_sol {k : ℝ} (hk : k ≠ 0) (a b : ℝ) (v : PS) : sol k b (sol k a v) = sol k (a + b) v := by
  unfold sol
  simp only [cos_add, sin_add, PS.mk.injEq]
  refine ⟨?_, ?_, ?_, ?_, trivial, trivial⟩ <;> field_simp <;> ring

/-- C257 (partial: as above): steps compose. -/
theorem sol_steps_partial {eps ec bz s1 s2 : ℝ} {b : Bunch} {v : PS} (h1 : 0 < s1) (h2 : 0 < s2) (hb : eps < |bz|)
    (hp : momentum b.p0 v ≠ 0) (hk1 : Transport.eps < |strength ec bz b v / 2 * s1|)
    (hk2 : Transport.eps < |strength ec bz b v / 2 * s2|) :
    (solStep eps ec bz b s1 v).bind (solStep eps ec bz b s2) = solStep eps ec bz b (s1 + s2) v := by
  have hs : Transport.eps < |strength ec bz b v / 2 * (s1 + s2)| := by
    refine lt_of_lt_of_le hk1 ?_
    rw [abs_mul, abs_mul]
    exact mul_le_mul_of_nonneg_left (by rw [abs_of_pos h1, abs_of_pos (by positivity)]; linarith) (abs_nonneg _)
  rw [sol_ok h1.ne' hb hp hk1, Outcome.bind, sol_ok (by positivity) hb hp hs]
  have e : strength ec bz b (sol (strength ec bz b v) (strength ec bz b v / 2 * s1) v) = strength ec bz b v := rfl
  rw [sol_ok (v := sol (strength ec bz b v) (strength ec bz b v / 2 * s1) v) h2.ne' hb hp (by rw [e]; exact hk2), e, sol_sol (strength_ne hk1), mul_add]

/-- C257: where a particle goes in a solenoid depends on its momentum, not on the reference momentum of its bunch. -/
theorem sol_momentum {eps ec bz ds : ℝ} {b : Bunch} {v : PS} (hp : momentum b.p0 v ≠ 0) {p1 d1 : ℝ}
    (hm : p1 * (1 + d1) = momentum b.p0 v) : ∃ w, solStep eps ec bz b ds v = .ok w ∧
      solStep eps ec bz { b with p0 := p1 } ds { v with dp := d1 } = .ok { w with dp := d1 } := by
  obtain ⟨h1, h2⟩ := mul_ne_zero_iff.1 hp
  obtain ⟨h3, h4⟩ := mul_ne_zero_iff.1 (hm ▸ hp)
  unfold solStep
  by_cases hd : ds = 0
  · simp only [if_pos hd]; exact ⟨v, rfl, rfl⟩
  · simp only [if_neg hd]
    by_cases hb : |bz - 0| ≤ eps
    · simp only [if_pos hb, thinDrift_straight]
      exact ⟨_, rfl, rfl⟩
    · simp only [if_neg hb]
      rw [if_neg (by tauto), if_neg (by tauto)]
      refine ⟨_, rfl, ?_⟩
      have e : b.q * bz / (p1 / ec) / (1 + d1) = b.q * bz / (b.p0 / ec) / (1 + v.dp) := by
        rw [div_div, div_div, div_mul_eq_mul_div, div_mul_eq_mul_div, hm]; rfl
      rw [e]
      simp [ofVec, toVec, MatrixMap.applyVec, MatrixMap.loopSum]

/-- A field, a particle and lengths for these theorems. -/
example : (0 : ℝ) < |2| ∧ momentum bunch1.p0 sample ≠ 0 ∧ Transport.eps < |strength 1 2 bunch1 sample / 2 * 1| := by
  refine ⟨by norm_num, by norm_num [momentum, bunch1, sample], ?_⟩
  norm_num [strength, momentum, bunch1, sample, Transport.eps, abs_of_pos]

/-- C257 fails for angles within the tolerance while the field is not: particles do not move at all, instead of
straight. -/
theorem sol_weak_violated {eps ec bz ds : ℝ} {b : Bunch} {v : PS} (hd : ds ≠ 0) (hb : eps < |bz|)
    (hp : momentum b.p0 v ≠ 0) (hk : |strength ec bz b v / 2 * ds| ≤ Transport.eps) (hy : v.y = 0) (hpy : v.py = 0) :
    ∃ w, solStep eps ec bz b ds v = .ok w ∧ w.x = cos (strength ec bz b v / 2 * ds) ^ 2 * v.x := by
  obtain ⟨h1, h2⟩ := mul_ne_zero_iff.1 hp
  have ek : b.q * bz / (b.p0 / ec) / (1 + v.dp) = strength ec bz b v := by
    unfold strength momentum
    by_cases he : ec = 0
    · simp [he]
    · field_simp
  unfold solStep
  rw [if_neg hd, if_neg (by rw [sub_zero]; exact not_le.2 hb), if_neg (by tauto)]
  refine ⟨_, rfl, ?_⟩
  rw [ek]
  have hf : Fequal (strength ec bz b v / 2 * ds) 0 := by unfold Fequal; rwa [sub_zero]
  simp [ofVec, toVec, MatrixMap.applyVec, MatrixMap.loopSum, solenoid, solBody, hf, Transport.set, hy, hpy]
  exact Or.inl (by ring)

/-- A particle which should move by the tenth part of a metre. -/
example : ∃ w, solStep 0 1 (1 / 2 ^ 52) bunch1 1 ⟨0, 1 / 10, 0, 0, 0, 0⟩ = .ok w ∧ w.x = 0 := by
  obtain ⟨w, h1, h2⟩ := sol_weak_violated (eps := 0) (ec := 1) (bz := 1 / 2 ^ 52) (ds := 1) (b := bunch1)
    (v := ⟨0, 1 / 10, 0, 0, 0, 0⟩) one_ne_zero (by norm_num) (by norm_num [momentum, bunch1])
    (by norm_num [strength, momentum, bunch1, Transport.eps, abs_of_pos]) rfl rfl
  exact ⟨w, h1, by rw [h2, mul_zero]⟩

/-! ## C258, C259: integrator sets -/

/-- C258: the integrator chosen for a component works on its class or on one from which it is derived, so that the cast
of the component is right. -/
theorem select_safe (s : ISet) (c : Cls) (i : Intg) (h : select s c = .ok i) : i ∈ integrators s ∧ IsA c (ofIntg i) := by
  cases s <;> cases c <;> simp [select, registered, integrators, ofIntg, next] at h <;> subst h <;>
    simp [integrators, ofIntg, IsA]

/-- C258: a component for whose own class there is an integrator in the set gets this one. -/
theorem select_own (s : ISet) (c : Cls) (i : Intg) (hi : i ∈ integrators s) (hc : ofIntg i = c) : select s c = .ok i := by
  subst hc
  cases s <;> cases i <;> simp [integrators] at hi <;> simp [select, registered, integrators, ofIntg, next]

example : Intg.lcav ∈ integrators .transport ∧ ofIntg .lcav = .travelling ∧ select .transport .bpm = .ok .monitorCI := by
  simp [integrators, ofIntg, select, registered, next]

/-- C259 (partial: all components but structures other than travelling waves, and particle maps): every set tracks every
component. -/
theorem select_all_partial (s : ISet) (c : Cls) (h : c ≠ .standing ∧ c ≠ .transverse ∧ c ≠ .particleMap) :
    ∃ i, select s c = .ok i := by
  cases s <;> cases c <;> simp at h <;> simp [select, registered, integrators, ofIntg, next]

example : Cls.hollowLens ≠ .standing ∧ Cls.hollowLens ≠ .transverse ∧ Cls.hollowLens ≠ .particleMap := by simp

/-- C259 fails: which components no integrator of the set can track, so that tracking ends with an exception. -/
theorem select_missing_violated (s : ISet) (c : Cls) : select s c = .throw () ↔
    c = .standing ∧ (s = .thinLens ∨ s = .smp) ∨ c = .transverse ∧ (s = .symplectic ∨ s = .smp) ∨
    c = .particleMap ∧ s ≠ .thinLens := by
  cases s <;> cases c <;> simp [select, registered, integrators, ofIntg, next]

end Verif.ThinLens
