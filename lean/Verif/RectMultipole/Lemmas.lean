import Verif.Multipole.Properties
import Verif.RectMultipole.Spec
import Verif.Transport.Chromatic
import Verif.TransportMaps.Properties

/-!
# Lemmas for rectangular multipoles
-/

namespace Verif.RectMultipole
open Verif Verif.Multipole Verif.Symplectic Verif.Symplectic.Spec Verif.RectMultipole.Spec Verif.TransportMaps
  Verif.Transport Real

noncomputable section

/-- The matrices of a quadrupole applied to a particle. -/
def quadAct (l K : ℝ) (v : PS) : PS where
  x := (cK K l + K * l * sK K l / 2 * v.dp) * v.x + (sK K l + (sK K l - l * cK K l) / 2 * v.dp) * v.px
  px := (-K * sK K l + K * (l * cK K l + sK K l) / 2 * v.dp) * v.x + (cK K l + K * l * sK K l / 2 * v.dp) * v.px
  y := (cK (-K) l + -K * l * sK (-K) l / 2 * v.dp) * v.y + (sK (-K) l + (sK (-K) l - l * cK (-K) l) / 2 * v.dp) * v.py
  py := (- -K * sK (-K) l + -K * (l * cK (-K) l + sK (-K) l) / 2 * v.dp) * v.y +
    (cK (-K) l + -K * l * sK (-K) l / 2 * v.dp) * v.py
  ct := v.ct
  dp := v.dp

theorem applyRdp_four (R T : Mat) (v : PS) : applyRdp (R, T) v =
    ⟨(R 0 0 + T 0 0 * v.dp) * v.x + (R 0 1 + T 0 1 * v.dp) * v.px + (R 0 2 + T 0 2 * v.dp) * v.y + (R 0 3 + T 0 3 * v.dp) * v.py,
     (R 1 0 + T 1 0 * v.dp) * v.x + (R 1 1 + T 1 1 * v.dp) * v.px + (R 1 2 + T 1 2 * v.dp) * v.y + (R 1 3 + T 1 3 * v.dp) * v.py,
     (R 2 0 + T 2 0 * v.dp) * v.x + (R 2 1 + T 2 1 * v.dp) * v.px + (R 2 2 + T 2 2 * v.dp) * v.y + (R 2 3 + T 2 3 * v.dp) * v.py,
     (R 3 0 + T 3 0 * v.dp) * v.x + (R 3 1 + T 3 1 * v.dp) * v.px + (R 3 2 + T 3 2 * v.dp) * v.y + (R 3 3 + T 3 3 * v.dp) * v.py,
     v.ct, v.dp⟩ := by
  simp [applyRdp, MatrixMap.applyRdp, MatrixMap.loopSum, ofVec, toVec]

theorem quadR (l K : ℝ) : Transport.Spec.Same 4 (quadrupoleR 4 l K) (closed l 0 K (-K)) := by
  have := sbr_closed4 4 l 0 K
  simp only [mul_zero, zero_mul, add_zero, zero_add] at this
  exact this

theorem applyRdp_quad {l K : ℝ} (hl : l ≠ 0) (hK : K ≠ 0) (v : PS) :
    applyRdp (quadrupoleR 4 l K, quadrupoleT l K) v = quadAct l K v := by
  have hR := quadR l K
  have hT := quadrupoleT_eq l K hl hK
  rw [applyRdp_four]
  simp only [hR 0 0 (by omega) (by omega), hR 0 1 (by omega) (by omega), hR 0 2 (by omega) (by omega), hR 0 3 (by omega) (by omega),
    hR 1 0 (by omega) (by omega), hR 1 1 (by omega) (by omega), hR 1 2 (by omega) (by omega), hR 1 3 (by omega) (by omega),
    hR 2 0 (by omega) (by omega), hR 2 1 (by omega) (by omega), hR 2 2 (by omega) (by omega), hR 2 3 (by omega) (by omega),
    hR 3 0 (by omega) (by omega), hR 3 1 (by omega) (by omega), hR 3 2 (by omega) (by omega), hR 3 3 (by omega) (by omega),
    hT 0 0 (by omega) (by omega), hT 0 1 (by omega) (by omega), hT 0 2 (by omega) (by omega), hT 0 3 (by omega) (by omega),
    hT 1 0 (by omega) (by omega), hT 1 1 (by omega) (by omega), hT 1 2 (by omega) (by omega), hT 1 3 (by omega) (by omega),
    hT 2 0 (by omega) (by omega), hT 2 1 (by omega) (by omega), hT 2 2 (by omega) (by omega), hT 2 3 (by omega) (by omega),
    hT 3 0 (by omega) (by omega), hT 3 1 (by omega) (by omega), hT 3 2 (by omega) (by omega), hT 3 3 (by omega) (by omega),
    closed, chrom, quadAct, PS.mk.injEq]
  refine ⟨?_, ?_, ?_, ?_, trivial, trivial⟩ <;> ring

theorem quadAct_zero (K : ℝ) (v : PS) : quadAct 0 K v = v := by
  have c0 : ∀ K, cK K 0 = 1 := fun K => by unfold cK; split_ifs <;> simp
  have s0 : ∀ K, sK K 0 = 0 := fun K => by unfold sK; split_ifs <;> simp
  simp [quadAct, c0, s0]

/-- A matrix between two rotations. -/
theorem applyRdp_turned {a : ℝ} (ha : Transport.eps < |a|) (R T : Mat) (v : PS) :
    applyRdp (mmul (mmul (srotAngle a fun _ _ => 0) R) (transp (srotAngle a fun _ _ => 0)),
      mmul (mmul (srotAngle a fun _ _ => 0) T) (transp (srotAngle a fun _ _ => 0))) v =
      turn a (applyRdp (R, T) (turn (-a) v)) := by
  have hs : (srotAngle a fun _ _ => 0) = srot (cos a) (sin a) := by
    unfold srotAngle
    rw [if_neg]
    simpa [Fequal] using ha
  rw [hs, applyRdp_four, applyRdp_four]
  simp only [mmul, transp, MatrixMap.loopSum, srot, srotBody, Transport.set, initR, turn, cos_neg, sin_neg]
  simp
  refine ⟨?_, ?_, ?_, ?_⟩ <;> ring

/-! ## Fields -/

theorem field_same {m n : MField ℝ} (h : SameField m n) (v : PS) : fieldAt m v = fieldAt n v := by
  unfold fieldAt
  rw [h.1, series_ext m.terms n.terms fun i => by
    have := h.2 i
    rw [List.getD_eq_getElem?_getD, List.getD_eq_getElem?_getD] at this
    exact this]

theorem getField_ok {eps : ℝ} {m : MField ℝ} (h : eps < |m.b0|) (v : PS) :
    getField2D eps m v.x v.y (-1) = .ok (fieldAt m v) := field_is_sum eps m h v.x v.y (-1) le_rfl

theorem getField_same {eps : ℝ} {m n : MField ℝ} (h : SameField m n) (v : PS) :
    getField2D eps m v.x v.y (-1) = getField2D eps n v.x v.y (-1) := by
  rcases le_or_gt |m.b0| eps with hm | hm
  · rw [field_null eps m hm, field_null eps n (h.1 ▸ hm)]
  · rw [getField_ok hm, getField_ok (h.1 ▸ hm), field_same h]

theorem field_empty {m : MField ℝ} (h : ∀ n, m.terms.getD n 0 = 0) (v : PS) : fieldAt m v = 0 := by
  have : SameField m ⟨m.b0, []⟩ := ⟨rfl, fun i => by rw [h]; rfl⟩
  rw [field_same this]
  simp [fieldAt, Multipole.Spec.series]

theorem same_without (m : MField ℝ) (n : Nat) :
    SameField (setCoefficient (getCoefficient m n 1).2 n 0 1) (without m n) := by
  refine ⟨rfl, fun i => ?_⟩
  rw [getD_set, getCoefficient_snd]
  simp only [without, List.getD_eq_getElem?_getD, List.getElem?_set]
  by_cases h : i = n
  · subst h; simp only [if_true]; split <;> rfl
  · rw [if_neg h, if_neg fun e => h e.symm]

theorem same_back (m : MField ℝ) (n : Nat) :
    SameField (setCoefficient (setCoefficient (getCoefficient m n 1).2 n 0 1) n (getCoefficient m n 1).1 1) m := by
  refine ⟨rfl, fun i => ?_⟩
  rw [getD_set, getD_set, getCoefficient_snd, getCoefficient_fst]
  by_cases h : i = n
  · rw [if_pos h, h]
  · rw [if_neg h, if_neg h]

theorem same_grow (m : MField ℝ) (n : Nat) : SameField (getCoefficient m n 1).2 m :=
  ⟨rfl, fun i => getCoefficient_snd m n i⟩

theorem same_trans {a b c : MField ℝ} (h : SameField a b) (g : SameField b c) : SameField a c :=
  ⟨h.1.trans g.1, fun i => (h.2 i).trans (g.2 i)⟩

theorem without_same {m m' : MField ℝ} (h : SameField m m') (n : Nat) : SameField (without m n) (without m' n) := by
  have e : ∀ m : MField ℝ, ∀ i, (without m n).terms.getD i 0 = if i = n then 0 else m.terms.getD i 0 := fun m i => by
    have := (same_without m n).2 i
    rw [← this, getD_set, getCoefficient_snd]
  exact ⟨h.1, fun i => by rw [e, e, h.2]⟩

/-- The normalised strength of order `n`: the `n`-th derivative of the field over the rigidity. -/
def normK (ec : ℝ) (m : MField ℝ) (b : Bunch) (n : Nat) : Cx ℝ :=
  Cx.smul (perField ec b * m.b0 * factorial n) (m.terms.getD n 0)

theorem getKn_eq {ec : ℝ} {b : Bunch} (hp : b.p0 ≠ 0) (he : ec ≠ 0) (m : MField ℝ) (n : Nat) :
    ∃ k, getKn m n (b.p0 / ec) = .ok k ∧ Cx.smul b.q k = normK ec m b n := by
  unfold getKn
  rw [if_neg (div_ne_zero hp he)]
  cases h : m.terms[n]? with
  | none =>
    refine ⟨0, rfl, ?_⟩
    simp only [normK, List.getD_eq_getElem?_getD, h]
    ext <;> simp [Cx.smul]
  | some c =>
    refine ⟨_, rfl, ?_⟩
    simp only [normK, perField, List.getD_eq_getElem?_getD, h]
    ext <;> simp [Cx.smul] <;> field_simp

theorem smul_ne {k : ℝ} {z : Cx ℝ} : Cx.smul k z ≠ 0 ↔ k ≠ 0 ∧ z ≠ 0 := by
  have e : Cx.smul k z = 0 ↔ k = 0 ∨ z = 0 := by
    simp only [Cx.ext_iff, Cx.smul, Cx.zero_re, Cx.zero_im, mul_eq_zero]
    tauto
  rw [Ne, e]; tauto

/-! ## Kicks -/

theorem thinKick_ok {eps ec : ℝ} {m : MField ℝ} {b : Bunch} {v : PS} (hp : b.p0 ≠ 0) (hd : 1 + v.dp ≠ 0)
    (hb : eps < |m.b0|) (len : ℝ) :
    thinKick eps ec m len b v = .ok (bendSlopes (perField ec b) (Cx.smul len (fieldAt m v)) v) := by
  unfold thinKick
  rw [if_neg (by tauto), getField_ok hb]
  simp only [Outcome.bind, bendSlopes, perField, Cx.smul, Outcome.ok.injEq, PS.mk.injEq]
  refine ⟨trivial, ?_, trivial, ?_, trivial, trivial⟩ <;> field_simp
  ring

theorem thinKick_same {eps ec : ℝ} {m n : MField ℝ} (h : SameField m n) (len : ℝ) (b : Bunch) (v : PS) :
    thinKick eps ec m len b v = thinKick eps ec n len b v := by
  unfold thinKick
  rw [getField_same h]

theorem kick_ok0 {eps ec : ℝ} {m : MField ℝ} {b : Bunch} {v : PS} (hp : b.p0 ≠ 0) (hd : 1 + v.dp ≠ 0)
    (hb : eps < |m.b0|) (len : ℝ) :
    TransportMaps.kick eps ec m len b 0 v = .ok (bendSlopes (perField ec b) (Cx.smul len (fieldAt m v)) v) := by
  unfold TransportMaps.kick
  rw [if_neg (by tauto), getField_ok hb]
  simp only [Outcome.bind, bendSlopes, perField, Cx.smul, Outcome.ok.injEq, PS.mk.injEq, cos_zero, sin_zero, Cx.mul_re,
    Cx.mul_im, mul_one, mul_zero, zero_mul, sub_zero, add_zero]
  refine ⟨trivial, ?_, trivial, ?_, trivial, trivial⟩ <;> field_simp
  ring

theorem kick_same {eps ec : ℝ} {m n : MField ℝ} (h : SameField m n) (len : ℝ) (b : Bunch) (phi : ℝ) (v : PS) :
    TransportMaps.kick eps ec m len b phi v = TransportMaps.kick eps ec n len b phi v := by
  unfold TransportMaps.kick
  rw [getField_same h]

theorem syKick_ok0 {eps ec : ℝ} {m : MField ℝ} {b : Bunch} (hp : b.p0 ≠ 0) (hb : eps < |m.b0|) (len : ℝ) (v : PS) :
    multipoleKick eps ec m len (beam b) 0 v = .ok (bendMomenta (perField ec b) (Cx.smul len (fieldAt m v)) v) := by
  unfold multipoleKick
  rw [if_neg (show ¬ (beam b).p0 = 0 from hp), getField_ok hb]
  simp only [Outcome.bind, bendMomenta, perField, Cx.smul, Outcome.ok.injEq, PS.mk.injEq, cos_zero, sin_zero, Cx.mul_re,
    Cx.mul_im, mul_one, mul_zero, zero_mul, sub_zero, add_zero, beam]
  refine ⟨trivial, ?_, trivial, ?_, trivial, trivial⟩ <;> field_simp
  ring

theorem syKick_same {eps ec : ℝ} {m n : MField ℝ} (h : SameField m n) (len : ℝ) (b : Beam) (phi : ℝ) (v : PS) :
    multipoleKick eps ec m len b phi v = multipoleKick eps ec n len b phi v := by
  unfold multipoleKick
  rw [getField_same h]

theorem thinDrift_line (z : ℝ) (v : PS) : thinDrift z v = line z v := by
  unfold thinDrift line
  split
  · ext <;> simp [mul_comm]
  · rename_i h
    have : z = 0 := not_not.1 h
    subst this; simp

theorem trDrift_line (z : ℝ) (v : PS) : trDrift z v = lineDelay z v := by
  unfold trDrift lineDelay line
  ext <;> simp; ring

theorem line_add (a c : ℝ) (v : PS) : line a (line c v) = line (c + a) v := by
  ext <;> simp [line] <;> ring

theorem lineDelay_add (a c : ℝ) (v : PS) : lineDelay a (lineDelay c v) = lineDelay (c + a) v := by
  ext <;> simp [lineDelay, line] <;> ring

theorem bendSlopes_zero (k : ℝ) (v : PS) : bendSlopes k 0 v = v := by ext <;> simp [bendSlopes]

/-! ## Steps -/

/-- A step is divided. -/
def Split (m : MField ℝ) : Prop := m.terms.getD 0 0 ≠ 0 ∨ 2 < m.terms.length

theorem split_iff (m : MField ℝ) :
    ((getCoefficient m 0 1).1 ≠ 0 ∨ highest (getCoefficient m 0 1).2 > 1) ↔ Split m := by
  rw [getCoefficient_fst]
  unfold Split highest getCoefficient grow
  refine or_congr Iff.rfl ?_
  simp only [List.length_append, List.length_replicate]
  omega

open Classical in
/-- The map before and after the kick of a thin step. -/
def thinHalf (ec : ℝ) (m : MField ℝ) (b : Bunch) (len : ℝ) (v : PS) : PS :=
  if normK ec m b 1 ≠ 0 then applyRdp (quadMatrices len (normK ec m b 1)) v else line len v

theorem thin_plain {eps ec : ℝ} {c : Mag} {b : Bunch} (hp : b.p0 ≠ 0) (he : ec ≠ 0) (h : ¬ Split c.field) {ds : ℝ}
    (hs : ds ≠ 0) (v : PS) :
    thinStep eps ec c b ds v = .ok (thinHalf ec c.field b ds v, (getCoefficient c.field 0 1).2) := by
  obtain ⟨k, hk, hq⟩ := getKn_eq hp he c.field 1
  unfold thinStep
  rw [if_neg hs, hk, Outcome.bind]
  simp only [split_iff, h, if_false, hq, thinHalf, thinDrift_line]
  split <;> rfl

open Classical in
theorem thin_split {eps ec : ℝ} {c : Mag} {b : Bunch} (hp : b.p0 ≠ 0) (he : ec ≠ 0) (h : Split c.field) {ds : ℝ}
    (hs : ds ≠ 0) (v : PS) : ∃ m', SameField m' c.field ∧
    thinStep eps ec c b ds v = (thinKick eps ec (without c.field 1) ds b (thinHalf ec c.field b (ds / 2) v)).bind fun u =>
      .ok (if c.field.terms.getD 1 0 = 0 ∨ normK ec c.field b 1 ≠ 0 then thinHalf ec c.field b (ds / 2) u
        else ⟨0, 0, 0, 0, u.ct, u.dp⟩, m') := by
  obtain ⟨k, hk, hq⟩ := getKn_eq hp he c.field 1
  refine ⟨_, same_trans (same_back (getCoefficient c.field 0 1).2 1) (same_grow _ 0), ?_⟩
  unfold thinStep
  rw [if_neg hs, hk, Outcome.bind]
  simp only [split_iff, h, if_true, hq]
  rw [thinKick_same (same_trans (same_without _ 1) (without_same (same_grow c.field 0) 1))]
  have hv : (if normK ec c.field b 1 ≠ 0 then applyRdp (if normK ec c.field b 1 ≠ 0 then quadMatrices (ds / 2)
      (normK ec c.field b 1) else (fun _ _ => 0, fun _ _ => 0)) v else thinDrift (ds / 2) v) =
      thinHalf ec c.field b (ds / 2) v := by
    unfold thinHalf
    rw [thinDrift_line]
    split <;> rfl
  rw [hv]
  refine congrArg _ (funext fun u => ?_)
  refine congrArg Outcome.ok (Prod.ext ?_ rfl)
  simp only [getCoefficient_fst, getCoefficient_snd]
  by_cases hK : normK ec c.field b 1 ≠ 0
  · have h1 : c.field.terms.getD 1 0 ≠ 0 := (smul_ne.1 hK).2
    simp only [hK, h1, if_true, thinHalf, ne_eq, not_true_eq_false, not_false_eq_true, or_true, List.getD_eq_getElem?_getD]
    simp only [List.getD_eq_getElem?_getD] at h1
    rw [if_pos h1]
  · by_cases h1 : c.field.terms.getD 1 0 = 0
    · simp only [hK, h1, if_true, if_false, thinHalf, ne_eq, not_true_eq_false, thinDrift_line, true_or]
    · simp only [hK, h1, if_true, if_false, ne_eq, not_false_eq_true, false_or]
      rw [applyRdp_four]
      simp

/-- A step of the second order set is divided. -/
def TSplit (ec : ℝ) (m : MField ℝ) (b : Bunch) : Prop :=
  normK ec m b 0 ≠ 0 ∨ (normK ec m b 1 ≠ 0 ∧ 2 < m.terms.length) ∨ 3 < m.terms.length

theorem toC_ne (z : Cx ℝ) : ‖toC z‖ ≠ 0 ↔ z ≠ 0 := by
  rw [norm_ne_zero_iff, Ne, Complex.ext_iff, Ne, Cx.ext_iff]
  rfl

theorem tsplit_iff (ec : ℝ) (m : MField ℝ) (b : Bunch) :
    (‖toC (normK ec m b 0)‖ ≠ 0 ∨ (normK ec m b 1 ≠ 0 ∧ highest m > 1) ∨ highest m > 2) ↔ TSplit ec m b := by
  rw [toC_ne]
  unfold TSplit highest
  refine or_congr Iff.rfl (or_congr (and_congr Iff.rfl ?_) ?_) <;> omega

open Classical in
theorem tr_form {eps ec : ℝ} {c : Mag} {b : Bunch} (hp : b.p0 ≠ 0) (he : ec ≠ 0) {ds : ℝ} (hs : ds ≠ 0) (v : PS) :
    trStep eps ec c b ds v =
      let len := if TSplit ec c.field b then ds / 2 else ds
      if normK ec c.field b 1 ≠ 0 then
        (quadrupoleTM len (strength (normK ec c.field b 1) 1).1).bind fun M =>
          trBody eps ec c.field 1 M (strength (normK ec c.field b 1) 1).2 (decide (TSplit ec c.field b)) ds b v
      else if normK ec c.field b 2 ≠ 0 then
        trBody eps ec c.field 2 (sextupoleTM len (strength (normK ec c.field b 2) 2).1)
          (strength (normK ec c.field b 2) 2).2 (decide (TSplit ec c.field b)) ds b v
      else if TSplit ec c.field b then
        (TransportMaps.kick eps ec c.field ds b 0 (lineDelay (ds / 2) v)).bind fun u =>
          .ok (lineDelay (ds / 2) u, c.field)
      else .ok (lineDelay ds v, c.field) := by
  obtain ⟨k0, hk0, hq0⟩ := getKn_eq hp he c.field 0
  obtain ⟨k1, hk1, hq1⟩ := getKn_eq hp he c.field 1
  obtain ⟨k2, hk2, hq2⟩ := getKn_eq hp he c.field 2
  unfold trStep
  rw [if_neg (by tauto), if_neg hs, hk0, Outcome.bind, hk1, Outcome.bind, hk2, Outcome.bind]
  simp only [hq0, hq1, hq2, tsplit_iff, trDrift_line, decide_eq_true_eq]
  by_cases h : TSplit ec c.field b
  · simp only [h, if_true]
  · simp only [h, if_false]

theorem trBody_plain {eps ec : ℝ} (h0 : 0 ≤ eps) (m : MField ℝ) (n : Nat) (M : RT) (ds : ℝ) (b : Bunch) (v : PS) :
    trBody eps ec m n M 0 false ds b v = (applyMap M v).bind fun w => .ok (w, m) := by
  have h : ¬ ¬ |(0 : ℝ) - 0| ≤ eps := by simpa using h0
  unfold trBody
  simp only [if_neg h]
  cases applyMap M v <;> simp [Outcome.bind]

theorem trBody_split {eps ec : ℝ} (h0 : 0 ≤ eps) (m : MField ℝ) (n : Nat) (M : RT) (ds : ℝ) (b : Bunch) (v : PS) :
    ∃ m', SameField m' m ∧ trBody eps ec m n M 0 true ds b v = (applyMap M v).bind fun v1 =>
      (TransportMaps.kick eps ec (without m n) ds b 0 v1).bind fun v2 => (applyMap M v2).bind fun v3 => .ok (v3, m') := by
  have h : ¬ ¬ |(0 : ℝ) - 0| ≤ eps := by simpa using h0
  refine ⟨_, same_back m n, ?_⟩
  unfold trBody
  simp only [if_neg h, if_true, neg_zero]
  cases h1 : applyMap M v with
  | ub => simp [Outcome.bind]
  | throw => simp [Outcome.bind]
  | ok v1 =>
    simp only [Outcome.bind]
    rw [kick_same (same_without m n)]
    cases h2 : TransportMaps.kick eps ec (without m n) ds b 0 v1 with
    | ub => simp [Outcome.bind]
    | throw => simp [Outcome.bind]
    | ok v2 =>
      simp only [Outcome.bind]
      cases applyMap M v2 <;> simp [Outcome.bind]

theorem trBody_turned {eps ec phi : ℝ} (h : eps < |phi|) (m : MField ℝ) (n : Nat) (M : RT) (ds : ℝ) (b : Bunch) (v : PS) :
    trBody eps ec m n M phi false ds b v = (applyMap M (turn (-phi) v)).bind fun w => .ok (turn phi w, m) := by
  have h' : ¬ |phi - 0| ≤ eps := by simpa using h
  unfold trBody
  simp only [if_pos h', rotateZ_turn (show eps < |-phi| by rwa [abs_neg]), rotateZ_turn h]
  cases applyMap M (turn (-phi) v) <;> simp [Outcome.bind]

open Classical in
theorem sy_form {eps ec : ℝ} {c : Mag} {b : Bunch} (hp : b.p0 ≠ 0) (he : ec ≠ 0) {ds : ℝ} (hs : ds ≠ 0) (v : PS) :
    ∃ f g : MField ℝ, SameField f c.field ∧ SameField g c.field ∧ syStep eps ec c b ds v =
      if normK ec c.field b 1 ≠ 0 then
        if Split c.field then
          (multipoleKick eps ec (without c.field 1) ds (beam b) (-(Complex.arg (toC (normK ec c.field b 1)) / 2))
            (applyRdp (quadMatrices (ds / 2) (normK ec c.field b 1)) v)).bind fun u =>
          (multipoleKick eps ec (without c.field 1) ds (beam b) 0
            (applyRdp (quadMatrices (ds / 2) (normK ec c.field b 1)) u)).bind fun u' =>
          (driftMap (ds / 2) u').bind fun w => .ok (w, g)
        else .ok (applyRdp (quadMatrices ds (normK ec c.field b 1)) v, f)
      else if Split c.field then
        (driftMap (ds / 2) v).bind fun u => (multipoleKick eps ec (without c.field 1) ds (beam b) 0 u).bind fun u' =>
          (driftMap (ds / 2) u').bind fun w => .ok (w, g)
      else (driftMap ds v).bind fun w => .ok (w, f) := by
  obtain ⟨k, hk, hq⟩ := getKn_eq hp he c.field 1
  have h2 : ds / 2 ≠ 0 := by simpa using hs
  have hS : ∀ s, s ≠ 0 → ∀ u, whenLong driftMap s u = driftMap s u := fun s hs u => by rw [whenLong, if_pos hs]
  unfold syStep
  rw [if_neg (by tauto), if_neg hs, hk, Outcome.bind]
  simp only [split_iff, hq]
  have sg := same_grow c.field 0
  by_cases h : Split c.field
  · simp only [h, if_true]
    by_cases hK : normK ec c.field b 1 ≠ 0
    · simp only [hK, if_true, ne_eq, not_false_eq_true]
      have sb := same_trans (same_back (getCoefficient c.field 0 1).2 1) sg
      refine ⟨c.field, _, ⟨rfl, fun _ => rfl⟩, same_trans (same_back _ 1) sb, ?_⟩
      rw [syKick_same (same_trans (same_without _ 1) (without_same sg 1))]
      cases multipoleKick eps ec (without c.field 1) ds (beam b) (-(Complex.arg (toC (normK ec c.field b 1)) / 2))
            (applyRdp (quadMatrices (ds / 2) (normK ec c.field b 1)) v) with
      | ub => simp [Outcome.bind]
      | throw => simp [Outcome.bind]
      | ok u =>
        simp only [Outcome.bind]
        rw [syKick_same (same_trans (same_without _ 1) (without_same sb 1))]
        simp only [hS _ h2]
    · simp only [hK, if_false]
      refine ⟨c.field, _, ⟨rfl, fun _ => rfl⟩, same_trans (same_back (getCoefficient c.field 0 1).2 1) sg, ?_⟩
      rw [hS _ h2]
      cases driftMap (ds / 2) v with
      | ub => simp [Outcome.bind]
      | throw => simp [Outcome.bind]
      | ok u =>
        simp only [Outcome.bind]
        rw [syKick_same (same_trans (same_without _ 1) (without_same sg 1))]
        simp only [hS _ h2]
  · simp only [h, if_false]
    refine ⟨(getCoefficient c.field 0 1).2, c.field, sg, ⟨rfl, fun _ => rfl⟩, ?_⟩
    by_cases hK : normK ec c.field b 1 ≠ 0
    · simp only [hK, if_true, ne_eq, not_false_eq_true, Outcome.bind]
    · simp only [hK, if_false, hS _ hs]
      cases driftMap ds v <;> simp [Outcome.bind]

end

end Verif.RectMultipole
