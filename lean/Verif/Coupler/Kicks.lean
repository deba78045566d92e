import Verif.Coupler.Spec
import Verif.Wake.Properties

/-!
# The kicks of couplers
-/

namespace Verif.Coupler
open Verif Verif.Wake Verif.Wake.Spec Verif.Coupler.Spec

variable {K : Type} [Field K] [LinearOrder K] [IsStrictOrderedRing K]

theorem centroid_mean (u : Part K → K) (l : List (Part K)) : centroid u l = mean u l := by
  unfold centroid mean
  simp only
  rcases Nat.lt_trichotomy l.length 1 with h1 | h1 | h1
  · have h0 : l = [] := List.length_eq_zero_iff.mp (by omega)
    subst h0
    simp
  · rw [if_neg (by omega), h1]
    simp
  · rw [if_pos h1]

/-- The three parts of the wake at a boundary. -/
theorem wakeT_split (c : Combined K) (m : Rf K) (q dz zmin clen : K) (ha : dz * q ≠ 0) (nb : Nat) (Qd xc yc : Nat → K) (pick : K × K → K) (u : Nat → K)
    (i : Nat) (hi : i < nb) :
    wakeT c m q dz zmin clen nb Qd xc yc pick u i
      = m.V * pick (c.rf (xc i) (yc i) (|m.phi| + m.k * (zmin + (i + 1 / 2) * dz))) / clen
        + wakeL ⟨fun _ => 1, fun _ => 0, false⟩ q dz nb Qd (fun _ => 0) i * pick (c.wxy (xc i) (yc i)) / clen
        + Wake.wakeT c.base q dz nb Qd u i := by
  unfold wakeT wakeL Wake.wakeT
  simp only [if_pos hi, Bool.false_eq_true, if_false, add_assoc]
  rw [fold_range' (fun j : Nat => Qd j * c.base.trans (((j - i : Nat) + 1 / 2) * dz) * u j + Qd j * pick (c.wxy (xc i) (yc i)) / clen),
    fold_range' (fun j : Nat => Qd j * c.base.trans (((j - i : Nat) + 1 / 2) * dz) * u j), fold_range' (fun j : Nat => Qd j * 1), zero_add, zero_add]
  have hs : ∀ l : List Nat, (l.map fun j : Nat => Qd j * c.base.trans (((j - i : Nat) + 1 / 2) * dz) * u j + Qd j * pick (c.wxy (xc i) (yc i)) / clen).sum
      = (l.map fun j : Nat => Qd j * c.base.trans (((j - i : Nat) + 1 / 2) * dz) * u j).sum + (l.map fun j : Nat => Qd j * 1).sum * pick (c.wxy (xc i) (yc i)) / clen := by
    intro l
    induction l with
    | nil => simp
    | cons a l ih =>
      simp only [List.map_cons, List.sum_cons, ih]
      ring
  rw [hs, add_mul, add_mul, div_mul_cancel₀ _ ha]
  ring

theorem wakeT_last (c : Combined K) (m : Rf K) (q dz zmin clen : K) (nb : Nat) (Qd xc yc : Nat → K) (pick : K × K → K) (u : Nat → K) (i : Nat) (hi : nb ≤ i) :
    wakeT c m q dz zmin clen nb Qd xc yc pick u i = 0 := by
  unfold wakeT
  simp only [if_neg (not_lt.mpr hi), show nb - i = 0 by omega]
  simp

/-- **C306.** The force at a boundary of slices. -/
theorem wakeT_force (c : Combined K) (m : Rf K) (q z0 dz clen : K) (hdz : 0 < dz) (ha : dz * q ≠ 0) (nb : Nat) (ps : List (Part K)) (hps : ps ≠ [])
    (Qd : Nat → K) (pick : K × K → K) (U : Part K → K) (bins : List Nat)
    (hQ : ∀ j < nb, Qd j * (ps.length * dz) = (within ps (z0 + j * dz) (z0 + (j + 1) * dz)).length)
    (hb : ∀ j < nb, part ps bins j = within ps (z0 + j * dz) (z0 + (j + 1) * dz)) (i : Nat) :
    wakeT c m q dz z0 clen nb Qd (fun j => centroid Part.x (part ps bins j)) (fun j => centroid Part.y (part ps bins j)) pick
        (fun j => centroid U (part ps bins j)) i
      = if i < nb then force c m.V (phaseAt |m.phi| m.k z0 dz i) (q / ps.length) z0 dz clen nb ps pick U i else 0 := by
  by_cases hi : i < nb
  · rw [if_pos hi, wakeT_split _ _ _ _ _ _ ha _ _ _ _ _ _ _ hi, wakeT_bunchWake c.base q z0 dz hdz nb ps hps Qd U bins hQ hb,
      wakeL_bunchWake ⟨fun _ => 1, fun _ => 0, false⟩ rfl q z0 dz hdz nb ps hps Qd _ hQ]
    unfold force
    simp only [centroid_mean, hb i hi]
    have hc : bunchWake (fun _ => (1 : K)) (fun _ => 1) (q / ps.length) z0 dz nb ps i = chargeFrom (q / ps.length) z0 dz nb ps i := by
      unfold bunchWake chargeFrom inSlice
      refine Finset.sum_congr rfl fun j _ => ?_
      rw [List.map_const', List.sum_replicate, nsmul_eq_mul, mul_one, mul_one]
    rw [hc]
    rfl
  · rw [if_neg hi, wakeT_last _ _ _ _ _ _ _ _ _ _ _ _ _ (by omega)]

/-- **C306.** The kicks: positions stay, the momentum changes by the length times the longitudinal wake, the direction by the length times the force of
couplers and structure, on the straight line between the values at the boundaries of the slice; at the last boundary the force is zero. -/
theorem kicks_spec (e : Env K) (c : Combined K) (m : Rf K) (clen : K) (hw : c.base.csr = false) (s : Proc K) (hr : Ready e c.base s) (hp0 : s.p0 ≠ 0)
    (s' : Proc K) (hs' : kicks e c m clen s = .ok s') (hp1 : s'.p0 ≠ 0) :
    let q := |s.charge| * e.unit / s.ps.length
    let wz := bunchWake c.base.long (fun _ => 1) q s.zmin s.dz s.nbins s.ps
    let wx := fun i => if s.inc ∧ i < s.nbins then
      force c m.V (phaseAt |m.phi| m.k s.zmin s.dz i) q s.zmin s.dz clen s.nbins s.ps Prod.fst Part.x i else 0
    let wy := fun i => if s.inc ∧ i < s.nbins then
      force c m.V (phaseAt |m.phi| m.k s.zmin s.dz i) q s.zmin s.dz clen s.nbins s.ps Prod.snd Part.y i else 0
    List.Forall₂ (fun p p' => p'.x = p.x ∧ p'.y = p.y ∧ p'.ct = p.ct ∧ ∃ n < s.nbins,
      s.zmin + n * s.dz ≤ p.ct ∧ p.ct < s.zmin + (n + 1) * s.dz ∧
      s'.p0 * (1 + p'.dp) = s.p0 * (1 + p.dp) - clen * line wz s.zmin s.dz n p.ct ∧
      p'.xp = (p.xp + clen * line wx s.zmin s.dz n p.ct / s.p0) / (1 - clen * line wz s.zmin s.dz n p.ct / s.p0) ∧
      p'.yp = (p.yp + clen * line wy s.zmin s.dz n p.ct / s.p0) / (1 - clen * line wz s.zmin s.dz n p.ct / s.p0)) s.ps s'.ps ∧
    ((s.ps.map fun p => p.dp).sum = 0 → (s'.ps.map fun p => p.dp).sum = 0) := by
  intro q wz wx wy
  have hgood : ¬ (s.inc = true ∧ (clen = 0 ∨ s.dz * (|s.charge| * e.unit) = 0)) := by
    intro h
    unfold kicks at hs'
    rw [if_pos h] at hs'
    cases hs'
  have hall : before s.ps (s.zmin + (s.nbins : K) * s.dz) = s.ps.length := by
    unfold before
    congr 1
    rw [List.filter_eq_self]
    intro p hp
    simp [(hr.inside p hp).2]
  have hpart : ∀ j < s.nbins, part s.ps s.bins j = within s.ps (s.zmin + j * s.dz) (s.zmin + (j + 1) * s.dz) := by
    intro j hj
    unfold part
    rw [hr.bins j (by omega), hr.bins (j + 1) (by omega)]
    push_cast
    exact part_within s.ps hr.order _ _ (by nlinarith [hr.dz])
  generalize hWdef : wakes e c m clen s = W at *
  have hWz : W.z = wz := by
    rw [← hWdef]
    unfold wakes
    by_cases hi : s.inc = true
    · simp only [hi, if_true]; exact funext hr.wz
    · simp only [hi, if_false]; exact funext hr.wz
  have hWx : W.x = wx := by
    rw [← hWdef]
    unfold wakes
    by_cases hi : s.inc = true
    · have ha : s.dz * (|s.charge| * e.unit) ≠ 0 := fun h => hgood ⟨hi, Or.inr h⟩
      simp only [hi, if_true, wx, true_and]
      exact funext fun i => wakeT_force c m _ s.zmin s.dz clen hr.dz ha s.nbins s.ps hr.ne _ Prod.fst Part.x s.bins hr.Qd hpart i
    · simp only [hi, wx, false_and, if_false]
      rfl
  have hWy : W.y = wy := by
    rw [← hWdef]
    unfold wakes
    by_cases hi : s.inc = true
    · have ha : s.dz * (|s.charge| * e.unit) ≠ 0 := fun h => hgood ⟨hi, Or.inr h⟩
      simp only [hi, if_true, wy, true_and]
      exact funext fun i => wakeT_force c m _ s.zmin s.dz clen hr.dz ha s.nbins s.ps hr.ne _ Prod.snd Part.y s.bins hr.Qd hpart i
    · simp only [hi, wy, false_and, if_false]
      rfl
  obtain ⟨done, h1, h2⟩ := loop_spec e c.base s hr clen s.inc W s.nbins (le_refl _)
  rw [hall, List.drop_length, List.append_nil, List.take_length] at h1
  rw [hall, List.take_length] at h2
  have hk : kicks e c m clen s = .ok { s with
      ps := (adjustRef (((done.map fun p => p.dp).sum - (s.ps.map fun p => p.dp).sum) / done.length) s.p0 done).1
      p0 := (adjustRef (((done.map fun p => p.dp).sum - (s.ps.map fun p => p.dp).sum) / done.length) s.p0 done).2 } := by
    unfold kicks
    rw [if_neg hgood]
    simp only [hw, Bool.false_eq_true, if_false]
    rw [hWdef, h1]
  rw [hk] at hs'
  injection hs' with hs'
  generalize hdpp : ((done.map fun p => p.dp).sum - (s.ps.map fun p => p.dp).sum) / (done.length : K) = dpp at hs'
  have hps : s'.ps = done.map fun p => { p with dp := (p.dp - dpp) / (1 + dpp) } := by rw [← hs']; rfl
  have hpp : s'.p0 = (1 + dpp) * s.p0 := by rw [← hs']; rfl
  have hd1 : 1 + dpp ≠ 0 := by
    intro h0
    rw [hpp, h0, zero_mul] at hp1
    exact hp1 rfl
  have hdz := hr.dz.ne'
  constructor
  · rw [hps]
    refine forall₂_imp_map _ _ _ _ _ h2 ?_
    rintro p p' ⟨n, hn, ha, hb, rfl⟩
    have hl := kick_line clen s.p0 s.dz hdz W.z s.zmin n p.ct
    rw [hWz] at hl
    have hzero : ∀ (n : Nat) (ct : K), line (fun _ => (0 : K)) s.zmin s.dz n ct = 0 := by
      intro n ct; unfold line; ring
    have hx : (if s.inc = true then clen * (W.x n + (W.x (n + 1) - W.x n) / s.dz * (p.ct - (s.zmin + n * s.dz))) / s.p0 else 0)
        = clen * line wx s.zmin s.dz n p.ct / s.p0 := by
      by_cases hi : s.inc = true
      · rw [if_pos hi, hWx]
        have := kick_line (-clen) s.p0 s.dz hdz wx s.zmin n p.ct
        rw [neg_neg] at this
        rw [this]
        ring
      · rw [if_neg hi]
        simp only [wx, hi, Bool.false_eq_true, false_and, if_false]
        rw [hzero]
        ring
    have hy : (if s.inc = true then clen * (W.y n + (W.y (n + 1) - W.y n) / s.dz * (p.ct - (s.zmin + n * s.dz))) / s.p0 else 0)
        = clen * line wy s.zmin s.dz n p.ct / s.p0 := by
      by_cases hi : s.inc = true
      · rw [if_pos hi, hWy]
        have := kick_line (-clen) s.p0 s.dz hdz wy s.zmin n p.ct
        rw [neg_neg] at this
        rw [this]
        ring
      · rw [if_neg hi]
        simp only [wy, hi, Bool.false_eq_true, false_and, if_false]
        rw [hzero]
        ring
    refine ⟨rfl, rfl, rfl, n, hn, ha, hb, ?_, ?_, ?_⟩
    · simp only [kick]
      rw [hpp, hWz, hl]
      field_simp
      ring
    · simp only [kick]
      rw [hx, hWz, hl, ← sub_eq_add_neg]
    · simp only [kick]
      rw [hy, hWz, hl, ← sub_eq_add_neg]
  · intro h0
    rw [hps, List.map_map]
    have hlen : (done.length : K) ≠ 0 := by
      rw [← h2.length_eq]
      intro h
      exact hr.ne (List.length_eq_zero_iff.mp (by exact_mod_cast h))
    have hsum : ∀ m : List (Part K), (m.map ((fun p : Part K => p.dp) ∘ fun p => { p with dp := (p.dp - dpp) / (1 + dpp) })).sum
        = ((m.map fun p => p.dp).sum - m.length * dpp) / (1 + dpp) := by
      intro m
      induction m with
      | nil => simp
      | cons p m ih =>
        simp only [List.map_cons, List.sum_cons, ih, List.length_cons, Function.comp]
        push_cast
        ring
    rw [hsum, ← hdpp, h0, sub_zero, mul_div_cancel₀ _ hlen, sub_self, zero_div]

end Verif.Coupler
