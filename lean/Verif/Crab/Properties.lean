import Verif.Crab.CrossingFive

/-! Crab cavities: closing the crossing, failures, phases, frequencies and misplaced cavities. -/

namespace Verif.Crab
open Verif Verif.Crab.Spec Real

/-! ## An optics for the examples -/

/-- Lattice functions one, and a quarter of an oscillation between cavities and interaction points. -/
noncomputable def o0 : Optics where
  find := fun s => if s = "IP1.L1" then 0 else if s = "IP5" then 9 else 2
  mu := fun n => if n = 0 ∨ n = 10 then (0, 0) else (1 / 4, 1 / 4)
  betaX := fun _ => 1
  betaY := fun _ => 1

/-- Cavities. -/
noncomputable def u0 : Marker := ⟨"CRAB.L1", 26000⟩
noncomputable def d0 : Marker := ⟨"CRAB.R1", 100⟩
noncomputable def v0 : Marker := ⟨"CRAB.L5", 13000⟩
noncomputable def w0 : Marker := ⟨"CRAB.R5", 13400⟩

theorem at_u0 : At .up1 u0.pos := by norm_num [At, u0]
theorem at_d0 : At .down1 d0.pos := by norm_num [At, d0]
theorem at_v0 : At .up5 v0.pos := by norm_num [At, v0]
theorem at_w0 : At .down5 w0.pos := by norm_num [At, w0]

theorem lever_u {m : Marker} (hm : o0.find m.name = 2) : lever o0 false (o0.find m.name) (o0.find "IP1.L1") = 1 := by
  rw [hm]
  simp only [lever, o0, Optics.beta, plane]
  norm_num
  rw [show 2 * π * (1 / 4) = π / 2 by ring, sin_pi_div_two]

theorem lever_v {m : Marker} (hm : o0.find m.name = 2) : lever o0 true (o0.find m.name) (o0.find "IP5" + 1) = 1 := by
  have h9 : o0.find "IP5" = 9 := by simp [o0]
  rw [hm, h9]
  simp only [lever, o0, Optics.beta, plane]
  norm_num
  rw [show 2 * π * (1 / 4) = π / 2 by ring, sin_pi_div_two]

theorem fit0 {ms : List Marker} (h : ∀ m ∈ ms, o0.find m.name = 2) : Fit o0 ms :=
  ⟨fun m hm _ => by rw [lever_u (h m hm)]; norm_num, fun m hm _ => by rw [lever_v (h m hm)]; norm_num,
    fun _ _ _ => by simp [o0], fun _ _ _ => by simp [o0]⟩

theorem find_u0 : o0.find u0.name = 2 := by simp [o0, u0]
theorem find_d0 : o0.find d0.name = 2 := by simp [o0, d0]
theorem find_v0 : o0.find v0.name = 2 := by simp [o0, v0]
theorem find_w0 : o0.find w0.name = 2 := by simp [o0, w0]

/-- A turn of the example. -/
noncomputable def turn0 : List Marker := [u0, u0, u0, u0, d0, d0, d0, d0, v0, v0, v0, v0, w0, w0, w0, w0]

theorem turn0_at : List.Forall₂ (fun k m => At k m.pos) (rounds [.up1, .down1, .up5, .down5] 1) turn0 := by
  simp [rounds, turn0, at_u0, at_d0, at_v0, at_w0]

theorem turn0_find : ∀ m ∈ turn0, o0.find m.name = 2 := by
  intro m hm
  simp [turn0] at hm
  rcases hm with rfl | rfl | rfl | rfl
  · exact find_u0
  · exact find_d0
  · exact find_v0
  · exact find_w0

/-- A turn runs, and is counted. -/
example (ps : List Particle) : ∃ s' ps', passes o0 turn0 (mk, ps) = .ok (s', ps') ∧ s'.turn = 1 := by
  obtain ⟨⟨s', ps'⟩, h⟩ := runs_both turn0_at (fit0 turn0_find) (freq := 400.79e6 * 2 * π) (by positivity) (590e-6 / 2) 0 10 3 ps
  refine ⟨s', ps', h, ?_⟩
  have hk : List.Forall₂ (fun k m => At k m.pos) (rounds [.up1, .down1, .up5, .down5] 0 ++
      List.flatMap (List.replicate 4) [.up1, .down1, .up5, .down5]) turn0 := by
    simpa [rounds] using turn0_at
  exact turns_both (by simp [orders]) (by simp) (List.prefix_refl _) hk (400.79e6 * 2 * π, 590e-6 / 2, 0) 10 3 h

/-- The same turn begun before the fifth point goes wrong. -/
example (ps : List Particle) : passes o0 [v0, v0, v0, v0, w0, w0, w0, w0, u0, u0, u0, u0, d0, d0, d0, d0] (mk, ps) = .ub :=
  start_at_five (u := [v0, v0, v0, v0]) rfl (by simp [at_v0]) at_w0 (fit0 (by simp [find_v0])) _ (freq := 400.79e6 * 2 * π) (by positivity) _ _
    (by norm_num) ps

/-- A crossing in the example: both kinds of cavities give the same kicks, since half an oscillation lies between them. -/
example (ps : List Particle) : ∃ s' ps', passes o0 [u0, u0, u0, u0, d0, d0, d0, d0] (mk, ps) = .ok (s', ps') ∧
    List.Forall₂ (fun p q => q.yp = p.yp + 2 * tilt (400.79e6 * 2 * π) (590e-6 / 2) 0 p.ct) ps ps' := by
  have hk : List.Forall₂ (fun k m => At k m.pos) (List.replicate 4 Set.up1 ++ List.replicate 4 Set.down1) [u0, u0, u0, u0, d0, d0, d0, d0] := by
    simp [List.replicate, at_u0, at_d0]
  obtain ⟨⟨s', ps'⟩, h⟩ := passes_both hk (fit0 (by simp [find_u0, find_d0])) (s := mk) (by simp only [mk, mkTurns]; positivity) rfl rfl
    (by simp [goodBoth, okBoth, stepBoth, Counter.zero, Counter.goUp, Counter.goDown, List.replicate, mk, mkTurns]) ps
  refine ⟨s', ps', h, ?_⟩
  have := crossing_atlas (by simp [at_u0]) (by simp [at_d0]) h rfl rfl (Or.inl rfl) (Or.inr (by simp [mk, mkTurns])) (by simp [mk, mkTurns])
  refine this.imp ?_
  intro p q e
  rw [e]
  simp only [pair1, lever_u find_u0]
  rw [find_u0, find_d0]
  have h4 : cos (2 * π * (1 / 4) + 2 * π * |0 - 1 / 4|) = -1 := by
    rw [show |(0 : ℝ) - 1 / 4| = 1 / 4 by norm_num, show 2 * π * (1 / 4) + 2 * π * (1 / 4) = π by ring, cos_pi]
  simp only [o0, mk, mkTurns]
  norm_num at h4 ⊢
  rw [h4]
  ring

/-! ## Closing (C295) -/

/-- Behind the second cavity of a pair nothing is left of the kick of the first if and only if the phase advance between
them is a whole number of half oscillations. -/
theorem closes_iff {b1 b2 : ℝ} (h1 : 0 < b1) (h2 : 0 < b2) (a1 a2 d x xp : ℝ) {k : ℝ} (hk : k ≠ 0) :
    (let q := transfer b1 a1 b2 a2 d (x, xp + k)
     (q.1, q.2 - √(b1 / b2) * cos d * k) = transfer b1 a1 b2 a2 d (x, xp)) ↔ sin d = 0 := by
  have hs : √(b1 * b2) ≠ 0 := (sqrt_pos.2 (mul_pos h1 h2)).ne'
  simp only [transfer, Prod.mk.injEq]
  constructor
  · rintro ⟨h, -⟩
    have : √(b1 * b2) * k * sin d = 0 := by linear_combination h
    rcases mul_eq_zero.1 this with h' | h'
    · exact absurd h' (mul_ne_zero hs hk)
    · exact h'
  · intro h
    rw [h]
    constructor <;> ring

/-- The optics at the second cavity is not regarded: the slope left over. -/
theorem slope_left (b1 a1 b2 a2 d x xp k : ℝ) :
    (transfer b1 a1 b2 a2 d (x, xp + k)).2 - √(b1 / b2) * cos d * k - (transfer b1 a1 b2 a2 d (x, xp)).2 = -(√(b1 / b2) * a2 * sin d * k) := by
  simp only [transfer]
  ring

/-- A pair a third of an oscillation apart leaves part of the kick behind. -/
theorem closing_violated : ∃ b1 a1 b2 a2 d k : ℝ, 0 < b1 ∧ 0 < b2 ∧ k ≠ 0 ∧
    (let q := transfer b1 a1 b2 a2 d (0, k)
     (q.1, q.2 - √(b1 / b2) * cos d * k) ≠ transfer b1 a1 b2 a2 d (0, 0)) := by
  refine ⟨1, 0, 1, 0, π / 2, 1, by norm_num, by norm_num, by norm_num, ?_⟩
  have := (closes_iff (b1 := 1) (b2 := 1) one_pos one_pos 0 0 (π / 2) 0 0 (one_ne_zero)).not
  rw [sin_pi_div_two] at this
  simpa using this

example : (let q := transfer 4 1 9 2 (3 * π) (5, 7 + 1)
     (q.1, q.2 - √(4 / 9) * cos (3 * π) * 1) = transfer 4 1 9 2 (3 * π) (5, 7)) :=
  (closes_iff (by norm_num) (by norm_num) 1 2 (3 * π) 5 7 one_ne_zero).2 (by
    rw [show (3 : ℝ) * π = ((3 : ℕ) : ℝ) * π by norm_num, sin_nat_mul_pi])

/-! ## Failures (C291-C293) -/

/-- One cavity before the first point with a fresh process, both points in use. -/
theorem first_pass (freq crossing phase : ℝ) (hw : freq ≠ 0) (a b : Int) (ps : List Particle) (on : Bool) :
    ∃ s' ps', pass o0 u0 (setFailure on (mkTurns freq crossing phase a b), ps) = .ok (s', ps') ∧ s'.turn = 1 ∧ s'.nonFailTurns = a ∧ s'.failTurns = b := by
  obtain ⟨⟨s', ps'⟩, h⟩ := pass_both at_u0 (fit0 (by simp [find_u0])) (s := setFailure on (mkTurns freq crossing phase a b)) hw rfl rfl
    (by simp [okBoth, stepBoth, Counter.zero, Counter.goUp, setFailure, mkTurns]) ps
  obtain ⟨⟨-, -, k3, -, -, -, -, k8, k9, -⟩, -⟩ := pass_keeps h
  obtain ⟨-, -, -, e4, e5, -⟩ := set_keeps u0 (setFailure on (mkTurns freq crossing phase a b))
  refine ⟨s', ps', h, ?_, k8.trans e4, k9.trans e5⟩
  have := step_both at_u0 (s := setFailure on (mkTurns freq crossing phase a b)) rfl rfl
  rw [k3]
  have := congrArg (fun r => r.2.2) this
  simpa [stepBoth, setFailure, mkTurns, Counter.zero] using this

/-- The last of the turns without failure already fails: with one such turn and a failure of three turns, the first turn has
two thirds of the voltage. -/
theorem fails_early_violated (freq crossing : ℝ) (hw : freq ≠ 0) (p : Particle) :
    ∃ s' q, pass o0 u0 (mkTurns freq crossing 0 1 3, [p]) = .ok (s', [q]) ∧ s'.turn = 1 ∧ q.yp = p.yp + 2 / 3 * (tilt freq crossing 0 p.ct / 4) := by
  obtain ⟨s', ps', h, ht, ha, hb⟩ := first_pass freq crossing 0 hw 1 3 [p] true
  have h' : pass o0 u0 (mkTurns freq crossing 0 1 3, [p]) = .ok (s', ps') := h
  have := atlas_up at_u0 h' rfl (by rw [ht, ha, hb]; norm_num) (r := 2 / 3)
    (Or.inl ⟨rfl, by rw [ht]; constructor <;> simp [mkTurns]; norm_num⟩)
  rw [lever_u find_u0] at this
  cases this with
  | cons hx hn =>
    cases hn
    exact ⟨s', _, h', ht, by simp only [mkTurns] at hx; linarith⟩

/-- Once the turns of the failure are over no cavity does anything, also with the failure switched off. -/
theorem off_still_ends_violated (freq crossing : ℝ) (hw : freq ≠ 0) (p : Particle) :
    ∃ s', pass o0 u0 (setFailure false (mkTurns freq crossing 0 1 0), [p]) = .ok (s', [p]) := by
  obtain ⟨s', ps', h, ht, ha, hb⟩ := first_pass freq crossing 0 hw 1 0 [p] false
  have := idle_after h (by rw [ht, ha, hb]; norm_num)
  exact ⟨s', by rw [h, this]⟩

/-- Half way through the failure: half the voltage. -/
example (p : Particle) : ∃ s' q, pass o0 u0 (mkTurns 1 (1 / 100) 0 0 4, [p]) = .ok (s', [q]) ∧
    q.yp = p.yp + 1 / 2 * (tilt 1 (1 / 100) 0 p.ct / 4) := by
  obtain ⟨s', ps', h, ht, ha, hb⟩ := first_pass 1 (1 / 100) 0 one_ne_zero 0 4 [p] true
  have h' : pass o0 u0 (mkTurns 1 (1 / 100) 0 0 4, [p]) = .ok (s', ps') := h
  have := atlas_up at_u0 h' rfl (by rw [ht, ha, hb]; norm_num) (r := 1 / 2)
    (Or.inl ⟨rfl, by rw [ht]; constructor <;> simp [mkTurns]; norm_num⟩)
  rw [lever_u find_u0] at this
  cases this with
  | cons hx hn =>
    cases hn
    exact ⟨s', _, h', by simp only [mkTurns] at hx; linarith⟩

/-- The cavities of the fifth point do nothing while both points are in use. -/
theorem cms_never_kicks_violated (p : Particle) :
    ∃ s', pass o0 v0 (mk, [p]) = .ok (s', [p]) := by
  obtain ⟨⟨s', ps'⟩, h⟩ := pass_both at_v0 (fit0 (by simp [find_v0])) (s := mk) (by simp only [mk, mkTurns]; positivity) rfl rfl
    (by simp [okBoth, stepBoth, Counter.zero, Counter.goUp, mk, mkTurns]) [p]
  have := cms_idle (Or.inl rfl) at_v0 h rfl
  exact ⟨s', by rw [h, this]⟩

/-! ## Frequency -/

/-- Without cavity data, particles one period of the cavities apart are kicked alike. -/
theorem default_period (ct : ℝ) : tilt mk.omega mk.theta mk.phi (ct + c / 400.79e6) = tilt mk.omega mk.theta mk.phi ct := by
  have := c_pos.ne'
  unfold tilt
  have h : mk.phi + (ct + c / 400.79e6) * (mk.omega / c) = mk.phi + ct * (mk.omega / c) + 2 * π := by
    simp only [mk, mkTurns]
    field_simp
    ring
  rw [h, sin_add_two_pi]

/-- The frequency given to the constructor is taken for an angular frequency: a particle one period behind is not kicked as
one in the centre. -/
theorem frequency_violated {freq : ℝ} (hw : 0 < freq) {crossing : ℝ} (hc : tan crossing ≠ 0) (p q : Particle) (hp : p.ct = 0) (hq : q.ct = c / freq) :
    ∃ s' p' q', pass o0 u0 (mkFreq freq crossing 0, [p, q]) = .ok (s', [p', q']) ∧ p'.yp - p.yp ≠ q'.yp - q.yp := by
  obtain ⟨s', ps', h, ht, ha, hb⟩ := first_pass freq crossing 0 hw.ne' 10 3 [p, q] true
  have h' : pass o0 u0 (mkFreq freq crossing 0, [p, q]) = .ok (s', ps') := h
  have := atlas_up at_u0 h' rfl (by rw [ht, ha, hb]; norm_num) (r := 1)
    (Or.inl ⟨rfl, by rw [ht]; constructor <;> simp [mkFreq, mkTurns]⟩)
  rw [lever_u find_u0] at this
  cases this with
  | cons hx hn =>
    cases hn with
    | cons hy hn =>
      cases hn
      refine ⟨s', _, _, h', ?_⟩
      simp only [mkFreq, mkTurns, one_mul] at hx hy
      rw [hx, hy, hp, hq]
      have hcp := c_pos.ne'
      unfold tilt
      have e : c / freq * (freq / c) = 1 := by field_simp
      rw [e]
      simp only [zero_add, zero_mul, sin_zero, mul_zero, neg_zero, zero_div]
      intro h0
      have h1 : c / freq * tan crossing * sin 1 = 0 := by linarith
      have : sin (1 : ℝ) ≠ 0 := (sin_pos_of_pos_of_le_one one_pos le_rfl).ne'
      exact (mul_ne_zero (mul_ne_zero (div_ne_zero hcp hw.ne') hc) this) h1

/-! ## One point in use -/

/-- A cavity before the first point, that point alone in use. -/
theorem atlas_up_eq {o : Optics} {m : Marker} (hk : At .up1 m.pos) {s : State} (ha : s.atlasOn = true) (hc : s.cmsOn = false) (hw : s.omega ≠ 0)
    (hl : lever o false (o.find m.name) (o.find "IP1.L1") ≠ 0) (ht : (setComponent m s).turn < s.nonFailTurns + s.failTurns)
    (hi : 1 ≤ (setComponent m s).ip1.upCount ∧ (setComponent m s).ip1.upCount ≤ 4) (ps : List Particle) :
    ∃ s', pass o m (s, ps) = .ok (s', ps.map (kick (setComponent m s) (volt s (lever o false (o.find m.name) (o.find "IP1.L1"))))) ∧
      s'.phi = 0 ∧ s'.ip1 = (setComponent m s).ip1 ∧ s'.turn = (setComponent m s).turn ∧ s'.horizontal = false ∧ s'.upstream = true ∧ s'.atlas = true ∧
      s'.omega = s.omega ∧ s'.theta = s.theta ∧ s'.nonFailTurns = s.nonFailTurns ∧ s'.failTurns = s.failTurns ∧ s'.atlasOn = true ∧ s'.cmsOn = false := by
  obtain ⟨e1, e2, e3, e4, e5, e6, -⟩ := set_keeps m s
  obtain ⟨p1, p2, p3⟩ := set_place .up1 hk s
  obtain ⟨o1, o2⟩ := set_on m s
  have hv : volt s = volt (setComponent m s) := by unfold volt; rw [e2, e3]
  rw [hv, ← e2, ← e3, ← e4, ← e5]
  rw [← e4, ← e5] at ht
  rw [← e2] at hw
  simp only [pass]
  have p1' : (setComponent m s).upstream = true := p1
  have p2' : (setComponent m s).atlas = true := p2
  have p3' : (setComponent m s).horizontal = false := p3
  have hip : Optics.ip o true = o.find "IP1.L1" := rfl
  generalize setComponent m s = t at *
  rw [doProcess, if_pos ht, if_neg (by simp [o2, hc]), if_pos (by simp [o1, ha, p2'])]
  simp only [doAtlas, p1', if_true, m12_lever, p3', hip, calcV1_some hw hl, obind_ok, index_some hi]
  exact ⟨_, rfl, rfl, rfl, rfl, rfl, rfl, p2', rfl, rfl, rfl, rfl, o1.trans ha, o2.trans hc⟩

/-- The phase given to the constructor holds for the first cavity only: with a phase of a quarter, a particle in the centre of
the bunch is kicked by the first of two cavities and not by the second, which is like the first. -/
theorem phase_lost_violated {freq : ℝ} (hw : 0 < freq) {crossing : ℝ} (hc : tan crossing ≠ 0) (p : Particle) (hp : p.ct = 0) :
    ∃ s1 q1 s2 q2, pass o0 u0 (setPlanes true false (mkFreq freq crossing (π / 2)), [p]) = .ok (s1, [q1]) ∧ q1.yp ≠ p.yp ∧
      pass o0 u0 (s1, [q1]) = .ok (s2, [q2]) ∧ q2.yp = q1.yp := by
  have hl : lever o0 false (o0.find u0.name) (o0.find "IP1.L1") ≠ 0 := by rw [lever_u find_u0]; norm_num
  have hset := step_atlas at_u0 (s := setPlanes true false (mkFreq freq crossing (π / 2))) rfl rfl
  have hset' : ((setComponent u0 (setPlanes true false (mkFreq freq crossing (π / 2)))).ip1,
      (setComponent u0 (setPlanes true false (mkFreq freq crossing (π / 2)))).turn) = (⟨false, false, 1, 0⟩, 1) := by
    rw [hset]; simp [stepAtlas, setPlanes, mkFreq, mkTurns, Counter.zero, Counter.goUp]
  rw [Prod.mk.injEq] at hset'
  obtain ⟨s1, h1, f1, f2, f3, f4, f5, f6, f7, f8, f9, f10, f11, f12⟩ := atlas_up_eq at_u0 (s := setPlanes true false (mkFreq freq crossing (π / 2)))
    rfl rfl hw.ne' hl (by rw [hset'.2]; simp [setPlanes, mkFreq, mkTurns]) (by rw [hset'.1]; simp) [p]
  rw [hset'.1] at f2
  rw [hset'.2] at f3
  have hset2 := step_atlas at_u0 f11 f12
  have hset2' : ((setComponent u0 s1).ip1, (setComponent u0 s1).turn) = (⟨false, false, 2, 0⟩, 1) := by
    rw [hset2, f2, f3]; simp [stepAtlas, Counter.goUp]
  rw [Prod.mk.injEq] at hset2'
  obtain ⟨s2, h2, -⟩ := atlas_up_eq at_u0 (s := s1) f11 f12 (by rw [f7]; exact hw.ne') hl
    (by rw [hset2'.2, f9, f10]; simp [setPlanes, mkFreq, mkTurns]) (by rw [hset2'.1]; simp)
    [kick (setComponent u0 (setPlanes true false (mkFreq freq crossing (π / 2)))) (volt (setPlanes true false (mkFreq freq crossing (π / 2)))
      (lever o0 false (o0.find u0.name) (o0.find "IP1.L1"))) p]
  refine ⟨s1, _, s2, _, h1, ?_, h2, ?_⟩
  · obtain ⟨e1, e2, e3, -⟩ := set_keeps u0 (setPlanes true false (mkFreq freq crossing (π / 2)))
    obtain ⟨-, -, p3⟩ := set_place .up1 at_u0 (setPlanes true false (mkFreq freq crossing (π / 2)))
    have p3' : (setComponent u0 (setPlanes true false (mkFreq freq crossing (π / 2)))).horizontal = false := p3
    have hk := slope_kick (setComponent u0 (setPlanes true false (mkFreq freq crossing (π / 2)))) (volt (setPlanes true false (mkFreq freq crossing (π / 2)))
      (lever o0 false (o0.find u0.name) (o0.find "IP1.L1"))) p
    rw [p3', lever_u find_u0, e1, e2, hp] at hk
    simp only [Spec.slope, Bool.false_eq_true, if_false, volt, setPlanes, mkFreq, mkTurns, zero_mul, add_zero, sin_pi_div_two, mul_one] at hk
    intro heq
    rw [lever_u find_u0] at heq
    simp only [volt, setPlanes, mkFreq, mkTurns, mul_one] at heq
    rw [heq] at hk
    have h0 : c * energy * tan crossing / (freq * crabs) / energy = 0 := by linarith
    have := c_pos.ne'
    have := energy_pos.ne'
    have hcr : (crabs : ℝ) ≠ 0 := by norm_num [crabs]
    refine absurd h0 ?_
    exact div_ne_zero (div_ne_zero (mul_ne_zero (mul_ne_zero ‹_› ‹_›) hc) (mul_ne_zero hw.ne' hcr)) ‹_›
  · obtain ⟨e1, e2, e3, -⟩ := set_keeps u0 s1
    obtain ⟨-, -, p3⟩ := set_place .up1 at_u0 s1
    have p3' : (setComponent u0 s1).horizontal = false := p3
    have hk := slope_kick (setComponent u0 s1) (volt s1 (lever o0 false (o0.find u0.name) (o0.find "IP1.L1")))
      (kick (setComponent u0 (setPlanes true false (mkFreq freq crossing (π / 2)))) (volt (setPlanes true false (mkFreq freq crossing (π / 2)))
        (lever o0 false (o0.find u0.name) (o0.find "IP1.L1"))) p)
    rw [p3', e1, f1] at hk
    have hct := (sameBut_kick (setComponent u0 (setPlanes true false (mkFreq freq crossing (π / 2)))) (volt (setPlanes true false (mkFreq freq crossing (π / 2)))
      (lever o0 false (o0.find u0.name) (o0.find "IP1.L1"))) p).2.2.1
    rw [hct, hp] at hk
    simpa [Spec.slope] using hk

/-- A cavity before the fifth point, that point alone in use: it is kicked, with the whole voltage before the failure. -/
example (p : Particle) : ∃ s' q, pass o0 v0 (setPlanes false true (mkTurns 1 (1 / 100) 0 2 3), [p]) = .ok (s', [q]) ∧
    q.xp = p.xp + tilt 1 (1 / 100) 0 p.ct / 4 := by
  obtain ⟨e1, e2, e3, e4, e5, e6, -⟩ := set_keeps v0 (setPlanes false true (mkTurns 1 (1 / 100) 0 2 3))
  obtain ⟨p1, p2, p3⟩ := set_place .up5 at_v0 (setPlanes false true (mkTurns 1 (1 / 100) 0 2 3))
  obtain ⟨o1, o2⟩ := set_on v0 (setPlanes false true (mkTurns 1 (1 / 100) 0 2 3))
  have hset := step_cms at_v0 (s := setPlanes false true (mkTurns 1 (1 / 100) 0 2 3)) rfl rfl
  have hset' : ((setComponent v0 (setPlanes false true (mkTurns 1 (1 / 100) 0 2 3))).ip5,
      (setComponent v0 (setPlanes false true (mkTurns 1 (1 / 100) 0 2 3))).turn) = (⟨false, false, 1, 0⟩, 1) := by
    rw [hset]; simp [stepCms, setPlanes, mkTurns, Counter.zero, Counter.goUp]
  rw [Prod.mk.injEq] at hset'
  have hex : ∃ s' ps', pass o0 v0 (setPlanes false true (mkTurns 1 (1 / 100) 0 2 3), [p]) = .ok (s', ps') := by
    have hw : (setComponent v0 (setPlanes false true (mkTurns 1 (1 / 100) 0 2 3))).omega ≠ 0 := by rw [e2]; simp [setPlanes, mkTurns]
    have hl : lever o0 true (o0.find v0.name) (o0.find "IP5" + 1) ≠ 0 := by rw [lever_v find_v0]; norm_num
    have hip : Optics.ip o0 false = o0.find "IP5" + 1 := rfl
    have hi : 1 ≤ (setComponent v0 (setPlanes false true (mkTurns 1 (1 / 100) 0 2 3))).ip5.upCount ∧
        (setComponent v0 (setPlanes false true (mkTurns 1 (1 / 100) 0 2 3))).ip5.upCount ≤ 4 := by rw [hset'.1]; simp
    simp only [pass]
    have ht : (setComponent v0 (setPlanes false true (mkTurns 1 (1 / 100) 0 2 3))).turn <
        (setComponent v0 (setPlanes false true (mkTurns 1 (1 / 100) 0 2 3))).nonFailTurns +
        (setComponent v0 (setPlanes false true (mkTurns 1 (1 / 100) 0 2 3))).failTurns := by
      rw [hset'.2, e4, e5]; simp [setPlanes, mkTurns]
    have q1 : (setComponent v0 (setPlanes false true (mkTurns 1 (1 / 100) 0 2 3))).upstream = true := p1
    have q2 : (setComponent v0 (setPlanes false true (mkTurns 1 (1 / 100) 0 2 3))).atlas = false := p2
    have q3 : (setComponent v0 (setPlanes false true (mkTurns 1 (1 / 100) 0 2 3))).horizontal = true := p3
    have q4 : (setComponent v0 (setPlanes false true (mkTurns 1 (1 / 100) 0 2 3))).atlasOn = false := o1
    have q5 : (setComponent v0 (setPlanes false true (mkTurns 1 (1 / 100) 0 2 3))).cmsOn = true := o2
    generalize setComponent v0 (setPlanes false true (mkTurns 1 (1 / 100) 0 2 3)) = t at *
    rw [doProcess, if_pos ht, if_neg (by simp [q4]), if_neg (by simp [q4]), if_pos (by simp [q4, q5, q2])]
    simp only [doCms, q1, if_true, m12_lever, q3, hip, calcV1_some hw hl, obind_ok, index_some hi]
    exact ⟨_, _, rfl⟩
  obtain ⟨s', ps', h⟩ := hex
  obtain ⟨⟨-, -, k3, -, -, -, -, k8, k9, -⟩, -⟩ := pass_keeps h
  have := cms_up at_v0 h rfl rfl (by rw [k3, k8, k9, hset'.2, e4, e5]; simp [setPlanes, mkTurns]) (r := 1)
    (by rw [k3, hset'.2]; constructor <;> simp [setPlanes, mkTurns])
  rw [lever_v find_v0] at this
  cases this with
  | cons hx hn =>
    cases hn
    exact ⟨s', _, h, by simp only [setPlanes, mkTurns] at hx; linarith⟩

/-- A cavity of the fifth point, that point alone in use, with counters in bounds. -/
theorem pass_cms {o : Optics} {k : Set} {m : Marker} (hk : At k m.pos) (hf : Fit o [m]) {s : State} (hw : s.omega ≠ 0)
    (ha : s.atlasOn = false) (hc : s.cmsOn = true)
    (hg : (k = .up5 ∧ 1 ≤ (stepCms k (s.ip5, s.turn)).1.upCount ∧ (stepCms k (s.ip5, s.turn)).1.upCount ≤ 4) ∨
      (k = .down5 ∧ 1 ≤ (stepCms k (s.ip5, s.turn)).1.downCount ∧ (stepCms k (s.ip5, s.turn)).1.downCount ≤ 4)) (ps : List Particle) :
    ∃ s' ps', pass o m (s, ps) = .ok (s', ps') ∧ s'.omega = s.omega ∧ s'.atlasOn = false ∧ s'.cmsOn = true ∧ (s'.ip5, s'.turn) = stepCms k (s.ip5, s.turn) := by
  have main : ∃ s' ps', pass o m (s, ps) = .ok (s', ps') := by
    obtain ⟨e1, e2, e3, e4, e5, e6, -⟩ := set_keeps m s
    obtain ⟨p1, p2, p3⟩ := set_place k hk s
    obtain ⟨o1, o2⟩ := set_on m s
    rw [← step_cms hk ha hc] at hg
    rw [← e2] at hw
    rw [← o1] at ha
    rw [← o2] at hc
    simp only [pass]
    generalize setComponent m s = t at *
    unfold doProcess
    split
    swap
    · exact ⟨_, _, rfl⟩
    rcases hg with ⟨rfl, hi⟩ | ⟨rfl, hi⟩
    · have hl := hf.up5 m (by simp) hk
      have hip : Optics.ip o false = o.find "IP5" + 1 := rfl
      have q1 : t.upstream = true := p1
      have q2 : t.atlas = false := p2
      have q3 : t.horizontal = true := p3
      rw [if_neg (by simp [ha]), if_neg (by simp [ha]), if_pos (by simp [ha, hc, q2])]
      simp only [doCms, q1, if_true, m12_lever, q3, hip, calcV1_some hw hl, obind_ok, index_some hi]
      exact ⟨_, _, rfl⟩
    · have hb : o.beta true (o.find m.name) ≠ 0 := hf.down5 m (by simp) hk
      have q1 : t.upstream = false := p1
      have q2 : t.atlas = false := p2
      have q3 : t.horizontal = true := p3
      rw [if_neg (by simp [ha]), if_neg (by simp [ha]), if_pos (by simp [ha, hc, q2])]
      simp only [doCms, q1, Bool.false_eq_true, if_false, q3, obind_ok, index_some hi, m22_some hb]
      exact ⟨_, _, rfl⟩
  obtain ⟨s', ps', h⟩ := main
  obtain ⟨⟨-, k2, k3, k4, k5, k6, -⟩, -⟩ := pass_keeps h
  obtain ⟨o1, o2⟩ := set_on m s
  exact ⟨s', ps', h, k6.trans (set_keeps m s).2.1, k4.trans (o1.trans ha), k5.trans (o2.trans hc), by rw [k2, k3, step_cms hk ha hc]⟩

/-- A crossing of the fifth point in the example. -/
example (ps : List Particle) : ∃ s' ps', passes o0 [v0, v0, v0, v0, w0, w0, w0, w0] (setPlanes false true mk, ps) = .ok (s', ps') ∧
    List.Forall₂ (fun p q => q.xp = p.xp + 2 * tilt (400.79e6 * 2 * π) (590e-6 / 2) 0 p.ct) ps ps' := by
  have fv : Fit o0 [v0] := fit0 (by simp [find_v0])
  have fw : Fit o0 [w0] := fit0 (by simp [find_w0])
  have hw : (setPlanes false true mk).omega ≠ 0 := by simp only [setPlanes, mk, mkTurns]; positivity
  obtain ⟨s1, p1, h1, w1, a1, c1, r1⟩ := pass_cms at_v0 fv (s := setPlanes false true mk) hw rfl rfl
    (by simp [stepCms, setPlanes, mk, mkTurns, Counter.zero, Counter.goUp]) ps
  have r1' : (s1.ip5, s1.turn) = (⟨false, false, 1, 0⟩, 1) := by
    rw [r1]; simp [stepCms, setPlanes, mk, mkTurns, Counter.zero, Counter.goUp]
  obtain ⟨s2, p2, h2, w2, a2, c2, r2⟩ := pass_cms at_v0 fv (by rw [w1]; exact hw) a1 c1 (by rw [r1']; simp [stepCms, Counter.goUp]) p1
  have r2' : (s2.ip5, s2.turn) = (⟨false, false, 2, 0⟩, 1) := by rw [r2, r1']; simp [stepCms, Counter.goUp]
  obtain ⟨s3, p3, h3, w3, a3, c3, r3⟩ := pass_cms at_v0 fv (by rw [w2, w1]; exact hw) a2 c2 (by rw [r2']; simp [stepCms, Counter.goUp]) p2
  have r3' : (s3.ip5, s3.turn) = (⟨false, false, 3, 0⟩, 1) := by rw [r3, r2']; simp [stepCms, Counter.goUp]
  obtain ⟨s4, p4, h4, w4, a4, c4, r4⟩ := pass_cms at_v0 fv (by rw [w3, w2, w1]; exact hw) a3 c3 (by rw [r3']; simp [stepCms, Counter.goUp]) p3
  have r4' : (s4.ip5, s4.turn) = (⟨true, false, 4, 0⟩, 1) := by rw [r4, r3']; simp [stepCms, Counter.goUp]
  obtain ⟨s5, p5, h5, w5, a5, c5, r5⟩ := pass_cms at_w0 fw (by rw [w4, w3, w2, w1]; exact hw) a4 c4 (by rw [r4']; simp [stepCms, Counter.goDown]) p4
  have r5' : (s5.ip5, s5.turn) = (⟨true, false, 4, 1⟩, 1) := by rw [r5, r4']; simp [stepCms, Counter.goDown]
  obtain ⟨s6, p6, h6, w6, a6, c6, r6⟩ := pass_cms at_w0 fw (by rw [w5, w4, w3, w2, w1]; exact hw) a5 c5 (by rw [r5']; simp [stepCms, Counter.goDown]) p5
  have r6' : (s6.ip5, s6.turn) = (⟨true, false, 4, 2⟩, 1) := by rw [r6, r5']; simp [stepCms, Counter.goDown]
  obtain ⟨s7, p7, h7, w7, a7, c7, r7⟩ := pass_cms at_w0 fw (by rw [w6, w5, w4, w3, w2, w1]; exact hw) a6 c6 (by rw [r6']; simp [stepCms, Counter.goDown]) p6
  have r7' : (s7.ip5, s7.turn) = (⟨true, false, 4, 3⟩, 1) := by rw [r7, r6']; simp [stepCms, Counter.goDown]
  obtain ⟨s8, p8, h8, -⟩ := pass_cms at_w0 fw (by rw [w7, w6, w5, w4, w3, w2, w1]; exact hw) a7 c7 (by rw [r7']; simp [stepCms, Counter.goDown]) p7
  have h : passes o0 [v0, v0, v0, v0, w0, w0, w0, w0] (setPlanes false true mk, ps) = .ok (s8, p8) := by
    simp only [passes, h1, h2, h3, h4, h5, h6, h7, h8, obind_ok]
  refine ⟨s8, p8, h, ?_⟩
  have := crossing_cms (by simp [at_v0]) (by simp [at_w0]) h rfl rfl rfl (Or.inr (by simp [setPlanes, mk, mkTurns])) (by simp [setPlanes, mk, mkTurns])
  refine this.imp ?_
  intro p q e
  rw [e]
  have h9 : o0.find "IP5" = 9 := by simp [o0]
  simp only [pair5, lever_v find_v0]
  rw [find_v0, find_w0, h9]
  have h4 : cos (2 * π * |0 - 1 / 4| + 2 * π * |0 - 1 / 4|) = -1 := by
    rw [show |(0 : ℝ) - 1 / 4| = 1 / 4 by norm_num, show 2 * π * (1 / 4) + 2 * π * (1 / 4) = π by ring, cos_pi]
  simp only [o0, setPlanes, mk, mkTurns]
  norm_num at h4 ⊢
  rw [h4]
  ring

/-- A state before the first cavity behind the first point, in the last turn of a failure. -/
noncomputable def s0 : State :=
  { setPlanes true false (mkTurns 1 (1 / 100) 0 1 1) with
    ip1 := ⟨true, false, 4, 0⟩
    atlasStore := ⟨fun _ => c * energy * tan (1 / 100) / (1 * 1 * crabs), fun _ => 2, fun _ => π / 2⟩ }

/-- In the last turn of the failure the phase is a quarter. -/
example (p : Particle) : ∃ s' q, pass o0 d0 (s0, [p]) = .ok (s', [q]) ∧ q.yp = p.yp + tilt 1 (1 / 100) (π / 2) p.ct / 4 := by
  obtain ⟨e1, e2, e3, e4, e5, e6, e7, -⟩ := set_keeps d0 s0
  obtain ⟨p1, p2, p3⟩ := set_place .down1 at_d0 s0
  obtain ⟨o1, o2⟩ := set_on d0 s0
  have hset : ((setComponent d0 s0).ip1, (setComponent d0 s0).turn) = (⟨true, false, 4, 1⟩, 1) := by
    rw [step_atlas at_d0 rfl rfl]; simp [stepAtlas, s0, setPlanes, mkTurns, Counter.goDown]
  rw [Prod.mk.injEq] at hset
  have hex : ∃ s' ps', pass o0 d0 (s0, [p]) = .ok (s', ps') := by
    simp only [pass]
    have q1 : (setComponent d0 s0).upstream = false := p1
    have q2 : (setComponent d0 s0).atlas = true := p2
    have q4 : (setComponent d0 s0).atlasOn = true := o1
    have q5 : (setComponent d0 s0).cmsOn = false := o2
    have hi : 1 ≤ (setComponent d0 s0).ip1.downCount ∧ (setComponent d0 s0).ip1.downCount ≤ 4 := by rw [hset.1]; simp
    have hb : o0.beta (setComponent d0 s0).horizontal (o0.find d0.name) ≠ 0 := by unfold Optics.beta; split <;> simp [o0]
    rw [doProcess, if_pos (by rw [hset.2, e4, e5]; simp [s0, setPlanes, mkTurns]), if_neg (by simp [q5]), if_pos (by simp [q4, q2])]
    simp only [doAtlas, q1, Bool.false_eq_true, if_false, index_some hi, obind_ok, m22_some hb]
    exact ⟨_, _, rfl⟩
  obtain ⟨s', ps', h⟩ := hex
  obtain ⟨⟨k1, -, k3, -⟩, -⟩ := pass_keeps h
  have ht : s'.turn = 1 := k3.trans hset.2
  have := down_fail at_d0 h rfl rfl rfl (by rw [ht]; simp [s0, setPlanes, mkTurns]) (by rw [ht]; simp [s0, setPlanes, mkTurns]) (l := 1)
    (by simp [s0, setPlanes, mkTurns, crabs]) rfl
  rw [ht] at this
  cases this with
  | cons hx hn =>
    cases hn
    refine ⟨s', _, h, ?_⟩
    rw [hx.1, find_d0]
    have h4 : cos (2 * π * (1 / 4) + π / 2) = -1 := by
      rw [show 2 * π * (1 / 4) + π / 2 = π by ring, cos_pi]
    simp [o0, s0, setPlanes, mkTurns, push] at h4 ⊢
    rw [h4]
    ring

/-! ## Cavities too many or out of place (C297) -/

/-- A fifth cavity before the first point writes behind the end of an array. -/
theorem fifth_cavity {o : Optics} {u : List Marker} (hu : u.length = 4) (hup : ∀ m ∈ u, At .up1 m.pos) (hf : Fit o u) {m : Marker}
    (hm : At .up1 m.pos) (hf' : Fit o [m]) (ms : List Marker) {freq : ℝ} (hw : freq ≠ 0) (crossing phase : ℝ) {a b : Int} (hab : 1 < a + b)
    (ps : List Particle) : passes o (u ++ m :: ms) (mkTurns freq crossing phase a b, ps) = .ub := by
  have hk : List.Forall₂ (fun k m => At k m.pos) (List.replicate 4 Set.up1) u := by
    match u, hu with
    | [a1, a2, a3, a4], _ => simp_all [List.replicate]
  have hg : goodBoth (List.replicate 4 Set.up1) (Counter.zero, Counter.zero, 1) = true := by
    simp [goodBoth, okBoth, stepBoth, Counter.zero, Counter.goUp, List.replicate]
  obtain ⟨⟨s', ps'⟩, h⟩ := passes_both hk hf (s := mkTurns freq crossing phase a b) hw rfl rfl hg ps
  obtain ⟨hr, ha, hc⟩ := run_both hk h rfl rfl
  have hfold : List.foldl (fun r k => stepBoth k r) (Counter.zero, Counter.zero, 1) (List.replicate 4 Set.up1) =
      (⟨true, false, 4, 0⟩, Counter.zero, 1) := by
    simp [stepBoth, Counter.zero, Counter.goUp, List.replicate]
  have hkeep : ∀ (l : List Marker) (s : State) (ps : List Particle), passes o l (s, ps) = .ok (s', ps') →
      s'.nonFailTurns = s.nonFailTurns ∧ s'.failTurns = s.failTurns ∧ s'.omega = s.omega := by
    intro l
    induction l with
    | nil => intro s ps h; injection h with h; injection h with h _; subst h; exact ⟨rfl, rfl, rfl⟩
    | cons x l ih =>
      intro s ps h
      simp only [passes, bind_ok_iff] at h
      obtain ⟨⟨s1, ps1⟩, h1, h2⟩ := h
      obtain ⟨⟨-, -, -, -, -, e6, -, e8, e9, -⟩, -⟩ := pass_keeps h1
      obtain ⟨i1, i2, i3⟩ := ih s1 ps1 h2
      obtain ⟨-, e2, -, e4, e5, -⟩ := set_keeps x s
      exact ⟨i1.trans (e8.trans e4), i2.trans (e9.trans e5), i3.trans (e6.trans e2)⟩
  obtain ⟨j1, j2, j3⟩ := hkeep u _ ps h
  have happ : ∀ (l : List Marker) (r : State × List Particle), passes o (l ++ m :: ms) r = (passes o l r).bind (passes o (m :: ms)) := by
    intro l
    induction l with
    | nil => intro r; rfl
    | cons x l ih =>
      intro r
      simp only [List.cons_append, passes]
      cases pass o x r with
      | ok a => simp only [obind_ok]; exact ih a
      | throw e => rfl
      | ub => rfl
  rw [happ, h, obind_ok]
  have hr' : (s'.ip1, s'.ip5, s'.turn) = (⟨true, false, 4, 0⟩, Counter.zero, 1) := hr.trans hfold
  have hs := step_both hm ha hc
  rw [hr'] at hs
  simp only [stepBoth, Counter.zero, Counter.goUp, Bool.and_false, Bool.false_eq_true, if_false, Prod.mk.injEq] at hs
  obtain ⟨e1, e2, e3, e4, e5, e6, -⟩ := set_keeps m s'
  obtain ⟨p1, p2, p3⟩ := set_place .up1 hm s'
  obtain ⟨o1, o2⟩ := set_on m s'
  have p1' : (setComponent m s').upstream = true := p1
  have p2' : (setComponent m s').atlas = true := p2
  have p3' : (setComponent m s').horizontal = false := p3
  have hub : pass o m (s', ps') = .ub := by
    simp only [pass]
    rw [doProcess, if_pos (by rw [e4, e5, hs.2.2, j1, j2]; exact hab), if_pos (by simp [o1, o2, ha, hc])]
    have hl := hf'.up1 m (by simp) hm
    have hip : Optics.ip o true = o.find "IP1.L1" := rfl
    have hw' : (setComponent m s').omega ≠ 0 := by rw [e2, j3]; exact hw
    simp only [doBoth, p1', p2', p3', if_true, m12_lever, hip, calcV1_some hw' hl, obind_ok]
    rw [hs.1]
    rfl
  rw [passes, hub]
  rfl

example (ps : List Particle) : passes o0 [u0, u0, u0, u0, u0] (mk, ps) = .ub :=
  fifth_cavity (u := [u0, u0, u0, u0]) rfl (by simp [at_u0]) (fit0 (by simp [find_u0])) at_u0 (fit0 (by simp [find_u0])) [] (freq := 400.79e6 * 2 * π)
    (by positivity) _ _ (by norm_num) ps

/-- A cavity that belongs to no set is taken for another one of the set passed last: between the two points, behind a cavity
before the first point, a particle is kicked again. -/
theorem out_of_place_violated (freq crossing : ℝ) (hw : freq ≠ 0) (p : Particle) : ∃ s1 q1 s2 q2,
    pass o0 u0 (setPlanes true false (mkFreq freq crossing 0), [p]) = .ok (s1, [q1]) ∧
    pass o0 ⟨"CRAB.X", 5000⟩ (s1, [q1]) = .ok (s2, [q2]) ∧ q2.yp = q1.yp + tilt freq crossing 0 p.ct / 4 := by
  have hl : lever o0 false (o0.find u0.name) (o0.find "IP1.L1") ≠ 0 := by rw [lever_u find_u0]; norm_num
  have hset := step_atlas at_u0 (s := setPlanes true false (mkFreq freq crossing 0)) rfl rfl
  have hset' : ((setComponent u0 (setPlanes true false (mkFreq freq crossing 0))).ip1,
      (setComponent u0 (setPlanes true false (mkFreq freq crossing 0))).turn) = (⟨false, false, 1, 0⟩, 1) := by
    rw [hset]; simp [stepAtlas, setPlanes, mkFreq, mkTurns, Counter.zero, Counter.goUp]
  rw [Prod.mk.injEq] at hset'
  obtain ⟨s1, h1, f1, f2, f3, f4, f5, f6, f7, f8, f9, f10, f11, f12⟩ := atlas_up_eq at_u0 (s := setPlanes true false (mkFreq freq crossing 0))
    rfl rfl hw hl (by rw [hset'.2]; simp [setPlanes, mkFreq, mkTurns]) (by rw [hset'.1]; simp) [p]
  rw [hset'.1] at f2
  rw [hset'.2] at f3
  have hset2 : setComponent ⟨"CRAB.X", 5000⟩ s1 = s1 := by
    unfold setComponent place
    norm_num
    unfold newTurn
    simp [f11, f12, f2]
  have hfx : o0.find "CRAB.X" = 2 := by simp [o0]
  have hlx : lever o0 false (o0.find "CRAB.X") (o0.find "IP1.L1") = 1 := lever_u (m := ⟨"CRAB.X", 5000⟩) hfx
  have hip : Optics.ip o0 true = o0.find "IP1.L1" := rfl
  have hw1 : s1.omega ≠ 0 := by rw [f7]; exact hw
  have h2 : ∀ qs : List Particle, ∃ s2, pass o0 ⟨"CRAB.X", 5000⟩ (s1, qs) = .ok (s2, qs.map (kick s1 (volt s1 1))) := by
    intro qs
    simp only [pass]
    rw [hset2]
    have hi : 1 ≤ s1.ip1.upCount ∧ s1.ip1.upCount ≤ 4 := by rw [f2]; simp
    rw [doProcess, if_pos (by rw [f3, f9, f10]; simp [setPlanes, mkFreq, mkTurns]), if_neg (by simp [f12]), if_pos (by simp [f11, f6])]
    simp only [doAtlas, f5, if_true, m12_lever, f4, hip, hlx, calcV1_some hw1 one_ne_zero, obind_ok, index_some hi]
    exact ⟨_, rfl⟩
  obtain ⟨s2, h2⟩ := h2 [kick (setComponent u0 (setPlanes true false (mkFreq freq crossing 0))) (volt (setPlanes true false (mkFreq freq crossing 0))
      (lever o0 false (o0.find u0.name) (o0.find "IP1.L1"))) p]
  refine ⟨s1, _, s2, _, h1, h2, ?_⟩
  have := kick_yp (s := s1) (l := 1) (r := 1) f4 (by unfold crabs; simpa using hw1)
    (kick (setComponent u0 (setPlanes true false (mkFreq freq crossing 0))) (volt (setPlanes true false (mkFreq freq crossing 0))
      (lever o0 false (o0.find u0.name) (o0.find "IP1.L1"))) p)
  rw [mul_one] at this
  rw [this.1, f7, f8, f1, (sameBut_kick _ _ p).2.2.1]
  simp [push, setPlanes, mkFreq, mkTurns]

end Verif.Crab
