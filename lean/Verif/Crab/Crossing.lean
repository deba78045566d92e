import Verif.Crab.Runs

/-! A whole crossing: four cavities before and four behind the interaction point (C294, C295). -/

namespace Verif.Crab
open Verif Verif.Crab.Spec Real

/-- Vertical slopes changed by amounts that depend on the times of the particles. -/
def Adds (f : ℝ → ℝ) (ps qs : List Particle) : Prop := List.Forall₂ (fun p q => q.yp = p.yp + f p.ct ∧ q.ct = p.ct) ps qs

theorem Adds.trans {f g : ℝ → ℝ} {a b d : List Particle} (h1 : Adds f a b) (h2 : Adds g b d) : Adds (fun ct => f ct + g ct) a d := by
  unfold Adds at *
  induction h1 generalizing d with
  | nil => cases h2; exact .nil
  | cons hx _ ih =>
    cases h2 with
    | cons hy h2 => exact .cons ⟨by rw [hy.1, hx.1, hx.2]; ring, hy.2.trans hx.2⟩ (ih h2)

/-- Horizontal slopes changed by amounts that depend on the times of the particles. -/
def AddsX (f : ℝ → ℝ) (ps qs : List Particle) : Prop := List.Forall₂ (fun p q => q.xp = p.xp + f p.ct ∧ q.ct = p.ct) ps qs

theorem AddsX.trans {f g : ℝ → ℝ} {a b d : List Particle} (h1 : AddsX f a b) (h2 : AddsX g b d) : AddsX (fun ct => f ct + g ct) a d := by
  unfold AddsX at *
  induction h1 generalizing d with
  | nil => cases h2; exact .nil
  | cons hx _ ih =>
    cases h2 with
    | cons hy h2 => exact .cons ⟨by rw [hy.1, hx.1, hx.2]; ring, hy.2.trans hx.2⟩ (ih h2)

/-- Settings that stay during a crossing. -/
structure Calm (s : State) (omega theta phi : ℝ) : Prop where
  omega : s.omega = omega
  theta : s.theta = theta
  phi : s.phi = phi
  quiet : s.failureOn = false ∨ s.turn < s.nonFailTurns
  runs : s.turn < s.nonFailTurns + s.failTurns

/-- The slope a cavity before an interaction point gives. -/
noncomputable def push (omega theta phi l ct : ℝ) : ℝ := tilt omega theta phi ct / (4 * l)

theorem kick_yp {s : State} (hh : s.horizontal = false) {l r : ℝ} (hl : s.omega * l * crabs ≠ 0) (p : Particle) :
    (kick s (volt s l * r) p).yp = p.yp + r * push s.omega s.theta s.phi l p.ct ∧ (kick s (volt s l * r) p).ct = p.ct := by
  have h := kick_part (r := r) hl p
  have hl' : l ≠ 0 := by rintro h; simp [h] at hl
  refine ⟨?_, (sameBut_kick s _ p).2.2.1⟩
  rw [hh] at h
  simp only [Spec.slope, Bool.false_eq_true, if_false] at h
  unfold push
  have : (kick s (volt s l * r) p).yp - p.yp = r * (tilt s.omega s.theta s.phi p.ct / (4 * l)) := by
    field_simp
    linear_combination 4 * h
  linarith

theorem kick_xp {s : State} (hh : s.horizontal = true) {l r : ℝ} (hl : s.omega * l * crabs ≠ 0) (p : Particle) :
    (kick s (volt s l * r) p).xp = p.xp + r * push s.omega s.theta s.phi l p.ct ∧ (kick s (volt s l * r) p).ct = p.ct := by
  have h := kick_part (r := r) hl p
  have hl' : l ≠ 0 := by rintro h; simp [h] at hl
  refine ⟨?_, (sameBut_kick s _ p).2.2.1⟩
  rw [hh] at h
  simp only [Spec.slope, if_true] at h
  unfold push
  have : (kick s (volt s l * r) p).xp - p.xp = r * (tilt s.omega s.theta s.phi p.ct / (4 * l)) := by
    field_simp
    linear_combination 4 * h
  linarith

theorem index_ok {n i : Nat} : index n = .ok i ↔ (1 ≤ n ∧ n ≤ 4) ∧ i = n - 1 := by
  unfold index
  split <;> simp_all [eq_comm]

theorem m22_ok {o : Optics} {a b : Int} {d v : ℝ} {hor : Bool} :
    m22 o a b d hor = .ok v ↔ o.beta hor b ≠ 0 ∧ v = √(o.beta hor a / o.beta hor b) * cos d := by
  unfold m22 quot
  split <;> simp_all [Outcome.bind, eq_comm]

theorem quiet_if {s : State} (h : s.failureOn = false ∨ s.turn < s.nonFailTurns) :
    (decide (s.nonFailTurns ≤ s.turn) && s.failureOn) = false := by
  rcases h with h | h
  · simp [h]
  · simp [h]

/-- A cavity before the first point: what it stores and does. -/
theorem up_step {o : Optics} {m : Marker} (hk : At .up1 m.pos) {s s' : State} {ps ps' : List Particle}
    (h : pass o m (s, ps) = .ok (s', ps')) (ha : s.atlasOn = true) {omega theta phi : ℝ} (hm : s.cmsOn = true ∨ phi = 0)
    (hs : Calm s' omega theta phi) (hphi : s.phi = phi) :
    Adds (push omega theta phi (lever o false (o.find m.name) (o.find "IP1.L1"))) ps ps' ∧
    s'.atlasStore = s.atlasStore.put (s'.ip1.upCount - 1) (o.find m.name)
      (c * energy * tan theta / (omega * lever o false (o.find m.name) (o.find "IP1.L1") * crabs))
      (2 * π * |(o.mu (o.find "IP1.L1")).2 - (o.mu (o.find m.name)).2|) ∧
    omega * lever o false (o.find m.name) (o.find "IP1.L1") * crabs ≠ 0 := by
  obtain ⟨⟨k1, -, k3, -, -, k6, k7, k8, k9, k10⟩, -⟩ := pass_keeps h
  obtain ⟨e1, e2, e3, e4, e5, e6, e7, -⟩ := set_keeps m s
  obtain ⟨p1, p2, p3⟩ := set_place .up1 hk s
  obtain ⟨o1, o2⟩ := set_on m s
  obtain ⟨w1, w2, -, w4, w5⟩ := hs
  rw [k6] at w1
  rw [k7] at w2
  rw [k3, k8, k10] at w4
  rw [k3, k8, k9] at w5
  rw [k1, ← e7]
  simp only [pass] at h
  rw [← e1] at hphi
  subst w1 w2 hphi
  rw [← o2] at hm
  rw [← o1] at ha
  have p1' : (setComponent m s).upstream = true := p1
  have p2' : (setComponent m s).atlas = true := p2
  have p3' : (setComponent m s).horizontal = false := p3
  clear k1 k3 k6 k7 k8 k9 k10 e1 e2 e3 e4 e5 e6 e7 p1 p2 p3 o1 o2
  generalize setComponent m s = t at *
  have hph : phase (plane false (o.deltaMu (o.find m.name) (o.find "IP1.L1"))) = 2 * π * |(o.mu (o.find "IP1.L1")).2 - (o.mu (o.find m.name)).2| := by
    unfold phase Optics.deltaMu plane
    rw [sqrt_sq_eq_abs]
    simp only [Bool.false_eq_true, if_false]
    ring
  have hip : Optics.ip o true = o.find "IP1.L1" := rfl
  rw [doProcess, if_pos w5] at h
  cases hc : t.cmsOn with
  | true =>
    rw [if_pos (by simp [ha, hc])] at h
    simp only [doBoth, p1', p2', p3', m12_lever, hip, if_true, bind_ok_iff, calcV1_ok, index_ok, hph, Bool.true_and, quiet_if w4,
      Bool.false_eq_true, if_false] at h
    obtain ⟨v, ⟨hv, rfl⟩, i, ⟨-, rfl⟩, h⟩ := h
    injection h with h
    injection h with h1 h2
    refine ⟨?_, by rw [← h1]; rfl, hv⟩
    rw [← h2]
    refine forall_map (fun p => ?_) ps
    have := kick_yp (r := 1) p3' hv p
    rwa [mul_one, one_mul] at this
  | false =>
    rw [if_neg (by simp [hc]), if_pos (by simp [ha, p2'])] at h
    have hph' : phase (o.deltaMu (o.find m.name) (o.find "IP1.L1")).2 = 2 * π * |(o.mu (o.find "IP1.L1")).2 - (o.mu (o.find m.name)).2| := hph
    simp only [doAtlas, p1', p3', m12_lever, hip, if_true, bind_ok_iff, calcV1_ok, index_ok, hph'] at h
    obtain ⟨v, ⟨hv, rfl⟩, i, ⟨-, rfl⟩, h⟩ := h
    injection h with h
    injection h with h1 h2
    refine ⟨?_, by rw [← h1]; rfl, hv⟩
    rw [← h2]
    refine forall_map (fun p => ?_) ps
    have := kick_yp (r := 1) p3' hv p
    rwa [mul_one, one_mul] at this

/-- A cavity behind the first point: what it does. -/
theorem down_step {o : Optics} {m : Marker} (hk : At .down1 m.pos) {s s' : State} {ps ps' : List Particle}
    (h : pass o m (s, ps) = .ok (s', ps')) (ha : s.atlasOn = true) {omega theta phi : ℝ} (hm : s.cmsOn = true ∨ phi = 0)
    (hs : Calm s' omega theta phi) (hphi : s.phi = phi) {l : ℝ} (hl : omega * l * crabs ≠ 0)
    (hv : s.atlasStore.v1 (s'.ip1.downCount - 1) = c * energy * tan theta / (omega * l * crabs)) :
    Adds (fun ct => -(√(o.betaY (s.atlasStore.elno (s'.ip1.downCount - 1)) / o.betaY (o.find m.name)) *
      cos (2 * π * |(o.mu (o.find m.name)).2| + s.atlasStore.deltamu (s'.ip1.downCount - 1))) * push omega theta phi l ct) ps ps' ∧
    s'.atlasStore = s.atlasStore := by
  obtain ⟨⟨k1, -, k3, -, -, k6, k7, k8, k9, k10⟩, -⟩ := pass_keeps h
  obtain ⟨e1, e2, e3, e4, e5, e6, e7, -⟩ := set_keeps m s
  obtain ⟨p1, p2, p3⟩ := set_place .down1 hk s
  obtain ⟨o1, o2⟩ := set_on m s
  obtain ⟨w1, w2, -, w4, w5⟩ := hs
  rw [k6] at w1
  rw [k7] at w2
  rw [k3, k8, k10] at w4
  rw [k3, k8, k9] at w5
  rw [k1] at hv ⊢
  rw [← e7] at hv ⊢
  simp only [pass] at h
  rw [← e1] at hphi
  subst w1 w2 hphi
  rw [← o2] at hm
  rw [← o1] at ha
  have p1' : (setComponent m s).upstream = false := p1
  have p2' : (setComponent m s).atlas = true := p2
  have p3' : (setComponent m s).horizontal = false := p3
  clear k1 k3 k6 k7 k8 k9 k10 e1 e2 e3 e4 e5 e6 e7 p1 p2 p3 o1 o2
  generalize setComponent m s = t at *
  have hph : phase (o.mu (o.find m.name)).2 = 2 * π * |(o.mu (o.find m.name)).2| := by
    unfold phase
    rw [sqrt_sq_eq_abs]
    ring
  rw [doProcess, if_pos w5] at h
  cases hc : t.cmsOn with
  | true =>
    rw [if_pos (by simp [ha, hc])] at h
    simp only [doBoth, p1', p2', p3', if_true, bind_ok_iff, index_ok, m22_ok, hph, Bool.false_eq_true, if_false] at h
    obtain ⟨i, ⟨-, rfl⟩, v, ⟨-, rfl⟩, h⟩ := h
    injection h with h
    injection h with h1 h2
    refine ⟨?_, by rw [← h1]⟩
    rw [← h2, hv]
    refine forall_map (fun p => ?_) ps
    have := kick_yp (r := -(√(o.betaY (t.atlasStore.elno (t.ip1.downCount - 1)) / o.betaY (o.find m.name)) *
      cos (2 * π * |(o.mu (o.find m.name)).2| + t.atlasStore.deltamu (t.ip1.downCount - 1)))) p3' hl p
    refine Eq.mp ?_ this
    congr! 4 <;> simp [calcV2, volt, Optics.beta] <;> ring
  | false =>
    rw [if_neg (by simp [hc]), if_pos (by simp [ha, p2'])] at h
    simp only [doAtlas, p1', p3', if_true, bind_ok_iff, index_ok, m22_ok, hph, quiet_if w4, Bool.false_eq_true, if_false] at h
    obtain ⟨i, ⟨-, rfl⟩, v, ⟨-, rfl⟩, h⟩ := h
    injection h with h
    injection h with h1 h2
    refine ⟨?_, by rw [← h1]⟩
    rw [← h2, hv]
    refine forall_map (fun p => ?_) ps
    have := kick_yp (r := -(√(o.betaY (t.atlasStore.elno (t.ip1.downCount - 1)) / o.betaY (o.find m.name)) *
      cos (2 * π * |(o.mu (o.find m.name)).2| + t.atlasStore.deltamu (t.ip1.downCount - 1)))) p3' hl p
    refine Eq.mp ?_ this
    have ht : ({ t with horizontal := false, upstream := false } : State) = t := by
      cases t
      simp only at p1' p3'
      subst p1' p3'
      rfl
    simp only [ht]
    congr! 4 <;> simp [calcV2, volt, Optics.beta] <;> ring

/-- The first point alone in use: in the turns of the failure the cavities behind it are shifted in phase, up to a quarter, and
keep their voltage. -/
theorem down_fail {o : Optics} {m : Marker} (hk : At .down1 m.pos) {s s' : State} {ps ps' : List Particle}
    (h : pass o m (s, ps) = .ok (s', ps')) (ha : s.atlasOn = true) (hc : s.cmsOn = false) (hf : s.failureOn = true)
    (hn : s.nonFailTurns ≤ s'.turn) (hr : s'.turn < s.nonFailTurns + s.failTurns) {l : ℝ} (hl : s.omega * l * crabs ≠ 0)
    (hv : s.atlasStore.v1 (s'.ip1.downCount - 1) = c * energy * tan s.theta / (s.omega * l * crabs)) :
    Adds (fun ct => -(√(o.betaY (s.atlasStore.elno (s'.ip1.downCount - 1)) / o.betaY (o.find m.name)) *
      cos (2 * π * |(o.mu (o.find m.name)).2| + s.atlasStore.deltamu (s'.ip1.downCount - 1))) *
      push s.omega s.theta (((s'.turn + 1 - s.nonFailTurns : Int) : ℝ) / (s.failTurns : ℝ) * (π / 2)) l ct) ps ps' := by
  obtain ⟨⟨k1, -, k3, -, -, k6, k7, k8, k9, k10⟩, -⟩ := pass_keeps h
  obtain ⟨e1, e2, e3, e4, e5, e6, e7, -⟩ := set_keeps m s
  obtain ⟨p1, p2, p3⟩ := set_place .down1 hk s
  obtain ⟨o1, o2⟩ := set_on m s
  rw [k3, ← e4] at hn
  rw [k3, ← e4, ← e5] at hr
  rw [k1, ← e7, ← e2, ← e3] at hv
  rw [k1, k3, ← e7, ← e2, ← e3, ← e4, ← e5]
  rw [← e2] at hl
  rw [← e6] at hf
  simp only [pass] at h
  rw [← o2] at hc
  rw [← o1] at ha
  have p1' : (setComponent m s).upstream = false := p1
  have p2' : (setComponent m s).atlas = true := p2
  have p3' : (setComponent m s).horizontal = false := p3
  clear k1 k3 k6 k7 k8 k9 k10 e1 e2 e3 e4 e5 e6 e7 p1 p2 p3 o1 o2
  generalize setComponent m s = t at *
  have hph : phase (o.mu (o.find m.name)).2 = 2 * π * |(o.mu (o.find m.name)).2| := by
    unfold phase
    rw [sqrt_sq_eq_abs]
    ring
  rw [doProcess, if_pos hr, if_neg (by simp [hc]), if_pos (by simp [ha, p2'])] at h
  have hph2 : ((t.turn - (t.nonFailTurns - 1) : Int) : ℝ) * (1 / (t.failTurns : ℝ)) * (90 * (2 * π) / 360) =
      ((t.turn + 1 - t.nonFailTurns : Int) : ℝ) / (t.failTurns : ℝ) * (π / 2) := by
    push_cast
    ring
  simp only [doAtlas, p1', bind_ok_iff, index_ok, m22_ok, hph, hn, hf, decide_true, Bool.and_self, if_true, Bool.false_eq_true, if_false, hph2] at h
  obtain ⟨i, ⟨-, rfl⟩, v, ⟨-, rfl⟩, h⟩ := h
  injection h with h
  injection h with h1 h2
  rw [← h2, hv]
  refine forall_map (fun p => ?_) ps
  have := kick_yp (s := { t with phi := ((t.turn + 1 - t.nonFailTurns : Int) : ℝ) / (t.failTurns : ℝ) * (π / 2) })
    (r := -(√(o.betaY (t.atlasStore.elno (t.ip1.downCount - 1)) / o.betaY (o.find m.name)) *
    cos (2 * π * |(o.mu (o.find m.name)).2| + t.atlasStore.deltamu (t.ip1.downCount - 1)))) p3' hl p
  have hvol : volt { t with phi := ((t.turn + 1 - t.nonFailTurns : Int) : ℝ) / (t.failTurns : ℝ) * (π / 2) } l * -(√(o.betaY (t.atlasStore.elno (t.ip1.downCount - 1)) / o.betaY (o.find m.name)) *
      cos (2 * π * |(o.mu (o.find m.name)).2| + t.atlasStore.deltamu (t.ip1.downCount - 1))) =
      calcV2 (c * energy * tan t.theta / (t.omega * l * crabs)) (√(o.beta t.horizontal (t.atlasStore.elno (t.ip1.downCount - 1)) / o.beta t.horizontal (o.find m.name)) *
        cos (2 * π * |(o.mu (o.find m.name)).2| + t.atlasStore.deltamu (t.ip1.downCount - 1))) := by
    rw [p3']
    simp [calcV2, volt, Optics.beta]
    ring
  rw [hvol] at this
  have ht : ({ t with upstream := false, phi := ((t.turn + 1 - t.nonFailTurns : Int) : ℝ) / (t.failTurns : ℝ) * (π / 2) } : State) =
      { t with phi := ((t.turn + 1 - t.nonFailTurns : Int) : ℝ) / (t.failTurns : ℝ) * (π / 2) } := by
    cases t
    simp only at p1'
    subst p1'
    rfl
  first
  | exact this
  | (rw [ht]; exact this)
  | (simp only [ht]; exact this)

/-- Counter of the first point at the next cavity, while it is not full. -/
theorem ip1_step {o : Optics} {k : Set} (hk : k = .up1 ∨ k = .down1) {m : Marker} (hm : At k m.pos) {s s' : State} {ps ps' : List Particle}
    (h : pass o m (s, ps) = .ok (s', ps')) (ha : s.atlasOn = true) (hf : (s.ip1.up && s.ip1.down) = false) :
    s'.ip1 = (if k = .up1 then s.ip1.goUp else s.ip1.goDown) ∧ s'.turn = s.turn ∧ s'.nonFailTurns = s.nonFailTurns ∧
    s'.failTurns = s.failTurns ∧ s'.failureOn = s.failureOn ∧ s'.omega = s.omega ∧ s'.theta = s.theta ∧ s'.atlasOn = true ∧ s'.cmsOn = s.cmsOn := by
  obtain ⟨⟨k1, -, k3, k4, k5, k6, k7, k8, k9, k10⟩, -⟩ := pass_keeps h
  obtain ⟨e1, e2, e3, e4, e5, e6, e7, -⟩ := set_keeps m s
  obtain ⟨o1, o2⟩ := set_on m s
  have hmain : (setComponent m s).ip1 = (if k = .up1 then s.ip1.goUp else s.ip1.goDown) ∧ (setComponent m s).turn = s.turn := by
    cases hc : s.cmsOn with
    | true =>
      have := step_both hm ha hc
      rcases hk with rfl | rfl <;> simp [stepBoth, hf] at this ⊢ <;> exact ⟨this.1, this.2.2⟩
    | false =>
      have := step_atlas hm ha hc
      rcases hk with rfl | rfl <;> simp [stepAtlas, hf] at this ⊢ <;> exact this
  exact ⟨k1.trans hmain.1, k3.trans hmain.2, k8.trans e4, k9.trans e5, k10.trans e6, k6.trans e2, k7.trans e3, k4.trans (o1.trans ha), k5.trans o2⟩

/-- The phase at the next cavity. -/
theorem phi_step {o : Optics} {m : Marker} {s s' : State} {ps ps' : List Particle} (h : pass o m (s, ps) = .ok (s', ps')) {phi : ℝ}
    (hm : s.cmsOn = true ∨ phi = 0) (hphi : s.phi = phi) : s'.phi = phi := by
  obtain ⟨e1, -⟩ := set_keeps m s
  obtain ⟨o1, o2⟩ := set_on m s
  rw [← e1] at hphi
  rw [← o2] at hm
  simp only [pass] at h
  generalize setComponent m s = t at *
  unfold doProcess doBoth doAtlas doCms at h
  dsimp only at h
  split at h
  swap
  · injection h with h; injection h with h _; subst h; exact hphi
  split at h
  · split at h
    · simp only [bind_ok_iff] at h
      obtain ⟨v, -, i, -, h⟩ := h
      injection h with h; injection h with h _; subst h
      split <;> exact hphi
    · split at h
      · simp only [bind_ok_iff] at h
        obtain ⟨v, -, i, -, h⟩ := h
        injection h with h; injection h with h _; subst h; exact hphi
      · simp only [bind_ok_iff] at h
        obtain ⟨v, -, i, -, j, -, h⟩ := h
        injection h with h; injection h with h _; subst h; exact hphi
  · rename_i hb
    split at h
    · rename_i hc
      have h0 : phi = 0 := by
        rcases hm with hm | hm
        · simp [hm] at hb; simp [hb] at hc
        · exact hm
      split at h
      · simp only [bind_ok_iff] at h
        obtain ⟨v, -, i, -, h⟩ := h
        injection h with h; injection h with h _; subst h; exact h0.symm
      · simp only [bind_ok_iff] at h
        obtain ⟨v, -, i, -, h⟩ := h
        injection h with h; injection h with h _; subst h; exact h0.symm
    · split at h
      · split at h
        · simp only [bind_ok_iff] at h
          obtain ⟨v, -, i, -, h⟩ := h
          injection h with h; injection h with h _; subst h; exact hphi
        · simp only [bind_ok_iff] at h
          obtain ⟨v, -, i, -, h⟩ := h
          injection h with h; injection h with h _; subst h; exact hphi
      · injection h with h; injection h with h _; subst h; exact hphi

/-- What a cavity before and its partner behind the first point add to the slope. -/
noncomputable def pair1 (o : Optics) (u d : Marker) (omega theta phi ct : ℝ) : ℝ :=
  tilt omega theta phi ct / (4 * lever o false (o.find u.name) (o.find "IP1.L1")) *
    (1 - √(o.betaY (o.find u.name) / o.betaY (o.find d.name)) *
      cos (2 * π * |(o.mu (o.find d.name)).2| + 2 * π * |(o.mu (o.find "IP1.L1")).2 - (o.mu (o.find u.name)).2|))

/-- A crossing at the first point: the first cavity behind undoes the first before, the second the second, and so on. -/
theorem crossing_atlas {o : Optics} {u1 u2 u3 u4 d1 d2 d3 d4 : Marker} (hu : ∀ m ∈ [u1, u2, u3, u4], At .up1 m.pos)
    (hd : ∀ m ∈ [d1, d2, d3, d4], At .down1 m.pos) {s s' : State} {ps ps' : List Particle}
    (h : passes o [u1, u2, u3, u4, d1, d2, d3, d4] (s, ps) = .ok (s', ps')) (ha : s.atlasOn = true) (h0 : s.ip1 = .zero)
    (hm : s.cmsOn = true ∨ s.phi = 0) (hq : s.failureOn = false ∨ s.turn < s.nonFailTurns) (hr : s.turn < s.nonFailTurns + s.failTurns) :
    List.Forall₂ (fun p q => q.yp = p.yp + (pair1 o u1 d1 s.omega s.theta s.phi p.ct + pair1 o u2 d2 s.omega s.theta s.phi p.ct +
      pair1 o u3 d3 s.omega s.theta s.phi p.ct + pair1 o u4 d4 s.omega s.theta s.phi p.ct)) ps ps' := by
  simp only [passes, bind_ok_iff] at h
  obtain ⟨⟨s1, p1⟩, g1, ⟨s2, p2⟩, g2, ⟨s3, p3⟩, g3, ⟨s4, p4⟩, g4, ⟨s5, p5⟩, g5, ⟨s6, p6⟩, g6, ⟨s7, p7⟩, g7, ⟨s8, p8⟩, g8, h⟩ := h
  injection h with h
  injection h with h1 h2
  subst h1 h2
  have calm : ∀ {a : State}, a.turn = s.turn ∧ a.nonFailTurns = s.nonFailTurns ∧ a.failTurns = s.failTurns ∧ a.failureOn = s.failureOn ∧
      a.omega = s.omega ∧ a.theta = s.theta ∧ a.atlasOn = true ∧ a.cmsOn = s.cmsOn → a.phi = s.phi → Calm a s.omega s.theta s.phi := by
    rintro a ⟨a1, a2, a3, a4, a5, a6, -⟩ a7
    exact ⟨a5, a6, a7, by rw [a4, a1, a2]; exact hq, by rw [a1, a2, a3]; exact hr⟩
  have step : ∀ {k : Set} {m : Marker} {a b : State} {qs rs : List Particle}, (k = .up1 ∨ k = .down1) → At k m.pos → pass o m (a, qs) = .ok (b, rs) →
      (a.ip1.up && a.ip1.down) = false →
      (a.turn = s.turn ∧ a.nonFailTurns = s.nonFailTurns ∧ a.failTurns = s.failTurns ∧ a.failureOn = s.failureOn ∧
      a.omega = s.omega ∧ a.theta = s.theta ∧ a.atlasOn = true ∧ a.cmsOn = s.cmsOn) ∧ a.phi = s.phi →
      b.ip1 = (if k = .up1 then a.ip1.goUp else a.ip1.goDown) ∧
      (b.turn = s.turn ∧ b.nonFailTurns = s.nonFailTurns ∧ b.failTurns = s.failTurns ∧ b.failureOn = s.failureOn ∧
      b.omega = s.omega ∧ b.theta = s.theta ∧ b.atlasOn = true ∧ b.cmsOn = s.cmsOn) ∧ b.phi = s.phi := by
    rintro k m a b qs rs hk hat hp hf ⟨⟨a1, a2, a3, a4, a5, a6, a7, a8⟩, a9⟩
    obtain ⟨b0, b1, b2, b3, b4, b5, b6, b7, b8⟩ := ip1_step hk hat hp a7 hf
    exact ⟨b0, ⟨b1.trans a1, b2.trans a2, b3.trans a3, b4.trans a4, b5.trans a5, b6.trans a6, b7, b8.trans a8⟩,
      phi_step hp (by rw [a8]; exact hm) a9⟩
  have k0 : (s.turn = s.turn ∧ s.nonFailTurns = s.nonFailTurns ∧ s.failTurns = s.failTurns ∧ s.failureOn = s.failureOn ∧
      s.omega = s.omega ∧ s.theta = s.theta ∧ s.atlasOn = true ∧ s.cmsOn = s.cmsOn) ∧ s.phi = s.phi :=
    ⟨⟨rfl, rfl, rfl, rfl, rfl, rfl, ha, rfl⟩, rfl⟩
  obtain ⟨c1, k1⟩ := step (Or.inl rfl) (hu u1 (by simp)) g1 (by rw [h0]; rfl) k0
  rw [h0] at c1
  obtain ⟨c2, k2⟩ := step (Or.inl rfl) (hu u2 (by simp)) g2 (by rw [c1]; rfl) k1
  rw [c1] at c2
  obtain ⟨c3, k3⟩ := step (Or.inl rfl) (hu u3 (by simp)) g3 (by rw [c2]; rfl) k2
  rw [c2] at c3
  obtain ⟨c4, k4⟩ := step (Or.inl rfl) (hu u4 (by simp)) g4 (by rw [c3]; rfl) k3
  rw [c3] at c4
  obtain ⟨c5, k5⟩ := step (Or.inr rfl) (hd d1 (by simp)) g5 (by rw [c4]; rfl) k4
  rw [c4] at c5
  obtain ⟨c6, k6⟩ := step (Or.inr rfl) (hd d2 (by simp)) g6 (by rw [c5]; rfl) k5
  rw [c5] at c6
  obtain ⟨c7, k7⟩ := step (Or.inr rfl) (hd d3 (by simp)) g7 (by rw [c6]; rfl) k6
  rw [c6] at c7
  obtain ⟨c8, k8⟩ := step (Or.inr rfl) (hd d4 (by simp)) g8 (by rw [c7]; rfl) k7
  rw [c7] at c8
  have m1 : ∀ {a : State}, a.cmsOn = s.cmsOn → (a.cmsOn = true ∨ s.phi = 0) := fun h => by rw [h]; exact hm
  obtain ⟨a1, t1, l1⟩ := up_step (hu u1 (by simp)) g1 ha hm (calm k1.1 k1.2) rfl
  obtain ⟨a2, t2, l2⟩ := up_step (hu u2 (by simp)) g2 k1.1.2.2.2.2.2.2.1 (m1 k1.1.2.2.2.2.2.2.2) (calm k2.1 k2.2) k1.2
  obtain ⟨a3, t3, l3⟩ := up_step (hu u3 (by simp)) g3 k2.1.2.2.2.2.2.2.1 (m1 k2.1.2.2.2.2.2.2.2) (calm k3.1 k3.2) k2.2
  obtain ⟨a4, t4, l4⟩ := up_step (hu u4 (by simp)) g4 k3.1.2.2.2.2.2.2.1 (m1 k3.1.2.2.2.2.2.2.2) (calm k4.1 k4.2) k3.2
  have i1 : s1.ip1.upCount - 1 = 0 := by rw [c1]; rfl
  have i2 : s2.ip1.upCount - 1 = 1 := by rw [c2]; rfl
  have i3 : s3.ip1.upCount - 1 = 2 := by rw [c3]; rfl
  have i4 : s4.ip1.upCount - 1 = 3 := by rw [c4]; rfl
  have i5 : s5.ip1.downCount - 1 = 0 := by rw [c5]; rfl
  have i6 : s6.ip1.downCount - 1 = 1 := by rw [c6]; rfl
  have i7 : s7.ip1.downCount - 1 = 2 := by rw [c7]; rfl
  have i8 : s8.ip1.downCount - 1 = 3 := by rw [c8]; rfl
  rw [i1] at t1
  rw [i2, t1] at t2
  rw [i3, t2] at t3
  rw [i4, t3] at t4
  obtain ⟨a5, t5⟩ := down_step (hd d1 (by simp)) g5 k4.1.2.2.2.2.2.2.1 (m1 k4.1.2.2.2.2.2.2.2) (calm k5.1 k5.2) k4.2 l1
    (by rw [i5, t4]; simp [Store.put, put])
  rw [i5, t4] at a5
  rw [t4] at t5
  obtain ⟨a6, t6⟩ := down_step (hd d2 (by simp)) g6 k5.1.2.2.2.2.2.2.1 (m1 k5.1.2.2.2.2.2.2.2) (calm k6.1 k6.2) k5.2 l2
    (by rw [i6, t5]; simp [Store.put, put])
  rw [i6, t5] at a6
  rw [t5] at t6
  obtain ⟨a7, t7⟩ := down_step (hd d3 (by simp)) g7 k6.1.2.2.2.2.2.2.1 (m1 k6.1.2.2.2.2.2.2.2) (calm k7.1 k7.2) k6.2 l3
    (by rw [i7, t6]; simp [Store.put, put])
  rw [i7, t6] at a7
  rw [t6] at t7
  obtain ⟨a8, -⟩ := down_step (hd d4 (by simp)) g8 k7.1.2.2.2.2.2.2.1 (m1 k7.1.2.2.2.2.2.2.2) (calm k8.1 k8.2) k7.2 l4
    (by rw [i8, t7]; simp [Store.put, put])
  rw [i8, t7] at a8
  have hall := ((((((a1.trans a2).trans a3).trans a4).trans a5).trans a6).trans a7).trans a8
  refine hall.imp ?_
  rintro p q ⟨e, -⟩
  rw [e]
  simp [Store.put, put, pair1, push]
  ring

end Verif.Crab
