import Verif.Crab.Crossing

/-! A whole crossing at the fifth point, that point alone in use (C294). -/

namespace Verif.Crab
open Verif Verif.Crab.Spec Real

/-- A cavity before the fifth point: what it stores and does. -/
theorem cms_up_step {o : Optics} {m : Marker} (hk : At .up5 m.pos) {s s' : State} {ps ps' : List Particle}
    (h : pass o m (s, ps) = .ok (s', ps')) (ha : s.atlasOn = false) (hc : s.cmsOn = true) {omega theta phi : ℝ}
    (hs : Calm s' omega theta phi) (hphi : s.phi = phi) :
    AddsX (push omega theta phi (lever o true (o.find m.name) (o.find "IP5" + 1))) ps ps' ∧
    s'.cmsStore = s.cmsStore.put (s'.ip5.upCount - 1) (o.find m.name)
      (c * energy * tan theta / (omega * lever o true (o.find m.name) (o.find "IP5" + 1) * crabs))
      (2 * π * |(o.mu (o.find "IP5" + 1)).1 - (o.mu (o.find m.name)).1|) ∧
    omega * lever o true (o.find m.name) (o.find "IP5" + 1) * crabs ≠ 0 := by
  obtain ⟨⟨-, k1, k3, -, -, k6, k7, k8, k9, k10⟩, -⟩ := pass_keeps h
  obtain ⟨e1, e2, e3, e4, e5, e6, -, e7⟩ := set_keeps m s
  obtain ⟨p1, p2, p3⟩ := set_place .up5 hk s
  obtain ⟨o1, o2⟩ := set_on m s
  obtain ⟨w1, w2, -, w4, w5⟩ := hs
  rw [k6] at w1
  rw [k7] at w2
  rw [k3, k8, k10] at w4
  rw [k3, k8, k9] at w5
  rw [k1, ← e7]
  simp only [pass] at h
  rw [← e1] at hphi
  subst w1 w2 hphi
  rw [← o2] at hc
  rw [← o1] at ha
  have p1' : (setComponent m s).upstream = true := p1
  have p2' : (setComponent m s).atlas = false := p2
  have p3' : (setComponent m s).horizontal = true := p3
  clear k1 k3 k6 k7 k8 k9 k10 e1 e2 e3 e4 e5 e6 e7 p1 p2 p3 o1 o2
  generalize setComponent m s = t at *
  have hph : phase (o.deltaMu (o.find m.name) (o.find "IP5" + 1)).1 = 2 * π * |(o.mu (o.find "IP5" + 1)).1 - (o.mu (o.find m.name)).1| := by
    unfold phase Optics.deltaMu
    rw [sqrt_sq_eq_abs]
    ring
  have hip : Optics.ip o false = o.find "IP5" + 1 := rfl
  rw [doProcess, if_pos w5, if_neg (by simp [ha]), if_neg (by simp [ha]), if_pos (by simp [ha, hc, p2'])] at h
  simp only [doCms, p1', p3', m12_lever, hip, if_true, bind_ok_iff, calcV1_ok, index_ok, hph, quiet_if w4, Bool.false_eq_true, if_false] at h
  obtain ⟨v, ⟨hv, rfl⟩, i, ⟨-, rfl⟩, h⟩ := h
  injection h with h
  injection h with h1 h2
  refine ⟨?_, by rw [← h1]; rfl, hv⟩
  rw [← h2]
  refine forall_map (fun p => ?_) ps
  have := kick_xp (r := 1) p3' hv p
  rwa [mul_one, one_mul] at this

/-- A cavity behind the fifth point: what it does. -/
theorem cms_down_step {o : Optics} {m : Marker} (hk : At .down5 m.pos) {s s' : State} {ps ps' : List Particle}
    (h : pass o m (s, ps) = .ok (s', ps')) (ha : s.atlasOn = false) (hc : s.cmsOn = true) {omega theta phi : ℝ}
    (hs : Calm s' omega theta phi) (hphi : s.phi = phi) {l : ℝ} (hl : omega * l * crabs ≠ 0)
    (hv : s.cmsStore.v1 (s'.ip5.downCount - 1) = c * energy * tan theta / (omega * l * crabs)) :
    AddsX (fun ct => -(√(o.betaX (s.cmsStore.elno (s'.ip5.downCount - 1)) / o.betaX (o.find m.name)) *
      cos (2 * π * |(o.mu (o.find "IP5" + 1)).1 - (o.mu (o.find m.name)).1| + s.cmsStore.deltamu (s'.ip5.downCount - 1))) * push omega theta phi l ct) ps ps' ∧
    s'.cmsStore = s.cmsStore := by
  obtain ⟨⟨-, k1, k3, -, -, k6, k7, k8, k9, k10⟩, -⟩ := pass_keeps h
  obtain ⟨e1, e2, e3, e4, e5, e6, -, e7⟩ := set_keeps m s
  obtain ⟨p1, p2, p3⟩ := set_place .down5 hk s
  obtain ⟨o1, o2⟩ := set_on m s
  obtain ⟨w1, w2, -, w4, w5⟩ := hs
  rw [k6] at w1
  rw [k7] at w2
  rw [k3, k8, k10] at w4
  rw [k3, k8, k9] at w5
  rw [k1] at hv ⊢
  rw [← e7] at hv ⊢
  simp only [pass] at h
  rw [← e1] at hphi
  subst w1 w2 hphi
  rw [← o2] at hc
  rw [← o1] at ha
  have p1' : (setComponent m s).upstream = false := p1
  have p2' : (setComponent m s).atlas = false := p2
  have p3' : (setComponent m s).horizontal = true := p3
  clear k1 k3 k6 k7 k8 k9 k10 e1 e2 e3 e4 e5 e6 e7 p1 p2 p3 o1 o2
  generalize setComponent m s = t at *
  have hph : phase (o.deltaMu (o.find m.name) (o.find "IP5" + 1)).1 = 2 * π * |(o.mu (o.find "IP5" + 1)).1 - (o.mu (o.find m.name)).1| := by
    unfold phase Optics.deltaMu
    rw [sqrt_sq_eq_abs]
    ring
  have hip : Optics.ip o false = o.find "IP5" + 1 := rfl
  rw [doProcess, if_pos w5, if_neg (by simp [ha]), if_neg (by simp [ha]), if_pos (by simp [ha, hc, p2'])] at h
  simp only [doCms, p1', p3', hip, bind_ok_iff, index_ok, m22_ok, hph, Bool.false_eq_true, if_false] at h
  obtain ⟨i, ⟨-, rfl⟩, v, ⟨-, rfl⟩, h⟩ := h
  injection h with h
  injection h with h1 h2
  refine ⟨?_, by rw [← h1]⟩
  rw [← h2, hv]
  refine forall_map (fun p => ?_) ps
  have := kick_xp (r := -(√(o.betaX (t.cmsStore.elno (t.ip5.downCount - 1)) / o.betaX (o.find m.name)) *
    cos (2 * π * |(o.mu (o.find "IP5" + 1)).1 - (o.mu (o.find m.name)).1| + t.cmsStore.deltamu (t.ip5.downCount - 1)))) p3' hl p
  refine Eq.mp ?_ this
  congr! 4 <;> simp [calcV2, volt, Optics.beta] <;> ring

/-- Counter of the fifth point at the next cavity, while it is not full. -/
theorem ip5_step {o : Optics} {k : Set} (hk : k = .up5 ∨ k = .down5) {m : Marker} (hm : At k m.pos) {s s' : State} {ps ps' : List Particle}
    (h : pass o m (s, ps) = .ok (s', ps')) (ha : s.atlasOn = false) (hc : s.cmsOn = true) (hf : (s.ip5.up && s.ip5.down) = false) :
    s'.ip5 = (if k = .up5 then s.ip5.goUp else s.ip5.goDown) ∧ s'.turn = s.turn ∧ s'.nonFailTurns = s.nonFailTurns ∧
    s'.failTurns = s.failTurns ∧ s'.failureOn = s.failureOn ∧ s'.omega = s.omega ∧ s'.theta = s.theta ∧ s'.atlasOn = false ∧ s'.cmsOn = true := by
  obtain ⟨⟨-, k1, k3, k4, k5, k6, k7, k8, k9, k10⟩, -⟩ := pass_keeps h
  obtain ⟨e1, e2, e3, e4, e5, e6, e7, -⟩ := set_keeps m s
  obtain ⟨o1, o2⟩ := set_on m s
  have hmain : (setComponent m s).ip5 = (if k = .up5 then s.ip5.goUp else s.ip5.goDown) ∧ (setComponent m s).turn = s.turn := by
    have := step_cms hm ha hc
    rcases hk with rfl | rfl <;> simp [stepCms, hf] at this ⊢ <;> exact this
  exact ⟨k1.trans hmain.1, k3.trans hmain.2, k8.trans e4, k9.trans e5, k10.trans e6, k6.trans e2, k7.trans e3, k4.trans (o1.trans ha), k5.trans (o2.trans hc)⟩

/-- What a cavity before and its partner behind the fifth point add to the slope. -/
noncomputable def pair5 (o : Optics) (u d : Marker) (omega theta phi ct : ℝ) : ℝ :=
  tilt omega theta phi ct / (4 * lever o true (o.find u.name) (o.find "IP5" + 1)) *
    (1 - √(o.betaX (o.find u.name) / o.betaX (o.find d.name)) *
      cos (2 * π * |(o.mu (o.find "IP5" + 1)).1 - (o.mu (o.find d.name)).1| + 2 * π * |(o.mu (o.find "IP5" + 1)).1 - (o.mu (o.find u.name)).1|))

/-- A crossing at the fifth point: the fifth cavity behind undoes the fifth before, the second the second, and so on. -/
theorem crossing_cms {o : Optics} {u1 u2 u3 u4 d1 d2 d3 d4 : Marker} (hu : ∀ m ∈ [u1, u2, u3, u4], At .up5 m.pos)
    (hd : ∀ m ∈ [d1, d2, d3, d4], At .down5 m.pos) {s s' : State} {ps ps' : List Particle}
    (h : passes o [u1, u2, u3, u4, d1, d2, d3, d4] (s, ps) = .ok (s', ps')) (ha : s.atlasOn = false) (hc : s.cmsOn = true) (h0 : s.ip5 = .zero)
    (hq : s.failureOn = false ∨ s.turn < s.nonFailTurns) (hr : s.turn < s.nonFailTurns + s.failTurns) :
    List.Forall₂ (fun p q => q.xp = p.xp + (pair5 o u1 d1 s.omega s.theta s.phi p.ct + pair5 o u2 d2 s.omega s.theta s.phi p.ct +
      pair5 o u3 d3 s.omega s.theta s.phi p.ct + pair5 o u4 d4 s.omega s.theta s.phi p.ct)) ps ps' := by
  simp only [passes, bind_ok_iff] at h
  obtain ⟨⟨s1, p1⟩, g1, ⟨s2, p2⟩, g2, ⟨s3, p3⟩, g3, ⟨s4, p4⟩, g4, ⟨s5, p5⟩, g5, ⟨s6, p6⟩, g6, ⟨s7, p7⟩, g7, ⟨s8, p8⟩, g8, h⟩ := h
  injection h with h
  injection h with h1 h2
  subst h1 h2
  have calm : ∀ {a : State}, a.turn = s.turn ∧ a.nonFailTurns = s.nonFailTurns ∧ a.failTurns = s.failTurns ∧ a.failureOn = s.failureOn ∧
      a.omega = s.omega ∧ a.theta = s.theta ∧ a.atlasOn = false ∧ a.cmsOn = true → a.phi = s.phi → Calm a s.omega s.theta s.phi := by
    rintro a ⟨a1, a2, a3, a4, a5, a6, -⟩ a7
    exact ⟨a5, a6, a7, by rw [a4, a1, a2]; exact hq, by rw [a1, a2, a3]; exact hr⟩
  have step : ∀ {k : Set} {m : Marker} {a b : State} {qs rs : List Particle}, (k = .up5 ∨ k = .down5) → At k m.pos → pass o m (a, qs) = .ok (b, rs) →
      (a.ip5.up && a.ip5.down) = false →
      (a.turn = s.turn ∧ a.nonFailTurns = s.nonFailTurns ∧ a.failTurns = s.failTurns ∧ a.failureOn = s.failureOn ∧
      a.omega = s.omega ∧ a.theta = s.theta ∧ a.atlasOn = false ∧ a.cmsOn = true) ∧ a.phi = s.phi →
      b.ip5 = (if k = .up5 then a.ip5.goUp else a.ip5.goDown) ∧
      (b.turn = s.turn ∧ b.nonFailTurns = s.nonFailTurns ∧ b.failTurns = s.failTurns ∧ b.failureOn = s.failureOn ∧
      b.omega = s.omega ∧ b.theta = s.theta ∧ b.atlasOn = false ∧ b.cmsOn = true) ∧ b.phi = s.phi := by
    rintro k m a b qs rs hk hat hp hf ⟨⟨a1, a2, a3, a4, a5, a6, a7, a8⟩, a9⟩
    obtain ⟨b0, b1, b2, b3, b4, b5, b6, b7, b8⟩ := ip5_step hk hat hp a7 a8 hf
    exact ⟨b0, ⟨b1.trans a1, b2.trans a2, b3.trans a3, b4.trans a4, b5.trans a5, b6.trans a6, b7, b8⟩,
      phi_step hp (Or.inl a8) a9⟩
  have k0 : (s.turn = s.turn ∧ s.nonFailTurns = s.nonFailTurns ∧ s.failTurns = s.failTurns ∧ s.failureOn = s.failureOn ∧
      s.omega = s.omega ∧ s.theta = s.theta ∧ s.atlasOn = false ∧ s.cmsOn = true) ∧ s.phi = s.phi :=
    ⟨⟨rfl, rfl, rfl, rfl, rfl, rfl, ha, hc⟩, rfl⟩
  obtain ⟨c1, k1⟩ := step (Or.inl rfl) (hu u1 (by simp)) g1 (by rw [h0]; rfl) k0
  rw [h0] at c1
  obtain ⟨c2, k2⟩ := step (Or.inl rfl) (hu u2 (by simp)) g2 (by rw [c1]; rfl) k1
  rw [c1] at c2
  obtain ⟨c3, k3⟩ := step (Or.inl rfl) (hu u3 (by simp)) g3 (by rw [c2]; rfl) k2
  rw [c2] at c3
  obtain ⟨c4, k4⟩ := step (Or.inl rfl) (hu u4 (by simp)) g4 (by rw [c3]; rfl) k3
  rw [c3] at c4
  obtain ⟨c5, k5⟩ := step (Or.inr rfl) (hd d1 (by simp)) g5 (by rw [c4]; rfl) k4
  rw [c4] at c5
  obtain ⟨c6, k6⟩ := step (Or.inr rfl) (hd d2 (by simp)) g6 (by rw [c5]; rfl) k5
  rw [c5] at c6
  obtain ⟨c7, k7⟩ := step (Or.inr rfl) (hd d3 (by simp)) g7 (by rw [c6]; rfl) k6
  rw [c6] at c7
  obtain ⟨c8, k8⟩ := step (Or.inr rfl) (hd d4 (by simp)) g8 (by rw [c7]; rfl) k7
  rw [c7] at c8
  obtain ⟨a1, t1, l1⟩ := cms_up_step (hu u1 (by simp)) g1 ha hc (calm k1.1 k1.2) rfl
  obtain ⟨a2, t2, l2⟩ := cms_up_step (hu u2 (by simp)) g2 k1.1.2.2.2.2.2.2.1 k1.1.2.2.2.2.2.2.2 (calm k2.1 k2.2) k1.2
  obtain ⟨a3, t3, l3⟩ := cms_up_step (hu u3 (by simp)) g3 k2.1.2.2.2.2.2.2.1 k2.1.2.2.2.2.2.2.2 (calm k3.1 k3.2) k2.2
  obtain ⟨a4, t4, l4⟩ := cms_up_step (hu u4 (by simp)) g4 k3.1.2.2.2.2.2.2.1 k3.1.2.2.2.2.2.2.2 (calm k4.1 k4.2) k3.2
  have i1 : s1.ip5.upCount - 1 = 0 := by rw [c1]; rfl
  have i2 : s2.ip5.upCount - 1 = 1 := by rw [c2]; rfl
  have i3 : s3.ip5.upCount - 1 = 2 := by rw [c3]; rfl
  have i4 : s4.ip5.upCount - 1 = 3 := by rw [c4]; rfl
  have i5 : s5.ip5.downCount - 1 = 0 := by rw [c5]; rfl
  have i6 : s6.ip5.downCount - 1 = 1 := by rw [c6]; rfl
  have i7 : s7.ip5.downCount - 1 = 2 := by rw [c7]; rfl
  have i8 : s8.ip5.downCount - 1 = 3 := by rw [c8]; rfl
  rw [i1] at t1
  rw [i2, t1] at t2
  rw [i3, t2] at t3
  rw [i4, t3] at t4
  obtain ⟨a5, t5⟩ := cms_down_step (hd d1 (by simp)) g5 k4.1.2.2.2.2.2.2.1 k4.1.2.2.2.2.2.2.2 (calm k5.1 k5.2) k4.2 l1
    (by rw [i5, t4]; simp [Store.put, put])
  rw [i5, t4] at a5
  rw [t4] at t5
  obtain ⟨a6, t6⟩ := cms_down_step (hd d2 (by simp)) g6 k5.1.2.2.2.2.2.2.1 k5.1.2.2.2.2.2.2.2 (calm k6.1 k6.2) k5.2 l2
    (by rw [i6, t5]; simp [Store.put, put])
  rw [i6, t5] at a6
  rw [t5] at t6
  obtain ⟨a7, t7⟩ := cms_down_step (hd d3 (by simp)) g7 k6.1.2.2.2.2.2.2.1 k6.1.2.2.2.2.2.2.2 (calm k7.1 k7.2) k6.2 l3
    (by rw [i7, t6]; simp [Store.put, put])
  rw [i7, t6] at a7
  rw [t6] at t7
  obtain ⟨a8, -⟩ := cms_down_step (hd d4 (by simp)) g8 k7.1.2.2.2.2.2.2.1 k7.1.2.2.2.2.2.2.2 (calm k8.1 k8.2) k7.2 l4
    (by rw [i8, t7]; simp [Store.put, put])
  rw [i8, t7] at a8
  have hall := ((((((a1.trans a2).trans a3).trans a4).trans a5).trans a6).trans a7).trans a8
  refine hall.imp ?_
  rintro p q ⟨e, -⟩
  rw [e]
  simp [Store.put, put, pair5, push]
  ring

end Verif.Crab
