import Verif.SMPMaps.Wave

/-!
# Slices along a line
-/

namespace Verif.SMPMaps
open Verif Real Verif.Multipole Verif.LinMap Verif.LinMap.Spec Verif.Slices Verif.Slices.Spec Verif.Transport
  Verif.SMPMaps.Spec

noncomputable section

/-! ## C270: steps -/

/-- A motion whose orbits exist and are unique is the same in one step and in two. -/
theorem carried_add {V : Pt → Pt} (hex : ∀ p : Pt, ∃ o : ℝ → Pt, (∀ i < 6, o 0 i = p i) ∧
      ∀ t, ∀ i < 6, HasDerivAt (fun t => o t i) (V (o t) i) t)
    (hun : ∀ {l : ℝ} {p a b : Pt}, Carried V l p a → Carried V l p b → ∀ i < 6, a i = b i) {a b : ℝ} {p r : Pt}
    (h : After (Carried V a) (Carried V b) p r) : Carried V (a + b) p r := by
  obtain ⟨q, h1, h2⟩ := h
  obtain ⟨o, h0, hd⟩ := hex p
  have e1 := hun h1 ⟨o, h0, fun _ _ => rfl, hd⟩
  have h3 : Carried V b (o a) (o (a + b)) := ⟨fun t => o (a + t), fun i _ => by simp, fun _ _ => rfl, fun t i hi => by
    have := (hd (a + t) i hi).comp t ((hasDerivAt_id' t).const_add a)
    rw [mul_one] at this
    exact this⟩
  have e2 := hun h2 (carried_congr h3 (fun i hi => (e1 i hi).symm) fun _ _ => rfl)
  exact ⟨o, h0, fun i hi => (e2 i hi).symm, hd⟩

theorem carried_orbit {V : Pt → Pt} {l : ℝ} {p p' : Pt} (h : Carried V l p p') : ∃ o : ℝ → Pt, (∀ i < 6, o 0 i = p i) ∧
    ∀ t, ∀ i < 6, HasDerivAt (fun t => o t i) (V (o t) i) t := by
  obtain ⟨o, h0, _, hd⟩ := h
  exact ⟨o, h0, hd⟩

theorem straight_add {k0 : Cx ℝ} {k : ℝ} (hk : k0 = 0 ∨ k = 0) {a b : ℝ} {p r : Pt}
    (h : After (Carried (straight k0 ⟨k, 0⟩) a) (Carried (straight k0 ⟨k, 0⟩) b) p r) :
    Carried (straight k0 ⟨k, 0⟩) (a + b) p r := by
  refine carried_add (fun p => ?_) (fun h h' => straight_unique h h') h
  rcases hk with rfl | rfl
  · exact carried_orbit (carried_quad k 0 p)
  · exact carried_orbit (carried_dipole k0 0 p)

theorem bent_add {p0 p1 h k : ℝ} (hk : k + h * h ≠ 0) {a b : ℝ} {p r : Pt}
    (hh : After (Bent p0 p1 h k a) (Bent p0 p1 h k b) p r) : Bent p0 p1 h k (a + b) p r := by
  obtain ⟨q, ⟨e1, h1⟩, e2, h2⟩ := hh
  exact ⟨e2.trans e1, carried_add (fun p => carried_orbit (carried_circle hk 0 p)) (fun h h' => circle_unique h h')
    ⟨_, h1, h2⟩⟩

theorem tracked_after {R R' : Pt → Pt → Prop} {b b' b'' : SBunch ℝ} (h : Tracked R b b') (h' : Tracked R' b' b'') :
    Tracked (After R R') b b'' := by
  refine ⟨h'.p0.trans h.p0, h'.ct0.trans h.ct0, h'.charge.trans h.charge, ?_⟩
  have h1 := h.slices
  have h2 := h'.slices
  revert h2
  generalize b''.slices = l2
  revert h1
  generalize b'.slices = l1
  generalize b.slices = l0
  intro h1 h2
  induction h1 generalizing l2 with
  | nil => cases h2; exact .nil
  | cons a1 _ ih =>
    cases h2 with
    | cons a2 r2 =>
      exact .cons ⟨⟨a2.1.1.trans a1.1.1, a2.1.2.trans a1.1.2⟩, follows_after a1.2 a2.2⟩ (ih _ r2)

theorem tracked_mono {R R' : Pt → Pt → Prop} {b b' : SBunch ℝ} (h : Tracked R b b') (hR : ∀ p p', R p p' → R' p p') :
    Tracked R' b b' :=
  ⟨h.p0, h.ct0, h.charge, h.slices.imp fun _ _ hs => ⟨hs.1, follows_mono hs.2 fun p p' _ => hR p p'⟩⟩

theorem tracked_momenta {R : Pt → Pt → Prop} {b b' : SBunch ℝ} (h : Tracked R b b') (hd : ∀ s ∈ b.slices, 1 + s.x 5 ≠ 0) :
    ∀ s ∈ b'.slices, 1 + s.x 5 ≠ 0 := by
  have h1 := h.slices
  revert h1 hd
  generalize b'.slices = l1
  generalize b.slices = l0
  intro hd h1
  induction h1 with
  | nil => simp
  | cons a1 _ ih =>
    intro s hs
    rcases List.mem_cons.1 hs with rfl | hs
    · rw [a1.1.2]; exact hd _ List.mem_cons_self
    · exact ih (fun s hs => hd s (List.mem_cons_of_mem _ hs)) s hs

/-- C270: two steps in a magnet are a step over their sum. -/
theorem rect_steps {eps ec q len : ℝ} {m : MField ℝ} {x y : ℝ} {b : SBunch ℝ} (hp : b.p0 ≠ 0) (he : ec ≠ 0)
    (hn : eps < |m.b0|) {n : Nat} (hl : lowest m = .ok n) (hn1 : n ≤ 1) (h1 : (m.terms.getD 1 0).im = 0)
    (h0 : m.terms.getD 0 0 = 0 ∨ m.terms.getD 1 0 = 0) (hz : len ≠ 0) (hd : ∀ s ∈ b.slices, 1 + s.x 5 ≠ 0) :
    ∃ b' b'', rectStep eps ec q len m x b = .ok b' ∧ rectStep eps ec q len m y b' = .ok b'' ∧
      Tracked (Carried (straight (component ec q b.p0 m 0) (component ec q b.p0 m 1)) (x + y)) b b'' := by
  obtain ⟨b', e1, t1⟩ := rect_tracked (eps := eps) (ec := ec) (q := q) (len := len) (ds := x) hp he hn hl hn1 h1 h0
    (Or.inl hz) hd
  obtain ⟨b'', e2, t2⟩ := rect_tracked (eps := eps) (ec := ec) (q := q) (len := len) (ds := y) (b := b')
    (by rw [t1.p0]; exact hp) he hn hl hn1 h1 h0 (Or.inl hz) (tracked_momenta t1 hd)
  rw [t1.p0] at t2
  refine ⟨b', b'', e1, e2, tracked_mono (tracked_after t1 t2) fun p p' h => ?_⟩
  have ek : component ec q b.p0 m 1 = ⟨(component ec q b.p0 m 1).re, 0⟩ := by
    ext <;> simp [component_im h1]
  rw [ek] at h ⊢
  refine straight_add ?_ h
  exact h0.imp component_zero fun h => by rw [component_zero h]; rfl

/-- C270: so are two steps in a bend. -/
theorem bend_steps {tol ec cl q : ℝ} {c : Bend} {x y : ℝ} {b : SBunch ℝ} {p1 : ℝ} (hx : x ≠ 0) (hy : y ≠ 0) (hh : c.h ≠ 0)
    (hq : q ≠ 0) (hp : b.p0 ≠ 0) (he : ec ≠ 0) (hr : 0 < p1)
    (h1 : p1 * (c.h * q) = cl * ((c.field.terms.getD 0 0).re * c.field.b0)) (ht : c.tilt = 0)
    (htol : p1 = b.p0 ∨ tol < |p1 - b.p0|) (hk : (component ec q b.p0 c.field 1).re + c.h * c.h ≠ 0) (h0 : 0 ≤ tol) :
    ∃ b' b'', bendStep tol ec cl q c x b = .ok b' ∧ bendStep tol ec cl q c y b' = .ok b'' ∧
      Tracked (Bent b.p0 p1 c.h (component ec q b.p0 c.field 1).re (x + y)) b b'' := by
  obtain ⟨b', e1, t1⟩ := bend_tracked (ec := ec) (cl := cl) hx hh hq hp he hr h1 ht htol hk h0
  obtain ⟨b'', e2, t2⟩ := bend_tracked (tol := tol) (ec := ec) (cl := cl) (b := b') hy hh hq (by rw [t1.p0]; exact hp) he hr
    h1 ht (by rw [t1.p0]; exact htol) (by rw [t1.p0]; exact hk) h0
  rw [t1.p0] at t2
  exact ⟨b', b'', e1, e2, tracked_mono (tracked_after t1 t2) fun p p' h => bent_add hk h⟩

/-! ## C271: lines -/

/-- A step over an element of a line: `DriftCI`, `RectMultipoleCI` and `SectorBendCI::TrackStep` (SMPStdIntegrators.cpp 222-377)
over the whole length. -/
def elemStep (eps tol ec cl q : ℝ) : Elem → SBunch ℝ → Outcome Unit (SBunch ℝ)
  | .drift l, b => drift l b
  | .magnet l m, b => rectStep eps ec q l m l b
  | .bend l h _ m, b => bendStep tol ec cl q ⟨h, 0, m⟩ l b

/-- The steps over a line, one element after the other (SMPTracker tracks component by component). -/
def lineStep (eps tol ec cl q : ℝ) : List Elem → SBunch ℝ → Outcome Unit (SBunch ℝ)
  | [], b => .ok b
  | e :: l, b => (elemStep eps tol ec cl q e b).bind (lineStep eps tol ec cl q l)

/-- Elements for which the integrators are right. -/
def Sound (eps tol ec cl q p0 : ℝ) : Elem → Prop
  | .drift _ => True
  | .magnet l m => l ≠ 0 ∧ eps < |m.b0| ∧ (∃ n ≤ 1, lowest m = .ok n) ∧ (m.terms.getD 1 0).im = 0 ∧
      (m.terms.getD 0 0 = 0 ∨ m.terms.getD 1 0 = 0)
  | .bend l h p1 m => l ≠ 0 ∧ h ≠ 0 ∧ 0 < p1 ∧ p1 * (h * q) = cl * ((m.terms.getD 0 0).re * m.b0) ∧
      (p1 = p0 ∨ tol < |p1 - p0|) ∧ (component ec q p0 m 1).re + h * h ≠ 0

/-- C271: through a line of drifts, magnets with dipoles or normal gradients, and bends without tilt, whatever cloud of particles
a slice stands for at the start, it stands at the end for the same particles, each of which has gone through the line by
itself. -/
theorem line_tracked {eps tol ec cl q : ℝ} (hq : q ≠ 0) (he : ec ≠ 0) (h0 : 0 ≤ tol) : ∀ (l : List Elem) (b : SBunch ℝ),
    b.p0 ≠ 0 → (∀ s ∈ b.slices, 1 + s.x 5 ≠ 0) → (∀ e ∈ l, Sound eps tol ec cl q b.p0 e) →
    ∃ b', lineStep eps tol ec cl q l b = .ok b' ∧ Tracked (through ec q b.p0 l) b b'
  | [], b, _, _, _ => by
    refine ⟨b, rfl, rfl, rfl, rfl, ?_⟩
    induction b.slices with
    | nil => exact .nil
    | cons s l ih => exact .cons ⟨⟨rfl, rfl⟩, follows_id s⟩ ih
  | e :: l, b, hp, hd, hs => by
    have step : ∃ b', elemStep eps tol ec cl q e b = .ok b' ∧ Tracked (e.motion ec q b.p0) b b' := by
      have h := hs e List.mem_cons_self
      cases e with
      | drift z => exact drift_tracked z b
      | magnet z m =>
        obtain ⟨hz, hn, ⟨n, hn1, hl⟩, h1, h2⟩ := h
        exact rect_tracked hp he hn hl hn1 h1 h2 (Or.inl hz) hd
      | bend z h' p1 m =>
        obtain ⟨hz, hh, hr, h1, h2, h3⟩ := h
        exact bend_tracked (c := ⟨h', 0, m⟩) hz hh hq hp he hr h1 rfl h2 h3 h0
    obtain ⟨b1, e1, t1⟩ := step
    obtain ⟨b2, e2, t2⟩ := line_tracked hq he h0 l b1 (by rw [t1.p0]; exact hp) (tracked_momenta t1 hd)
      (fun e he => by rw [t1.p0]; exact hs e (List.mem_cons_of_mem _ he))
    rw [t1.p0] at t2
    exact ⟨b2, by simp only [lineStep, e1, Outcome.bind, e2], tracked_after t1 t2⟩

/-! ## Cases -/

/-- A slice with width: two charges at opposite places. -/
example : Stands (⟨fun _ => 0, fun n => if n = 0 then 1 else 0, 2⟩ : Slice ℝ)
    [(1, fun i => if i = 0 then 1 else 0), (1, fun i => if i = 0 then -1 else 0)] := by
  refine ⟨by simp [total]; norm_num, fun i _ => ?_, fun i hi j hj => ?_⟩
  · by_cases h : i = 0 <;> simp [first, h]
  · interval_cases i <;> interval_cases j <;> simp [second, sig, off] <;> norm_num

/-- A cell of quadrupoles and bends. -/
example : ∀ e ∈ [Elem.magnet 1 ⟨1, [0, ⟨2, 0⟩]⟩, .drift 3, .bend 2 1 1 ⟨1, [⟨1, 0⟩]⟩, .magnet 1 ⟨1, [0, ⟨-2, 0⟩]⟩],
    Sound (1 / 1000) (1 / 1000) 1 1 1 1 e := by
  intro e he
  simp only [List.mem_cons, List.not_mem_nil, or_false] at he
  rcases he with rfl | rfl | rfl | rfl
  · refine ⟨by norm_num, by norm_num, ⟨1, le_refl _, ?_⟩, by simp, by simp⟩
    simp [lowest, lowLoop]
    intro h
    exact absurd (congrArg Cx.re h) (by norm_num)
  · trivial
  · refine ⟨by norm_num, by norm_num, by norm_num, by simp, by simp, ?_⟩
    simp [component, Cx.smul]
  · refine ⟨by norm_num, by norm_num, ⟨1, le_refl _, ?_⟩, by simp, by simp⟩
    simp [lowest, lowLoop]
    intro h
    exact absurd (congrArg Cx.re h) (by norm_num)

/-- A dipole with a normal gradient. -/
example : component 1 1 1 (⟨1, [⟨1, 0⟩, ⟨2, 0⟩]⟩ : MField ℝ) 0 ≠ 0 ∧ ((⟨1, [⟨1, 0⟩, ⟨2, 0⟩]⟩ : MField ℝ).terms.getD 1 0).im = 0 :=
  ⟨fun h => by have := congrArg Cx.re h; simp [component, Cx.smul] at this, rfl⟩

/-- A skew gradient, the wave with a small gain, the solenoid, the phase of a short lens. -/
example : (⟨0, 1⟩ : Cx ℝ).im ≠ 0 ∧ |(1 : ℝ) * cos (0 - 0 * 0) * 1 / 10| < 1 ∧ (eps < |(2 : ℝ) / 2 * 1| ∧ sin ((2 : ℝ) / 2 * 1) ≠ 0) ∧
    (1 : ℝ) * √(1 / 1) < π := by
  refine ⟨one_ne_zero, by simp; norm_num, ⟨by unfold eps; norm_num, ?_⟩, by
    simp; linarith [two_le_pi]⟩
  have : (2 : ℝ) / 2 * 1 = 1 := by norm_num
  rw [this]
  exact (sin_pos_of_pos_of_lt_pi one_pos (by linarith [two_le_pi])).ne'

end

end Verif.SMPMaps
