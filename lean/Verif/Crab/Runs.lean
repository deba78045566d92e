import Verif.Crab.Kicks

/-! Runs that do not go wrong, and those that do (C289). -/

namespace Verif.Crab
open Verif Verif.Crab.Spec Real

/-- Optics in which every cavity can be given a voltage. -/
structure Fit (o : Optics) (ms : List Marker) : Prop where
  up1 : ∀ m ∈ ms, At .up1 m.pos → lever o false (o.find m.name) (o.find "IP1.L1") ≠ 0
  up5 : ∀ m ∈ ms, At .up5 m.pos → lever o true (o.find m.name) (o.find "IP5" + 1) ≠ 0
  down1 : ∀ m ∈ ms, At .down1 m.pos → o.betaY (o.find m.name) ≠ 0
  down5 : ∀ m ∈ ms, At .down5 m.pos → o.betaX (o.find m.name) ≠ 0

theorem Fit.tail {o : Optics} {m : Marker} {ms : List Marker} (h : Fit o (m :: ms)) : Fit o ms :=
  ⟨fun x hx => h.up1 x (List.mem_cons_of_mem _ hx), fun x hx => h.up5 x (List.mem_cons_of_mem _ hx),
    fun x hx => h.down1 x (List.mem_cons_of_mem _ hx), fun x hx => h.down5 x (List.mem_cons_of_mem _ hx)⟩

theorem calcV1_some {s : State} {l : ℝ} (hw : s.omega ≠ 0) (hl : l ≠ 0) : calcV1 s l = .ok (volt s l) :=
  calcV1_ok.2 ⟨by unfold crabs; exact mul_ne_zero (mul_ne_zero hw hl) (by norm_num), rfl⟩

theorem index_some {n : Nat} (h : 1 ≤ n ∧ n ≤ 4) : index n = .ok (n - 1) := by rw [index, if_pos h]

theorem m22_some {o : Optics} {a b : Int} {d : ℝ} {hor : Bool} (h : o.beta hor b ≠ 0) :
    m22 o a b d hor = .ok (√(o.beta hor a / o.beta hor b) * cos d) := by
  rw [m22, quot, if_neg h]; rfl

/-- Counters with which the arrays are left alone outside their bounds, both points in use. -/
def okBoth (k : Set) (r : Counter × Counter × Int) : Bool :=
  match k with
  | .up5 => decide (1 ≤ r.2.1.upCount ∧ r.2.1.upCount ≤ 4)
  | .down5 => decide ((1 ≤ r.1.downCount ∧ r.1.downCount ≤ 4) ∧ 1 ≤ r.2.1.downCount ∧ r.2.1.downCount ≤ 4)
  | .up1 => decide (1 ≤ r.1.upCount ∧ r.1.upCount ≤ 4)
  | .down1 => decide (1 ≤ r.1.downCount ∧ r.1.downCount ≤ 4)

/-- The same at all cavities of a run. -/
def goodBoth : List Set → Counter × Counter × Int → Bool
  | [], _ => true
  | k :: ks, r => okBoth k (stepBoth k r) && goodBoth ks (stepBoth k r)

theorem goodBoth_append (a b : List Set) (r : Counter × Counter × Int) :
    goodBoth (a ++ b) r = (goodBoth a r && goodBoth b (a.foldl (fun r k => stepBoth k r) r)) := by
  induction a generalizing r with
  | nil => rfl
  | cons k a ih => simp [goodBoth, ih, Bool.and_assoc]

theorem pass_both {o : Optics} {k : Set} {m : Marker} (hk : At k m.pos) (hf : Fit o [m]) {s : State} (hw : s.omega ≠ 0)
    (ha : s.atlasOn = true) (hc : s.cmsOn = true) (hg : okBoth k (stepBoth k (s.ip1, s.ip5, s.turn)) = true) (ps : List Particle) :
    ∃ r, pass o m (s, ps) = .ok r := by
  obtain ⟨e1, e2, e3, e4, e5, e6, -⟩ := set_keeps m s
  obtain ⟨p1, p2, p3⟩ := set_place k hk s
  obtain ⟨o1, o2⟩ := set_on m s
  rw [← step_both hk ha hc] at hg
  simp only [pass]
  rw [← e2] at hw
  generalize setComponent m s = t at *
  unfold doProcess
  split
  swap
  · exact ⟨_, rfl⟩
  rw [if_pos (by simp [o1, o2, ha, hc])]
  cases k with
  | up5 =>
    have hl := hf.up5 m (by simp) hk
    have hi : 1 ≤ t.ip5.upCount ∧ t.ip5.upCount ≤ 4 := by simpa [okBoth] using hg
    have hp : Optics.ip o false = o.find "IP5" + 1 := rfl
    have p1' : t.upstream = true := p1
    have p2' : t.atlas = false := p2
    have p3' : t.horizontal = true := p3
    simp only [doBoth, p1', p2', p3', m12_lever, hp, calcV1_some hw hl, if_true, Bool.false_eq_true, if_false, index_some hi, obind_ok]
    exact ⟨_, rfl⟩
  | up1 =>
    have hl := hf.up1 m (by simp) hk
    have hi : 1 ≤ t.ip1.upCount ∧ t.ip1.upCount ≤ 4 := by simpa [okBoth] using hg
    have hp : Optics.ip o true = o.find "IP1.L1" := rfl
    have p1' : t.upstream = true := p1
    have p2' : t.atlas = true := p2
    have p3' : t.horizontal = false := p3
    simp only [doBoth, p1', p2', p3', m12_lever, hp, calcV1_some hw hl, if_true, index_some hi, obind_ok]
    exact ⟨_, rfl⟩
  | down1 =>
    have hl := hf.down1 m (by simp) hk
    have hi : 1 ≤ t.ip1.downCount ∧ t.ip1.downCount ≤ 4 := by simpa [okBoth] using hg
    have hb : o.beta false (o.find m.name) ≠ 0 := hl
    have p1' : t.upstream = false := p1
    have p2' : t.atlas = true := p2
    have p3' : t.horizontal = false := p3
    simp only [doBoth, p1', p2', p3', if_true, Bool.false_eq_true, if_false, index_some hi, obind_ok, m22_some hb]
    exact ⟨_, rfl⟩
  | down5 =>
    have hl := hf.down5 m (by simp) hk
    have hi : (1 ≤ t.ip1.downCount ∧ t.ip1.downCount ≤ 4) ∧ 1 ≤ t.ip5.downCount ∧ t.ip5.downCount ≤ 4 := by simpa [okBoth] using hg
    have hb : o.beta true (o.find m.name) ≠ 0 := hl
    have p1' : t.upstream = false := p1
    have p2' : t.atlas = false := p2
    have p3' : t.horizontal = true := p3
    simp only [doBoth, p1', p2', p3', Bool.false_eq_true, if_false, index_some hi.1, index_some hi.2, obind_ok, m22_some hb]
    exact ⟨_, rfl⟩

theorem passes_both {o : Optics} {ks : List Set} {ms : List Marker} (hk : List.Forall₂ (fun k m => At k m.pos) ks ms) (hf : Fit o ms)
    {s : State} (hw : s.omega ≠ 0) (ha : s.atlasOn = true) (hc : s.cmsOn = true) (hg : goodBoth ks (s.ip1, s.ip5, s.turn) = true)
    (ps : List Particle) : ∃ r, passes o ms (s, ps) = .ok r := by
  induction hk generalizing s ps with
  | nil => exact ⟨_, rfl⟩
  | @cons k m ks ms hm _ ih =>
    simp only [goodBoth, Bool.and_eq_true] at hg
    have hf1 : Fit o [m] := by
      constructor <;> intro x hx hp <;> simp only [List.mem_singleton] at hx <;> subst hx
      · exact hf.up1 x (by simp) hp
      · exact hf.up5 x (by simp) hp
      · exact hf.down1 x (by simp) hp
      · exact hf.down5 x (by simp) hp
    obtain ⟨⟨s1, ps1⟩, h1⟩ := pass_both hm hf1 hw ha hc hg.1 ps
    obtain ⟨⟨e1, e2, e3, e4, e5, e6, -⟩, -⟩ := pass_keeps h1
    have hw1 : s1.omega ≠ 0 := by rw [e6, (set_keeps m s).2.1]; exact hw
    have hg1 : goodBoth ks (s1.ip1, s1.ip5, s1.turn) = true := by
      rw [e1, e2, e3, step_both hm ha hc]; exact hg.2
    obtain ⟨r, hr⟩ := ih hf.tail hw1 (e4.trans ((set_on m s).1.trans ha)) (e5.trans ((set_on m s).2.trans hc)) hg1 ps1
    exact ⟨r, by rw [passes, h1, obind_ok]; exact hr⟩

theorem good_rounds (n : Nat) (t : Int) : goodBoth (rounds [.up1, .down1, .up5, .down5] n) (.zero, .zero, t) = true := by
  induction n with
  | zero => rfl
  | succ n ih =>
    rw [rounds_succ, goodBoth_append, ih]
    cases n with
    | zero => simp [rounds, goodBoth, okBoth, stepBoth, Counter.zero, Counter.goUp, Counter.goDown]
    | succ n =>
      rw [after_both (by simp [orders])]
      simp [goodBoth, okBoth, stepBoth, Counter.zero, Counter.goUp, Counter.goDown, full]

/-- Both points in use and the bunch started before the first point: no turn goes wrong. -/
theorem runs_both {o : Optics} {n : Nat} {ms : List Marker}
    (hk : List.Forall₂ (fun k m => At k m.pos) (rounds [.up1, .down1, .up5, .down5] n) ms) (hf : Fit o ms) {freq : ℝ} (hw : freq ≠ 0)
    (crossing phase : ℝ) (a b : Int) (ps : List Particle) : ∃ r, passes o ms (mkTurns freq crossing phase a b, ps) = .ok r :=
  passes_both hk hf hw rfl rfl (good_rounds n 1) ps

/-- Both points in use and the bunch started before the fifth point: the first cavity behind that point reads before the
start of an array. -/
theorem start_at_five {o : Optics} {u : List Marker} (hu : u.length = 4) (hup : ∀ m ∈ u, At .up5 m.pos) {d : Marker} (hd : At .down5 d.pos)
    (hf : Fit o u) (ms : List Marker) {freq : ℝ} (hw : freq ≠ 0) (crossing phase : ℝ) {a b : Int} (hab : 1 < a + b) (ps : List Particle) :
    passes o (u ++ d :: ms) (mkTurns freq crossing phase a b, ps) = .ub := by
  have hk : List.Forall₂ (fun k m => At k m.pos) (List.replicate 4 Set.up5) u := by
    match u, hu with
    | [a1, a2, a3, a4], _ => simp_all [List.replicate]
  have hg : goodBoth (List.replicate 4 Set.up5) (Counter.zero, Counter.zero, 1) = true := by
    simp [goodBoth, okBoth, stepBoth, Counter.zero, Counter.goUp, List.replicate]
  obtain ⟨⟨s', ps'⟩, h⟩ := passes_both hk hf (s := mkTurns freq crossing phase a b) hw rfl rfl hg ps
  obtain ⟨hr, ha, hc⟩ := run_both hk h rfl rfl
  have hfold : List.foldl (fun r k => stepBoth k r) (Counter.zero, Counter.zero, 1) (List.replicate 4 Set.up5) =
      (Counter.zero, ⟨true, false, 4, 0⟩, 1) := by
    simp [stepBoth, Counter.zero, Counter.goUp, List.replicate]
  have happ : ∀ (l : List Marker) (r : State × List Particle), passes o (l ++ d :: ms) r = (passes o l r).bind (passes o (d :: ms)) := by
    intro l
    induction l with
    | nil => intro r; rfl
    | cons x l ih =>
      intro r
      simp only [List.cons_append, passes]
      cases pass o x r with
      | ok a => simp only [obind_ok]; exact ih a
      | throw e => rfl
      | ub => rfl
  rw [happ, h, obind_ok]
  have hsame : s'.nonFailTurns = a ∧ s'.failTurns = b := by
    have : ∀ (l : List Marker) (s : State) (ps : List Particle), passes o l (s, ps) = .ok (s', ps') →
        s'.nonFailTurns = s.nonFailTurns ∧ s'.failTurns = s.failTurns := by
      intro l
      induction l with
      | nil => intro s ps h; injection h with h; injection h with h _; subst h; exact ⟨rfl, rfl⟩
      | cons x l ih =>
        intro s ps h
        simp only [passes, bind_ok_iff] at h
        obtain ⟨⟨s1, ps1⟩, h1, h2⟩ := h
        obtain ⟨⟨-, -, -, -, -, -, -, e8, e9, -⟩, -⟩ := pass_keeps h1
        obtain ⟨i1, i2⟩ := ih s1 ps1 h2
        obtain ⟨-, -, -, e4, e5, -⟩ := set_keeps x s
        exact ⟨i1.trans (e8.trans e4), i2.trans (e9.trans e5)⟩
    exact this u _ ps h
  have hr' : (s'.ip1, s'.ip5, s'.turn) = (Counter.zero, ⟨true, false, 4, 0⟩, 1) := hr.trans hfold
  have hs := step_both hd ha hc
  rw [hr'] at hs
  simp only [stepBoth, Counter.zero, Counter.goDown, Bool.false_and, Bool.false_eq_true, if_false, Prod.mk.injEq] at hs
  obtain ⟨e1, e2, e3, e4, e5, e6, -⟩ := set_keeps d s'
  obtain ⟨p1, p2, p3⟩ := set_place .down5 hd s'
  obtain ⟨o1, o2⟩ := set_on d s'
  have p1' : (setComponent d s').upstream = false := p1
  have p2' : (setComponent d s').atlas = false := p2
  have hub : pass o d (s', ps') = .ub := by
    simp only [pass]
    rw [doProcess, if_pos (by rw [e4, e5, hs.2.2, hsame.1, hsame.2]; exact hab), if_pos (by simp [o1, o2, ha, hc])]
    simp only [doBoth, p1', p2', Bool.false_eq_true, if_false]
    rw [hs.1]
    rfl
  rw [passes, hub]
  rfl

end Verif.Crab
