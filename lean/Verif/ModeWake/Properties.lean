import Verif.ModeWake.Spec
import Mathlib.Tactic.Ring
import Mathlib.Tactic.Linarith
import Mathlib.Tactic.NormNum
import Mathlib.Analysis.Calculus.Deriv.Mul
import Mathlib.Analysis.Calculus.Deriv.Add
import Mathlib.Analysis.Calculus.Deriv.Pow
import Mathlib.Analysis.Complex.RealDeriv

/-!
# Properties of the wake fields of collimators (C141, C142)
-/

namespace Verif.ModeWake
open ComplexConjugate

theorem powd_eq (x : ℝ) (n : Nat) : powd x n = x ^ n := by
  induction n with
  | zero => simp [powd]
  | succ n ih =>
    rw [pow_succ, ← ih]
    simp [powd, List.range_succ]

theorem radius_eq (p : P) : radius p = ‖Spec.pos p‖ := by
  rw [radius, powd_eq, powd_eq, Complex.norm_def, Complex.normSq_apply, sq, sq]
  rfl

/-- `r^m (cos m theta + i sin m theta)` is the power of the complex number. -/
theorem polar (p : P) (m : Nat) :
    Spec.pos p ^ m = ⟨powd (radius p) m * Real.cos (m * angle p), powd (radius p) m * Real.sin (m * angle p)⟩ := by
  have h : Spec.pos p = (radius p : ℂ) * (Complex.cos (angle p) + Complex.sin (angle p) * Complex.I) := by
    rw [radius_eq]
    exact (Complex.norm_mul_cos_add_sin_mul_I (Spec.pos p)).symm
  rw [h, mul_pow, Complex.cos_add_sin_mul_I_pow, powd_eq]
  have e : ((m : ℂ) * (angle p : ℂ)) = ((m * angle p : ℝ) : ℂ) := by push_cast; rfl
  rw [e, ← Complex.ofReal_cos, ← Complex.ofReal_sin, ← Complex.ofReal_pow]
  generalize Real.cos (m * angle p) = c
  generalize Real.sin (m * angle p) = d
  generalize radius p ^ m = r
  apply Complex.ext <;> simp

theorem foldl_add {α : Type} (f : α → ℝ) : ∀ (l : List α) (a : ℝ), l.foldl (fun a p => a + f p) a = a + (l.map f).sum
  | [], a => by simp
  | p :: l, a => by rw [List.foldl_cons, foldl_add f l]; simp [add_assoc]

/-- The moments are the real and the imaginary part of the moment of the complex places. -/
theorem moments_eq (m : Nat) (l : List P) : Spec.moment m l = ⟨cm m l, sm m l⟩ := by
  rw [cm, sm, foldl_add, foldl_add]
  induction l with
  | nil => apply Complex.ext <;> simp [Spec.moment]
  | cons p l ih =>
    simp only [Spec.moment, List.map_cons, List.sum_cons] at ih ⊢
    rw [ih, polar p m]
    apply Complex.ext <;> simp

theorem getD_drop (c : List ℝ) (i j : Nat) : (c.drop i).getD j 0 = c.getD (i + j) 0 := by
  simp [List.getD_eq_getElem?_getD]

theorem conv_drop (w : ℝ → ℝ) (dz : ℝ) (c : List ℝ) (i : Nat) : conv w dz c i = conv w dz (c.drop i) 0 := by
  rw [conv, conv, foldl_add, foldl_add, List.length_drop]
  congr 2
  have : List.range' i (c.length - i) = (List.range' 0 (c.length - i - 0)).map (i + ·) := by
    rw [List.map_add_range']; simp
  rw [this, List.map_map]
  apply List.map_congr_left
  intro j _
  simp only [Function.comp]
  rw [getD_drop]
  simp

/-- What `source` is from distance `k` on. -/
theorem source_conv (w : ℝ → ℝ) (dz : ℝ) (m : Nat) : ∀ (ls : List (List P)) (k : Nat),
    Spec.source w dz m k ls =
      ⟨((List.range' 0 ls.length).map fun j => w ((k + j : Nat) * dz) * (ls.map (cm m)).getD j 0).sum,
       ((List.range' 0 ls.length).map fun j => w ((k + j : Nat) * dz) * (ls.map (sm m)).getD j 0).sum⟩
  | [], k => by apply Complex.ext <;> simp [Spec.source]
  | l :: ls, k => by
    rw [Spec.source, source_conv w dz m ls (k + 1), moments_eq]
    have hr : List.range' 0 (l :: ls).length = 0 :: (List.range' 0 ls.length).map (1 + ·) := by
      rw [List.map_add_range', List.length_cons, List.range'_succ]
    rw [hr]
    apply Complex.ext <;>
    · simp [List.map_map, Function.comp_def, Nat.add_assoc]
      congr 1
      apply List.map_congr_left
      intro j _
      rw [Nat.add_comm 1 j, List.getElem?_cons_succ, List.getElem?_map]

/-- The wakes in a slice are those of the source of its own and of the slices ahead. -/
theorem conv_eq (w : ℝ → ℝ) (dz : ℝ) (m : Nat) (ls : List (List P)) (i : Nat) :
    Spec.source w dz m 0 (ls.drop i) = ⟨conv w dz (ls.map (cm m)) i, conv w dz (ls.map (sm m)) i⟩ := by
  rw [source_conv, conv_drop w dz (ls.map (cm m)), conv_drop w dz (ls.map (sm m)), conv, conv, foldl_add, foldl_add]
  simp [List.map_drop]

/-- C141: the transverse wake of a mode is the force of the source. -/
theorem kick_force (a0 p0 : ℝ) (m : Nat) (hm : 1 ≤ m) (ct st : ℝ) (p : P) :
    Spec.slope (kick a0 p0 true m ct st 0 0 p) = Spec.slope p + (a0 / p0 : ℝ) * Spec.force m (Spec.pos p) ⟨ct, st⟩ := by
  have hp := polar p (m - 1)
  have hc : ((m - 1 : Nat) : ℝ) = (m : ℝ) - 1 := by rw [Nat.cast_sub hm]; simp
  rw [hc] at hp
  have hconj : (starRingEnd ℂ (Spec.pos p)) ^ (m - 1) = starRingEnd ℂ (Spec.pos p ^ (m - 1)) := by rw [map_pow]
  rw [Spec.force, hconj, hp]
  apply Complex.ext
  · simp [Spec.slope, kick]
    ring
  · simp [Spec.slope, kick]
    ring

/-- The real and imaginary part of a power along a straight line. -/
theorem hasDerivAt_line (m : Nat) (z d : ℂ) (t : ℝ) :
    HasDerivAt (fun t : ℝ => (z + t * d) ^ m) (m * (z + t * d) ^ (m - 1) * d) t := by
  have h : HasDerivAt (fun t : ℝ => z + (t : ℂ) * d) d t := by
    have h1 : HasDerivAt (fun t : ℝ => (t : ℂ)) 1 t := Complex.ofRealCLM.hasDerivAt
    have h2 := (h1.mul_const d).const_add z
    simpa using h2
  exact h.pow m

/-- C141: the transverse wake of a mode is the gradient of its potential. -/
theorem kick_gradient (a0 p0 : ℝ) (m : Nat) (hm : 1 ≤ m) (ct st : ℝ) (p : P) :
    HasDerivAt (fun x => (a0 / p0) * Spec.potential m ct st x p.y) ((kick a0 p0 true m ct st 0 0 p).xp - p.xp) p.x ∧
    HasDerivAt (fun y => (a0 / p0) * Spec.potential m ct st p.x y) ((kick a0 p0 true m ct st 0 0 p).yp - p.yp) p.y := by
  have hk := kick_force a0 p0 m hm ct st p
  have hx : (kick a0 p0 true m ct st 0 0 p).xp - p.xp = ((a0 / p0 : ℝ) * Spec.force m (Spec.pos p) ⟨ct, st⟩).re := by
    have := congrArg Complex.re hk
    simp only [Complex.add_re] at this
    simp only [Spec.slope] at this
    linarith
  have hy : (kick a0 p0 true m ct st 0 0 p).yp - p.yp = ((a0 / p0 : ℝ) * Spec.force m (Spec.pos p) ⟨ct, st⟩).im := by
    have := congrArg Complex.im hk
    simp only [Complex.add_im] at this
    simp only [Spec.slope] at this
    linarith
  have hconj : (starRingEnd ℂ (Spec.pos p)) ^ (m - 1) = starRingEnd ℂ (Spec.pos p ^ (m - 1)) := by rw [map_pow]
  rw [hx, hy, Spec.force, hconj]
  have re_of : ∀ {f : ℝ → ℂ} {f' : ℂ} {t : ℝ}, HasDerivAt f f' t → HasDerivAt (fun t => (f t).re) f'.re t :=
    fun h => (Complex.reCLM.hasFDerivAt.comp_hasDerivAt _ h)
  have im_of : ∀ {f : ℝ → ℂ} {f' : ℂ} {t : ℝ}, HasDerivAt f f' t → HasDerivAt (fun t => (f t).im) f'.im t :=
    fun h => (Complex.imCLM.hasFDerivAt.comp_hasDerivAt _ h)
  constructor
  · have h := hasDerivAt_line m ⟨0, p.y⟩ 1 p.x
    have e : ∀ t : ℝ, ((⟨0, p.y⟩ : ℂ) + (t : ℂ) * 1) = ⟨t, p.y⟩ := by
      intro t; apply Complex.ext <;> simp
    simp only [e] at h
    have h2 := (((re_of h).const_mul ct).add ((im_of h).const_mul st)).const_mul (a0 / p0)
    refine HasDerivAt.congr_deriv h2 ?_
    simp only [Spec.pos]
    generalize (⟨p.x, p.y⟩ : ℂ) ^ (m - 1) = q
    simp only [Complex.mul_re, Complex.mul_im, Complex.natCast_re, Complex.natCast_im, Complex.ofReal_re,
      Complex.ofReal_im, Complex.conj_re, Complex.conj_im, Complex.one_re, Complex.one_im, Complex.I_re, Complex.I_im]
    ring
  · have h := hasDerivAt_line m ⟨p.x, 0⟩ Complex.I p.y
    have e : ∀ t : ℝ, ((⟨p.x, 0⟩ : ℂ) + (t : ℂ) * Complex.I) = ⟨p.x, t⟩ := by
      intro t; apply Complex.ext <;> simp
    simp only [e] at h
    have h2 := (((re_of h).const_mul ct).add ((im_of h).const_mul st)).const_mul (a0 / p0)
    refine HasDerivAt.congr_deriv h2 ?_
    simp only [Spec.pos]
    generalize (⟨p.x, p.y⟩ : ℂ) ^ (m - 1) = q
    simp only [Complex.mul_re, Complex.mul_im, Complex.natCast_re, Complex.natCast_im, Complex.ofReal_re,
      Complex.ofReal_im, Complex.conj_re, Complex.conj_im, Complex.one_re, Complex.one_im, Complex.I_re, Complex.I_im]
    ring

/-- The momentum deviation after a mode: the real part of the product of the power of the place and the source. -/
theorem kick_dp (a0 p0 : ℝ) (incTw : Bool) (m : Nat) (ct st cl sl : ℝ) (p : P) :
    (kick a0 p0 incTw m ct st cl sl p).dp = p.dp - a0 / p0 * (Spec.pos p ^ m * ⟨cl, sl⟩).re := by
  rw [polar p m]
  simp [kick]
  ring

theorem kick_pos (a0 p0 : ℝ) (incTw : Bool) (m : Nat) (ct st cl sl : ℝ) (p : P) :
    Spec.pos (kick a0 p0 incTw m ct st cl sl p) = Spec.pos p ∧ (kick a0 p0 incTw m ct st cl sl p).ct = p.ct := ⟨rfl, rfl⟩

/-- The slices one by one. -/
theorem applyWake_get (wtrans wlong : Nat → ℝ → ℝ) (a0 p0 dz : ℝ) (incTw : Bool) (slices : List (List P)) (i : Nat)
    (l : List P) (h : slices[i]? = some l) : ∀ (ms : List Nat) (cur : List (List P)) (l' : List P), cur[i]? = some l' →
    (ms.foldl (fun s m => applyMode wtrans wlong a0 p0 dz incTw m (slices.map (cm m)) (slices.map (sm m)) s) cur)[i]? =
      some (l'.map fun p => ms.foldl (fun p m =>
        kick a0 p0 incTw m (Spec.source (wtrans m) dz m 0 (slices.drop i)).re (Spec.source (wtrans m) dz m 0 (slices.drop i)).im
          (Spec.source (wlong m) dz m 0 (slices.drop i)).re (Spec.source (wlong m) dz m 0 (slices.drop i)).im p) p)
  | [], cur, l', hc => by simp [hc]
  | m :: ms, cur, l', hc => by
    rw [List.foldl_cons, applyWake_get wtrans wlong a0 p0 dz incTw slices i l h ms _
      (l'.map (kick a0 p0 incTw m (conv (wtrans m) dz (slices.map (cm m)) i) (conv (wtrans m) dz (slices.map (sm m)) i)
        (conv (wlong m) dz (slices.map (cm m)) i) (conv (wlong m) dz (slices.map (sm m)) i)))
      (by rw [applyMode, List.getElem?_mapIdx, hc]; rfl)]
    rw [List.map_map]
    simp only [conv_eq, List.foldl_cons, Function.comp_def]

/-- The modes of one particle one after the other, without longitudinal wake. -/
theorem modes_slope (a0 p0 : ℝ) (src : Nat → ℂ) : ∀ (ms : List Nat) (_ : ∀ m ∈ ms, 1 ≤ m) (p : P),
    Spec.slope (ms.foldl (fun p m => kick a0 p0 true m (src m).re (src m).im 0 0 p) p) =
      Spec.slope p + (a0 / p0 : ℝ) * (ms.map fun m => Spec.force m (Spec.pos p) (src m)).sum
  | [], _, p => by simp
  | m :: ms, h, p => by
    rw [List.foldl_cons, modes_slope a0 p0 src ms (fun k hk => h k (List.mem_cons_of_mem _ hk)),
      kick_force a0 p0 m (h m List.mem_cons_self), (kick_pos a0 p0 true m _ _ _ _ p).1, List.map_cons, List.sum_cons]
    ring

theorem source_zero (dz : ℝ) (m : Nat) : ∀ (ls : List (List P)) (k : Nat), Spec.source (fun _ => 0) dz m k ls = 0
  | [], k => rfl
  | l :: ls, k => by rw [Spec.source, source_zero dz m ls]; simp

/-- C141: the transverse wake.  Without longitudinal wakes, the slope of a particle changes by the forces of all modes, of
which the sources are the particles of its own slice and of the slices ahead, each with the wake at its distance. -/
theorem transverse_spec (wtrans : Nat → ℝ → ℝ) (a0 p0 dz : ℝ) (k : Nat) (slices : List (List P)) (i : Nat) (l : List P)
    (h : slices[i]? = some l) : ∃ f : P → P,
    (applyWake wtrans (fun _ _ => 0) a0 p0 dz true k slices)[i]? = some (l.map f) ∧ ∀ p,
      Spec.pos (f p) = Spec.pos p ∧ (f p).ct = p.ct ∧ Spec.slope (f p) = Spec.slope p + (a0 / p0 : ℝ) *
        ((List.range' 1 k).map fun m => Spec.force m (Spec.pos p) (Spec.source (wtrans m) dz m 0 (slices.drop i))).sum := by
  refine ⟨_, applyWake_get wtrans (fun _ _ => 0) a0 p0 dz true slices i l h (List.range' 1 k) slices l h, ?_⟩
  intro p
  simp only [source_zero, Complex.zero_re, Complex.zero_im]
  refine ⟨?_, ?_, modes_slope a0 p0 (fun m => Spec.source (wtrans m) dz m 0 (slices.drop i)) (List.range' 1 k) ?_ p⟩
  · generalize List.range' 1 k = ms
    induction ms generalizing p with
    | nil => rfl
    | cons m ms ih => rw [List.foldl_cons, ih]; rfl
  · generalize List.range' 1 k = ms
    induction ms generalizing p with
    | nil => rfl
    | cons m ms ih => rw [List.foldl_cons, ih]; rfl
  · intro m hm
    rw [List.mem_range'_1] at hm
    exact hm.1

/-- C142 (partial): the momentum.  It changes by the real part of the power of the place times the source; where the source
of a mode is real, so for particles in the horizontal plane, this is the loss that only depends on the angle to the
source. -/
theorem longitudinal_partial (wtrans wlong : Nat → ℝ → ℝ) (a0 p0 dz : ℝ) (incTw : Bool) (k : Nat) (slices : List (List P))
    (i : Nat) (l : List P) (h : slices[i]? = some l)
    (hre : ∀ m, 1 ≤ m → m ≤ k → (Spec.source (wlong m) dz m 0 (slices.drop i)).im = 0) : ∃ f : P → P,
    (applyWake wtrans wlong a0 p0 dz incTw k slices)[i]? = some (l.map f) ∧ ∀ p,
      (f p).dp = p.dp - a0 / p0 *
        ((List.range' 1 k).map fun m => Spec.loss m (Spec.pos p) (Spec.source (wlong m) dz m 0 (slices.drop i))).sum := by
  refine ⟨_, applyWake_get wtrans wlong a0 p0 dz incTw slices i l h (List.range' 1 k) slices l h, ?_⟩
  intro p
  have hm : ∀ m ∈ List.range' 1 k, (Spec.source (wlong m) dz m 0 (slices.drop i)).im = 0 := by
    intro m hm
    rw [List.mem_range'_1] at hm
    exact hre m hm.1 (by omega)
  revert hm
  generalize List.range' 1 k = ms
  intro hm
  induction ms generalizing p with
  | nil => simp
  | cons m ms ih =>
    rw [List.foldl_cons, ih _ (fun a ha => hm a (List.mem_cons_of_mem _ ha)), kick_dp, List.map_cons, List.sum_cons,
      (kick_pos a0 p0 incTw m _ _ _ _ p).1, Spec.loss, ← map_pow]
    have h0 := hm m List.mem_cons_self
    simp only [Complex.mul_re, Complex.conj_re, Complex.conj_im, h0]
    ring

/-! ## Turning the bunch -/

theorem pos_turn (u : ℂ) (p : P) : Spec.pos (Spec.turn u p) = u * Spec.pos p := rfl
theorem slope_turn (u : ℂ) (p : P) : Spec.slope (Spec.turn u p) = u * Spec.slope p := rfl

theorem moment_turn (u : ℂ) (m : Nat) (l : List P) : Spec.moment m (l.map (Spec.turn u)) = u ^ m * Spec.moment m l := by
  induction l with
  | nil => simp [Spec.moment]
  | cons p l ih =>
    simp only [Spec.moment, List.map_cons, List.sum_cons] at ih ⊢
    rw [ih, pos_turn, mul_pow]; ring

theorem source_turn (u : ℂ) (w : ℝ → ℝ) (dz : ℝ) (m : Nat) : ∀ (ls : List (List P)) (k : Nat),
    Spec.source w dz m k (ls.map (List.map (Spec.turn u))) = u ^ m * Spec.source w dz m k ls
  | [], k => by simp [Spec.source]
  | l :: ls, k => by
    rw [List.map_cons, Spec.source, Spec.source, moment_turn, source_turn u w dz m ls]; ring

theorem force_turn (u : ℂ) (hu : ‖u‖ = 1) (m : Nat) (hm : 1 ≤ m) (z s : ℂ) :
    Spec.force m (u * z) (u ^ m * s) = u * Spec.force m z s := by
  have h1 : (starRingEnd ℂ u) * u = 1 := by
    rw [mul_comm, Complex.mul_conj, Complex.normSq_eq_norm_sq, hu]; simp
  obtain ⟨n, rfl⟩ : ∃ n, m = n + 1 := ⟨m - 1, by omega⟩
  simp only [Spec.force, Nat.add_sub_cancel, map_mul, mul_pow, pow_succ]
  have h2 : (starRingEnd ℂ u) ^ n * u ^ n = 1 := by rw [← mul_pow, h1, one_pow]
  linear_combination ((n + 1 : Nat) : ℂ) * (starRingEnd ℂ z) ^ n * u * s * h2

/-- C141: the transverse kicks do not know of directions: those of a bunch turned about the axis are the turned ones. -/
theorem transverse_turn (u : ℂ) (hu : ‖u‖ = 1) (wtrans : Nat → ℝ → ℝ) (a0 p0 dz : ℝ) (k : Nat) (slices : List (List P))
    (i j : Nat) (p p1 p2 : P) (h : (slices[i]?.bind (·[j]?)) = some p)
    (h1 : (((applyWake wtrans (fun _ _ => 0) a0 p0 dz true k slices)[i]?).bind (·[j]?)) = some p1)
    (h2 : (((applyWake wtrans (fun _ _ => 0) a0 p0 dz true k (slices.map (List.map (Spec.turn u))))[i]?).bind (·[j]?))
      = some p2) : Spec.slope p2 = u * Spec.slope p1 := by
  obtain ⟨l, hl, hlj⟩ := Option.bind_eq_some_iff.1 h
  obtain ⟨f, hf, hf'⟩ := transverse_spec wtrans a0 p0 dz k slices i l hl
  obtain ⟨g, hg, hg'⟩ := transverse_spec wtrans a0 p0 dz k (slices.map (List.map (Spec.turn u))) i (l.map (Spec.turn u))
    (by rw [List.getElem?_map, hl]; rfl)
  rw [hf] at h1
  rw [hg] at h2
  simp only [Option.bind_some, List.getElem?_map, hlj, Option.map_some, Option.some.injEq] at h1 h2
  rw [← h1, ← h2, (hf' p).2.2, (hg' (Spec.turn u p)).2.2, pos_turn, slope_turn, ← List.map_drop]
  have : ((List.range' 1 k).map fun m => Spec.force m (u * Spec.pos p)
      (Spec.source (wtrans m) dz m 0 ((slices.drop i).map (List.map (Spec.turn u))))) =
      (List.range' 1 k).map fun m => u * Spec.force m (Spec.pos p) (Spec.source (wtrans m) dz m 0 (slices.drop i)) := by
    apply List.map_congr_left
    intro m hm
    rw [List.mem_range'_1] at hm
    rw [source_turn, force_turn u hu m hm.1]
  rw [this, List.sum_map_mul_left]
  ring

/-- What the longitudinal wake ought to have: the loss does not know of directions. -/
theorem loss_turn (u : ℂ) (hu : ‖u‖ = 1) (m : Nat) (z s : ℂ) : Spec.loss m (u * z) (u ^ m * s) = Spec.loss m z s := by
  have h1 : (starRingEnd ℂ u) * u = 1 := by
    rw [mul_comm, Complex.mul_conj, Complex.normSq_eq_norm_sq, hu]; simp
  have h2 : (starRingEnd ℂ u) ^ m * u ^ m = 1 := by rw [← mul_pow, h1, one_pow]
  rw [Spec.loss, Spec.loss, map_mul, mul_pow]
  congr 1
  linear_combination (starRingEnd ℂ z) ^ m * s * h2

/-- C142 (violated): a bunch of one particle, one mode, wakes of one.  To the right of the axis the particle loses momentum
to its own wake, above the axis it gains the same amount. -/
theorem longitudinal_violated :
    applyWake (fun _ _ => 0) (fun _ _ => 1) 1 1 1 true 1 [[⟨1, 0, 0, 0, 0, 0⟩]] =
      [[{ (⟨1, 0, 0, 0, 0, 0⟩ : P) with dp := -1 }]] ∧
    applyWake (fun _ _ => 0) (fun _ _ => 1) 1 1 1 true 1 [[⟨0, 0, 1, 0, 0, 0⟩]] =
      [[{ (⟨0, 0, 1, 0, 0, 0⟩ : P) with dp := 1 }]] := by
  have h1 : (Complex.mk 1 0) = 1 := rfl
  have h2 : (Complex.mk 0 1) = Complex.I := rfl
  constructor
  · simp [applyWake, applyMode, kick, conv, cm, sm, radius, angle, powd_eq, h1, Complex.arg_one]
  · simp [applyWake, applyMode, kick, conv, cm, sm, radius, angle, powd_eq, h2, Complex.arg_I]

/-! ## Cases which meet the hypotheses -/

/-- Two slices for `transverse_spec` and `transverse_turn`. -/
example : ([[⟨1, 0, 2, 0, 0, 0⟩], [⟨3, 0, 1, 0, 1, 0⟩, ⟨1, 0, 1, 0, 1, 0⟩]] : List (List P))[0]? =
    some [⟨1, 0, 2, 0, 0, 0⟩] ∧ ‖Complex.I‖ = 1 := ⟨rfl, by simp⟩

/-- The source of the dipole mode of two slices for `longitudinal_partial`: both particles in the horizontal plane. -/
example : Spec.source (fun _ => 1) 1 1 0 [[⟨1, 0, 0, 0, 0, 0⟩], [⟨3, 0, 0, 0, 1, 0⟩]] = 4 := by
  simp only [Spec.source, Spec.moment, Spec.pos, List.map_cons, List.map_nil, List.sum_cons, List.sum_nil]
  apply Complex.ext <;> norm_num

/-- A particle above the axis of which the dipole wake pulls away from the axis: `kick_force` for a source above. -/
example : Spec.force 1 ⟨0, 1⟩ ⟨0, 1⟩ = Complex.I ∧ Spec.force 2 ⟨0, 1⟩ ⟨-1, 0⟩ = 2 * Complex.I := by
  constructor <;> apply Complex.ext <;> simp [Spec.force]

end Verif.ModeWake
