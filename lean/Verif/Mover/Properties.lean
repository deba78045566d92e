import Mathlib.Analysis.SpecialFunctions.Complex.Arg
import Mathlib.Tactic.LinearCombination
import Verif.Mover.Spec
import Verif.Transform.Properties

/-! # Properties of magnet movers (C364-C366) -/

namespace Verif.Mover

open Verif.Transform Verif.Rotation Spec

theorem last_snoc (f : Op → Option ℝ) (l : List Op) (o : Op) : last f (l ++ [o]) = (f o).getD (last f l) := by
  unfold last
  rw [List.reverse_append, List.reverse_singleton, List.singleton_append, List.findSome?_cons]
  cases f o <;> rfl

/-- The state after any operations. -/
theorem run_state (l : List Op) : (Mag.new.run l).t = ⟨⟨Real.cos (last toRoll l), Real.sin (last toRoll l)⟩, ⟨last toX l, last toY l⟩⟩ := by
  induction l using List.reverseRecOn with
  | nil => rfl
  | append_singleton l o ih =>
    have e : Mag.new.run (l ++ [o]) = (Mag.new.run l).step o := by
      unfold Mag.run
      rw [List.foldl_append]
      rfl
    rw [e, last_snoc, last_snoc, last_snoc]
    cases o with
    | x v => simp only [Mag.step, Mag.setX, ih, toX, toY, toRoll, Option.getD]
    | y v => simp only [Mag.step, Mag.setY, ih, toX, toY, toRoll, Option.getD]
    | roll v => simp only [Mag.step, Mag.setRoll, ih, toX, toY, toRoll, Option.getD]
    | reset => simp only [Mag.step, Mag.reset, T2.make, R2.ofAngle, toX, toY, toRoll, Option.getD]
    | apply b =>
      have : ((Mag.new.run l).step (.apply b)).t = (Mag.new.run l).t := by
        simp only [Mag.step, Mag.apply]
        split <;> rfl
      rw [this, ih]
      rfl

theorem arg_angle (phi : ℝ) : Complex.arg ⟨Real.cos phi, Real.sin phi⟩ = toIocMod Real.two_pi_pos (-Real.pi) phi := by
  rw [← Complex.arg_cos_add_sin_mul_I_eq_toIocMod]
  congr 1
  apply Complex.ext
  · simp [Complex.cos_ofReal_re, Complex.sin_ofReal_im]
  · simp [Complex.sin_ofReal_re, Complex.cos_ofReal_im]

/-- **C364.** After any operations the displacements read back are those last set (or zero), and the roll is the one last set up to whole turns, in (-π, π]. -/
theorem read_back (l : List Op) : (Mag.new.run l).getX = last toX l ∧ (Mag.new.run l).getY = last toY l ∧
    (∃ n : ℤ, (Mag.new.run l).getRoll = last toRoll l + n * (2 * Real.pi)) ∧ (Mag.new.run l).getRoll ∈ Set.Ioc (-Real.pi) Real.pi := by
  unfold Mag.getX Mag.getY Mag.getRoll
  rw [run_state]
  refine ⟨rfl, rfl, ?_, Complex.arg_mem_Ioc _⟩
  refine ⟨-toIocDiv Real.two_pi_pos (-Real.pi) (last toRoll l), ?_⟩
  simp only [arg_angle, toIocMod, zsmul_eq_mul]
  push_cast
  ring

/-- **C364.** A roll in (-π, π] is read back as it was set. -/
theorem roll_exact (m : Mag) (phi : ℝ) (h : phi ∈ Set.Ioc (-Real.pi) Real.pi) : (m.setRoll phi).getRoll = phi := by
  unfold Mag.getRoll Mag.setRoll
  rw [arg_angle, toIocMod_eq_self]
  have : -Real.pi + 2 * Real.pi = Real.pi := by ring
  rw [this]
  exact h

/-- Case: x = 2 and roll = 1, then y, then the x displacement anew. -/
example : (Mag.new.run [.x 2, .roll 1, .y 3, .x 5]).getX = 5 ∧ (Mag.new.run [.x 2, .reset, .y 3]).getX = 0 ∧ (1 : ℝ) ∈ Set.Ioc (-Real.pi) Real.pi := by
  refine ⟨by rw [(read_back _).1]; rfl, by rw [(read_back _).1]; rfl, ?_, ?_⟩ <;> linarith [Real.two_le_pi]

/-! ## C365: what the mover does -/

theorem t_ok (l : List Op) : (Mag.new.run l).t.r.Ok := by
  rw [run_state]
  show Real.cos _ * Real.cos _ + Real.sin _ * Real.sin _ = 1
  have := Real.cos_sq_add_sin_sq (last toRoll l)
  linear_combination this

theorem frame_snoc (l : List Op) (o : Op) : (Mag.new.run (l ++ [o])) = (Mag.new.run l).step o := by
  unfold Mag.run
  rw [List.foldl_append]
  rfl

theorem through_snoc (p : V3 ℝ) (l : List Op) (o : Op) : through p (l ++ [o]) = through (through p l) [o] := by
  induction l generalizing p with
  | nil => rfl
  | cons a l ih =>
    cases a <;> simp only [List.cons_append, through, ih]

/-- Only transformations that can be made. -/
def Allowed (l : List Op) : Prop := ∀ b, Op.apply b ∈ l → Reachable Real.cos Real.sin b

theorem frame_point (l : List Op) (h : Allowed l) : Reachable Real.cos Real.sin (Mag.new.run l).frame ∧ ∀ p, (Mag.new.run l).frame.point p = through p l := by
  induction l using List.reverseRecOn with
  | nil =>
    refine ⟨Reachable.ident, fun p => ?_⟩
    simp [Mag.run, Mag.new, Mag.frame, T3.ident, T3.point, Rep.rotate, vsub, through]
  | append_singleton l o ih =>
    obtain ⟨h1, h2⟩ := ih fun b hb => h b (List.mem_append_left _ hb)
    rw [frame_snoc]
    cases o with
    | x v => exact ⟨h1, fun p => by rw [through_snoc, ← h2 p]; rfl⟩
    | y v => exact ⟨h1, fun p => by rw [through_snoc, ← h2 p]; rfl⟩
    | roll v => exact ⟨h1, fun p => by rw [through_snoc, ← h2 p]; rfl⟩
    | reset => exact ⟨h1, fun p => by rw [through_snoc, ← h2 p]; rfl⟩
    | apply b =>
      have hb := h b (List.mem_append_right _ (List.mem_singleton.mpr rfl))
      have key : ∀ m : Mag, Reachable Real.cos Real.sin m.frame → Reachable Real.cos Real.sin (m.apply b).frame ∧ ∀ p, (m.apply b).frame.point p = b.point (m.frame.point p) := by
        intro m hm
        unfold Mag.apply
        cases hm' : m.base with
        | none =>
          simp only [Mag.frame, hm']
          refine ⟨hb, fun p => ?_⟩
          simp [T3.ident, T3.point, Rep.rotate, vsub]
        | some a =>
          simp only [Mag.frame, hm'] at hm ⊢
          exact ⟨.mulEq hm hb, fun p => (transform_compose real_trig hm hb p).2.2.1⟩
      obtain ⟨k1, k2⟩ := key _ h1
      exact ⟨k1, fun p => by rw [through_snoc, ← h2 p]; exact k2 p⟩

/-- **C365.** Seen from the moved frame, every point has the coordinates that it has in the frame as transformed, in axes displaced by the x and y that can be read and then rolled;
the order in which they were set does not matter. -/
theorem moved_point (l : List Op) (h : Allowed l) (p : V3 ℝ) :
    (Mag.new.run l).transform.point p = seen (last toX l) (last toY l) (last toRoll l) (through p l) := by
  obtain ⟨h1, h2⟩ := frame_point l h
  unfold Mag.transform
  rw [(transform_compose real_trig (.ofT2 _ (t_ok l)) h1 p).1, h2]
  have := lift_characterised (Mag.new.run l).t (t_ok l) (through p l).x (through p l).y (through p l).z
  rw [show (⟨(through p l).x, (through p l).y, (through p l).z⟩ : V3 ℝ) = through p l from rfl] at this
  rw [this, run_state]
  simp only [R2.inv, R2.rotate, seen, V3.mk.injEq, and_true]
  ring

/-- **C365.** The origin of the moved frame is at (x, y, 0) in the frame as transformed, whatever the roll. -/
theorem moved_origin (l : List Op) (h : Allowed l) (p : V3 ℝ) : (Mag.new.run l).transform.point p = ⟨0, 0, 0⟩ ↔ through p l = ⟨last toX l, last toY l, 0⟩ := by
  rw [moved_point l h]
  unfold seen
  generalize through p l = q
  obtain ⟨q1, q2, q3⟩ := q
  simp only [V3.mk.injEq]
  have hc := Real.cos_sq_add_sin_sq (last toRoll l)
  constructor
  · rintro ⟨e1, e2, e3⟩
    refine ⟨?_, ?_, e3⟩
    · linear_combination Real.cos (last toRoll l) * e1 - Real.sin (last toRoll l) * e2 - (q1 - last toX l) * hc
    · linear_combination Real.sin (last toRoll l) * e1 + Real.cos (last toRoll l) * e2 - (q2 - last toY l) * hc
  · rintro ⟨e1, e2, e3⟩
    rw [e1, e2]
    simp [e3]

/-- Case: x = 2 on a frame displaced by 1 along x; the point (3, 0, 0) is the new origin. -/
example : (Mag.new.run [.x 2, .apply (T3.translation 1 0 0)]).transform.point ⟨3, 0, 0⟩ = ⟨0, 0, 0⟩ := by
  rw [moved_origin _ (by
    intro b hb
    simp only [List.mem_cons, Op.apply.injEq, List.not_mem_nil, or_false, reduceCtorEq, false_or] at hb
    rw [hb]
    exact .translation _ _ _)]
  simp only [through, T3.translation, T3.point, Rep.rotate, vsub, V3.mk.injEq]
  refine ⟨?_, ?_, ?_⟩ <;> norm_num [last, toX, toY, List.findSome?]

/-! ## C366: asking the frame -/

/-- **C366, violated.** A frame whose mover has been moved says that it is not transformed. -/
theorem transformed_violated (eps v : ℝ) (hv : v ≠ 0) : (Mag.new.setX v).isTransformed eps = false ∧ (Mag.new.setX v).transform.point ⟨0, 0, 0⟩ ≠ ⟨0, 0, 0⟩ := by
  refine ⟨rfl, ?_⟩
  have := moved_origin [.x v] (by intro b hb; simp at hb) ⟨0, 0, 0⟩
  intro e
  have h2 := this.mp e
  simp only [through, last, toX, List.reverse_singleton, List.findSome?_cons, Option.getD_some, V3.mk.injEq] at h2
  exact hv h2.1.symm

/-- **C366, characterised.** The transformation given to the frame is the one it returns exactly if the mover is at zero (up to whole turns). -/
theorem set_get (l : List Op) (b : T3 ℝ) (hb : Reachable Real.cos Real.sin b) :
    (∀ p, ((Mag.new.run l).setFrame b).transform.point p = b.point p) ↔ last toX l = 0 ∧ last toY l = 0 ∧ Real.cos (last toRoll l) = 1 := by
  have key : ∀ p, ((Mag.new.run l).setFrame b).transform.point p = seen (last toX l) (last toY l) (last toRoll l) (b.point p) := by
    intro p
    show ((T3.ofT2 (Mag.new.run l).t).mul b).point p = _
    rw [(transform_compose real_trig (.ofT2 _ (t_ok l)) hb p).1]
    have := lift_characterised (Mag.new.run l).t (t_ok l) (b.point p).x (b.point p).y (b.point p).z
    rw [show (⟨(b.point p).x, (b.point p).y, (b.point p).z⟩ : V3 ℝ) = b.point p from rfl] at this
    rw [this, run_state]
    simp only [R2.inv, R2.rotate, seen, V3.mk.injEq, and_true]
    ring
  have hc := Real.cos_sq_add_sin_sq (last toRoll l)
  constructor
  · intro h
    have hq : ∀ q, seen (last toX l) (last toY l) (last toRoll l) q = q := by
      intro q
      have := h (b.inv.point q)
      rwa [key, (transform_inverse real_trig hb q).2.1] at this
    have h0 := hq ⟨0, 0, 0⟩
    have h1 := hq ⟨1, 0, 0⟩
    simp only [seen, V3.mk.injEq] at h0 h1
    obtain ⟨a1, a2, -⟩ := h0
    obtain ⟨b1, b2, -⟩ := h1
    refine ⟨?_, ?_, by linear_combination b1 - a1⟩
    · linear_combination -Real.cos (last toRoll l) * a1 + Real.sin (last toRoll l) * a2 - last toX l * hc
    · linear_combination -Real.sin (last toRoll l) * a1 - Real.cos (last toRoll l) * a2 - last toY l * hc
  · rintro ⟨h1, h2, h3⟩ p
    rw [key, h1, h2]
    have hs : Real.sin (last toRoll l) = 0 := by
      rw [h3] at hc
      have : Real.sin (last toRoll l) ^ 2 = 0 := by linarith
      exact pow_eq_zero_iff (two_ne_zero) |>.mp this
    simp [seen, h3, hs]

/-- **C366, violated.** What is set is not what is got. -/
theorem set_get_violated : ∃ (l : List Op) (b : T3 ℝ), Reachable Real.cos Real.sin b ∧ ¬ ∀ p, ((Mag.new.run l).setFrame b).transform.point p = b.point p := by
  refine ⟨[.x 1], T3.ident, .ident, fun h => ?_⟩
  have := ((set_get [.x 1] T3.ident .ident).mp h).1
  simp [last, toX] at this

end Verif.Mover
