import Mathlib.Tactic.FieldSimp
import Mathlib.Tactic.Ring
import Mathlib.Tactic.Linarith
import Mathlib.Tactic.Positivity
import Verif.Bunch.Model
import Verif.Bunch.Spec
import Verif.Bunch.Mpi

/-!
# Lemmas on bunches
-/

namespace Verif.Bunch
open Verif Verif.Bunch.Spec

set_option linter.unusedSectionVars false

variable {K : Type} [Field K] [LinearOrder K] [IsStrictOrderedRing K]

/-- The running average of values `f`. -/
theorem running {α : Type} (f : α → K) (l : List α) : ∀ (w s : K), 0 ≤ w →
    let r := l.foldl (fun (t : K × K) a => (t.1 + 1, t.2 + (f a - t.2) / (t.1 + 1))) (w, s)
    r.1 = w + l.length ∧ r.1 * r.2 = w * s + (l.map f).sum := by
  induction l with
  | nil => intro w s _; simp
  | cons a l ih =>
    intro w s hw
    have h := ih (w + 1) (s + (f a - s) / (w + 1)) (by linarith)
    simp only [List.foldl_cons, List.map_cons, List.sum_cons, List.length_cons] at h ⊢
    have hw' : w + 1 ≠ 0 := by positivity
    refine ⟨by rw [h.1]; push_cast; ring, ?_⟩
    rw [h.2]
    field_simp
    ring

theorem running_mean {α : Type} (f : α → K) (l : List α) :
    (l.foldl (fun (t : K × K) a => (t.1 + 1, t.2 + (f a - t.2) / (t.1 + 1))) (0, 0)).2 = mean (l.map f) := by
  cases l with
  | nil => simp [mean]
  | cons a l =>
    have h := running f (a :: l) 0 0 le_rfl
    simp only at h
    have hn : (((a :: l).length : Nat) : K) ≠ 0 := by simp only [List.length_cons]; positivity
    unfold mean
    rw [List.length_map, eq_div_iff hn]
    rw [h.1] at h
    linarith [h.2]

/-- The coordinates are averaged independently of each other. -/
theorem apsv1_proj (i : Coord) (l : List (Particle K)) : ∀ s : K × (Coord → K),
    ((l.foldl apsv1 s).1, (l.foldl apsv1 s).2 i) =
      l.foldl (fun (t : K × K) p => (t.1 + 1, t.2 + (p.v i - t.2) / (t.1 + 1))) (s.1, s.2 i) := by
  induction l with
  | nil => intro s; rfl
  | cons p l ih => intro s; exact ih (apsv1 s p)

theorem getCentroid_eq (l : List (Particle K)) (i : Coord) : getCentroid l i = mean (l.map fun p => p.v i) := by
  have h := congrArg Prod.snd (apsv1_proj i l (0, fun _ => 0))
  exact h.trans (running_mean (fun p : Particle K => p.v i) l)

theorem meanOf_eq (l : List (Particle K)) (i : Coord) : meanOf l i = mean (l.map fun p => p.v i) :=
  running_mean (fun p : Particle K => p.v i) l

theorem psvvar1_proj (m : Coord → K) (i j : Coord) (hij : j ≤ i) (l : List (Particle K)) :
    ∀ s : K × (Coord → Coord → K),
    ((l.foldl (psvvar1 m) s).1, (l.foldl (psvvar1 m) s).2 i j) =
      l.foldl (fun (t : K × K) p => (t.1 + 1, t.2 + ((p.v i - m i) * (p.v j - m j) - t.2) / (t.1 + 1)))
        (s.1, s.2 i j) := by
  induction l with
  | nil => intro s; rfl
  | cons p l ih =>
    intro s
    have h := ih (psvvar1 m s p)
    simp only [List.foldl_cons]
    rw [h]
    simp only [psvvar1, max_eq_left hij, min_eq_right hij]

theorem psvvar1_symm (m : Coord → K) (l : List (Particle K)) (i j : Coord) : ∀ s : K × (Coord → Coord → K),
    s.2 i j = s.2 j i → (l.foldl (psvvar1 m) s).2 i j = (l.foldl (psvvar1 m) s).2 j i := by
  induction l with
  | nil => intro s h; exact h
  | cons p l ih =>
    intro s _
    refine ih (psvvar1 m s p) ?_
    simp only [psvvar1, max_comm, min_comm]

theorem cov_symm {I : Type} (l : List (I → K)) (i j : I) : cov l i j = cov l j i := by
  unfold cov
  simp only [mul_comm]

theorem getMoments_cov_eq (l : List (Particle K)) (i j : Coord) :
    (getMoments l).2 i j = cov (l.map Particle.v) i j := by
  have key : ∀ i j : Coord, j ≤ i → (getMoments l).2 i j = cov (l.map Particle.v) i j := by
    intro i j hij
    have hm : ∀ k, (l.foldl apsv1 (0, fun _ => 0)).2 k = mean (l.map fun p => p.v k) := getCentroid_eq l
    have h := congrArg Prod.snd (psvvar1_proj (l.foldl apsv1 (0, fun _ => 0)).2 i j hij l (0, fun _ _ => 0))
    simp only at h
    unfold getMoments
    simp only
    rw [h]
    rw [running_mean (fun p : Particle K => (p.v i - (l.foldl apsv1 (0, fun _ => 0)).2 i) *
      (p.v j - (l.foldl apsv1 (0, fun _ => 0)).2 j)) l]
    simp only [cov, List.map_map, Function.comp_def, hm]
  rcases le_total j i with h | h
  · exact key i j h
  · rw [cov_symm, ← key j i h]
    exact psvvar1_symm _ l i j _ rfl

theorem sum_map_const_mul {α : Type} (w : K) (f : α → K) (l : List α) :
    (l.map fun a => w * f a).sum = w * (l.map f).sum := by
  induction l with
  | nil => simp
  | cons a l ih => simp [ih, mul_add]

theorem projCentroid_loop (w : K) (u v : Coord) (l : List (Particle K)) : ∀ s : K × K,
    l.foldl (fun s p => (s.1 + w * p.v u, s.2 + w * p.v v)) s =
      (s.1 + w * (l.map fun p => p.v u).sum, s.2 + w * (l.map fun p => p.v v).sum) := by
  induction l with
  | nil => intro s; simp
  | cons p l ih => intro s; simp only [List.foldl_cons, ih, List.map_cons, List.sum_cons]; congr 1 <;> ring

theorem projCentroid_eq (l : List (Particle K)) (u v : Coord) :
    projCentroid l u v = (mean (l.map fun p => p.v u), mean (l.map fun p => p.v v)) := by
  unfold projCentroid
  simp only
  rw [projCentroid_loop]
  simp only [mean, List.length_map]
  congr 1 <;> ring

theorem psvvar2_loop (w : K) (u v : Coord) (l : List (Particle K)) : ∀ s : Moments2D K,
    l.foldl (psvvar2 w u v) s =
      ⟨s.m0, s.m1, s.s00 + w * (l.map fun p => (p.v u - s.m0) * (p.v u - s.m0)).sum,
        s.s01 + w * (l.map fun p => (p.v u - s.m0) * (p.v v - s.m1)).sum,
        s.s11 + w * (l.map fun p => (p.v v - s.m1) * (p.v v - s.m1)).sum⟩ := by
  induction l with
  | nil => intro s; simp
  | cons p l ih =>
    intro s
    simp only [List.foldl_cons, ih, List.map_cons, List.sum_cons, psvvar2]
    congr 1 <;> ring

/-- Exact result of `GetProjectedMoments`. -/
theorem getProjectedMoments_eq (l : List (Particle K)) (u v : Coord) (s : Moments2D K) :
    getProjectedMoments l u v s =
      ⟨mean (l.map fun p => p.v u), mean (l.map fun p => p.v v), s.s00 + cov (l.map Particle.v) u u,
        s.s01 + cov (l.map Particle.v) u v, s.s11 + cov (l.map Particle.v) v v⟩ := by
  unfold getProjectedMoments
  simp only
  rw [psvvar2_loop, projCentroid_eq]
  simp only [cov, mean, List.length_map, List.map_map, Function.comp_def]
  congr 1 <;> congr 1 <;> ring

end Verif.Bunch
