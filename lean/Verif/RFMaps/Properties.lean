import Verif.RFMaps.Spec
import Mathlib.Tactic.Ring
import Mathlib.Tactic.NormNum
import Mathlib.Tactic.FieldSimp
import Mathlib.Tactic.LinearCombination
import Mathlib.Algebra.Field.Rat
import Mathlib.Algebra.Order.Ring.Rat
import Mathlib.Algebra.CharZero.Defs
import Mathlib.Data.Nat.Cast.Basic

/-!
# Properties of the integrators of radio-frequency structures (C148, C149)
-/

set_option linter.unusedSectionVars false

namespace Verif.RFMaps

variable {K : Type} [Field K] [DecidableEq K]

/-! ## Acceleration -/

/-- C148: a particle gets the energy of the field at its time, relative to the new reference, and keeps its transverse
momenta. -/
theorem lcav_momentum (cs : K → K) (g ds k phi p0 : K) (x : Part K) (h1 : lcavE1 cs g ds phi p0 ≠ 0)
    (h2 : Spec.momentum p0 x + g * ds * cs (phi - k * x.ct) ≠ 0) :
    Spec.momentum (lcavE1 cs g ds phi p0) (lcavMap cs g ds k phi p0 x) =
      Spec.momentum p0 x + g * ds * cs (phi - k * x.ct) ∧
    Spec.across (lcavE1 cs g ds phi p0) (lcavMap cs g ds k phi p0 x) = Spec.across p0 x ∧
    (lcavMap cs g ds k phi p0 x).ct = x.ct := by
  have hm : Spec.momentum (lcavE1 cs g ds phi p0) (lcavMap cs g ds k phi p0 x) =
      Spec.momentum p0 x + g * ds * cs (phi - k * x.ct) := by
    simp only [Spec.momentum, lcavMap]
    field_simp
    ring
  refine ⟨hm, ?_, rfl⟩
  simp only [Spec.across, hm]
  simp only [Spec.momentum] at h2 ⊢
  simp only [lcavMap, Prod.mk.injEq]
  constructor <;> · field_simp

/-- C148: the same for a whole bunch: the reference gets the energy at the phase of the structure. -/
theorem lcav_step (cs : K → K) (f : RF K) (ds p0 : K) (l : List (Part K)) (hs : ds ≠ 0) (hg : f.g ≠ 0)
    (h1 : p0 + f.g * ds * cs f.phi ≠ 0) :
    let r := lcavStep cs f true ds (p0, l)
    r.1 = p0 + f.g * ds * cs f.phi ∧ r.2.map (Spec.momentum r.1) =
      l.map fun x => Spec.momentum p0 x + f.g * ds * cs (f.phi - f.k * x.ct) := by
  simp only [lcavStep, if_neg hs, if_neg hg, if_true, List.map_map]
  refine ⟨rfl, ?_⟩
  apply List.map_congr_left
  intro x _
  simp only [Function.comp, Spec.momentum, lcavMap, lcavE1]
  field_simp
  ring

/-- C148: the area of phase space times the momentum is kept (adiabatic damping). -/
theorem lcav_area (cs : K → K) (g ds k phi p0 : K) (v w : Part K) (hc : v.ct = w.ct) (hd : v.dp = w.dp)
    (h2 : Spec.momentum p0 v + g * ds * cs (phi - k * v.ct) ≠ 0) :
    let q := (Spec.momentum p0 v + g * ds * cs (phi - k * v.ct))
    let a := Spec.area (lcavMap cs g ds k phi p0 v) (lcavMap cs g ds k phi p0 w)
    q * a.1 = Spec.momentum p0 v * (Spec.area v w).1 ∧ q * a.2 = Spec.momentum p0 v * (Spec.area v w).2 := by
  simp only [Spec.momentum] at h2 ⊢
  simp only [Spec.area, lcavMap, ← hc, ← hd]
  constructor
  · generalize ds * (1 - 1 / 2 * (g * ds * cs (phi - k * v.ct)) / (p0 * (1 + v.dp))) = r
    field_simp
    ring
  · generalize ds * (1 - 1 / 2 * (g * ds * cs (phi - k * v.ct)) / (p0 * (1 + v.dp))) = r
    field_simp
    ring

/-- C148 (partial): the reference momentum, the momenta and the slopes after a structure do not depend on the number of
steps.  The places do, as `r12` is an expansion (`lcav_split_violated`). -/
theorem lcav_split_partial (cs : K → K) (f : RF K) (d1 d2 : K) (p0 : K) (l : List (Part K))
    (hd1 : d1 ≠ 0) (hd2 : d2 ≠ 0) (hd : d1 + d2 ≠ 0) (hg : f.g ≠ 0)
    (h1 : p0 + f.g * d1 * cs f.phi ≠ 0)
    (hl : ∀ x ∈ l, Spec.momentum p0 x + f.g * d1 * cs (f.phi - f.k * x.ct) ≠ 0) :
    let a := lcavStep cs f true (d1 + d2) (p0, l)
    let b := lcavStep cs f true d2 (lcavStep cs f true d1 (p0, l))
    a.1 = b.1 ∧ a.2.map (fun v => (v.xp, v.yp, v.ct, v.dp)) = b.2.map (fun v => (v.xp, v.yp, v.ct, v.dp)) := by
  have e1 : p0 + f.g * (d1 + d2) * cs f.phi = p0 + f.g * d1 * cs f.phi + f.g * d2 * cs f.phi := by ring
  simp only [lcavStep, if_neg hd1, if_neg hd2, if_neg hd, if_neg hg, if_true, lcavE1]
  refine ⟨e1, ?_⟩
  rw [List.map_map, List.map_map, List.map_map]
  apply List.map_congr_left
  intro x hx
  have h2 := hl x hx
  simp only [Spec.momentum] at h2
  have e2 : p0 * (1 + x.dp) + f.g * (d1 + d2) * cs (f.phi - f.k * x.ct) =
      p0 * (1 + x.dp) + f.g * d1 * cs (f.phi - f.k * x.ct) + f.g * d2 * cs (f.phi - f.k * x.ct) := by ring
  have e3 : (p0 + f.g * d1 * cs f.phi) * (1 + ((p0 * (1 + x.dp) + f.g * d1 * cs (f.phi - f.k * x.ct)) /
      (p0 + f.g * d1 * cs f.phi) - 1)) = p0 * (1 + x.dp) + f.g * d1 * cs (f.phi - f.k * x.ct) := by
    field_simp; ring
  simp only [Function.comp, lcavMap, lcavE1, e1, e2, e3, Prod.mk.injEq, and_true]
  generalize p0 * (1 + x.dp) + f.g * d1 * cs (f.phi - f.k * x.ct) = m at *
  constructor <;> · field_simp

/-- C148 (violated): the place behind a structure which doubles the momentum, in one step and in two. -/
theorem lcav_split_violated : let f : RF ℚ := ⟨1, 0, 0⟩
    let b : ℚ × List (Part ℚ) := (1, [⟨0, 1, 0, 0, 0, 0⟩])
    ((lcavStep (fun _ => 1) f true 1 b).2.map (·.x)) = [1 / 2] ∧
    ((lcavStep (fun _ => 1) f true (1 / 2) (lcavStep (fun _ => 1) f true (1 / 2) b)).2.map (·.x)) = [47 / 72] := by
  decide +kernel

/-- Without acceleration of the reference (standing phase), a particle gets the same energy. -/
theorem rf_momentum (cs : K → K) (f : RF K) (ds p0 : K) (hp : p0 ≠ 0) (x : Part K) :
    Spec.momentum p0 (rfMap cs (f.g * ds / p0) f.k f.phi ds x) =
      Spec.momentum p0 x + f.g * ds * cs (f.phi - f.k * x.ct) := by
  simp only [Spec.momentum, rfMap]
  field_simp
  ring

/-- C148: the same for a whole bunch whose reference is not accelerated: it keeps its reference. -/
theorem rf_step (cs : K → K) (f : RF K) (ds p0 : K) (l : List (Part K)) (hs : ds ≠ 0) (hg : f.g ≠ 0) (hp : p0 ≠ 0) :
    let r := lcavStep cs f false ds (p0, l)
    r.1 = p0 ∧ r.2.map (Spec.momentum p0) = (l.map fun x => Spec.momentum p0 x + f.g * ds * cs (f.phi - f.k * x.ct)) ∧
    r.2.map (fun v => (v.x, v.y, v.ct)) = l.map fun v => (v.x + ds * v.xp, v.y + ds * v.yp, v.ct) := by
  simp only [lcavStep, if_neg hs, if_neg hg, Bool.false_eq_true, if_false, List.map_map]
  refine ⟨trivial, ?_, rfl⟩
  apply List.map_congr_left
  intro x _
  exact rf_momentum cs f ds p0 hp x

/-- C148 (violated): without acceleration of the reference the transverse momenta of a particle grow with its energy. -/
theorem rf_violated (cs : K → K) (f : RF K) (ds p0 : K) (hp : p0 ≠ 0) (x : Part K) (hx : x.xp ≠ 0)
    (hg : f.g * ds * cs (f.phi - f.k * x.ct) ≠ 0) :
    (Spec.across p0 (rfMap cs (f.g * ds / p0) f.k f.phi ds x)).1 ≠ (Spec.across p0 x).1 := by
  intro h
  simp only [Spec.across, rf_momentum cs f ds p0 hp x] at h
  have hxp : (rfMap cs (f.g * ds / p0) f.k f.phi ds x).xp = x.xp := rfl
  rw [hxp] at h
  have : f.g * ds * cs (f.phi - f.k * x.ct) * x.xp = 0 := by linear_combination h
  rcases mul_eq_zero.1 this with h' | h'
  · exact hg h'
  · exact hx h'

/-- C148: the end fields focus by half of the field over the momentum, and those of entrance and exit cancel for a particle
which has neither moved nor changed its momentum. -/
theorem ends_cancel (cs : K → K) (f : RF K) (p0 : K) (l : List (Part K)) :
    applyEnd cs f (-1) p0 (applyEnd cs f 1 p0 l) = l := by
  by_cases hg : f.g = 0
  · simp [applyEnd, hg]
  · simp only [applyEnd, if_pos hg, List.map_map]
    rw [List.map_congr_left (g := id), List.map_id]
    intro x _
    obtain ⟨a, b, c, d, e, h⟩ := x
    simp only [Function.comp, endMap, id, Part.mk.injEq, true_and, and_true]
    constructor <;> ring

/-- The end field changes the transverse momenta by minus half of the field times the offset, for every momentum. -/
theorem ends_momentum (cs : K → K) (g k phi p0 : K) (x : Part K) (hp : p0 ≠ 0) (hd : 1 + x.dp ≠ 0) :
    (Spec.across p0 (endMap cs g k phi p0 x)) =
      ((Spec.across p0 x).1 - g * cs (phi - k * x.ct) / 2 * x.x, (Spec.across p0 x).2 - g * cs (phi - k * x.ct) / 2 * x.y) := by
  simp only [Spec.across, Spec.momentum, endMap, Prod.mk.injEq]
  constructor <;> · field_simp; ring

/-- Without field a step is a drift, and no step at all changes nothing. -/
theorem lcav_zero (cs : K → K) (k phi : K) (full : Bool) (ds : K) (b : K × List (Part K)) :
    (lcavStep cs ⟨0, k, phi⟩ full ds b) = (b.1, b.2.map fun v => { v with x := v.x + ds * v.xp, y := v.y + ds * v.yp }) := by
  rw [lcavStep]
  split
  · rename_i h
    subst h
    have : (b.2.map fun v : Part K => { v with x := v.x + 0 * v.xp, y := v.y + 0 * v.yp }) = b.2 := by
      rw [List.map_congr_left (g := id), List.map_id]
      intro v _; simp
    rw [this]
  · rw [if_pos rfl]
    congr 1
    apply List.map_congr_left
    intro v _
    simp only [driftMap, mul_comm]

/-! ## Deflection -/

/-- C149 (partial): a deflecting structure changes the transverse momenta by the field at the time of the particle, in the
direction of its orientation, and neither the momentum nor the time. -/
theorem trf_partial (cs sn : K → K) (g ds k phi theta p0 : K) (x : Part K) (hp : p0 ≠ 0) (hd : 1 + x.dp ≠ 0) :
    let w := trfMap cs sn g ds k phi theta p0 x
    Spec.across p0 w = ((Spec.across p0 x).1 + g * ds * cs (phi - k * x.ct) * cs theta,
      (Spec.across p0 x).2 + g * ds * cs (phi - k * x.ct) * sn theta) ∧ w.ct = x.ct ∧ w.dp = x.dp := by
  refine ⟨?_, rfl, rfl⟩
  simp only [Spec.across, Spec.momentum, trfMap, Prod.mk.injEq]
  constructor <;> · field_simp

/-- What the code does with the place: the kick counts three times of what a constant force would do. -/
theorem trf_place [CharZero K] (cs sn : K → K) (g ds k phi theta p0 : K) (x : Part K) :
    let w := trfMap cs sn g ds k phi theta p0 x
    w.x = Spec.parabola ds x.x x.xp (3 * (w.xp - x.xp)) ∧ w.y = Spec.parabola ds x.y x.yp (3 * (w.yp - x.yp)) := by
  have h2 : (2 : K) ≠ 0 := by exact_mod_cast (Nat.cast_ne_zero (R := K)).2 (by decide : (2 : Nat) ≠ 0)
  simp only [trfMap, Spec.parabola]
  constructor <;> · field_simp; ring

/-- C149 (violated): whenever there is a kick over a length, the place is not that of a constant force. -/
theorem trf_violated [CharZero K] (cs sn : K → K) (g ds k phi theta p0 : K) (x : Part K) (hs : ds ≠ 0)
    (hk : (trfMap cs sn g ds k phi theta p0 x).xp ≠ x.xp) :
    (trfMap cs sn g ds k phi theta p0 x).x ≠
      Spec.parabola ds x.x x.xp ((trfMap cs sn g ds k phi theta p0 x).xp - x.xp) := by
  have h := (trf_place cs sn g ds k phi theta p0 x).1
  rw [h]
  intro hc
  simp only [Spec.parabola] at hc
  have h2 : (2 : K) ≠ 0 := by exact_mod_cast (Nat.cast_ne_zero (R := K)).2 (by decide : (2 : Nat) ≠ 0)
  have : ds * ((trfMap cs sn g ds k phi theta p0 x).xp - x.xp) = 0 := by
    field_simp at hc
    linear_combination hc / 2
  rcases mul_eq_zero.1 this with h' | h'
  · exact hs h'
  · exact hk (sub_eq_zero.1 h')

/-- C149 (violated): the place behind the structure depends on the number of steps: `3 / 2` for one and `1` for two. -/
theorem trf_split_violated :
    (trfMap (fun _ => (1 : ℚ)) (fun _ => 0) 1 1 0 0 0 1 ⟨0, 0, 0, 0, 0, 0⟩).x = 3 / 2 ∧
    (trfMap (fun _ => (1 : ℚ)) (fun _ => 0) 1 (1 / 2) 0 0 0 1
      (trfMap (fun _ => (1 : ℚ)) (fun _ => 0) 1 (1 / 2) 0 0 0 1 ⟨0, 0, 0, 0, 0, 0⟩)).x = 1 := by decide +kernel

/-- C149: a structure without field is a drift of any number of steps. -/
theorem trf_off (cs sn : K → K) (k phi theta d1 d2 p0 : K) (l : List (Part K)) :
    trfStep cs sn ⟨0, k, phi⟩ theta d2 p0 (trfStep cs sn ⟨0, k, phi⟩ theta d1 p0 l) =
      trfStep cs sn ⟨0, k, phi⟩ theta (d1 + d2) p0 l ∧
    trfStep cs sn ⟨0, k, phi⟩ theta d1 p0 l = l.map fun v =>
      ⟨v.x + d1 * v.xp, v.xp, v.y + d1 * v.yp, v.yp, v.ct - d1 * (v.xp ^ 2 + v.yp ^ 2) / 2, v.dp⟩ := by
  have hstep : ∀ (d : K) (l : List (Part K)), trfStep cs sn ⟨0, k, phi⟩ theta d p0 l = l.map fun v =>
      ⟨v.x + d * v.xp, v.xp, v.y + d * v.yp, v.yp, v.ct - d * (v.xp ^ 2 + v.yp ^ 2) / 2, v.dp⟩ := by
    intro d l
    rw [trfStep]
    split
    · rename_i h
      subst h
      rw [List.map_congr_left (g := id), List.map_id]
      intro v _; simp
    · rw [if_pos rfl]
      apply List.map_congr_left
      intro v _
      simp only [pathDrift, Part.mk.injEq, true_and, and_true]
      ring
  refine ⟨?_, hstep d1 l⟩
  rw [hstep, hstep, hstep, List.map_map]
  apply List.map_congr_left
  intro v _
  simp only [Function.comp, Part.mk.injEq, true_and, and_true]
  refine ⟨?_, ?_, ?_⟩ <;> ring

/-- C149 (violated): the path length counts only without field: however weak the field is, the time of a particle with a
slope stays the same, while it changes without field. -/
theorem trf_time_violated (cs sn : K → K) (f : RF K) (theta ds p0 : K) (l : List (Part K)) (hg : f.g ≠ 0) :
    (trfStep cs sn f theta ds p0 l).map (·.ct) = l.map (·.ct) ∧
    (trfStep (fun _ => (1 : ℚ)) (fun _ => 0) ⟨0, 0, 0⟩ 0 2 1 [⟨0, 1, 0, 0, 0, 0⟩]).map (·.ct) = [-1] := by
  refine ⟨?_, by decide +kernel⟩
  rw [trfStep, if_neg hg]
  split
  · rfl
  · rw [List.map_map]; rfl

/-! ## Cases which meet the hypotheses -/

/-- For `lcav_momentum`, `lcav_area` and `lcav_split_partial`: a structure which doubles the momentum. -/
example : let x : Part ℚ := ⟨1, 2, 3, 4, 5, 1 / 10⟩
    lcavE1 (fun _ => 1) 1 1 0 1 ≠ (0 : ℚ) ∧ Spec.momentum 1 x + 1 * 1 * 1 ≠ 0 ∧ x.xp ≠ 0 ∧ 1 + x.dp ≠ 0 := by decide +kernel

/-- For `trf_violated`. -/
example : (trfMap (fun _ => (1 : ℚ)) (fun _ => 0) 1 1 0 0 0 1 ⟨0, 0, 0, 0, 0, 0⟩).xp ≠ 0 := by decide +kernel

end Verif.RFMaps
