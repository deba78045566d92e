import Verif.ATL.Spec
import Verif.MultiNormal.Properties

/-!
# Linear forms of the numbers drawn
-/

set_option linter.unusedSectionVars false

namespace Verif.ATL
open Finset

variable {K : Type} [Field K] [LinearOrder K] [IsStrictOrderedRing K]

/-- A linear form of the numbers from `k` to `k'` with the given sum of squares. -/
def Rep (k k' : Nat) (f : (Nat → K) → K) (v : K) : Prop :=
  k ≤ k' ∧ ∃ c : Nat → K, (∀ x, f x = ∑ l ∈ Ico k k', c l * x l) ∧ v = ∑ l ∈ Ico k k', c l * c l

theorem Rep.add {k k' k'' : Nat} {f g : (Nat → K) → K} {v w : K} (h1 : Rep k k' f v) (h2 : Rep k' k'' g w) :
    Rep k k'' (fun x => f x + g x) (v + w) := by
  obtain ⟨hk, c, hc, rfl⟩ := h1
  obtain ⟨hk', c', hc', rfl⟩ := h2
  refine ⟨hk.trans hk', fun l => if l < k' then c l else c' l, fun x => ?_, ?_⟩
  · simp only
    rw [hc, hc', ← Finset.sum_Ico_consecutive _ hk hk']
    congr 1
    · refine sum_congr rfl fun l hl => ?_
      rw [mem_Ico] at hl
      rw [if_pos hl.2]
    · refine sum_congr rfl fun l hl => ?_
      rw [mem_Ico] at hl
      rw [if_neg (by omega)]
  · simp only
    rw [← Finset.sum_Ico_consecutive _ hk hk']
    congr 1
    · refine sum_congr rfl fun l hl => ?_
      rw [mem_Ico] at hl
      rw [if_pos hl.2]
    · refine sum_congr rfl fun l hl => ?_
      rw [mem_Ico] at hl
      rw [if_neg (by omega)]

theorem Rep.zero {k k' : Nat} (h : k ≤ k') : Rep k k' (fun _ => (0 : K)) 0 :=
  ⟨h, fun _ => 0, fun x => by simp, by simp⟩

theorem Rep.smul {k k' : Nat} {f : (Nat → K) → K} {v : K} (a : K) (h : Rep k k' f v) :
    Rep k k' (fun x => a * f x) (a * a * v) := by
  obtain ⟨hk, c, hc, rfl⟩ := h
  refine ⟨hk, fun l => a * c l, fun x => ?_, ?_⟩
  · simp only
    rw [hc, Finset.mul_sum]
    exact sum_congr rfl fun l _ => by ring
  · rw [Finset.mul_sum]
    exact sum_congr rfl fun l _ => by ring

theorem Rep.congr {k k' : Nat} {f g : (Nat → K) → K} {v w : K} (h : Rep k k' f v) (hf : ∀ x, g x = f x) (hv : w = v) :
    Rep k k' g w := by
  obtain ⟨hk, c, hc, hc2⟩ := h
  exact ⟨hk, c, fun x => by rw [hf, hc], by rw [hv, hc2]⟩

theorem Rep.left {k j k' : Nat} {f : (Nat → K) → K} {v : K} (hj : k ≤ j) (h : Rep j k' f v) : Rep k k' f v :=
  ((Rep.zero hj).add h).congr (fun x => by ring) (by ring)

theorem Rep.right {k k' j : Nat} {f : (Nat → K) → K} {v : K} (h : Rep k k' f v) (hj : k' ≤ j) : Rep k j f v :=
  (h.add (Rep.zero hj)).congr (fun x => by ring) (by ring)

/-- The moments of a linear form. -/
theorem Rep.moments {k k' n : Nat} {f : (Nat → K) → K} {v : K} (h : Rep k k' f v) (hn : k' ≤ n)
    (d : List (K × (Nat → K))) (hd : MultiNormal.Spec.Standard n d) : Spec.Moments d f v := by
  obtain ⟨c, hc, rfl⟩ := ((h.left (Nat.zero_le k)).right hn).2
  rw [← Finset.range_eq_Ico] at hc
  rw [← Finset.range_eq_Ico]
  obtain ⟨_, h1, h2⟩ := hd
  constructor
  · rw [MultiNormal.expect_congr d f _ hc, MultiNormal.expect_sum]
    apply sum_eq_zero
    intro l hl
    rw [mem_range] at hl
    rw [MultiNormal.expect_smul, h1 l hl, mul_zero]
  · rw [MultiNormal.expect_congr d _ (fun x => ∑ l ∈ range n, ∑ m ∈ range n, c l * c m * (x l * x m)) ?_, MultiNormal.expect_sum]
    · refine sum_congr rfl fun l hl => ?_
      rw [MultiNormal.expect_sum]
      rw [mem_range] at hl
      have : ∀ m ∈ range n, MultiNormal.Spec.average d (fun x => c l * c m * (x l * x m)) = if l = m then c l * c m else 0 := by
        intro m hm
        rw [mem_range] at hm
        rw [MultiNormal.expect_smul, h2 l hl m hm]
        split <;> ring
      rw [sum_congr rfl this, Finset.sum_ite_eq, if_pos (mem_range.2 hl)]
    · intro x
      rw [hc x, Finset.sum_mul_sum]
      exact sum_congr rfl fun l _ => sum_congr rfl fun m _ => by ring

/-! ## One step of SimpleATL without outcomes -/

/-- The number drawn. -/
def dv (sqrt : K → K) (x : Nat → K) (v : K) (k : Nat) : K := if v = 0 then 0 else sqrt v * x k

/-- The numbers used after a draw. -/
def dk (v : K) (k : Nat) : Nat := if v = 0 then k else k + 1

theorem draw_ok (sqrt : K → K) (x : Nat → K) (v : K) (hv : 0 ≤ v) (k : Nat) :
    draw sqrt x v k = .ok (dv sqrt x v k, dk v k) := by
  rw [draw, dv, dk]
  split
  · rfl
  · rw [if_neg (not_lt.2 hv)]

theorem draw_rep (sqrt : K → K) (hs : ∀ x, 0 ≤ x → sqrt x * sqrt x = x) (v : K) (hv : 0 ≤ v) (k : Nat) :
    Rep k (dk v k) (fun x => dv sqrt x v k) v := by
  unfold dv dk
  by_cases h : v = 0
  · simp only [h, if_true]
    exact Rep.zero le_rfl
  · simp only [h, if_false]
    exact ⟨by omega, fun _ => sqrt v, fun x => by simp, by simp [hs v hv]⟩

/-- The walk after support `i`. -/
def pos (sqrt : K → K) (AT vv : K) (x : Nat → K) : K → K → Nat → List K → Nat → K
  | _, _, _, [], _ => 0
  | y, z, k, s :: _, 0 => y + dv sqrt x (AT * (s - z)) k
  | y, z, k, s :: l, i + 1 => pos sqrt AT vv x (y + dv sqrt x (AT * (s - z)) k) s (dk vv (dk (AT * (s - z)) k)) l i

/-- The noise of support `i`. -/
def noise (sqrt : K → K) (AT vv : K) (x : Nat → K) : K → Nat → List K → Nat → K
  | _, _, [], _ => 0
  | z, k, s :: _, 0 => dv sqrt x vv (dk (AT * (s - z)) k)
  | z, k, s :: l, i + 1 => noise sqrt AT vv x s (dk vv (dk (AT * (s - z)) k)) l i

/-- The numbers used after all supports. -/
def used (AT vv : K) : K → Nat → List K → Nat
  | _, k, [] => k
  | z, k, s :: l => used AT vv s (dk vv (dk (AT * (s - z)) k)) l

/-- The arc positions ascend from `z`. -/
def Asc : K → List K → Prop
  | _, [] => True
  | z, s :: l => z ≤ s ∧ Asc s l

theorem dk_le (v : K) (k : Nat) : k ≤ dk v k := by
  unfold dk
  split <;> omega

theorem used_le (AT vv : K) : ∀ (l : List K) (z : K) (k : Nat), k ≤ used AT vv z k l
  | [], _, _ => le_rfl
  | s :: l, z, k => by
    rw [used]
    exact ((dk_le _ _).trans (dk_le _ _)).trans (used_le AT vv l _ _)

/-- The walk from its start to a support, with a multiple of the noise. -/
theorem pos_rep (sqrt : K → K) (hs : ∀ x, 0 ≤ x → sqrt x * sqrt x = x) (AT vv : K) (hA : 0 ≤ AT) (hv : 0 ≤ vv) (b : K) :
    ∀ (l : List K) (z : K) (k : Nat) (Y : (Nat → K) → K) (i : Nat) (hi : i < l.length), Asc z l →
      Rep k (used AT vv z k l) (fun x => pos sqrt AT vv x (Y x) z k l i - Y x + b * noise sqrt AT vv x z k l i)
        (AT * (l[i] - z) + b * b * vv)
  | [], _, _, _, i, hi, _ => absurd hi (by simp)
  | s :: l, z, k, Y, 0, _, ha => by
    have hv1 : 0 ≤ AT * (s - z) := mul_nonneg hA (sub_nonneg.2 ha.1)
    have h1 := draw_rep sqrt hs (AT * (s - z)) hv1 k
    have h2 := (draw_rep sqrt hs vv hv (dk (AT * (s - z)) k)).smul b
    exact ((h1.add h2).right (used_le AT vv l s _)).congr (fun x => by simp only [pos, noise]; ring) (by simp)
  | s :: l, z, k, Y, i + 1, hi, ha => by
    have hv1 : 0 ≤ AT * (s - z) := mul_nonneg hA (sub_nonneg.2 ha.1)
    have h1 := (draw_rep sqrt hs (AT * (s - z)) hv1 k).right (dk_le vv _)
    have h2 := pos_rep sqrt hs AT vv hA hv b l s (dk vv (dk (AT * (s - z)) k))
      (fun x => Y x + dv sqrt x (AT * (s - z)) k) i (by simpa using hi) ha.2
    exact (h1.add h2).congr (fun x => by simp only [pos, noise]; ring) (by simp; ring)

/-- The walk between two supports, with a multiple of the noises. -/
theorem pos_diff (sqrt : K → K) (hs : ∀ x, 0 ≤ x → sqrt x * sqrt x = x) (AT vv : K) (hA : 0 ≤ AT) (hv : 0 ≤ vv) (b : K) :
    ∀ (l : List K) (z : K) (k : Nat) (Y : (Nat → K) → K) (i j : Nat) (hij : i < j) (hj : j < l.length), Asc z l →
      Rep k (used AT vv z k l) (fun x => pos sqrt AT vv x (Y x) z k l j - pos sqrt AT vv x (Y x) z k l i +
        b * (noise sqrt AT vv x z k l j - noise sqrt AT vv x z k l i)) (AT * (l[j] - l[i]) + 2 * (b * b) * vv)
  | [], _, _, _, _, j, _, hj, _ => absurd hj (by simp)
  | s :: l, z, k, Y, i, 0, hij, _, _ => absurd hij (by omega)
  | s :: l, z, k, Y, 0, j + 1, _, hj, ha => by
    have h1 := ((draw_rep sqrt hs vv hv (dk (AT * (s - z)) k)).smul (-b)).left (dk_le (AT * (s - z)) k)
    have h2 := pos_rep sqrt hs AT vv hA hv b l s (dk vv (dk (AT * (s - z)) k))
      (fun x => Y x + dv sqrt x (AT * (s - z)) k) j (by simpa using hj) ha.2
    exact (h1.add h2).congr (fun x => by simp only [pos, noise]; ring) (by simp; ring)
  | s :: l, z, k, Y, i + 1, j + 1, hij, hj, ha => by
    have h2 := pos_diff sqrt hs AT vv hA hv b l s (dk vv (dk (AT * (s - z)) k))
      (fun x => Y x + dv sqrt x (AT * (s - z)) k) i j (by omega) (by simpa using hj) ha.2
    exact (h2.left ((dk_le _ _).trans (dk_le _ _))).congr (fun x => by simp only [pos, noise]) (by simp)

/-- `for_each` without outcomes. -/
theorem applyAll_ok (sqrt : K → K) (AT vv : K) (hA : 0 ≤ AT) (hv : 0 ≤ vv) (x : Nat → K) :
    ∀ (l : List (Sup K)) (gs : List K) (y z : K) (k : Nat), gs.length = l.length → Asc z (l.map Sup.arc) →
      ∃ sups gms, applyAll sqrt x AT vv y z k l gs = .ok (sups, gms, used AT vv z k (l.map Sup.arc)) ∧
        sups.map Sup.reset = l.map Sup.reset ∧ gms.length = l.length ∧
        (∀ i < l.length, gms.getD i 0 = gs.getD i 0 + pos sqrt AT vv x y z k (l.map Sup.arc) i) ∧
        (∀ i < l.length, Spec.height sups i = gms.getD i 0 + noise sqrt AT vv x z k (l.map Sup.arc) i)
  | [], gs, y, z, k, hl, _ => by
    refine ⟨[], gs, by rw [applyAll, List.map_nil, used], rfl, hl, fun i hi => absurd hi (by simp), fun i hi => absurd hi (by simp)⟩
  | s :: l, [], y, z, k, hl, _ => absurd hl (by simp)
  | s :: l, g :: gs, y, z, k, hl, ha => by
    have hv1 : 0 ≤ AT * (s.arc - z) := mul_nonneg hA (sub_nonneg.2 ha.1)
    obtain ⟨sups, gms, h1, h2, h3, h4, h5⟩ := applyAll_ok sqrt AT vv hA hv x l gs (y + dv sqrt x (AT * (s.arc - z)) k) s.arc
      (dk vv (dk (AT * (s.arc - z)) k)) (by simpa using hl) ha.2
    refine ⟨{ s with off := (0, g + (y + dv sqrt x (AT * (s.arc - z)) k) + dv sqrt x vv (dk (AT * (s.arc - z)) k), 0) } :: sups,
      (g + (y + dv sqrt x (AT * (s.arc - z)) k)) :: gms, ?_, ?_, ?_, ?_, ?_⟩
    · rw [applyAll, draw_ok sqrt x _ hv1]
      show (draw sqrt x vv _).bind _ = _
      rw [draw_ok sqrt x _ hv]
      show (applyAll sqrt x AT vv _ _ _ l gs).bind _ = _
      rw [h1]
      rfl
    · simp only [List.map_cons, h2]
      rfl
    · simp [h3]
    · intro i hi
      cases i with
      | zero => simp [pos]
      | succ i =>
        simp only [List.getD_cons_succ, List.map_cons, pos]
        exact h4 i (by simpa using hi)
    · intro i hi
      cases i with
      | zero => simp [Spec.height, noise]
      | succ i =>
        have := h5 i (by simpa using hi)
        simpa [Spec.height, noise] using this

end Verif.ATL
