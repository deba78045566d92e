import Mathlib.Tactic.Ring
import Mathlib.Tactic.LinearCombination
import Mathlib.Tactic.FieldSimp
import Mathlib.Tactic.Linarith
import Mathlib.Tactic.NormNum
import Mathlib.Algebra.Order.Ring.Rat
import Mathlib.Algebra.Field.Rat
import Mathlib.Data.Rat.Floor
import Verif.Interpolation.Spec

/-!
# Properties of interpolation (C37, C38, C84, C85)
-/

set_option linter.unusedSectionVars false

namespace Verif.Interpolation
open Verif Verif.Interpolation.Spec

section
variable {K : Type} [Field K] [LinearOrder K] [IsStrictOrderedRing K]

/-! ## Tables -/

/-- Places in strictly increasing order. -/
def Strict (data : List (Pt K)) : Prop := data.Pairwise (fun a b => a.x < b.x)

theorem px_eq (data : List (Pt K)) (i : Nat) (h : i < data.length) : px data i = data[i].x := by
  simp [px, List.getElem?_eq_getElem h]

theorem py_eq (data : List (Pt K)) (i : Nat) (h : i < data.length) : py data i = data[i].y := by
  simp [py, List.getElem?_eq_getElem h]

theorem strict_lt {data : List (Pt K)} (hs : Strict data) {i j : Nat} (hij : i < j) (hj : j < data.length) :
    px data i < px data j := by
  rw [px_eq data i (by omega), px_eq data j hj]
  exact List.pairwise_iff_getElem.1 hs i j (by omega) hj hij

theorem strict_le {data : List (Pt K)} (hs : Strict data) {i j : Nat} (hij : i ≤ j) (hj : j < data.length) :
    px data i ≤ px data j := by
  rcases Nat.lt_or_eq_of_le hij with h | rfl
  · exact (strict_lt hs h hj).le
  · exact le_rfl

theorem strict_lt_iff {data : List (Pt K)} (hs : Strict data) {i j : Nat} (hi : i < data.length)
    (h : px data i < px data j) : i < j := by
  by_contra hn
  exact absurd h (not_lt.2 (strict_le hs (by omega) hi))

theorem at_nat {α ε : Type} (v : List α) (i : Nat) (h : i < v.length) :
    (at? v (i : Int) : Outcome ε α) = .ok v[i] := by
  simp [at?, List.getElem?_eq_getElem h, show ¬ ((i : Int) < 0) by omega]

theorem at_out {α ε : Type} (v : List α) (i : Int) (h : i < 0 ∨ (v.length : Int) ≤ i) :
    (at? v i : Outcome ε α) = .ub := by
  simp only [at?]
  split
  · rfl
  · rw [List.getElem?_eq_none (by omega)]

/-- `std::sort` of points with distinct places. -/
theorem sort_strict (l : List (Pt K)) (hn : (l.map (fun p => p.x)).Nodup) :
    Strict (l.insertionSort (fun a b => a.x ≤ b.x)) := by
  have : Std.Total (fun a b : Pt K => a.x ≤ b.x) := ⟨fun a b => le_total a.x b.x⟩
  have : IsTrans (Pt K) (fun a b => a.x ≤ b.x) := ⟨fun a b c h1 h2 => le_trans h1 h2⟩
  have h1 := List.pairwise_insertionSort (fun a b : Pt K => a.x ≤ b.x) l
  have h2 : ((l.insertionSort (fun a b => a.x ≤ b.x)).map (fun p => p.x)).Nodup :=
    ((List.perm_insertionSort (fun a b : Pt K => a.x ≤ b.x) l).map _).nodup_iff.2 hn
  rw [List.Nodup, List.pairwise_map] at h2
  exact (h1.and h2).imp (fun h => lt_of_le_of_ne h.1 h.2)

theorem points_x (xs ys : List K) (h : xs.length = ys.length) :
    (points xs ys).map (fun p => p.x) = xs := by
  induction xs generalizing ys with
  | nil => simp [points]
  | cons x xs ih =>
    cases ys with
    | nil => simp at h
    | cons y ys =>
      simp only [points, List.zipWith_cons_cons, List.map_cons, List.cons.injEq, true_and]
      exact ih ys (by simpa using h)

/-! ## The binary search -/

theorem search_spec {ε : Type} (data : List (Pt K)) (x : K) :
    ∀ (m ju jl : Nat), ju - jl ≤ m → jl < ju → ju ≤ data.length → (jl = 0 ∨ px data jl < x) →
    (ju = data.length ∨ x ≤ px data ju) →
    ∃ r, (search data x ju jl : Outcome ε Nat) = .ok r ∧ r < ju ∧ (r = 0 ∨ px data r < x) ∧
      (r + 1 = data.length ∨ x ≤ px data (r + 1)) := by
  intro m
  induction m with
  | zero => intro ju jl h1 h2; omega
  | succ m ih =>
    intro ju jl hm hlt hle hl hu
    rw [search]
    by_cases h : ju - jl > 1
    · rw [dif_pos h, List.getElem?_eq_getElem (by omega)]
      dsimp only
      have hpx := px_eq data ((ju + jl) / 2) (by omega)
      split
      · rename_i hx
        exact ih ju _ (by omega) (by omega) hle (Or.inr (by rw [hpx]; exact hx)) hu
      · rename_i hx
        obtain ⟨r, h1, h2, h3⟩ := ih ((ju + jl) / 2) jl (by omega) (by omega) (by omega) hl
          (Or.inr (by rw [hpx]; exact not_lt.1 hx))
        exact ⟨r, h1, by omega, h3⟩
    · rw [dif_neg h]
      have : jl + 1 = ju := by omega
      exact ⟨jl, rfl, hlt, hl, by rw [this]; exact hu⟩

theorem head_last {data : List (Pt K)} (h2 : 1 ≤ data.length) :
    ∃ f b, data.head? = some f ∧ data.getLast? = some b ∧ f.x = px data 0 ∧ b.x = px data (data.length - 1) := by
  refine ⟨data[0], data[data.length - 1], ?_, ?_, ?_, ?_⟩
  · rw [List.head?_eq_getElem?, List.getElem?_eq_getElem (by omega)]
  · rw [List.getLast?_eq_getElem?, List.getElem?_eq_getElem (by omega)]
  · rw [px_eq]
  · rw [px_eq]

theorem linear_index (a : Arb K) (h2 : 2 ≤ a.data.length) (ho : a.order ≤ 1) (x : K)
    (h0 : px a.data 0 ≤ x) (hn : x ≤ px a.data (a.data.length - 1)) :
    ∃ i, i + 1 < a.data.length ∧ px a.data i ≤ x ∧ x ≤ px a.data (i + 1) ∧
      valueAt a x = .ok (py a.data i + (x - px a.data i) *
        ((py a.data (i + 1) - py a.data i) / (px a.data (i + 1) - px a.data i)), none, a) := by
  obtain ⟨f, b, hf, hb, hfx, hbx⟩ := head_last (data := a.data) (by omega)
  obtain ⟨r, h1, hr, hlo, hhi⟩ := search_spec (ε := BadRange K) a.data x _ a.data.length 0 le_rfl (by omega)
    le_rfl (Or.inl rfl) (Or.inl rfl)
  have hr1 : r + 1 < a.data.length := by
    rcases Nat.lt_or_ge (r + 1) a.data.length with h | h
    · exact h
    · exfalso
      rcases hlo with h' | h'
      · omega
      · rw [show a.data.length - 1 = r by omega] at hn
        exact absurd hn (not_le.2 h')
  refine ⟨r, hr1, ?_, ?_, ?_⟩
  · rcases hlo with rfl | h
    · exact h0
    · exact h.le
  · rcases hhi with h | h
    · omega
    · exact h
  · simp only [valueAt, hf, hb]
    rw [if_neg (by rw [hfx, hbx]; push Not; exact ⟨h0, hn⟩), if_neg (by omega), h1]
    simp only [Outcome.bind_ok]
    have e : ((r : Int) + 1) = ((r + 1 : Nat) : Int) := by push_cast; rfl
    rw [e, at_nat a.data r (by omega), at_nat a.data (r + 1) hr1]
    simp only [Outcome.bind_ok]
    rw [px_eq a.data r (by omega), px_eq a.data (r + 1) hr1, py_eq a.data r (by omega), py_eq a.data (r + 1) hr1]

theorem onLine_sorted {data : List (Pt K)} (hs : Strict data) (x : K) (i : Nat) (hi : i + 1 < data.length)
    (h1 : px data i ≤ x) (h2 : x ≤ px data (i + 1)) :
    OnLine data x (py data i + (x - px data i) *
      ((py data (i + 1) - py data i) / (px data (i + 1) - px data i))) := by
  have hlt := strict_lt hs (Nat.lt_succ_self i) hi
  rw [px_eq data i (by omega), px_eq data _ hi] at *
  rw [py_eq data i (by omega), py_eq data _ hi]
  refine ⟨data[i], List.getElem_mem _, data[i + 1], List.getElem_mem _, hlt, h1, h2, ?_, ?_⟩
  · intro c hc
    obtain ⟨j, hj, rfl⟩ := List.getElem_of_mem hc
    rw [← px_eq data j hj, ← px_eq data i (by omega), ← px_eq data (i + 1) hi]
    rcases Nat.lt_or_ge i j with h | h
    · exact Or.inr (strict_le hs (by omega) hj)
    · exact Or.inl (strict_le hs h (by omega))
  · have : data[i + 1].x - data[i].x ≠ 0 := sub_ne_zero.2 hlt.ne'
    field_simp
    ring

theorem onLine_congr {p q : List (Pt K)} (h : ∀ d, d ∈ p ↔ d ∈ q) (x v : K) :
    OnLine p x v ↔ OnLine q x v := by
  simp only [OnLine, h]

theorem mkArb_data {ε : Type} (xs ys : List K) (order : Int) (a : Arb K)
    (h : (mkArb xs ys order : Outcome ε (Arb K)) = .ok a) :
    xs.length = ys.length ∧ a.data = (points xs ys).insertionSort (fun a b => a.x ≤ b.x) ∧
    a.order = min order (xs.length - 1) ∧
    a.q = (if a.order ≥ 1 then table a.data a.order.toNat else []) ∧ a.lastseenat = 0 := by
  simp only [mkArb] at h
  split at h
  · rename_i hl
    injection h with h
    subst h
    refine ⟨hl, rfl, ?_, rfl, rfl⟩
    dsimp only
    split <;> omega
  · cases h

/-- C37: linear interpolation of a table with distinct places.  Outside the table `BadRange` is thrown with
the ends of the table; inside the value lies on the line between the two neighbouring points. -/
theorem linear {ε : Type} (xs ys : List K) (order : Int) (hn : xs.Nodup) (h2 : 2 ≤ xs.length) (ho : order ≤ 1)
    (a : Arb K) (h : (mkArb xs ys order : Outcome ε (Arb K)) = .ok a) (x : K) :
    (((∀ u ∈ xs, x < u) ∨ (∀ u ∈ xs, u < x)) → ∃ lo hi, valueAt a x = .throw ⟨x, lo, hi⟩ ∧
      lo ∈ xs ∧ hi ∈ xs ∧ ∀ u ∈ xs, lo ≤ u ∧ u ≤ hi) ∧
    ((∃ u ∈ xs, u ≤ x) → (∃ u ∈ xs, x ≤ u) → ∃ v, valueAt a x = .ok (v, none, a) ∧
      OnLine (points xs ys) x v) := by
  obtain ⟨hl, hd, hord, _, _⟩ := mkArb_data xs ys order a h
  have hlen : (points xs ys).length = xs.length := by simp [points, hl]
  have hdl : a.data.length = xs.length := by rw [hd, List.length_insertionSort, hlen]
  have hs : Strict a.data := by
    rw [hd]; exact sort_strict _ (by rw [points_x xs ys hl]; exact hn)
  have hmem : ∀ d, d ∈ a.data ↔ d ∈ points xs ys := by
    intro d; rw [hd]; exact List.mem_insertionSort _
  have hx1 : ∀ u, u ∈ xs ↔ ∃ i, i < a.data.length ∧ px a.data i = u := by
    intro u
    rw [← points_x xs ys hl, List.mem_map]
    constructor
    · rintro ⟨d, hd', rfl⟩
      obtain ⟨i, hi, rfl⟩ := List.getElem_of_mem ((hmem d).2 hd')
      exact ⟨i, hi, px_eq _ _ hi⟩
    · rintro ⟨i, hi, rfl⟩
      exact ⟨a.data[i], (hmem _).1 (List.getElem_mem _), (px_eq _ _ hi).symm⟩
  have hlo : px a.data 0 ∈ xs := (hx1 _).2 ⟨0, by omega, rfl⟩
  have hhi : px a.data (a.data.length - 1) ∈ xs := (hx1 _).2 ⟨_, by omega, rfl⟩
  have hbnd : ∀ u ∈ xs, px a.data 0 ≤ u ∧ u ≤ px a.data (a.data.length - 1) := by
    intro u hu
    obtain ⟨i, hi, rfl⟩ := (hx1 u).1 hu
    exact ⟨strict_le hs (by omega) hi, strict_le hs (by omega) (by omega)⟩
  constructor
  · intro hout
    obtain ⟨f, b, hf, hb, hfx, hbx⟩ := head_last (data := a.data) (by omega)
    refine ⟨px a.data 0, px a.data (a.data.length - 1), ?_, hlo, hhi, hbnd⟩
    simp only [valueAt, hf, hb, hfx, hbx]
    rw [if_pos]
    rcases hout with h | h
    · exact Or.inl (h _ hlo)
    · exact Or.inr (h _ hhi)
  · rintro ⟨u, hu, hux⟩ ⟨w, hw, hxw⟩
    obtain ⟨i, h1, h2', h3, h4⟩ := linear_index a (by omega) (by omega) x
      ((hbnd u hu).1.trans hux) (hxw.trans (hbnd w hw).2)
    exact ⟨_, h4, (onLine_congr hmem x _).1 (onLine_sorted hs x i h1 h2' h3)⟩

/-- C37: what it means to lie on the line: the data are reproduced and between two neighbours the value
stays between their values. -/
theorem onLine_meaning (pts : List (Pt K)) (hn : (pts.map (fun p => p.x)).Nodup) (x v : K)
    (h : OnLine pts x v) :
    (∀ p ∈ pts, p.x = x → v = p.y) ∧
    ∃ a ∈ pts, ∃ b ∈ pts, a.x ≤ x ∧ x ≤ b.x ∧ min a.y b.y ≤ v ∧ v ≤ max a.y b.y := by
  obtain ⟨a, ha, b, hb, hab, h1, h2, hno, hv⟩ := h
  have hinj : ∀ p ∈ pts, ∀ q ∈ pts, p.x = q.x → p = q := fun p hp q hq he =>
    List.inj_on_of_nodup_map hn hp hq he
  have hpos : 0 < b.x - a.x := by linarith
  constructor
  · intro p hp hpx
    rcases hno p hp with h | h
    · have : p = a := hinj p hp a ha (by rw [hpx]; rw [hpx] at h; exact le_antisymm h h1)
      subst this
      rw [← hpx] at hv
      have : (v - p.y) * (b.x - p.x) = 0 := by linear_combination hv
      rcases mul_eq_zero.1 this with h | h
      · exact sub_eq_zero.1 h
      · exact absurd h hpos.ne'
    · have : p = b := hinj p hp b hb (by rw [hpx]; rw [hpx] at h; exact le_antisymm h2 h)
      subst this
      rw [← hpx] at hv
      have : (v - p.y) * (p.x - a.x) = 0 := by linear_combination hv
      rcases mul_eq_zero.1 this with h | h
      · exact sub_eq_zero.1 h
      · exact absurd h hpos.ne'
  · refine ⟨a, ha, b, hb, h1, h2, ?_, ?_⟩
    · have : min a.y b.y * (b.x - a.x) ≤ v * (b.x - a.x) := by
        rw [hv]
        have e1 := mul_le_mul_of_nonneg_right (min_le_left a.y b.y) (sub_nonneg.2 h2)
        have e2 := mul_le_mul_of_nonneg_right (min_le_right a.y b.y) (sub_nonneg.2 h1)
        linarith
      exact le_of_mul_le_mul_right this hpos
    · have : v * (b.x - a.x) ≤ max a.y b.y * (b.x - a.x) := by
        rw [hv]
        have e1 := mul_le_mul_of_nonneg_right (le_max_left a.y b.y) (sub_nonneg.2 h2)
        have e2 := mul_le_mul_of_nonneg_right (le_max_right a.y b.y) (sub_nonneg.2 h1)
        linarith
      exact le_of_mul_le_mul_right this hpos

/-- C37: the interpolant is the same in whatever order the points are given. -/
theorem order_of_points {ε : Type} (xs ys xs' ys' : List K) (order : Int) (hn : xs.Nodup)
    (hp : (points xs ys).Perm (points xs' ys')) (hl : xs.length = ys.length) (hl' : xs'.length = ys'.length) :
    (mkArb xs ys order : Outcome ε (Arb K)) = mkArb xs' ys' order := by
  have hlen : xs.length = xs'.length := by
    have := hp.length_eq
    simpa [points, hl, hl'] using this
  have hsort : (points xs ys).insertionSort (fun a b => a.x ≤ b.x) =
      (points xs' ys').insertionSort (fun a b => a.x ≤ b.x) := by
    have s1 := sort_strict (points xs ys) (by rw [points_x xs ys hl]; exact hn)
    have s2 := sort_strict (points xs' ys') ((hp.map _).nodup_iff.1 (by rw [points_x xs ys hl]; exact hn))
    have hperm := ((List.perm_insertionSort (fun a b : Pt K => a.x ≤ b.x) (points xs ys)).trans hp).trans
      (List.perm_insertionSort (fun a b : Pt K => a.x ≤ b.x) (points xs' ys')).symm
    exact hperm.eq_of_pairwise (fun a b _ _ h1 h2 => absurd h1 (not_lt.2 h2.le)) s1 s2
  simp only [points] at hsort
  simp only [mkArb, hl, hl', if_true, hsort]
  rw [← hl, ← hl', hlen]

/-! ## Polynomials -/

theorem evaluatepoly_eq {ε : Type} (x : K) (p : List K) (h : p ≠ []) :
    (evaluatepoly x p : Outcome ε K) = .ok (poly p x) := by
  simp only [evaluatepoly]
  cases hr : p.reverse with
  | nil => exact absurd (List.reverse_eq_nil_iff.1 hr) h
  | cons c cs =>
    have hp : p = cs.reverse ++ [c] := by
      have := congrArg List.reverse hr
      simpa using this
    dsimp only
    congr 1
    rw [hp, poly, List.foldr_append, List.foldr_reverse]
    simp only [List.foldr_cons, List.foldr_nil, mul_zero, add_zero]
    congr 1
    funext s a
    ring

theorem poly_cons (a : K) (t : List K) (x : K) : poly (a :: t) x = a + x * poly t x := rfl

theorem poly_snoc_zero (p : List K) (x : K) : poly (p ++ [0]) x = poly p x := by
  induction p with
  | nil => simp [poly]
  | cons a p ih => rw [List.cons_append, poly_cons, poly_cons, ih]

theorem poly_zipAdd (p q : List K) (h : p.length = q.length) (x : K) :
    poly (List.zipWith (· + ·) p q) x = poly p x + poly q x := by
  induction p generalizing q with
  | nil => cases q <;> simp [poly] at *
  | cons a p ih =>
    cases q with
    | nil => simp at h
    | cons b q =>
      rw [List.zipWith_cons_cons, poly_cons, poly_cons, poly_cons, ih q (by simpa using h)]
      ring

theorem poly_zipLin (u w d : K) (p q : List K) (h : p.length = q.length) (x : K) :
    poly (List.zipWith (fun a b => (u * a + w * b) / d) p q) x = (u * poly p x + w * poly q x) / d := by
  induction p generalizing q with
  | nil => cases q <;> simp [poly] at *
  | cons a p ih =>
    cases q with
    | nil => simp at h
    | cons b q =>
      rw [List.zipWith_cons_cons, poly_cons, poly_cons, poly_cons, ih q (by simpa using h)]
      ring

theorem row_length (xi xk : K) (p q : List K) (h : p.length = q.length) :
    (row xi xk p q).length = p.length + 1 := by
  simp [row, h]

theorem row_poly (xi xk : K) (p q : List K) (h : p.length = q.length) (x : K) :
    poly (row xi xk p q) x = ((x - xk) * poly p x - (x - xi) * poly q x) / (xi - xk) := by
  have e : (fun a b : K => (a - b) / (xi - xk)) = fun a b => (1 * a + (-1) * b) / (xi - xk) := by
    funext a b; ring
  simp only [row]
  rw [poly_zipAdd _ _ (by simp), poly_snoc_zero, poly_cons, e, poly_zipLin _ _ _ _ _ h,
    poly_zipLin _ _ _ _ _ h]
  ring

theorem poly_sub (a b : List K) : ∃ d : List K, d.length ≤ max a.length b.length ∧
    ∀ x, poly d x = poly a x - poly b x := by
  induction a generalizing b with
  | nil =>
    refine ⟨b.map (fun c => -c), by simp, fun x => ?_⟩
    induction b with
    | nil => simp [poly]
    | cons c b ih =>
      rw [List.map_cons, poly_cons, poly_cons, ih]
      simp only [poly, List.foldr_nil]
      ring
  | cons c a ih =>
    cases b with
    | nil => exact ⟨c :: a, by simp, fun x => by simp [poly]⟩
    | cons e b =>
      obtain ⟨d, h1, h2⟩ := ih b
      refine ⟨(c - e) :: d, ?_, fun x => ?_⟩
      · simp only [List.length_cons]
        omega
      · rw [poly_cons, poly_cons, poly_cons, h2]
        ring

theorem poly_divide (c : List K) (r : K) : ∃ d : List K, d.length = c.length - 1 ∧
    ∀ x, poly c x = poly c r + (x - r) * poly d x := by
  induction c with
  | nil => exact ⟨[], rfl, fun x => by simp [poly]⟩
  | cons a t ih =>
    obtain ⟨d, h1, h2⟩ := ih
    cases t with
    | nil => exact ⟨[], rfl, fun x => by simp [poly]⟩
    | cons b t =>
      refine ⟨poly (b :: t) r :: d, ?_, fun x => ?_⟩
      · simp only [List.length_cons] at *
        omega
      · rw [poly_cons, poly_cons a, poly_cons _ d]
        linear_combination x * h2 x

theorem poly_roots (roots : List K) : ∀ c : List K, c.length ≤ roots.length → roots.Nodup →
    (∀ r ∈ roots, poly c r = 0) → ∀ x, poly c x = 0 := by
  induction roots with
  | nil =>
    intro c hc _ _ x
    rw [List.length_eq_zero_iff.1 (Nat.le_zero.1 hc)]
    rfl
  | cons r rs ih =>
    intro c hc hn hr x
    obtain ⟨d, h1, h2⟩ := poly_divide c r
    rw [List.nodup_cons] at hn
    have hd : ∀ x, poly d x = 0 := by
      refine ih d (by simp only [List.length_cons] at hc; omega) hn.2 ?_
      intro s hs
      have := h2 s
      rw [hr s (List.mem_cons_of_mem _ hs), hr r (List.mem_cons_self ..), zero_add] at this
      rcases mul_eq_zero.1 this.symm with h | h
      · exact absurd (sub_eq_zero.1 h ▸ hs) hn.1
      · exact h
    rw [h2 x, hr r (List.mem_cons_self ..), hd x]
    ring

/-! ## Neville's table -/

theorem table_length (data : List (Pt K)) : ∀ k, (table data k).length = data.length - k
  | 0 => by simp [table]
  | k + 1 => by simp [table]

theorem table_zero (data : List (Pt K)) (i : Nat) (h : i < data.length) :
    (table data 0).getD i [] = [py data i] := by
  simp [table, py, List.getElem?_eq_getElem h]

theorem table_succ (data : List (Pt K)) (k i : Nat) (h : i + (k + 1) < data.length) :
    (table data (k + 1)).getD i [] = row (px data i) (px data (i + (k + 1))) ((table data k).getD i [])
      ((table data k).getD (i + 1) []) := by
  have hi : i < data.length - (k + 1) := by omega
  rw [table, List.getD_eq_getElem?_getD, List.getElem?_map, List.getElem?_range hi]
  rfl

theorem table_row_length (data : List (Pt K)) (k : Nat) : ∀ i, i + k < data.length →
    ((table data k).getD i []).length = k + 1 := by
  induction k with
  | zero => intro i h; rw [table_zero data i h]; rfl
  | succ k ih =>
    intro i h
    rw [table_succ data k i h, row_length _ _ _ _ (by rw [ih i (by omega), ih (i + 1) (by omega)]),
      ih i (by omega)]

theorem table_poly (data : List (Pt K)) (k i : Nat) (h : i + (k + 1) < data.length) (x : K) :
    poly ((table data (k + 1)).getD i []) x =
      ((x - px data (i + (k + 1))) * poly ((table data k).getD i []) x -
        (x - px data i) * poly ((table data k).getD (i + 1) []) x) / (px data i - px data (i + (k + 1))) := by
  rw [table_succ data k i h, row_poly _ _ _ _ (by
    rw [table_row_length data k i (by omega), table_row_length data k (i + 1) (by omega)])]

/-- The row of point `i` after `k` iterations goes through the points `i` to `i + k`. -/
theorem table_nodes {data : List (Pt K)} (hs : Strict data) (k : Nat) : ∀ i, i + k < data.length → ∀ m, i ≤ m →
    m ≤ i + k → poly ((table data k).getD i []) (px data m) = py data m := by
  induction k with
  | zero =>
    intro i h m h1 h2
    have : m = i := by omega
    subst this
    rw [table_zero data m h]
    simp [poly]
  | succ k ih =>
    intro i h m h1 h2
    have hne : px data i - px data (i + (k + 1)) ≠ 0 :=
      sub_ne_zero.2 (strict_lt hs (by omega) h).ne
    rw [table_poly data k i h, div_eq_iff hne]
    rcases Nat.lt_or_ge m (i + (k + 1)) with hm | hm
    · rw [ih i (by omega) m h1 (by omega)]
      rcases Nat.lt_or_ge i m with hm' | hm'
      · rw [ih (i + 1) (by omega) m (by omega) (by omega)]
        ring
      · rw [show m = i by omega]
        ring
    · rw [show m = i + (k + 1) by omega, ih (i + 1) (by omega) (i + (k + 1)) (by omega) (by omega)]
      ring

/-- A row reproduces polynomials of its degree. -/
theorem table_exact {data : List (Pt K)} (hs : Strict data) (k i : Nat) (h : i + k < data.length) (c : List K)
    (hc : c.length ≤ k + 1) (hy : ∀ d ∈ data, d.y = poly c d.x) (x : K) :
    poly ((table data k).getD i []) x = poly c x := by
  obtain ⟨d, h1, h2⟩ := poly_sub ((table data k).getD i []) c
  have hz := poly_roots ((List.range (k + 1)).map (fun j => px data (i + j))) d (by
      rw [table_row_length data k i h] at h1
      simp
      omega) (by
      rw [List.Nodup, List.pairwise_map]
      refine List.Pairwise.imp_of_mem ?_ (List.pairwise_lt_range (n := k + 1))
      intro a b ha hb hab
      rw [List.mem_range] at ha hb
      exact (strict_lt hs (by omega) (by omega)).ne) (by
      intro r hr
      rw [List.mem_map] at hr
      obtain ⟨j, hj, rfl⟩ := hr
      rw [List.mem_range] at hj
      rw [h2, table_nodes hs k i h (i + j) (by omega) (by omega)]
      have hij : i + j < data.length := by omega
      rw [py_eq data _ hij, px_eq data _ hij, hy _ (List.getElem_mem _)]
      ring) x
  rw [h2] at hz
  exact sub_eq_zero.1 hz

/-! ## The search for orders above one -/

/-- The last point not behind `x`. -/
def Here (data : List (Pt K)) (x : K) (j : Nat) : Prop :=
  j < data.length ∧ px data j ≤ x ∧ ∀ i, i < data.length → px data i ≤ x → i ≤ j

theorem here_unique {data : List (Pt K)} {x : K} {i j : Nat} (hi : Here data x i) (hj : Here data x j) :
    i = j := by
  have := hi.2.2 j hj.1 hj.2.1
  have := hj.2.2 i hi.1 hi.2.1
  omega

theorem up_spec {ε : Type} (data : List (Pt K)) (x : K) (hx : x ≤ px data (data.length - 1)) :
    ∀ (fuel l : Nat), data.length - l < fuel → l < data.length →
    ∃ r, (up data x fuel (l : Int) : Outcome ε Int) = .ok (r : Nat) ∧ l ≤ r ∧ r < data.length ∧ x ≤ px data r := by
  intro fuel
  induction fuel with
  | zero => intro l h; omega
  | succ fuel ih =>
    intro l hf hl
    rw [up, at_nat data l hl]
    simp only [Outcome.bind_ok]
    split
    · rename_i h
      have hl1 : l + 1 < data.length := by
        by_contra hc
        rw [show data.length - 1 = l by omega, px_eq data l hl] at hx
        exact absurd h (not_lt.2 hx)
      obtain ⟨r, h1, h2, h3⟩ := ih (l + 1) (by omega) hl1
      refine ⟨r, ?_, by omega, h3⟩
      rw [← h1]
      push_cast
      rfl
    · rename_i h
      exact ⟨l, rfl, le_rfl, hl, by rw [px_eq data l hl]; exact not_lt.1 h⟩

theorem down_spec {ε : Type} (data : List (Pt K)) (x : K) (hx : px data 0 ≤ x) :
    ∀ (fuel l : Nat), l < fuel → l < data.length → (∀ i, i < data.length → px data i ≤ x → i ≤ l) →
    ∃ r, (down data x fuel (l : Int) : Outcome ε Int) = .ok (r : Nat) ∧ Here data x r := by
  intro fuel
  induction fuel with
  | zero => intro l h; omega
  | succ fuel ih =>
    intro l hf hl hb
    rw [down, at_nat data l hl]
    simp only [Outcome.bind_ok]
    split
    · rename_i h
      rw [← px_eq data l hl] at h
      have hl0 : 0 < l := by
        rcases Nat.eq_zero_or_pos l with rfl | h'
        · exact absurd h (not_lt.2 hx)
        · exact h'
      obtain ⟨r, h1, h2⟩ := ih (l - 1) (by omega) (by omega) (by
        intro i hi hix
        have := hb i hi hix
        rcases Nat.lt_or_eq_of_le this with h' | rfl
        · omega
        · exact absurd hix (not_le.2 h))
      refine ⟨r, ?_, h2⟩
      rw [← h1]
      congr 1
      omega
    · rename_i h
      exact ⟨l, rfl, hl, by rw [px_eq data l hl]; exact not_lt.1 h, hb⟩

/-- The first of the two rows that are averaged. -/
def window (n k j : Nat) : Nat := min (j - (k + 1) / 2 - 1) (n - k - 2)

/-- What `ValueAt` does inside the table for orders above one, when there are at least two rows. -/
theorem high {a : Arb K} (hs : Strict a.data) (k : Nat) (hk : 2 ≤ k) (ho : a.order = k)
    (hq : a.q = table a.data k) (hn : k + 2 ≤ a.data.length) (l : Nat) (hl : a.lastseenat = l)
    (hln : l < a.data.length) (x : K) (h0 : px a.data 0 ≤ x) (h1 : x ≤ px a.data (a.data.length - 1)) :
    ∃ j, Here a.data x j ∧ valueAt a x =
      .ok ((poly ((table a.data k).getD (window a.data.length k j) []) x +
          poly ((table a.data k).getD (window a.data.length k j + 1) []) x) / 2,
        some |poly ((table a.data k).getD (window a.data.length k j) []) x -
          poly ((table a.data k).getD (window a.data.length k j + 1) []) x|,
        { a with lastseenat := (j : Nat) }) := by
  obtain ⟨f, b, hf, hb, hfx, hbx⟩ := head_last (data := a.data) (by omega)
  obtain ⟨r, hr1, hr2, hr3, hr4⟩ := up_spec (ε := BadRange K) a.data x h1 (a.data.length + 1) l (by omega) hln
  obtain ⟨j, hj1, hj2⟩ := down_spec (ε := BadRange K) a.data x h0 (a.data.length + 1) r (by omega) hr3 (by
    intro i hi hix
    by_contra hc
    exact absurd (hix.trans hr4) (not_le.2 (strict_lt hs (by omega) hi)))
  refine ⟨j, hj2, ?_⟩
  have hjn := hj2.1
  simp only [valueAt, hf, hb]
  rw [if_neg (by rw [hfx, hbx]; push Not; exact ⟨h0, h1⟩), if_pos (by omega), hl, hr1]
  simp only [Outcome.bind_ok]
  rw [hj1]
  simp only [Outcome.bind_ok]
  have hqs : a.q.length = a.data.length - k := by rw [hq, table_length]
  have hw : min (max 0 ((j : Int) - (a.order + 1) / 2 - 1)) ((a.q.length : Int) - 2) =
      ((window a.data.length k j : Nat) : Int) := by
    rw [hqs, ho, window]
    omega
  have hwl : window a.data.length k j + 1 < (table a.data k).length := by
    rw [table_length, window]; omega
  have hget : ∀ i (h : i < (table a.data k).length), (table a.data k)[i] = (table a.data k).getD i [] := by
    intro i h
    simp [List.getElem?_eq_getElem h]
  have hne : ∀ i, i < (table a.data k).length → (table a.data k).getD i [] ≠ [] := by
    intro i h hnil
    have := table_row_length a.data k i (by rw [table_length] at h; omega)
    rw [hnil] at this
    simp at this
  have e : (((window a.data.length k j : Nat) : Int) + 1) = ((window a.data.length k j + 1 : Nat) : Int) := by
    push_cast; rfl
  rw [hw, hq, e, at_nat _ _ (by omega), at_nat _ _ hwl]
  simp only [Outcome.bind_ok]
  rw [hget _ (by omega), hget _ hwl, evaluatepoly_eq x _ (hne _ (by omega)), evaluatepoly_eq x _ (hne _ hwl)]
  rfl

/-- A table with distinct places, at least two points more than the order, and an order above one. -/
structure Good (xs ys : List K) (k : Nat) : Prop where
  length : xs.length = ys.length
  nodup : xs.Nodup
  order : 2 ≤ k
  enough : k + 2 ≤ xs.length

/-- Calls of `ValueAt` one after the other; what they return is dropped. -/
def calls (a : Arb K) (args : List K) : Arb K :=
  args.foldl (fun a x => match valueAt a x with
    | .ok (_, _, a') => a'
    | _ => a) a

theorem good_facts {ε : Type} {xs ys : List K} {k : Nat} (hg : Good xs ys k) {a : Arb K}
    (h : (mkArb xs ys k : Outcome ε (Arb K)) = .ok a) :
    Strict a.data ∧ a.data.length = xs.length ∧ a.order = k ∧ a.q = table a.data k ∧ a.lastseenat = 0 ∧
    ∀ d, d ∈ a.data ↔ d ∈ points xs ys := by
  obtain ⟨hl, hd, hord, hq, hlast⟩ := mkArb_data xs ys k a h
  have hk := hg.enough
  have h2 := hg.order
  have ho : a.order = k := by omega
  refine ⟨?_, ?_, ho, ?_, hlast, ?_⟩
  · rw [hd]; exact sort_strict _ (by rw [points_x xs ys hl]; exact hg.nodup)
  · rw [hd, List.length_insertionSort]
    simp [points, hl]
  · rw [hq, if_pos (by omega), ho]
    rfl
  · intro d; rw [hd]; exact List.mem_insertionSort _

theorem calls_facts {ε : Type} {xs ys : List K} {k : Nat} (hg : Good xs ys k) {a : Arb K}
    (h : (mkArb xs ys k : Outcome ε (Arb K)) = .ok a) (args : List K) :
    ∃ l : Nat, l < a.data.length ∧ calls a args = { a with lastseenat := (l : Nat) } := by
  obtain ⟨hs, hlen, ho, hq, hlast, _⟩ := good_facts hg h
  have hk := hg.enough
  have hk2 := hg.order
  suffices H : ∀ (args : List K) (l : Nat), l < a.data.length →
      ∃ l' : Nat, l' < a.data.length ∧ calls { a with lastseenat := (l : Nat) } args =
        { a with lastseenat := (l' : Nat) } by
    obtain ⟨l, h1, h2⟩ := H args 0 (by omega)
    refine ⟨l, h1, ?_⟩
    rw [← h2]
    congr 1
    rw [show ((0 : Nat) : Int) = a.lastseenat by rw [hlast]; rfl]
  intro args
  induction args with
  | nil => intro l hl; exact ⟨l, hl, rfl⟩
  | cons x args ih =>
    intro l hl
    by_cases hin : px a.data 0 ≤ x ∧ x ≤ px a.data (a.data.length - 1)
    · obtain ⟨j, hj, hv⟩ := high (a := { a with lastseenat := (l : Nat) }) hs k hk2 ho hq
        (show k + 2 ≤ a.data.length by omega) l rfl hl x
        hin.1 hin.2
      obtain ⟨l', h1, h2⟩ := ih j hj.1
      refine ⟨l', h1, ?_⟩
      rw [← h2]
      simp only [calls, List.foldl_cons, hv]
    · obtain ⟨l', h1, h2⟩ := ih l hl
      refine ⟨l', h1, ?_⟩
      rw [← h2]
      obtain ⟨f, b, hf, hb, hfx, hbx⟩ := head_last (data := a.data) (by omega)
      have : valueAt { a with lastseenat := (l : Nat) } x = .throw ⟨x, f.x, b.x⟩ := by
        simp only [valueAt, hf, hb]
        rw [if_pos]
        rw [hfx, hbx]
        by_contra hc
        push Not at hc
        exact hin hc
      simp only [calls, List.foldl_cons, this]

/-- C84: outside the table `BadRange` is thrown, whatever was asked before. -/
theorem high_range {ε : Type} {xs ys : List K} {k : Nat} (hg : Good xs ys k) {a : Arb K}
    (h : (mkArb xs ys k : Outcome ε (Arb K)) = .ok a) (before : List K) (x : K) :
    (∃ e, valueAt (calls a before) x = .throw e) ↔ ((∀ u ∈ xs, x < u) ∨ (∀ u ∈ xs, u < x)) := by
  obtain ⟨hs, hlen, ho, hq, hlast, hmem⟩ := good_facts hg h
  obtain ⟨l, hl, hc⟩ := calls_facts hg h before
  have hk := hg.enough
  have hk2 := hg.order
  have hxs : ∀ u, u ∈ xs ↔ ∃ i, i < a.data.length ∧ px a.data i = u := by
    intro u
    rw [← points_x xs ys hg.length, List.mem_map]
    constructor
    · rintro ⟨d, hd', rfl⟩
      obtain ⟨i, hi, rfl⟩ := List.getElem_of_mem ((hmem d).2 hd')
      exact ⟨i, hi, px_eq _ _ hi⟩
    · rintro ⟨i, hi, rfl⟩
      exact ⟨a.data[i], (hmem _).1 (List.getElem_mem _), (px_eq _ _ hi).symm⟩
  obtain ⟨f, b, hf, hb, hfx, hbx⟩ := head_last (data := a.data) (by omega)
  rw [hc]
  constructor
  · rintro ⟨e, he⟩
    by_contra hcon
    push Not at hcon
    obtain ⟨⟨u, hu, hux⟩, ⟨w, hw, hxw⟩⟩ := hcon
    obtain ⟨i, hi, rfl⟩ := (hxs u).1 hu
    obtain ⟨i', hi', rfl⟩ := (hxs w).1 hw
    obtain ⟨j, _, hv⟩ := high (a := { a with lastseenat := (l : Nat) }) hs k hk2 ho hq
        (show k + 2 ≤ a.data.length by omega) l rfl hl x
      ((strict_le hs (Nat.zero_le i) hi).trans hux) (hxw.trans (strict_le hs (show i' ≤ a.data.length - 1 by omega)
        (show a.data.length - 1 < a.data.length by omega)))
    rw [hv] at he
    cases he
  · intro hout
    refine ⟨⟨x, f.x, b.x⟩, ?_⟩
    simp only [valueAt, hf, hb]
    rw [if_pos]
    rw [hfx, hbx]
    rcases hout with h | h
    · exact Or.inl (h _ ((hxs _).2 ⟨0, by omega, rfl⟩))
    · exact Or.inr (h _ ((hxs _).2 ⟨_, by omega, rfl⟩))

/-- C84: the result does not depend on the calls made before, though the object remembers them. -/
theorem history {ε : Type} {xs ys : List K} {k : Nat} (hg : Good xs ys k) {a : Arb K}
    (h : (mkArb xs ys k : Outcome ε (Arb K)) = .ok a) (before : List K) (x : K) :
    valueAt (calls a before) x = valueAt a x := by
  obtain ⟨hs, hlen, ho, hq, hlast, _⟩ := good_facts hg h
  obtain ⟨l, hl, hc⟩ := calls_facts hg h before
  have hk := hg.enough
  have hk2 := hg.order
  rw [hc]
  by_cases hin : px a.data 0 ≤ x ∧ x ≤ px a.data (a.data.length - 1)
  · obtain ⟨j, hj, hv⟩ := high (a := { a with lastseenat := (l : Nat) }) hs k hk2 ho hq
        (show k + 2 ≤ a.data.length by omega) l rfl hl x
      hin.1 hin.2
    obtain ⟨j', hj', hv'⟩ := high (a := a) hs k hk2 ho hq (by omega) 0 hlast (by omega) x hin.1 hin.2
    rw [hv, hv', here_unique hj hj']
  · obtain ⟨f, b, hf, hb, hfx, hbx⟩ := head_last (data := a.data) (by omega)
    simp only [valueAt, hf, hb]
    rw [if_pos, if_pos] <;>
    · rw [hfx, hbx]
      by_contra hc
      push Not at hc
      exact hin hc

/-- C84: data on a polynomial of the order of the interpolation are interpolated exactly, with error
estimate zero. -/
theorem polynomial_exact {ε : Type} {xs ys : List K} {k : Nat} (hg : Good xs ys k) {a : Arb K}
    (h : (mkArb xs ys k : Outcome ε (Arb K)) = .ok a) (c : List K) (hc : c.length ≤ k + 1)
    (hy : ∀ d ∈ points xs ys, d.y = poly c d.x) (x : K) (h1 : ∃ u ∈ xs, u ≤ x) (h2 : ∃ u ∈ xs, x ≤ u) :
    ∃ a', valueAt a x = .ok (poly c x, some 0, a') := by
  obtain ⟨hs, hlen, ho, hq, hlast, hmem⟩ := good_facts hg h
  have hk := hg.enough
  have hk2 := hg.order
  have hxs : ∀ u ∈ xs, ∃ i, i < a.data.length ∧ px a.data i = u := by
    intro u hu
    rw [← points_x xs ys hg.length, List.mem_map] at hu
    obtain ⟨d, hd', rfl⟩ := hu
    obtain ⟨i, hi, rfl⟩ := List.getElem_of_mem ((hmem d).2 hd')
    exact ⟨i, hi, px_eq _ _ hi⟩
  obtain ⟨u, hu, hux⟩ := h1
  obtain ⟨w, hw, hxw⟩ := h2
  obtain ⟨i, hi, rfl⟩ := hxs u hu
  obtain ⟨i', hi', rfl⟩ := hxs w hw
  obtain ⟨j, hj, hv⟩ := high (a := a) hs k hk2 ho hq (by omega) 0 hlast (by omega) x
    ((strict_le hs (Nat.zero_le i) hi).trans hux) (hxw.trans (strict_le hs (by omega) (by omega)))
  have hw1 : window a.data.length k j + 1 + k < a.data.length := by rw [window]; omega
  have hyd : ∀ d ∈ a.data, d.y = poly c d.x := fun d hd => hy d ((hmem d).1 hd)
  rw [table_exact hs k _ (by omega) c hc hyd, table_exact hs k _ hw1 c hc hyd] at hv
  refine ⟨{ a with lastseenat := (j : Nat) }, ?_⟩
  rw [hv, sub_self, abs_zero, add_self_div_two]

/-- C84: data points are reproduced with error estimate zero, except possibly the first and the last.
Missing: these two, for which it is false (`end_point_violated`). -/
theorem nodes_partial {ε : Type} {xs ys : List K} {k : Nat} (hg : Good xs ys k) {a : Arb K}
    (h : (mkArb xs ys k : Outcome ε (Arb K)) = .ok a) (p : Pt K) (hp : p ∈ points xs ys)
    (h1 : ∃ u ∈ xs, u < p.x) (h2 : ∃ u ∈ xs, p.x < u) :
    ∃ a', valueAt a p.x = .ok (p.y, some 0, a') := by
  obtain ⟨hs, hlen, ho, hq, hlast, hmem⟩ := good_facts hg h
  have hk := hg.enough
  have hk2 := hg.order
  have hxs : ∀ u ∈ xs, ∃ i, i < a.data.length ∧ px a.data i = u := by
    intro u hu
    rw [← points_x xs ys hg.length, List.mem_map] at hu
    obtain ⟨d, hd', rfl⟩ := hu
    obtain ⟨i, hi, rfl⟩ := List.getElem_of_mem ((hmem d).2 hd')
    exact ⟨i, hi, px_eq _ _ hi⟩
  obtain ⟨m, hm, rfl⟩ := List.getElem_of_mem ((hmem p).2 hp)
  rw [← px_eq a.data m hm] at *
  obtain ⟨u, hu, hux⟩ := h1
  obtain ⟨w, hw, hxw⟩ := h2
  obtain ⟨i, hi, rfl⟩ := hxs u hu
  obtain ⟨i', hi', rfl⟩ := hxs w hw
  have him := strict_lt_iff hs hi hux
  have hmi := strict_lt_iff hs hm hxw
  obtain ⟨j, hj, hv⟩ := high (a := a) hs k hk2 ho hq (by omega) 0 hlast (by omega) (px a.data m)
    (strict_le hs (Nat.zero_le m) hm) (strict_le hs (by omega) (by omega))
  have hjm : j = m := by
    have e1 := hj.2.2 m hm le_rfl
    rcases Nat.lt_or_eq_of_le e1 with h' | h'
    · exact absurd hj.2.1 (not_le.2 (strict_lt hs h' hj.1))
    · exact h'.symm
  subst hjm
  have hw1 : window a.data.length k j + 1 + k < a.data.length := by rw [window]; omega
  have ha : window a.data.length k j + 1 ≤ j := by rw [window]; omega
  have hb : j ≤ window a.data.length k j + k := by rw [window]; omega
  rw [table_nodes hs k _ (by omega) j (by omega) hb, table_nodes hs k _ hw1 j ha (by omega)] at hv
  rw [← py_eq a.data j hm]
  refine ⟨{ a with lastseenat := (j : Nat) }, ?_⟩
  rw [hv, sub_self, abs_zero, add_self_div_two]

/-- C84 is violated when the order is one less than the number of points, or more: there is then only one
row, and every evaluation inside the table indexes before the first. -/
theorem full_order_violated {ε : Type} (xs ys : List K) (order : Int) (hn : xs.Nodup) (h3 : 3 ≤ xs.length)
    (ho : order ≥ xs.length - 1) (a : Arb K) (h : (mkArb xs ys order : Outcome ε (Arb K)) = .ok a) (x : K)
    (h1 : ∃ u ∈ xs, u ≤ x) (h2 : ∃ u ∈ xs, x ≤ u) : valueAt a x = .ub := by
  obtain ⟨hl, hd, hord, hq, hlast⟩ := mkArb_data xs ys order a h
  have hs : Strict a.data := by
    rw [hd]; exact sort_strict _ (by rw [points_x xs ys hl]; exact hn)
  have hlen : a.data.length = xs.length := by
    rw [hd, List.length_insertionSort]
    simp [points, hl]
  have hmem : ∀ d, d ∈ a.data ↔ d ∈ points xs ys := by
    intro d; rw [hd]; exact List.mem_insertionSort _
  have hxs : ∀ u ∈ xs, ∃ i, i < a.data.length ∧ px a.data i = u := by
    intro u hu
    rw [← points_x xs ys hl, List.mem_map] at hu
    obtain ⟨d, hd', rfl⟩ := hu
    obtain ⟨i, hi, rfl⟩ := List.getElem_of_mem ((hmem d).2 hd')
    exact ⟨i, hi, px_eq _ _ hi⟩
  obtain ⟨u, hu, hux⟩ := h1
  obtain ⟨w, hw, hxw⟩ := h2
  obtain ⟨i, hi, rfl⟩ := hxs u hu
  obtain ⟨i', hi', rfl⟩ := hxs w hw
  have g0 := (strict_le hs (Nat.zero_le i) hi).trans hux
  have g1 := hxw.trans (strict_le hs (show i' ≤ a.data.length - 1 by omega) (by omega))
  obtain ⟨f, b, hf, hb, hfx, hbx⟩ := head_last (data := a.data) (by omega)
  obtain ⟨r, hr1, hr2, hr3, hr4⟩ := up_spec (ε := BadRange K) a.data x g1 (a.data.length + 1) 0 (by omega)
    (by omega)
  obtain ⟨j, hj1, hj2⟩ := down_spec (ε := BadRange K) a.data x g0 (a.data.length + 1) r (by omega) hr3 (by
    intro i hi hix
    by_contra hc
    exact absurd (hix.trans hr4) (not_le.2 (strict_lt hs (by omega) hi)))
  have hql : a.q.length = 1 := by
    rw [hq, if_pos (by omega), table_length]
    omega
  simp only [valueAt, hf, hb]
  rw [if_neg (by rw [hfx, hbx]; push Not; exact ⟨g0, g1⟩), if_pos (by omega), hlast]
  rw [show (0 : Int) = ((0 : Nat) : Int) from rfl, hr1]
  simp only [Outcome.bind_ok]
  rw [hj1]
  simp only [Outcome.bind_ok]
  rw [at_out _ _ (Or.inl (by rw [hql]; omega))]
  rfl

/-- C85 is violated: an interpolation built from arrays has no data, every evaluation is undefined. -/
theorem arrays_violated {ε : Type} (xs ys : List K) (order garbage : Int) (a : Arb K)
    (h : (mkArbArray xs ys order garbage : Outcome ε (Arb K)) = .ok a) (x : K) : valueAt a x = .ub := by
  simp only [mkArbArray] at h
  cases hm : (mkArb xs ys order : Outcome ε (Arb K)) with
  | ok b =>
    rw [hm] at h
    simp only [Outcome.bind_ok] at h
    injection h with h
    subst h
    rfl
  | throw e => rw [hm] at h; cases h
  | ub => rw [hm] at h; cases h

end

/-! ## Equal spacing -/

section
variable {K : Type} [Field K] [LinearOrder K] [IsStrictOrderedRing K] [FloorRing K]

/-- C38: inside the table the value is the linear interpolant of the two neighbours, outside it is the
continuation of the first or last segment.  Missing: the upper end itself, for which it is false
(`upper_end_violated`). -/
theorem equal_spaced_partial {ε : Type} (ys : List K) (xm d : K) (h2 : 2 ≤ ys.length) (e : Equal K)
    (h : (mkEqual ys xm d : Outcome ε (Equal K)) = .ok e) (x : K) (hne : x ≠ xm + ((ys.length : K) - 1) * d) :
    ∃ (n : Nat) (hn : n + 1 < ys.length),
      (equalValueAt e x : Outcome ε K) = .ok (ys[n] + (ys[n + 1] - ys[n]) * (x - (xm + n * d)) / d) ∧
      (xm ≤ x → xm + n * d ≤ x) ∧ (x ≤ xm + ((ys.length : K) - 1) * d → x ≤ xm + (n + 1) * d) ∧
      (x < xm → n = 0) ∧ (xm + ((ys.length : K) - 1) * d < x → n + 2 = ys.length) := by
  simp only [mkEqual] at h
  split at h
  case isFalse => cases h
  rename_i hd
  injection h with h
  subst h
  have hd0 : d ≠ 0 := ne_of_gt hd
  have hlen : (1 : K) ≤ (ys.length : K) - 1 := by
    have : ((2 : Nat) : K) ≤ (ys.length : K) := Nat.cast_le.2 h2
    push_cast at this
    linarith
  have hmax : xm + d ≤ xm + ((ys.length : K) - 1) * d := by
    have := mul_le_mul_of_nonneg_right hlen hd.le
    linarith
  have key : ∀ (i : Int) (n : Nat) (hn : n + 1 < ys.length), i = n →
      ((do
        let y1 ← at? ys (i + 1)
        let y0 ← at? ys i
        let m := (y1 - y0) / d
        let x0 := xm + d * i
        .ok (y0 + m * (x - x0)) : Outcome ε K) =
      .ok (ys[n] + (ys[n + 1] - ys[n]) * (x - (xm + n * d)) / d)) := by
    intro i n hn hi
    subst hi
    have e1 : ((n : Int) + 1) = ((n + 1 : Nat) : Int) := by push_cast; rfl
    rw [e1, at_nat ys (n + 1) hn, at_nat ys n (by omega)]
    simp only [Outcome.bind_ok]
    congr 1
    push_cast
    field_simp
  by_cases h1 : x < xm
  · refine ⟨0, by omega, ?_, fun h => absurd h (not_le.2 h1), fun _ => ?_, fun _ => rfl, fun h => ?_⟩
    · simp only [equalValueAt, if_pos h1]
      exact key 0 0 (by omega) rfl
    · simp
      linarith
    · linarith
  · by_cases h3 : x > xm + ((ys.length : K) - 1) * d
    · have hc : ((ys.length - 2 : Nat) : K) = (ys.length : K) - 2 := by
        rw [Nat.cast_sub h2]; norm_num
      refine ⟨ys.length - 2, by omega, ?_, fun _ => ?_, fun h => absurd h (not_le.2 h3), fun h => absurd h h1,
        fun _ => by omega⟩
      · simp only [equalValueAt, if_neg h1, if_pos h3]
        exact key _ (ys.length - 2) (by omega) (by omega)
      · rw [hc]
        linarith
    · have hq0 : 0 ≤ (x - xm) / d := div_nonneg (sub_nonneg.2 (not_lt.1 h1)) hd.le
      have hq1 : (x - xm) / d < (ys.length : K) - 1 := by
        rw [div_lt_iff₀ hd]
        have := lt_of_le_of_ne (not_lt.1 h3) hne
        linarith
      obtain ⟨n, hn⟩ : ∃ n : Nat, ⌊(x - xm) / d⌋ = n :=
        ⟨⌊(x - xm) / d⌋.toNat, by rw [Int.toNat_of_nonneg (Int.floor_nonneg.2 hq0)]⟩
      have hle : (n : K) ≤ (x - xm) / d := by
        have := Int.floor_le ((x - xm) / d)
        rw [hn] at this
        exact_mod_cast this
      have hlt : (x - xm) / d < (n : K) + 1 := by
        have := Int.lt_floor_add_one ((x - xm) / d)
        rw [hn] at this
        exact_mod_cast this
      have hnl : n + 1 < ys.length := by
        have : ((n + 1 : Nat) : K) < (ys.length : K) := by push_cast; linarith
        exact_mod_cast this
      rw [le_div_iff₀ hd] at hle
      rw [div_lt_iff₀ hd] at hlt
      refine ⟨n, hnl, ?_, fun _ => by linarith, fun _ => by linarith, fun h => absurd h h1, fun h => absurd h h3⟩
      simp only [equalValueAt, if_neg h1, if_neg h3]
      exact key _ n hnl hn

/-- C38 is violated at the upper end of every table: the element behind the last is read. -/
theorem upper_end_violated {ε : Type} (ys : List K) (xm d : K) (h2 : 2 ≤ ys.length) (e : Equal K)
    (h : (mkEqual ys xm d : Outcome ε (Equal K)) = .ok e) :
    (equalValueAt e (xm + ((ys.length : K) - 1) * d) : Outcome ε K) = .ub := by
  simp only [mkEqual] at h
  split at h
  case isFalse => cases h
  rename_i hd
  injection h with h
  subst h
  have hlen : (0 : K) ≤ (ys.length : K) - 1 := by
    have : ((2 : Nat) : K) ≤ (ys.length : K) := Nat.cast_le.2 h2
    push_cast at this
    linarith
  have hx : xm ≤ xm + ((ys.length : K) - 1) * d := by
    have := mul_nonneg hlen hd.le
    linarith
  have hq : (xm + ((ys.length : K) - 1) * d - xm) / d = (((ys.length : Int) - 1 : Int) : K) := by
    have : d ≠ 0 := ne_of_gt hd
    field_simp
    push_cast
    ring
  simp only [equalValueAt, if_neg (not_lt.2 hx), gt_iff_lt, lt_irrefl, if_false, hq, Int.floor_intCast]
  rw [at_out _ _ (Or.inr (by omega))]
  rfl

end

/-! ## Examples -/

/-- Four points of a square function and a fifth off it, given in disorder. -/
def xs5 : List ℚ := [3, 0, 1, 4, 2]

/-- See `xs5`. -/
def ys5 : List ℚ := [9, 0, 1, 16, 4]

/-- A table with an outlier at its end. -/
def out5 : List ℚ := [9, 0, 1, 20, 4]

/-- The hypotheses of `linear`. -/
example : xs5.Nodup ∧ 2 ≤ xs5.length ∧ (∃ a, (mkArb xs5 ys5 1 : Outcome Unit (Arb ℚ)) = .ok a) ∧
    (∃ u ∈ xs5, u ≤ 5 / 2) ∧ (∃ u ∈ xs5, 5 / 2 ≤ u) ∧ OnLine (points xs5 ys5) (5 / 2) (13 / 2) := by
  refine ⟨by decide +kernel, by decide, ⟨_, rfl⟩, ⟨0, by decide +kernel, by norm_num⟩,
    ⟨3, by decide +kernel, by norm_num⟩, ⟨⟨2, 4⟩, by decide +kernel, ⟨3, 9⟩, by decide +kernel, ?_⟩⟩
  decide +kernel

/-- The hypotheses of `polynomial_exact`, `nodes_partial` and `history`. -/
theorem good5 : Good xs5 ys5 2 := ⟨by decide, by decide +kernel, by decide, by decide⟩

example : (∀ d ∈ points xs5 ys5, d.y = poly [0, 0, 1] d.x) ∧
    ((mkArb xs5 ys5 2 >>= fun a => valueAt a (5 / 2)).bind fun r => .ok (r.1, r.2.1)) = .ok (25 / 4, some 0) := by
  decide +kernel

example : (∃ p ∈ points xs5 out5, p.x = 3) ∧ ((mkArb xs5 out5 2 >>= fun a => valueAt a 3).bind fun r =>
    .ok (r.1, r.2.1)) = .ok (9, some 0) := by
  decide +kernel

/-- C84 is violated at the ends of the table: with four points of a square function and an outlier at the
last place, the last point is not reproduced. -/
theorem end_point_violated :
    ⟨4, 20⟩ ∈ points xs5 out5 ∧ ((mkArb xs5 out5 2 >>= fun a => valueAt a 4).bind fun r =>
      .ok (r.1, r.2.1)) = .ok (18, some 4) := by
  decide +kernel

/-- The hypotheses of `full_order_violated`. -/
example : xs5.Nodup ∧ 3 ≤ xs5.length ∧ (4 : Int) ≥ xs5.length - 1 ∧
    (∃ u ∈ xs5, u ≤ 5 / 2) ∧ (∃ u ∈ xs5, 5 / 2 ≤ u) ∧
    (mkArb xs5 ys5 4 >>= fun a => valueAt a (5 / 2)).bind (fun r => .ok (r.1, r.2.1)) = .ub :=
  ⟨by decide +kernel, by decide, by decide, by decide +kernel, by decide +kernel, by decide +kernel⟩

example : ((mkEqual [1, 3, 2] (0 : ℚ) 2 : Outcome Unit (Equal ℚ)) >>= fun e => equalValueAt e 3) = .ok (5 / 2) ∧
    ((mkEqual [1, 3, 2] (0 : ℚ) 2 : Outcome Unit (Equal ℚ)) >>= fun e => equalValueAt e 6) = .ok 1 ∧
    ((mkEqual [1, 3, 2] (0 : ℚ) 2 : Outcome Unit (Equal ℚ)) >>= fun e => equalValueAt e 4) = .ub := by
  decide +kernel

end Verif.Interpolation
