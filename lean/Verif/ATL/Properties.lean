import Verif.ATL.Lemmas
import Mathlib.Data.List.Perm.Basic
import Mathlib.Algebra.Field.Rat
import Mathlib.Algebra.Order.Ring.Rat

/-!
# Theorems on the ground motion
-/

set_option linter.unusedSectionVars false

namespace Verif.ATL
open Finset

variable {K : Type} [Field K] [LinearOrder K] [IsStrictOrderedRing K]

/-! ## C156: the ATL law of SimpleATL -/

theorem arc_reset (l : List (Sup K)) : (l.map Sup.reset).map Sup.arc = l.map Sup.arc := by
  rw [List.map_map]
  rfl

/-- A family of states, one for each stream of numbers, in which the law holds. -/
structure Good (A vv : K) (base : List (Sup K)) (t : K) (k : Nat) (S : (Nat → K) → Simple K) : Prop where
  hA : ∀ x, (S x).A = A
  hvv : ∀ x, (S x).vv = vv
  ht : ∀ x, (S x).t = t
  hk : ∀ x, (S x).k = k
  sup : ∀ x, (S x).sup.map Sup.reset = base
  len : ∀ x, (S x).gm.length = base.length
  one : ∀ i (hi : i < base.length), Rep 0 k (fun x => Spec.motion (S x) i) (A * t * base[i].arc)
  two : ∀ i j (_ : i < j) (hj : j < base.length),
    Rep 0 k (fun x => Spec.motion (S x) j - Spec.motion (S x) i) (A * t * (base[j].arc - base[i].arc))

/-- One step. -/
theorem good_step (sqrt : K → K) (hs : ∀ x, 0 ≤ x → sqrt x * sqrt x = x) (A vv : K) (hA : 0 ≤ A) (hv : 0 ≤ vv)
    (base : List (Sup K)) (ha : Asc 0 (base.map Sup.arc)) (t : K) (k : Nat) (S : (Nat → K) → Simple K)
    (h : Good A vv base t k S) (dt : K) (hdt : 0 ≤ dt) :
    ∃ (k' : Nat) (S' : (Nat → K) → Simple K), (∀ x, (S x).step sqrt x dt = .ok (S' x)) ∧ Good A vv base (t + dt) k' S' ∧
      ∀ i j (_ : i < j) (hj : j < base.length), Rep 0 k' (fun x => Spec.offset (S' x) j - Spec.offset (S' x) i)
        (A * (t + dt) * (base[j].arc - base[i].arc) + 2 * vv) := by
  have hAT : 0 ≤ A * dt := mul_nonneg hA hdt
  have harc : ∀ x, (S x).sup.map Sup.arc = base.map Sup.arc := fun x => by rw [← arc_reset, h.sup]
  have hlen : ∀ x, (S x).sup.length = base.length := fun x => by
    have := congrArg List.length (h.sup x)
    simpa using this
  have hstep : ∀ x, ∃ sups gms, applyAll sqrt x (A * dt) vv 0 0 k (S x).sup (S x).gm =
        .ok (sups, gms, used (A * dt) vv 0 k (base.map Sup.arc)) ∧ sups.map Sup.reset = base ∧ gms.length = base.length ∧
        (∀ i < base.length, gms.getD i 0 = (S x).gm.getD i 0 + pos sqrt (A * dt) vv x 0 0 k (base.map Sup.arc) i) ∧
        (∀ i < base.length, Spec.height sups i = gms.getD i 0 + noise sqrt (A * dt) vv x 0 k (base.map Sup.arc) i) := by
    intro x
    have := applyAll_ok sqrt (A * dt) vv hAT hv x (S x).sup (S x).gm 0 0 k (by rw [h.len, hlen]) (by rw [harc]; exact ha)
    rw [harc, h.sup, hlen] at this
    exact this
  choose sups gms h1 h2 h3 h4 h5 using hstep
  have hk : k ≤ used (A * dt) vv 0 k (base.map Sup.arc) := used_le _ _ _ _ _
  have hmem : ∀ i (hi : i < base.length), (base.map Sup.arc)[i]'(by simpa using hi) = base[i].arc := fun i hi => by simp
  refine ⟨used (A * dt) vv 0 k (base.map Sup.arc),
    fun x => { S x with sup := sups x, gm := gms x, k := used (A * dt) vv 0 k (base.map Sup.arc), t := (S x).t + dt },
    ?_, ⟨h.hA, h.hvv, fun x => by simp only [h.ht], fun x => rfl, h2, h3, ?_, ?_⟩, ?_⟩
  · intro x
    rw [Simple.step, h.hA, h.hvv, h.hk, h1]
    simp only [Outcome.bind, h.hA, h.hvv]
  · intro i hi
    have r1 := h.one i hi
    have r2 := pos_rep sqrt hs (A * dt) vv hAT hv 0 (base.map Sup.arc) 0 k (fun _ => 0) i (by simpa using hi) ha
    rw [hmem i hi] at r2
    refine (r1.add r2).congr (fun x => ?_) (by ring)
    simp only [Spec.motion, h4 x i hi]
    ring
  · intro i j hij hj
    have r1 := h.two i j hij hj
    have r2 := pos_diff sqrt hs (A * dt) vv hAT hv 0 (base.map Sup.arc) 0 k (fun _ => 0) i j hij (by simpa using hj) ha
    rw [hmem i (by omega), hmem j hj] at r2
    refine (r1.add r2).congr (fun x => ?_) (by ring)
    simp only [Spec.motion, h4 x i (by omega), h4 x j hj]
    ring
  · intro i j hij hj
    have r1 := h.two i j hij hj
    have r2 := pos_diff sqrt hs (A * dt) vv hAT hv 1 (base.map Sup.arc) 0 k (fun _ => 0) i j hij (by simpa using hj) ha
    rw [hmem i (by omega), hmem j hj] at r2
    refine (r1.add r2).congr (fun x => ?_) (by ring)
    simp only [Spec.motion, Spec.offset, h5 x i (by omega), h5 x j hj, h4 x i (by omega), h4 x j hj]
    ring

/-- Several steps. -/
theorem good_run (sqrt : K → K) (hs : ∀ x, 0 ≤ x → sqrt x * sqrt x = x) (A vv : K) (hA : 0 ≤ A) (hv : 0 ≤ vv)
    (base : List (Sup K)) (ha : Asc 0 (base.map Sup.arc)) : ∀ (dts : List K) (t : K) (k : Nat) (S : (Nat → K) → Simple K),
    Good A vv base t k S → (∀ dt ∈ dts, 0 ≤ dt) →
    ∃ (k' : Nat) (S' : (Nat → K) → Simple K), (∀ x, (S x).run sqrt x dts = .ok (S' x)) ∧ Good A vv base (t + dts.sum) k' S' ∧
      (dts ≠ [] → ∀ i j (_ : i < j) (hj : j < base.length), Rep 0 k' (fun x => Spec.offset (S' x) j - Spec.offset (S' x) i)
        (A * (t + dts.sum) * (base[j].arc - base[i].arc) + 2 * vv))
  | [], t, k, S, h, _ => ⟨k, S, fun x => rfl, by simpa using h, fun hn => absurd rfl hn⟩
  | dt :: dts, t, k, S, h, hd => by
    obtain ⟨k1, S1, h1, h2, h3⟩ := good_step sqrt hs A vv hA hv base ha t k S h dt (hd dt (by simp))
    obtain ⟨k2, S2, g1, g2, g3⟩ := good_run sqrt hs A vv hA hv base ha dts (t + dt) k1 S1 h2 fun d hm => hd d (by simp [hm])
    refine ⟨k2, S2, ?_, ?_, ?_⟩
    · intro x
      rw [Simple.run, h1 x]
      exact g1 x
    · rw [List.sum_cons, ← add_assoc]
      exact g2
    · intro _
      rw [List.sum_cons, ← add_assoc]
      by_cases hn : dts = []
      · subst hn
        have hS : S2 = S1 := by
          funext x
          have := g1 x
          rw [Simple.run] at this
          injection this with this
          exact this.symm
        intro i j hij hj
        have hk : k2 = k1 := by rw [← g2.hk (fun _ => 0), ← h2.hk (fun _ => 0), hS]
        rw [hS, hk]
        simpa using h3 i j hij hj
      · exact g3 hn

theorem asc_of_pairwise : ∀ (l : List K) (z : K), (∀ s ∈ l, z ≤ s) → l.Pairwise (· ≤ ·) → Asc z l
  | [], _, _, _ => trivial
  | s :: l, z, h0, h => by
    rw [List.pairwise_cons] at h
    exact ⟨h0 s (by simp), asc_of_pairwise l s h.1 h.2⟩

theorem getD_zero (n i : Nat) : (List.replicate n (0 : K)).getD i 0 = 0 := by
  rw [List.getD_eq_getElem?_getD, List.getElem?_replicate]
  split <;> rfl

/-- C156: from a new object, after any steps forward in time: every step succeeds, the clock shows the sum of the steps, the
supports are the given ones in ascending order of their arc positions `arcs`, and for independent standard numbers the
ground motions of two supports differ by a random number of mean zero and variance `A · T · |sᵢ - sⱼ|`.  The offsets differ by
the noise of both in addition. -/
theorem simple_law (sqrt : K → K) (hs : ∀ x, 0 ≤ x → sqrt x * sqrt x = x) (A : K) (hA : 0 ≤ A) (sup : List (Sup K))
    (hpos : ∀ s ∈ sup, 0 ≤ s.arc) (vrms : K) (dts : List K) (hdt : ∀ dt ∈ dts, 0 ≤ dt) :
    ∃ (n : Nat) (S : (Nat → K) → Simple K) (arcs : List K), (∀ x, (Simple.new A sup vrms).run sqrt x dts = .ok (S x)) ∧
      arcs.Pairwise (· ≤ ·) ∧ arcs.Perm (sup.map Sup.arc) ∧
      (∀ x, (S x).t = dts.sum ∧ (S x).sup.map Sup.arc = arcs ∧ ((S x).sup.map Sup.reset).Perm (sup.map Sup.reset)) ∧
      ∀ d, MultiNormal.Spec.Standard n d → ∀ i j, i < sup.length → j < sup.length →
        Spec.Moments d (fun x => Spec.motion (S x) i) (A * dts.sum * arcs.getD i 0) ∧
        Spec.Moments d (fun x => Spec.motion (S x) i - Spec.motion (S x) j)
          (A * dts.sum * |arcs.getD i 0 - arcs.getD j 0|) ∧
        (dts ≠ [] → i ≠ j → Spec.Moments d (fun x => Spec.offset (S x) i - Spec.offset (S x) j)
          (A * dts.sum * |arcs.getD i 0 - arcs.getD j 0| + 2 * (vrms * vrms))) := by
  set sorted := sup.insertionSort fun a b => a.arc ≤ b.arc with hsorted
  have hperm : sorted.Perm sup := List.perm_insertionSort _ _
  set base := sorted.map Sup.reset with hbase
  have hblen : base.length = sup.length := by rw [hbase, List.length_map, hperm.length_eq]
  have hpair : (sorted.map Sup.arc).Pairwise (· ≤ ·) := by
    have : Std.Total fun a b : Sup K => a.arc ≤ b.arc := ⟨fun a b => le_total _ _⟩
    have : IsTrans (Sup K) fun a b => a.arc ≤ b.arc := ⟨fun a b c h1 h2 => le_trans h1 h2⟩
    have h1 := List.pairwise_insertionSort (fun a b : Sup K => a.arc ≤ b.arc) sup
    exact h1.map _ fun _ _ h => h
  have harc : base.map Sup.arc = sorted.map Sup.arc := arc_reset _
  have ha : Asc 0 (base.map Sup.arc) := by
    rw [harc]
    refine asc_of_pairwise _ 0 ?_ hpair
    intro s hm
    rw [List.mem_map] at hm
    obtain ⟨a, ha, rfl⟩ := hm
    exact hpos a (hperm.mem_iff.1 ha)
  have hg : Good A (vrms * vrms) base 0 0 fun _ => Simple.new A sup vrms := by
    refine ⟨fun _ => rfl, fun _ => rfl, fun _ => rfl, fun _ => rfl, fun _ => rfl, fun _ => ?_, fun i hi => ?_, fun i j _ hj => ?_⟩
    · simp only [Simple.new, List.length_replicate, hblen]
    · exact (Rep.zero le_rfl).congr (fun x => by simp only [Spec.motion, Simple.new, getD_zero]) (by ring)
    · exact (Rep.zero le_rfl).congr (fun x => by simp only [Spec.motion, Simple.new, getD_zero, sub_self]) (by ring)
  obtain ⟨n, S, h1, h2, h3⟩ := good_run sqrt hs A (vrms * vrms) hA (mul_self_nonneg _) base ha dts 0 0 _ hg hdt
  rw [zero_add] at h2 h3
  have hget : ∀ i (hi : i < base.length), (sorted.map Sup.arc).getD i 0 = base[i].arc := by
    intro i hi
    have hi' : i < sorted.length := by simpa [hbase] using hi
    rw [List.getD_eq_getElem?_getD]
    simp [hbase, hi', Sup.reset]
  refine ⟨n, S, sorted.map Sup.arc, h1, hpair, hperm.map _, fun x => ⟨h2.ht x, ?_, ?_⟩, ?_⟩
  · rw [← arc_reset, h2.sup, harc]
  · rw [h2.sup, hbase]
    exact hperm.map _
  · intro d hd i j hi hj
    rw [← hblen] at hi hj
    have hle : ∀ i j (_ : i < j) (hj : j < base.length), base[i].arc ≤ base[j].arc := by
      intro i j hij hj
      have := List.pairwise_iff_getElem.1 hpair i j (by simpa [hbase] using hij.trans hj) (by simpa [hbase] using hj) hij
      simpa [hbase, Sup.reset] using this
    rw [hget i hi, hget j hj]
    refine ⟨(h2.one i hi).moments le_rfl d hd, ?_, ?_⟩
    · rcases lt_trichotomy i j with hlt | heq | hgt
      · rw [abs_sub_comm, abs_of_nonneg (sub_nonneg.2 (hle i j hlt hj))]
        exact (((h2.two i j hlt hj).smul (-1)).congr (fun x => by ring) (by ring)).moments le_rfl d hd
      · subst heq
        exact ((Rep.zero (Nat.zero_le n)).congr (fun x => by ring) (by simp)).moments le_rfl d hd
      · rw [abs_of_nonneg (sub_nonneg.2 (hle j i hgt hi))]
        exact (h2.two j i hgt hi).moments le_rfl d hd
    · intro hne hij
      rcases lt_or_gt_of_ne hij with hlt | hgt
      · rw [abs_sub_comm, abs_of_nonneg (sub_nonneg.2 (hle i j hlt hj))]
        exact (((h3 hne i j hlt hj).smul (-1)).congr (fun x => by ring) (by ring)).moments le_rfl d hd
      · rw [abs_of_nonneg (sub_nonneg.2 (hle j i hgt hi))]
        exact (h3 hne j i hgt hi).moments le_rfl d hd

/-- There are independent standard numbers: signs, all equally likely. -/
theorem standard_exists : ∀ n, ∃ d : List (K × (Nat → K)), MultiNormal.Spec.Standard n d
  | 0 => ⟨[(1, fun _ => 0)], by simp [MultiNormal.Spec.average], fun i h => absurd h (by omega), fun i h => absurd h (by omega)⟩
  | n + 1 => by
    obtain ⟨d, h1, h2, h3⟩ := standard_exists n
    let put (e : K) (x : Nat → K) : Nat → K := fun i => if i = n then e else x i
    let d' := d.map (fun p => (p.1 / 2, put 1 p.2)) ++ d.map (fun p => (p.1 / 2, put (-1) p.2))
    have hav : ∀ f, MultiNormal.Spec.average d' f =
        MultiNormal.Spec.average d (fun x => (f (put 1 x) + f (put (-1) x)) / 2) := by
      intro f
      simp only [d', MultiNormal.Spec.average, List.map_append, List.sum_append, List.map_map]
      rw [← List.sum_map_add]
      congr 1
      apply List.map_congr_left
      intro p _
      simp only [Function.comp]
      ring
    have two : ((1 : K) + 1) / 2 = 1 := by norm_num
    refine ⟨d', ?_, ?_, ?_⟩
    · rw [hav]; simpa [two] using h1
    · intro i hi
      rw [hav]
      by_cases hin : i = n
      · subst hin
        have : (fun x : Nat → K => (put 1 x i + put (-1) x i) / 2) = fun _ => 0 := by funext x; simp [put]
        rw [this]
        simp [MultiNormal.Spec.average]
      · have : (fun x : Nat → K => (put 1 x i + put (-1) x i) / 2) = fun x => x i := by funext x; simp [put, hin]
        rw [this, h2 i (by omega)]
    · intro i hi j hj
      rw [hav]
      by_cases hin : i = n
      · by_cases hjn : j = n
        · have : (fun x : Nat → K => (put 1 x i * put 1 x j + put (-1) x i * put (-1) x j) / 2) = fun _ => 1 := by
            funext x; simp [put, hin, hjn, two]
          rw [this, h1, if_pos (by omega)]
        · have : (fun x : Nat → K => (put 1 x i * put 1 x j + put (-1) x i * put (-1) x j) / 2) = fun _ => 0 := by
            funext x; simp [put, hin, hjn]
          rw [this, if_neg (by omega)]
          simp [MultiNormal.Spec.average]
      · by_cases hjn : j = n
        · have : (fun x : Nat → K => (put 1 x i * put 1 x j + put (-1) x i * put (-1) x j) / 2) = fun _ => 0 := by
            funext x; simp [put, hin, hjn]
          rw [this, if_neg (by omega)]
          simp [MultiNormal.Spec.average]
        · have : (fun x : Nat → K => (put 1 x i * put 1 x j + put (-1) x i * put (-1) x j) / 2) = fun x => x i * x j := by
            funext x; simp [put, hin, hjn]
          rw [this, h3 i (by omega) j (by omega)]

/-- C156: `Reset` after any steps gives the object as it was made, with the supports at zero, except for the numbers used. -/
theorem simple_reset (sqrt : K → K) (x : Nat → K) (A : K) (sup : List (Sup K)) (vrms : K) (dts : List K) (s : Simple K)
    (h : (Simple.new A sup vrms).run sqrt x dts = .ok s) :
    s.reset = { Simple.new A sup vrms with
      sup := (Simple.new A sup vrms).sup.map Sup.reset, k := s.k } := by
  -- what a step keeps
  have hone : ∀ (AT vv : K) (l : List (Sup K)) (gs : List K) (y z : K) (k : Nat) r,
      applyAll sqrt x AT vv y z k l gs = .ok r → r.1.map Sup.reset = l.map Sup.reset ∧ r.2.1.length = gs.length := by
    intro AT vv l
    induction l with
    | nil =>
      intro gs y z k r hr
      rw [applyAll] at hr
      cases hr
      exact ⟨rfl, rfl⟩
    | cons a l ih =>
      intro gs y z k r hr
      cases gs with
      | nil => rw [applyAll] at hr; cases hr
      | cons g gs =>
        rw [applyAll] at hr
        cases h1 : draw sqrt x (AT * (a.arc - z)) k with
        | ok d =>
          rw [h1] at hr
          cases h2 : draw sqrt x vv d.2 with
          | ok n =>
            simp only [Outcome.bind, h2] at hr
            cases h3 : applyAll sqrt x AT vv (y + d.1) a.arc n.2 l gs with
            | ok q =>
              simp only [h3] at hr
              cases hr
              obtain ⟨i1, i2⟩ := ih _ _ _ _ _ h3
              exact ⟨by simp only [List.map_cons, i1]; rfl, by simp [i2]⟩
            | throw e => simp only [h3] at hr; cases hr
            | ub => simp only [h3] at hr; cases hr
          | throw e => simp only [Outcome.bind, h2] at hr; cases hr
          | ub => simp only [Outcome.bind, h2] at hr; cases hr
        | throw e => rw [h1] at hr; simp only [Outcome.bind] at hr; cases hr
        | ub => rw [h1] at hr; simp only [Outcome.bind] at hr; cases hr
  have hrun : ∀ (l : List K) (a b : Simple K), a.run sqrt x l = .ok b →
      b.A = a.A ∧ b.vv = a.vv ∧ b.sup.map Sup.reset = a.sup.map Sup.reset ∧ b.gm.length = a.gm.length := by
    intro l
    induction l with
    | nil => intro a b hr; rw [Simple.run] at hr; cases hr; exact ⟨rfl, rfl, rfl, rfl⟩
    | cons dt l ih =>
      intro a b hr
      rw [Simple.run, Simple.step] at hr
      cases h1 : applyAll sqrt x (a.A * dt) a.vv 0 0 a.k a.sup a.gm with
      | ok r =>
        simp only [h1, Outcome.bind] at hr
        obtain ⟨i1, i2, i3, i4⟩ := ih _ _ hr
        obtain ⟨j1, j2⟩ := hone _ _ _ _ _ _ _ _ h1
        exact ⟨i1, i2, i3.trans j1, i4.trans j2⟩
      | throw e => simp only [h1, Outcome.bind] at hr; cases hr
      | ub => simp only [h1, Outcome.bind] at hr; cases hr
  obtain ⟨h1, h2, h3, h4⟩ := hrun dts _ s h
  have hgm : s.gm.map (fun _ => (0 : K)) = (Simple.new A sup vrms).gm := by
    rw [List.map_const', h4]
    simp [Simple.new]
  cases s
  simp only [Simple.reset] at *
  subst h1 h2
  rw [h3, hgm]
  rfl

/-- C156 does not hold for supports before the origin: a step takes the square root of a negative number whenever the first support has a
negative arc position. -/
theorem negative_arc_violated (sqrt : K → K) (x : Nat → K) (s : Simple K) (a : Sup K) (l : List (Sup K)) (hs : s.sup = a :: l)
    (hg : s.gm ≠ []) (ha : a.arc < 0) (dt : K) (hA : 0 < s.A * dt) : s.step sqrt x dt = .ub := by
  obtain ⟨g, gs, hgs⟩ := List.exists_cons_of_ne_nil hg
  have hneg : s.A * dt * (a.arc - 0) < 0 := mul_neg_of_pos_of_neg hA (by simpa using ha)
  rw [Simple.step, hs, hgs, applyAll, draw, if_neg hneg.ne, if_pos hneg]
  rfl

/-- The example of two supports, three metres apart: with `A = 2`, after one and four seconds, the variance of the difference
is 30. -/
noncomputable example : ∃ (n : Nat) (S : (Nat → ℝ) → Simple ℝ), (∀ x, (Simple.new (2 : ℝ) [⟨4, 0, 0, (0, 0, 0)⟩, ⟨1, 0, 0, (0, 0, 0)⟩] 0).run Real.sqrt x [1, 4] = .ok (S x)) ∧
    ∀ d, MultiNormal.Spec.Standard n d → Spec.Moments d (fun x => Spec.motion (S x) 0 - Spec.motion (S x) 1) 30 := by
  obtain ⟨n, S, arcs, h1, h2, h3, _, h5⟩ := simple_law Real.sqrt (fun x hx => Real.mul_self_sqrt hx) (2 : ℝ) (by norm_num)
    [⟨4, 0, 0, (0, 0, 0)⟩, ⟨1, 0, 0, (0, 0, 0)⟩] (by simp) 0 [1, 4] (by simp)
  refine ⟨n, S, h1, fun d hd => ?_⟩
  have harcs : arcs = [1, 4] := by
    have hlen := h3.length_eq
    simp only [List.map_cons, List.map_nil, List.length_cons, List.length_nil] at hlen
    refine List.Perm.eq_of_pairwise' h2 (by simp) (h3.trans ?_)
    exact List.Perm.swap _ _ _
  have h6 := (h5 d hd 0 1 (by simp) (by simp)).2.1
  subst harcs
  convert h6 using 1
  simp only [List.sum_cons, List.sum_nil, List.getD_cons_zero, List.getD_cons_succ]
  rw [abs_of_neg (by norm_num)]
  norm_num

/-! ## C157: the ATL law of ATL2D -/

/-- The amplitudes without outcomes: all sums of them are linear forms. -/
theorem amplitudes_rep (sqrt : K → K) (hs : ∀ x, 0 ≤ x → sqrt x * sqrt x = x) (at_ : K) (evals : Nat → K) :
    ∀ (b n k : Nat), (∀ i, n ≤ i → i < n + b → 0 ≤ at_ * evals i) →
      ∃ (k' : Nat) (r : (Nat → K) → Nat → K), (∀ x, amplitudes sqrt x at_ evals b n k = .ok (r x, k')) ∧ (∀ x i, i < n → r x i = 0) ∧
        ∀ w : Nat → K, Rep k k' (fun x => ∑ i ∈ Ico n (n + b), w i * r x i) (∑ i ∈ Ico n (n + b), w i * w i * (at_ * evals i))
  | 0, n, k, _ => ⟨k, fun _ _ => 0, fun x => rfl, fun _ _ _ => rfl, fun w => by
      simpa using (Rep.zero (le_refl k) : Rep k k (fun _ => (0 : K)) 0)⟩
  | b + 1, n, k, h => by
    have hsplit : ∀ f : Nat → K, ∑ i ∈ Ico n (n + (b + 1)), f i = f n + ∑ i ∈ Ico (n + 1) (n + 1 + b), f i := by
      intro f
      rw [Finset.sum_eq_sum_Ico_succ_bot (by omega)]
      congr 2
      congr 1
      omega
    by_cases h0 : at_ * evals n = 0
    · obtain ⟨k', r, h1, h2, h3⟩ := amplitudes_rep sqrt hs at_ evals b (n + 1) k fun i hi hj => h i (by omega) (by omega)
      refine ⟨k', r, fun x => ?_, fun x i hi => h2 x i (by omega), fun w => ?_⟩
      · rw [amplitudes, if_pos h0]
        exact h1 x
      · refine (h3 w).congr (fun x => ?_) ?_
        · rw [hsplit, h2 x n (by omega)]
          ring
        · rw [hsplit, h0]
          ring
    · have hpos : 0 ≤ at_ * evals n := h n le_rfl (by omega)
      obtain ⟨k', r, h1, h2, h3⟩ := amplitudes_rep sqrt hs at_ evals b (n + 1) (k + 1) fun i hi hj => h i (by omega) (by omega)
      refine ⟨k', fun x i => if i = n then sqrt (at_ * evals n) * x k else r x i, fun x => ?_, fun x i hi => ?_, fun w => ?_⟩
      · rw [amplitudes, if_neg h0, if_neg (not_lt.2 hpos), h1]
        rfl
      · simp only
        rw [if_neg (by omega), h2 x i (by omega)]
      · have hd : Rep k (k + 1) (fun x => sqrt (at_ * evals n) * x k) (at_ * evals n) :=
          ⟨by omega, fun _ => sqrt (at_ * evals n), fun x => by simp, by simp [hs _ hpos]⟩
        refine ((hd.smul (w n)).add (h3 w)).congr (fun x => ?_) ?_
        · rw [hsplit]
          simp only [if_true]
          congr 1
          refine sum_congr rfl fun i hi => ?_
          rw [mem_Ico] at hi
          rw [if_neg (by omega)]
        · rw [hsplit]

/-- The matrix is what the eigenvectors, in the columns, and the eigenvalues stand for. -/
def Eigen (n : Nat) (c evecs : Nat → Nat → K) (evals : Nat → K) : Prop :=
  ∀ i < n, ∀ j < n, ∑ l ∈ range n, evecs i l * evals l * evecs j l = c i j

/-- The differences of the motions have the variance of the law. -/
theorem two_diff (sqrt : K → K) (hs : ∀ x, 0 ≤ x → sqrt x * sqrt x = x) (n k : Nat) (at_ : K) (hat : 0 ≤ at_)
    (dist : Nat → Nat → K) (ref : Nat → K) (hd0 : ∀ i, dist i i = 0) (hds : ∀ i j, dist i j = dist j i)
    (evecs : Nat → Nat → K) (evals : Nat → K) (he : ∀ i < n, 0 ≤ evals i) (heig : Eigen n (corr dist ref) evecs evals) :
    ∃ (k' : Nat) (r : (Nat → K) → Nat → K), (∀ x, amplitudes sqrt x at_ evals n 0 k = .ok (r x, k')) ∧ k ≤ k' ∧ ∀ i < n, ∀ j < n,
      Rep k k' (fun x => mulVec n evecs (r x) i - mulVec n evecs (r x) j) (at_ * dist i j) := by
  obtain ⟨k', r, h1, _, h3⟩ := amplitudes_rep sqrt hs at_ evals n 0 k fun i _ hi => mul_nonneg hat (he i (by omega))
  refine ⟨k', r, h1, (h3 fun _ => 0).1, fun i hi j hj => ?_⟩
  have h4 := h3 fun l => evecs i l - evecs j l
  rw [Nat.zero_add, ← Finset.range_eq_Ico] at h4
  refine h4.congr (fun x => ?_) ?_
  · rw [mulVec, mulVec, ← Finset.sum_sub_distrib]
    exact sum_congr rfl fun l _ => by ring
  · have e : ∀ a b, corr dist ref a b = (ref a + ref b - dist a b) / 2 := by
      intro a b
      rw [corr]
      split
      · ring
      · rw [hds b a]
    have : ∑ l ∈ range n, (evecs i l - evecs j l) * (evecs i l - evecs j l) * (at_ * evals l) =
        at_ * (∑ l ∈ range n, evecs i l * evals l * evecs i l - 2 * ∑ l ∈ range n, evecs i l * evals l * evecs j l +
          ∑ l ∈ range n, evecs j l * evals l * evecs j l) := by
      simp only [Finset.mul_sum, ← Finset.sum_sub_distrib, ← Finset.sum_add_distrib, mul_add, mul_sub]
      exact sum_congr rfl fun l _ => by ring
    rw [this, heig i hi i hi, heig i hi j hj, heig j hj j hj, e, e, e, hd0, hd0]
    ring

theorem applyTwo_inc (sqrt : K → K) (x : Nat → K) (vv : K) (dy : Nat → K) : ∀ (l : List (Sup K)) (n k : Nat),
    ∃ sups, applyTwo sqrt x vv .increment dy n k l = .ok (sups, k) ∧ sups.length = l.length ∧
      ∀ i < l.length, Spec.height sups i = Spec.height l i + dy (n + i)
  | [], n, k => ⟨[], rfl, rfl, fun i hi => absurd hi (by simp)⟩
  | s :: l, n, k => by
    obtain ⟨sups, h1, h2, h3⟩ := applyTwo_inc sqrt x vv dy l (n + 1) k
    refine ⟨{ s with off := (s.off.1, s.off.2.1 + dy n, s.off.2.2) } :: sups, ?_, by simp [h2], ?_⟩
    · rw [applyTwo]
      simp only [h1]
      rfl
    · intro i hi
      cases i with
      | zero => simp [Spec.height]
      | succ i =>
        have := h3 i (by simpa using hi)
        rw [show n + (i + 1) = n + 1 + i by omega]
        simpa [Spec.height] using this

/-- The noise of a support in absolute mode. -/
theorem applyTwo_abs (sqrt : K → K) (hs : ∀ x, 0 ≤ x → sqrt x * sqrt x = x) (vv : K) (hv : 0 ≤ vv) : ∀ (m n k : Nat),
    ∃ (k' : Nat) (noise : (Nat → K) → Nat → K), k ≤ k' ∧ (∀ (l : List (Sup K)) (x dy : Nat → K), l.length = m →
      ∃ sups, applyTwo sqrt x vv .absolute dy n k l = .ok (sups, k') ∧ sups.length = m ∧
        ∀ i < m, Spec.height sups i = dy (n + i) + noise x i) ∧
      (∀ i < m, Rep k k' (fun x => noise x i) vv) ∧ ∀ i j, i < j → j < m → Rep k k' (fun x => noise x i - noise x j) (2 * vv)
  | 0, n, k => ⟨k, fun _ _ => 0, le_rfl, fun l x dy hl => by
      rw [List.length_eq_zero_iff] at hl
      subst hl
      exact ⟨[], rfl, rfl, fun i hi => absurd hi (by omega)⟩, fun i hi => absurd hi (by omega), fun i j hij hj => absurd hj (by omega)⟩
  | m + 1, n, k => by
    obtain ⟨k', noise, h0, h1, h2, h3⟩ := applyTwo_abs sqrt hs vv hv m (n + 1) (dk vv k)
    have hd := draw_rep sqrt hs vv hv k
    refine ⟨k', fun x i => if i = 0 then dv sqrt x vv k else noise x (i - 1), (dk_le vv k).trans h0, ?_, ?_, ?_⟩
    · intro l x dy hl
      cases l with
      | nil => simp at hl
      | cons s l =>
        obtain ⟨sups, g1, g2, g3⟩ := h1 l x dy (by simpa using hl)
        refine ⟨{ s with off := (0, dy n + dv sqrt x vv k, 0) } :: sups, ?_, by simp [g2], ?_⟩
        · rw [applyTwo]
          simp only [draw_ok sqrt x vv hv, Outcome.bind, g1]
        · intro i hi
          cases i with
          | zero => simp [Spec.height]
          | succ i =>
            have := g3 i (by omega)
            rw [show n + (i + 1) = n + 1 + i by omega]
            simpa [Spec.height] using this
    · intro i hi
      cases i with
      | zero => exact (hd.right h0).congr (fun x => by simp) rfl
      | succ i => exact ((h2 i (by omega)).left (dk_le vv k)).congr (fun x => by simp) rfl
    · intro i j hij hj
      cases j with
      | zero => omega
      | succ j =>
        cases i with
        | zero => exact (hd.add ((h2 j (by omega)).smul (-1))).congr (fun x => by simp; ring) (by ring)
        | succ i => exact ((h3 i j (by omega) (by omega)).left (dk_le vv k)).congr (fun x => by simp) rfl

/-- A family of states in increment mode in which the law holds. -/
structure Good2 (A : K) (n : Nat) (evecs : Nat → Nat → K) (evals : Nat → K) (dist : Nat → Nat → K) (t : K) (k : Nat)
    (S : (Nat → K) → Two K) : Prop where
  hA : ∀ x, (S x).A = A
  hn : ∀ x, (S x).sup.length = n
  hvec : ∀ x, (S x).evecs = evecs
  hval : ∀ x, (S x).evals = evals
  hm : ∀ x, (S x).mode = .increment
  ht : ∀ x, (S x).t = t
  hk : ∀ x, (S x).k = k
  law : ∀ i < n, ∀ j < n, Rep 0 k (fun x => Spec.height (S x).sup i - Spec.height (S x).sup j) (A * t * dist i j)

theorem good2_step (sqrt : K → K) (hs : ∀ x, 0 ≤ x → sqrt x * sqrt x = x) (A : K) (hA : 0 ≤ A) (n : Nat)
    (dist : Nat → Nat → K) (ref : Nat → K) (hd0 : ∀ i, dist i i = 0) (hds : ∀ i j, dist i j = dist j i)
    (evecs : Nat → Nat → K) (evals : Nat → K) (he : ∀ i < n, 0 ≤ evals i) (heig : Eigen n (corr dist ref) evecs evals)
    (t : K) (k : Nat) (S : (Nat → K) → Two K) (h : Good2 A n evecs evals dist t k S) (dt : K) (hdt : 0 ≤ dt) :
    ∃ (k' : Nat) (S' : (Nat → K) → Two K), (∀ x, (S x).step sqrt x dt = .ok (S' x)) ∧
      Good2 A n evecs evals dist (t + dt) k' S' := by
  obtain ⟨k', r, h1, _, h3⟩ := two_diff sqrt hs n k (A * dt) (mul_nonneg hA hdt) dist ref hd0 hds evecs evals he heig
  have hap : ∀ x, ∃ sups, applyTwo sqrt x (S x).vv .increment (mulVec n evecs (r x)) 0 k' (S x).sup = .ok (sups, k') ∧
      sups.length = n ∧ ∀ i < n, Spec.height sups i = Spec.height (S x).sup i + mulVec n evecs (r x) (0 + i) := fun x => by
    have := applyTwo_inc sqrt x (S x).vv (mulVec n evecs (r x)) (S x).sup 0 k'
    rwa [h.hn] at this
  choose sups g1 g2 g3 using hap
  refine ⟨k', fun x => { S x with sup := sups x, k := k', t := (S x).t + dt }, ?_,
    ⟨h.hA, g2, h.hvec, h.hval, h.hm, fun x => by simp only [h.ht], fun _ => rfl, ?_⟩⟩
  · intro x
    rw [Two.step]
    simp only [h.hm, h.hA, h.hn, h.hk, h.hval, h.hvec, if_true, h1, Outcome.bind, g1]
  · intro i hi j hj
    refine ((h.law i hi j hj).add (h3 i hi j hj)).congr (fun x => ?_) (by ring)
    simp only [g3 x i hi, g3 x j hj, Nat.zero_add]
    ring

theorem good2_run (sqrt : K → K) (hs : ∀ x, 0 ≤ x → sqrt x * sqrt x = x) (A : K) (hA : 0 ≤ A) (n : Nat)
    (dist : Nat → Nat → K) (ref : Nat → K) (hd0 : ∀ i, dist i i = 0) (hds : ∀ i j, dist i j = dist j i)
    (evecs : Nat → Nat → K) (evals : Nat → K) (he : ∀ i < n, 0 ≤ evals i) (heig : Eigen n (corr dist ref) evecs evals) :
    ∀ (dts : List K) (t : K) (k : Nat) (S : (Nat → K) → Two K), Good2 A n evecs evals dist t k S → (∀ dt ∈ dts, 0 ≤ dt) →
    ∃ (k' : Nat) (S' : (Nat → K) → Two K), (∀ x, (S x).run sqrt x dts = .ok (S' x)) ∧
      Good2 A n evecs evals dist (t + dts.sum) k' S'
  | [], t, k, S, h, _ => ⟨k, S, fun x => rfl, by simpa using h⟩
  | dt :: dts, t, k, S, h, hd => by
    obtain ⟨k1, S1, h1, h2⟩ := good2_step sqrt hs A hA n dist ref hd0 hds evecs evals he heig t k S h dt (hd dt (by simp))
    obtain ⟨k2, S2, g1, g2⟩ := good2_run sqrt hs A hA n dist ref hd0 hds evecs evals he heig dts (t + dt) k1 S1 h2
      fun d hm => hd d (by simp [hm])
    refine ⟨k2, S2, fun x => ?_, ?_⟩
    · rw [Two.run, h1 x]
      exact g1 x
    · rw [List.sum_cons, ← add_assoc]
      exact g2

/-- C157: in increment mode, from supports at zero, any steps forward in time succeed, and then the offsets of two supports
anywhere in the plane differ by a random number of mean zero and variance `A · T · distance`, if the eigenvectors stand in
the columns of the matrix and no eigenvalue is negative. -/
theorem two_increment_partial (sqrt : K → K) (hs : ∀ x, 0 ≤ x → sqrt x * sqrt x = x) (s : Two K) (hm : s.mode = .increment)
    (hA : 0 ≤ s.A) (ht : s.t = 0) (hk : s.k = 0) (h0 : ∀ i, Spec.height s.sup i = 0)
    (dist : Nat → Nat → K) (ref : Nat → K) (hd0 : ∀ i, dist i i = 0)
    (hds : ∀ i j, dist i j = dist j i) (he : ∀ i < s.sup.length, 0 ≤ s.evals i)
    (heig : Eigen s.sup.length (corr dist ref) s.evecs s.evals) (dts : List K) (hdt : ∀ dt ∈ dts, 0 ≤ dt) :
    ∃ (n : Nat) (S : (Nat → K) → Two K), (∀ x, s.run sqrt x dts = .ok (S x)) ∧ (∀ x, (S x).t = dts.sum) ∧
      ∀ d, MultiNormal.Spec.Standard n d → ∀ i < s.sup.length, ∀ j < s.sup.length, Spec.Moments d (fun x =>
        Spec.height (S x).sup i - Spec.height (S x).sup j) (s.A * dts.sum * dist i j) := by
  have hg : Good2 s.A s.sup.length s.evecs s.evals dist 0 0 fun _ => s :=
    ⟨fun _ => rfl, fun _ => rfl, fun _ => rfl, fun _ => rfl, fun _ => hm, fun _ => ht, fun _ => hk, fun i _ j _ =>
      (Rep.zero le_rfl).congr (fun x => by rw [h0, h0, sub_self]) (by ring)⟩
  obtain ⟨n, S, h1, h2⟩ := good2_run sqrt hs s.A hA s.sup.length dist ref hd0 hds s.evecs s.evals he heig dts 0 0 _ hg hdt
  rw [zero_add] at h2
  exact ⟨n, S, h1, h2.ht, fun d hd i hi j hj => (h2.law i hi j hj).moments le_rfl d hd⟩

/-- C157: in absolute mode the offsets after a step have the differences of the law for the time before the step, with the
noise in addition. -/
theorem two_absolute_partial (sqrt : K → K) (hs : ∀ x, 0 ≤ x → sqrt x * sqrt x = x) (s : Two K) (hm : s.mode = .absolute)
    (dt : K) (hat : 0 ≤ s.A * s.t) (hv : 0 ≤ s.vv) (dist : Nat → Nat → K) (ref : Nat → K) (hd0 : ∀ i, dist i i = 0)
    (hds : ∀ i j, dist i j = dist j i) (he : ∀ i < s.sup.length, 0 ≤ s.evals i)
    (heig : Eigen s.sup.length (corr dist ref) s.evecs s.evals) :
    ∃ (n : Nat) (S : (Nat → K) → Two K), (∀ x, s.step sqrt x dt = .ok (S x)) ∧ (∀ x, (S x).t = s.t + dt) ∧
      ∀ d, MultiNormal.Spec.Standard n d → ∀ i j, i < j → j < s.sup.length → Spec.Moments d (fun x =>
        Spec.height (S x).sup i - Spec.height (S x).sup j) (s.A * s.t * dist i j + 2 * s.vv) := by
  obtain ⟨k', r, h1, _, h3⟩ := two_diff sqrt hs s.sup.length s.k (s.A * s.t) hat dist ref hd0 hds s.evecs s.evals he heig
  obtain ⟨k2, noise, _, g1, _, g3⟩ := applyTwo_abs sqrt hs s.vv hv s.sup.length 0 k'
  have hap := fun x => g1 s.sup x (mulVec s.sup.length s.evecs (r x)) rfl
  choose sups f1 _ f3 using hap
  refine ⟨k2, fun x => { s with sup := sups x, k := k2, t := s.t + dt }, ?_, fun _ => rfl, ?_⟩
  · intro x
    rw [Two.step]
    simp only [hm, Outcome.bind]
    rw [if_neg (by decide), h1]
    simp only [f1]
  · intro d hd i j hij hj
    refine (((h3 i (by omega) j hj).add (g3 i j hij hj)).congr (fun x => ?_) rfl).moments le_rfl d hd
    simp only [f3 x i (by omega), f3 x j hj, Nat.zero_add]
    ring

/-- C157 does not hold in absolute mode, which is the one of a new object: after the first step, whatever its length and whatever
the numbers, no support has moved, although the clock shows the step. -/
theorem absolute_violated (sqrt : K → K) (x : Nat → K) (s : Two K) (hm : s.mode = .absolute) (ht : s.t = 0) (hv : s.vv = 0)
    (dt : K) : ∃ s', s.step sqrt x dt = .ok s' ∧ s'.t = dt ∧ ∀ i, Spec.height s'.sup i = 0 := by
  have ham : ∀ b n k, amplitudes sqrt x 0 s.evals b n k = .ok (fun _ => 0, k) := by
    intro b
    induction b with
    | zero => intro n k; rfl
    | succ b ih =>
      intro n k
      rw [amplitudes, if_pos (zero_mul _)]
      exact ih _ _
  have hap : ∀ (l : List (Sup K)) n k, ∃ sups, applyTwo sqrt x 0 .absolute (fun _ => 0) n k l = .ok (sups, k) ∧
      ∀ i, Spec.height sups i = 0 := by
    intro l
    induction l with
    | nil => intro n k; exact ⟨[], rfl, fun i => by simp [Spec.height]⟩
    | cons a l ih =>
      intro n k
      obtain ⟨sups, h1, h2⟩ := ih (n + 1) k
      refine ⟨{ a with off := (0, 0 + 0, 0) } :: sups, ?_, ?_⟩
      · rw [applyTwo]
        simp only [draw, if_true, Outcome.bind, h1]
      · intro i
        cases i with
        | zero => simp [Spec.height]
        | succ i => simpa [Spec.height] using h2 i
  have hmul : mulVec s.sup.length s.evecs (fun _ => 0) = fun _ => 0 := by
    funext i
    simp [mulVec]
  obtain ⟨sups, h1, h2⟩ := hap s.sup 0 s.k
  refine ⟨{ s with sup := sups, k := s.k, t := s.t + dt }, ?_, by simp [ht], h2⟩
  rw [Two.step]
  simp only [hm, ht, hv, mul_zero]
  rw [if_neg (by decide), ham]
  simp only [Outcome.bind, hmul, h1]

/-- An example of the hypotheses: two supports at a distance of two, the reference half way, and the vectors of the matrix. -/
example : Eigen 2 (corr (fun i j => if i = j then 0 else 2) fun _ => 1) (fun i j => if i = j then 1 else 0) (fun _ => (1 : ℚ)) := by
  intro i hi j hj
  have h1 : i = 0 ∨ i = 1 := by omega
  have h2 : j = 0 ∨ j = 1 := by omega
  rcases h1 with rfl | rfl <;> rcases h2 with rfl | rfl <;> norm_num [corr, Finset.sum_range_succ]

/-! ## C158: modes and files of ATL2D -/

/-- C158: refused calls change nothing, and accepted ones set what is asked. -/
theorem two_settings (s : Two K) (mode : Mode) (vrms : K) :
    ((s.setMode mode).2 = false → (s.setMode mode).1 = s) ∧ ((s.setMode mode).2 = true → (s.setMode mode).1.mode = mode) ∧
    ((s.setVibration vrms).2 = true ↔ s.mode = .absolute) ∧
    ((s.setVibration vrms).2 = false → (s.setVibration vrms).1 = s) ∧
    ((s.setVibration vrms).2 = true → (s.setVibration vrms).1.vv = vrms * vrms ∧ (s.setVibration vrms).1.mode = s.mode) := by
  refine ⟨?_, ?_, ?_, ?_, ?_⟩
  · unfold Two.setMode; split <;> simp
  · unfold Two.setMode; split <;> simp
  · unfold Two.setVibration
    cases h : s.mode <;> simp
  · unfold Two.setVibration; split <;> simp
  · unfold Two.setVibration; split <;> simp

/-- C158 does not hold: increment mode is entered with a vibration set, in which it has no effect, and is then never left
again. -/
theorem two_mode_violated (s : Two K) (hm : s.mode = .absolute) (vrms : K) (hv : vrms ≠ 0) :
    let s1 := (s.setVibration vrms).1
    (s1.setMode .increment).2 = true ∧ (s1.setMode .increment).1.mode = .increment ∧ 0 < (s1.setMode .increment).1.vv ∧
    ((s1.setMode .increment).1.setMode .absolute).2 = false ∧ ((s1.setMode .increment).1.setVibration 0).2 = false := by
  have h : 0 < vrms * vrms := mul_self_pos.2 hv
  have e1 : s.setVibration vrms = ({ s with vv := vrms * vrms }, true) := by rw [Two.setVibration, if_neg (by rw [hm]; decide)]
  have e2 : ({ s with vv := vrms * vrms } : Two K).setMode .increment = ({ s with vv := vrms * vrms, mode := .increment }, true) := by
    rw [Two.setMode, if_neg]
    rintro ⟨h1, _⟩
    simp only [hm] at h1
    cases h1
  simp only [e1, e2]
  refine ⟨trivial, trivial, h, ?_, ?_⟩
  · rw [Two.setMode, if_pos ⟨rfl, h⟩]
  · rw [Two.setVibration, if_pos rfl]

theorem readRow_spec (row : Nat) (f : Nat → K) : ∀ (l : List Nat) (rest : List K) (m : Nat → Nat → K),
    ∃ m', readRow row l (l.map f ++ rest) m = some (m', rest) ∧
      ∀ i j, m' i j = if i = row ∧ j ∈ l then f j else if j = row ∧ i ∈ l then f i else m i j
  | [], rest, m => ⟨m, rfl, fun i j => by simp⟩
  | c :: l, rest, m => by
    obtain ⟨m', h1, h2⟩ := readRow_spec row f l rest fun i j => if (i = row ∧ j = c) ∨ (i = c ∧ j = row) then f c else m i j
    refine ⟨m', h1, fun i j => ?_⟩
    rw [h2]
    by_cases a1 : i = row ∧ j ∈ l
    · rw [if_pos a1, if_pos ⟨a1.1, by simp [a1.2]⟩]
    · rw [if_neg a1]
      by_cases a2 : j = row ∧ i ∈ l
      · rw [if_pos a2]
        by_cases a3 : i = row ∧ j ∈ c :: l
        · rw [if_pos a3, a3.1, a2.1]
        · rw [if_neg a3, if_pos ⟨a2.1, by simp [a2.2]⟩]
      · rw [if_neg a2]
        by_cases a3 : i = row ∧ j = c
        · rw [if_pos (Or.inl a3), if_pos ⟨a3.1, by simp [a3.2]⟩, a3.2]
        · by_cases a4 : i = c ∧ j = row
          · rw [if_pos (Or.inr a4)]
            by_cases a5 : i = row ∧ j ∈ c :: l
            · exact absurd ⟨a5.1, by rw [a4.2, ← a5.1, a4.1]⟩ a3
            · rw [if_neg a5, if_pos ⟨a4.2, by simp [a4.1]⟩, a4.1]
          · rw [if_neg (by tauto), if_neg (by simp only [List.mem_cons]; tauto), if_neg (by simp only [List.mem_cons]; tauto)]

theorem readRows_spec (n : Nat) (v : Nat → Nat → K) : ∀ (b row : Nat) (m : Nat → Nat → K), row + b = n →
    ∃ m', readRows n b row ((List.range' row b).flatMap fun r => (List.range' r (n - r)).map fun c => v r c) m = some m' ∧
      ∀ i < n, ∀ j < n, m' i j = if row ≤ min i j then v (min i j) (max i j) else m i j
  | 0, row, m, hr => ⟨m, rfl, fun i hi j hj => by rw [if_neg (by omega)]⟩
  | b + 1, row, m, hr => by
    obtain ⟨m1, h1, h2⟩ := readRow_spec row (v row) (List.range' row (n - row))
      ((List.range' (row + 1) b).flatMap fun r => (List.range' r (n - r)).map fun c => v r c) m
    obtain ⟨m2, h3, h4⟩ := readRows_spec n v b (row + 1) m1 (by omega)
    refine ⟨m2, ?_, fun i hi j hj => ?_⟩
    · rw [List.range'_succ, List.flatMap_cons, readRows, h1]
      exact h3
    · rw [h4 i hi j hj, h2]
      by_cases hm : row + 1 ≤ min i j
      · rw [if_pos hm, if_pos (by omega)]
      · rw [if_neg hm]
        simp only [List.mem_range'_1]
        by_cases hr1 : row ≤ min i j
        · rw [if_pos hr1]
          by_cases hir : i = row
          · rw [if_pos ⟨hir, by omega, by omega⟩, min_eq_left (by omega), max_eq_right (by omega), hir]
          · rw [if_neg (fun h => hir h.1), if_pos ⟨by omega, by omega, by omega⟩, min_eq_right (by omega), max_eq_left (by omega),
              show j = row by omega]
        · rw [if_neg hr1, if_neg (by omega), if_neg (by omega)]

/-- C158: what is read back from the file is the matrix with its upper triangle in place of the lower one, so the eigenvectors
come back exactly if their matrix is symmetric. -/
theorem record_partial (n : Nat) (v : Nat → Nat → K) : ∃ m, readVecs n (recordVecs n v) = some m ∧
    ((∀ i < n, ∀ j < n, m i j = v i j) ↔ ∀ i < n, ∀ j < n, v i j = v j i) := by
  obtain ⟨m, h1, h2⟩ := readRows_spec n v n 0 (fun _ _ => 0) (by omega)
  refine ⟨m, ?_, ?_⟩
  · rw [readVecs, recordVecs, List.range_eq_range']
    exact h1
  · constructor
    · intro h i hi j hj
      rw [← h i hi j hj, ← h j hj i hi, h2 i hi j hj, h2 j hj i hi, min_comm, max_comm]
    · intro h i hi j hj
      rw [h2 i hi j hj, if_pos (Nat.zero_le _)]
      rcases Nat.le_total i j with hij | hij
      · rw [min_eq_left hij, max_eq_right hij]
      · rw [min_eq_right hij, max_eq_left hij, h j hj i hi]

/-- The vectors of a rotation by a quarter. -/
def quarter : Nat → Nat → ℚ := fun i j => if i = 0 ∧ j = 1 then -1 else if i = 1 ∧ j = 0 then 1 else 0

/-- C158 does not hold for eigenvectors in general: those of a rotation by a quarter come back as a reflection. -/
theorem record_violated : ∃ m, readVecs 2 (recordVecs 2 quarter) = some m ∧ quarter 1 0 = 1 ∧ m 1 0 = -1 := by
  refine ⟨_, rfl, by decide +kernel, by decide +kernel⟩

end Verif.ATL
