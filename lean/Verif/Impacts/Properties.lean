import Mathlib.Algebra.Order.Ring.Int
import Mathlib.Data.List.Basic
import Mathlib.Order.Basic
import Verif.Impacts.Spec

/-! # Properties of the records of impacts -/

namespace Verif.Impacts

variable {K : Type}

theorem path_inj {directory kind n m : String} {seed : Int} (h : path directory kind n seed = path directory kind m seed) :
    n = m := by
  unfold path at h
  have h' := congrArg String.toList h
  simp only [String.toList_append, List.append_assoc] at h'
  have h1 := List.append_cancel_left (List.append_cancel_left h')
  have h2 := List.append_cancel_right h1
  exact String.toList_inj.1 h2

theorem fold_other {f : String → List (List (Entry K))} {g : String → String} : ∀ (names : List String) (fs : Files K) (q : String),
    (∀ n ∈ names, q ≠ g n) → names.foldl (fun fs name => write fs (g name) (f name)) fs q = fs q := by
  intro names
  induction names with
  | nil => intro fs q _; rfl
  | cons n names ih =>
    intro fs q h
    rw [List.foldl_cons, ih _ _ fun m hm => h m (List.mem_cons_of_mem _ hm)]
    exact if_neg (h n List.mem_cons_self)

theorem fold_at {f : String → List (List (Entry K))} {g : String → String} (hg : ∀ n m, g n = g m → n = m) :
    ∀ (names : List String) (fs : Files K) (n : String), n ∈ names →
    names.foldl (fun fs name => write fs (g name) (f name)) fs (g n) = some (f n) := by
  intro names
  induction names with
  | nil => intro fs n h; cases h
  | cons m names ih =>
    intro fs n h
    rw [List.foldl_cons]
    by_cases hn : n ∈ names
    · exact ih _ n hn
    · rcases List.mem_cons.1 h with rfl | h
      · rw [fold_other _ _ _ fun k hk hgk => hn (by have := hg _ _ hgk; subst this; exact hk)]
        exact if_pos rfl
      · exact absurd h hn

/-- Impacts recorded one after the other. -/
def record (st : State K) (calls : List (Particle K × Int × String)) : State K :=
  calls.foldl (fun st c => jawImpact st c.1 c.2.1 c.2.2) st

theorem record_jaws : ∀ (calls : List (Particle K × Int × String)) (st : State K),
    (record st calls).jawNames = st.jawNames ∧ (record st calls).jaws = st.jaws ++ calls.map fun c =>
      ⟨c.2.1, c.1.id, c.1.x, c.1.xp, c.1.y, c.1.yp, c.1.ct, c.1.dp, c.2.2⟩ := by
  intro calls
  induction calls with
  | nil => intro st; exact ⟨rfl, (List.append_nil _).symm⟩
  | cons c calls ih =>
    intro st
    obtain ⟨h1, h2⟩ := ih (jawImpact st c.1 c.2.1 c.2.2)
    refine ⟨h1, h2.trans ?_⟩
    simp [jawImpact, List.append_assoc]

/-- After any impacts, recorded since the last output, the file of each named collimator holds the heading and its own
impacts in the order in which they were made; no other file changes, and nothing is left to be written again. -/
theorem output_jaw (st : State K) (h0 : st.jaws = []) (calls : List (Particle K × Int × String)) (fs : Files K)
    (directory : String) (seed : Int) :
    (∀ n ∈ st.jawNames, (outputJawImpact (record st calls) fs directory seed).2 (path directory "jaw_impact_" n seed) =
      some (jawHead :: (Spec.ofCollimator calls n).map fun c => Spec.entries c.1 c.2)) ∧
    (∀ q, (∀ n ∈ st.jawNames, q ≠ path directory "jaw_impact_" n seed) →
      (outputJawImpact (record st calls) fs directory seed).2 q = fs q) ∧
    (outputJawImpact (record st calls) fs directory seed).1.jaws = [] := by
  obtain ⟨h1, h2⟩ := record_jaws calls st
  rw [h0, List.nil_append] at h2
  refine ⟨fun n hn => ?_, fun q hq => ?_, rfl⟩
  · unfold outputJawImpact
    rw [h1, h2]
    refine (fold_at (f := fun n => _ :: _) (fun n m => path_inj) _ _ n hn).trans ?_
    congr 2
    clear h2 h1
    induction calls with
    | nil => rfl
    | cons c calls ih =>
      by_cases hc : c.2.2 = n
      · simp only [List.map_cons, Spec.ofCollimator, List.filterMap_cons, hc, if_true, List.filter_cons, beq_self_eq_true]
        exact congrArg _ ih
      · have : (c.2.2 == n) = false := beq_eq_false_iff_ne.2 hc
        simp only [List.map_cons, Spec.ofCollimator, List.filterMap_cons, hc, if_false, List.filter_cons, this,
          Bool.false_eq_true]
        exact ih
  · unfold outputJawImpact
    rw [h1]
    exact fold_other _ _ _ hq

/-- Positions recorded one after the other. -/
def recordPlot (st : State K) (calls : List (Particle K × K × Int × String)) : State K :=
  calls.foldl (fun st c => scatterPlot st c.1 c.2.1 c.2.2.1 c.2.2.2) st

theorem record_plots : ∀ (calls : List (Particle K × K × Int × String)) (st : State K),
    (recordPlot st calls).plotNames = st.plotNames ∧ (recordPlot st calls).plots = st.plots ++ calls.map fun c =>
      ⟨c.2.2.1, c.1.id, c.1.x, c.1.xp, c.1.y, c.1.yp, c.2.1, c.2.2.2⟩ := by
  intro calls
  induction calls with
  | nil => intro st; exact ⟨rfl, (List.append_nil _).symm⟩
  | cons c calls ih =>
    intro st
    obtain ⟨h1, h2⟩ := ih (scatterPlot st c.1 c.2.1 c.2.2.1 c.2.2.2)
    refine ⟨h1, h2.trans ?_⟩
    simp [scatterPlot, List.append_assoc]

/-- The same for the positions of scatter plots. -/
theorem output_plot (st : State K) (h0 : st.plots = []) (calls : List (Particle K × K × Int × String)) (fs : Files K)
    (directory : String) (seed : Int) :
    (∀ n ∈ st.plotNames, (outputScatterPlot (recordPlot st calls) fs directory seed).2
        (path directory "scatter_plot_" n seed) =
      some (plotHead :: (Spec.ofCollimator' calls n).map fun c => Spec.entries' c.1 c.2.1 c.2.2)) ∧
    (∀ q, (∀ n ∈ st.plotNames, q ≠ path directory "scatter_plot_" n seed) →
      (outputScatterPlot (recordPlot st calls) fs directory seed).2 q = fs q) ∧
    (outputScatterPlot (recordPlot st calls) fs directory seed).1.plots = [] := by
  obtain ⟨h1, h2⟩ := record_plots calls st
  rw [h0, List.nil_append] at h2
  refine ⟨fun n hn => ?_, fun q hq => ?_, rfl⟩
  · unfold outputScatterPlot
    rw [h1, h2]
    refine (fold_at (f := fun n => _ :: _) (fun n m => path_inj) _ _ n hn).trans ?_
    congr 2
    clear h2 h1
    induction calls with
    | nil => rfl
    | cons c calls ih =>
      by_cases hc : c.2.2.2 = n
      · simp only [List.map_cons, Spec.ofCollimator', List.filterMap_cons, hc, if_true, List.filter_cons, beq_self_eq_true]
        exact congrArg _ ih
      · have : (c.2.2.2 == n) = false := beq_eq_false_iff_ne.2 hc
        simp only [List.map_cons, Spec.ofCollimator', List.filterMap_cons, hc, if_false, List.filter_cons, this,
          Bool.false_eq_true]
        exact ih
  · unfold outputScatterPlot
    rw [h1]
    exact fold_other _ _ _ hq

/-- Two impacts on the named collimator, with one on another collimator between. -/
example : (outputJawImpact (record (setJawImpact State.new "TCP" 0)
      [(⟨1, 1, 2, 3, 4, 5, 6⟩, 7, "TCP"), (⟨2, 0, 0, 0, 0, 0, 0⟩, 7, "TCS"), (⟨3, 6, 5, 4, 3, 2, 1⟩, 8, "TCP")])
      (fun _ => none) "out/" 3).2 (path "out/" "jaw_impact_" "TCP" 3) =
    some [jawHead, [.int 1, .num (1 : Int), .num 2, .num 3, .num 4, .num 5, .num 6, .int 7],
      [.int 3, .num 6, .num 5, .num 4, .num 3, .num 2, .num 1, .int 8]] :=
  (output_jaw (setJawImpact State.new "TCP" 0) rfl _ _ "out/" 3).1 "TCP" (by simp [setJawImpact, State.new])

theorem doScatter_eq (st : State K) (name : String) (turn : Int) (steps : List (Particle K × K)) :
    doScatter st name turn steps = st := by
  unfold doScatter
  induction steps with
  | nil => rfl
  | cons s steps ih => exact ih

/-- Tracking records nothing: after any calls of the setters and of `DoScatter`, nothing is stored. -/
theorem tracked (calls : List (Call K)) :
    (calls.foldl call State.new).plots = [] ∧ (calls.foldl call State.new).jaws = [] := by
  have : ∀ (calls : List (Call K)) (st : State K), (calls.foldl call st).plots = st.plots ∧
      (calls.foldl call st).jaws = st.jaws := by
    intro calls
    induction calls with
    | nil => intro st; exact ⟨rfl, rfl⟩
    | cons c calls ih =>
      intro st
      obtain ⟨h1, h2⟩ := ih (call st c)
      cases c with
      | setPlot n s => exact ⟨h1, h2⟩
      | setJaw n s => exact ⟨h1, h2⟩
      | scatter n t s =>
        rw [List.foldl_cons, h1, h2]
        show (doScatter st n t s).plots = _ ∧ (doScatter st n t s).jaws = _
        rw [doScatter_eq]
        exact ⟨rfl, rfl⟩
  exact this calls State.new

/-- So the impact of a particle on a collimator whose impacts and positions were asked for is in neither of its files. -/
theorem tracked_violated (p : Particle K) (z : K) (fs : Files K) :
    let st := [.setJaw "TCP" 0, .setPlot "TCP" 0, .scatter "TCP" 1 [(p, z)]].foldl call State.new
    (outputJawImpact st fs "" 0).2 (path "" "jaw_impact_" "TCP" 0) = some [jawHead] ∧
    (outputScatterPlot st fs "" 0).2 (path "" "scatter_plot_" "TCP" 0) = some [plotHead] := by
  refine ⟨?_, ?_⟩
  · exact (output_jaw _ (tracked [.setJaw "TCP" 0, .setPlot "TCP" 0, .scatter "TCP" 1 [(p, z)]]).2 [] fs "" 0).1 "TCP" (by
      simp [call, setJawImpact, setScatterPlot, State.new, doScatter_eq])
  · exact (output_plot _ (tracked [.setJaw "TCP" 0, .setPlot "TCP" 0, .scatter "TCP" 1 [(p, z)]]).1 [] fs "" 0).1 "TCP" (by
      simp [call, setJawImpact, setScatterPlot, State.new, doScatter_eq])

/-- The heading of either file has, after the first sign, one column less than the lines. -/
theorem heading_violated (d : Jaw K) (e : Plot K) :
    (jawLine d).length = (jawHead (K := K)).tail.length + 1 ∧ (plotLine e).length = (plotHead (K := K)).tail.length + 1 :=
  ⟨rfl, rfl⟩

/-- A second output to the same directory with the same seed leaves only the headings. -/
theorem output_twice (st : State K) (fs : Files K) (directory : String) (seed : Int) {n : String} (hn : n ∈ st.jawNames) :
    let r := outputJawImpact st fs directory seed
    (outputJawImpact r.1 r.2 directory seed).2 (path directory "jaw_impact_" n seed) = some [jawHead] :=
  (output_jaw (outputJawImpact st fs directory seed).1 rfl [] _ directory seed).1 n hn

example : "TCP" ∈ (setJawImpact (State.new (K := Int)) "TCP" 0).jawNames := by simp [setJawImpact, State.new]

/-- What the comparisons of `ScatterPlotData` are. -/
theorem compare_eq [LinearOrder K] (a b : Plot K) :
    (a.lt b = true ↔ b.z ≤ a.z) ∧ (a.gt b = true ↔ a.z ≤ b.z) ∧ (a.eq b = true ↔ a.z = b.z) := by
  unfold Plot.lt Plot.gt Plot.eq
  refine ⟨?_, ?_, ?_⟩
  · split <;> simp_all
  · split <;> simp_all
  · split <;> simp_all

example : (Plot.lt ⟨0, 0, 0, 0, 0, 0, (2 : Int), ""⟩ ⟨0, 0, 0, 0, 0, 0, 1, ""⟩) = true := (compare_eq _ _).1.2 (by decide)

/-- They are the wrong way round, and none can be used to sort. -/
theorem compare_violated [LinearOrder K] [Nonempty K] :
    ¬ Spec.StrictWeak (Plot.lt (K := K)) ∧ ¬ Spec.StrictWeak (Plot.gt (K := K)) := by
  obtain ⟨z⟩ := ‹Nonempty K›
  let a : Plot K := ⟨0, 0, z, z, z, z, z, ""⟩
  constructor
  · intro h
    have h1 := h.1 a
    rw [(compare_eq a a).1.2 le_rfl] at h1
    cases h1
  · intro h
    have h1 := h.1 a
    rw [(compare_eq a a).2.1.2 le_rfl] at h1
    cases h1

end Verif.Impacts
