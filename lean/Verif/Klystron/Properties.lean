import Mathlib.Tactic.Ring
import Mathlib.Tactic.FieldSimp
import Mathlib.Tactic.LinearCombination
import Mathlib.Algebra.BigOperators.Group.List.Basic
import Verif.Klystron.Model

/-!
# Properties of klystrons (C27)
-/

namespace Verif.Klystron
open Verif Complex

/-- The sum of the voltage phasors of cavities. -/
noncomputable def total (cavs : List Cavity) : ℂ := (cavs.map Cavity.phasor).sum

theorem vectorSum_eq (cavs : List Cavity) : vectorSum cavs = total cavs := by
  have : ∀ (l : List Cavity) (z : ℂ), l.foldl (fun z c => z + c.phasor) z = z + total l := by
    intro l
    induction l with
    | nil => intro z; simp [total]
    | cons c l ih =>
      intro z
      rw [List.foldl_cons, ih]
      simp [total, add_assoc]
  rw [vectorSum, this, zero_add]

theorem polar_eq (v p : ℝ) : polar v p = (v : ℂ) * (Real.cos p + Real.sin p * I) := by
  simp only [polar]
  push_cast
  ring

theorem polar_abs_arg (z : ℂ) : polar ‖z‖ (arg z) = z := by
  rw [polar_eq]
  have := Complex.norm_mul_cos_add_sin_mul_I z
  push_cast
  exact this

/-- Reading back a cavity set to a phasor. -/
theorem cavity_set (c : Cavity) (z : ℂ) (hl : c.len ≠ 0) : (c.setPhasor z).phasor = z := by
  have h : (c.setPhasor z).phasor = polar ‖z‖ (arg z) := by
    rw [polar_eq]
    simp only [Cavity.phasor, Cavity.setPhasor, Cavity.setVoltage, Cavity.setPhase]
    rw [div_mul_cancel₀ _ hl]
  rw [h, polar_abs_arg]

theorem setCavities_total (cavs : List Cavity) (hl : ∀ c ∈ cavs, c.len ≠ 0) (v p : ℝ) :
    total (setCavities cavs v p) = cavs.length * polar v p := by
  induction cavs with
  | nil => simp [total, setCavities]
  | cons c cavs ih =>
    have h1 := ih (fun x hx => hl x (List.mem_cons_of_mem _ hx))
    have h2 : ((c.setVoltage v).setPhase p).phasor = polar v p := by
      rw [polar_eq]
      simp only [Cavity.phasor, Cavity.setVoltage, Cavity.setPhase]
      rw [div_mul_cancel₀ _ (hl c (by simp))]
    simp only [total, setCavities, List.map_cons, List.sum_cons, List.length_cons] at h1 ⊢
    rw [h1, h2]
    push_cast
    ring

theorem setCavities_len (cavs : List Cavity) (v p : ℝ) (hl : ∀ c ∈ cavs, c.len ≠ 0) :
    ∀ c ∈ setCavities cavs v p, c.len ≠ 0 := by
  intro c hc
  simp only [setCavities, List.mem_map] at hc
  obtain ⟨d, hd, rfl⟩ := hc
  exact hl d hd

theorem balanced_total (cavs : List Cavity) (hl : ∀ c ∈ cavs, c.len ≠ 0) (hn : cavs ≠ [])
    (v p : ℝ) : total (setCavities cavs (v / cavs.length) p) = polar v p := by
  rw [setCavities_total cavs hl, polar_eq, polar_eq]
  have : (cavs.length : ℂ) ≠ 0 := by
    simpa using hn
  push_cast
  field_simp

/-- The state of a klystron in balanced mode: the cavities add up to its phasor, and all are set to
the same share of it. -/
structure Balanced (k : Kly) : Prop where
  mode : k.mode = .balanced
  ne : k.cavs ≠ []
  len : ∀ c ∈ k.cavs, c.len ≠ 0
  sum : total k.cavs = k.phasor
  equal : ∀ c ∈ k.cavs, c.amp * c.len = k.v / k.cavs.length ∧ c.phase = k.phi

theorem setCavities_equal (cavs : List Cavity) (hl : ∀ c ∈ cavs, c.len ≠ 0) (v p : ℝ) :
    ∀ c ∈ setCavities cavs v p, c.amp * c.len = v ∧ c.phase = p := by
  intro c hc
  simp only [setCavities, List.mem_map] at hc
  obtain ⟨d, hd, rfl⟩ := hc
  simp only [Cavity.setVoltage, Cavity.setPhase]
  exact ⟨div_mul_cancel₀ _ (hl d hd), trivial⟩

theorem adjust_balanced (k : Kly) (hm : k.mode = .balanced) (hn : k.cavs ≠ [])
    (hl : ∀ c ∈ k.cavs, c.len ≠ 0) : ∃ k', k.adjust = .ok k' ∧ Balanced k' ∧ k'.v = k.v ∧
      k'.phi = k.phi := by
  refine ⟨{ k with cavs := setCavities k.cavs (k.v / k.cavs.length) k.phi }, ?_, ?_, rfl, rfl⟩
  · simp [Kly.adjust, hm]
  · refine ⟨hm, by simpa [setCavities] using hn, setCavities_len _ _ _ hl,
      balanced_total _ hl hn _ _, ?_⟩
    have := setCavities_equal k.cavs hl (k.v / k.cavs.length) k.phi
    simpa [setCavities] using this

/-- C27: the constructor of a klystron in balanced mode keeps the vector sum of its cavities and makes
it the phasor of the klystron. -/
theorem make_balanced (cavs : List Cavity) (hn : cavs ≠ []) (hl : ∀ c ∈ cavs, c.len ≠ 0) :
    Balanced (Kly.make cavs .balanced) ∧
    total (Kly.make cavs .balanced).cavs = total cavs := by
  have hs : total (setCavities cavs (‖vectorSum cavs‖ / cavs.length) (arg (vectorSum cavs))) =
      vectorSum cavs := by
    rw [balanced_total _ hl hn, polar_abs_arg]
  refine ⟨⟨rfl, by simpa [Kly.make, setCavities] using hn, setCavities_len _ _ _ hl, ?_, ?_⟩, ?_⟩
  · simp only [Kly.make, Kly.phasor]
    rw [hs, polar_abs_arg]
  · have := setCavities_equal cavs hl (‖vectorSum cavs‖ / cavs.length) (arg (vectorSum cavs))
    simpa [Kly.make, setCavities] using this
  · simp only [Kly.make]
    rw [hs, vectorSum_eq]

/-- C27: in balanced mode the cavities add up to the phasor of the klystron and share it equally after
any sequence of settings. -/
theorem balanced_run (k : Kly) (hk : Balanced k) (os : List Op) :
    ∃ k', k.run os = .ok k' ∧ Balanced k' := by
  induction os generalizing k with
  | nil => exact ⟨k, rfl, hk⟩
  | cons o os ih =>
    obtain ⟨k1, h1, h2⟩ : ∃ k1, k.step o = .ok k1 ∧ Balanced k1 := by
      cases o with
      | voltage v =>
        obtain ⟨k1, a, b, _⟩ := adjust_balanced { k with v := v } hk.mode hk.ne hk.len
        exact ⟨k1, a, b⟩
      | phase p =>
        obtain ⟨k1, a, b, _⟩ := adjust_balanced { k with phi := p } hk.mode hk.ne hk.len
        exact ⟨k1, a, b⟩
      | phasor z =>
        obtain ⟨k1, a, b, _⟩ := adjust_balanced { k with v := ‖z‖, phi := arg z } hk.mode hk.ne hk.len
        exact ⟨k1, a, b⟩
    obtain ⟨k', h3, h4⟩ := ih k1 h2
    exact ⟨k', by rw [Kly.run, h1]; exact h3, h4⟩

/-- C27: after `SetVoltagePhasor(z)` in balanced mode `GetVoltagePhasor` returns `z` and the cavities
add up to `z`. -/
theorem setPhasor_balanced (k : Kly) (hk : Balanced k) (z : ℂ) :
    ∃ k', k.setPhasor z = .ok k' ∧ k'.phasor = z ∧ total k'.cavs = z := by
  obtain ⟨k1, a, b, c, d⟩ := adjust_balanced { k with v := ‖z‖, phi := arg z } hk.mode hk.ne hk.len
  have hp : k1.phasor = z := by
    rw [Kly.phasor, c, d]
    exact polar_abs_arg z
  exact ⟨k1, a, hp, by rw [b.sum, hp]⟩

/-- C27, vector-sum mode: the constructor is right. -/
theorem make_vectorSum (cavs : List Cavity) :
    (Kly.make cavs .vectorSum).phasor = total cavs ∧
    (Kly.make cavs .vectorSum).cavs = cavs := by
  refine ⟨?_, rfl⟩
  simp only [Kly.make, Kly.phasor]
  rw [polar_abs_arg, vectorSum_eq]

/-- C27 (partial), vector-sum mode: called with the new values while the members still hold the old
ones, `AdjustVectorSum` would scale the cavities to the requested sum. -/
theorem adjustVectorSum_partial (k : Kly) (hl : ∀ c ∈ k.cavs, c.len ≠ 0)
    (hs : total k.cavs = k.phasor) (h0 : k.phasor ≠ 0) (v phi : ℝ) :
    ∃ k', k.adjustVectorSum v phi = .ok k' ∧ total k'.cavs = polar v phi ∧ k'.phasor = polar v phi := by
  have h0' : ¬ polar k.v k.phi = 0 := h0
  refine ⟨{ k with
    cavs := k.cavs.map (fun c => c.setPhasor (polar v phi / polar k.v k.phi * c.phasor))
    v := v
    phi := phi }, by simp only [Kly.adjustVectorSum, h0', if_false], ?_, rfl⟩
  have key : ∀ (l : List Cavity) (w : ℂ), (∀ c ∈ l, c.len ≠ 0) →
      total (l.map (fun c => c.setPhasor (w * c.phasor))) = w * total l := by
    intro l w
    induction l with
    | nil => intro _; simp [total]
    | cons c l ih =>
      intro h
      have := ih (fun x hx => h x (List.mem_cons_of_mem _ hx))
      simp only [total, List.map_cons, List.sum_cons, mul_add] at this ⊢
      rw [cavity_set c _ (h c (by simp)), this]
  simp only
  rw [key _ _ hl, hs, Kly.phasor]
  exact div_mul_cancel₀ _ h0

/-- C27, vector-sum mode: `SetVoltagePhasor` stores the new phasor before it computes the scale,
which is therefore 1: the cavities keep their phasors whatever is requested. -/
theorem vectorSum_ignored (k : Kly) (hm : k.mode = .vectorSum) (hl : ∀ c ∈ k.cavs, c.len ≠ 0)
    (z : ℂ) (hz : z ≠ 0) :
    ∃ k', k.setPhasor z = .ok k' ∧ k'.phasor = z ∧
      k'.cavs.map Cavity.phasor = k.cavs.map Cavity.phasor := by
  have hp : polar ‖z‖ (arg z) = z := polar_abs_arg z
  have h0 : ¬ polar ‖z‖ (arg z) = 0 := by rw [hp]; exact hz
  refine ⟨{ k with
    cavs := k.cavs.map (fun c => c.setPhasor (polar ‖z‖ (arg z) / polar ‖z‖ (arg z) * c.phasor))
    v := ‖z‖
    phi := arg z }, ?_, hp, ?_⟩
  · simp only [Kly.setPhasor, Kly.adjust, hm, Kly.adjustVectorSum, h0, if_false]
  · simp only [List.map_map]
    apply List.map_congr_left
    intro c hc
    simp only [Function.comp]
    rw [div_self h0, one_mul, cavity_set c _ (hl c hc)]

/-- Two cavities of unit length on crest, with 2 and 3 units of voltage. -/
noncomputable def demo : List Cavity := [⟨1, 2, 0⟩, ⟨1, 3, 0⟩]

theorem demo_total : total demo = 5 := by
  simp only [total, demo, List.map_cons, List.map_nil, List.sum_cons, List.sum_nil, Cavity.phasor,
    Real.cos_zero, Real.sin_zero]
  push_cast
  ring

/-- C27 does not hold in vector-sum mode: a klystron with two cavities adding up to 5 is set to 1; it
reports 1, the cavities still add up to 5. -/
theorem vectorSum_violated :
    ∃ k', (Kly.make demo .vectorSum).setPhasor 1 = .ok k' ∧ k'.phasor = 1 ∧ total k'.cavs = 5 := by
  obtain ⟨k', a, b, c⟩ := vectorSum_ignored (Kly.make demo .vectorSum) rfl
    (by simp [Kly.make, demo]) 1 one_ne_zero
  refine ⟨k', a, b, ?_⟩
  rw [total, c]
  exact demo_total

/-- C27: setting the voltage to zero in vector-sum mode makes the cavities not-a-number. -/
theorem vectorSum_zero_violated (k : Kly) (hm : k.mode = .vectorSum) :
    k.setVoltage 0 = .throw .nan := by
  have : polar 0 k.phi = 0 := by simp [polar]
  simp [Kly.setVoltage, Kly.adjust, hm, Kly.adjustVectorSum, this]

example : demo ≠ [] ∧ (∀ c ∈ demo, c.len ≠ 0) := by
  simp [demo]

example : Balanced (Kly.make demo .balanced) :=
  (make_balanced demo (by simp [demo]) (by simp [demo])).1

example : (Kly.make demo .vectorSum).phasor ≠ 0 := by
  rw [(make_vectorSum demo).1, demo_total]
  norm_num

#print axioms make_balanced
#print axioms balanced_run
#print axioms setPhasor_balanced
#print axioms make_vectorSum
#print axioms adjustVectorSum_partial
#print axioms vectorSum_ignored
#print axioms vectorSum_violated
#print axioms vectorSum_zero_violated

end Verif.Klystron
