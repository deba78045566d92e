import Mathlib.Analysis.SpecialFunctions.Sqrt
import Mathlib.Tactic.LinearCombination
import Mathlib.Tactic.FieldSimp
import Verif.TransportMaps.Spec

/-!
# Expansions to second order
-/

namespace Verif.TransportMaps
open Verif Verif.TransportMaps.Spec Real Asymptotics Filter Topology

/-- `f e = a + b e + c e² + O(e³)`. -/
def Jet (f : ℝ → ℝ) (a b c : ℝ) : Prop := Third fun e => f e - (a + b * e + c * e ^ 2)

theorem third_of_eq {f g : ℝ → ℝ} (hg : Third g) (h : ∀ e, f e = g e) : Third f := by
  rw [show f = g from funext h]; exact hg

theorem third_poly (p : ℝ → ℝ) (hp : Continuous p) : Third fun e => p e * e ^ 3 := by
  have h1 : p =O[𝓝 0] fun _ => (1 : ℝ) := (hp.tendsto 0).isBigO_one ℝ
  simpa [Third] using h1.mul (isBigO_refl (fun e : ℝ => e ^ 3) (𝓝 0))

theorem third_mul {f g : ℝ → ℝ} (hf : Third f) (hg : g =O[𝓝 0] fun _ => (1 : ℝ)) : Third fun e => f e * g e := by
  simpa [Third] using IsBigO.mul hf hg

theorem Third.add {f g : ℝ → ℝ} (hf : Third f) (hg : Third g) : Third fun e => f e + g e := IsBigO.add hf hg
theorem Third.sub {f g : ℝ → ℝ} (hf : Third f) (hg : Third g) : Third fun e => f e - g e := IsBigO.sub hf hg
theorem Third.neg {f : ℝ → ℝ} (hf : Third f) : Third fun e => -f e := IsBigO.neg_left hf

theorem jet_poly (a b c : ℝ) (f p : ℝ → ℝ) (hp : Continuous p) (h : ∀ e, f e = a + b * e + c * e ^ 2 + p e * e ^ 3) :
    Jet f a b c := third_of_eq (third_poly p hp) fun e => by rw [h]; ring

theorem jet_const (a : ℝ) : Jet (fun _ => a) a 0 0 := jet_poly _ _ _ _ (fun _ => 0) continuous_const fun e => by ring

theorem jet_quad (a b : ℝ) : Jet (fun e => a * e + b * e ^ 2) 0 a b :=
  jet_poly _ _ _ _ (fun _ => 0) continuous_const fun e => by ring

theorem Jet.congr {f : ℝ → ℝ} {a b c a' b' c' : ℝ} (h : Jet f a b c) (ha : a = a') (hb : b = b') (hc : c = c') :
    Jet f a' b' c' := by subst ha hb hc; exact h

theorem Jet.of_eq {f g : ℝ → ℝ} {a b c : ℝ} (h : Jet g a b c) (hfg : ∀ e, f e = g e) : Jet f a b c := by
  rw [show f = g from funext hfg]; exact h

theorem Jet.add {f g : ℝ → ℝ} {a b c a' b' c' : ℝ} (hf : Jet f a b c) (hg : Jet g a' b' c') :
    Jet (fun e => f e + g e) (a + a') (b + b') (c + c') := third_of_eq (Third.add hf hg) fun e => by ring

theorem Jet.neg {f : ℝ → ℝ} {a b c : ℝ} (hf : Jet f a b c) : Jet (fun e => -f e) (-a) (-b) (-c) :=
  third_of_eq (Third.neg hf) fun e => by ring

theorem Jet.sub {f g : ℝ → ℝ} {a b c a' b' c' : ℝ} (hf : Jet f a b c) (hg : Jet g a' b' c') :
    Jet (fun e => f e - g e) (a - a') (b - b') (c - c') := third_of_eq (Third.sub hf hg) fun e => by ring

theorem third_one {f : ℝ → ℝ} (hf : Third f) : f =O[𝓝 0] fun _ => (1 : ℝ) := by
  refine IsBigO.trans hf ?_
  exact ((continuous_id.pow 3).tendsto (0 : ℝ)).isBigO_one ℝ

theorem Jet.bounded {f : ℝ → ℝ} {a b c : ℝ} (hf : Jet f a b c) : f =O[𝓝 0] fun _ => (1 : ℝ) := by
  have h1 := third_one hf
  have h2 : (fun e : ℝ => a + b * e + c * e ^ 2) =O[𝓝 0] fun _ => (1 : ℝ) :=
    (Continuous.tendsto (by fun_prop) (0 : ℝ)).isBigO_one ℝ
  simpa using h1.add h2

theorem Jet.mul {f g : ℝ → ℝ} {a b c a' b' c' : ℝ} (hf : Jet f a b c) (hg : Jet g a' b' c') :
    Jet (fun e => f e * g e) (a * a') (a * b' + b * a') (a * c' + b * b' + c * a') := by
  have h1 := third_mul hf hg.bounded
  have h2 : Third fun e => (g e - (a' + b' * e + c' * e ^ 2)) * (a + b * e + c * e ^ 2) :=
    third_mul hg ((Continuous.tendsto (by fun_prop) (0 : ℝ)).isBigO_one ℝ)
  have h3 := third_poly (fun e => b * c' + c * b' + c * c' * e) (by fun_prop)
  exact third_of_eq (Third.add (Third.add h1 h2) h3) fun e => by ring

theorem Jet.pow_two {f : ℝ → ℝ} {a b c : ℝ} (hf : Jet f a b c) :
    Jet (fun e => f e ^ 2) (a * a) (a * b + b * a) (a * c + b * b + c * a) :=
  (hf.mul hf).of_eq fun e => by ring

theorem Jet.tendsto {f : ℝ → ℝ} {a b c : ℝ} (hf : Jet f a b c) : Tendsto f (𝓝 0) (𝓝 a) := by
  have h0 : Tendsto (fun e : ℝ => e ^ 3) (𝓝 0) (𝓝 0) := by
    have : Continuous fun e : ℝ => e ^ 3 := by fun_prop
    simpa using this.tendsto 0
  have h1 := IsBigO.trans_tendsto hf h0
  have h2 : Tendsto (fun e : ℝ => a + b * e + c * e ^ 2) (𝓝 0) (𝓝 a) := by
    have : Continuous fun e : ℝ => a + b * e + c * e ^ 2 := by fun_prop
    simpa using this.tendsto 0
  simpa using h1.add h2

theorem third_congr {f g : ℝ → ℝ} (hg : Third g) (h : ∀ᶠ e in 𝓝 0, f e = g e) : Third f :=
  IsBigO.congr' hg (h.mono fun e he => he.symm) (EventuallyEq.refl _ _)

theorem Jet.inv {f : ℝ → ℝ} {b c : ℝ} (hf : Jet f 1 b c) : Jet (fun e => 1 / f e) 1 (-b) (b ^ 2 - c) := by
  have hb : (fun e => (f e)⁻¹) =O[𝓝 0] fun _ => (1 : ℝ) :=
    (hf.tendsto.inv₀ one_ne_zero).isBigO_one ℝ
  have hne : ∀ᶠ e in 𝓝 0, f e ≠ 0 := hf.tendsto.eventually_ne one_ne_zero
  have hp := hf.mul (jet_poly 1 (-b) (b ^ 2 - c) _ (fun _ => 0) continuous_const (fun _ => rfl))
  have h1 := third_mul (Third.neg hp) hb
  refine third_congr h1 (hne.mono fun e he => ?_)
  field_simp
  ring

theorem Jet.div {f g : ℝ → ℝ} {a b c b' c' : ℝ} (hf : Jet f a b c) (hg : Jet g 1 b' c') :
    Jet (fun e => f e / g e) a (b - a * b') (c - b * b' + a * (b' ^ 2 - c')) :=
  ((hf.mul hg.inv).of_eq fun e => by rw [div_eq_mul_one_div]).congr (by ring) (by ring) (by ring)

theorem Jet.sqrt {f : ℝ → ℝ} {b c : ℝ} (hf : Jet f 1 b c) : Jet (fun e => √(f e)) 1 (b / 2) (c / 2 - b ^ 2 / 8) := by
  have hpos : ∀ᶠ e in 𝓝 0, 0 < f e := hf.tendsto.eventually (lt_mem_nhds one_pos)
  have hj := jet_poly 1 (b / 2) (c / 2 - b ^ 2 / 8) _ (fun _ => 0) continuous_const (fun _ => rfl)
  have ht : Tendsto (fun e => √(f e) + (1 + b / 2 * e + (c / 2 - b ^ 2 / 8) * e ^ 2 + 0 * e ^ 3)) (𝓝 0) (𝓝 (1 + 1)) := by
    refine Tendsto.add ?_ hj.tendsto
    have := (continuous_sqrt.tendsto 1).comp hf.tendsto
    rw [Real.sqrt_one] at this
    exact this
  have hb : (fun e => (√(f e) + (1 + b / 2 * e + (c / 2 - b ^ 2 / 8) * e ^ 2 + 0 * e ^ 3))⁻¹) =O[𝓝 0] fun _ => (1 : ℝ) :=
    (ht.inv₀ (by norm_num)).isBigO_one ℝ
  have hne := ht.eventually_ne (show (1 + 1 : ℝ) ≠ 0 by norm_num)
  have h2 := hf.sub hj.pow_two
  have h1 := third_mul (f := fun e => f e - (1 + b / 2 * e + (c / 2 - b ^ 2 / 8) * e ^ 2 + 0 * e ^ 3) ^ 2)
    (third_of_eq h2 fun e => by ring) hb
  refine third_congr h1 ((hne.and hpos).mono fun e he => ?_)
  obtain ⟨he, hp⟩ := he
  have hs := Real.mul_self_sqrt hp.le
  rw [← div_eq_mul_inv, eq_div_iff he]
  linear_combination hs

/-- Expansion with vanishing coefficients. -/
theorem Jet.third {f : ℝ → ℝ} (h : Jet f 0 0 0) : Third f := third_of_eq h fun e => by ring

end Verif.TransportMaps
