import Verif.Tunes.Lemmas

/-!
# Numbers of turns which are no power of two
-/

namespace Verif.Tunes

open Verif Spec

theorem reorder_result (size nn : Nat) : ∀ (c i j : Nat) (d : Data), (∃ d', reorder size nn c i j d = .ok d') ∨ reorder size nn c i j d = .ub
  | 0, _, _, d => .inl ⟨d, rfl⟩
  | c + 1, i, j, d => by
    rw [reorder]
    split
    · split
      · exact reorder_result size nn c _ _ _
      · exact .inr rfl
    · exact reorder_result size nn c _ _ _

theorem inner_result (size n mmax : Nat) (wr wi : ℝ) : ∀ (f i : Nat) (d : Data),
    (∃ d', inner size n mmax wr wi f i d = .ok d') ∨ inner size n mmax wr wi f i d = .ub
  | 0, _, d => .inl ⟨d, rfl⟩
  | f + 1, i, d => by
    rw [inner]
    split
    · exact .inl ⟨d, rfl⟩
    · split
      · exact inner_result size n mmax wr wi f _ _
      · exact .inr rfl

theorem middle_result (size n mmax : Nat) (wpr wpi : ℝ) : ∀ (c m : Nat) (wr wi : ℝ) (d : Data),
    (∃ d', middle size n mmax wpr wpi c m wr wi d = .ok d') ∨ middle size n mmax wpr wpi c m wr wi d = .ub
  | 0, _, _, _, d => .inl ⟨d, rfl⟩
  | c + 1, m, wr, wi, d => by
    rw [middle]
    rcases inner_result size n mmax wr wi (n + 1) m d with ⟨d', h⟩ | h
    · rw [h]
      exact middle_result size n mmax wpr wpi c _ _ _ d'
    · rw [h]
      exact .inr rfl

theorem middle_ub (size nn l M : Nat) (hsize : size / 2 = nn) (hM : M ≤ nn) (hl : nn ≤ M + l) (hn : M < nn) (wpr wpi : ℝ) :
    ∀ (c x : Nat) (wr wi : ℝ) (d : Data), x ≤ M → M < x + c → middle size (2 * nn) (2 * l) wpr wpi c (2 * x + 1) wr wi d = .ub
  | 0, x, _, _, _, h1, h2 => by omega
  | c + 1, x, wr, wi, d, h1, h2 => by
    rw [middle]
    by_cases h : x = M
    · subst h
      have : inner size (2 * nn) (2 * l) wr wi (2 * nn + 1) (2 * x + 1) d = .ub := by
        rw [inner, if_neg (by omega), if_neg (by omega)]
      rw [this]
      rfl
    · rcases inner_result size (2 * nn) (2 * l) wr wi (2 * nn + 1) (2 * x + 1) d with ⟨d', h'⟩ | h'
      · rw [h']
        exact middle_ub size nn l M hsize hM hl hn wpr wpi c (x + 1) _ _ d' (by omega) (by omega)
      · rw [h']
        rfl

theorem stages_ub (size nn s : Nat) (hsize : size / 2 = nn) (h1 : 2 ^ s < nn) (h2 : nn < 2 ^ (s + 1)) :
    ∀ (f t : Nat) (d : Data), t ≤ s → s < t + f → stages size (2 * nn) f (2 * 2 ^ t) d = .ub
  | 0, t, _, h3, h4 => by omega
  | f + 1, t, d, h3, h4 => by
    have hts : 2 ^ t ≤ 2 ^ s := Nat.pow_le_pow_right (by norm_num) h3
    rw [stages, if_pos (by omega)]
    simp only []
    rw [show 2 * 2 ^ t / 2 = 2 ^ t by omega]
    by_cases h : t = s
    · subst h
      rw [pow_succ] at h2
      have := middle_ub size nn (2 ^ t) (nn - 2 ^ t) hsize (by omega) (by omega) (by have : 0 < 2 ^ t := by positivity
                                                                                     omega)
      rw [this _ _ (2 ^ t) 0 1 0 d (by omega) (by omega)]
      rfl
    · rcases middle_result size (2 * nn) (2 * 2 ^ t)
        (-2 * Real.sin (2 * Real.pi / ((2 * 2 ^ t : Nat) : ℝ) / 2) * Real.sin (2 * Real.pi / ((2 * 2 ^ t : Nat) : ℝ) / 2))
        (Real.sin (2 * Real.pi / ((2 * 2 ^ t : Nat) : ℝ))) (2 ^ t) 1 1 0 d with ⟨d', h'⟩ | h'
      · rw [h']
        show stages size (2 * nn) f (2 * (2 * 2 ^ t)) d' = .ub
        rw [show 2 * (2 * 2 ^ t) = 2 * 2 ^ (t + 1) by rw [pow_succ]; ring]
        exact stages_ub size nn s hsize h1 h2 f (t + 1) d' (by omega) (by omega)
      · rw [h']
        rfl

end Verif.Tunes
