import Verif.LatticeFrame.Spec
import Verif.Frame.Properties

/-!
# Properties of the frame hierarchy (C63, C64, C65)
-/

set_option linter.unusedSectionVars false

namespace Verif.LatticeFrame
open Verif Verif.Frame Verif.LatticeFrame.Spec

section
variable {K G : Type} [AddCommGroup K] [Group G]

/-! ## C63 -/

/-- C63: positions add up along the hierarchy: the position of a frame in an outer frame is its
position in an intermediate frame plus the position of that one in the outer frame. -/
theorem position_add (x : Link K G) (a : List (Link K G)) (g : Link K G) (b : List (Link K G))
    (hd : Distinct (x :: a ++ g :: b)) (sf : Option Nat)
    (hsf : ∀ y ∈ a ++ [g], sf ≠ some y.id) (p2 : K) (h2 : getPosition sf (g :: b) = .ok p2) :
    ∃ p1, getPosition (some g.id) (x :: a ++ g :: b) = .ok p1 ∧
      getPosition sf (x :: a ++ g :: b) = .ok (p1 + p2) := by
  induction a generalizing x with
  | nil =>
    refine ⟨x.s0, ?_, ?_⟩
    · simp [getPosition, superId]
    · have h1 := hsf g (by simp)
      rw [List.cons_append, List.nil_append, getPosition, if_neg (by simpa [superId] using h1), h2]
      rfl
  | cons y a ih =>
    have hd' : Distinct (y :: a ++ g :: b) := by
      simp only [Distinct, List.cons_append, List.map_cons, List.nodup_cons] at hd ⊢
      exact hd.2
    obtain ⟨p1, e1, e2⟩ := ih y hd' (fun z hz => hsf z (by
      rw [List.cons_append]; exact List.mem_cons_of_mem _ hz))
    refine ⟨x.s0 + p1, ?_, ?_⟩
    · have hne : g.id ≠ y.id := by
        simp only [Distinct, List.cons_append, List.map_cons, List.map_append, List.nodup_cons,
          List.mem_append, List.mem_cons, not_or] at hd'
        intro e; exact hd'.1.2.1 e.symm
      rw [List.cons_append, getPosition, if_neg (by simpa [superId] using hne), e1]
      rfl
    · have h1 := hsf y (by simp)
      rw [List.cons_append, getPosition, if_neg (by simpa [superId] using h1), e2]
      simp [add_assoc]

/-- C63: physical transforms compose along the hierarchy (including failures, in the same order). -/
theorem physical_mul (x : Link K G) (a : List (Link K G)) (g : Link K G) (b : List (Link K G))
    (hd : Distinct (x :: a ++ g :: b)) (sf : Option Nat) (hsf : ∀ y ∈ x :: a, sf ≠ some y.id) :
    physical sf (x :: a ++ g :: b) =
      (physical (some g.id) (x :: a ++ g :: b) >>= fun t =>
        physical sf (g :: b) >>= fun u => pure (t * u)) := by
  induction a generalizing x with
  | nil =>
    have h1 := hsf x (by simp)
    have h2 : g.id ≠ x.id := by
      simp [Distinct] at hd
      intro e; exact hd.1.1 e.symm
    have hg : physical (some g.id) (g :: b) = .ok 1 := by
      cases b <;> simp [physical]
    simp only [List.cons_append, List.nil_append]
    rw [physical, physical, if_neg h1, if_neg (by simpa using h2), hg]
    cases g.geo 0 x.s0 with
    | ok t => simp
    | throw e => simp
    | ub => simp
  | cons y a ih =>
    have hd' : Distinct (y :: a ++ g :: b) := by
      simp only [Distinct, List.cons_append, List.map_cons, List.nodup_cons] at hd ⊢
      exact hd.2
    have h1 := hsf x (by simp)
    have h2 : g.id ≠ x.id := by
      simp only [Distinct, List.cons_append, List.map_cons, List.map_append, List.nodup_cons,
        List.mem_append, List.mem_cons, not_or] at hd
      intro e; exact hd.1.2.2.1 e.symm
    simp only [List.cons_append]
    simp only [List.cons_append] at ih hd'
    rw [physical, physical, if_neg h1, if_neg (by simpa using h2),
      ih y hd' (fun z hz => hsf z (List.mem_cons_of_mem _ hz))]
    cases y.geo 0 x.s0 with
    | throw e => simp
    | ub => simp
    | ok t =>
      simp only [Outcome.bind_ok]
      cases physical (some g.id) (y :: (a ++ g :: b)) with
      | throw e => simp
      | ub => simp
      | ok u =>
        simp only [Outcome.bind_ok, Outcome.pure_eq]
        cases physical sf (g :: b) with
        | throw e => simp
        | ub => simp
        | ok v => simp [mul_assoc]

/-! ## C64 -/

/-- The frames of a list, innermost first, follow each other up to the frame `h`; `dom i` are the
local positions of frame `i` that matter. -/
def Nested (dom : Nat → K → Prop) (h : Link K G) : List (Link K G) → Prop
  | [] => True
  | [y] => Continues y h (dom y.id)
  | x :: y :: l => Continues x y (dom x.id) ∧ (∀ u, dom x.id u → dom y.id (x.s0 + u)) ∧
      Nested dom h (y :: l)

theorem nested_physical (dom : Nat → K → Prop) (h : Link K G) (rest : List (Link K G))
    (y : Link K G) (l : List (Link K G)) (hd : Distinct (y :: l ++ h :: rest))
    (hu : ∀ z ∈ y :: l, Undisturbed z) (hn : Nested dom h (y :: l)) :
    ∃ t s, physical (some h.id) (y :: l ++ h :: rest) = .ok t ∧
      getPosition (some h.id) (y :: l ++ h :: rest) = .ok s ∧
      ∀ u, dom y.id u → ∃ r, y.geo 0 u = .ok r ∧ h.geo 0 (s + u) = .ok (r * t) := by
  induction l generalizing y with
  | nil =>
    obtain ⟨t0, e0, hc⟩ := hn
    have hne : h.id ≠ y.id := by
      simp [Distinct] at hd
      intro e; exact hd.1.1 e.symm
    have hh : physical (some h.id) (h :: rest) = .ok 1 := by cases rest <;> simp [physical]
    have hl : y.local = 1 := by
      have := hu y (by simp)
      simp only [Undisturbed] at this
      simp [Link.local, this]
    refine ⟨t0, y.s0, ?_, ?_, hc⟩
    · simp only [List.cons_append, List.nil_append]
      rw [physical, if_neg (by simpa using hne), e0, hh]
      simp [hl]
    · simp [getPosition, superId]
  | cons z l ih =>
    obtain ⟨⟨t0, e0, hc⟩, hdom, hn'⟩ := hn
    have hd' : Distinct (z :: l ++ h :: rest) := by
      simp only [Distinct, List.cons_append, List.map_cons, List.nodup_cons] at hd ⊢
      exact hd.2
    have h2 : h.id ≠ y.id := by
      simp only [Distinct, List.cons_append, List.map_cons, List.map_append, List.nodup_cons,
        List.mem_append, List.mem_cons, not_or] at hd
      intro e; exact hd.1.2.2.1 e.symm
    have h3 : h.id ≠ z.id := by
      simp only [Distinct, List.cons_append, List.map_cons, List.map_append, List.nodup_cons,
        List.mem_append, List.mem_cons, not_or] at hd'
      intro e; exact hd'.1.2.1 e.symm
    have hl : y.local = 1 := by
      have := hu y (by simp)
      simp only [Undisturbed] at this
      simp [Link.local, this]
    obtain ⟨t, s, e1, e2, e3⟩ := ih z hd' (fun w hw => hu w (List.mem_cons_of_mem _ hw)) hn'
    refine ⟨t0 * t, y.s0 + s, ?_, ?_, ?_⟩
    · simp only [List.cons_append] at e1 ⊢
      rw [physical, if_neg (by simpa using h2), e0, e1]
      simp [hl]
    · simp only [List.cons_append] at e2 ⊢
      rw [getPosition, if_neg (by simpa [superId] using h3), e2]
      rfl
    · intro u hu
      obtain ⟨r, r1, r2⟩ := hc u hu
      obtain ⟨r', r1', r2'⟩ := e3 _ (hdom u hu)
      rw [r2] at r1'
      cases r1'
      refine ⟨r, r1, ?_⟩
      rw [show y.s0 + s + u = s + (y.s0 + u) by abel, r2', mul_assoc]

/-- C64: if no transformation has been applied to any frame up to the super-frame `h`, and the
geometries follow each other, the frame transformation to `h` is the identity. -/
theorem frame_identity (dom : Nat → K → Prop) (h : Link K G) (rest : List (Link K G)) (x y : Link K G)
    (l : List (Link K G)) (hd : Distinct (x :: y :: l ++ h :: rest))
    (hu : ∀ z ∈ x :: y :: l, Undisturbed z) (hn : Nested dom h (y :: l)) (hx : dom y.id x.s0) :
    frameTransform (some h) (x :: y :: l ++ h :: rest) = .ok 1 := by
  have hd' : Distinct (y :: l ++ h :: rest) := by
    simp only [Distinct, List.cons_append, List.map_cons, List.nodup_cons] at hd ⊢
    exact hd.2
  have h2 : h.id ≠ x.id := by
    simp only [Distinct, List.cons_append, List.map_cons, List.map_append, List.nodup_cons,
      List.mem_append, List.mem_cons, not_or] at hd
    intro e; exact hd.1.2.2.1 e.symm
  have h3 : h.id ≠ y.id := by
    simp only [Distinct, List.cons_append, List.map_cons, List.map_append, List.nodup_cons,
      List.mem_append, List.mem_cons, not_or] at hd'
    intro e; exact hd'.1.2.1 e.symm
  have hl : x.local = 1 := by
    have := hu x (by simp)
    simp only [Undisturbed] at this
    simp [Link.local, this]
  obtain ⟨t, s, e1, e2, e3⟩ := nested_physical dom h rest y l hd'
    (fun z hz => hu z (List.mem_cons_of_mem _ hz)) hn
  obtain ⟨r, r1, r2⟩ := e3 _ hx
  simp only [List.cons_append] at e1 e2
  simp only [frameTransform, List.cons_append, frameTransformTo]
  rw [if_neg h2, if_neg (by simpa [superId] using Ne.symm h3), physical,
    if_neg (by simpa using h2), r1, e1, getPosition, if_neg (by simpa [superId] using h3), e2]
  simp only [Outcome.bind_ok, Outcome.pure_eq]
  rw [add_comm x.s0 s, r2]
  simp [hl]

/-- C64: the frame transformation to the immediate super-frame is the local transformation, to
itself the identity; and the frame transformation followed after the design geometry is the
physical transformation. -/
theorem frame_physical (h : Link K G) (x : Link K G) (c : List (Link K G))
    (hne : h.id ≠ x.id) (t : G) (s : K) (d : G)
    (h1 : physical (some h.id) (x :: c) = .ok t) (h2 : getPosition (some h.id) (x :: c) = .ok s)
    (h3 : h.geo 0 s = .ok d) (hsup : superId c = some h.id → ∃ rest, c = h :: rest) :
    ∃ f, frameTransform (some h) (x :: c) = .ok f ∧ f * d = t := by
  simp only [frameTransform, frameTransformTo]
  rw [if_neg hne]
  by_cases hs : superId c = some h.id
  · rw [if_pos hs]
    obtain ⟨rest, rfl⟩ := hsup hs
    refine ⟨_, rfl, ?_⟩
    have hh : physical (some h.id) (h :: rest) = .ok 1 := by cases rest <;> simp [physical]
    rw [physical, if_neg (by simpa using hne), hh] at h1
    rw [getPosition, if_pos hs.symm] at h2
    cases h2
    rw [h3] at h1
    simp only [Outcome.bind_ok, Outcome.pure_eq, Outcome.ok.injEq, mul_one] at h1
    exact h1
  · rw [if_neg hs, h1, h2]
    simp only [Outcome.bind_ok, h3, Outcome.pure_eq]
    exact ⟨_, rfl, by simp⟩

/-! ## C65 -/

/-- Frames stacked at the plane `p`: each one lies at the boundary of the next and shares its plane
with it; the outermost one either does not lie at the boundary of its super-frame, or that is the
global frame (`top`). -/
def Stack (p : Bool) (top : Bool) : List (Link K G) → Prop
  | [] => False
  | [x] => x.atBoundary p = false ∨ top = true
  | x :: y :: l => x.atBoundary p = true ∧ SharesPlane p x y ∧ Stack p top (y :: l)

/-- C65: the boundary plane transformation leads from the design position of the plane to its
actual one.  The design plane is that of the outermost frame `xk` sharing the plane, at its design
position in its super-frame `h`; the actual plane is that of the innermost frame at its physical
position in `h`. -/
theorem boundary_correct (isId : G → Bool) (hid : ∀ t, isId t = true → t = 1) (p : Bool)
    (x0 : Link K G) (l : List (Link K G)) (h : Link K G) (rest : List (Link K G))
    (hd : Distinct (x0 :: l ++ h :: rest)) (hs : Stack p rest.isEmpty (x0 :: l))
    (xk : Link K G) (hk : (x0 :: l).getLast? = some xk) (a c d : G) (ha : x0.plane p = .ok a)
    (hc : xk.plane p = .ok c) (hdes : h.geo 0 xk.s0 = .ok d) :
    ∃ b t, boundary isId p (x0 :: l ++ h :: rest) = .ok b ∧
      physical (some h.id) (x0 :: l ++ h :: rest) = .ok t ∧ b * (c * d) = a * t := by
  have hloc : ∀ (x : Link K G) (a : G), x.plane p = .ok a →
      localBoundary isId p x = .ok (a * x.local * a⁻¹) := by
    intro x a hx
    simp only [localBoundary]
    by_cases hi : isId x.local = true
    · rw [if_pos hi, hid _ hi]; simp
    · rw [if_neg hi, hx]; rfl
  induction l generalizing x0 a with
  | nil =>
    simp at hk
    subst hk
    rw [ha] at hc
    cases hc
    have hne : h.id ≠ x0.id := by
      simp [Distinct] at hd
      intro e; exact hd.1.1 e.symm
    have hh : physical (some h.id) (h :: rest) = .ok 1 := by cases rest <;> simp [physical]
    refine ⟨c * x0.local * c⁻¹, x0.local * d, ?_, ?_, by group⟩
    · simp only [List.cons_append, List.nil_append]
      rw [boundary, hloc x0 c ha]
      simp only [Outcome.bind_ok]
      rcases hs with hs | hs
      · simp [hs]
      · cases rest with
        | nil => simp [boundary]
        | cons => simp at hs
    · simp only [List.cons_append, List.nil_append]
      rw [physical, if_neg (by simpa using hne), hdes, hh]
      simp
  | cons y l ih =>
    obtain ⟨hb, ⟨a', b', t', s1, s2, s3, s4⟩, hs'⟩ := hs
    have hd' : Distinct (y :: l ++ h :: rest) := by
      simp only [Distinct, List.cons_append, List.map_cons, List.nodup_cons] at hd ⊢
      exact hd.2
    have h2 : h.id ≠ x0.id := by
      simp only [Distinct, List.cons_append, List.map_cons, List.map_append, List.nodup_cons,
        List.mem_append, List.mem_cons, not_or] at hd
      intro e; exact hd.1.2.2.1 e.symm
    rw [ha] at s1
    cases s1
    obtain ⟨b, t, e1, e2, e3⟩ := ih y hd' hs' (by simpa using hk) b' s2
    refine ⟨a * x0.local * a⁻¹ * b, x0.local * t' * t, ?_, ?_, ?_⟩
    · simp only [List.cons_append] at e1 ⊢
      rw [boundary, hloc x0 a ha, e1]
      simp [hb]
    · simp only [List.cons_append] at e2 ⊢
      rw [physical, if_neg (by simpa using h2), s3, e2]
      simp
    · rw [mul_assoc _ b, e3, s4]
      group

/-- C65: entering a component leads from the design entrance plane to the actual one; leaving it
leads from the actual exit plane back to the design one. -/
theorem planes_correct (isId : G → Bool) (hid : ∀ t, isId t = true → t = 1)
    (x0 : Link K G) (l : List (Link K G)) (h : Link K G) (rest : List (Link K G))
    (hd : Distinct (x0 :: l ++ h :: rest)) (xk : Link K G) (hk : (x0 :: l).getLast? = some xk)
    (d : G) (hdes : h.geo 0 xk.s0 = .ok d) :
    (∀ a c, Stack false rest.isEmpty (x0 :: l) → x0.plane false = .ok a → xk.plane false = .ok c →
      ∃ b t, entrancePlane isId (x0 :: l ++ h :: rest) = .ok b ∧
        physical (some h.id) (x0 :: l ++ h :: rest) = .ok t ∧ b * (c * d) = a * t) ∧
    (∀ a c, Stack true rest.isEmpty (x0 :: l) → x0.plane true = .ok a → xk.plane true = .ok c →
      ∃ b t, exitPlane isId (x0 :: l ++ h :: rest) = .ok b ∧
        physical (some h.id) (x0 :: l ++ h :: rest) = .ok t ∧ b * (a * t) = c * d) := by
  constructor
  · intro a c hs ha hc
    exact boundary_correct isId hid false x0 l h rest hd hs xk hk a c d ha hc hdes
  · intro a c hs ha hc
    obtain ⟨b, t, e1, e2, e3⟩ := boundary_correct isId hid true x0 l h rest hd hs xk hk a c d ha hc hdes
    refine ⟨b⁻¹, t, ?_, e2, ?_⟩
    · rw [exitPlane, e1]; rfl
    · rw [← e3]; group

/-- C65: with no transformation applied to the frames stacked at the plane, entering and leaving
change nothing. -/
theorem boundary_undisturbed (isId : G → Bool)
    (hone : isId 1 = true) (p : Bool) (c : List (Link K G)) (hne : c ≠ [])
    (hu : ∀ z ∈ c, Undisturbed z) : boundary isId p c = .ok 1 := by
  induction c with
  | nil => exact absurd rfl hne
  | cons x c ih =>
    cases c with
    | nil => rfl
    | cons y c =>
      have hl : x.local = 1 := by
        have := hu x (by simp)
        simp only [Undisturbed] at this
        simp [Link.local, this]
      rw [boundary, localBoundary, hl, hone, if_pos rfl, Outcome.bind_ok,
        ih (by simp) (fun z hz => hu z (List.mem_cons_of_mem _ hz))]
      simp

end

/-! ## Concrete hierarchies -/

/-- A sub-sequence of two straight pieces with its origin in the middle, in a global frame with its
origin at the entrance. -/
def chain (a b : ℚ) (s : ℚ) (l : Option (Multiplicative ℚ)) : List (Link ℚ (Multiplicative ℚ)) :=
  let sub := build .center [drift a, drift b]
  let glob := build .entrance [sub.toGeo 0]
  [⟨0, s, l, (drift a).transform, fun e => .ok (Multiplicative.ofAdd (if e then a / 2 else -a / 2)), fun e => !e⟩,
   ⟨1, (a + b) / 2, none, sub.transform 0, fun e => .ok (Multiplicative.ofAdd (if e then (a + b) / 2 else -(a + b) / 2)), fun _ => true⟩,
   ⟨2, 0, none, glob.transform 0, fun _ => .ub, fun _ => false⟩]

/-- C64 does not hold as documented: with pieces of length 4 and 2, no transformation applied, the
frame transformation of the first piece (at -1 from the origin of its sequence) to the global frame
is a shift by 2, because the transform back by 1 within the piece is returned as one forward. -/
theorem frame_identity_violated :
    (∀ z ∈ chain 4 2 (-1) none, Undisturbed z) ∧
    getPosition none (chain 4 2 (-1) none) = .ok 2 ∧
    frameTransform none (chain 4 2 (-1) none) = .ok (Multiplicative.ofAdd 2) := by
  refine ⟨by simp [chain, Undisturbed], by decide +kernel, by decide +kernel⟩

/-- With pieces of length 2 and 4 the first piece sits at -2, across the boundary. -/
example : frameTransform none (chain 2 4 (-2) none) = .ok 1 ∧
    Distinct (chain 2 4 (-2) none) ∧
    physical none (chain 2 4 (-2) (some (Multiplicative.ofAdd 7))) = .ok (Multiplicative.ofAdd 8) := by
  refine ⟨by decide +kernel, ?_, by decide +kernel⟩
  simp [Distinct, chain]

/-- The hypotheses of `frame_identity` for the same hierarchy. -/
example : ∃ (x y h : Link ℚ (Multiplicative ℚ)), chain 2 4 (-2) none = [x, y, h] ∧
    Nested (fun _ u => u = -2) h [y] ∧ x.s0 = -2 := by
  refine ⟨_, _, _, rfl, ⟨Multiplicative.ofAdd 3, by decide +kernel, ?_⟩, rfl⟩
  rintro u rfl
  exact ⟨Multiplicative.ofAdd (-2), by decide +kernel, by decide +kernel⟩

/-- The first piece shares the entrance plane with its sequence, which shares it with the global
frame; its own displacement by 7 is seen at the entrance and taken back at the exit. -/
example : ∃ (x y h : Link ℚ (Multiplicative ℚ)),
    chain 2 4 (-2) (some (Multiplicative.ofAdd 7)) = [x, y, h] ∧
    Stack false true [x, y] ∧ SharesPlane false x y ∧
    entrancePlane (fun t => decide (t = 1)) [x, y, h] = .ok (Multiplicative.ofAdd 7) ∧
    exitPlane (fun t => decide (t = 1)) [x, y, h] = .ok (Multiplicative.ofAdd (-7)) := by
  have hsh : SharesPlane false (chain 2 4 (-2) (some (Multiplicative.ofAdd 7)))[0]
      (chain 2 4 (-2) (some (Multiplicative.ofAdd 7)))[1] :=
    ⟨Multiplicative.ofAdd (-1), Multiplicative.ofAdd (-3), Multiplicative.ofAdd (-2),
      by decide +kernel, by decide +kernel, by decide +kernel, by decide +kernel⟩
  refine ⟨_, _, _, rfl, ⟨by decide +kernel, hsh, Or.inr rfl⟩, hsh, by decide +kernel, by decide +kernel⟩

#print axioms position_add
#print axioms physical_mul
#print axioms frame_identity
#print axioms frame_physical
#print axioms boundary_correct
#print axioms planes_correct
#print axioms boundary_undisturbed
#print axioms frame_identity_violated

end Verif.LatticeFrame
