import Verif.Crab.Spec
import Mathlib.Tactic.Linarith
import Mathlib.Tactic.NormNum
import Mathlib.Tactic.IntervalCases

/-! Counting turns (C287), and what a pass keeps (C296). -/

namespace Verif.Crab
open Verif Verif.Crab.Spec Real

theorem bind_ok_iff {ε α β : Type} {x : Outcome ε α} {f : α → Outcome ε β} {b : β} : x.bind f = .ok b ↔ ∃ a, x = .ok a ∧ f a = .ok b := by
  cases x <;> simp [Outcome.bind]

theorem obind_ok {ε α β : Type} (a : α) (f : α → Outcome ε β) : (Outcome.ok a : Outcome ε α).bind f = f a := rfl

/-- What the process keeps at a cavity. -/
def Keeps (s s' : State) : Prop :=
  s'.ip1 = s.ip1 ∧ s'.ip5 = s.ip5 ∧ s'.turn = s.turn ∧ s'.atlasOn = s.atlasOn ∧ s'.cmsOn = s.cmsOn ∧ s'.omega = s.omega ∧ s'.theta = s.theta ∧
  s'.nonFailTurns = s.nonFailTurns ∧ s'.failTurns = s.failTurns ∧ s'.failureOn = s.failureOn

theorem Keeps.refl (s : State) : Keeps s s := ⟨rfl, rfl, rfl, rfl, rfl, rfl, rfl, rfl, rfl, rfl⟩

theorem sameBut_refl (b : Bool) (p : Particle) : SameBut b p p := ⟨rfl, rfl, rfl, rfl, fun _ => rfl, fun _ => rfl⟩

theorem sameBut_kick (s : State) (v : ℝ) (p : Particle) : SameBut s.horizontal p (kick s v p) := by
  unfold kick SameBut
  cases h : s.horizontal <;> simp

theorem forall_same (b : Bool) (ps : List Particle) : List.Forall₂ (SameBut b) ps ps := by
  induction ps with
  | nil => exact .nil
  | cons p ps ih => exact .cons (sameBut_refl b p) ih

theorem forall_kick (s : State) (v : ℝ) (ps : List Particle) : List.Forall₂ (SameBut s.horizontal) ps (ps.map (kick s v)) := by
  induction ps with
  | nil => exact .nil
  | cons p ps ih => exact .cons (sameBut_kick s v p) ih

theorem forall_kick' {t : State} {b : Bool} (hb : t.horizontal = b) (v : ℝ) (ps : List Particle) :
    List.Forall₂ (SameBut b) ps (ps.map (kick t v)) := hb ▸ forall_kick t v ps

theorem do_keeps {o : Optics} {m : Marker} {s s' : State} {ps ps' : List Particle} (h : doProcess o m s ps = .ok (s', ps')) :
    Keeps s s' ∧ List.Forall₂ (SameBut s.horizontal) ps ps' := by
  have hsame : ∀ {r : Outcome Unit (State × List Particle)}, r = .ok (s, ps) → r = .ok (s', ps') →
      Keeps s s' ∧ List.Forall₂ (SameBut s.horizontal) ps ps' := by
    intro r h1 h2
    rw [h1] at h2
    injection h2 with h2
    injection h2 with h2 h3
    subst h2 h3
    exact ⟨Keeps.refl s, forall_same _ _⟩
  unfold doProcess at h
  split at h
  swap
  · exact hsame rfl h
  split at h
  · unfold doBoth at h
    dsimp only at h
    split at h
    · simp only [bind_ok_iff] at h
      obtain ⟨v1, -, i, -, h⟩ := h
      injection h with h
      injection h with h1 h2
      subst h1 h2
      refine ⟨?_, ?_⟩
      · split <;> exact ⟨rfl, rfl, rfl, rfl, rfl, rfl, rfl, rfl, rfl, rfl⟩
      · split
        · exact forall_kick _ _ _
        · exact forall_same _ _
    · split at h
      · simp only [bind_ok_iff] at h
        obtain ⟨i, -, v, -, h⟩ := h
        injection h with h
        injection h with h1 h2
        subst h1 h2
        exact ⟨Keeps.refl s, forall_kick _ _ _⟩
      · simp only [bind_ok_iff] at h
        obtain ⟨i, -, j, -, v, -, h⟩ := h
        exact hsame rfl h
  · split at h
    · unfold doAtlas at h
      dsimp only at h
      split at h
      · simp only [bind_ok_iff] at h
        obtain ⟨v1, -, i, -, h⟩ := h
        injection h with h
        injection h with h1 h2
        subst h1 h2
        exact ⟨⟨rfl, rfl, rfl, rfl, rfl, rfl, rfl, rfl, rfl, rfl⟩, forall_kick _ _ _⟩
      · simp only [bind_ok_iff] at h
        obtain ⟨i, -, v, -, h⟩ := h
        injection h with h
        injection h with h1 h2
        subst h1 h2
        refine ⟨⟨rfl, rfl, rfl, rfl, rfl, rfl, rfl, rfl, rfl, rfl⟩, ?_⟩
        refine forall_kick' ?_ _ _
        rfl
    · split at h
      · unfold doCms at h
        dsimp only at h
        split at h
        · simp only [bind_ok_iff] at h
          obtain ⟨v1, -, i, -, h⟩ := h
          injection h with h
          injection h with h1 h2
          subst h1 h2
          exact ⟨⟨rfl, rfl, rfl, rfl, rfl, rfl, rfl, rfl, rfl, rfl⟩, forall_kick _ _ _⟩
        · simp only [bind_ok_iff] at h
          obtain ⟨i, -, v, -, h⟩ := h
          injection h with h
          injection h with h1 h2
          subst h1 h2
          exact ⟨⟨rfl, rfl, rfl, rfl, rfl, rfl, rfl, rfl, rfl, rfl⟩, forall_kick _ _ _⟩
      · exact hsame rfl h

theorem pass_keeps {o : Optics} {m : Marker} {s s' : State} {ps ps' : List Particle} (h : pass o m (s, ps) = .ok (s', ps')) :
    Keeps (setComponent m s) s' ∧ List.Forall₂ (SameBut (setComponent m s).horizontal) ps ps' := do_keeps h

/-! ## Places -/

theorem place_up5 {z : ℝ} (h : At .up5 z) (s : State) :
    place z s = { s with upstream := true, atlas := false, horizontal := true, ip5 := s.ip5.goUp } := by
  simp only [At] at h
  rw [place, if_pos h]

theorem place_down5 {z : ℝ} (h : At .down5 z) (s : State) :
    place z s = { s with upstream := false, atlas := false, horizontal := true, ip5 := s.ip5.goDown } := by
  simp only [At] at h
  rw [place, if_neg (by intro h'; linarith), if_pos h]

theorem place_down1 {z : ℝ} (h : At .down1 z) (s : State) :
    place z s = { s with upstream := false, atlas := true, horizontal := false, ip1 := s.ip1.goDown } := by
  simp only [At] at h
  rw [place, if_neg (by intro h'; linarith), if_neg (by intro h'; linarith), if_pos h.2]

theorem place_up1 {z : ℝ} (h : At .up1 z) (s : State) :
    place z s = { s with upstream := true, atlas := true, horizontal := false, ip1 := s.ip1.goUp } := by
  simp only [At] at h
  rw [place, if_neg (by intro h'; linarith), if_neg (by intro h'; linarith), if_neg (by linarith), if_pos h]

/-- A cavity of a set changes at most slopes in its plane, horizontal at the fifth and vertical at the first point. -/
theorem only_slopes {o : Optics} {m : Marker} {k : Set} (hk : At k m.pos) {s s' : State} {ps ps' : List Particle}
    (h : pass o m (s, ps) = .ok (s', ps')) : List.Forall₂ (SameBut (decide (k = .up5 ∨ k = .down5))) ps ps' := by
  have := (pass_keeps h).2
  unfold setComponent at this
  cases k with
  | up5 => rw [place_up5 hk] at this; exact this
  | down5 => rw [place_down5 hk] at this; exact this
  | up1 => rw [place_up1 hk] at this; exact this
  | down1 => rw [place_down1 hk] at this; exact this

/-! ## Counting -/

/-- Counters and turn at the next cavity, both points in use. -/
def stepBoth (k : Set) (r : Counter × Counter × Int) : Counter × Counter × Int :=
  let r := if r.1.up && r.1.down && r.2.1.up && r.2.1.down then (Counter.zero, Counter.zero, r.2.2 + 1) else r
  match k with
  | .up5 => (r.1, r.2.1.goUp, r.2.2)
  | .down5 => (r.1, r.2.1.goDown, r.2.2)
  | .up1 => (r.1.goUp, r.2.1, r.2.2)
  | .down1 => (r.1.goDown, r.2.1, r.2.2)

/-- Counter and turn at the next cavity, the first point in use. -/
def stepAtlas (k : Set) (r : Counter × Int) : Counter × Int :=
  let r := if r.1.up && r.1.down then (Counter.zero, r.2 + 1) else r
  match k with
  | .up5 => r
  | .down5 => r
  | .up1 => (r.1.goUp, r.2)
  | .down1 => (r.1.goDown, r.2)

/-- Counter and turn at the next cavity, the fifth point in use. -/
def stepCms (k : Set) (r : Counter × Int) : Counter × Int :=
  let r := if r.1.up && r.1.down then (Counter.zero, r.2 + 1) else r
  match k with
  | .up5 => (r.1.goUp, r.2)
  | .down5 => (r.1.goDown, r.2)
  | .up1 => r
  | .down1 => r

theorem step_both {k : Set} {m : Marker} (hk : At k m.pos) {s : State} (ha : s.atlasOn = true) (hc : s.cmsOn = true) :
    ((setComponent m s).ip1, (setComponent m s).ip5, (setComponent m s).turn) = stepBoth k (s.ip1, s.ip5, s.turn) := by
  unfold setComponent stepBoth
  have hn : newTurn s = if (s.ip1.up && s.ip1.down && s.ip5.up && s.ip5.down) = true then { s with turn := s.turn + 1, ip1 := .zero, ip5 := .zero } else s := by simp [newTurn, ha, hc]
  rw [hn]
  by_cases hb : (s.ip1.up && s.ip1.down && s.ip5.up && s.ip5.down) = true
  · rw [if_pos hb]
    cases k <;> simp [place_up5, place_down5, place_up1, place_down1, hk, hb]
  · rw [if_neg hb]
    cases k <;> simp only [place_up5, place_down5, place_up1, place_down1, hk, hb] <;> rfl

theorem step_atlas {k : Set} {m : Marker} (hk : At k m.pos) {s : State} (ha : s.atlasOn = true) (hc : s.cmsOn = false) :
    ((setComponent m s).ip1, (setComponent m s).turn) = stepAtlas k (s.ip1, s.turn) := by
  unfold setComponent stepAtlas
  have hn : newTurn s = if (s.ip1.up && s.ip1.down) = true then { s with turn := s.turn + 1, ip1 := .zero } else s := by simp [newTurn, ha, hc]
  rw [hn]
  by_cases hb : (s.ip1.up && s.ip1.down) = true
  · rw [if_pos hb]
    cases k <;> simp [place_up5, place_down5, place_up1, place_down1, hk, hb]
  · rw [if_neg hb]
    cases k <;> simp only [place_up5, place_down5, place_up1, place_down1, hk, hb] <;> rfl

theorem step_cms {k : Set} {m : Marker} (hk : At k m.pos) {s : State} (ha : s.atlasOn = false) (hc : s.cmsOn = true) :
    ((setComponent m s).ip5, (setComponent m s).turn) = stepCms k (s.ip5, s.turn) := by
  unfold setComponent stepCms
  have hn : newTurn s = if (s.ip5.up && s.ip5.down) = true then { s with turn := s.turn + 1, ip5 := .zero } else s := by simp [newTurn, ha, hc]
  rw [hn]
  by_cases hb : (s.ip5.up && s.ip5.down) = true
  · rw [if_pos hb]
    cases k <;> simp [place_up5, place_down5, place_up1, place_down1, hk, hb]
  · rw [if_neg hb]
    cases k <;> simp only [place_up5, place_down5, place_up1, place_down1, hk, hb] <;> rfl

theorem set_on (m : Marker) (s : State) : (setComponent m s).atlasOn = s.atlasOn ∧ (setComponent m s).cmsOn = s.cmsOn := by
  unfold setComponent place newTurn
  constructor <;> (repeat' split) <;> rfl

theorem run_both {o : Optics} {ks : List Set} {ms : List Marker} (hk : List.Forall₂ (fun k m => At k m.pos) ks ms) {s s' : State}
    {ps ps' : List Particle} (h : passes o ms (s, ps) = .ok (s', ps')) (ha : s.atlasOn = true) (hc : s.cmsOn = true) :
    (s'.ip1, s'.ip5, s'.turn) = ks.foldl (fun r k => stepBoth k r) (s.ip1, s.ip5, s.turn) ∧ s'.atlasOn = true ∧ s'.cmsOn = true := by
  induction hk generalizing s ps with
  | nil => injection h with h; injection h with h _; subst h; exact ⟨rfl, ha, hc⟩
  | @cons k m ks ms hm _ ih =>
    simp only [passes, bind_ok_iff] at h
    obtain ⟨⟨s1, ps1⟩, h1, h2⟩ := h
    obtain ⟨⟨e1, e2, e3, e4, e5, -⟩, -⟩ := pass_keeps h1
    obtain ⟨g1, g2, g3⟩ := ih h2 (e4.trans ((set_on m s).1.trans ha)) (e5.trans ((set_on m s).2.trans hc))
    refine ⟨?_, g2, g3⟩
    rw [g1, List.foldl_cons, ← step_both hm ha hc, e1, e2, e3]

theorem run_atlas {o : Optics} {ks : List Set} {ms : List Marker} (hk : List.Forall₂ (fun k m => At k m.pos) ks ms) {s s' : State}
    {ps ps' : List Particle} (h : passes o ms (s, ps) = .ok (s', ps')) (ha : s.atlasOn = true) (hc : s.cmsOn = false) :
    (s'.ip1, s'.turn) = ks.foldl (fun r k => stepAtlas k r) (s.ip1, s.turn) ∧ s'.atlasOn = true ∧ s'.cmsOn = false := by
  induction hk generalizing s ps with
  | nil => injection h with h; injection h with h _; subst h; exact ⟨rfl, ha, hc⟩
  | @cons k m ks ms hm _ ih =>
    simp only [passes, bind_ok_iff] at h
    obtain ⟨⟨s1, ps1⟩, h1, h2⟩ := h
    obtain ⟨⟨e1, e2, e3, e4, e5, -⟩, -⟩ := pass_keeps h1
    obtain ⟨g1, g2, g3⟩ := ih h2 (e4.trans ((set_on m s).1.trans ha)) (e5.trans ((set_on m s).2.trans hc))
    refine ⟨?_, g2, g3⟩
    rw [g1, List.foldl_cons, ← step_atlas hm ha hc, e1, e3]

theorem run_cms {o : Optics} {ks : List Set} {ms : List Marker} (hk : List.Forall₂ (fun k m => At k m.pos) ks ms) {s s' : State}
    {ps ps' : List Particle} (h : passes o ms (s, ps) = .ok (s', ps')) (ha : s.atlasOn = false) (hc : s.cmsOn = true) :
    (s'.ip5, s'.turn) = ks.foldl (fun r k => stepCms k r) (s.ip5, s.turn) ∧ s'.atlasOn = false ∧ s'.cmsOn = true := by
  induction hk generalizing s ps with
  | nil => injection h with h; injection h with h _; subst h; exact ⟨rfl, ha, hc⟩
  | @cons k m ks ms hm _ ih =>
    simp only [passes, bind_ok_iff] at h
    obtain ⟨⟨s1, ps1⟩, h1, h2⟩ := h
    obtain ⟨⟨e1, e2, e3, e4, e5, -⟩, -⟩ := pass_keeps h1
    obtain ⟨g1, g2, g3⟩ := ih h2 (e4.trans ((set_on m s).1.trans ha)) (e5.trans ((set_on m s).2.trans hc))
    refine ⟨?_, g2, g3⟩
    rw [g1, List.foldl_cons, ← step_cms hm ha hc, e2, e3]

/-- The orders of sets in a turn: the bunch starts before one of the points. -/
def orders : List (List Set) := [[.up5, .down5, .up1, .down1], [.up1, .down1, .up5, .down5]]

/-- Cavities of all turns so far. -/
def rounds (order : List Set) (n : Nat) : List Set := (List.replicate n (order.flatMap (List.replicate 4))).flatten

/-- All cavities of a point passed. -/
def full : Counter := ⟨true, true, 4, 4⟩

theorem rounds_succ (order : List Set) (n : Nat) : rounds order (n + 1) = rounds order n ++ order.flatMap (List.replicate 4) := by
  unfold rounds
  rw [List.replicate_succ', List.flatten_append]
  simp

theorem after_both {order : List Set} (ho : order ∈ orders) (n : Nat) (t : Int) :
    (rounds order (n + 1)).foldl (fun r k => stepBoth k r) (.zero, .zero, t) = (full, full, t + n) := by
  induction n with
  | zero =>
    simp only [orders, List.mem_cons, List.not_mem_nil, or_false] at ho
    rcases ho with rfl | rfl <;> simp [rounds, stepBoth, Counter.zero, Counter.goUp, Counter.goDown, full]
  | succ n ih =>
    rw [rounds_succ, List.foldl_append, ih]
    simp only [orders, List.mem_cons, List.not_mem_nil, or_false] at ho
    rcases ho with rfl | rfl <;> simp [stepBoth, Counter.zero, Counter.goUp, Counter.goDown, full] <;> ring

theorem forall₂_append_left {α β : Type} {R : α → β → Prop} {a b : List α} {l : List β} (h : List.Forall₂ R (a ++ b) l) :
    ∃ c d, l = c ++ d ∧ List.Forall₂ R a c ∧ List.Forall₂ R b d := by
  induction a generalizing l with
  | nil => exact ⟨[], l, rfl, .nil, h⟩
  | cons x a ih =>
    cases h with
    | cons hx h =>
      obtain ⟨c, d, rfl, h1, h2⟩ := ih h
      exact ⟨_ :: c, d, rfl, .cons hx h1, h2⟩

/-- Both points in use: in the turn after `n` turns the number of the turn is `n + 1` at every cavity. -/
theorem turns_both {o : Optics} {order : List Set} (ho : order ∈ orders) {n : Nat} {part : List Set} (hne : part ≠ [])
    (hp : part <+: order.flatMap (List.replicate 4)) {ms : List Marker} (hk : List.Forall₂ (fun k m => At k m.pos) (rounds order n ++ part) ms)
    (w : ℝ × ℝ × ℝ) (a b : Int) {s' : State} {ps ps' : List Particle} (h : passes o ms (mkTurns w.1 w.2.1 w.2.2 a b, ps) = .ok (s', ps')) :
    s'.turn = n + 1 := by
  obtain ⟨h1, -, -⟩ := run_both hk h rfl rfl
  have ht : s'.turn = ((rounds order n ++ part).foldl (fun r k => stepBoth k r) (.zero, .zero, 1)).2.2 := by
    have := congrArg (fun r => r.2.2) h1
    exact this
  rw [ht, List.foldl_append]
  obtain ⟨rest, hr⟩ := hp
  have hl : part = (order.flatMap (List.replicate 4)).take part.length := by rw [← hr]; simp
  have h1 : 1 ≤ part.length := List.length_pos_iff.2 hne
  have h2 : part.length ≤ 16 := by
    have : part.length + rest.length = (order.flatMap (List.replicate 4)).length := by rw [← hr]; simp
    simp only [orders, List.mem_cons, List.not_mem_nil, or_false] at ho
    rcases ho with rfl | rfl <;> simp at this <;> omega
  generalize part.length = j at hl h1 h2
  subst hl
  cases n with
  | zero =>
    simp only [orders, List.mem_cons, List.not_mem_nil, or_false] at ho
    rcases ho with rfl | rfl <;> interval_cases j <;> simp [rounds, stepBoth, Counter.zero, Counter.goUp, Counter.goDown]
  | succ n =>
    rw [after_both ho]
    simp only [orders, List.mem_cons, List.not_mem_nil, or_false] at ho
    rcases ho with rfl | rfl <;> interval_cases j <;> simp [stepBoth, Counter.zero, Counter.goUp, Counter.goDown, full] <;> ring

theorem part_take {order part : List Set} (ho : order ∈ orders) (hne : part ≠ []) (hp : part <+: order.flatMap (List.replicate 4)) :
    ∃ j, part = (order.flatMap (List.replicate 4)).take j ∧ 1 ≤ j ∧ j ≤ 16 := by
  obtain ⟨rest, hr⟩ := hp
  refine ⟨part.length, by rw [← hr]; simp, List.length_pos_iff.2 hne, ?_⟩
  have : part.length + rest.length = (order.flatMap (List.replicate 4)).length := by rw [← hr]; simp
  simp only [orders, List.mem_cons, List.not_mem_nil, or_false] at ho
  rcases ho with rfl | rfl <;> simp at this <;> omega

theorem after_atlas (n : Nat) (t : Int) :
    (rounds [.up5, .down5, .up1, .down1] (n + 1)).foldl (fun r k => stepAtlas k r) (.zero, t) = (full, t + n) ∧
    (rounds [.up1, .down1, .up5, .down5] (n + 1)).foldl (fun r k => stepAtlas k r) (.zero, t) = (.zero, t + n + 1) := by
  induction n with
  | zero => constructor <;> simp [rounds, stepAtlas, Counter.zero, Counter.goUp, Counter.goDown, full]
  | succ n ih =>
    constructor
    · rw [rounds_succ, List.foldl_append, ih.1]
      simp [stepAtlas, Counter.zero, Counter.goUp, Counter.goDown, full]
      ring
    · rw [rounds_succ, List.foldl_append, ih.2]
      simp [stepAtlas, Counter.zero, Counter.goUp, Counter.goDown]
      ring

theorem after_cms (n : Nat) (t : Int) :
    (rounds [.up5, .down5, .up1, .down1] (n + 1)).foldl (fun r k => stepCms k r) (.zero, t) = (.zero, t + n + 1) ∧
    (rounds [.up1, .down1, .up5, .down5] (n + 1)).foldl (fun r k => stepCms k r) (.zero, t) = (full, t + n) := by
  induction n with
  | zero => constructor <;> simp [rounds, stepCms, Counter.zero, Counter.goUp, Counter.goDown, full]
  | succ n ih =>
    constructor
    · rw [rounds_succ, List.foldl_append, ih.1]
      simp [stepCms, Counter.zero, Counter.goUp, Counter.goDown]
      ring
    · rw [rounds_succ, List.foldl_append, ih.2]
      simp [stepCms, Counter.zero, Counter.goUp, Counter.goDown, full]
      ring

/-- The first point in use: in the turn after `n` turns the number of the turn is `n + 1` at every cavity of that point. -/
theorem turns_atlas {o : Optics} {order : List Set} (ho : order ∈ orders) {n : Nat} {part : List Set}
    (hl : part.getLast? = some .up1 ∨ part.getLast? = some .down1)
    (hp : part <+: order.flatMap (List.replicate 4)) {ms : List Marker} (hk : List.Forall₂ (fun k m => At k m.pos) (rounds order n ++ part) ms)
    (w : ℝ × ℝ × ℝ) (a b : Int) {s' : State} {ps ps' : List Particle}
    (h : passes o ms (setPlanes true false (mkTurns w.1 w.2.1 w.2.2 a b), ps) = .ok (s', ps')) : s'.turn = n + 1 := by
  obtain ⟨hrun, -, -⟩ := run_atlas hk h rfl rfl
  have ht : s'.turn = ((rounds order n ++ part).foldl (fun r k => stepAtlas k r) (.zero, 1)).2 := congrArg (fun r => r.2) hrun
  rw [ht, List.foldl_append]
  obtain ⟨j, rfl, h1, h2⟩ := part_take ho (by rintro rfl; simp at hl) hp
  clear ht h hk hp hrun
  cases n with
  | zero =>
    simp only [orders, List.mem_cons, List.not_mem_nil, or_false] at ho
    rcases ho with rfl | rfl <;> interval_cases j <;> simp [rounds, stepAtlas, Counter.zero, Counter.goUp, Counter.goDown] at hl ⊢
  | succ n =>
    simp only [orders, List.mem_cons, List.not_mem_nil, or_false] at ho
    rcases ho with rfl | rfl
    · rw [(after_atlas n 1).1]
      interval_cases j <;> simp [stepAtlas, Counter.zero, Counter.goUp, Counter.goDown, full] at hl ⊢ <;> ring
    · rw [(after_atlas n 1).2]
      interval_cases j <;> simp [stepAtlas, Counter.zero, Counter.goUp, Counter.goDown] at hl ⊢ <;> ring

/-- The fifth point in use: in the turn after `n` turns the number of the turn is `n + 1` at every cavity of that point. -/
theorem turns_cms {o : Optics} {order : List Set} (ho : order ∈ orders) {n : Nat} {part : List Set}
    (hl : part.getLast? = some .up5 ∨ part.getLast? = some .down5)
    (hp : part <+: order.flatMap (List.replicate 4)) {ms : List Marker} (hk : List.Forall₂ (fun k m => At k m.pos) (rounds order n ++ part) ms)
    (w : ℝ × ℝ × ℝ) (a b : Int) {s' : State} {ps ps' : List Particle}
    (h : passes o ms (setPlanes false true (mkTurns w.1 w.2.1 w.2.2 a b), ps) = .ok (s', ps')) : s'.turn = n + 1 := by
  obtain ⟨hrun, -, -⟩ := run_cms hk h rfl rfl
  have ht : s'.turn = ((rounds order n ++ part).foldl (fun r k => stepCms k r) (.zero, 1)).2 := congrArg (fun r => r.2) hrun
  rw [ht, List.foldl_append]
  obtain ⟨j, rfl, h1, h2⟩ := part_take ho (by rintro rfl; simp at hl) hp
  clear ht h hk hp hrun
  cases n with
  | zero =>
    simp only [orders, List.mem_cons, List.not_mem_nil, or_false] at ho
    rcases ho with rfl | rfl <;> interval_cases j <;> simp [rounds, stepCms, Counter.zero, Counter.goUp, Counter.goDown] at hl ⊢
  | succ n =>
    simp only [orders, List.mem_cons, List.not_mem_nil, or_false] at ho
    rcases ho with rfl | rfl
    · rw [(after_cms n 1).1]
      interval_cases j <;> simp [stepCms, Counter.zero, Counter.goUp, Counter.goDown] at hl ⊢ <;> ring
    · rw [(after_cms n 1).2]
      interval_cases j <;> simp [stepCms, Counter.zero, Counter.goUp, Counter.goDown, full] at hl ⊢ <;> ring

end Verif.Crab
