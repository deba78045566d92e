import Verif.XTFF.Spec
import Verif.MAD.Properties
import Mathlib.Analysis.Real.Pi.Bounds

/-!
# Properties of the XTFF interface: energies, strengths, shapes, apertures
-/

namespace Verif.XTFF
open Verif Verif.Multipole Verif.Multipole.Spec Verif.XTFF.Spec Real
open Verif.MAD (eV c MV Frame brhoOf bind_ok_iff rigidity_eq obind_ok)
open Verif.MAD.Spec (field rigidity I)

theorem quot_ok {a b : ℝ} (hb : b ≠ 0) : quot a b = .ok (a / b) := by simp [quot, hb]

theorem quot_inv {a b x : ℝ} (h : quot a b = .ok x) : b ≠ 0 ∧ x = a / b := by
  unfold quot at h
  split at h
  · cases h
  · rename_i hb; injection h with h; exact ⟨hb, h.symm⟩

theorem isZero_iff (x : ℝ) : isZero x = true ↔ |x| ≤ eps := by simp [isZero, Range.fequal]

theorem eps_pos : 0 < eps := by unfold eps; positivity

theorem isZero_zero : isZero 0 = true := (isZero_iff 0).2 (by simpa using eps_pos.le)

theorem not_isZero {x : ℝ} (h : eps < |x|) : isZero x = false := by
  rw [Bool.eq_false_iff]; intro hx; exact absurd ((isZero_iff x).1 hx) (not_le.2 h)

theorem eps_lt : eps < 1e-15 := by unfold eps; norm_num

theorem call_live {a : Act} {p p' : Ptr} (h : call a p = .ok p') : ∃ acts n n', p = .live acts n ∧ p' = .live (acts ++ [a]) n' := by
  cases p with
  | live acts n =>
    cases a with
    | endFrame =>
      cases n with
      | zero => cases h
      | succ n => injection h with h; exact ⟨acts, _, n, rfl, h.symm⟩
    | _ => injection h with h; exact ⟨acts, n, _, rfl, h.symm⟩
  | null => cases h
  | spent => cases h

/-- The aperture of an element which has been given another before. -/
noncomputable def aperOf (i : Interface) (d : Data) (r : Option Aper) : Option Aper :=
  if i.apertures && !isZero (d.real 4) then some (.circle (d.real 4)) else r

theorem append_ok (x : Comp) (r : Option Aper) (d : Data) {i : Interface} (g : Globals) {acts : List Act} {n : Nat} (h : i.mc = .live acts n) :
    append x r d i g = .ok ({ i with mc := .live (acts ++ [.comp x (aperOf i d r) g.z]) n }, { g with z := g.z + x.len }) := by
  simp only [append, h, call, obind_ok, aperOf]

theorem append_inv {x : Comp} {r : Option Aper} {d : Data} {i i' : Interface} {g g' : Globals} (h : append x r d i g = .ok (i', g')) :
    ∃ acts n, i.mc = .live acts n ∧ i' = { i with mc := .live (acts ++ [.comp x (aperOf i d r) g.z]) n } ∧ g' = { g with z := g.z + x.len } := by
  cases hm : i.mc with
  | live acts n =>
    rw [append_ok x r d g hm] at h
    injection h with h
    injection h with h1 h2
    exact ⟨acts, n, rfl, h1.symm, h2.symm⟩
  | null => simp [append, hm, call, Outcome.bind] at h
  | spent => simp [append, hm, call, Outcome.bind] at h

theorem comps_append (a b : List Act) : comps (a ++ b) = comps a ++ comps b := List.filterMap_append

theorem total_append (a b : List Act) : total (a ++ b) = total a + total b := by simp [total, comps_append]

theorem placed_append {z : ℝ} {a b : List Act} (ha : Placed z a) (hb : Placed (z + total a) b) : Placed z (a ++ b) := by
  intro i x p h
  rw [comps_append] at h ⊢
  by_cases hi : i < (comps a).length
  · rw [List.getElem?_append_left hi] at h
    rw [List.take_append_of_le_length hi.le]
    exact ha i x p h
  · push Not at hi
    rw [List.getElem?_append_right hi] at h
    rw [List.take_append, List.take_of_length_le hi, hb _ x p h]
    simp [total]
    ring

theorem placed_nil (z : ℝ) {a : List Act} (h : comps a = []) : Placed z a := by
  intro i x p hx; rw [h] at hx; simp at hx

theorem total_nil {a : List Act} (h : comps a = []) : total a = 0 := by rw [total, h]; rfl

theorem placed_one (x : Comp) (a : Option Aper) (z : ℝ) : Placed z [.comp x a z] := by
  intro i y p h
  cases i with
  | zero => simp [comps] at h; simp [h.2]
  | succ i => simp [comps] at h

theorem total_one (x : Comp) (a : Option Aper) (z : ℝ) : total [.comp x a z] = x.len := by simp [total, comps]

/-- What an element does to the interface and to the shared variables. -/
structure Effect (d : Data) (i : Interface) (g : Globals) (i' : Interface) (g' : Globals) : Prop where
  types : i'.driftTypes = i.driftTypes
  apertures : i'.apertures = i.apertures
  girders : i'.girders = i.girders
  q : g'.q = g.q
  energy : g'.energy = g.energy + gain i.driftTypes g.q d
  acts : ∃ acts n as n', i.mc = .live acts n ∧ i'.mc = .live (acts ++ as) n' ∧ Placed g.z as ∧ g'.z = g.z + total as

theorem effect_append {x : Comp} {r : Option Aper} {d : Data} {i i' : Interface} {g g' : Globals} (h : append x r d i g = .ok (i', g'))
    (hg : gain i.driftTypes g.q d = 0) : Effect d i g i' g' := by
  obtain ⟨acts, n, hm, rfl, rfl⟩ := append_inv h
  exact ⟨rfl, rfl, rfl, rfl, by simp [hg], acts, n, _, n, hm, rfl, placed_one _ _ _, by rw [total_one]⟩

theorem keyword_lcav {i : Interface} {kw : String} : keyword i kw = "LCAV" ↔ kw = "LCAV" ∧ "LCAV" ∉ i.driftTypes := by
  unfold keyword
  constructor
  · intro h
    dsimp only at h
    by_cases h1 : kw = "HMON" ∨ kw = "VMON"
    · rw [if_pos h1] at h
      split at h <;> simp at h
    · rw [if_neg h1] at h
      split at h
      · simp at h
      · rename_i h2; subst h; exact ⟨rfl, h2⟩
  · rintro ⟨rfl, h⟩
    simp [h]

theorem gain_zero {i : Interface} {q : ℝ} {d : Data} (h : keyword i d.kw ≠ "LCAV") : gain i.driftTypes q d = 0 := by
  unfold gain
  rw [if_neg]
  rintro ⟨h1, h2, _⟩
  exact h (keyword_lcav.2 ⟨h1, h2⟩)

theorem effect_newFrame {name : List Char} {i i' : Interface} (h : newFrame name i = .ok i') :
    ∃ acts n as n', i.mc = .live acts n ∧ i' = { i with mc := .live (acts ++ as) n' } ∧ comps as = [] := by
  unfold newFrame at h
  cases name with
  | nil => cases h
  | cons k rest =>
    dsimp only at h
    split at h
    · rw [bind_ok_iff] at h
      obtain ⟨p, hp, h⟩ := h
      injection h with h
      obtain ⟨acts, n, n', h1, h2⟩ := call_live hp
      exact ⟨acts, n, _, n', h1, by rw [← h, h2], rfl⟩
    · cases h

theorem effect_mark {d : Data} {i i' : Interface} {g g' : Globals} (h : mark d i g = .ok (i', g')) (hg : gain i.driftTypes g.q d = 0) :
    Effect d i g i' g' := by
  have hplain : ∀ {r : Outcome Exn (Interface × Globals)}, r = (if d.label = ['V', 'P', 'I', 'V'] then
      (call (.xrot d.label) i.mc).bind fun p => append (.marker d.label) none d { i with mc := p } g
      else append (.marker d.label) none d i g) → r = .ok (i', g') → Effect d i g i' g' := by
    intro r hr h
    rw [hr] at h
    split at h
    · rw [bind_ok_iff] at h
      obtain ⟨p, hp, h⟩ := h
      obtain ⟨acts, n, n', h1, h2⟩ := call_live hp
      obtain ⟨acts', m, h3, rfl, rfl⟩ := append_inv h
      rw [h2] at h3
      injection h3 with h3 h4
      subst h3 h4
      exact ⟨rfl, rfl, rfl, rfl, by simp [hg], acts, n, [.xrot d.label] ++ [_], n', h1, by rw [← List.append_assoc],
        placed_append (placed_nil _ rfl) (by rw [total_nil rfl, add_zero]; exact placed_one _ _ _),
        by rw [total_append, total_nil rfl, total_one, zero_add]⟩
    · exact effect_append h hg
  unfold mark at h
  dsimp only at h
  split at h
  · split at h
    · cases h
    · split at h
      · split at h
        · rw [bind_ok_iff] at h
          obtain ⟨p, hp, h⟩ := h
          injection h with h
          injection h with h1 h2
          obtain ⟨acts, n, n', h3, h4⟩ := call_live hp
          subst h1 h2
          exact ⟨rfl, rfl, rfl, rfl, by simp [hg], acts, n, _, n', h3, h4, placed_nil _ rfl, by rw [total_nil rfl, add_zero]⟩
        · rw [bind_ok_iff] at h
          obtain ⟨p, hp, h⟩ := h
          injection h with h
          injection h with h1 h2
          obtain ⟨acts, n, as, n', h3, h4, h5⟩ := effect_newFrame hp
          subst h1 h2 h4
          exact ⟨rfl, rfl, rfl, rfl, by simp [hg], acts, n, as, n', h3, rfl, placed_nil _ h5, by rw [total_nil h5, add_zero]⟩
      · exact hplain rfl h
  · exact hplain rfl h

theorem bind_append {o : Outcome Exn Comp} {d : Data} {i : Interface} {g : Globals} {r : Interface × Globals}
    (h : (o.bind fun x => append x none d i g) = .ok r) : ∃ x, o = .ok x ∧ append x none d i g = .ok r := bind_ok_iff.1 h

/-- What every element does. -/
theorem effect {d : Data} {i i' : Interface} {g g' : Globals} (h : construct d i g = .ok (i', g')) : Effect d i g i' g' := by
  unfold construct at h
  dsimp only at h
  split at h
  case h_8 hk =>
    split at h
    · rename_i hl
      obtain ⟨x, -, h⟩ := bind_append h
      exact effect_append h (by unfold gain; rw [if_neg]; rintro ⟨_, _, h3⟩; exact h3 hl)
    · rename_i hl
      rw [bind_ok_iff] at h
      obtain ⟨p, hp, h⟩ := h
      unfold cavity at hp
      dsimp only at hp
      rw [bind_ok_iff] at hp
      obtain ⟨e, he, hp⟩ := hp
      injection hp with hp
      subst hp
      obtain ⟨acts, n, hm, rfl, rfl⟩ := append_inv h
      obtain ⟨h1, h2⟩ := keyword_lcav.1 hk
      refine ⟨rfl, rfl, rfl, rfl, ?_, acts, n, _, n, hm, rfl, placed_one _ _ _, by rw [total_one]⟩
      show g.energy + _ = _
      unfold gain
      rw [if_pos ⟨h1, h2, hl⟩]
      unfold MV Volt GeV eV
      ring
  case h_14 hk => exact effect_mark h (gain_zero (by rw [hk]; simp))
  case h_16 hk =>
    rw [bind_ok_iff] at h
    obtain ⟨p, hp, h⟩ := h
    injection h with h
    injection h with h1 h2
    subst h1 h2
    obtain ⟨acts, n, n', h3, h4⟩ := call_live hp
    exact ⟨rfl, rfl, rfl, rfl, by simp [gain_zero (i := i) (q := g.q) (d := d) (by rw [hk]; simp)], acts, n, _, n', h3, h4, placed_nil _ rfl,
      by rw [total_nil rfl, add_zero]⟩
  case h_1 hk => exact effect_append h (gain_zero (by rw [hk]; simp))
  case h_2 hk =>
    split at h
    · exact effect_append h (gain_zero (by rw [hk]; simp))
    · obtain ⟨x, -, h⟩ := bind_append h
      exact effect_append h (gain_zero (by rw [hk]; simp))
  case h_5 hk =>
    split at h
    · exact effect_append h (gain_zero (by rw [hk]; simp))
    · obtain ⟨x, -, h⟩ := bind_append h
      exact effect_append h (gain_zero (by rw [hk]; simp))
  case h_3 hk => obtain ⟨x, -, h⟩ := bind_append h; exact effect_append h (gain_zero (by rw [hk]; simp))
  case h_4 hk => obtain ⟨x, -, h⟩ := bind_append h; exact effect_append h (gain_zero (by rw [hk]; simp))
  case h_6 hk => obtain ⟨x, -, h⟩ := bind_append h; exact effect_append h (gain_zero (by rw [hk]; simp))
  case h_7 hk => obtain ⟨x, -, h⟩ := bind_append h; exact effect_append h (gain_zero (by rw [hk]; simp))
  case h_9 hk => exact effect_append h (gain_zero (by rw [hk]; simp))
  case h_10 hk => exact effect_append h (gain_zero (by rw [hk]; simp))
  case h_11 hk => exact effect_append h (gain_zero (by rw [hk]; simp))
  case h_12 hk => exact effect_append h (gain_zero (by rw [hk]; simp))
  case h_13 hk => exact effect_append h (gain_zero (by rw [hk]; simp))
  case h_15 hk => exact effect_append h (gain_zero (by rw [hk]; simp))
  case h_17 hk => exact effect_append h (gain_zero (fun he => by simp_all))

/-- What a line does. -/
theorem effects {ds : List Data} {i i' : Interface} {g g' : Globals} (h : constructs ds i g = .ok (i', g')) :
    i'.driftTypes = i.driftTypes ∧ i'.apertures = i.apertures ∧ i'.girders = i.girders ∧ g'.q = g.q ∧
    g'.energy = g.energy + gained i.driftTypes g.q ds ∧ ∀ acts n, i.mc = .live acts n →
      ∃ as n', i'.mc = .live (acts ++ as) n' ∧ Placed g.z as ∧ g'.z = g.z + total as := by
  induction ds generalizing i g with
  | nil =>
    injection h with h
    injection h with h1 h2
    subst h1 h2
    exact ⟨rfl, rfl, rfl, rfl, by simp [gained], fun acts n hm => ⟨[], n, by simpa using hm, placed_nil _ rfl, by rw [total_nil rfl, add_zero]⟩⟩
  | cons d ds ih =>
    simp only [constructs, bind_ok_iff] at h
    obtain ⟨⟨i1, g1⟩, h1, h2⟩ := h
    have e := effect h1
    obtain ⟨a1, a2, a3, a4, a5, a6⟩ := ih h2
    obtain ⟨acts0, n0, as, n1, b1, b2, b3, b4⟩ := e.acts
    refine ⟨a1.trans e.types, a2.trans e.apertures, a3.trans e.girders, a4.trans e.q, ?_, ?_⟩
    · rw [a5, e.energy, e.types, e.q]; simp [gained]; ring
    · intro acts n hm
      rw [hm] at b1
      injection b1 with b1 b1'
      subst b1 b1'
      obtain ⟨as', n', c1, c2, c3⟩ := a6 _ _ b2
      exact ⟨as ++ as', n', by rw [c1, List.append_assoc], placed_append b3 (by rw [← b4]; exact c2), by
        rw [c3, b4, total_append]; ring⟩

theorem constructs_append {as bs : List Data} {i : Interface} {g : Globals} :
    constructs (as ++ bs) i g = (constructs as i g).bind fun r => constructs bs r.1 r.2 := by
  induction as generalizing i g with
  | nil => rfl
  | cons a as ih =>
    simp only [List.cons_append, constructs]
    cases construct a i g with
    | ok r => simp only [obind_ok]; exact ih
    | throw e => rfl
    | ub => rfl

/-! ## C272 -/

/-- The energy after a line is that before, plus the gains of its cavities less their losses; nothing else changes it. -/
theorem energy_gained {ds : List Data} {i i' : Interface} {g g' : Globals} (h : constructs ds i g = .ok (i', g')) :
    g'.energy = g.energy + gained i.driftTypes g.q ds := (effects h).2.2.2.2.1

/-- A cavity becomes a structure that gives a particle on its axis the energy gain without loading: amplitude times length
times the cosine of the phase; the length and the frequency are those of the file. -/
theorem cavity_gain {d : Data} {i : Interface} {g : Globals} (hk : d.kw = "LCAV") (ht : "LCAV" ∉ i.driftTypes)
    (hl : d.label.take 4 ≠ ['C', 'R', 'A', 'B']) (h0 : d.real 0 ≠ 0) :
    ∃ e, Makes d i g (.cavity d.label (d.real 0) (d.real 7 * 1000000) e (2 * π * d.real 9)) (aperOf i d none) ∧
      MAD.Spec.beamVoltage e (2 * π * d.real 9) (d.real 0) = gain i.driftTypes 0 d := by
  refine ⟨d.real 8 * MV / d.real 0, ?_, ?_⟩
  · intro acts n hm
    have hkw : keyword i d.kw = "LCAV" := keyword_lcav.2 ⟨hk, ht⟩
    simp only [construct, hkw, if_neg hl, cavity, quot_ok h0, obind_ok]
    rw [append_ok _ _ _ _ hm, show d.real 7 * MHz = d.real 7 * 1000000 by norm_num [MHz]]
    exact ⟨_, rfl, rfl⟩
  · unfold MAD.Spec.beamVoltage gain MV
    rw [if_pos ⟨hk, ht, hl⟩]
    field_simp
    ring

/-- An element of a file. -/
noncomputable def sample (kw : String) (label : List Char) (vals : List (Nat × ℝ)) : Data :=
  ⟨kw, label, [], fun n => (vals.lookup n).getD 0⟩

/-- Quadrupole, cavity on the crest, quadrupole. -/
noncomputable def linac : List Data :=
  [sample "QUAD" ['Q'] [(0, 1), (2, 2)], sample "LCAV" ['C'] [(0, 2), (7, 1300), (8, 500), (10, 1000000)],
   sample "QUAD" ['Q'] [(0, 1), (2, 2)]]

/-- A constructor that has been made. -/
noncomputable def ready : Interface := { mk 0 with mc := .live [] 0 }

theorem skew_zero : isSkewQuad 0 = false := by norm_num [isSkewQuad]

theorem linac_ok (e q : ℝ) : ∃ i g, constructs linac ready ⟨e, 0, 0, q⟩ = .ok (i, g) := by
  simp [linac, constructs, construct, keyword, sample, List.lookup, ready, mk, skew_zero, normal, isZero_zero, Outcome.bind, append, call,
    cavity, quot]

example : ∃ i g, constructs linac ready ⟨5, 0, 0, 10⟩ = .ok (i, g) ∧ g.energy = 5 + 0.49 := by
  obtain ⟨i, g, h⟩ := linac_ok 5 10
  refine ⟨i, g, h, ?_⟩
  rw [energy_gained h]
  simp [gained, gain, linac, sample, List.lookup, ready, mk]
  norm_num

example : ∃ d : Data, d.kw = "LCAV" ∧ "LCAV" ∉ ready.driftTypes ∧ d.label.take 4 ≠ ['C', 'R', 'A', 'B'] ∧ d.real 0 ≠ 0 ∧
    gain ready.driftTypes 0 d = 0.5 :=
  ⟨sample "LCAV" ['C'] [(0, 2), (7, 1300), (8, 500)], by simp [sample, ready, mk, List.lookup, gain]; norm_num⟩

/-! ## C273 -/

theorem keyword_same {i : Interface} {kw : String} (h1 : kw ≠ "HMON") (h2 : kw ≠ "VMON") (h : kw ∉ i.driftTypes) : keyword i kw = kw := by
  simp [keyword, h1, h2, h]

theorem field_grad4 (b : ℝ) (z : Cx ℝ) : field (mkGrad 4 b false) z = ofReal (b / 24) * z ^ 4 := by
  ext <;> simp [MAD.Spec.field, mkGrad, series, coeff, Multipole.factorial, factLoop, ofReal, List.range_succ, pow_succ] <;> (left; ring)

theorem dipole_of {p h k1 : ℝ} {f : MField ℝ} (hm : mixed (mkRadius 0 (brhoOf p * h) 1 false) k1 (brhoOf p) = .ok f)
    (hz : isZero k1 = true → k1 = 0) : Dipole p h k1 f := by
  intro z
  unfold mixed at hm
  rw [← rigidity_eq]
  split at hm
  · rename_i h0
    injection hm with hm
    rw [hz h0, ← hm]
    ext <;> simp [MAD.Spec.field, mkRadius, series, coeff, ofReal]
  · unfold setComponent at hm
    split at hm
    · rename_i f' hf
      split at hf
      · cases hf
      · rename_i hb
        injection hf with hf
        injection hm with hm
        rw [← hm, ← hf]
        have hb' : brhoOf p * h ≠ 0 := by simpa [mkRadius] using hb
        have : h ≠ 0 := right_ne_zero_of_mul hb'
        have : brhoOf p ≠ 0 := left_ne_zero_of_mul hb'
        ext <;> simp [MAD.Spec.field, mkRadius, series, coeff, ofReal, grow, List.range_succ] <;> field_simp
    · cases hm
    · cases hm

theorem bendOf_inv {name : List Char} {len h k1 tilt e1 e2 hgap p : ℝ} {x : Comp}
    (hx : bendOf name len h k1 tilt e1 e2 hgap (brhoOf p) = .ok x) (hz : isZero k1 = true → k1 = 0) :
    ∃ f, x = .bend name len h f (if isZero tilt then 0 else tilt) e1 e2 hgap ∧ Dipole p h k1 f := by
  unfold bendOf at hx
  rw [bind_ok_iff] at hx
  obtain ⟨f, hf, hx⟩ := hx
  split at hx
  · cases hx
  · injection hx with hx
    exact ⟨f, hx.symm, dipole_of hf hz⟩

/-- The magnet of an element. -/
theorem matched_one {d : Data} {i i' : Interface} {g g' : Globals} (h : construct d i g = .ok (i', g')) (hk : d.kw ∈ magnets)
    (ht : d.kw ∉ i.driftTypes) (hz : isZero (d.real 2) = true → d.real 2 = 0) :
    ∃ x a acts n, i.mc = .live acts n ∧ i'.mc = .live (acts ++ [.comp x a g.z]) n ∧ Matched g.energy d x := by
  have fin : ∀ {x : Comp}, append x none d i g = .ok (i', g') → Matched g.energy d x →
      ∃ x a acts n, i.mc = .live acts n ∧ i'.mc = .live (acts ++ [.comp x a g.z]) n ∧ Matched g.energy d x := by
    intro x hx hm
    obtain ⟨acts, n, h1, rfl, -⟩ := append_inv hx
    exact ⟨x, _, acts, n, h1, rfl, hm⟩
  have nor : ∀ {y : Comp}, ((normal d y).bind fun x => append x none d i g) = .ok (i', g') → append y none d i g = .ok (i', g') := by
    intro y hy
    obtain ⟨x, hx, h⟩ := bind_append hy
    unfold normal at hx
    split at hx
    · injection hx with hx; rw [hx]; exact h
    · cases hx
  simp only [magnets, List.mem_cons, List.not_mem_nil, or_false] at hk
  unfold construct at h
  rcases hk with hk | hk | hk | hk | hk | hk | hk
  · simp only [(keyword_same (by rw [hk]; simp) (by rw [hk]; simp) ht).trans hk] at h
    split at h
    · refine fin h ?_
      simp only [Matched, hk]
      exact ⟨_, .inr ⟨rfl, fun z => by rw [MAD.field_grad1_skew, rigidity_eq]⟩⟩
    · refine fin (nor h) ?_
      simp only [Matched, hk]
      exact ⟨_, .inl ⟨rfl, fun z => by rw [MAD.field_grad1, rigidity_eq]⟩⟩
  · simp only [(keyword_same (by rw [hk]; simp) (by rw [hk]; simp) ht).trans hk] at h
    split at h
    · refine fin h ?_
      simp only [Matched, hk]
      exact ⟨_, .inr ⟨rfl, fun z => by rw [MAD.field_grad2_skew, rigidity_eq]⟩⟩
    · refine fin (nor h) ?_
      simp only [Matched, hk]
      exact ⟨_, .inl ⟨rfl, fun z => by rw [MAD.field_grad2, rigidity_eq]⟩⟩
  · simp only [(keyword_same (by rw [hk]; simp) (by rw [hk]; simp) ht).trans hk] at h
    refine fin (nor h) ?_
    simp only [Matched, hk]
    exact ⟨_, rfl, fun z => by rw [MAD.field_grad3, rigidity_eq]⟩
  · simp only [(keyword_same (by rw [hk]; simp) (by rw [hk]; simp) ht).trans hk] at h
    refine fin (nor h) ?_
    simp only [Matched, hk]
    exact ⟨_, rfl, fun z => by rw [field_grad4, rigidity_eq]⟩
  · simp only [(keyword_same (by rw [hk]; simp) (by rw [hk]; simp) ht).trans hk] at h
    refine fin h ?_
    simp only [Matched, hk]
    rw [rigidity_eq]
  · simp only [(keyword_same (by rw [hk]; simp) (by rw [hk]; simp) ht).trans hk] at h
    obtain ⟨x, hx, h⟩ := bind_append h
    refine fin h ?_
    simp only [Matched, hk]
    unfold sectorBend at hx
    rw [bind_ok_iff] at hx
    obtain ⟨c, -, hx⟩ := hx
    obtain ⟨f, hf, hd⟩ := bendOf_inv hx hz
    exact ⟨_, _, f, _, _, _, _, hf, hd⟩
  · simp only [(keyword_same (by rw [hk]; simp) (by rw [hk]; simp) ht).trans hk] at h
    obtain ⟨x, hx, h⟩ := bind_append h
    refine fin h ?_
    simp only [Matched, hk]
    unfold rectBend at hx
    rw [bind_ok_iff] at hx
    obtain ⟨c, -, hx⟩ := hx
    obtain ⟨f, hf, hd⟩ := bendOf_inv hx hz
    exact ⟨_, _, f, _, _, _, _, hf, hd⟩

/-- Every magnet of a line has the strengths of the file for the energy the beam has there: that before the line, and what the
cavities up to the magnet add.  A gradient below the machine epsilon is taken for zero. -/
theorem magnets_matched {pre post : List Data} {d : Data} {i i' : Interface} {g g' : Globals}
    (h : constructs (pre ++ d :: post) i g = .ok (i', g')) (hk : d.kw ∈ magnets) (ht : d.kw ∉ i.driftTypes)
    (hz : isZero (d.real 2) = true → d.real 2 = 0) {acts : List Act} {n : Nat} (hm : i.mc = .live acts n) :
    ∃ A x a B n', i'.mc = .live (acts ++ A ++ .comp x a (g.z + total A) :: B) n' ∧
      Matched (g.energy + gained i.driftTypes g.q pre) d x := by
  rw [constructs_append, bind_ok_iff] at h
  obtain ⟨⟨i1, g1⟩, h1, h2⟩ := h
  simp only [constructs, bind_ok_iff] at h2
  obtain ⟨⟨i2, g2⟩, h2, h3⟩ := h2
  obtain ⟨t1, -, -, q1, e1, m1⟩ := effects h1
  obtain ⟨A, n1, a1, -, z1⟩ := m1 acts n hm
  obtain ⟨x, a, acts', n2, b1, b2, b3⟩ := matched_one h2 hk (by rw [t1]; exact ht) hz
  rw [a1] at b1
  injection b1 with b1 b1'
  obtain ⟨-, -, -, -, -, m3⟩ := effects h3
  obtain ⟨B, n3, c1, -, -⟩ := m3 _ _ b2
  refine ⟨A, x, a, B, n3, ?_, by rw [← e1]; exact b3⟩
  rw [c1, ← b1, z1]
  simp

example : ∃ i g, constructs linac ready ⟨5, 0, 0, 10⟩ = .ok (i, g) ∧ ∃ A x a B n',
    i.mc = .live ([] ++ A ++ .comp x a (0 + total A) :: B) n' ∧ ∃ f, x = .magnet .quadrupole ['Q'] 1 f ∧
      ∀ z, field f z = ofReal (rigidity 5.49 * 2) * z := by
  obtain ⟨i, g, h⟩ := linac_ok 5 10
  refine ⟨i, g, h, ?_⟩
  have h' : constructs (linac.take 2 ++ sample "QUAD" ['Q'] [(0, 1), (2, 2)] :: []) ready ⟨5, 0, 0, 10⟩ = .ok (i, g) := h
  obtain ⟨A, x, a, B, n', h1, h2⟩ := magnets_matched h' (by simp [magnets, sample]) (by simp [ready, mk]) (by
    intro hz; rw [isZero_iff] at hz; simp [sample, List.lookup] at hz; have := eps_lt; linarith) rfl
  refine ⟨A, x, a, B, n', h1, ?_⟩
  have he : (5 : ℝ) + gained ready.driftTypes 10 (linac.take 2) = 5.49 := by
    simp [gained, gain, linac, sample, List.lookup, ready, mk]
    norm_num
  simp only [Matched, sample] at h2
  rw [he] at h2
  obtain ⟨f, h2⟩ := h2
  rcases h2 with ⟨hx, hf⟩ | ⟨hx, hf⟩
  · exact ⟨f, by simpa [List.lookup] using hx, fun z => by simpa [List.lookup] using hf z⟩
  · exfalso
    -- the line is made with a normal quadrupole
    obtain ⟨i1, g1, h3⟩ := linac_ok 5 10
    simp [linac, constructs, construct, keyword, sample, List.lookup, ready, mk, skew_zero, normal, isZero_zero, Outcome.bind, append, call,
      cavity, quot] at h
    rw [← h.1] at h1
    injection h1 with h1
    have := congrArg (fun l => l.map fun a => match a with
      | .comp (.magnet .skewQuadrupole _ _ _) _ _ => true
      | _ => false) h1
    have hm : true ∈ (A ++ .comp x a (0 + total A) :: B).map fun a => match a with
      | Act.comp (.magnet .skewQuadrupole _ _ _) _ _ => true
      | _ => false := by simp [hx]
    simp only [List.nil_append] at this
    rw [← this] at hm
    simp [magnet] at hm

/-! ## C274 -/

/-- Every component is placed where those before it end, and the length that is kept is that of the line. -/
theorem places {ds : List Data} {i i' : Interface} {g g' : Globals} (h : constructs ds i g = .ok (i', g')) {n : Nat}
    (hm : i.mc = .live [] n) : ∃ as n', i'.mc = .live as n' ∧ Placed g.z as ∧ g'.z = g.z + total as := by
  obtain ⟨-, -, -, -, -, h⟩ := effects h
  simpa using h [] n hm

/-- The keywords of elements whose components have the length of the file. -/
def keepLength : List String := ["DRIF", "QUAD", "SBEN", "SEXT", "OCTU", "DECA", "LCAV", "SOLE", "HKIC", "VKIC", "MONI", "RCOL"]

theorem len_append {x : Comp} {r : Option Aper} {d : Data} {i i' : Interface} {g g' : Globals} (h : append x r d i g = .ok (i', g'))
    (hx : x.len = d.real 0) : g'.z = g.z + d.real 0 := by
  obtain ⟨_, _, -, -, rfl⟩ := append_inv h
  rw [← hx]

theorem len_bind {o : Outcome Exn Comp} {d : Data} {i i' : Interface} {g g' : Globals}
    (h : (o.bind fun x => append x none d i g) = .ok (i', g')) (ho : ∀ x, o = .ok x → x.len = d.real 0) : g'.z = g.z + d.real 0 := by
  obtain ⟨x, hx, h⟩ := bind_append h
  exact len_append h (ho x hx)

theorem len_normal {d : Data} {y x : Comp} (h : normal d y = .ok x) (hy : y.len = d.real 0) : x.len = d.real 0 := by
  unfold normal at h
  split at h
  · injection h with h; rw [← h]; exact hy
  · cases h

/-- The components of the usual elements, and those of unknown elements and elements treated as drifts, are as long as the
file says. -/
theorem length_kept {d : Data} {i i' : Interface} {g g' : Globals} (h : construct d i g = .ok (i', g'))
    (hk : keyword i d.kw ∈ keepLength ∨ keyword i d.kw ∉ ["RBEN", "WIRE", "MARK", "SROT"]) : g'.z = g.z + d.real 0 := by
  unfold construct at h
  dsimp only at h
  split at h
  case h_1 hk => exact len_append h rfl
  case h_2 hk =>
    split at h
    · exact len_append h rfl
    · exact len_bind h fun x hx => len_normal hx rfl
  case h_3 hk =>
    refine len_bind h fun x hx => ?_
    unfold sectorBend bendOf at hx
    simp only [bind_ok_iff] at hx
    obtain ⟨_, -, _, -, hx⟩ := hx
    split at hx
    · cases hx
    · injection hx with hx; rw [← hx]; rfl
  case h_4 hk' => rw [hk'] at hk; simp [keepLength] at hk
  case h_5 hk =>
    split at h
    · exact len_append h rfl
    · exact len_bind h fun x hx => len_normal hx rfl
  case h_6 hk => exact len_bind h fun x hx => len_normal hx rfl
  case h_7 hk => exact len_bind h fun x hx => len_normal hx rfl
  case h_8 hk =>
    split at h
    · refine len_bind h fun x hx => ?_
      unfold crab at hx
      dsimp only at hx
      split at hx
      · rw [bind_ok_iff] at hx; obtain ⟨_, -, hx⟩ := hx; injection hx with hx; rw [← hx]; rfl
      · rw [bind_ok_iff] at hx; obtain ⟨_, -, hx⟩ := hx; injection hx with hx; rw [← hx]; rfl
      · cases hx
    · rw [bind_ok_iff] at h
      obtain ⟨p, hp, h⟩ := h
      unfold cavity at hp
      dsimp only at hp
      rw [bind_ok_iff] at hp
      obtain ⟨e, he, hp⟩ := hp
      injection hp with hp
      subst hp
      obtain ⟨_, _, -, -, rfl⟩ := append_inv h
      rfl
  case h_9 hk => exact len_append h rfl
  case h_10 hk => exact len_append h rfl
  case h_11 hk => exact len_append h rfl
  case h_12 hk => exact len_append h rfl
  case h_13 hk' => rw [hk'] at hk; simp [keepLength] at hk
  case h_14 hk' => rw [hk'] at hk; simp [keepLength] at hk
  case h_15 hk => exact len_append h rfl
  case h_16 hk' => rw [hk'] at hk; simp [keepLength] at hk
  case h_17 hk => exact len_append h rfl

/-- A wire scanner has no length, whatever the file says: the length becomes the angle of the wire. -/
theorem wire_violated {d : Data} {i : Interface} {g : Globals} (hk : d.kw = "WIRE") (ht : "WIRE" ∉ i.driftTypes) :
    Makes d i g (.profile d.label (d.real 0) 0) (aperOf i d none) := by
  intro acts n hm
  have hkw : keyword i d.kw = "WIRE" := by rw [hk]; exact keyword_same (by simp) (by simp) ht
  simp only [construct, hkw]
  rw [append_ok _ _ _ _ hm]
  exact ⟨_, rfl, rfl⟩

example : ∃ i g as n, constructs linac ready ⟨5, 0, 7, 10⟩ = .ok (i, g) ∧ i.mc = .live as n ∧ g.z = 7 + total as ∧ total as = 4 := by
  obtain ⟨i, g, h⟩ := (by
    simp [linac, constructs, construct, keyword, sample, List.lookup, ready, mk, skew_zero, normal, isZero_zero, Outcome.bind, append, call,
    cavity, quot] : ∃ i g, constructs linac ready ⟨5, 0, 7, 10⟩ = .ok (i, g))
  obtain ⟨as, n, h1, -, h3⟩ := places h rfl
  refine ⟨i, g, as, n, h, h1, h3, ?_⟩
  have hz : g.z = 7 + 1 + 2 + 1 := by
    simp [linac, constructs, construct, keyword, sample, List.lookup, ready, mk, skew_zero, normal, isZero_zero, Outcome.bind, append, call,
      cavity, quot, magnet, Comp.len] at h
    rw [← h.2]
  rw [hz] at h3
  norm_num at h3
  linarith

example : keyword ready "DRIF" ∈ keepLength ∧ keyword ready "XYZ" ∉ ["RBEN", "WIRE", "MARK", "SROT"] := by
  simp [keyword, ready, mk, keepLength]

example : ∃ d : Data, d.kw = "WIRE" ∧ "WIRE" ∉ ready.driftTypes ∧ d.real 0 = 0.5 :=
  ⟨sample "WIRE" ['W'] [(0, 0.5)], by simp [sample, ready, mk, List.lookup]⟩

/-! ## C275 -/

/-- A sector bend with two pole faces: curve, field, tilt and pole faces of the file. -/
theorem sector_bend {d : Data} {i : Interface} {g : Globals} (hk : d.kw = "SBEN") (ht : "SBEN" ∉ i.driftTypes) (h0 : d.real 0 ≠ 0)
    (ha : d.real 1 ≠ 0) (hp : g.energy ≠ 0) (h1 : isZero (d.real 7) = false) (h2 : isZero (d.real 8) = false)
    (hz : isZero (d.real 2) = true → d.real 2 = 0) (htl : isZero (d.real 6) = true → d.real 6 = 0) :
    ∃ h f, Makes d i g (.bend d.label (d.real 0) h f (d.real 6) (d.real 7) (d.real 8) (d.real 4)) (aperOf i d none) ∧
      h * d.real 0 = d.real 1 ∧ Dipole g.energy h (d.real 2) f := by
  have hb : brhoOf g.energy ≠ 0 := by
    unfold brhoOf eV c; exact div_ne_zero (div_ne_zero hp (by norm_num)) (by norm_num)
  obtain ⟨f, hf⟩ : ∃ f, mixed (mkRadius 0 (brhoOf g.energy * (d.real 1 / d.real 0)) 1 false) (d.real 2) (brhoOf g.energy) = .ok f := by
    unfold mixed
    split
    · exact ⟨_, rfl⟩
    · unfold setComponent
      rw [if_neg (by simp [mkRadius, hb, ha, h0])]
      exact ⟨_, rfl⟩
  refine ⟨d.real 1 / d.real 0, f, ?_, div_mul_cancel₀ _ h0, dipole_of hf hz⟩
  intro acts n hm
  have hkw : keyword i d.kw = "SBEN" := by rw [hk]; exact keyword_same (by simp) (by simp) ht
  have htl' : (if isZero (d.real 6) then 0 else d.real 6) = d.real 6 := by split <;> simp_all
  simp only [construct, hkw, sectorBend, quot_ok h0, obind_ok, bendOf, hf, h1, h2, htl']
  simp only [Bool.or_self, Bool.false_eq_true, if_false, obind_ok]
  rw [append_ok _ _ _ _ hm]
  exact ⟨_, rfl, rfl⟩

/-- A rectangular bend: the length of the file is the straight one between its ends, the angle is that of the file, and the
pole faces are turned by half of it. -/
theorem rect_bend {d : Data} {i : Interface} {g : Globals} (hk : d.kw = "RBEN") (ht : "RBEN" ∉ i.driftTypes) (h0 : d.real 0 ≠ 0)
    (ha : isZero (d.real 1 / 2) = false) (hpi : |d.real 1| < 2 * π) (hp : g.energy ≠ 0)
    (hz : isZero (d.real 2) = true → d.real 2 = 0) (htl : isZero (d.real 6) = true → d.real 6 = 0) :
    ∃ len h f, Makes d i g (.bend d.label len h f (d.real 6) (d.real 1 / 2) (d.real 1 / 2) (d.real 4)) (aperOf i d none) ∧
      h * len = d.real 1 ∧ chord h len = d.real 0 ∧ Dipole g.energy h (d.real 2) f := by
  have ha' : isZero (d.real 1) = false := by
    refine not_isZero ?_
    have h1 : ¬ |d.real 1 / 2| ≤ eps := by
      intro h; rw [(isZero_iff _).2 h] at ha; cases ha
    rw [abs_div, abs_of_pos (two_pos (α := ℝ))] at h1
    have := abs_nonneg (d.real 1)
    linarith
  have ha0 : d.real 1 ≠ 0 := by rintro h; rw [h, isZero_zero] at ha'; cases ha'
  have hs : sin (d.real 1 / 2) ≠ 0 := by
    intro h
    rw [sin_eq_zero_iff_of_lt_of_lt (by have := (abs_lt.1 hpi).1; linarith) (by have := (abs_lt.1 hpi).2; linarith)] at h
    exact ha0 (by linarith)
  have hb : brhoOf g.energy ≠ 0 := by
    unfold brhoOf eV c; exact div_ne_zero (div_ne_zero hp (by norm_num)) (by norm_num)
  have hh : 2 * sin (d.real 1 / 2) / d.real 0 ≠ 0 := div_ne_zero (mul_ne_zero two_ne_zero hs) h0
  obtain ⟨f, hf⟩ : ∃ f, mixed (mkRadius 0 (brhoOf g.energy * (2 * sin (d.real 1 / 2) / d.real 0)) 1 false) (d.real 2) (brhoOf g.energy) = .ok f := by
    unfold mixed
    split
    · exact ⟨_, rfl⟩
    · unfold setComponent
      rw [if_neg (by simp [mkRadius, hb, hs, h0])]
      exact ⟨_, rfl⟩
  have hl : 2 * sin (d.real 1 / 2) / d.real 0 * (d.real 1 / (2 * sin (d.real 1 / 2) / d.real 0)) = d.real 1 := mul_div_cancel₀ _ hh
  refine ⟨d.real 1 / (2 * sin (d.real 1 / 2) / d.real 0), 2 * sin (d.real 1 / 2) / d.real 0, f, ?_, hl, ?_, dipole_of hf hz⟩
  · intro acts n hm
    have hkw : keyword i d.kw = "RBEN" := by rw [hk]; exact keyword_same (by simp) (by simp) ht
    have htl' : (if isZero (d.real 6) then 0 else d.real 6) = d.real 6 := by split <;> simp_all
    simp only [construct, hkw, rectBend, rectShape, ha', quot_ok h0, quot_ok hh, obind_ok, bendOf, hf, ha, htl']
    simp only [Bool.or_self, Bool.false_eq_true, if_false, obind_ok, hf]
    rw [append_ok _ _ _ _ hm]
    exact ⟨_, rfl, rfl⟩
  · unfold chord
    rw [hl]
    field_simp

/-- A bend whose pole faces are not both turned, a plain sector bend among them, is a null pointer written to. -/
theorem plain_bend_violated {d : Data} {i : Interface} {g : Globals} (hk : d.kw = "SBEN") (ht : "SBEN" ∉ i.driftTypes)
    (he : d.real 7 = 0 ∨ d.real 8 = 0) : construct d i g = .ub := by
  have hkw : keyword i d.kw = "SBEN" := by rw [hk]; exact keyword_same (by simp) (by simp) ht
  simp only [construct, hkw, sectorBend]
  by_cases h0 : d.real 0 = 0
  · simp [quot, h0, Outcome.bind]
  · rw [quot_ok h0, obind_ok]
    unfold bendOf
    have hf : (isZero (d.real 7) || isZero (d.real 8)) = true := by
      rcases he with h | h <;> simp [h, isZero_zero]
    cases hmx : mixed (mkRadius 0 (brhoOf g.energy * (d.real 1 / d.real 0)) 1 false) (d.real 2) (brhoOf g.energy) with
    | ok f => simp only [obind_ok, hf, if_true]; rfl
    | throw e =>
      exfalso
      unfold mixed at hmx
      split at hmx
      · cases hmx
      · split at hmx <;> cases hmx
    | ub => rfl

/-- The pole faces of the file are not used for a rectangular bend: elements that differ in nothing else give the same. -/
theorem rect_faces_violated {d d' : Data} {i : Interface} {g : Globals} (hk : d.kw = "RBEN") (ht : "RBEN" ∉ i.driftTypes)
    (h1 : d'.kw = d.kw) (h2 : d'.label = d.label) (h3 : ∀ n, n ≠ 7 → n ≠ 8 → d'.real n = d.real n) :
    construct d' i g = construct d i g := by
  have hkw : keyword i d.kw = "RBEN" := by rw [hk]; exact keyword_same (by simp) (by simp) ht
  simp only [construct, h1, hkw, rectBend, append, h2, h3 0 (by simp) (by simp), h3 1 (by simp) (by simp), h3 2 (by simp) (by simp),
    h3 4 (by simp) (by simp), h3 6 (by simp) (by simp)]

theorem not_zero_one : isZero 1 = false := not_isZero (by have := eps_lt; norm_num; linarith)

/-- A bend with a pole face at each end. -/
example : ∃ d : Data, d.kw = "SBEN" ∧ "SBEN" ∉ ready.driftTypes ∧ d.real 0 ≠ 0 ∧ d.real 1 ≠ 0 ∧ isZero (d.real 7) = false ∧
    isZero (d.real 8) = false ∧ (isZero (d.real 2) = true → d.real 2 = 0) ∧ (isZero (d.real 6) = true → d.real 6 = 0) :=
  ⟨sample "SBEN" ['B'] [(0, 2), (1, 0.1), (7, 1), (8, 1)], by
    simp [sample, ready, mk, List.lookup, not_zero_one]; norm_num⟩

example : ∃ d : Data, d.kw = "RBEN" ∧ "RBEN" ∉ ready.driftTypes ∧ d.real 0 ≠ 0 ∧ isZero (d.real 1 / 2) = false ∧ |d.real 1| < 2 * π ∧
    (isZero (d.real 2) = true → d.real 2 = 0) ∧ (isZero (d.real 6) = true → d.real 6 = 0) :=
  ⟨sample "RBEN" ['B'] [(0, 2), (1, 2)], by
    have := two_le_pi
    simp [sample, ready, mk, List.lookup, not_zero_one]; linarith⟩

/-- A plain sector bend. -/
example : ∃ d : Data, d.kw = "SBEN" ∧ "SBEN" ∉ ready.driftTypes ∧ d.real 0 = 2 ∧ d.real 1 = 0.1 ∧ (d.real 7 = 0 ∨ d.real 8 = 0) :=
  ⟨sample "SBEN" ['B'] [(0, 2), (1, 0.1)], by simp [sample, ready, mk, List.lookup]⟩

example : ∃ d d' : Data, d.kw = "RBEN" ∧ d'.kw = d.kw ∧ d'.label = d.label ∧ (∀ n, n ≠ 7 → n ≠ 8 → d'.real n = d.real n) ∧
    d.real 7 = 0 ∧ d'.real 7 = 0.3 :=
  ⟨sample "RBEN" ['B'] [(0, 2)], sample "RBEN" ['B'] [(7, 0.3), (0, 2)], rfl, rfl, rfl, by
    intro n h7 h8
    have : (n == 7) = false := by simpa using h7
    simp [sample, List.lookup, this], by simp [sample, List.lookup], by simp [sample, List.lookup]⟩

end Verif.XTFF
