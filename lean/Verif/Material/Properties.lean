import Verif.Material.Lemmas
import Mathlib.Tactic.NormNum
import Mathlib.Data.Rat.Defs

/-!
# Property theorems for materials (C168-C170)
-/

set_option linter.unusedSectionVars false

namespace Verif.Material
open Verif Verif.Material.Spec

section
variable {K : Type} [Field K] [LinearOrder K] [IsStrictOrderedRing K]

/-! ## C168: properties of a mixture -/

theorem mixture_ok (d : Dict K) (names : List Str) (qs : List K) (ms : List (Mat K)) (hl : names.length = qs.length)
    (hm : names.map d = ms.map fun m => some (some m)) (density : K) :
    mixture d names qs density = .ok (update ⟨mix (qs.zip ms) density, none, fun _ => none,
      (qs.zip ms).map fun x => x.2.p.A, (qs.zip ms).map fun x => x.2.p.sR / ((qs.zip ms).map fun x => x.2.p.sR).sum,
      (qs.zip ms).map fun x => x.2.p.sT / ((qs.zip ms).map fun x => x.2.p.sT).sum⟩) := by
  unfold mixture
  rw [if_neg (by simpa using hl), components_ok d names qs hl ms hm]
  rfl

theorem mix_rate (l : List (K × Mat K)) (density : K) (hd : density ≠ 0) (hq : total (fun q _ => q) l ≠ 0)
    (ha : total (fun q p => q * p.A) l ≠ 0) (hs : total (fun q p => q * (p.sT + p.sR)) l ≠ 0) :
    (mix l density).lambda * rate l density = 1 := by
  have e1 : (mix l density).A = total (fun q p => q * p.A) l / total (fun q _ => q) l := by
    show (l.map fun x => x.2.p.A * x.1 / _).sum = _
    rw [sum_div l (fun x => x.2.p.A * x.1)]
    unfold total
    simp only [mul_comm]
  have e2 : (mix l density).sT + (mix l density).sR =
      total (fun q p => q * (p.sT + p.sR)) l / total (fun q _ => q) l := by
    show (l.map fun x => x.2.p.sT * x.1 / _).sum + (l.map fun x => x.2.p.sR * x.1 / _).sum = _
    rw [sum_div l (fun x => x.2.p.sT * x.1), sum_div l (fun x => x.2.p.sR * x.1), ← add_div, ← sum_add]
    unfold total
    congr 2
    refine List.map_congr_left fun x _ => ?_
    ring
  have e3 : rate l density = 6022 / 100000000 * density * 1000 / total (fun q p => q * p.A) l *
      total (fun q p => q * (p.sT + p.sR)) l := by
    unfold rate perVolume
    conv_rhs => unfold total
    conv_lhs => unfold total
    rw [← sum_mul l (fun x => x.1 * (x.2.p.sT + x.2.p.sR))]
    refine congrArg List.sum (List.map_congr_left fun x _ => ?_)
    ring
  unfold Props.lambda
  rw [e1, e2, e3]
  unfold avogadroBarn
  show _ / 1000 / (_ * density * _) * _ = 1
  generalize total (fun q p => q * p.A) l = a at *
  generalize total (fun q p => q * (p.sT + p.sR)) l = s at *
  generalize total (fun q _ => q) l = q at *
  field_simp

/-- **C168.** The mean free path of a mixture is one over the rate of interactions of all its atoms in a unit of length; the
loss of energy and the inverse radiation length for a unit of length are the sums over its parts by their densities; it has
the density given and averages of the atomic number. -/
theorem mixture_extensive (d : Dict K) (names : List Str) (qs : List K) (ms : List (Mat K)) (hl : names.length = qs.length)
    (hm : names.map d = ms.map fun m => some (some m)) (density : K) (hd : density ≠ 0) :
    let l := qs.zip ms
    total (fun q _ => q) l ≠ 0 → total (fun q p => q * p.A) l ≠ 0 → total (fun q p => q * (p.sT + p.sR)) l ≠ 0 →
    ∃ m lam, mixture d names qs density = .ok m ∧ m.lam = some lam ∧ lam * rate l density = 1 ∧ m.p.density = density ∧
      density * m.p.dEdx = total (fun q p => partDensity l density q p.A * p.dEdx) l ∧
      density / m.p.X0 = total (fun q p => partDensity l density q p.A / p.X0) l ∧
      m.p.Z * total (fun q _ => q) l = total (fun q p => q * p.Z) l ∧
      m.p.sI * total (fun q _ => q) l = total (fun q p => q * p.sI) l := by
  intro l hq ha hs
  refine ⟨_, _, mixture_ok d names qs ms hl hm density, rfl, mix_rate l density hd hq ha hs, rfl, ?_, ?_, ?_, ?_⟩
  · show density * (l.map fun x => x.2.p.dEdx * x.1 * x.2.p.A / total (fun q p => q * p.A) l).sum = _
    rw [← sum_mul l]
    unfold partDensity
    conv_rhs => unfold total
    refine congrArg List.sum (List.map_congr_left fun x _ => ?_)
    simp only []
    unfold total
    ring
  · show density / (1 / (l.map fun x => 1 / x.2.p.X0 * x.1 * x.2.p.A / total (fun q p => q * p.A) l).sum) = _
    rw [one_div, div_inv_eq_mul, ← sum_mul l]
    unfold partDensity
    conv_rhs => unfold total
    refine congrArg List.sum (List.map_congr_left fun x _ => ?_)
    simp only []
    unfold total
    ring
  · show (l.map fun x => x.2.p.Z * x.1 / total (fun q _ => q) l).sum * _ = _
    rw [sum_div l (fun x => x.2.p.Z * x.1), div_mul_cancel₀ _ hq]
    unfold total
    simp only [mul_comm]
  · show (l.map fun x => x.2.p.sI * x.1 / total (fun q _ => q) l).sum * _ = _
    rw [sum_div l (fun x => x.2.p.sI * x.1), div_mul_cancel₀ _ hq]
    unfold total
    simp only [mul_comm]

example : let l : List (ℚ × Mat ℚ) := [2, 3].zip [new ⟨12, 1, 1, 1, 1, 1, 1, 6⟩, new ⟨64, 2, 1, 1, 1, 1, 1, 29⟩]
    total (fun q _ => q) l ≠ 0 ∧ total (fun q p => q * p.A) l ≠ 0 ∧ total (fun q p => q * (p.sT + p.sR)) l ≠ 0 := by
  decide +kernel

/-- **C168.** Only the ratios of the proportions matter. -/
theorem proportions_scale (d : Dict K) (names : List Str) (qs : List K) (ms : List (Mat K)) (hl : names.length = qs.length)
    (hm : names.map d = ms.map fun m => some (some m)) (density c : K) (hc : c ≠ 0) :
    mixture d names (qs.map (c * ·)) density = mixture d names qs density := by
  rw [mixture_ok d names qs ms hl hm, mixture_ok d names _ ms (by simpa using hl) hm]
  have hz : (qs.map (c * ·)).zip ms = (qs.zip ms).map fun x => (c * x.1, x.2) := by
    rw [List.zip_map_left]; rfl
  rw [hz]
  simp only [List.map_map]
  have e : mix ((qs.zip ms).map fun x => (c * x.1, x.2)) density = mix (qs.zip ms) density := by
    generalize qs.zip ms = l
    unfold mix
    have s1 : ((l.map fun x => (c * x.1, x.2)).map fun x => x.1).sum = c * (l.map fun x => x.1).sum := by
      rw [List.map_map, ← sum_mul l]; rfl
    have s2 : ((l.map fun x => (c * x.1, x.2)).map fun x => x.1 * x.2.p.A).sum = c * (l.map fun x => x.1 * x.2.p.A).sum := by
      rw [List.map_map, ← sum_mul l]
      refine congrArg List.sum (List.map_congr_left fun x _ => ?_)
      simp only [Function.comp]; ring
    have s3 : ∀ (g : Props K → K) (t : K), ((l.map fun x => (c * x.1, x.2)).map fun x => g x.2.p * x.1 / (c * t)).sum =
        (l.map fun x => g x.2.p * x.1 / t).sum := by
      intro g t
      rw [List.map_map]
      refine congrArg List.sum (List.map_congr_left fun x _ => ?_)
      simp only [Function.comp]
      rw [show g x.2.p * (c * x.1) = c * (g x.2.p * x.1) by ring, mul_div_mul_left _ _ hc]
    have s4 : ∀ (g : Props K → K) (t : K),
        ((l.map fun x => (c * x.1, x.2)).map fun x => g x.2.p * x.1 * x.2.p.A / (c * t)).sum =
        (l.map fun x => g x.2.p * x.1 * x.2.p.A / t).sum := by
      intro g t
      rw [List.map_map]
      refine congrArg List.sum (List.map_congr_left fun x _ => ?_)
      simp only [Function.comp]
      rw [show g x.2.p * (c * x.1) * x.2.p.A = c * (g x.2.p * x.1 * x.2.p.A) by ring, mul_div_mul_left _ _ hc]
    simp only [s1, s2]
    rw [s3 (·.A), s3 (·.sT), s3 (·.sI), s3 (·.sR), s3 (·.Z), s4 (·.dEdx), s4 (fun p => 1 / p.X0)]
  rw [e]
  rfl

/-- **C168.** `MakeMixture` with the names joined by blanks stores the mixture under its name and changes nothing else. -/
theorem make_mixture (d : Dict K) (name : Str) (names : List Str) (hne : names ≠ []) (hb : ∀ w ∈ names, ' ' ∉ w)
    (qs : List K) (density : K) (d' : Dict K)
    (h : makeMixture d name (List.intercalate [' '] names) qs density = .ok d') :
    ∃ m, mixture d names qs density = .ok m ∧ d' name = some (some m) ∧ ∀ k, k ≠ name → d' k = d k := by
  unfold makeMixture at h
  rw [splitNames_join names hne hb] at h
  cases hm : mixture d names qs density with
  | ok m =>
    rw [hm] at h
    simp only [Outcome.bind] at h
    injection h with h
    subst h
    exact ⟨m, rfl, by simp [Dict.put], fun k hk => by simp [Dict.put, hk]⟩
  | throw e => rw [hm] at h; cases h
  | ub => rw [hm] at h; cases h

/-- **C168.** Proportions by weight: the mixture made from the masses of the parts is the one made from their numbers of
atoms. -/
theorem by_weight (d : Dict K) (name : Str) (names : List Str) (hne : names ≠ []) (hb : ∀ w ∈ names, ' ' ∉ w)
    (ms : List (Mat K)) (hm : names.map d = ms.map fun m => some (some m)) (ha : ∀ m ∈ ms, m.p.A ≠ 0) (qs : List K)
    (hl : names.length = qs.length) (density : K) :
    makeByWeight d name (List.intercalate [' '] names) ((qs.zip ms).map fun x => x.1 * x.2.p.A) density =
      makeMixture d name (List.intercalate [' '] names) qs density := by
  unfold makeByWeight makeMixture
  rw [splitNames_join names hne hb]
  have key : byWeight d names ((qs.zip ms).map fun x => x.1 * x.2.p.A) = .ok qs := by
    clear hne hb
    induction names generalizing qs ms with
    | nil =>
      cases qs with
      | nil => rfl
      | cons q qs => simp at hl
    | cons n ns ih =>
      cases qs with
      | nil => simp at hl
      | cons q qs =>
        cases ms with
        | nil => simp at hm
        | cons m ms =>
          simp only [List.map_cons, List.cons.injEq] at hm
          simp only [List.zip_cons_cons, List.map_cons, byWeight, hm.1]
          rw [ih ms hm.2 (fun x hx => ha x (List.mem_cons_of_mem _ hx)) qs (by simpa using hl)]
          simp only [Outcome.bind]
          rw [mul_div_cancel_right₀ _ (ha m List.mem_cons_self)]
  rw [key]
  rfl

/-- **C168.** Lists of different lengths and unknown names are refused. -/
theorem mixture_refused (d : Dict K) (names : List Str) (qs : List K) (density : K)
    (h : names.length ≠ qs.length ∨ (names.length = qs.length ∧ (∀ n ∈ names, d n ≠ some none) ∧ ∃ n ∈ names, d n = none)) :
    mixture d names qs density = .throw .merlin := by
  unfold mixture
  rcases h with h | ⟨h, hn, hx⟩
  · rw [if_pos h]
  · rw [if_neg (by simpa using h)]
    have key : components d names qs = .throw .merlin := by
      induction names generalizing qs with
      | nil => obtain ⟨n, hn, -⟩ := hx; cases hn
      | cons a ns ih =>
        cases qs with
        | nil => simp at h
        | cons q qs =>
          rw [components, Dict.mat]
          cases hd : d a with
          | none => rfl
          | some o =>
            cases o with
            | none => exact absurd hd (hn a List.mem_cons_self)
            | some m =>
              simp only [Outcome.bind]
              rw [ih qs (by simpa using h) (fun n hn' => hn n (List.mem_cons_of_mem _ hn')) ?_]
              obtain ⟨n, hn1, hn2⟩ := hx
              rcases List.mem_cons.1 hn1 with rfl | hn1
              · rw [hd] at hn2; cases hn2
              · exact ⟨n, hn1, hn2⟩
    rw [key]
    rfl

/-- **C168, violated.** With fewer weights than names the vector is read behind its end. -/
theorem weights_short_violated (d : Dict K) (name : Str) (names : List Str) (hne : names ≠ []) (hb : ∀ w ∈ names, ' ' ∉ w)
    (ms : List (Mat K)) (hm : names.map d = ms.map fun m => some (some m)) (ws : List K) (hl : ws.length < names.length)
    (density : K) : makeByWeight d name (List.intercalate [' '] names) ws density = .ub := by
  unfold makeByWeight
  rw [splitNames_join names hne hb]
  have key : byWeight d names ws = .ub := by
    clear hne hb
    induction names generalizing ws ms with
    | nil => simp at hl
    | cons n ns ih =>
      cases ms with
      | nil => simp at hm
      | cons m ms =>
        simp only [List.map_cons, List.cons.injEq] at hm
        cases ws with
        | nil => rw [byWeight]
        | cons w ws =>
          simp only [byWeight, hm.1]
          rw [ih ms hm.2 ws (by simpa using hl)]
          rfl
  rw [key]
  rfl

/-! ## C169: choice of the nucleus -/

/-- **C169, partial.** A random number in (0, 1] chooses a part with a probability proportional to its cross section: the part
in whose interval of the cumulated shares it lies.  Missing: the amounts of the parts, which are ignored
(`amounts_violated`), and cross sections that are not positive (`nickel_violated`). -/
theorem nucleus_partial (d : Dict K) (names : List Str) (qs : List K) (ms : List (Mat K)) (hl : names.length = qs.length)
    (hm : names.map d = ms.map fun m => some (some m)) (density : K) (m : Mat K) (hmix : mixture d names qs density = .ok m)
    (hT : 0 < (ms.map (·.p.sT)).sum) (hR : 0 < (ms.map (·.p.sR)).sum) (hne : names ≠ []) (r : K) (h0 : 0 < r) (h1 : r ≤ 1) :
    ∃ i j, Selected (ms.map fun x => x.p.sT / (ms.map (·.p.sT)).sum) r i ∧ (ms.map (·.p.A))[i]? = some (aH m r) ∧
      Selected (ms.map fun x => x.p.sR / (ms.map (·.p.sR)).sum) r j ∧ (ms.map (·.p.A))[j]? = some (aR m r) := by
  have hlen : qs.length = ms.length := by
    have := congrArg List.length hm
    simp only [List.length_map] at this
    omega
  have hz : ∀ {β : Type} (g : Mat K → β), (qs.zip ms).map (fun x => g x.2) = ms.map g := by
    intro β g
    clear hmix hm hl
    induction qs generalizing ms with
    | nil => cases ms with
      | nil => rfl
      | cons a l => simp at hlen
    | cons q qs ih => cases ms with
      | nil => simp at hlen
      | cons a l =>
        simp only [List.zip_cons_cons, List.map_cons, List.cons.injEq, true_and]
        have : ∀ (ms : List (Mat K)) (qs : List K), qs.length = ms.length → (qs.zip ms).map (fun x => g x.2) = ms.map g := by
          intro ms
          induction ms with
          | nil => intro qs _; simp
          | cons a l ih => intro qs h; cases qs with
            | nil => simp at h
            | cons q qs => simp [ih qs (by simpa using h)]
        exact this l qs (by simpa using hlen)
  rw [mixture_ok d names qs ms hl hm] at hmix
  injection hmix with hmix
  have hmne : ms ≠ [] := by
    rintro rfl
    simp only [List.map_nil, List.map_eq_nil_iff] at hm
    exact hne hm
  have hA : m.vA = ms.map (·.p.A) := by rw [← hmix]; exact hz (·.p.A)
  have hH : m.vH = ms.map fun x => x.p.sT / (ms.map (·.p.sT)).sum := by
    rw [← hmix]
    show (qs.zip ms).map (fun x => x.2.p.sT / ((qs.zip ms).map fun x => x.2.p.sT).sum) = _
    rw [hz (·.p.sT), hz fun x => x.p.sT / (ms.map (·.p.sT)).sum]
  have hRR : m.vR = ms.map fun x => x.p.sR / (ms.map (·.p.sR)).sum := by
    rw [← hmix]
    show (qs.zip ms).map (fun x => x.2.p.sR / ((qs.zip ms).map fun x => x.2.p.sR).sum) = _
    rw [hz (·.p.sR), hz fun x => x.p.sR / (ms.map (·.p.sR)).sum]
  have hsum : ∀ (g : Mat K → K) (t : K), (ms.map fun x => g x / t).sum = (ms.map g).sum / t := by
    intro g t
    clear hm hT hR hlen hz hmne hA hH hRR hmix
    induction ms with
    | nil => simp
    | cons a l ih => simp only [List.map_cons, List.sum_cons, ih, add_div]
  have sH := pick_selected m.vH r h0 (by rw [hH, hsum, div_self hT.ne']; exact h1)
  have sR := pick_selected m.vR r h0 (by rw [hRR, hsum, div_self hR.ne']; exact h1)
  have hAne : m.vA ≠ [] := by rw [hA]; simpa using hmne
  refine ⟨pick r m.vH, pick r m.vR, hH ▸ sH, ?_, hRR ▸ sR, ?_⟩
  · unfold aH
    rw [if_neg hAne, ← hA]
    have : pick r m.vH < m.vA.length := by
      have := sH.1
      rw [hH] at this
      rw [hA, List.length_map]
      simpa [hH] using this
    rw [List.getElem?_eq_getElem this, List.getD_eq_getElem?_getD, List.getElem?_eq_getElem this]
    rfl
  · unfold aR
    rw [if_neg hAne, ← hA]
    have : pick r m.vR < m.vA.length := by
      have := sR.1
      rw [hRR] at this
      rw [hA, List.length_map]
      simpa [hRR] using this
    rw [List.getElem?_eq_getElem this, List.getD_eq_getElem?_getD, List.getElem?_eq_getElem this]
    rfl

/-- **C169.** With shares that are not negative the part selected is the only one. -/
theorem selected_unique (v : List K) (hv : ∀ x ∈ v, 0 ≤ x) (r : K) (i j : Nat) (hi : Selected v r i) (hj : Selected v r j) :
    i = j := by
  have mono : ∀ (v : List K), (∀ x ∈ v, 0 ≤ x) → ∀ a b, a ≤ b → (v.take a).sum ≤ (v.take b).sum := by
    intro v
    induction v with
    | nil => intro _ a b _; simp
    | cons x v ih =>
      intro hv a b hab
      cases a with
      | zero =>
        rw [List.take_zero, List.sum_nil]
        have := ih (fun y hy => hv y (List.mem_cons_of_mem _ hy)) 0 (b - 1) (Nat.zero_le _)
        cases b with
        | zero => simp
        | succ b =>
          rw [List.take_succ_cons, List.sum_cons]
          simp only [List.take_zero, List.sum_nil, Nat.add_sub_cancel] at this
          have := hv x List.mem_cons_self
          linarith
      | succ a =>
        cases b with
        | zero => omega
        | succ b =>
          rw [List.take_succ_cons, List.take_succ_cons, List.sum_cons, List.sum_cons]
          have := ih (fun y hy => hv y (List.mem_cons_of_mem _ hy)) a b (by omega)
          linarith
  obtain ⟨-, i2, i3⟩ := hi
  obtain ⟨-, j2, j3⟩ := hj
  rcases Nat.lt_trichotomy i j with h | h | h
  · have := mono v hv (i + 1) j h; linarith
  · exact h
  · have := mono v hv (j + 1) i h; linarith

/-- **C169, violated.** The nuclei chosen do not depend on the amounts at all. -/
theorem amounts_violated (d : Dict K) (names : List Str) (qs qs' : List K) (ms : List (Mat K)) (hl : names.length = qs.length)
    (hl' : names.length = qs'.length) (hm : names.map d = ms.map fun m => some (some m)) (density : K) (m m' : Mat K)
    (h : mixture d names qs density = .ok m) (h' : mixture d names qs' density = .ok m') (r : K) :
    m.vA = m'.vA ∧ m.vH = m'.vH ∧ m.vR = m'.vR ∧ (names ≠ [] → aH m r = aH m' r ∧ aR m r = aR m' r) := by
  have hlen : qs.length = ms.length := by
    have := congrArg List.length hm
    simp only [List.length_map] at this
    omega
  have this : ∀ {β : Type} (g : Mat K → β) (ms : List (Mat K)) (qs : List K), qs.length = ms.length →
      (qs.zip ms).map (fun x => g x.2) = ms.map g := by
    intro β g ms
    induction ms with
    | nil => intro qs _; simp
    | cons a l ih => intro qs h; cases qs with
      | nil => simp at h
      | cons q qs => simp [ih qs (by simpa using h)]
  rw [mixture_ok d names qs ms hl hm] at h
  rw [mixture_ok d names qs' ms hl' hm] at h'
  injection h with h
  injection h' with h'
  have eA : m.vA = m'.vA := by
    rw [← h, ← h']
    exact (this (·.p.A) ms qs hlen).trans (this (·.p.A) ms qs' (by omega)).symm
  have eH : m.vH = m'.vH := by
    rw [← h, ← h']
    show (qs.zip ms).map (fun x => x.2.p.sT / ((qs.zip ms).map fun x => x.2.p.sT).sum) =
      (qs'.zip ms).map (fun x => x.2.p.sT / ((qs'.zip ms).map fun x => x.2.p.sT).sum)
    rw [this (·.p.sT) ms qs hlen, this (·.p.sT) ms qs' (by omega),
      this (fun x => x.p.sT / (ms.map (·.p.sT)).sum) ms qs hlen, this (fun x => x.p.sT / (ms.map (·.p.sT)).sum) ms qs' (by omega)]
  have eR : m.vR = m'.vR := by
    rw [← h, ← h']
    show (qs.zip ms).map (fun x => x.2.p.sR / ((qs.zip ms).map fun x => x.2.p.sR).sum) =
      (qs'.zip ms).map (fun x => x.2.p.sR / ((qs'.zip ms).map fun x => x.2.p.sR).sum)
    rw [this (·.p.sR) ms qs hlen, this (·.p.sR) ms qs' (by omega),
      this (fun x => x.p.sR / (ms.map (·.p.sR)).sum) ms qs hlen, this (fun x => x.p.sR / (ms.map (·.p.sR)).sum) ms qs' (by omega)]
  refine ⟨eA, eH, eR, fun hne => ?_⟩
  have : m.vA ≠ [] := by
    rw [← h]
    show (qs.zip ms).map _ ≠ []
    cases qs with
    | nil => simp at hl; exact absurd hl hne
    | cons q qs => cases ms with
      | nil => simp at hlen
      | cons a l => simp
  unfold aH aR
  rw [if_neg this, if_neg (eA ▸ this), if_neg this, if_neg (eA ▸ this), eA, eH, eR]
  exact ⟨rfl, rfl⟩

/-! ## C170: copies and extra values -/

/-- **C170, partial.** A copy or an assignment has the properties and extra values of the source, and after `Update` its mean
free path.  Missing: `Update` is not called (`copy_violated`, `assign_violated`). -/
theorem copy_update_partial (m t : Mat K) (h : m.lam = some m.p.lambda) :
    (update (copy m)).p = m.p ∧ (update (copy m)).lam = m.lam ∧ (update (copy m)).extra = m.extra ∧
    (update (assign t m)).p = m.p ∧ (update (assign t m)).lam = m.lam ∧ (update (assign t m)).extra = m.extra :=
  ⟨rfl, h.symm, rfl, rfl, h.symm, rfl⟩

/-- **C170, violated.** The mean free path of a copy is not initialised. -/
theorem copy_violated (p : Props K) : (new p).lam = some p.lambda ∧ (copy (new p)).lam = none := ⟨rfl, rfl⟩

/-- **C170, violated.** An assignment keeps the mean free path of the target: two materials that differ in density only. -/
theorem assign_violated (p : Props K) (c : K) (hp : p.lambda ≠ 0) (hc : c ≠ 0) (h1 : c ≠ 1) :
    (assign (new { p with density := c * p.density }) (new p)).p = p ∧
    (assign (new { p with density := c * p.density }) (new p)).lam ≠ (new p).lam := by
  refine ⟨rfl, fun h => ?_⟩
  simp only [assign, new, update, Option.some.injEq] at h
  have e : Props.lambda { p with density := c * p.density } = p.lambda / c := by
    unfold Props.lambda
    simp only
    rw [show (p.sT + p.sR) * (c * p.density) * avogadroBarn = (p.sT + p.sR) * p.density * avogadroBarn * c by ring,
      ← div_div]
  rw [e, div_eq_iff hc] at h
  exact h1 (mul_left_cancel₀ hp (by rw [← h, mul_one]))

example : (⟨12, 1, 1, 1, 1, 1, 1, 6⟩ : Props ℚ).lambda ≠ 0 := by decide +kernel

/-- **C170.** A value set is found again, and no other value is changed. -/
theorem extra_round_trip (m : Mat K) (l : List (Str × K)) (hd : (l.map (·.1)).Nodup) :
    (∀ k v, (k, v) ∈ l → haveExtra (setExtra m l) k = true ∧ (getExtra (setExtra m l) k).1 = v) ∧
    (∀ k, k ∉ l.map (·.1) → (setExtra m l).extra k = m.extra k) ∧ (setExtra m l).p = m.p ∧ (setExtra m l).lam = m.lam := by
  have key : (∀ k v, (k, v) ∈ l → (setExtra m l).extra k = some v) ∧
      (∀ k, k ∉ l.map (·.1) → (setExtra m l).extra k = m.extra k) ∧ (setExtra m l).p = m.p ∧ (setExtra m l).lam = m.lam := by
    induction l generalizing m with
    | nil => exact ⟨by simp, fun _ _ => rfl, rfl, rfl⟩
    | cons a l ih =>
      obtain ⟨a1, a2⟩ := a
      rw [List.map_cons, List.nodup_cons] at hd
      obtain ⟨i1, i2, i3, i4⟩ := ih { m with extra := fun s => if s = a1 then some a2 else m.extra s } hd.2
      rw [setExtra]
      refine ⟨?_, ?_, i3, i4⟩
      · intro k v hk
        rcases List.mem_cons.1 hk with h | h
        · injection h with h1 h2
          subst h1; subst h2
          rw [i2 k hd.1]
          simp
        · exact i1 k v h
      · intro k hk
        simp only [List.map_cons, List.mem_cons, not_or] at hk
        rw [i2 k hk.2]
        simp [hk.1]
  refine ⟨fun k v hk => ?_, key.2⟩
  unfold haveExtra getExtra
  rw [key.1 k v hk]
  exact ⟨rfl, rfl⟩

/-- **C170, violated.** Asking for a value that is not there gives zero and makes it appear to be there. -/
theorem get_extra_violated (m : Mat K) (k : Str) (h : haveExtra m k = false) :
    (getExtra m k).1 = 0 ∧ haveExtra (getExtra m k).2 k = true := by
  unfold haveExtra at h
  rw [Option.isSome_eq_false_iff, Option.isNone_iff_eq_none] at h
  unfold getExtra haveExtra
  rw [h]
  exact ⟨rfl, by simp⟩

/-- **C170, violated.** `EnergyScale` has no effect but to drop extra values. -/
theorem energy_scale_violated (m : Mat K) (E : K) : (energyScale m E).p = m.p ∧ (energyScale m E).extra = fun _ => none :=
  ⟨rfl, rfl⟩

end

/-! ## The standard table -/

/-- The entry of the standard table. -/
def std (k : String) : Option (Mat ℚ) :=
  match standard (K := ℚ) with
  | .ok d => (d k.toList).join
  | _ => none

/-- **C170.** The table is made, with eleven elements, a carbon compound and two mixtures, and the seven elements with known
cross sections have a positive mean free path. -/
theorem standard_known : (["Al", "Be", "C", "Cu", "Pb", "Si", "W", "O", "Fe", "Ni", "Mo", "AC150K", "IT180", "Glidcop"].all
      fun k => (std k).isSome) = true ∧
    (["Al", "Be", "C", "Cu", "Pb", "Si", "W"].all fun k => decide (∃ m ∈ std k, ∃ l ∈ m.lam, 0 < l)) = true := by
  decide +kernel

/-- **C170, violated.** The mean free path of the carbon compound is not initialised; those of oxygen, iron, nickel and
molybdenum are negative, as -1 stands for unknown cross sections. -/
theorem standard_violated : ((std "AC150K").map (·.lam)) = some none ∧
    (["O", "Fe", "Ni", "Mo"].all fun k => decide (∃ m ∈ std k, ∃ l ∈ m.lam, l < 0)) = true := by
  decide +kernel

/-- **C169, violated.** In the tungsten alloy IT180 nickel is never chosen for nuclear scattering, as its cross section is -1;
in Glidcop, 99.7 percent of copper by weight, more than 85 percent of the nuclei chosen for Rutherford scattering are
oxygen, and all chosen for nuclear scattering are copper. -/
theorem nickel_violated :
    (∃ m ∈ std "IT180", ∀ r, 0 < r → r ≤ 1 → pick r m.vH ≠ 1) ∧
    (∃ m ∈ std "Glidcop", (∀ r, 0 < r → r ≤ 1 → pick r m.vH = 0) ∧ ∀ r, 15 / 100 ≤ r → r ≤ 1 → pick r m.vR = 2) := by
  have h1 : ∃ m ∈ std "IT180", m.vH = [2767 / 2999, -1000 / 2999, 1232 / 2999] := by decide +kernel
  have h2 : ∃ m ∈ std "Glidcop", m.vH = [1232 / 866, 634 / 866, -1000 / 866] ∧
      m.vR = [15300 / 152466, 3400 / 152466, 133766 / 152466] := by decide +kernel
  obtain ⟨m, hm, e⟩ := h1
  obtain ⟨m', hm', e1, e2⟩ := h2
  refine ⟨⟨m, hm, fun r _ _ => ?_⟩, m', hm', fun r _ h => ?_, fun r h _ => ?_⟩
  · rw [e, pick, pick, pick]
    by_cases h : r - 2767 / 2999 ≤ 0
    · rw [if_pos h]; simp
    · rw [if_neg h, if_neg (by norm_num at h ⊢; linarith)]; simp
  · rw [e1, pick, if_pos (by norm_num; linarith)]
  · rw [e2, pick, pick, pick, if_neg (by norm_num; linarith), if_neg (by norm_num; linarith)]

/-- **C170, violated.** `UseSixTrackValues` reads behind the end of an array of five values for seven names. -/
theorem six_track_violated : (match standard (K := ℚ) with
    | .ok d => match useSixTrack d with
      | .ub => true
      | _ => false
    | _ => false) = true := by
  decide +kernel

end Verif.Material
