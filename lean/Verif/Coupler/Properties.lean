import Verif.Coupler.Kicks

/-!
# Properties of the wake field process with couplers
-/

namespace Verif.Coupler
open Verif Verif.Wake Verif.Wake.Spec Verif.Coupler.Spec

variable {K : Type} [Field K] [LinearOrder K] [IsStrictOrderedRing K]

/-- **C306.** At the place of the impulse, the process cuts off the tails, keeps the charge and applies the kicks of `kicks_spec` to what is left. -/
theorem impulse_spec (e : Env K) (he : e.rnd = id) (hsort : Sorts e.sort) (c : Combined K) (hw : c.base.csr = false) (m : Rf K) (s s' : Proc K)
    (hf : s.filter = none) (clen : K) (h : impulse e c m clen s = .ok s') :
    ∃ t, Ready e c.base t ∧ t.charge = s.charge ∧ t.p0 = s.p0 ∧ t.nbins = s.nbins ∧ t.inc = s.inc ∧ t.ps.Subperm s.ps ∧ kicks e c m clen t = .ok s' := by
  unfold impulse at h
  have hwsub : ∀ (l : List (Part K)) (a b : K), (within l a b).Subperm l := fun l a b => List.filter_sublist.subperm
  cases h1 : Proc.init e c.base { s with ps := e.sort s.ps } with
  | throw x => rw [h1] at h; cases h
  | ub => rw [h1] at h; cases h
  | ok t =>
    rw [h1] at h
    obtain ⟨r, hc, hp, hn, hi, hf2, ho, hr, -, hps⟩ := init_ready e he hsort c.base hw { s with ps := e.sort s.ps } t hf h1
    have hsub : t.ps.Subperm s.ps := (hps.subperm.trans (hwsub _ _ _)).trans (hsort s.ps).1.subperm
    have hc' : t.charge = s.charge := by
      rw [hc]
      simp only [Proc.charge]
      rw [(hsort s.ps).1.length_eq]
    simp only [Outcome.bind, apply] at h
    by_cases hcut : t.recalc = true ∨ t.oldLen ≠ t.ps.length
    · rw [if_pos hcut] at h
      cases h2 : Proc.init e c.base t with
      | throw x => rw [h2] at h; cases h
      | ub => rw [h2] at h; cases h
      | ok u =>
        rw [h2] at h
        obtain ⟨r2, hc2, hp2, hn2, hi2, -, -, -, -, hps2⟩ := init_ready e he hsort c.base hw t u hf2 h2
        exact ⟨u, r2, by rw [hc2, hc'], by rw [hp2, hp], by rw [hn2, hn], by rw [hi2, hi], (hps2.subperm.trans (hwsub _ _ _)).trans hsub, h⟩
    · rw [if_neg hcut] at h
      exact ⟨t, r, hc', hp, hn, hi, hsub, h⟩

theorem wakeT_plain (c : Combined K) (hrf : ∀ x y φ, c.rf x y φ = 0) (hxy : ∀ x y, c.wxy x y = 0) (m : Rf K) (q dz zmin clen : K) (ha : dz * q ≠ 0) (nb : Nat)
    (Qd xc yc : Nat → K) (pick : K × K → K) (hpick : pick 0 = 0) (u : Nat → K) :
    wakeT c m q dz zmin clen nb Qd xc yc pick u = Wake.wakeT c.base q dz nb Qd u := by
  funext i
  by_cases hi : i < nb
  · rw [wakeT_split _ _ _ _ _ _ ha _ _ _ _ _ _ _ hi, hrf, hxy, hpick]
    simp
  · rw [wakeT_last _ _ _ _ _ _ _ _ _ _ _ _ _ (by omega)]
    unfold Wake.wakeT
    simp [show nb - i = 0 by omega]

/-- **C306.** Couplers that neither kick nor have a wake leave what the plain process does. -/
theorem plain_kicks (e : Env K) (c : Combined K) (hrf : ∀ x y φ, c.rf x y φ = 0) (hxy : ∀ x y, c.wxy x y = 0) (m : Rf K) (clen : K) (hl : clen ≠ 0)
    (s : Proc K) (hq : s.dz * (|s.charge| * e.unit) ≠ 0) : kicks e c m clen s = .ok (s.kicks e c.base clen) := by
  unfold kicks Proc.kicks
  rw [if_neg (by rintro ⟨-, h | h⟩ <;> contradiction)]
  have : wakes e c m clen s = if s.inc then
      ⟨s.wz, Wake.wakeT c.base (|s.charge| * e.unit) s.dz s.nbins (fun j => s.Qd.getD j 0) (fun j => centroid Part.x (part s.ps s.bins j)),
        Wake.wakeT c.base (|s.charge| * e.unit) s.dz s.nbins (fun j => s.Qd.getD j 0) (fun j => centroid Part.y (part s.ps s.bins j))⟩
      else ⟨s.wz, fun _ => 0, fun _ => 0⟩ := by
    unfold wakes
    simp only
    rw [wakeT_plain c hrf hxy m _ _ _ _ hq _ _ _ _ Prod.fst rfl, wakeT_plain c hrf hxy m _ _ _ _ hq _ _ _ _ Prod.snd rfl]
  rw [this]
  simp only
  by_cases hc : c.base.csr = true
  · rw [if_pos hc, if_pos hc]
  · rw [if_neg hc, if_neg hc]

/-! ## The kick of the field -/

/-- **C307.** Without wakes only the field kicks, and neither the charge nor the length matters. -/
theorem rf_only (e : Env K) (c : Combined K) (m : Rf K) (clen : K) (hw : c.base.csr = false) (hlong : ∀ z, c.base.long z = 0)
    (htrans : ∀ z, c.base.trans z = 0) (hxy : ∀ x y, c.wxy x y = 0) (s : Proc K) (hr : Ready e c.base s) (hinc : s.inc = true) (hp0 : s.p0 ≠ 0)
    (s' : Proc K) (hs' : kicks e c m clen s = .ok s') (hp1 : s'.p0 ≠ 0) :
    let rf := fun (pick : K × K → K) i => if i < s.nbins then
      m.V * pick (c.rf (mean Part.x (inSlice s.ps s.zmin s.dz i)) (mean Part.y (inSlice s.ps s.zmin s.dz i)) (phaseAt |m.phi| m.k s.zmin s.dz i)) else 0
    List.Forall₂ (fun p p' => ∃ n < s.nbins, s.zmin + n * s.dz ≤ p.ct ∧ p.ct < s.zmin + (n + 1) * s.dz ∧
      s'.p0 * (1 + p'.dp) = s.p0 * (1 + p.dp) ∧
      p'.xp = p.xp + line (rf Prod.fst) s.zmin s.dz n p.ct / s.p0 ∧ p'.yp = p.yp + line (rf Prod.snd) s.zmin s.dz n p.ct / s.p0) s.ps s'.ps := by
  intro rf
  have hl : clen ≠ 0 := by
    intro h
    unfold kicks at hs'
    rw [if_pos ⟨hinc, Or.inl h⟩] at hs'
    cases hs'
  have hb : ∀ (W : K → K) (u : Part K → K) (q : K), (∀ z, W z = 0) → bunchWake W u q s.zmin s.dz s.nbins s.ps = fun _ => 0 := by
    intro W u q h
    funext i
    unfold bunchWake
    refine Finset.sum_eq_zero fun j _ => ?_
    rw [h]
    simp
  have hline0 : ∀ n ct, line (fun _ => (0 : K)) s.zmin s.dz n ct = 0 := by
    intro n ct; unfold line; ring
  have hf : ∀ (pick : K × K → K) (u : Part K → K) (n : Nat) (ct : K), pick 0 = 0 →
      clen * line (fun i => if s.inc = true ∧ i < s.nbins then
        force c m.V (phaseAt |m.phi| m.k s.zmin s.dz i) (|s.charge| * e.unit / s.ps.length) s.zmin s.dz clen s.nbins s.ps pick u i else 0) s.zmin s.dz n ct
      = line (rf pick) s.zmin s.dz n ct := by
    intro pick u n ct hp
    have hv : ∀ i, clen * (if s.inc = true ∧ i < s.nbins then
        force c m.V (phaseAt |m.phi| m.k s.zmin s.dz i) (|s.charge| * e.unit / s.ps.length) s.zmin s.dz clen s.nbins s.ps pick u i else 0) = rf pick i := by
      intro i
      simp only [hinc, true_and, rf]
      by_cases hi : i < s.nbins
      · rw [if_pos hi, if_pos hi]
        unfold force
        simp only [hxy, hp, hb _ _ _ htrans]
        field_simp
        ring
      · rw [if_neg hi, if_neg hi, mul_zero]
    unfold line
    rw [← hv n, ← hv (n + 1)]
    ring
  have h := (kicks_spec e c m clen hw s hr hp0 s' hs' hp1).1
  refine h.imp ?_
  rintro p p' ⟨-, -, -, n, hn, ha, hb', h1, h2, h3⟩
  refine ⟨n, hn, ha, hb', ?_, ?_, ?_⟩
  · rw [h1, hb _ _ _ hlong, hline0]; ring
  · rw [h2, hf _ _ _ _ rfl, hb _ _ _ hlong, hline0]; ring
  · rw [h3, hf _ _ _ _ rfl, hb _ _ _ hlong, hline0]; ring

/-- **C307 (violated).** Without charge, or in a component without length, the kick of the field is no number. -/
theorem noCharge_violated (e : Env K) (c : Combined K) (m : Rf K) (clen : K) (s : Proc K) (hinc : s.inc = true) (h : s.qPer = 0 ∨ clen = 0) :
    kicks e c m clen s = .ub := by
  have : clen = 0 ∨ s.dz * (|s.charge| * e.unit) = 0 := by
    rcases h with h | h
    · right
      simp [Proc.charge, h]
    · exact Or.inl h
  unfold kicks
  rw [if_pos ⟨hinc, this⟩]

/-- **C308.** A kick that does not depend on place or phase reaches all particles but those of the last slice in full; in the last slice it falls to zero
at the head of the bunch. -/
theorem rf_constant (e : Env K) (c : Combined K) (m : Rf K) (clen : K) (hw : c.base.csr = false) (hlong : ∀ z, c.base.long z = 0)
    (htrans : ∀ z, c.base.trans z = 0) (hxy : ∀ x y, c.wxy x y = 0) (r : K × K) (hrf : ∀ x y φ, c.rf x y φ = r)
    (s : Proc K) (hr : Ready e c.base s) (hinc : s.inc = true) (hp0 : s.p0 ≠ 0) (s' : Proc K) (hs' : kicks e c m clen s = .ok s') (hp1 : s'.p0 ≠ 0) :
    let last := s.zmin + (s.nbins - 1) * s.dz
    List.Forall₂ (fun p p' => (p.ct < last → p'.xp = p.xp + m.V * r.1 / s.p0 ∧ p'.yp = p.yp + m.V * r.2 / s.p0) ∧
      (last ≤ p.ct → p'.xp = p.xp + m.V * r.1 / s.p0 * ((last + s.dz - p.ct) / s.dz) ∧ p'.yp = p.yp + m.V * r.2 / s.p0 * ((last + s.dz - p.ct) / s.dz))) s.ps s'.ps := by
  intro last
  have hdz := hr.dz
  refine (rf_only e c m clen hw hlong htrans hxy s hr hinc hp0 s' hs' hp1).imp ?_
  rintro p p' ⟨n, hn, ha, hb, -, h2, h3⟩
  have key : ∀ pick : K × K → K, ((p.ct < last → n + 1 < s.nbins) ∧ (last ≤ p.ct → ¬ n + 1 < s.nbins)) := by
    intro _
    constructor
    · intro h
      by_contra hc
      have : n + 1 = s.nbins := by omega
      have hK : (n : K) = s.nbins - 1 := by rw [← this]; push_cast; ring
      rw [hK] at ha
      exact absurd (lt_of_le_of_lt ha h) (lt_irrefl _)
    · intro h hc
      have hK : (n : K) + 1 ≤ s.nbins - 1 := by
        have : ((n + 2 : Nat) : K) ≤ s.nbins := by exact_mod_cast hc
        push_cast at this
        linarith
      have : ((n : K) + 1) * s.dz ≤ (s.nbins - 1) * s.dz := mul_le_mul_of_nonneg_right hK hdz.le
      have := lt_of_le_of_lt h hb
      simp only [last] at this
      linarith
  have hfull : n + 1 < s.nbins → ∀ pick : K × K → K, line (fun i => if i < s.nbins then m.V * pick r else 0) s.zmin s.dz n p.ct = m.V * pick r := by
    intro h pick
    unfold line
    simp only [if_pos hn, if_pos h]
    field_simp
    ring
  have hpart : ¬ n + 1 < s.nbins → ∀ pick : K × K → K,
      line (fun i => if i < s.nbins then m.V * pick r else 0) s.zmin s.dz n p.ct = m.V * pick r * ((last + s.dz - p.ct) / s.dz) := by
    intro h pick
    have : n + 1 = s.nbins := by omega
    have hK : (n : K) = s.nbins - 1 := by rw [← this]; push_cast; ring
    unfold line
    simp only [if_pos hn, if_neg h, hK]
    simp only [last]
    field_simp
    ring
  simp only [hrf] at h2 h3
  refine ⟨fun h => ?_, fun h => ?_⟩
  · rw [h2, h3, hfull ((key Prod.fst).1 h), hfull ((key Prod.fst).1 h)]
    exact ⟨rfl, rfl⟩
  · rw [h2, h3, hpart ((key Prod.fst).2 h), hpart ((key Prod.fst).2 h)]
    constructor <;> ring

/-- **C308 (violated).** A kick that grows with the phase is taken half a slice ahead of the particle. -/
theorem halfSlice_violated (e : Env K) (c : Combined K) (m : Rf K) (clen : K) (hw : c.base.csr = false) (hlong : ∀ z, c.base.long z = 0)
    (htrans : ∀ z, c.base.trans z = 0) (hxy : ∀ x y, c.wxy x y = 0) (a b : K) (hrf : ∀ x y φ, c.rf x y φ = (a + b * φ, 0))
    (s : Proc K) (hr : Ready e c.base s) (hinc : s.inc = true) (hp0 : s.p0 ≠ 0) (s' : Proc K) (hs' : kicks e c m clen s = .ok s') (hp1 : s'.p0 ≠ 0) :
    List.Forall₂ (fun p p' => p.ct < s.zmin + (s.nbins - 1) * s.dz →
      p'.xp = p.xp + m.V * (a + b * (|m.phi| + m.k * (p.ct + s.dz / 2))) / s.p0) s.ps s'.ps := by
  have hdz := hr.dz
  refine (rf_only e c m clen hw hlong htrans hxy s hr hinc hp0 s' hs' hp1).imp ?_
  rintro p p' ⟨n, hn, ha, hb, -, h2, -⟩ h
  have hn1 : n + 1 < s.nbins := by
    by_contra hc
    have : n + 1 = s.nbins := by omega
    have hK : (n : K) = s.nbins - 1 := by rw [← this]; push_cast; ring
    rw [hK] at ha
    exact absurd (lt_of_le_of_lt ha h) (lt_irrefl _)
  rw [h2]
  unfold line
  simp only [hrf, if_pos hn, if_pos hn1, phaseAt]
  push_cast
  field_simp
  ring

/-- **C309.** For phases that are not positive, the phase of the kick is that of the accelerating field (`phi - k ct`, LCAVintegrator.cpp 77) with the
other sign. -/
theorem phase_partial (m : Rf K) (h : m.phi ≤ 0) (z0 dz : K) (i : Nat) :
    phaseAt |m.phi| m.k z0 dz i = -(m.phi - m.k * (z0 + (i + 1 / 2) * dz)) := by
  unfold phaseAt
  rw [abs_of_nonpos h]
  ring

/-- **C309 (violated).** Structures of opposite phases kick alike. -/
theorem phase_violated (e : Env K) (c : Combined K) (m : Rf K) (clen : K) (s : Proc K) :
    kicks e c { m with phi := -m.phi } clen s = kicks e c m clen s := by
  unfold kicks wakes wakeT
  simp only [abs_neg]

/-! ## Which potentials act, and when -/

/-- What happens to a process. -/
inductive Op (K : Type)
  | start (ps : List (Part K)) (p0 qPer : K)
  | enter (comp : Component K)
  | step (ds : K)

/-- One of them; only active processes are asked to act. -/
def exec (e : Env K) (table : Nat → Combined K) (s : State K) : Op K → Outcome Unit (State K)
  | .start ps p0 qPer => .ok (initialise s ps p0 qPer)
  | .enter comp => setCurrent e table s comp
  | .step ds => if s.active then doProcess e table ds s else .ok s

def run (e : Env K) (table : Nat → Combined K) : State K → List (Op K) → Outcome Unit (State K)
  | s, [] => .ok s
  | s, o :: l => (exec e table s o).bind fun s => run e table s l

/-- The component the bunch is in and how far. -/
def place : Option (Component K × K) → Op K → Option (Component K × K)
  | _, .start .. => none
  | _, .enter comp => some (comp, 0)
  | o, .step ds => o.map fun (c, z) => (c, z + ds)

structure Inv (centre : Bool) (o : Option (Component K × K)) (s : State K) : Prop where
  mid : s.centre = centre
  same : ∀ b, s.base = some b → s.own = some b
  fresh : s.proc.recalc = false → ∃ b, s.base = some b
  here : ∀ comp z, o = some (comp, z) → s.active = true → ∃ n, comp.combined = some n ∧ s.base = some n ∧ s.own = some n ∧ s.clen = comp.length ∧
    s.rf = comp.kind.members ∧ s.pos = z ∧ s.impulseAt = if centre then comp.length / 2 else comp.length

theorem init_recalc (e : Env K) (w : Potentials K) (s t : Proc K) (h : s.init e w = .ok t) : t.recalc = false := by
  unfold Proc.init at h
  simp only at h
  generalize binList e.sort e.rnd s.ps _ _ s.nbins s.filter = r at h
  cases r with
  | throw x => cases h
  | ub => cases h
  | ok b =>
    injection h with h
    rw [← h]

theorem exec_inv (e : Env K) (table : Nat → Combined K) (centre : Bool) (o : Option (Component K × K)) (s s' : State K) (hs : Inv centre o s) (op : Op K)
    (h : exec e table s op = .ok s') : Inv centre (place o op) s' := by
  cases op with
  | start ps p0 qPer =>
    injection h with h
    subst h
    exact ⟨hs.mid, fun b hb => (by cases hb), fun hb => (by cases hb), fun _ _ hb => (by cases hb)⟩
  | enter comp =>
    simp only [exec, setCurrent] at h
    cases hc : comp.combined with
    | none =>
      rw [hc] at h
      simp only at h
      cases hk : comp.kind with
      | bend =>
        rw [hk] at h
        injection h with h
        subst h
        exact ⟨hs.mid, hs.same, fun hb => (by cases hb), fun _ _ _ hb => (by cases hb)⟩
      | tw rf => rw [hk] at h; injection h with h; subst h; exact ⟨hs.mid, hs.same, hs.fresh, fun _ _ _ hb => (by cases hb)⟩
      | sw rf => rw [hk] at h; injection h with h; subst h; exact ⟨hs.mid, hs.same, hs.fresh, fun _ _ _ hb => (by cases hb)⟩
      | other => rw [hk] at h; injection h with h; subst h; exact ⟨hs.mid, hs.same, hs.fresh, fun _ _ _ hb => (by cases hb)⟩
    | some n =>
      rw [hc] at h
      simp only at h
      have hset : ∀ r : Outcome Unit (Proc K), r.bind (fun p => Outcome.ok (⟨p, some n, some n, true, comp.length,
          if s.centre then comp.length / 2 else comp.length, 0, comp.kind.members, s.centre⟩ : State K)) = .ok s' → Inv centre (place o (.enter comp)) s' := by
        intro r hr
        cases r with
        | throw x => cases hr
        | ub => cases hr
        | ok p =>
          injection hr with hr
          subst hr
          refine ⟨hs.mid, fun b hb => hb, fun _ => ⟨n, rfl⟩, ?_⟩
          intro comp' z hp _
          simp only [place, Option.some.injEq, Prod.mk.injEq] at hp
          obtain ⟨rfl, rfl⟩ := hp
          exact ⟨n, hc, rfl, rfl, rfl, rfl, rfl, by rw [← hs.mid]⟩
      by_cases hre : s.proc.recalc = true
      · rw [if_pos hre] at h
        exact hset _ h
      · rw [if_neg hre] at h
        obtain ⟨b, hb⟩ := hs.fresh (by simpa using hre)
        have ho := hs.same b hb
        rw [ho] at h
        simp only at h
        by_cases hn : n ≠ b
        · rw [if_pos hn] at h
          exact hset _ h
        · rw [if_neg hn] at h
          have hnb : n = b := not_not.mp hn
          subst hnb
          injection h with h
          subst h
          refine ⟨hs.mid, fun b hb' => by rw [← hb']; exact hb.symm, hs.fresh, ?_⟩
          intro comp' z hp _
          simp only [place, Option.some.injEq, Prod.mk.injEq] at hp
          obtain ⟨rfl, rfl⟩ := hp
          exact ⟨n, hc, hb, rfl, rfl, rfl, rfl, by rw [← hs.mid]⟩
  | step ds =>
    simp only [exec] at h
    by_cases ha : s.active = true
    · rw [if_pos ha] at h
      simp only [doProcess] at h
      by_cases hz : s.pos + ds = s.impulseAt
      · rw [if_pos hz] at h
        cases ho : s.own with
        | none => rw [ho] at h; cases h
        | some a =>
          cases hb : s.base with
          | none => rw [ho, hb] at h; cases h
          | some b =>
            rw [ho, hb] at h
            simp only at h
            generalize impulse e _ s.rf s.clen s.proc = r at h
            cases r with
            | throw x => cases h
            | ub => cases h
            | ok p =>
              injection h with h
              subst h
              exact ⟨hs.mid, by simpa [hb, ho] using hs.same, fun _ => ⟨b, rfl⟩, fun _ _ _ hb => (by cases hb)⟩
      · rw [if_neg hz] at h
        injection h with h
        subst h
        refine ⟨hs.mid, hs.same, hs.fresh, ?_⟩
        intro comp z hp _
        cases o with
        | none => cases hp
        | some cz =>
          obtain ⟨c0, z0⟩ := cz
          simp only [place, Option.map_some, Option.some.injEq, Prod.mk.injEq] at hp
          obtain ⟨rfl, rfl⟩ := hp
          obtain ⟨n, h1, h2, h3, h4, h5, h6, h7⟩ := hs.here c0 z0 rfl ha
          exact ⟨n, h1, h2, h3, h4, h5, by simp [h6], h7⟩
    · rw [if_neg ha] at h
      injection h with h
      subst h
      exact ⟨hs.mid, hs.same, hs.fresh, fun _ _ _ hb => absurd hb ha⟩

theorem run_inv (e : Env K) (table : Nat → Combined K) (centre : Bool) (l : List (Op K)) : ∀ (o : Option (Component K × K)) (s s' : State K), Inv centre o s →
    run e table s l = .ok s' → Inv centre (l.foldl place o) s' := by
  induction l with
  | nil =>
    intro o s s' hs h
    injection h with h
    subst h
    exact hs
  | cons op l ih =>
    intro o s s' hs h
    simp only [run] at h
    cases h1 : exec e table s op with
    | throw x => rw [h1] at h; cases h
    | ub => rw [h1] at h; cases h
    | ok t =>
      rw [h1] at h
      exact ih _ t s' (exec_inv e table centre o s t hs op h1) h

theorem mk_inv (nbins : Nat) (nsig : K) (filter : Option (List K)) (centre : Bool) : Inv centre none { mk nbins nsig filter with centre := centre } :=
  ⟨rfl, fun b hb => (by cases hb), fun hb => (by cases hb), fun _ _ hb => (by cases hb)⟩

omit [LinearOrder K] [IsStrictOrderedRing K] in
theorem combined_iff (comp : Component K) (n : Nat) : comp.combined = some n ↔ Couplers comp n := by
  unfold Component.combined Couplers
  rcases comp.wake with _ | ⟨a, b, x⟩
  · simp
  · cases b <;> simp

omit [LinearOrder K] [IsStrictOrderedRing K] in
theorem members_field (k : Kind K) : k.members = field k := by
  cases k <;> rfl

/-- **C310.** After any sequence of bunches, components and steps, an active process in a component acts with the potentials, the length and the
field of that component, at its centre or its exit, and nowhere else. -/
theorem run_step (e : Env K) (table : Nat → Combined K) (nbins : Nat) (nsig : K) (filter : Option (List K)) (centre : Bool) (l : List (Op K)) (s : State K)
    (h : run e table { mk nbins nsig filter with centre := centre } l = .ok s) (comp : Component K) (z : K) (hp : l.foldl place none = some (comp, z))
    (ha : s.active = true) (ds : K) :
    ∃ n, Couplers comp n ∧ doProcess e table ds s =
      if z + ds = (if centre then comp.length / 2 else comp.length) then
        (impulse e (table n) (field comp.kind) comp.length s.proc).bind fun p => .ok { s with pos := z + ds, proc := p, active := false }
      else .ok { s with pos := z + ds } := by
  have hi := run_inv e table centre l none _ s (mk_inv nbins nsig filter centre) h
  obtain ⟨n, h1, h2, h3, h4, h5, h6, h7⟩ := hi.here comp z hp ha
  refine ⟨n, (combined_iff comp n).mp h1, ?_⟩
  simp only [doProcess, h2, h3, h4, h5, h6, h7, members_field]

/-- **C310.** A component with such potentials makes the process active, any other inactive; the pointer of the derived class is never read before it is
set. -/
theorem enter_active (e : Env K) (table : Nat → Combined K) (nbins : Nat) (nsig : K) (filter : Option (List K)) (centre : Bool) (l : List (Op K))
    (s : State K) (h : run e table { mk nbins nsig filter with centre := centre } l = .ok s) (comp : Component K) :
    (∀ s', setCurrent e table s comp = .ok s' → (s'.active = true ↔ ∃ n, Couplers comp n)) ∧
    ((∀ n, s.proc.init e (table n).base ≠ .ub) → setCurrent e table s comp ≠ .ub) := by
  have hi := run_inv e table centre l none _ s (mk_inv nbins nsig filter centre) h
  have hiff : (∃ n, Couplers comp n) ↔ comp.combined.isSome = true := by
    rw [Option.isSome_iff_exists]
    exact exists_congr fun n => (combined_iff comp n).symm
  suffices hs : (∀ s', setCurrent e table s comp = .ok s' → s'.active = comp.combined.isSome) ∧
      ((∀ n, s.proc.init e (table n).base ≠ .ub) → setCurrent e table s comp ≠ .ub) from
    ⟨fun s' h' => by rw [hiff, hs.1 s' h'], hs.2⟩
  unfold setCurrent
  cases hc : comp.combined with
  | none =>
    simp only
    cases comp.kind <;> simp only <;> refine ⟨?_, fun _ hu => (by cases hu)⟩ <;> intro s' h' <;> injection h' with h' <;> subst h' <;> rfl
  | some n =>
    simp only
    have hset : ∀ (f : Proc K → State K), (∀ p, (f p).active = true) → ∀ r : Outcome Unit (Proc K),
        (∀ s', r.bind (fun p => Outcome.ok (f p)) = .ok s' → s'.active = (some n).isSome) ∧ (r ≠ .ub → r.bind (fun p => Outcome.ok (f p)) ≠ .ub) := by
      intro f hf r
      cases r with
      | throw x => exact ⟨fun s' h' => (by cases h'), fun _ hu => (by cases hu)⟩
      | ub => exact ⟨fun s' h' => (by cases h'), fun hn => absurd rfl hn⟩
      | ok p =>
        refine ⟨fun s' h' => ?_, fun _ hu => (by cases hu)⟩
        injection h' with h'
        subst h'
        exact hf p
    by_cases hre : s.proc.recalc = true
    · rw [if_pos hre]
      have := hset (fun p => ⟨p, some n, some n, true, comp.length, if s.centre then comp.length / 2 else comp.length, 0, comp.kind.members, s.centre⟩) (fun _ => rfl) (s.proc.init e (table n).base)
      exact ⟨this.1, fun hu => this.2 (hu n)⟩
    · rw [if_neg hre]
      obtain ⟨b, hb⟩ := hi.fresh (by simpa using hre)
      rw [hi.same b hb]
      simp only
      by_cases hn : n ≠ b
      · rw [if_pos hn]
        have := hset (fun p => ⟨p, some n, some n, true, comp.length, if s.centre then comp.length / 2 else comp.length, 0, comp.kind.members, s.centre⟩) (fun _ => rfl) (s.proc.init e (table n).base)
        exact ⟨this.1, fun hu => this.2 (hu n)⟩
      · rw [if_neg hn]
        refine ⟨fun s' h' => ?_, fun _ hu => (by cases hu)⟩
        injection h' with h'
        subst h'
        rfl

/-- **C310 (violated).** The field of a standing wave structure does not kick. -/
theorem standing_violated (e : Env K) (table : Nat → Combined K) (s s' : State K) (len : K) (n : Nat) (x : Option String) (rf : Rf K) (hV : rf.V ≠ 0)
    (h : setCurrent e table s ⟨len, some (n, true, x), .sw rf⟩ = .ok s') : s'.active = true ∧ s'.rf.V ≠ rf.V ∧ s'.rf.V = 0 := by
  have hz : s'.active = true ∧ s'.rf = ⟨0, 0, 0⟩ := by
    simp only [setCurrent, Component.combined, Kind.members] at h
    have hset : ∀ (f : Proc K → State K), (∀ p, (f p).active = true ∧ (f p).rf = ⟨0, 0, 0⟩) → ∀ r : Outcome Unit (Proc K),
        r.bind (fun p => Outcome.ok (f p)) = .ok s' → s'.active = true ∧ s'.rf = ⟨0, 0, 0⟩ := by
      intro f hf r hr
      cases r with
      | throw x => cases hr
      | ub => cases hr
      | ok p =>
        injection hr with hr
        subst hr
        exact hf p
    by_cases hre : s.proc.recalc = true
    · rw [if_pos hre] at h
      exact hset _ (fun _ => ⟨rfl, rfl⟩) _ h
    · rw [if_neg hre] at h
      cases ho : s.own with
      | none => rw [ho] at h; cases h
      | some o =>
        rw [ho] at h
        simp only at h
        by_cases hn : n ≠ o
        · rw [if_pos hn] at h
          exact hset _ (fun _ => ⟨rfl, rfl⟩) _ h
        · rw [if_neg hn] at h
          injection h with h
          subst h
          exact ⟨rfl, rfl⟩
  rw [hz.2]
  exact ⟨hz.1, fun h0 => hV h0.symm, rfl⟩

/-! ## The bunch at the entrance -/

/-- **C311.** Components without such potentials leave the bunch alone. -/
theorem enter_other (e : Env K) (table : Nat → Combined K) (s : State K) (comp : Component K) (hw : ∀ n, ¬ Couplers comp n) :
    ∃ s', setCurrent e table s comp = .ok s' ∧ s'.active = false ∧ s'.proc.ps = s.proc.ps ∧ s'.proc.p0 = s.proc.p0 ∧ s'.proc.qPer = s.proc.qPer := by
  have hc : comp.combined = none := by
    by_contra h
    obtain ⟨n, hn⟩ := Option.ne_none_iff_exists'.mp h
    exact hw n ((combined_iff comp n).mp hn)
  unfold setCurrent
  rw [hc]
  simp only
  cases comp.kind <;> exact ⟨_, rfl, rfl, rfl, rfl, rfl⟩

/-- **C311.** At the entrance, particles are cut off or nothing happens: none is added or changed, and the charge stays. -/
theorem enter_bunch (e : Env K) (he : e.rnd = id) (hsort : Sorts e.sort) (table : Nat → Combined K) (hw : ∀ n, (table n).base.csr = false) (s s' : State K)
    (hf : s.proc.filter = none) (comp : Component K) (h : setCurrent e table s comp = .ok s') :
    s'.proc.ps.Subperm s.proc.ps ∧ s'.proc.charge = s.proc.charge ∧ s'.proc.p0 = s.proc.p0 := by
  have hset : ∀ (n : Nat) (f : Proc K → State K), (∀ p, (f p).proc = p) → (s.proc.init e (table n).base).bind (fun p => Outcome.ok (f p)) = .ok s' →
      s'.proc.ps.Subperm s.proc.ps ∧ s'.proc.charge = s.proc.charge ∧ s'.proc.p0 = s.proc.p0 := by
    intro n f hfp hr
    cases hi : s.proc.init e (table n).base with
    | throw x => rw [hi] at hr; cases hr
    | ub => rw [hi] at hr; cases hr
    | ok p =>
      rw [hi] at hr
      injection hr with hr
      subst hr
      obtain ⟨-, hc, hp, -, -, -, -, -, -, hps⟩ := init_ready e he hsort (table n).base (hw n) s.proc p hf hi
      rw [hfp]
      exact ⟨hps.subperm.trans List.filter_sublist.subperm, hc, hp⟩
  unfold setCurrent at h
  cases hc : comp.combined with
  | none =>
    rw [hc] at h
    simp only at h
    cases hk : comp.kind <;> rw [hk] at h <;> injection h with h <;> subst h <;> exact ⟨List.Subperm.refl _, rfl, rfl⟩
  | some n =>
    rw [hc] at h
    simp only at h
    by_cases hre : s.proc.recalc = true
    · rw [if_pos hre] at h
      exact hset n _ (fun _ => rfl) h
    · rw [if_neg hre] at h
      cases ho : s.own with
      | none => rw [ho] at h; cases h
      | some o =>
        rw [ho] at h
        simp only at h
        by_cases hn : n ≠ o
        · rw [if_pos hn] at h
          exact hset n _ (fun _ => rfl) h
        · rw [if_neg hn] at h
          injection h with h
          subst h
          exact ⟨List.Subperm.refl _, rfl, rfl⟩

/-- Couplers without wakes that kick by the phase, by one, and not at all. -/
def exC (rf : ℚ → ℚ) : Combined ℚ := ⟨⟨fun _ => 0, fun _ => 0, false⟩, fun _ _ => 0, fun _ _ φ => (rf φ, 0)⟩
def exPlain : Combined ℚ := ⟨exW, fun _ _ => 0, fun _ _ _ => 0⟩

def exState (s : Proc ℚ) : State ℚ := ⟨s, none, none, false, 0, 0, 0, ⟨0, 0, 0⟩, false⟩

/-- **C311 (violated).** Entering a component loses particles, before any wake acts. -/
theorem enterCuts_violated : ∃ (e : Env ℚ) (table : Nat → Combined ℚ) (s s' : State ℚ) (comp : Component ℚ), Sorts e.sort ∧ e.rnd = id ∧
    s.proc.filter = none ∧ setCurrent e table s comp = .ok s' ∧ s'.pos = 0 ∧ s'.impulseAt = 1 ∧
    (s.proc.ps.map fun p => p.ct) = [-7, -1, 1, 7] ∧ (s'.proc.ps.map fun p => p.ct) = [-1, 1] := by
  have hex : ∃ s', setCurrent exEnv (fun _ => exPlain) (exState (exProc 1 [pt (-7) 0, pt (-1) 0, pt 1 0, pt 7 0])) ⟨1, some (0, true, none), .other⟩ = .ok s' ∧
      s'.pos = 0 ∧ s'.impulseAt = 1 ∧ (s'.proc.ps.map fun p => p.ct) = [-1, 1] := by
    have h : (match setCurrent exEnv (fun _ => exPlain) (exState (exProc 1 [pt (-7) 0, pt (-1) 0, pt 1 0, pt 7 0])) ⟨1, some (0, true, none), .other⟩ with
      | .ok s => some (s.pos, s.impulseAt, s.proc.ps.map fun p => p.ct)
      | _ => none) = some (0, 1, [-1, 1]) := by decide +kernel
    revert h
    generalize setCurrent exEnv (fun _ => exPlain) (exState (exProc 1 [pt (-7) 0, pt (-1) 0, pt 1 0, pt 7 0])) ⟨1, some (0, true, none), .other⟩ = r
    intro h
    cases r with
    | ok s => exact ⟨s, rfl, by simpa using h⟩
    | throw x => cases h
    | ub => cases h
  obtain ⟨s', h1, h2, h3, h4⟩ := hex
  exact ⟨_, _, _, s', _, exSort_sorts, rfl, rfl, h1, h2, h3, rfl, h4⟩

/-! ## Two processes -/

/-- **C312.** Both processes act exactly when the potentials are those of couplers and expect no process or the plain one. -/
theorem both_active (e : Env K) (table : Nat → Combined K) (s s' : State K) (comp : Component K) (h : setCurrent e table s comp = .ok s') :
    (s'.active = true ∧ plainActive comp = true) ↔ ∃ n x, comp.wake = some (n, true, x) ∧ (x = none ∨ x = some "WakeFieldProcess") := by
  have ha : s'.active = comp.combined.isSome := by
    unfold setCurrent at h
    cases hc : comp.combined with
    | none =>
      rw [hc] at h
      simp only at h
      cases hk : comp.kind <;> rw [hk] at h <;> injection h with h <;> subst h <;> rfl
    | some n =>
      rw [hc] at h
      simp only at h
      have hset : ∀ (f : Proc K → State K), (∀ p, (f p).active = true) → ∀ r : Outcome Unit (Proc K),
          r.bind (fun p => Outcome.ok (f p)) = .ok s' → s'.active = true := by
        intro f hf r hr
        cases r with
        | throw x => cases hr
        | ub => cases hr
        | ok p =>
          injection hr with hr
          subst hr
          exact hf p
      by_cases hre : s.proc.recalc = true
      · rw [if_pos hre] at h
        exact hset _ (fun _ => rfl) _ h
      · rw [if_neg hre] at h
        cases ho : s.own with
        | none => rw [ho] at h; cases h
        | some o =>
          rw [ho] at h
          simp only at h
          by_cases hn : n ≠ o
          · rw [if_pos hn] at h
            exact hset _ (fun _ => rfl) _ h
          · rw [if_neg hn] at h
            injection h with h
            subst h
            rfl
  rw [ha]
  unfold Component.combined plainActive
  rcases comp.wake with _ | ⟨n, b, x⟩
  · simp
  · cases b <;> cases x <;> simp

/-- **C312 (violated).** With both processes the particles lose twice the energy of the wake: two particles of charge 1 at −1 and 1, in potentials of
couplers for which no process was set. -/
theorem twice_violated : ∃ s t u : Proc ℚ, s = exProc 2 [⟨1, 0, 0, 0, 1, 0⟩, ⟨0, 0, 0, 0, -1, 0⟩] ∧ plainActive (⟨3 / 10, some (0, true, none), .other⟩ : Component ℚ) = true ∧
    s.impulse exEnv exPlain.base (3 / 10) = .ok t ∧ impulse exEnv exPlain ⟨0, 0, 0⟩ (3 / 10) t = .ok u ∧
    (t.ps.map fun p => t.p0 * (1 + p.dp)) = [10 - 3 / 4, 10 - 3 / 20] ∧ (u.ps.map fun p => u.p0 * (1 + p.dp)) = [10 - 2 * (3 / 4), 10 - 2 * (3 / 20)] := by
  have h : (match (exProc 2 [⟨1, 0, 0, 0, 1, 0⟩, ⟨0, 0, 0, 0, -1, 0⟩]).impulse exEnv exPlain.base (3 / 10) with
    | .ok t => (match impulse exEnv exPlain ⟨0, 0, 0⟩ (3 / 10) t with
      | .ok u => some (t.ps.map (fun p => t.p0 * (1 + p.dp)), u.ps.map fun p => u.p0 * (1 + p.dp))
      | _ => none)
    | _ => none) = some ([10 - 3 / 4, 10 - 3 / 20], [10 - 2 * (3 / 4), 10 - 2 * (3 / 20)]) := by decide +kernel
  cases h1 : (exProc 2 [⟨1, 0, 0, 0, 1, 0⟩, ⟨0, 0, 0, 0, -1, 0⟩]).impulse exEnv exPlain.base (3 / 10) with
  | throw x => rw [h1] at h; cases h
  | ub => rw [h1] at h; cases h
  | ok t =>
    rw [h1] at h
    simp only at h
    cases h2 : impulse exEnv exPlain ⟨0, 0, 0⟩ (3 / 10) t with
    | throw x => rw [h2] at h; cases h
    | ub => rw [h2] at h; cases h
    | ok u =>
      rw [h2] at h
      simp only [Option.some.injEq, Prod.mk.injEq] at h
      exact ⟨_, t, u, rfl, rfl, h1, h2, h.1, h.2⟩

/-! ### Particles in kicks -/

/-- Directions after the impulse, in two slices of width 2 of a bunch at −1 and 1. -/
def exDirs (c : Combined ℚ) (m : Rf ℚ) (q : ℚ) : Option (List ℚ) :=
  match impulse exEnv c m 3 { exProc 2 [⟨1, 0, 0, 0, 1, 0⟩, ⟨0, 0, 0, 0, -1, 0⟩] with qPer := q } with
  | .ok s => some (s.ps.map fun p => p.xp)
  | _ => none

/-- A constant kick: the particle of the last slice gets half of it, for any charge but zero. -/
example : exDirs (exC fun _ => 1) ⟨0, 20, 0⟩ 1 = some [2, 1] ∧ exDirs (exC fun _ => 1) ⟨0, 20, 0⟩ (-5) = some [2, 1] ∧
    exDirs (exC fun _ => 1) ⟨0, 20, 0⟩ 0 = none := by decide +kernel

/-- A kick by the phase: phases 1 and −1 give the same. -/
example : exDirs (exC id) ⟨1, 20, 3⟩ 1 = exDirs (exC id) ⟨-1, 20, 3⟩ 1 ∧ exDirs (exC id) ⟨1, 20, 3⟩ 1 = some [2 * (1 + 3 * (-1 + 1)), 4] := by
  decide +kernel

/-- The wake of couplers, by the charge ahead. -/
example : exDirs { exC (fun _ => 0) with wxy := fun x y => (1 + x, y) } ⟨0, 0, 0⟩ 1 = some [(2 + 2) / 2 / 10, 2 / 2 / 10] := by decide +kernel

/-- Two components and two bunches. -/
example : (match run exEnv (fun n => if n = 0 then exC fun _ => 1 else exPlain) (exState (exProc 2 []))
    [.start [⟨1, 0, 0, 0, 1, 0⟩, ⟨0, 0, 0, 0, -1, 0⟩] 10 1, .enter ⟨3, some (0, true, none), .tw ⟨0, 20, 0⟩⟩, .step 1, .step 2, .enter ⟨1, none, .bend⟩, .step 1,
      .enter ⟨3 / 10, some (1, true, none), .other⟩, .step (3 / 10)] with
    | .ok s => some (s.proc.ps.map fun p => s.proc.p0 * (1 + p.dp))
    | _ => none) = some [10 - 3 / 4, 10 - 3 / 20] := by decide +kernel

end Verif.Coupler
