import Mathlib.Analysis.SpecialFunctions.Integrals.Basic
import Verif.Components.Spec
import Verif.Multipole.Properties

/-!
# Properties of components
-/

namespace Verif.Components
open Verif Verif.Multipole Real

noncomputable section

/-! ## Settings of RF structures -/

/-- C234: the frequency which has been set is read back and gives wavelength and wave number. -/
theorem frequency (cl : ℝ) (c : Cav) (f : ℝ) (hf : f ≠ 0) (hc : cl ≠ 0) :
    (c.setFrequency f).frequency = f ∧ (∃ l, (c.setFrequency f).wavelength cl = .ok l ∧ l * f = cl ∧
      (c.setFrequency f).k cl * l = 2 * π) := by
  have hp := pi_pos.ne'
  refine ⟨by simp only [Cav.frequency, Cav.setFrequency]; field_simp, _, if_neg ?_, ?_, ?_⟩
  · simp only [Cav.setFrequency]; positivity
  · simp only [Cav.setFrequency]; field_simp
  · simp only [Cav.setFrequency, Cav.k]; field_simp

/-- A cavity of 800 MHz. -/
example : ∃ l, ((⟨1, ⟨0, 1, 0, 0⟩⟩ : Cav).setFrequency 800000000).wavelength 299792458 = .ok l ∧
    l * 800000000 = 299792458 := by
  obtain ⟨-, l, h, h2, -⟩ := frequency 299792458 ⟨1, ⟨0, 1, 0, 0⟩⟩ 800000000 (by norm_num) (by norm_num)
  exact ⟨l, h, h2⟩

/-- C234: wavelength and wave number are read back; amplitude, phase and length stay. -/
theorem wavelength (cl : ℝ) (c : Cav) (l : ℝ) (hl : l ≠ 0) (hc : cl ≠ 0) :
    ∃ c', c.setWavelength cl l = .ok c' ∧ c'.wavelength cl = .ok l ∧ c'.voltage = c.voltage ∧ c'.phasor = c.phasor ∧
      c'.len = c.len := by
  refine ⟨_, if_neg hl, ?_, rfl, rfl, rfl⟩
  have hp := pi_pos.ne'
  rw [Cav.wavelength, if_neg (by simp only [Cav.setFrequency]; positivity)]
  simp only [Cav.setFrequency]
  congr 1
  field_simp

example : ∃ c', (⟨1, ⟨7, 1, 2, 0⟩⟩ : Cav).setWavelength 3 (1/2) = .ok c' ∧ c'.wavelength 3 = .ok (1/2) := by
  obtain ⟨c', h, h2, -⟩ := wavelength 3 ⟨1, ⟨7, 1, 2, 0⟩⟩ (1/2) (by norm_num) (by norm_num)
  exact ⟨c', h, h2⟩

/-- C234: the wave number is read back. -/
theorem wave_number (cl : ℝ) (c : Cav) (k : ℝ) (hc : cl ≠ 0) :
    (c.setK cl k).k cl = k ∧ (c.setK cl k).phasor = c.phasor ∧ (c.setK cl k).len = c.len := by
  have hp := pi_pos.ne'
  refine ⟨?_, rfl, rfl⟩
  simp only [Cav.setK, Cav.setFrequency, Cav.k]
  field_simp

example : ((⟨1, ⟨7, 1, 2, 0⟩⟩ : Cav).setK 3 5).k 3 = 5 := (wave_number 3 _ 5 (by norm_num)).1

/-- C234: the voltage is read back; phase, frequency and length stay. -/
theorem voltage (c : Cav) (v : ℝ) (hl : c.len ≠ 0) :
    ∃ c', c.setVoltage v = .ok c' ∧ c'.voltage = v ∧ c'.f.phi = c.f.phi ∧ c'.frequency = c.frequency ∧
      c'.len = c.len ∧ c'.beamVoltage = v * cos c.f.phi := by
  refine ⟨_, if_neg hl, ?_, rfl, rfl, rfl, ?_⟩
  · simp only [Cav.voltage, Cav.setAmplitude]; field_simp
  · simp only [Cav.beamVoltage, Cav.setAmplitude]; field_simp

example : ∃ c', (⟨2, ⟨7, 1, 0, 0⟩⟩ : Cav).setVoltage 10 = .ok c' ∧ c'.voltage = 10 := by
  obtain ⟨c', h, h2, -⟩ := voltage ⟨2, ⟨7, 1, 0, 0⟩⟩ 10 (by norm_num)
  exact ⟨c', h, h2⟩

/-- C234: the phasor is read back, and its real part is the beam voltage. -/
theorem phasor (c : Cav) (z : ℂ) (hl : c.len ≠ 0) :
    ∃ c', c.setPhasor z = .ok c' ∧ c'.phasor = z ∧ c'.beamVoltage = z.re ∧ c'.frequency = c.frequency ∧
      c'.len = c.len := by
  have h : ∃ c', c.setPhasor z = .ok c' ∧ c'.phasor = z ∧ c'.frequency = c.frequency ∧ c'.len = c.len := by
    refine ⟨(c.setAmplitude (‖z‖ / c.len)).setPhase z.arg, by rw [Cav.setPhasor, Cav.setVoltage, if_neg hl]; rfl, ?_,
      rfl, rfl⟩
    simp only [Cav.phasor, Cav.voltage, Cav.setPhase, Cav.setAmplitude]
    rw [div_mul_cancel₀ _ hl]
    apply Complex.ext
    · simp [Complex.norm_mul_cos_arg]
    · simp [Complex.norm_mul_sin_arg]
  obtain ⟨c', h1, h2, h3, h4⟩ := h
  refine ⟨c', h1, h2, ?_, h3, h4⟩
  rw [← h2]
  simp only [Cav.beamVoltage, Cav.phasor, Cav.voltage, Complex.mul_re, Complex.ofReal_re, Complex.ofReal_im]
  ring

example : ∃ c', (⟨2, ⟨7, 1, 0, 0⟩⟩ : Cav).setPhasor ⟨3, 4⟩ = .ok c' ∧ c'.beamVoltage = 3 := by
  obtain ⟨c', h, -, h2, -⟩ := phasor ⟨2, ⟨7, 1, 0, 0⟩⟩ ⟨3, 4⟩ (by norm_num)
  exact ⟨c', h, h2⟩

/-- C234: in a structure without length a voltage cannot be set. -/
theorem voltage_without_length : ∃ c : Cav, c.setVoltage 1 = .ub := ⟨⟨0, ⟨1, 0, 0, 0⟩⟩, if_pos rfl⟩

/-! ## Energy gain -/

/-- C235: the beam voltage of a travelling wave structure is the energy per charge which a particle of speed `c`
gains that enters at time zero; a particle `late` later sees the phase less by `w late`. -/
theorem travelling_gain (cl : ℝ) (c : Cav) (late : ℝ) :
    work cl (twEz cl c.f) c.len late = (c.setPhase (c.f.phi - c.f.w * late)).beamVoltage ∧
    work cl (twEz cl c.f) c.len 0 = c.beamVoltage := by
  have h : ∀ t, work cl (twEz cl c.f) c.len t = (c.setPhase (c.f.phi - c.f.w * t)).beamVoltage := by
    intro t
    have : (fun z => twEz cl c.f z (z / cl + t)) = fun _ => c.f.E0 * cos (c.f.phi - c.f.w * t) := by
      funext z
      rw [twEz]
      ring_nf
    rw [work, this, intervalIntegral.integral_const]
    simp [Cav.beamVoltage, Cav.setPhase, mul_comm]
  refine ⟨h late, ?_⟩
  rw [h 0]
  simp [Cav.beamVoltage, Cav.setPhase]

example : work 3 (twEz 3 ⟨5, 2, 0, 0⟩) 4 0 = 8 := by
  rw [(travelling_gain 3 ⟨4, ⟨5, 2, 0, 0⟩⟩ 0).2]; norm_num [Cav.beamVoltage]

/-- C235: the transverse structure deflects by its beam voltage in the plane of its orientation. -/
theorem transverse_kick (cl : ℝ) (c : Cav) :
    work cl (fun z t => (eField cl .transverse c.f ⟨0, 0, z⟩ t).x) c.len 0 = c.beamVoltage * cos c.f.theta ∧
    work cl (fun z t => (eField cl .transverse c.f ⟨0, 0, z⟩ t).y) c.len 0 = c.beamVoltage * sin c.f.theta := by
  have h : ∀ z, trEr cl c.f z (z / cl + 0) = c.f.E0 * cos c.f.phi := by
    intro z; rw [trEr]; ring_nf
  constructor
  · simp only [work, eField, h, intervalIntegral.integral_const, Cav.beamVoltage]
    simp; ring
  · simp only [work, eField, h, intervalIntegral.integral_const, Cav.beamVoltage]
    simp; ring

example : work 3 (fun z t => (eField 3 .transverse ⟨5, 2, 0, 0⟩ ⟨0, 0, z⟩ t).x) 4 0 = 8 := by
  rw [(transverse_kick 3 ⟨4, ⟨5, 2, 0, 0⟩⟩).1]; norm_num [Cav.beamVoltage]

/-- C244: what a standing wave structure gives is half of its beam voltage. -/
theorem standing_gain (cl : ℝ) (hc : cl ≠ 0) (n : ℤ) (f E0 phi : ℝ) (hf : f ≠ 0) :
    ∃ c, makeSW cl n f E0 phi = .ok c ∧ work cl (swEz cl c.f) c.len 0 = c.beamVoltage / 2 ∧
      c.len * f = n * cl / 2 ∧ c.beamVoltage = E0 * cos phi * c.len := by
  refine ⟨_, if_neg hf, ?_, by dsimp only; field_simp, rfl⟩
  have hp := pi_pos.ne'
  dsimp only [work]
  have hd : ∀ z ∈ Set.uIcc 0 (cl / f * n / 2), HasDerivAt
      (fun z => E0 * (cos phi * z / 2 + cl / (8 * π * f) * sin (4 * π * f / cl * z + phi)))
      (swEz cl ⟨2 * π * f, E0, phi, 0⟩ z (z / cl + 0)) z := by
    intro z _
    have h1 : HasDerivAt (fun z => 4 * π * f / cl * z + phi) (4 * π * f / cl) z := by
      simpa using ((hasDerivAt_id z).const_mul (4 * π * f / cl)).add_const phi
    have h2 : HasDerivAt (fun z : ℝ => cos phi * z / 2) (cos phi / 2) z := by
      simpa using ((hasDerivAt_id z).const_mul (cos phi)).div_const 2
    have h3 := (h2.add ((h1.sin).const_mul (cl / (8 * π * f)))).const_mul E0
    refine h3.congr_deriv ?_
    simp only [swEz]
    have e1 : 2 * π * f * (z / cl + 0) + phi = 2 * π * f * z / cl + phi := by ring
    have e2 : 4 * π * f / cl * z + phi = 2 * π * f * z / cl + (2 * π * f * z / cl + phi) := by ring
    have e3 : cos phi = cos (2 * π * f * z / cl + phi) * cos (2 * π * f * z / cl) +
        sin (2 * π * f * z / cl + phi) * sin (2 * π * f * z / cl) := by
      rw [← cos_sub]; ring_nf
    rw [e1, e2, cos_add (2 * π * f * z / cl) (2 * π * f * z / cl + phi), e3]
    field_simp
    ring
  rw [intervalIntegral.integral_eq_sub_of_hasDerivAt hd]
  · have e : 4 * π * f / cl * (cl / f * n / 2) + phi = phi + n * (2 * π) := by field_simp; ring
    simp only [e, sin_add_int_mul_two_pi, Cav.beamVoltage]
    ring_nf
  · apply Continuous.intervalIntegrable
    unfold swEz
    fun_prop

/-- Nine cells. -/
example : ∃ c, makeSW 3 9 2 5 0 = .ok c ∧ work 3 (swEz 3 c.f) c.len 0 = 5 * (9 * 3 / 2 / 2) / 2 := by
  obtain ⟨c, h, h2, h3, h4⟩ := standing_gain 3 (by norm_num) 9 2 5 0 (by norm_num)
  refine ⟨c, h, ?_⟩
  rw [h2, h4, cos_zero]
  push_cast at h3
  linarith

/-- C244: so the nominal energy gain of a standing wave structure is not the energy gain. -/
theorem standing_gain_violated (cl : ℝ) (hc : cl ≠ 0) (n : ℤ) (hn : n ≠ 0) (f E0 : ℝ) (hf : f ≠ 0) (hE : E0 ≠ 0) :
    ∃ c, makeSW cl n f E0 0 = .ok c ∧ work cl (swEz cl c.f) c.len 0 ≠ c.beamVoltage := by
  obtain ⟨c, h, h2, h3, h4⟩ := standing_gain cl hc n f E0 0 hf
  refine ⟨c, h, ?_⟩
  rw [h2]
  intro he
  have : c.beamVoltage = 0 := by linarith
  rw [h4, cos_zero] at this
  have hl : c.len = 0 := by simpa [hE] using this
  rw [hl] at h3
  have : (n : ℝ) * cl = 0 := by linarith
  simp [hn, hc] at this

/-- C244: and a transverse structure, which gives none, reports one. -/
theorem transverse_gain_violated : ∃ (c : Cav),
    work 3 (fun z t => (eField 3 .transverse c.f ⟨0, 0, z⟩ t).z) c.len 0 = 0 ∧ c.beamVoltage ≠ 0 :=
  ⟨⟨1, ⟨1, 1, 0, 0⟩⟩, by simp [work, eField], by simp [Cav.beamVoltage]⟩

/-! ## Forces -/

/-- C236: the forces are the Lorentz forces of the fields, for RF fields and for the general and solenoid field. -/
theorem force_is_lorentz (cl : ℝ) (k : Kind) (f : RF) (p v : V3) (q t bz : ℝ) (E B : V3) :
    rfForce cl k f p v q t = lorentz q (eField cl k f p t) (bField p t) v ∧
    emForce E B v q = lorentz q E B v ∧
    emForce ⟨0, 0, 0⟩ (bzField bz p) v q = ⟨q * bz * v.y, -(q * bz * v.x), 0⟩ := by
  refine ⟨?_, ?_, ?_⟩
  · cases k <;> simp [rfForce, lorentz, eField, bField]
  · ext <;> simp only [emForce, lorentz, cross] <;> ring
  · ext <;> simp only [emForce, bzField, cross] <;> ring

example : emForce ⟨0, 0, 0⟩ (bzField 2 ⟨0, 0, 0⟩) ⟨3, 0, 5⟩ 1 = ⟨0, -6, 0⟩ := by
  rw [(force_is_lorentz 1 .standing ⟨0, 0, 0, 0⟩ ⟨0, 0, 0⟩ ⟨3, 0, 5⟩ 1 0 2 ⟨0, 0, 0⟩ ⟨0, 0, 0⟩).2.2]
  norm_num

/-! ## Turning by 180 degrees -/

/-- C237: turned twice, structures and solenoids are what they were. -/
theorem turn_twice (k : Kind) (c : Cav) (bz : ℝ) :
    (c.rotateY180 k).rotateY180 k = c ∧ solRotate (solRotate bz) = bz := by
  constructor
  · cases k <;> ext <;> simp [Cav.rotateY180, Cav.setAmplitude]
  · simp [solRotate]

/-- C237: the turned solenoid and the turned standing wave have the turned fields, at every point and time. -/
theorem turned_fields (cl : ℝ) (c : Cav) (bz t : ℝ) :
    TurnedField (bzField bz) (bzField (solRotate bz)) ∧
    TurnedField (eField cl .standing c.f · t) (eField cl .standing (c.rotateY180 .standing).f · t) := by
  constructor
  · intro p
    simp [bzField, solRotate, turned]
  · intro p
    simp only [eField, turned, swEz, Cav.rotateY180, Cav.setAmplitude]
    rw [show c.f.w * -p.z / cl = -(c.f.w * p.z / cl) by ring, cos_neg]
    simp

example : TurnedField (eField 3 .standing ⟨1, 2, 1, 0⟩ · 7) (eField 3 .standing ⟨1, -2, 1, 0⟩ · 7) :=
  (turned_fields 3 ⟨1, ⟨1, 2, 1, 0⟩⟩ 0 7).2

/-- C238: for the structures with travelling waves this holds in the plane of the origin only. -/
theorem turned_wave_partial (cl : ℝ) (c : Cav) (k : Kind) (x y t : ℝ) :
    eField cl k (c.rotateY180 k).f (turned ⟨x, y, 0⟩) t = turned (eField cl k c.f ⟨x, y, 0⟩ t) := by
  cases k <;> simp [eField, turned, swEz, twEz, trEr, Cav.rotateY180, Cav.setAmplitude]

/-- C238: elsewhere not, since the wave still runs in the old direction. -/
theorem turned_wave_violated :
    (∃ c : Cav, ∃ t, ¬ TurnedField (eField 1 .travelling c.f · t) (eField 1 .travelling (c.rotateY180 .travelling).f · t)) ∧
    (∃ c : Cav, ∃ t, ¬ TurnedField (eField 1 .transverse c.f · t) (eField 1 .transverse (c.rotateY180 .transverse).f · t)) := by
  refine ⟨⟨⟨1, ⟨1, 1, 0, 0⟩⟩, π / 2, fun h => ?_⟩, ⟨⟨1, ⟨1, 1, 0, 0⟩⟩, π / 2, fun h => ?_⟩⟩
  · have := congrArg V3.z (h ⟨0, 0, π / 2⟩)
    simp only [eField, turned, twEz, Cav.rotateY180, Cav.setAmplitude] at this
    rw [show 1 * (-(π / 2) / 1 - π / 2) + 0 = -π by ring, show 1 * (π / 2 / 1 - π / 2) + 0 = (0 : ℝ) by ring] at this
    norm_num at this
  · have := congrArg V3.x (h ⟨0, 0, π / 2⟩)
    simp only [eField, turned, trEr, Cav.rotateY180, Cav.setAmplitude] at this
    rw [show 1 * (-(π / 2) / 1 - π / 2) + 0 = -π by ring, show 1 * (π / 2 / 1 - π / 2) + 0 = (0 : ℝ) by ring] at this
    norm_num at this

/-! ## Fields of bends -/

/-- C245: a new bend has the field it was given, on the axis, and no gradient; its matched momentum is that of a
particle which the field bends with the curvature. -/
theorem new_bend (cl h b q : ℝ) (hh : h ≠ 0) (hq : q ≠ 0) :
    getB0 (bendField b) = b ∧ (getComponent (bendField b) 0 1).1 = ⟨b, 0⟩ ∧ getB1 (bendField b) = 0 ∧
    ∃ p, matchedMomentum cl h (bendField b) q = .ok p ∧ p * 10 ^ 9 * h = q⁻¹ * (cl * b) := by
  refine ⟨rfl, by simp [getComponent, getCoefficient, grow, bendField, Cx.smul],
    by simp [getB1, getComponent, getCoefficient, grow, bendField, Cx.smul], _, if_neg (by tauto), ?_⟩
  simp only [getCoefficient, grow, bendField, Cx.smul]
  simp
  field_simp

example : ∃ p, matchedMomentum 299792458 (1 / 3) (bendField 8) 1 = .ok p ∧
    p * 10 ^ 9 * (1 / 3) = 1⁻¹ * (299792458 * 8) :=
  (new_bend 299792458 (1 / 3) 8 1 (by norm_num) (by norm_num)).2.2.2

/-- C245: the gradient is read back and leaves the dipole field alone. -/
theorem gradient (m : MField ℝ) (hb : m.b0 ≠ 0) (g : ℝ) :
    ∃ m', setB1 m g = .ok m' ∧ getB1 m' = g ∧ getB0 m' = getB0 m ∧
      (getComponent m' 0 1).1 = (getComponent m 0 1).1 := by
  obtain ⟨m', h1, h2, h3, h4⟩ := component_roundtrip m hb 1 g 0 1 one_ne_zero
  exact ⟨m', h1, by rw [getB1, h3], h2, h4 0 (by norm_num) 1⟩

example : ∃ m', setB1 (bendField 2) 5 = .ok m' ∧ getB1 m' = 5 ∧ getB0 m' = 2 := by
  obtain ⟨m', h, h1, h2, -⟩ := gradient (bendField 2) (by norm_num [bendField]) 5
  exact ⟨m', h, h1, h2⟩

/-- C246: setting the dipole field scales the gradient along. -/
theorem dipole_scales_gradient (m : MField ℝ) (b : ℝ) :
    getB0 (setB0 m b) = b ∧ getB1 (setB0 m b) * m.b0 = getB1 m * b := by
  refine ⟨rfl, ?_⟩
  simp only [getB1, getComponent, getCoefficient, setB0, Cx.smul]
  ring

/-- C246: so that a gradient of a combined function magnet does not survive; that after turning the magnet the field
on the axis is not what `GetB0` says; and that a magnet of field zero cannot be given a gradient. -/
theorem dipole_violated :
    (∃ m : MField ℝ, setB1 (bendField 1) 5 = .ok m ∧ getB1 (setB0 m 2) ≠ getB1 m) ∧
    (∃ m : MField ℝ, m = Multipole.rotateY180 (bendField 1) ∧ getB0 m = 1 ∧ (getComponent m 0 1).1 = ⟨-1, 0⟩) ∧
    setB1 (bendField 0) 5 = .ub := by
  refine ⟨?_, ⟨_, rfl, rfl, ?_⟩, if_pos rfl⟩
  · obtain ⟨m, h, h1, h2, -⟩ := gradient (bendField 1) (by norm_num [bendField]) 5
    refine ⟨m, h, ?_⟩
    have hm : m.b0 = 1 := h2
    have := (dipole_scales_gradient m 2).2
    rw [h1, hm] at this
    rw [h1]
    intro he
    rw [he] at this
    norm_num at this
  · simp [getComponent, getCoefficient, grow, bendField, Multipole.rotateY180, rotLoop, Cx.smul]

/-! ## Ownership of pole faces -/

theorem lt_of_at {h : Heap} {a : Nat} {f : Face} (ha : At h a f) : a < h.length := by
  rw [At] at ha
  by_contra hn
  rw [List.getElem?_eq_none (by omega)] at ha
  cases ha

theorem free_ok {h : Heap} {a : Nat} {f : Face} (ha : At h a f) : free h a = .ok (h.set a none) := by
  rw [At] at ha
  simp only [free, ha]

/-- C239: a bend whose faces are alive can be cleared: they are deleted, each once, and nothing else changes. -/
theorem clear_ok (h : Heap) (i : Info) (ha : Alive h i) :
    ∃ h', clear h i = .ok h' ∧ h'.length = h.length ∧
      ∀ a, h'[a]? = if a ∈ faces i then some none else h[a]? := by
  obtain ⟨e, x⟩ := i
  cases e with
  | none =>
    cases x with
    | none => exact ⟨h, rfl, rfl, fun a => by simp [faces]⟩
    | some b =>
      obtain ⟨f, hf⟩ := ha b (by simp [faces])
      refine ⟨h.set b none, by simp [clear, clearEntrance, Outcome.bind, free_ok hf], by simp, fun a => ?_⟩
      simp only [faces, Option.toList, List.nil_append, List.mem_singleton, List.getElem?_set]
      have := lt_of_at hf
      by_cases hab : a = b
      · subst hab; simp [this]
      · simp [hab, Ne.symm hab]
  | some b =>
    obtain ⟨f, hf⟩ := ha b (by simp [faces])
    have hb := lt_of_at hf
    cases x with
    | none =>
      refine ⟨h.set b none, by simp [clear, clearEntrance, Outcome.bind, free_ok hf], by simp, fun a => ?_⟩
      simp only [faces, Option.toList, List.append_nil, List.mem_singleton, List.getElem?_set]
      by_cases hab : a = b
      · subst hab; simp [hb]
      · simp [hab, Ne.symm hab]
    | some c =>
      obtain ⟨g, hg⟩ := ha c (by simp [faces])
      have hc := lt_of_at hg
      by_cases hbc : c = b
      · subst hbc
        refine ⟨h.set c none, by simp [clear, clearEntrance, Outcome.bind, free_ok hf], by simp, fun a => ?_⟩
        simp only [faces, Option.toList, List.singleton_append, List.mem_cons, List.not_mem_nil, or_false, or_self,
          List.getElem?_set]
        by_cases hab : a = c
        · subst hab; simp [hb]
        · simp [hab, Ne.symm hab]
      · have hg' : At (h.set b none) c g := by
          rw [At, List.getElem?_set_ne (Ne.symm hbc)]; exact hg
        refine ⟨(h.set b none).set c none, by simp [clear, clearEntrance, Outcome.bind, free_ok hf, hbc, free_ok hg'],
          by simp, fun a => ?_⟩
        simp only [faces, Option.toList, List.singleton_append, List.mem_cons, List.not_mem_nil, or_false,
          List.getElem?_set, List.length_set]
        by_cases h1 : a = c
        · subst h1; simp [hc]
        · by_cases h2 : a = b
          · subst h2; simp [hb, Ne.symm h1]
          · simp [h1, h2, Ne.symm h1, Ne.symm h2]

example : ∃ h', clear [some ⟨1, 0, 0, 1⟩, some ⟨2, 0, 0, 0⟩] ⟨some 0, some 0⟩ = .ok h' ∧
    h'[0]? = some none ∧ h'[1]? = some (some ⟨2, 0, 0, 0⟩) := by
  obtain ⟨h', h1, -, h2⟩ := clear_ok [some ⟨1, 0, 0, 1⟩, some ⟨2, 0, 0, 0⟩] ⟨some 0, some 0⟩
    (by intro a ha; simp [faces] at ha; subst ha; exact ⟨_, rfl⟩)
  exact ⟨h', h1, by rw [h2]; simp [faces], by rw [h2]; simp [faces]⟩

theorem setType_ok {h : Heap} {a : Nat} {f : Face} (t : ℝ) (ha : At h a f) :
    setType h (some a) t = .ok (h.set a (some { f with type := t })) := by
  rw [At] at ha
  simp only [setType, ha]

/-- C239: two new faces become entrance and exit, marked as such; the old ones are deleted and no other changes. -/
theorem set_two (h : Heap) (i : Info) (ha : Alive h i) (a b : Nat) (f g : Face) (hf : At h a f) (hg : At h b g)
    (hab : a ≠ b) (hai : a ∉ faces i) (hbi : b ∉ faces i) :
    ∃ h', setInfo2 h i (some a) (some b) = .ok (h', ⟨some a, some b⟩) ∧
      At h' a { f with type := 1 } ∧ At h' b { g with type := 0 } ∧
      (∀ c ∈ faces i, h'[c]? = some none) ∧ ∀ c ∉ faces i, c ≠ a → c ≠ b → h'[c]? = h[c]? := by
  obtain ⟨h1, e1, l1, c1⟩ := clear_ok h i ha
  have hf1 : At h1 a f := by rw [At, c1, if_neg hai]; exact hf
  have hg1 : At (h1.set a (some { f with type := 1 })) b g := by
    rw [At, List.getElem?_set_ne hab, c1, if_neg hbi]; exact hg
  have la := lt_of_at hf1
  have lb := lt_of_at hg1
  rw [List.length_set] at lb
  refine ⟨(h1.set a (some { f with type := 1 })).set b (some { g with type := 0 }), ?_, ?_, ?_, ?_, ?_⟩
  · simp only [setInfo2, e1, Outcome.bind, setType_ok 1 hf1, setType_ok 0 hg1]
  · rw [At, List.getElem?_set_ne (Ne.symm hab), List.getElem?_set_self la]
  · rw [At, List.getElem?_set_self (by simpa using lb)]
  · intro c hc
    have h1 : c ≠ a := fun h => hai (h ▸ hc)
    have h2 : c ≠ b := fun h => hbi (h ▸ hc)
    rw [List.getElem?_set_ne (Ne.symm h2), List.getElem?_set_ne (Ne.symm h1), c1, if_pos hc]
  · intro c hc h1 h2
    rw [List.getElem?_set_ne (Ne.symm h2), List.getElem?_set_ne (Ne.symm h1), c1, if_neg hc]

/-- New faces for a bend which has an entrance only. -/
example : ∃ h', setInfo2 [some ⟨9, 0, 0, 1⟩, some ⟨1, 0, 0, 1⟩, some ⟨2, 0, 0, 1⟩] ⟨some 0, none⟩ (some 1) (some 2) =
    .ok (h', ⟨some 1, some 2⟩) ∧ At h' 1 ⟨1, 0, 0, 1⟩ ∧ At h' 2 ⟨2, 0, 0, 0⟩ := by
  obtain ⟨h', h1, h2, h3, -⟩ := set_two [some ⟨9, 0, 0, 1⟩, some ⟨1, 0, 0, 1⟩, some ⟨2, 0, 0, 1⟩] ⟨some 0, none⟩
    (by intro a ha; simp [faces] at ha; subst ha; exact ⟨_, rfl⟩) 1 2 _ _ rfl rfl (by decide) (by simp [faces])
    (by simp [faces])
  exact ⟨h', h1, h2, h3⟩

theorem clone_ok (h : Heap) (p : Option Nat) (hp : ∀ a ∈ p.toList, ∃ f, At h a f) :
    ∃ h' p', clone h p = .ok (h', p') ∧ SameFace h p h' p' ∧ (∀ a < h.length, h'[a]? = h[a]?) ∧
      h.length ≤ h'.length ∧ (∀ a ∈ p'.toList, h.length ≤ a ∧ a < h'.length ∧ ∃ f, At h' a f) ∧
      (p = none ↔ p' = none) := by
  cases p with
  | none => exact ⟨h, none, rfl, trivial, fun _ _ => rfl, le_rfl, by simp, by simp⟩
  | some a =>
    obtain ⟨f, hf⟩ := hp a (by simp)
    have hl : load h (some a) = .ok f := by
      rw [At] at hf
      simp only [load, hf]
    have hn : At (h ++ [some f]) h.length f := by simp [At]
    refine ⟨h ++ [some f], some h.length, by simp only [clone, hl, Outcome.bind], ⟨f, hf, hn⟩, ?_, by simp, ?_,
      by simp⟩
    · intro b hb
      rw [List.getElem?_append_left hb]
    · intro b hb
      simp only [Option.toList, List.mem_singleton] at hb
      subst hb
      exact ⟨le_rfl, by simp, f, hn⟩

theorem sameFace_mono {h h1 h2 : Heap} {p p' : Option Nat} (hs : SameFace h p h1 p')
    (hm : ∀ a < h1.length, h2[a]? = h1[a]?) : SameFace h p h2 p' := by
  cases p <;> cases p'
  · trivial
  · exact hs
  · exact hs
  · obtain ⟨f, h3, h4⟩ := hs
    exact ⟨f, h3, by rw [At, hm _ (lt_of_at h4)]; exact h4⟩

/-- C239: the copy of the faces of a bend has the same values in new objects, which are shared between entrance and
exit just where those of the original are; the original and everything else stay as they are. -/
theorem copy_ok (h : Heap) (i : Info) (ha : Alive h i) :
    ∃ h' j, copy h i = .ok (h', j) ∧ SameFace h i.entrance h' j.entrance ∧ SameFace h i.exit h' j.exit ∧
      (∀ a < h.length, h'[a]? = h[a]?) ∧ (∀ a ∈ faces j, h.length ≤ a) ∧ Alive h' j ∧ Alive h' i ∧ Apart i j ∧
      (j.entrance = j.exit ↔ i.entrance = i.exit) := by
  obtain ⟨h1, p1, e1, s1, k1, l1, n1, z1⟩ := clone_ok h i.entrance
    (fun a h => ha a (List.mem_append_left _ h))
  have fin : ∀ h' j, (∀ a < h.length, h'[a]? = h[a]?) → (∀ a ∈ faces j, h.length ≤ a) → Alive h' i ∧ Apart i j := by
    intro h' j hk hj
    have hl : ∀ a ∈ faces i, a < h.length := fun a h => by
      obtain ⟨f, hf⟩ := ha a h
      exact lt_of_at hf
    constructor
    · intro a hm
      obtain ⟨f, hf⟩ := ha a hm
      exact ⟨f, by rw [At, hk a (lt_of_at hf)]; exact hf⟩
    · intro a hm hj'
      have := hl a hm
      have := hj a hj'
      omega
  by_cases heq : i.entrance = i.exit
  · have hj : ∀ a ∈ faces ⟨p1, p1⟩, h.length ≤ a := by
      intro a hm
      simp only [faces, List.mem_append, or_self] at hm
      exact (n1 a hm).1
    have := fin h1 ⟨p1, p1⟩ k1 hj
    refine ⟨h1, ⟨p1, p1⟩, by simp only [copy, e1, Outcome.bind, if_pos heq], s1, heq ▸ s1, k1, hj, ?_, this.1, this.2,
      by simp [heq]⟩
    intro a hm
    simp only [faces, List.mem_append, or_self] at hm
    exact (n1 a hm).2.2
  · obtain ⟨h2, p2, e2, s2, k2, l2, n2, z2⟩ := clone_ok h1 i.exit (by
      intro a hm
      obtain ⟨f, hf⟩ := ha a (List.mem_append_right _ hm)
      exact ⟨f, by rw [At, k1 a (lt_of_at hf)]; exact hf⟩)
    have hk : ∀ a < h.length, h2[a]? = h[a]? := fun a hl => by rw [k2 a (by omega), k1 a hl]
    have hj : ∀ a ∈ faces ⟨p1, p2⟩, h.length ≤ a := by
      intro a hm
      simp only [faces, List.mem_append] at hm
      rcases hm with hm | hm
      · exact (n1 a hm).1
      · have := (n2 a hm).1; omega
    have := fin h2 ⟨p1, p2⟩ hk hj
    refine ⟨h2, ⟨p1, p2⟩, by simp only [copy, e1, Outcome.bind, if_neg heq, e2], sameFace_mono s1 k2, ?_, hk, hj, ?_,
      this.1, this.2, ?_⟩
    · show SameFace h i.exit h2 p2
      have hs := s2
      revert hs
      have hex : ∀ a, i.exit = some a → h1[a]? = h[a]? := by
        intro a hm
        obtain ⟨f, hf⟩ := ha a (by simp [faces, hm])
        exact k1 a (lt_of_at hf)
      revert hex
      cases i.exit <;> cases p2
      · intros; trivial
      · intro _ hs; exact hs
      · intro _ hs; exact hs
      · rintro hex ⟨f, h3, h4⟩
        exact ⟨f, by rw [At, ← hex _ rfl]; exact h3, h4⟩
    · intro a hm
      simp only [faces, List.mem_append] at hm
      rcases hm with hm | hm
      · obtain ⟨-, hlt, f, hf⟩ := n1 a hm
        exact ⟨f, by rw [At, k2 a hlt]; exact hf⟩
      · exact (n2 a hm).2.2
    · simp only [heq, iff_false]
      intro hp
      change p1 = p2 at hp
      subst hp
      cases p1 with
      | none => exact heq ((z1.2 rfl).trans (z2.2 rfl).symm)
      | some a =>
        have h3 := (n1 a (by simp)).2.1
        have h4 := (n2 a (by simp)).1
        omega

/-- A bend with one face for both ends. -/
example : ∃ h' j, copy [some ⟨3, 0, 0, 0⟩] ⟨some 0, some 0⟩ = .ok (h', j) ∧ j.entrance = j.exit ∧ Alive h' j := by
  obtain ⟨h', j, h1, -, -, -, -, h2, -, -, h3⟩ := copy_ok [some ⟨3, 0, 0, 0⟩] ⟨some 0, some 0⟩
    (by intro a ha; simp [faces] at ha; subst ha; exact ⟨_, rfl⟩)
  exact ⟨h', j, h1, h3.2 rfl, h2⟩

theorem alive_clear {h h' : Heap} {i j : Info} (hc : ∀ a, h'[a]? = if a ∈ faces i then some none else h[a]?)
    (hij : Apart i j) (hj : Alive h j) : Alive h' j := by
  intro a ha
  obtain ⟨f, hf⟩ := hj a ha
  exact ⟨f, by rw [At, hc, if_neg (fun h => hij a h ha)]; exact hf⟩

/-- C239: a bend and its copy can be destroyed one after the other, in either order; after the first the faces of the
second are alive. -/
theorem destroy_both (h : Heap) (i : Info) (ha : Alive h i) :
    ∃ h' j, copy h i = .ok (h', j) ∧
      (∃ h1 h2, clear h' i = .ok h1 ∧ Alive h1 j ∧ clear h1 j = .ok h2) ∧
      (∃ h1 h2, clear h' j = .ok h1 ∧ Alive h1 i ∧ clear h1 i = .ok h2) := by
  obtain ⟨h', j, e, -, -, -, -, aj, ai, ap, -⟩ := copy_ok h i ha
  refine ⟨h', j, e, ?_, ?_⟩
  · obtain ⟨h1, e1, -, c1⟩ := clear_ok h' i ai
    have := alive_clear c1 ap aj
    obtain ⟨h2, e2, -⟩ := clear_ok h1 j this
    exact ⟨h1, h2, e1, this, e2⟩
  · obtain ⟨h1, e1, -, c1⟩ := clear_ok h' j aj
    have := alive_clear c1 (fun a h1 h2 => ap a h2 h1) ai
    obtain ⟨h2, e2, -⟩ := clear_ok h1 i this
    exact ⟨h1, h2, e1, this, e2⟩

/-- C239: assigning the faces of another bend deletes the old ones and copies the values. -/
theorem assign_ok (h : Heap) (i j : Info) (hi : Alive h i) (hj : Alive h j) (hij : Apart i j) :
    ∃ h' k, assign h i j = .ok (h', k) ∧ SameFace h j.entrance h' k.entrance ∧ SameFace h j.exit h' k.exit ∧
      Alive h' k ∧ Alive h' j ∧ Apart j k ∧ ∀ a ∈ faces i, h'[a]? = some none := by
  obtain ⟨h1, e1, l1, c1⟩ := clear_ok h i hi
  have hj1 := alive_clear c1 hij hj
  obtain ⟨h', k, e2, s1, s2, k2, -, ak, aj, ap, -⟩ := copy_ok h1 j hj1
  have hs : ∀ p p', (∀ a ∈ p.toList, a ∈ faces j) → SameFace h1 p h' p' → SameFace h p h' p' := by
    intro p p' hp s
    cases p <;> cases p'
    · trivial
    · exact s
    · exact s
    · obtain ⟨f, h3, h4⟩ := s
      refine ⟨f, ?_, h4⟩
      have hm := hp _ (List.mem_singleton.2 rfl)
      rw [At, c1, if_neg (fun h => hij _ h hm)] at h3
      exact h3
  refine ⟨h', k, by simp only [assign, e1, Outcome.bind, e2], hs _ _ (fun a h => List.mem_append_left _ h) s1,
    hs _ _ (fun a h => List.mem_append_right _ h) s2, ak, aj, ap, ?_⟩
  intro a ha
  obtain ⟨f, hf⟩ := hi a ha
  have := lt_of_at hf
  rw [k2 a (by omega), c1, if_pos ha]

example : ∃ h' k, assign [some ⟨3, 0, 0, 1⟩, some ⟨5, 0, 0, 1⟩] ⟨some 0, none⟩ ⟨some 1, none⟩ = .ok (h', k) ∧
    Alive h' k := by
  obtain ⟨h', k, h1, -, -, h2, -⟩ := assign_ok [some ⟨3, 0, 0, 1⟩, some ⟨5, 0, 0, 1⟩] ⟨some 0, none⟩ ⟨some 1, none⟩
    (by intro a ha; simp [faces] at ha; subst ha; exact ⟨_, rfl⟩)
    (by intro a ha; simp [faces] at ha; subst ha; exact ⟨_, rfl⟩) (by simp [Apart, faces])
  exact ⟨h', k, h1, h2⟩

/-- C240: a null pointer for one of the faces, which is the way to have none there, is written through. -/
theorem null_face_violated (h : Heap) (i : Info) (e : Option Nat) :
    (∃ r, setInfo2 h i none e = r ∧ ∀ x, r ≠ .ok x) ∧ ∃ r, setInfo2 h i e none = r ∧ ∀ x, r ≠ .ok x := by
  refine ⟨⟨_, rfl, fun x => ?_⟩, ⟨_, rfl, fun x => ?_⟩⟩
  · rw [setInfo2]
    cases clear h i <;> simp [Outcome.bind, setType]
  · rw [setInfo2]
    cases clear h i with
    | ok h1 =>
      simp only [Outcome.bind]
      cases setType h1 e 1 <;> simp [Outcome.bind, setType]
    | throw u => simp [Outcome.bind]
    | ub => simp [Outcome.bind]

/-- C240: giving a bend again a face which it has, is an access to a deleted object. -/
theorem same_face_violated (h : Heap) (i : Info) (ha : Alive h i) (a : Nat) (hm : a ∈ faces i) (e : Option Nat) :
    setInfo2 h i (some a) e = .ub ∧ setInfo1 h i (some a) = .ub := by
  obtain ⟨h1, e1, -, c1⟩ := clear_ok h i ha
  have : setType h1 (some a) 1 = .ub := by
    simp only [setType, c1, if_pos hm]
  simp only [setInfo2, setInfo1, e1, Outcome.bind, this, and_self]

example : setInfo1 [some ⟨3, 0, 0, 1⟩] ⟨some 0, some 0⟩ (some 0) = .ub :=
  (same_face_violated [some ⟨3, 0, 0, 1⟩] ⟨some 0, some 0⟩
    (by intro a ha; simp [faces] at ha; subst ha; exact ⟨_, rfl⟩) 0 (by simp [faces]) none).2

/-- C240: and so is the assignment of a bend with faces to itself. -/
theorem self_assignment_violated (h : Heap) (i : Info) (ha : Alive h i) (hf : faces i ≠ []) : assign h i i = .ub := by
  obtain ⟨h1, e1, -, c1⟩ := clear_ok h i ha
  simp only [assign, e1, Outcome.bind]
  have hl : ∀ a ∈ faces i, ∀ h2 : Heap, h2[a]? = h1[a]? → clone h2 (some a) = .ub := by
    intro a hm h2 he
    simp only [clone, load, he, c1, if_pos hm, Outcome.bind]
  obtain ⟨e, x⟩ := i
  cases e with
  | some a =>
    simp only [copy, hl a (by simp [faces]) h1 rfl, Outcome.bind]
  | none =>
    cases x with
    | none => simp [faces] at hf
    | some b =>
      simp only [copy]
      rw [show clone h1 none = .ok (h1, none) from rfl]
      simp only [Outcome.bind, reduceCtorEq, if_false, hl b (by simp [faces]) h1 rfl]

example : assign [some ⟨3, 0, 0, 1⟩] ⟨some 0, none⟩ ⟨some 0, none⟩ = .ub :=
  self_assignment_violated _ _ (by intro a ha; simp [faces] at ha; subst ha; exact ⟨_, rfl⟩) (by simp [faces])

/-- C240: one face for both ends is marked as exit, at the entrance also; and after turning the bend the face at the
entrance is marked as exit and that at the exit as entrance. -/
theorem face_type_violated (h : Heap) (i : Info) (ha : Alive h i) (a b : Nat) (f g : Face) (hf : At h a f)
    (hg : At h b g) (hab : a ≠ b) (hai : a ∉ faces i) (hbi : b ∉ faces i) :
    (∃ h', setInfo1 h i (some a) = .ok (h', ⟨some a, some a⟩) ∧ At h' a { f with type := 0 }) ∧
    (∃ h' j, setInfo2 h i (some a) (some b) = .ok (h', j) ∧
      load h' (swapFaces j).entrance = .ok { g with type := 0 } ∧ load h' (swapFaces j).exit = .ok { f with type := 1 }) := by
  constructor
  · obtain ⟨h1, e1, l1, c1⟩ := clear_ok h i ha
    have hf1 : At h1 a f := by rw [At, c1, if_neg hai]; exact hf
    have la := lt_of_at hf1
    have hf2 : At (h1.set a (some { f with type := 1 })) a { f with type := 1 } := by
      rw [At, List.getElem?_set_self la]
    refine ⟨(h1.set a (some { f with type := 1 })).set a (some { f with type := 0 }),
      by simp only [setInfo1, e1, Outcome.bind, setType_ok 1 hf1, setType_ok 0 hf2], ?_⟩
    rw [At, List.getElem?_set_self (by simpa using la)]
  · obtain ⟨h', h1, h2, h3, -⟩ := set_two h i ha a b f g hf hg hab hai hbi
    refine ⟨h', _, h1, ?_, ?_⟩
    · rw [At] at h3
      simp only [swapFaces, load, h3]
    · rw [At] at h2
      simp only [swapFaces, load, h2]

example : ∃ h', setInfo1 [some ⟨9, 0, 0, 1⟩, some ⟨1, 0, 0, 1⟩] ⟨none, none⟩ (some 0) = .ok (h', ⟨some 0, some 0⟩) ∧
    At h' 0 ⟨9, 0, 0, 0⟩ :=
  (face_type_violated [some ⟨9, 0, 0, 1⟩, some ⟨1, 0, 0, 1⟩] ⟨none, none⟩ (by intro a ha; simp [faces] at ha) 0 1 _ _
    rfl rfl (by decide) (by simp [faces]) (by simp [faces])).1

/-! ## Pole faces of a turned bend -/

/-- C241: a face which is not rotated acts on a particle at the entrance of the turned bend as it did, at the exit of
the bend before, on the mirror image of the particle. -/
theorem turned_face_partial (c : Symplectic.Bend) (hr : ∀ p, c.exit = some p → p.rot = 0 ∧ p.fint = 0)
    (v w : Symplectic.PS) (h : Symplectic.trackFace c.h c.exit v = .ok w) :
    Symplectic.trackFace (turnBend c).h (turnBend c).entrance (mirror v) = .ok (mirror w) := by
  cases he : c.exit with
  | none =>
    rw [he] at h
    cases h
    simp [turnBend, he, Symplectic.trackFace]
  | some p =>
    obtain ⟨h1, h2⟩ := hr p he
    rw [he] at h
    simp [Symplectic.trackFace, Symplectic.poleFace, h1, h2] at h
    subst h
    simp [turnBend, he, Symplectic.trackFace, Symplectic.poleFace, h1, h2, mirror]

example : Symplectic.trackFace (turnBend ⟨2, 0, ⟨1, []⟩, none, some ⟨0, 0, 1⟩⟩).h
    (turnBend ⟨2, 0, ⟨1, []⟩, none, some ⟨0, 0, 1⟩⟩).entrance ⟨-1, -2, 0, 0, 0, 0⟩ = .ok ⟨-1, -2, 0, 0, 0, 0⟩ :=
  turned_face_partial ⟨2, 0, ⟨1, []⟩, none, some ⟨0, 0, 1⟩⟩ (by simp) ⟨1, 2, 0, 0, 0, 0⟩ ⟨1, 2, 0, 0, 0, 0⟩
    (by simp [Symplectic.trackFace, Symplectic.poleFace])

/-- C241: a rotated face without fringe field focuses where it defocused, since curvature changes sign and the angle
does not. -/
theorem turned_face_violated (c : Symplectic.Bend) (r g : ℝ) (he : c.exit = some ⟨r, 0, g⟩) (hr : cos r ≠ 0)
    (hs : sin r ≠ 0) (hh : c.h ≠ 0) (v : Symplectic.PS) (hx : v.x ≠ 0) :
    ∃ w u, Symplectic.trackFace c.h c.exit v = .ok w ∧
      Symplectic.trackFace (turnBend c).h (turnBend c).entrance (mirror v) = .ok u ∧
      w.px - v.px = c.h * tan r * v.x ∧ u.px - (mirror v).px = -c.h * tan r * (mirror v).x ∧ u ≠ mirror w := by
  have ht : tan r ≠ 0 := by rw [tan_eq_sin_div_cos]; exact div_ne_zero hs hr
  refine ⟨_, _, by simp only [he, Symplectic.trackFace, Symplectic.poleFace]; exact if_neg (by simpa using hr),
    by simp only [turnBend, he, Symplectic.trackFace, Symplectic.poleFace]; exact if_neg (by simpa using hr),
    by ring, by ring, ?_⟩
  intro h
  have := congrArg Symplectic.PS.px h
  simp only [mirror] at this
  have h2 : c.h * tan r * v.x = 0 := by linarith
  simp [hh, ht, hx] at h2

/-- A rectangular magnet of 90 degrees. -/
example : cos (π / 4) ≠ 0 ∧ sin (π / 4) ≠ 0 ∧
    (⟨2, 0, ⟨1, []⟩, none, some ⟨π / 4, 0, 0⟩⟩ : Symplectic.Bend).exit = some ⟨π / 4, 0, 0⟩ := by
  rw [cos_pi_div_four, sin_pi_div_four]; exact ⟨by positivity, by positivity, rfl⟩

/-! ## Copies -/

/-- C242: a copy has the name, geometry and field of the original, and so has a component after assignment, which
keeps its aperture, material, wake potentials, position and index. -/
theorem copy_keeps {G F : Type} (c d : Comp G F) :
    (copyComp c).name = c.name ∧ (copyComp c).geom = c.geom ∧ (copyComp c).field = c.field ∧
    (assignComp d c).name = c.name ∧ (assignComp d c).geom = c.geom ∧ (assignComp d c).field = c.field ∧
    (assignComp d c).aperture = d.aperture ∧ (assignComp d c).wakes = d.wakes ∧
    (assignComp d c).material = d.material ∧ (assignComp d c).position = d.position ∧ (assignComp d c).index = d.index :=
  ⟨rfl, rfl, rfl, rfl, rfl, rfl, rfl, rfl, rfl, rfl, rfl⟩

/-- C242: aperture, wake potentials, position and index of a copy are those of a new component, whatever they were, and
its material has no value: a copy is the component it was made from only if nothing of this has been set. -/
theorem copy_loses_violated {G F : Type} (c : Comp G F) :
    (copyComp c).aperture = none ∧ (copyComp c).wakes = none ∧ getMaterial (copyComp c) = .ub ∧
    (copyComp c = c ↔ c.aperture = none ∧ c.material = none ∧ c.wakes = none ∧ c.position = 0 ∧ c.index = 0) := by
  refine ⟨rfl, rfl, rfl, ⟨fun h => ?_, fun h => ?_⟩⟩
  · rw [← h]; exact ⟨rfl, rfl, rfl, rfl, rfl⟩
  · obtain ⟨h1, h2, h3, h4, h5⟩ := h
    ext1 <;> simp [copyComp, make, *]

/-- A drift with an aperture and a material, and its copy without. -/
example : (copyComp (⟨"D", 1.5, (), some 7, some (some 3), none, 12, 4⟩ : Comp ℝ Unit)).aperture = none ∧
    getMaterial (⟨"D", 1.5, (), some 7, some (some 3), none, 12, 4⟩ : Comp ℝ Unit) = .ok (some 3) := ⟨rfl, rfl⟩

/-! ## Members without a value -/

/-- C243: the material is read back once it has been set, and resistive wake potentials appear if it conducts. -/
theorem material {G F : Type} (c : Comp G F) (a w : Nat) (cond : Nat → Bool) :
    getMaterial (setMaterial c (some a)) = .ok (some a) ∧
    ∃ d, setResistive cond w (setMaterial c (some a)) = .ok d ∧ d.wakes = if cond a then some w else c.wakes := by
  refine ⟨rfl, ?_⟩
  by_cases h : cond a
  · exact ⟨{ setMaterial c (some a) with wakes := some w }, by simp [setResistive, getMaterial, setMaterial, Outcome.bind, h], by simp [h]⟩
  · exact ⟨setMaterial c (some a), by simp [setResistive, getMaterial, setMaterial, Outcome.bind, h], by simp [h, setMaterial]⟩

/-- C243: a collimator with a radiation length knows it, and its length in such units. -/
theorem radiation_length (l x : ℝ) (hx : x ≠ 0) :
    (makeColl (.radLength l x)).radiationLength = .ok x ∧
    ∃ n, (makeColl (.radLength l x)).numRadLengths = .ok n ∧ n * x = l := by
  refine ⟨rfl, l / x, ?_, by field_simp⟩
  simp [Coll.numRadLengths, Coll.radiationLength, makeColl, Outcome.bind, hx]

example : ∃ n, (makeColl (.radLength 1 (1 / 4))).numRadLengths = .ok n ∧ n * (1 / 4) = 1 :=
  (radiation_length 1 (1 / 4) (by norm_num)).2

/-- C243: of a new component the material has no value, so that reading it or asking for resistive wake potentials is
undefined; a collimator made with a material has no radiation length, one made without divides by zero; and a
multipole does not know its primary pole. -/
theorem no_value_violated {G F : Type} (name : String) (g : G) (f : F) (cond : Nat → Bool) (w : Nat) (l x : ℝ) (n : ℤ) :
    getMaterial (make name g f) = .ub ∧ setResistive cond w (make name g f) = .ub ∧
    (makeColl (.material l x)).radiationLength = .ub ∧ (makeColl (.material l x)).numRadLengths = .ub ∧
    (makeColl (.plain l)).numRadLengths = .ub ∧ (makeMult n).primaryPoleNo = .ub := by
  refine ⟨rfl, rfl, rfl, rfl, ?_, rfl⟩
  simp [Coll.numRadLengths, Coll.radiationLength, makeColl, Outcome.bind]

end

end Verif.Components
