import Mathlib.Tactic.Ring
import Mathlib.Tactic.Linarith
import Mathlib.Tactic.LinearCombination
import Mathlib.Tactic.NormNum
import Mathlib.Algebra.Order.Ring.Rat
import Verif.Monitor.Spec

/-!
# Properties of monitors (C25, C26, C70, C71, C72)
-/

namespace Verif.Monitor
open Verif Verif.Monitor.Spec

/-! ## C25 -/

/-- C25, what `SetBPMOffset` does: the plane of the channel reads the measured value plus the
offset; the other plane reads its bare measured value. -/
theorem setBPMOffset_reads {K : Type} [AddMonoid K] (b : DataBuffer K) (p q : Plane) (v : K) :
    (b.setBPMOffset p v).read q =
      if q = p then (match q with | .X => b.x | .Y => b.y) + v
      else (match q with | .X => b.x | .Y => b.y) := by
  cases p <;> cases q <;> simp [DataBuffer.setBPMOffset, DataBuffer.setOffsets, DataBuffer.read]

/-- C25 (partial): the other plane reads as before provided it has no offset.  Missing: planes with
an offset, see `bpm_offset_violated`. -/
theorem bpm_offset_partial {K : Type} [AddMonoid K] (b : DataBuffer K) (v : K) :
    (b.yOff = 0 → (b.setBPMOffset .X v).read .Y = b.read .Y) ∧
    (b.xOff = 0 → (b.setBPMOffset .Y v).read .X = b.read .X) := by
  constructor <;> intro h <;>
    simp [DataBuffer.setBPMOffset, DataBuffer.setOffsets, DataBuffer.read, h]

/-- C25 does not hold: the other plane reads as before only if it has no offset. -/
theorem bpm_offset_violated {K : Type} [AddGroup K] (b : DataBuffer K) (v : K) (h : b.yOff ≠ 0) :
    (b.setBPMOffset .X v).read .Y ≠ b.read .Y := by
  simp only [DataBuffer.setBPMOffset, DataBuffer.setOffsets, DataBuffer.read, add_zero]
  intro hc
  exact h (left_eq_add.mp hc)

/-- C25: a new measurement keeps the offsets. -/
theorem record_keeps_offset {K : Type} [AddMonoid K] (b : DataBuffer K) (p : Plane) (v x y : K) :
    ((b.setBPMOffset p v).record x y).read p = (match p with | .X => x | .Y => y) + v := by
  cases p <;> rfl

example : (DataBuffer.mk (1 : ℚ) 2 3 4).yOff ≠ 0 ∧
    ((DataBuffer.mk (1 : ℚ) 2 3 4).setBPMOffset .X 5).read .X = 6 := by
  constructor <;> norm_num [DataBuffer.setBPMOffset, DataBuffer.setOffsets, DataBuffer.read]

/-! ## C26 -/

section
variable {D : Type}

/-- The state of the world matches a history. -/
structure Matches (w : World D) (h : List (Op D)) : Prop where
  mem : ∀ m b, b ∈ w.buffers m ↔ attached m b h = true
  nodup : ∀ m, (w.buffers m).Nodup
  dflt : w.dflt = Spec.dflt h
  on : ∀ m, w.active m = Spec.on m h
  off : w.allInactive = Spec.off h

theorem recordAll_ok (m : Nat) (d : D) (l : List (Option Nat)) (log r : List (Nat × Nat × D)) :
    recordAll m d l log = .ok r ↔
      none ∉ l ∧ r = log ++ (l.filterMap id).map (fun b => (b, m, d)) := by
  induction l generalizing log with
  | nil => simp [recordAll, eq_comm]
  | cons b l ih =>
    cases b with
    | none => simp [recordAll]
    | some b =>
      simp only [recordAll, ih]
      simp

theorem send_frame {w w' : World D} {m : Nat} {d : D} (h : w.send m d = .ok w') :
    w'.dflt = w.dflt ∧ w'.buffers = w.buffers ∧ w'.active = w.active ∧
    w'.allInactive = w.allInactive ∧ none ∉ w.buffers m ∧
    w'.log = w.log ++ (w.dflt.toList ++ (w.buffers m).filterMap id).map (fun b => (b, m, d)) := by
  simp only [World.send] at h
  cases hr : recordAll m d (w.buffers m) (w.logDefault m d) with
  | ok r =>
    rw [hr] at h
    simp only [Outcome.bind_ok, Outcome.pure_eq, Outcome.ok.injEq] at h
    subst h
    obtain ⟨h1, h2⟩ := (recordAll_ok m d _ _ _).1 hr
    refine ⟨rfl, rfl, rfl, rfl, h1, ?_⟩
    simp only
    rw [h2, World.logDefault]
    cases w.dflt <;> simp
  | throw e => exact e.elim
  | ub => rw [hr] at h; simp at h

theorem step_matches {w w' : World D} {h : List (Op D)} (hm : Matches w h) (o : Op D)
    (hs : w.step o = .ok w') : Matches w' (o :: h) := by
  obtain ⟨h1, h2, h3, h4, h5⟩ := hm
  cases o with
  | add m b =>
    simp only [World.step, Outcome.ok.injEq] at hs
    subst hs
    refine ⟨?_, ?_, h3, h4, h5⟩
    · intro m' b'
      simp only [World.addBuffer, attached]
      by_cases hmm : m' = m
      · subst hmm
        simp only [if_true, insert, decide_true, Bool.true_and, Bool.or_eq_true,
          decide_eq_true_eq]
        split
        · rename_i hb
          rw [h1]
          constructor
          · exact Or.inr
          · rintro (rfl | h)
            · exact (h1 _ _).1 hb
            · exact h
        · rw [List.mem_append, h1, List.mem_singleton, or_comm]
      · simp [hmm, h1]
    · intro m'
      simp only [World.addBuffer]
      split
      · simp only [insert]
        split
        · exact h2 m'
        · rename_i hb
          rw [List.nodup_append]
          refine ⟨h2 m', by simp, ?_⟩
          intro a ha c hc hac
          rw [List.mem_singleton] at hc
          subst hc
          exact hb (hac ▸ ha)
      · exact h2 m'
  | remove m b =>
    simp only [World.step, Outcome.ok.injEq] at hs
    subst hs
    refine ⟨?_, ?_, h3, h4, h5⟩
    · intro m' b'
      simp only [World.removeBuffer, attached]
      by_cases hmm : m' = m
      · subst hmm
        simp only [if_true, List.mem_filter, h1, decide_true, Bool.true_and, Bool.and_eq_true,
          ne_eq, decide_not]
        exact and_comm
      · simp [hmm, h1]
    · intro m'
      simp only [World.removeBuffer]
      split
      · exact (h2 m').filter _
      · exact h2 m'
  | clear m =>
    simp only [World.step, Outcome.ok.injEq] at hs
    subst hs
    refine ⟨?_, ?_, h3, h4, h5⟩
    · intro m' b'
      simp only [World.clearAll, attached]
      by_cases hmm : m' = m
      · simp [hmm]
      · simp [hmm, h1]
    · intro m'
      simp only [World.clearAll]
      split
      · simp
      · exact h2 m'
  | setDefault b =>
    simp only [World.step, Outcome.ok.injEq] at hs
    subst hs
    exact ⟨h1, h2, rfl, h4, h5⟩
  | setActive m a =>
    simp only [World.step, Outcome.ok.injEq] at hs
    subst hs
    refine ⟨h1, h2, h3, ?_, h5⟩
    intro m'
    simp only [Spec.on]
    split
    · rfl
    · exact h4 m'
  | setAllInactive a =>
    simp only [World.step, Outcome.ok.injEq] at hs
    subst hs
    exact ⟨h1, h2, h3, h4, rfl⟩
  | measure m d =>
    simp only [World.step, World.measure] at hs
    split at hs
    · obtain ⟨a1, a2, a3, a4, _, _⟩ := send_frame hs
      exact ⟨by rw [a2]; exact h1, by rw [a2]; exact h2, by rw [a1]; exact h3,
        by rw [a3]; exact h4, by rw [a4]; exact h5⟩
    · simp only [Outcome.ok.injEq] at hs
      subst hs
      exact ⟨h1, h2, h3, h4, h5⟩

theorem run_matches {w w' : World D} {h : List (Op D)} (hm : Matches w h) (os : List (Op D))
    (hs : w.run os = .ok w') : Matches w' (os.reverse ++ h) := by
  induction os generalizing w h with
  | nil =>
    simp only [World.run, Outcome.ok.injEq] at hs
    subst hs
    simpa using hm
  | cons o os ih =>
    simp only [World.run] at hs
    cases hw : w.step o with
    | ok w1 =>
      rw [hw] at hs
      have := ih (step_matches hm o hw) hs
      simpa using this
    | throw e => exact e.elim
    | ub => rw [hw] at hs; simp at hs

theorem init_matches : Matches (World.init D) [] :=
  ⟨fun m b => by simp [World.init, attached], fun m => by simp [World.init], rfl, fun m => rfl, rfl⟩

theorem count_filterMap [DecidableEq D] (l : List (Option Nat)) (hl : l.Nodup) (b m : Nat) (d : D) :
    ((l.filterMap id).map (fun b => (b, m, d))).count (b, m, d) = if some b ∈ l then 1 else 0 := by
  induction l with
  | nil => simp
  | cons a l ih =>
    rw [List.nodup_cons] at hl
    cases a with
    | none =>
      simp only [List.filterMap_cons, id, ih hl.2]
      simp
    | some a =>
      simp only [List.filterMap_cons, id, List.map_cons, List.count_cons, ih hl.2]
      by_cases hab : a = b
      · subst hab
        simp [hl.1]
      · have : ¬ (some b = some a) := by simp; exact fun h => hab h.symm
        simp [hab, this]

/-- C26 (partial), after any program: an active monitor sends its data once to each buffer added to
it and not removed, and once to the default buffer; an inactive one sends nothing; nobody else
records anything.  The clause "the default buffer is used only by monitors without a buffer" is
false, see `default_buffer_violated`. -/
theorem measure_partial [DecidableEq D] (os : List (Op D)) (w : World D)
    (hs : (World.init D).run os = .ok w) (m : Nat) (d : D)
    (hnull : attached m none os.reverse = false) :
    ∃ w' new, w.measure m d = .ok w' ∧ w'.log = w.log ++ new ∧
      (∀ r ∈ new, r.2 = (m, d)) ∧
      ∀ b, new.count (b, m, d) =
        if Spec.on m os.reverse && !Spec.off os.reverse then
          (if Spec.dflt os.reverse = some b then 1 else 0) +
            (if attached m (some b) os.reverse then 1 else 0)
        else 0 := by
  have hm := run_matches init_matches os hs
  rw [List.append_nil] at hm
  have hnn : none ∉ w.buffers m := by
    intro hc
    rw [hm.mem, hnull] at hc
    cases hc
  simp only [World.measure, World.isActive, hm.on, hm.off]
  by_cases hact : (Spec.on m os.reverse && !Spec.off os.reverse) = true
  · rw [hact]
    by_cases hemp : w.isEmpty m = true
    · rw [hemp]
      refine ⟨w, [], by simp, by simp, by simp, ?_⟩
      intro b
      simp only [World.isEmpty, Bool.and_eq_true, List.isEmpty_iff, Option.isNone_iff_eq_none] at hemp
      have h1 : Spec.dflt os.reverse = none := by rw [← hm.dflt]; exact hemp.1
      have h2 : attached m (some b) os.reverse = false := by
        rw [Bool.eq_false_iff, ne_eq, ← hm.mem, hemp.2]
        simp
      simp [h1, h2]
    · have hemp' : w.isEmpty m = false := by simpa using hemp
      rw [hemp']
      simp only [Bool.not_false, Bool.and_self, if_true]
      have hr : ∀ l0, ∃ r, recordAll m d (w.buffers m) l0 = .ok r :=
        fun l0 => ⟨_, (recordAll_ok m d _ l0 _).2 ⟨hnn, rfl⟩⟩
      obtain ⟨w', hw'⟩ : ∃ w', w.send m d = .ok w' := by
        simp only [World.send]
        obtain ⟨r, hr⟩ := hr (w.logDefault m d)
        rw [hr]
        exact ⟨_, rfl⟩
      obtain ⟨_, _, _, _, _, hlog⟩ := send_frame hw'
      refine ⟨w', _, hw', hlog, ?_, ?_⟩
      · intro r hr
        rw [List.mem_map] at hr
        obtain ⟨b, _, rfl⟩ := hr
        rfl
      · intro b
        rw [List.map_append, List.count_append, count_filterMap _ (hm.nodup m)]
        congr 1
        · rw [hm.dflt]
          cases hd : Spec.dflt os.reverse with
          | none => simp
          | some c =>
            by_cases hcb : c = b <;> simp [hcb]
        · by_cases ha : attached m (some b) os.reverse = true
          · rw [if_pos ha, if_pos ((hm.mem m _).2 ha)]
          · rw [if_neg ha, if_neg (fun hc => ha ((hm.mem m _).1 hc))]
  · have hact' : (Spec.on m os.reverse && !Spec.off os.reverse) = false := by simpa using hact
    rw [hact']
    exact ⟨w, [], by simp, by simp, by simp, by simp⟩

/-- C26: `RemoveBuffer` tells whether the buffer was there. -/
theorem remove_reports (os : List (Op D)) (w : World D) (hs : (World.init D).run os = .ok w)
    (m : Nat) (b : Option Nat) :
    (w.removeBuffer m b).2 = attached m b os.reverse := by
  have hm := run_matches init_matches os hs
  rw [List.append_nil] at hm
  simp only [World.removeBuffer]
  rw [Bool.eq_iff_iff, decide_eq_true_eq]
  exact hm.mem m b

end

/-- C26 does not hold: the default buffer also records monitors that have their own buffer, and a
default buffer that was also added records twice. -/
theorem default_buffer_violated :
    (∃ w, (World.init Nat).run [.setDefault (some 9), .add 1 (some 5), .measure 1 42] = .ok w ∧
      w.log = [(9, 1, 42), (5, 1, 42)]) ∧
    (∃ w, (World.init Nat).run [.setDefault (some 9), .add 1 (some 9), .measure 1 42] = .ok w ∧
      records 9 1 42 w.log = 2) := by
  constructor <;> exact Outcome.exists_ok (by decide +kernel)

/-- C26: a null pointer passed to `AddBuffer` (documented as "use the default buffer") is
dereferenced at the next measurement. -/
theorem null_buffer_violated (d : Nat) :
    (World.init Nat).run [.add 1 none, .measure 1 d] = .ub := rfl

example : ∃ w, (World.init Nat).run [.add 1 (some 5), .add 1 (some 6), .remove 1 (some 5),
    .setDefault (some 9), .add 2 (some 7), .measure 1 42, .setActive 1 false, .measure 1 43] = .ok w ∧
    w.log = [(9, 1, 42), (6, 1, 42)] := Outcome.exists_ok (by decide +kernel)

/-! ## C70 -/

/-- C70: asking twice for the buffer of a monitor gives the same buffer, whatever other monitors
were asked for in between, and the second time nothing changes. -/
theorem server_stable {D : Type} (w w2 : World D) (server : List (Nat × Nat)) (f : Nat → Nat) (m : Nat)
    (ms : List Nat) :
    let r := getDataBuffer w server (f 0) m true
    let server2 := ms.foldl (fun s m' => (getDataBuffer w2 s (f (m' + 1)) m' true).2.1) r.2.1
    ∃ b, r.2.2 = some b ∧ getDataBuffer w2 server2 (f 0) m true = (w2, server2, some b) := by
  have keep : ∀ (ms : List Nat) (s : List (Nat × Nat)) (b : Nat), s.lookup m = some b →
      (ms.foldl (fun s m' => (getDataBuffer w2 s (f (m' + 1)) m' true).2.1) s).lookup m = some b := by
    intro ms
    induction ms with
    | nil => intro s b h; exact h
    | cons m' ms ih =>
      intro s b h
      rw [List.foldl_cons]
      apply ih
      simp only [getDataBuffer]
      cases hl : s.lookup m' with
      | some c => exact h
      | none =>
        have hne : m ≠ m' := by
          rintro rfl
          rw [h] at hl
          cases hl
        simp only [Bool.not_true, Bool.false_eq_true, if_false]
        rw [List.lookup_cons]
        have : (m == m') = false := by simpa using hne
        rw [this]
        exact h
  intro r server2
  have hr : ∃ b, r.2.2 = some b ∧ r.2.1.lookup m = some b := by
    simp only [r, getDataBuffer]
    cases hl : server.lookup m with
    | some c => exact ⟨c, rfl, hl⟩
    | none => exact ⟨f 0, rfl, by simp⟩
  obtain ⟨b, hb1, hb2⟩ := hr
  refine ⟨b, hb1, ?_⟩
  have : server2.lookup m = some b := keep ms _ b hb2
  unfold getDataBuffer
  rw [this]

/-- C70: a buffer created by the server is attached to its monitor, so that it sees the next
measurement exactly once; without the create flag nothing happens. -/
theorem server_attaches (os : List (Op Nat)) (w : World Nat) (hs : (World.init Nat).run os = .ok w)
    (server : List (Nat × Nat)) (fresh m : Nat) (d : Nat) (hnew : server.lookup m = none)
    (hd : Spec.dflt os.reverse ≠ some fresh)
    (hnull : attached m none os.reverse = false)
    (hon : Spec.on m os.reverse = true) (hoff : Spec.off os.reverse = false) :
    getDataBuffer w server fresh m false = (w, server, none) ∧
    ∃ w1 server1, getDataBuffer w server fresh m true = (w1, server1, some fresh) ∧
      ∃ w2 new, w1.measure m d = .ok w2 ∧ w2.log = w.log ++ new ∧ new.count (fresh, m, d) = 1 := by
  refine ⟨by simp [getDataBuffer, hnew], w.addBuffer m (some fresh), (m, fresh) :: server, ?_, ?_⟩
  · simp [getDataBuffer, hnew]
  · have hrun : (World.init Nat).run (os ++ [.add m (some fresh)]) = .ok (w.addBuffer m (some fresh)) := by
      have : ∀ (os : List (Op Nat)) (w0 : World Nat), w0.run os = .ok w →
          w0.run (os ++ [.add m (some fresh)]) = .ok (w.addBuffer m (some fresh)) := by
        intro os
        induction os with
        | nil =>
          intro w0 h
          simp only [World.run, Outcome.ok.injEq] at h
          subst h
          rfl
        | cons o os ih =>
          intro w0 h
          simp only [World.run, List.cons_append] at h ⊢
          cases hw : w0.step o with
          | ok w1 => rw [hw] at h; exact ih w1 h
          | throw e => exact e.elim
          | ub => rw [hw] at h; simp at h
      exact this os _ hs
    obtain ⟨w2, new, a, b, _, c⟩ := measure_partial (os ++ [.add m (some fresh)]) _ hrun m d
      (by simp [attached, hnull])
    refine ⟨w2, new, a, b, ?_⟩
    rw [c fresh]
    simp [Spec.on, Spec.off, Spec.dflt, attached, hon, hoff, hd]

/-- C70 does not hold as stated: after `ClearAllBuffers` the server still returns the old buffer,
which is not attached any more, so that it never sees a measurement again. -/
theorem server_stale_violated :
    let w := World.init Nat
    let r := getDataBuffer w [] 100 1 true
    let w1 := r.1.clearAll 1
    let r2 := getDataBuffer w1 r.2.1 101 1 true
    r2.2.2 = some 100 ∧ some 100 ∉ r2.1.buffers 1 ∧
      ∃ w2, r2.1.measure 1 42 = .ok w2 ∧ w2.log = [] :=
  ⟨rfl, by decide, _, rfl, rfl⟩

/-! ## C71 -/

/-- C71 (partial): for a general angle the mean along the wire coordinate `u = x cos φ - y sin φ` is
the mean of `u`; the width is right exactly when it is not negative and the two planes are fully
correlated (or the mixed term vanishes). -/
theorem profile_partial {K : Type} [Field K] [LinearOrder K] [IsStrictOrderedRing K]
    (mx my sx sy c s cov : K) :
    let p := profile mx my sx sy c s false false
    p.u0 = c * mx - s * my ∧
    (p.urms ^ 2 = c ^ 2 * sx ^ 2 - 2 * c * s * cov + s ^ 2 * sy ^ 2 ↔ c * s * (cov - sx * sy) = 0) := by
  intro p
  refine ⟨rfl, ?_⟩
  simp only [p, profile, Bool.false_eq_true, if_false]
  constructor
  · intro h
    linear_combination (1/2 : K) * h
  · intro h
    linear_combination (2 : K) * h

/-- C71 does not hold: for uncorrelated planes the width along a wire at 45 degrees of a round beam is
reported as zero, and as negative when the beam is wider vertically. -/
theorem profile_violated {K : Type} [Field K] [LinearOrder K] [IsStrictOrderedRing K]
    (mx my sx sy c : K) (hc : 0 < c) :
    (profile mx my sx sx c c false false).urms = 0 ∧
    (sx < sy → (profile mx my sx sy c c false false).urms < 0) := by
  simp only [profile, Bool.false_eq_true, if_false]
  constructor
  · ring
  · intro h
    have := mul_lt_mul_of_pos_left h hc
    linarith

/-- C71: at the angle π/2 the sign of the mean is opposite to that of the general formula at
the same angle (cosine 0, sine 1). -/
theorem profile_right_angle_violated {K : Type} [Field K] (mx my sx sy : K) :
    (profile mx my sx sy 0 1 false true).u0 = my ∧
    (profile mx my sx sy 0 1 false false).u0 = -my := by
  simp [profile]

/-! ## C72 -/

/-- C72 does not hold: rotating a BPM by 180 degrees about the vertical axis does not change its
reading, although the x axis of the device is then reflected. -/
theorem reflected_violated {K : Type} [Field K] [LinearOrder K] [IsStrictOrderedRing K]
    (sx sy cx cy : K) (h : cx * sx ≠ 0) :
    reading true sx sy cx cy = reading false sx sy cx cy ∧
    (reading true sx sy cx cy).1 ≠ -(reading false sx sy cx cy).1 := by
  refine ⟨rfl, ?_⟩
  simp only [reading]
  intro hc
  apply h
  linarith

example : ((1 : ℚ) * 1 ≠ 0) := by norm_num

#print axioms setBPMOffset_reads
#print axioms bpm_offset_partial
#print axioms bpm_offset_violated
#print axioms record_keeps_offset
#print axioms measure_partial
#print axioms remove_reports
#print axioms default_buffer_violated
#print axioms null_buffer_violated
#print axioms server_stable
#print axioms server_attaches
#print axioms server_stale_violated
#print axioms profile_partial
#print axioms profile_violated
#print axioms profile_right_angle_violated
#print axioms reflected_violated

end Verif.Monitor
