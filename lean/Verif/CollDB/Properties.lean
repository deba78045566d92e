import Verif.CollDB.Lemmas
import Verif.Aperture.Properties
import Mathlib.Tactic.Ring
import Mathlib.Tactic.Linarith
import Mathlib.Tactic.NormNum
import Mathlib.Tactic.FieldSimp
import Mathlib.Data.Rat.Defs

/-!
# Property theorems for the collimator database (C164-C167)
-/

set_option linter.unusedSectionVars false

namespace Verif.CollDB
open Verif Verif.CollDB.Spec

/-! ## C164: reading the file -/

section
variable {K M : Type} [Zero K]

theorem flatMap_length (m : Nat) (ls : List Line) (h : ∀ l ∈ ls, l.nums.length = m) :
    (ls.flatMap Line.words).length = ls.length * (m + 2) := by
  induction ls with
  | nil => simp
  | cons l ls ih =>
    rw [List.flatMap_cons, List.length_append, ih (fun x hx => h x (List.mem_cons_of_mem _ hx)), List.length_cons,
      Line.words]
    simp only [List.length_append, List.length_cons, List.length_nil, h l List.mem_cons_self, Nat.add_mul]
    omega

/-- **C164, partial.** A file of lines of a name, `m` numbers and a known material, followed by fewer words than a line, is
read line by line as it stands, and the table of materials is not changed.  Missing: words that are not numbers
(`bad_number_violated`) and unknown materials (`unknown_material_violated`). -/
theorem read_all_partial (num : Str → Option K) (m : Nat) (ls : List Line) (hp : ∀ l ∈ ls, l.Proper num m)
    (rest : List Str) (hr : rest.length < m + 2) (p : Property M) (hm : ∀ l ∈ ls, known p l.mat) :
    readFile num m (ls.flatMap Line.words ++ rest) p =
      (ls.map fun l => ⟨l.name, l.nums.map num, entry p l.mat⟩, p) := by
  have hc : countRows (m + 2) (ls.flatMap Line.words ++ rest) = ls.length + 0 := by
    rw [countRows_eq _ (by omega), List.length_append, flatMap_length m ls (fun l hl => (hp l hl).1), Nat.mul_comm,
      Nat.mul_add_div (by omega), Nat.div_eq_of_lt hr]
  unfold readFile
  rw [hc]
  obtain ⟨buf', h⟩ := load_ok num m ls hp rest 0 ((ls.flatMap Line.words ++ rest).getLast?.getD []) p hm
  rw [h]
  simp [loadRows]

/-- **C164, violated.** A word that is not a number, as in a line of column titles, is not reported: all later
collimators are there in number, but have no name, and their numbers are not initialised. -/
theorem bad_number_violated (num : Str → Option K) (m : Nat) (good : List Line) (bad : Line) (later : List Line)
    (hg : ∀ l ∈ good, l.Proper num m) (hb : bad.nums.length = m ∧ ∃ w ∈ bad.nums, num w = none)
    (hl : ∀ l ∈ later, l.nums.length = m) (p : Property M) (hm : ∀ l ∈ good, known p l.mat) :
    let r := (readFile num m ((good ++ bad :: later).flatMap Line.words) p).1
    r.length = good.length + 1 + later.length ∧
    ∀ x ∈ r.drop (good.length + 1), x.name = [] ∧ x.nums = List.replicate m none := by
  intro r
  have hlen : ∀ l ∈ good ++ bad :: later, l.nums.length = m := by
    intro l hl'
    rcases List.mem_append.1 hl' with h | h
    · exact (hg l h).1
    · rcases List.mem_cons.1 h with rfl | h
      · exact hb.1
      · exact hl l h
  have hc : countRows (m + 2) ((good ++ bad :: later).flatMap Line.words) = good.length + (later.length + 1) := by
    rw [countRows_eq _ (by omega), flatMap_length m _ hlen, Nat.mul_div_cancel _ (by omega)]
    simp
  have hsplit : (good ++ bad :: later).flatMap Line.words =
      good.flatMap Line.words ++ (bad.name :: (bad.nums ++ (bad.mat :: later.flatMap Line.words))) := by
    simp [Line.words]
  obtain ⟨buf', h⟩ := load_ok num m good hg (bad.name :: (bad.nums ++ (bad.mat :: later.flatMap Line.words)))
    (later.length + 1) (((good ++ bad :: later).flatMap Line.words).getLast?.getD []) p hm
  have hr : r = good.map (fun l => ⟨l.name, l.nums.map num, entry p l.mat⟩) ++
      (loadRows num m (later.length + 1) ⟨bad.name :: (bad.nums ++ (bad.mat :: later.flatMap Line.words)), false⟩ buf' p).1 := by
    show (readFile num m ((good ++ bad :: later).flatMap Line.words) p).1 = _
    unfold readFile
    rw [hc, ← hsplit] at *
    rw [h]
  have hfail := getNums_bad num bad.nums (bad.mat :: later.flatMap Line.words) hb.2
  rw [hb.1] at hfail
  obtain ⟨ns, ⟨ws, fl⟩, hns⟩ : ∃ ns i, getNums num m ⟨bad.nums ++ (bad.mat :: later.flatMap Line.words), false⟩ = (ns, i) :=
    ⟨_, _, rfl⟩
  rw [hns] at hfail
  simp only at hfail
  subst hfail
  have hlr : ∀ (n : Nat) (i : Stream) (b : Str) (q : Property M), (loadRows num m n i b q).1.length = n := by
    intro n
    induction n with
    | zero => intro i b q; rfl
    | succ n ih => intro i b q; rw [loadRows]; simp [ih]
  refine ⟨?_, ?_⟩
  · rw [hr, List.length_append, List.length_map, hlr]; omega
  · rw [hr, List.drop_append, List.drop_eq_nil_of_le (by simp), List.nil_append, List.length_map,
      show good.length + 1 - good.length = 1 by omega, loadRows]
    have hg1 : getWord ⟨bad.name :: (bad.nums ++ (bad.mat :: later.flatMap Line.words)), false⟩ =
        (some bad.name, ⟨bad.nums ++ (bad.mat :: later.flatMap Line.words), false⟩) := rfl
    have hg2 : getWord ⟨ws, true⟩ = (none, ⟨ws, true⟩) := rfl
    simp only [hg1, hns, hg2, List.drop_succ_cons, List.drop_zero]
    exact load_fail num m later.length ws _ _

/-- Numbers of one digit. -/
def digit (w : Str) : Option Nat :=
  match w with
  | [c] => if c.isDigit then some (c.toNat - 48) else none
  | _ => none

example : let num := digit
    let good : List Line := []
    let bad : Line := ⟨"name".toList, ["x".toList, "y".toList, "tilt".toList], "material".toList⟩
    let later : List Line := [⟨"TCP".toList, ["6".toList, "9".toList, "0".toList], "C".toList⟩]
    (∀ l ∈ good, l.Proper num 3) ∧ (bad.nums.length = 3 ∧ ∃ w ∈ bad.nums, num w = none) ∧
    (∀ l ∈ later, l.nums.length = 3) := by
  refine ⟨by simp, ⟨rfl, "tilt".toList, by decide, by decide⟩, by decide⟩

example : ∃ (ls : List Line) (p : Property Nat), (∀ l ∈ ls, l.Proper digit 3) ∧ (∀ l ∈ ls, known p l.mat) ∧
    ls.length = 1 := by
  refine ⟨[⟨"TCP".toList, ["6".toList, "9".toList, "0".toList], "C".toList⟩], [("C".toList, some 1)], ?_, ?_, rfl⟩
  · intro l hl
    simp only [List.mem_cons, List.not_mem_nil, or_false] at hl
    subst hl
    exact ⟨rfl, by decide⟩
  · intro l hl
    simp only [List.mem_cons, List.not_mem_nil, or_false] at hl
    subst hl
    exact ⟨("C".toList, some 1), by simp, rfl⟩

/-- **C164, violated.** A material that is not in the table gives the collimator a null pointer, without a message, and
puts a null entry into the table. -/
theorem unknown_material_violated (num : Str → Option K) (m : Nat) (l : Line) (hp : l.Proper num m) (p : Property M)
    (hm : ¬ known p l.mat) :
    readFile num m l.words p = ([⟨l.name, l.nums.map num, none⟩], p ++ [(l.mat, none)]) := by
  have hw : l.words = l.name :: (l.nums ++ [l.mat]) := rfl
  have hlen : l.words.length = m + 2 := by rw [hw]; simp [hp.1]
  have hc : countRows (m + 2) l.words = 0 + 1 := by
    rw [countRows_eq _ (by omega), hlen, Nat.div_self (by omega)]
  unfold readFile
  rw [hc, loadRows, hw]
  have hg : getWord ⟨l.name :: (l.nums ++ [l.mat]), false⟩ = (some l.name, ⟨l.nums ++ [l.mat], false⟩) := rfl
  have hn := getNums_ok num l.nums [l.mat] hp.2
  rw [hp.1] at hn
  have hg2 : getWord ⟨[l.mat], false⟩ = (some l.mat, ⟨[], false⟩) := rfl
  simp only [hg, hn, hg2, get_unknown p l.mat hm, loadRows]
  simp

end

/-! ## C165: jaws at a number of sigma around the orbit -/

section
variable {K M : Type} [Field K] [LinearOrder K] [IsStrictOrderedRing K]

theorem configured (e : Env K) (cf : Conf K) (cols : List (Col K)) (pre post : List (Tw K)) (a b : Tw K)
    (db : List (SigRow K M)) (hd : (db.map (·.name)).Nodup) (s s' : State K M)
    (h : configure e cf cols (pre ++ a :: b :: post) db s = .ok s') (r : SigRow K M) (hr : r ∈ db) (c : Nat) (col : Col K)
    (hcol : cols[c]? = some col) (hc : findCol cols r.name = some c) (hp : col.pos = a.s)
    (hn : ∀ t ∈ b :: post, col.pos ≠ t.s) (hb : a.bx ≠ 0 ∧ a.by_ ≠ 0) :
    ∃ k q, aper e cf r col.len a b k = .ok q ∧ s'.ap c = some q.1 ∧ (∃ m, r.mat = some m ∧ s'.mat c = some m) ∧
      (r.name = cf.primary → cf.request ≠ 1 → s'.impact =
        (r.nx * sigma e cf a.bx a.by_ r.tilt + cf.request) / sigma e cf a.bx a.by_ r.tilt) := by
  obtain ⟨s1, s2, h1, h2, h3, h4⟩ := configure_row e cf cols _ db hd s s' h r hr c hc
  have e1 : (cols[c]?.map (·.pos)).getD 0 = col.pos := by rw [hcol]; rfl
  have e2 : (cols[c]?.map (·.len)).getD 0 = col.len := by rw [hcol]; rfl
  rw [e1, e2] at h1
  obtain ⟨s3, h5⟩ := rowLoop_last e cf r c col.pos col.len pre post a b hp hn s1 s2 h1
  rcases treat_cases e cf r c col.len a b s3 s2 h5 with ⟨h0, -⟩ | ⟨-, q, m, hq, hm, rfl⟩
  · rcases h0 with h0 | h0
    · exact absurd h0 hb.1
    · exact absurd h0 hb.2
  · refine ⟨s3.used, q, hq, ?_, ⟨m, hm, ?_⟩, fun hp' hreq => ?_⟩
    · rw [h2]; simp [State.set]
    · rw [h3]; simp [State.set]
    · rw [h4 hp']
      show (if cf.request ≠ 1 ∧ r.name = cf.primary then _ else s3.impact) = _
      rw [if_pos ⟨hreq, hp'⟩]

theorem withExit_fields (cos sin : K → K) (w h t len x y we he xe ye : K) :
    let j := withExit (Aperture.mkJaws cos sin w h t len x y) we he xe ye
    Aperture.fullEntranceWidth j = w ∧ Aperture.fullEntranceHeight j = h ∧ j.wExit = we ∧ j.hExit = he ∧ j.xEntry = x ∧
    j.yEntry = y ∧ j.xExit = xe ∧ j.yExit = ye ∧ j.len = len ∧ j.c = cos (-t) ∧ j.s = sin (-t) ∧
    j.minDim = min j.rectHalfX j.rectHalfY := by
  refine ⟨?_, ?_, rfl, rfl, rfl, rfl, rfl, rfl, rfl, rfl, rfl, rfl⟩
  · show w / 2 * 2 = w
    field_simp
  · show h / 2 * 2 = h
    field_simp

/-- **C165, partial.** A collimator of the lattice that the database names (different names in the database) is, after
`ConfigureCollimators` in matched mode, open within `sigma_x` beam sizes on both sides of the orbit along its axis of
collimation, all along its length, with the beam sizes and orbits of the last row of the lattice functions at its place
and the one after; its material is the one of the database.  Missing: the direction across, where the code takes the
same beam size (`height_violated`), and jaws that close towards the exit on a centred orbit (C86). -/
theorem matched_envelope_partial (e : Env K) (cf : Conf K) (hmatch : cf.matched = true) (herr : cf.errors = false)
    (cols : List (Col K)) (pre post : List (Tw K)) (a b : Tw K)
    (db : List (SigRow K M)) (hd : (db.map (·.name)).Nodup) (s s' : State K M)
    (h : configure e cf cols (pre ++ a :: b :: post) db s = .ok s') (r : SigRow K M) (hr : r ∈ db) (c : Nat) (col : Col K)
    (hcol : cols[c]? = some col) (hc : findCol cols r.name = some c) (hp : col.pos = a.s)
    (hn : ∀ t ∈ b :: post, col.pos ≠ t.s) (hb : a.bx ≠ 0 ∧ a.by_ ≠ 0) (hl : 0 < col.len)
    (ho : ¬ (a.x = 0 ∧ a.y = 0 ∧ b.x = 0 ∧ b.y = 0)) :
    ∃ j, s'.ap c = some (.jaws j) ∧ s'.mat c = r.mat ∧ ∃ se so,
      se = e.sqrt (sizeSq cf.ex cf.ey a.bx a.by_ (e.cos r.tilt) (e.sin r.tilt)) ∧
      so = e.sqrt (sizeSq cf.ex cf.ey b.bx b.by_ (e.cos r.tilt) (e.sin r.tilt)) ∧
      ∀ x y z, Aperture.checkJaws j x y z = true ↔
        let u := z / col.len
        let dx := x - ((1 - u) * a.x + u * b.x)
        let dy := y - ((1 - u) * a.y + u * b.y)
        let size := (1 - u) * se + u * so
        |dx * e.cos (-r.tilt) - dy * e.sin (-r.tilt)| < r.nx * size ∧
        |dx * e.sin (-r.tilt) + dy * e.cos (-r.tilt)| < r.ny * size := by
  obtain ⟨k, q, hq, h2, ⟨m, hm, h3⟩, -⟩ := configured e cf cols pre post a b db hd s s' h r hr c col hcol hc hp hn hb
  unfold aper at hq
  simp only [hmatch, herr, Bool.false_eq_true, not_false_eq_true, and_self, if_true] at hq
  injection hq with hq
  subst hq
  refine ⟨_, h2, by rw [hm, h3], sigma e cf a.bx a.by_ r.tilt, sigma e cf b.bx b.by_ r.tilt, ?_, ?_, ?_⟩
  · unfold sigma sizeSq; congr 1; ring
  · unfold sigma sizeSq; congr 1; ring
  · intro x y z
    obtain ⟨f1, f2, f3, f4, f5, f6, f7, f8, f9, f10, f11, f12⟩ := withExit_fields e.cos e.sin
      (r.nx * sigma e cf a.bx a.by_ r.tilt * 2) (r.ny * sigma e cf a.bx a.by_ r.tilt * 2) r.tilt col.len a.x a.y
      (r.nx * sigma e cf b.bx b.by_ r.tilt * 2) (r.ny * sigma e cf b.bx b.by_ r.tilt * 2) b.x b.y
    rw [Aperture.jaws_offset _ (by rw [f9]; exact hl) (by rw [f5, f6, f7, f8]; exact ho)]
    rw [f1, f2, f3, f4, f5, f6, f7, f8, f9, f10, f11]
    simp only [Aperture.Spec.Opening]
    have e1 : ((1 - z / col.len) * (r.nx * sigma e cf a.bx a.by_ r.tilt * 2) +
        z / col.len * (r.nx * sigma e cf b.bx b.by_ r.tilt * 2)) / 2 =
        r.nx * ((1 - z / col.len) * sigma e cf a.bx a.by_ r.tilt + z / col.len * sigma e cf b.bx b.by_ r.tilt) := by ring
    have e2 : ((1 - z / col.len) * (r.ny * sigma e cf a.bx a.by_ r.tilt * 2) +
        z / col.len * (r.ny * sigma e cf b.bx b.by_ r.tilt * 2)) / 2 =
        r.ny * ((1 - z / col.len) * sigma e cf a.bx a.by_ r.tilt + z / col.len * sigma e cf b.bx b.by_ r.tilt) := by ring
    rw [e1, e2]

/-- **C165.** Collimators that no row of the database names first are left as they were. -/
theorem unnamed_untouched (e : Env K) (cf : Conf K) (cols : List (Col K)) (tw : List (Tw K)) (db : List (SigRow K M))
    (s s' : State K M) (h : configure e cf cols tw db s = .ok s') (i : Nat) (hi : ∀ r ∈ db, findCol cols r.name ≠ some i) :
    s'.ap i = s.ap i ∧ s'.mat i = s.mat i := (configure_other e cf cols tw db s s' h).1 i hi

/-- **C165, violated.** Of two collimators of the same name only the first is configured, whatever the database. -/
theorem same_name_violated (e : Env K) (cf : Conf K) (cols : List (Col K)) (tw : List (Tw K)) (db : List (SigRow K M))
    (s s' : State K M) (h : configure e cf cols tw db s = .ok s') (i j : Nat) (hij : i < j) (ci cj : Col K)
    (h1 : cols[i]? = some ci) (h2 : cols[j]? = some cj) (hn : ci.name = cj.name) : s'.ap j = s.ap j := by
  refine ((configure_other e cf cols tw db s s' h).1 j ?_).1
  intro r hr hf
  unfold findCol at hf
  rw [List.findIdx?_eq_some_iff_getElem] at hf
  obtain ⟨hj, hf1, hf2⟩ := hf
  have := hf2 i hij
  rw [List.getElem?_eq_getElem hj] at h2
  rw [List.getElem?_eq_getElem (by omega)] at h1
  injection h1 with h1
  injection h2 with h2
  rw [h1] at this
  rw [h2, ← hn] at hf1
  exact this hf1

/-- **C165, violated.** The opening across the axis of collimation is `sigma_y` times the beam size *along* it: for a
horizontal collimator with a round number of sigma in both directions the vertical opening does not depend on the
vertical beam size at all. -/
theorem height_violated (e : Env K) (cf : Conf K) (hmatch : cf.matched = true) (herr : cf.errors = false)
    (r : SigRow K M) (hc : e.cos r.tilt = 1) (hs : e.sin r.tilt = 0) (len : K) (a b : Tw K) (k : Nat) (by' : K) :
    aper e cf r len a b k = aper e cf r len { a with by_ := by' } { b with by_ := by' } k ∧
    aper e cf r len a b k = aper e { cf with ey := by' } r len a b k := by
  unfold aper sigma
  simp only [hmatch, herr, hc, hs]
  simp

/-- **C165, violated.** A collimator at the last row of the lattice functions ends the program with an exception. -/
theorem last_row_violated (e : Env K) (cf : Conf K) (r : SigRow K M) (c : Nat) (len : K) (pre : List (Tw K)) (a : Tw K)
    (hn : ∀ t ∈ pre, a.s ≠ t.s) (s : State K M) : rowLoop e cf r c a.s len (pre ++ [a]) s = .throw .range := by
  induction pre with
  | nil => rw [List.nil_append, rowLoop_cons, if_pos rfl]
  | cons x pre ih =>
    rw [List.cons_append, rowLoop_cons, if_neg (hn x List.mem_cons_self)]
    exact ih (fun t ht => hn t (List.mem_cons_of_mem _ ht))

/-- **C165, violated.** An unknown material is undefined behaviour when the jaws have been set. -/
theorem null_material_violated (e : Env K) (cf : Conf K) (hmatch : cf.errors = false) (r : SigRow K M) (hm : r.mat = none)
    (c : Nat) (len : K) (a b : Tw K) (hb : a.bx ≠ 0 ∧ a.by_ ≠ 0) (s : State K M) : treat e cf r c len a b s = .ub := by
  unfold treat
  rw [if_neg (by rintro (h | h); exacts [hb.1 h, hb.2 h])]
  unfold aper
  simp only [hmatch, hm]
  cases cf.matched <;> simp [Outcome.bind]

/-! ## C166: parallel jaws, impact parameter, alignment errors -/

/-- **C166.** The impact parameter in sigma returned for the primary collimator is its opening plus the depth asked for. -/
theorem impact_sigma (e : Env K) (cf : Conf K) (cols : List (Col K)) (pre post : List (Tw K)) (a b : Tw K)
    (db : List (SigRow K M)) (hd : (db.map (·.name)).Nodup) (s s' : State K M)
    (h : configure e cf cols (pre ++ a :: b :: post) db s = .ok s') (r : SigRow K M) (hr : r ∈ db) (c : Nat) (col : Col K)
    (hcol : cols[c]? = some col) (hc : findCol cols r.name = some c) (hp : col.pos = a.s)
    (hn : ∀ t ∈ b :: post, col.pos ≠ t.s) (hb : a.bx ≠ 0 ∧ a.by_ ≠ 0) (hprim : r.name = cf.primary) (hreq : cf.request ≠ 1)
    (size : K) (hsize : size = e.sqrt (sizeSq cf.ex cf.ey a.bx a.by_ (e.cos r.tilt) (e.sin r.tilt))) (h0 : size ≠ 0) :
    s'.impact * size = r.nx * size + cf.request := by
  obtain ⟨k, q, -, -, -, h4⟩ := configured e cf cols pre post a b db hd s s' h r hr c col hcol hc hp hn hb
  have hs : sigma e cf a.bx a.by_ r.tilt = size := by
    rw [hsize]; unfold sigma sizeSq; congr 1; ring
  rw [h4 hprim hreq, hs, div_mul_cancel₀ _ h0]

/-- **C166, violated.** A depth of exactly one, or a primary collimator that is not in the database, leaves the value of
one sigma (or what was there before). -/
theorem impact_default_violated (e : Env K) (cf : Conf K) (cols : List (Col K)) (tw : List (Tw K)) (db : List (SigRow K M))
    (s s' : State K M) (h : configure e cf cols tw db s = .ok s')
    (hn : cf.request = 1 ∨ ∀ r ∈ db, r.name ≠ cf.primary) : s'.impact = s.impact := by
  refine (configure_other e cf cols tw db s s' h).2 ?_
  rintro r hr ⟨h1, h2⟩
  rcases hn with hn | hn
  · exact h1 hn
  · exact hn r hr h2

/-- **C166, partial.** Jaws that are not matched to the envelope are parallel to the axis and let through, everywhere along
the collimator, what the matched jaws let through at either end — for collimators that are not tilted.  Missing: tilted
collimators, where it is false (`flat_tilt_violated`), as the orbit is not rotated. -/
theorem flat_contains_partial (e : Env K) (cf : Conf K) (hmatch : cf.matched = false) (herr : cf.errors = false)
    (r : SigRow K M) (hname : oneSidedNames.contains r.name = false) (hc : e.cos (-r.tilt) = 1) (hs : e.sin (-r.tilt) = 0)
    (len : K) (a b : Tw K) (k : Nat) :
    ∃ ap, aper e cf r len a b k = .ok (ap, k) ∧ ∀ x y z,
      (|x - a.x| < r.nx * sigma e cf a.bx a.by_ r.tilt ∧ |y - a.y| < r.ny * sigma e cf a.bx a.by_ r.tilt ∨
       |x - b.x| < r.nx * sigma e cf b.bx b.by_ r.tilt ∧ |y - b.y| < r.ny * sigma e cf b.bx b.by_ r.tilt) →
      passes ap x y z = true := by
  refine ⟨flatAper e r len a b (r.nx * sigma e cf a.bx a.by_ r.tilt * 2) (r.ny * sigma e cf a.bx a.by_ r.tilt * 2)
    (r.nx * sigma e cf b.bx b.by_ r.tilt * 2) (r.ny * sigma e cf b.bx b.by_ r.tilt * 2), ?_, ?_⟩
  · unfold aper
    simp [hmatch, herr]
  · intro x y z hin
    generalize sigma e cf a.bx a.by_ r.tilt = se at *
    generalize sigma e cf b.bx b.by_ r.tilt = so at *
    unfold flatAper
    simp only [hname, Bool.false_eq_true, if_false, passes]
    rw [Aperture.unaligned]
    simp only [Aperture.Spec.Opening, hc, hs, sub_zero, one_mul, zero_mul, add_zero, mul_one, mul_zero, zero_add]
    have m1 := le_max_left (a.x + r.nx * se * 2 / 2) (b.x + r.nx * so * 2 / 2)
    have m2 := le_max_right (a.x + r.nx * se * 2 / 2) (b.x + r.nx * so * 2 / 2)
    have m3 := min_le_left (a.x - r.nx * se * 2 / 2) (b.x - r.nx * so * 2 / 2)
    have m4 := min_le_right (a.x - r.nx * se * 2 / 2) (b.x - r.nx * so * 2 / 2)
    have m5 := le_max_left (a.y + r.ny * se * 2 / 2) (b.y + r.ny * so * 2 / 2)
    have m6 := le_max_right (a.y + r.ny * se * 2 / 2) (b.y + r.ny * so * 2 / 2)
    have m7 := min_le_left (a.y - r.ny * se * 2 / 2) (b.y - r.ny * so * 2 / 2)
    have m8 := min_le_right (a.y - r.ny * se * 2 / 2) (b.y - r.ny * so * 2 / 2)
    generalize max (a.x + r.nx * se * 2 / 2) (b.x + r.nx * so * 2 / 2) = X1 at *
    generalize min (a.x - r.nx * se * 2 / 2) (b.x - r.nx * so * 2 / 2) = X2 at *
    generalize max (a.y + r.ny * se * 2 / 2) (b.y + r.ny * so * 2 / 2) = Y1 at *
    generalize min (a.y - r.ny * se * 2 / 2) (b.y - r.ny * so * 2 / 2) = Y2 at *
    rw [abs_lt, abs_lt]
    rcases hin with ⟨h1, h2⟩ | ⟨h1, h2⟩ <;> rw [abs_lt] at h1 h2 <;>
      refine ⟨⟨?_, ?_⟩, ?_, ?_⟩ <;> linarith [h1.1, h1.2, h2.1, h2.2]

/-- The functions for a collimator turned by a right angle. -/
def quarter : Env ℚ :=
  ⟨fun x => x, fun _ => 0, fun t => if t = 1 then 1 else -1, fun _ => 0, 0⟩

/-- **C166, violated.** A vertical collimator (turned by a right angle) on an orbit that moves vertically: a particle on the
orbit at the exit, where the matched jaws let it pass, hits the parallel jaws. -/
theorem flat_tilt_violated : ∃ (cf : Conf ℚ) (r : SigRow ℚ Unit) (a b : Tw ℚ) (ap : Aper ℚ),
    cf.matched = false ∧ cf.errors = false ∧ aper quarter cf r 1 a b 0 = .ok (ap, 0) ∧ passes ap b.x b.y 1 = false ∧
    0 < r.nx * sigma quarter cf b.bx b.by_ r.tilt ∧ 0 < r.ny * sigma quarter cf b.bx b.by_ r.tilt := by
  refine ⟨⟨false, false, 0, 0, [], 1, 1, 1⟩, ⟨"TCP".toList, 1, 10, 1, some ()⟩, ⟨0, 1, 1, 0, 0⟩, ⟨1, 1, 1, 0, 4⟩, _, rfl, rfl,
    rfl, ?_, ?_, ?_⟩
  · decide +kernel
  · decide +kernel
  · decide +kernel

/-- **C166.** With alignment errors the entrance is moved by the errors of the jaws; the vertical opening has none. -/
theorem errors_entrance (e : Env K) (cf : Conf K) (hmatch : cf.matched = false) (herr : cf.errors = true)
    (r : SigRow K M) (len : K) (a b : Tw K) (k : Nat) :
    ∃ j k', aper e cf r len a b k = .ok (.jaws j, k') ∧
      ∃ o1 o2 w : K, (cf.posErr = 0 → o1 = 0 ∧ o2 = 0) ∧ (e.whole = 0 → w = 0) ∧
      (cf.posErr ≠ 0 → cf.angErr ≠ 0 → o1 = e.sqrt cf.posErr * e.g k ∧ o2 = e.sqrt cf.posErr * e.g (k + 2) ∧
        (e.whole ≠ 0 → w = e.sqrt e.whole * e.g (k + 4))) ∧
      j.xEntry + Aperture.fullEntranceWidth j / 2 = a.x + r.nx * sigma e cf a.bx a.by_ r.tilt + o1 + w ∧
      j.xEntry - Aperture.fullEntranceWidth j / 2 = a.x - r.nx * sigma e cf a.bx a.by_ r.tilt + o2 + w ∧
      j.yEntry = a.y ∧ Aperture.fullEntranceHeight j / 2 = r.ny * sigma e cf a.bx a.by_ r.tilt ∧
      j.yExit = b.y ∧ j.hExit / 2 = r.ny * sigma e cf b.bx b.by_ r.tilt := by
  refine ⟨_, _, by unfold aper; simp [hmatch, herr, errorAper]; exact ⟨rfl, rfl⟩, ?_⟩
  refine ⟨(normal3 e cf.posErr k).1,
    (normal3 e cf.posErr (normal3 e cf.angErr (normal3 e cf.posErr k).2).2).1,
    (normal3 e e.whole (normal3 e cf.angErr (normal3 e cf.posErr (normal3 e cf.angErr (normal3 e cf.posErr k).2).2).2).2).1,
    ?_, ?_, ?_, ?_⟩
  · intro h; simp [normal3, h]
  · intro h; simp [normal3, h]
  · intro h h'; refine ⟨by simp [normal3, h], by simp [normal3, h, h'], fun h'' => by simp [normal3, h, h', h'']⟩
  · generalize (normal3 e cf.posErr (normal3 e cf.angErr (normal3 e cf.posErr k).2).2).1 = O2
    generalize (normal3 e e.whole _).1 = W
    generalize (normal3 e cf.posErr k).1 = O1
    simp only [withExit, Aperture.mkJaws, List.foldl, Aperture.setJaws, Aperture.fullEntranceWidth,
      Aperture.fullEntranceHeight]
    refine ⟨by ring, by ring, ?_, by ring, ?_, by ring⟩ <;> trivial

/-- **C166, violated.** Even without any error the opening at the exit is computed with the beam size at the entrance, for
the axis of collimation only. -/
theorem errors_exit_violated (e : Env K) (cf : Conf K) (hmatch : cf.matched = false) (herr : cf.errors = true)
    (h1 : cf.posErr = 0) (h2 : cf.angErr = 0) (h3 : e.whole = 0) (r : SigRow K M) (len : K) (a b : Tw K) (k : Nat) :
    ∃ j, aper e cf r len a b k = .ok (.jaws j, k) ∧ j.wExit / 2 = r.nx * sigma e cf a.bx a.by_ r.tilt ∧
      j.hExit / 2 = r.ny * sigma e cf b.bx b.by_ r.tilt := by
  refine ⟨_, by unfold aper; simp [hmatch, herr, errorAper, normal3, h1, h2, h3]; rfl, ?_, ?_⟩
  · simp only [withExit, Aperture.mkJaws, List.foldl, Aperture.setJaws]; ring
  · simp only [withExit, Aperture.mkJaws, List.foldl, Aperture.setJaws]; ring

/-- **C166, violated.** The jaw position error set as an rms is used as a variance: a jaw is moved by its square root times a
standard normal number. -/
theorem jaw_rms_violated (e : Env K) (v : K) (hv : v ≠ 0) (hs : e.sqrt (v * v) = v) (k : Nat) :
    (normal3 e (v * v) k).1 = v * e.g k := by
  rw [normal3, if_neg (mul_ne_zero hv hv), hs]

example : ∃ (e : Env ℚ) (v : ℚ), v ≠ 0 ∧ e.sqrt (v * v) = v ∧ (normal3 e (v * v) 0).1 = 1000 * (v * v) * e.g 0 := by
  refine ⟨⟨fun _ => 1 / 1000, fun _ => 1, fun _ => 0, fun _ => 1, 0⟩, 1 / 1000, by norm_num, rfl, ?_⟩
  rw [normal3, if_neg (by norm_num)]; norm_num

/-! ## C167: gaps in metres -/

theorem configureGaps_other (cos sin : K → K) (cols : List (Col K)) (db : List (GapRow K M)) (s : State K M) (i : Nat)
    (hi : ∀ r ∈ db, findCol cols r.name ≠ some i) : (configureGaps cos sin cols db s).ap i = s.ap i ∧
      (configureGaps cos sin cols db s).mat i = s.mat i := by
  induction db generalizing s with
  | nil => exact ⟨rfl, rfl⟩
  | cons r rs ih =>
    rw [configureGaps]
    have hrs := fun q hq => hi q (List.mem_cons_of_mem r hq)
    cases hc : findCol cols r.name with
    | none => exact ih s hrs
    | some c =>
      simp only
      have hne : i ≠ c := fun h => hi r List.mem_cons_self (by rw [hc, h])
      obtain ⟨h1, h2⟩ := ih (s.set c _ _) hrs
      rw [h1, h2]
      simp [State.set, hne]

/-- **C167, partial.** Each collimator that the database names is open within half the gaps of its row, in the axes turned by
its tilt and all along its length, and has its material.  Missing: the offsets, jaw angles and length of the row, which
are ignored (`gap_offsets_violated`). -/
theorem gaps_partial (cos sin : K → K) (cols : List (Col K)) (db : List (GapRow K M)) (hd : (db.map (·.name)).Nodup)
    (s : State K M) (r : GapRow K M) (hr : r ∈ db) (c : Nat) (col : Col K) (hcol : cols[c]? = some col)
    (hc : findCol cols r.name = some c) (hl : 0 < col.len) (hcs : cos (-r.tilt) ^ 2 + sin (-r.tilt) ^ 2 = 1) :
    ∃ j, (configureGaps cos sin cols db s).ap c = some (.jaws j) ∧ (configureGaps cos sin cols db s).mat c = r.mat ∧
      ∀ x y z, 0 ≤ z → (Aperture.checkJaws j x y z = true ↔
        |x * cos (-r.tilt) - y * sin (-r.tilt)| < r.xGap / 2 ∧ |x * sin (-r.tilt) + y * cos (-r.tilt)| < r.yGap / 2) := by
  induction db generalizing s with
  | nil => simp at hr
  | cons r0 rs ih =>
    rw [List.map_cons, List.nodup_cons] at hd
    rw [configureGaps]
    rcases List.mem_cons.1 hr with rfl | hr
    · rw [hc]
      simp only [hcol, Option.map_some, Option.getD_some]
      have hne : ∀ q ∈ rs, findCol cols q.name ≠ some c := by
        intro q hq hcq
        exact hd.1 (List.mem_map.2 ⟨q, hq, (findCol_inj cols r.name q.name c hc hcq).symm⟩)
      obtain ⟨h1, h2⟩ := configureGaps_other cos sin cols rs (s.set c
        (.jaws (withExit (Aperture.mkJaws cos sin r.xGap r.yGap r.tilt col.len 0 0) r.xGap r.yGap 0 0)) r.mat) c hne
      rw [h1, h2]
      refine ⟨withExit (Aperture.mkJaws cos sin r.xGap r.yGap r.tilt col.len 0 0) r.xGap r.yGap 0 0, by simp [State.set],
        by simp [State.set], ?_⟩
      intro x y z hz
      obtain ⟨f1, f2, f3, f4, f5, f6, f7, f8, f9, f10, f11, f12⟩ := withExit_fields cos sin r.xGap r.yGap r.tilt col.len 0 0
        r.xGap r.yGap 0 0
      rw [Aperture.jaws_partial _ (by rw [f9]; exact hl) f12 (by rw [f10, f11]; exact hcs) (by rw [f1, f3])
        (by rw [f2, f4]) x y z hz]
      rw [f1, f2, f3, f4, f5, f6, f7, f8, f9, f10, f11]
      simp only [Aperture.Spec.Opening]
      have e1 : ((1 - z / col.len) * r.xGap + z / col.len * r.xGap) / 2 = r.xGap / 2 := by ring
      have e2 : ((1 - z / col.len) * r.yGap + z / col.len * r.yGap) / 2 = r.yGap / 2 := by ring
      rw [e1, e2]
      simp
    · cases hc0 : findCol cols r0.name with
      | none => exact ih hd.2 s hr
      | some c0 => exact ih hd.2 _ hr

/-- **C167, violated.** Offsets, jaw angles and length of the database have no effect at all. -/
theorem gap_offsets_violated (cos sin : K → K) (cols : List (Col K)) (db : List (GapRow K M)) (f : GapRow K M → K) (s : State K M) :
    configureGaps cos sin cols (db.map fun r => { r with xOff := f r, yOff := f r, j1 := f r, j2 := f r, length := f r }) s =
      configureGaps cos sin cols db s := by
  induction db generalizing s with
  | nil => rfl
  | cons r rs ih =>
    rw [List.map_cons, configureGaps, configureGaps]
    simp only
    cases findCol cols r.name with
    | none => exact ih s
    | some c => exact ih _

example : ∃ (cols : List (Col ℚ)) (r : GapRow ℚ Unit) (col : Col ℚ), cols[1]? = some col ∧
    findCol cols r.name = some 1 ∧ 0 < col.len ∧ r.xOff ≠ 0 :=
  ⟨[⟨"A".toList, 0, 1⟩, ⟨"B".toList, 2, 1⟩], ⟨"B".toList, 1, 1, 0, 5, 0, 0, 0, 1, none⟩, ⟨"B".toList, 2, 1⟩, rfl, by decide,
    by norm_num, by norm_num⟩

/-- A case for the theorems on the lattice functions: a round beam that grows, on an orbit that moves. -/
example : ∃ (e : Env ℚ) (cf : Conf ℚ) (cols : List (Col ℚ)) (a b : Tw ℚ) (r : SigRow ℚ Unit) (s' : State ℚ Unit) (col : Col ℚ),
    cf.matched = true ∧ cf.errors = false ∧
    configure e cf cols ([] ++ a :: b :: []) [r] ⟨fun _ => none, fun _ => none, 1, 0⟩ = .ok s' ∧
    cols[0]? = some col ∧ findCol cols r.name = some 0 ∧ col.pos = a.s ∧ (∀ t ∈ [b], col.pos ≠ t.s) ∧
    (a.bx ≠ 0 ∧ a.by_ ≠ 0) ∧ 0 < col.len ∧ e.cos (-r.tilt) ^ 2 + e.sin (-r.tilt) ^ 2 = 1 ∧
    ¬ (a.x = 0 ∧ a.y = 0 ∧ b.x = 0 ∧ b.y = 0) ∧ s'.impact = 8 ∧ r.name = cf.primary ∧ cf.request ≠ 1 := by
  refine ⟨⟨fun x => x, fun _ => 1, fun _ => 0, fun _ => 0, 0⟩, ⟨true, false, 0, 0, "TCP".toList, 2, 1, 1⟩,
    [⟨"TCP".toList, 0, 1⟩], ⟨0, 1, 1, 3, 0⟩, ⟨1, 2, 2, 3, 1⟩, ⟨"TCP".toList, 6, 6, 0, some ()⟩, _, ⟨"TCP".toList, 0, 1⟩,
    rfl, rfl, rfl, rfl, by decide, rfl, by simp, by simp, by norm_num, by norm_num, by norm_num, ?_, rfl, by norm_num⟩
  decide +kernel

end

end Verif.CollDB
