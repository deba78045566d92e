import Verif.CollDB.Spec

/-!
# Lemmas on the collimator database
-/

set_option linter.unusedSectionVars false

namespace Verif.CollDB
open Verif Verif.CollDB.Spec

section
variable {K M : Type} [Zero K]

theorem countRows_eq (cols : Nat) (hc : 0 < cols) (ws : List Str) : countRows cols ws = ws.length / cols := by
  induction hn : ws.length using Nat.strong_induction_on generalizing ws with
  | _ n ih =>
    rw [countRows]
    by_cases h : cols ≤ ws.length
    · rw [dif_pos ⟨hc, h⟩, ih (ws.drop cols).length (by rw [List.length_drop]; omega) _ rfl, List.length_drop, hn]
      exact (Nat.div_eq_sub_div hc (hn ▸ h)).symm
    · rw [dif_neg (fun hh => h hh.2), ← hn, Nat.div_eq_of_lt (by omega)]

theorem getNums_ok (num : Str → Option K) (ns rest : List Str) (h : ∀ w ∈ ns, (num w).isSome) :
    getNums num ns.length ⟨ns ++ rest, false⟩ = (ns.map num, ⟨rest, false⟩) := by
  induction ns with
  | nil => rfl
  | cons w ns ih =>
    obtain ⟨v, hv⟩ := Option.isSome_iff_exists.1 (h w List.mem_cons_self)
    rw [List.length_cons, getNums]
    simp only [List.cons_append, getNum, hv]
    rw [ih (fun x hx => h x (List.mem_cons_of_mem _ hx))]
    simp [hv]

theorem getNums_fail (num : Str → Option K) (n : Nat) (ws : List Str) :
    getNums num n ⟨ws, true⟩ = (List.replicate n none, ⟨ws, true⟩) := by
  induction n with
  | zero => rfl
  | succ n ih => rw [getNums]; simp only [getNum]; rw [ih]; rfl

theorem getNums_length (num : Str → Option K) (n : Nat) (i : Stream) : (getNums num n i).1.length = n := by
  induction n generalizing i with
  | zero => rfl
  | succ n ih => rw [getNums]; simp [ih]

/-- A word that is not a number leaves the stream failed. -/
theorem getNums_bad (num : Str → Option K) (ns rest : List Str) (h : ∃ w ∈ ns, num w = none) :
    (getNums num ns.length ⟨ns ++ rest, false⟩).2.fail = true := by
  induction ns with
  | nil => obtain ⟨w, hw, _⟩ := h; simp at hw
  | cons w ns ih =>
    rw [List.length_cons, getNums]
    simp only [List.cons_append, getNum]
    cases hv : num w with
    | none => simp only; rw [getNums_fail]
    | some v =>
      simp only
      obtain ⟨u, hu, hun⟩ := h
      rcases List.mem_cons.1 hu with rfl | hu
      · rw [hv] at hun; simp at hun
      · exact ih ⟨u, hu, hun⟩

theorem load_fail (num : Str → Option K) (m n : Nat) (ws : List Str) (buf : Str) (p : Property M) :
    ∀ r ∈ (loadRows num m n ⟨ws, true⟩ buf p).1, r.name = [] ∧ r.nums = List.replicate m none := by
  induction n generalizing buf p with
  | zero => simp [loadRows]
  | succ n ih =>
    rw [loadRows]
    have hw : getWord ⟨ws, true⟩ = (none, ⟨ws, true⟩) := rfl
    simp only [hw, getNums_fail]
    intro r hr
    rcases List.mem_cons.1 hr with rfl | hr
    · exact ⟨rfl, rfl⟩
    · exact ih _ _ r hr

theorem get_known (p : Property M) (k : Str) (h : known p k) : p.get k = (entry p k, p) := by
  obtain ⟨x, hx, hk⟩ := h
  unfold Property.get entry
  cases hf : p.find? fun x => x.1 == k with
  | none =>
    have := List.find?_eq_none.1 hf x hx
    simp [hk] at this
  | some y => rfl

theorem get_unknown (p : Property M) (k : Str) (h : ¬ known p k) : p.get k = (none, p ++ [(k, none)]) := by
  unfold Property.get
  cases hf : p.find? fun x => x.1 == k with
  | none => rfl
  | some y =>
    exfalso
    have h1 := List.mem_of_find?_eq_some hf
    have h2 := List.find?_some hf
    exact h ⟨y, h1, by simpa using h2⟩

theorem load_ok (num : Str → Option K) (m : Nat) (ls : List Line) (hp : ∀ l ∈ ls, l.Proper num m) (rest : List Str)
    (n : Nat) (buf : Str) (p : Property M) (hm : ∀ l ∈ ls, known p l.mat) :
    ∃ buf', loadRows num m (ls.length + n) ⟨ls.flatMap Line.words ++ rest, false⟩ buf p =
      (ls.map (fun l => ⟨l.name, l.nums.map num, entry p l.mat⟩) ++ (loadRows num m n ⟨rest, false⟩ buf' p).1,
        (loadRows num m n ⟨rest, false⟩ buf' p).2) := by
  induction ls generalizing buf with
  | nil => exact ⟨buf, by simp⟩
  | cons l ls ih =>
    obtain ⟨h1, h2⟩ := hp l List.mem_cons_self
    obtain ⟨buf', hb⟩ := ih (fun x hx => hp x (List.mem_cons_of_mem _ hx)) l.mat (fun x hx => hm x (List.mem_cons_of_mem _ hx))
    refine ⟨buf', ?_⟩
    rw [List.length_cons, show ls.length + 1 + n = (ls.length + n) + 1 by omega, loadRows]
    have hw : (l :: ls).flatMap Line.words ++ rest = l.name :: (l.nums ++ (l.mat :: (ls.flatMap Line.words ++ rest))) := by
      simp [Line.words]
    rw [hw]
    have hg : getWord ⟨l.name :: (l.nums ++ (l.mat :: (ls.flatMap Line.words ++ rest))), false⟩ =
        (some l.name, ⟨l.nums ++ (l.mat :: (ls.flatMap Line.words ++ rest)), false⟩) := rfl
    have hn := getNums_ok num l.nums (l.mat :: (ls.flatMap Line.words ++ rest)) h2
    rw [h1] at hn
    have hg2 : getWord ⟨l.mat :: (ls.flatMap Line.words ++ rest), false⟩ =
        (some l.mat, ⟨ls.flatMap Line.words ++ rest, false⟩) := rfl
    simp only [hg, hn, hg2, get_known p l.mat (hm l List.mem_cons_self)]
    rw [hb]
    simp

end

section
variable {K M : Type} [Field K] [LinearOrder K]

theorem findCol_inj (cols : List (Col K)) (n1 n2 : Str) (c : Nat) (h1 : findCol cols n1 = some c)
    (h2 : findCol cols n2 = some c) : n1 = n2 := by
  unfold findCol at h1 h2
  rw [List.findIdx?_eq_some_iff_getElem] at h1 h2
  obtain ⟨hc, e1, -⟩ := h1
  obtain ⟨hc', e2, -⟩ := h2
  have e1' : cols[c].name = n1 := by simpa using e1
  have e2' : cols[c].name = n2 := by simpa using e2
  rw [← e1', e2']

theorem bind_ok {α β : Type} {o : Outcome Exn α} {f : α → Outcome Exn β} {b : β} (h : o.bind f = .ok b) :
    ∃ a, o = .ok a ∧ f a = .ok b := by
  cases o with
  | ok a => exact ⟨a, rfl, h⟩
  | throw e => simp [Outcome.bind] at h
  | ub => simp [Outcome.bind] at h

theorem treat_cases (e : Env K) (cf : Conf K) (r : SigRow K M) (c : Nat) (len : K) (a b : Tw K) (s s' : State K M)
    (h : treat e cf r c len a b s = .ok s') :
    (a.bx = 0 ∨ a.by_ = 0) ∧ s' = s ∨ (a.bx ≠ 0 ∧ a.by_ ≠ 0) ∧ ∃ q m, aper e cf r len a b s.used = .ok q ∧ r.mat = some m ∧
      s' = { (s.set c q.1 (some m)) with
        impact := if cf.request ≠ 1 ∧ r.name = cf.primary then
          (r.nx * sigma e cf a.bx a.by_ r.tilt + cf.request) / sigma e cf a.bx a.by_ r.tilt else s.impact,
        used := q.2 } := by
  unfold treat at h
  by_cases h0 : a.bx = 0 ∨ a.by_ = 0
  · rw [if_pos h0] at h
    injection h with h
    exact Or.inl ⟨h0, h.symm⟩
  · rw [if_neg h0] at h
    obtain ⟨q, hq, h⟩ := bind_ok h
    right
    refine ⟨⟨fun hx => h0 (Or.inl hx), fun hx => h0 (Or.inr hx)⟩, ?_⟩
    cases hm : r.mat with
    | none => rw [hm] at h; simp at h
    | some m =>
      rw [hm] at h
      simp only at h
      injection h with h
      exact ⟨q, m, hq, rfl, h.symm⟩

theorem treat_other (e : Env K) (cf : Conf K) (r : SigRow K M) (c : Nat) (len : K) (a b : Tw K) (s s' : State K M)
    (h : treat e cf r c len a b s = .ok s') :
    (∀ i, i ≠ c → s'.ap i = s.ap i ∧ s'.mat i = s.mat i) ∧
      (¬ (cf.request ≠ 1 ∧ r.name = cf.primary) → s'.impact = s.impact) := by
  rcases treat_cases e cf r c len a b s s' h with ⟨-, rfl⟩ | ⟨-, q, m, -, -, rfl⟩
  · exact ⟨fun _ _ => ⟨rfl, rfl⟩, fun _ => rfl⟩
  · refine ⟨fun i hi => ⟨?_, ?_⟩, fun hp => ?_⟩
    · simp [State.set, hi]
    · simp [State.set, hi]
    · show (if cf.request ≠ 1 ∧ r.name = cf.primary then _ else s.impact) = _
      rw [if_neg hp]

theorem rowLoop_cons (e : Env K) (cf : Conf K) (r : SigRow K M) (c : Nat) (pos len : K) (a : Tw K) (rest : List (Tw K))
    (s : State K M) : rowLoop e cf r c pos len (a :: rest) s =
      if pos = a.s then
        match rest with
        | [] => .throw .range
        | b :: _ => (treat e cf r c len a b s).bind fun s' => rowLoop e cf r c pos len rest s'
      else rowLoop e cf r c pos len rest s := by
  cases rest <;> rfl

theorem rowLoop_none (e : Env K) (cf : Conf K) (r : SigRow K M) (c : Nat) (pos len : K) (tw : List (Tw K))
    (h : ∀ t ∈ tw, pos ≠ t.s) (s : State K M) : rowLoop e cf r c pos len tw s = .ok s := by
  induction tw with
  | nil => rfl
  | cons a rest ih =>
    rw [rowLoop_cons, if_neg (h a List.mem_cons_self)]
    exact ih (fun t ht => h t (List.mem_cons_of_mem _ ht))

/-- The last row at the place of the collimator decides. -/
theorem rowLoop_last (e : Env K) (cf : Conf K) (r : SigRow K M) (c : Nat) (pos len : K) (pre post : List (Tw K)) (a b : Tw K)
    (hp : pos = a.s) (hn : ∀ t ∈ b :: post, pos ≠ t.s) (s s' : State K M)
    (h : rowLoop e cf r c pos len (pre ++ a :: b :: post) s = .ok s') :
    ∃ s1, treat e cf r c len a b s1 = .ok s' := by
  induction pre generalizing s with
  | nil =>
    rw [List.nil_append, rowLoop_cons, if_pos hp] at h
    obtain ⟨s1, h1, h2⟩ := bind_ok h
    rw [rowLoop_none e cf r c pos len _ hn] at h2
    injection h2 with h2
    subst h2
    exact ⟨s, h1⟩
  | cons x pre ih =>
    rw [List.cons_append, rowLoop_cons] at h
    split at h
    · cases hr : pre ++ a :: b :: post with
      | nil => simp at hr
      | cons y l =>
        rw [hr] at h
        simp only at h
        obtain ⟨s1, h1, h2⟩ := bind_ok h
        rw [← hr] at h2
        exact ih s1 h2
    · exact ih s h

theorem rowLoop_other (e : Env K) (cf : Conf K) (r : SigRow K M) (c : Nat) (pos len : K) (tw : List (Tw K)) (s s' : State K M)
    (h : rowLoop e cf r c pos len tw s = .ok s') :
    (∀ i, i ≠ c → s'.ap i = s.ap i ∧ s'.mat i = s.mat i) ∧
      (¬ (cf.request ≠ 1 ∧ r.name = cf.primary) → s'.impact = s.impact) := by
  induction tw generalizing s with
  | nil =>
    simp only [rowLoop] at h
    injection h with h
    subst h
    exact ⟨fun _ _ => ⟨rfl, rfl⟩, fun _ => rfl⟩
  | cons a rest ih =>
    rw [rowLoop_cons] at h
    split at h
    · cases rest with
      | nil => simp at h
      | cons b l =>
        simp only at h
        obtain ⟨s1, h1, h2⟩ := bind_ok h
        obtain ⟨t1, t2⟩ := treat_other e cf r c len a b s s1 h1
        obtain ⟨u1, u2⟩ := ih s1 h2
        exact ⟨fun i hi => ⟨(u1 i hi).1.trans (t1 i hi).1, (u1 i hi).2.trans (t1 i hi).2⟩,
          fun hp => (u2 hp).trans (t2 hp)⟩
    · exact ih s h

theorem configure_other (e : Env K) (cf : Conf K) (cols : List (Col K)) (tw : List (Tw K)) (db : List (SigRow K M))
    (s s' : State K M) (h : configure e cf cols tw db s = .ok s') :
    (∀ i, (∀ r ∈ db, findCol cols r.name ≠ some i) → s'.ap i = s.ap i ∧ s'.mat i = s.mat i) ∧
      ((∀ r ∈ db, ¬ (cf.request ≠ 1 ∧ r.name = cf.primary)) → s'.impact = s.impact) := by
  induction db generalizing s with
  | nil =>
    simp only [configure] at h
    injection h with h
    subst h
    exact ⟨fun _ _ => ⟨rfl, rfl⟩, fun _ => rfl⟩
  | cons r rs ih =>
    rw [configure] at h
    cases hc : findCol cols r.name with
    | none =>
      rw [hc] at h
      simp only at h
      obtain ⟨u1, u2⟩ := ih s h
      exact ⟨fun i hi => u1 i (fun r hr => hi r (List.mem_cons_of_mem _ hr)),
        fun hp => u2 (fun r hr => hp r (List.mem_cons_of_mem _ hr))⟩
    | some c =>
      rw [hc] at h
      simp only at h
      obtain ⟨s1, h1, h2⟩ := bind_ok h
      obtain ⟨t1, t2⟩ := rowLoop_other e cf r c _ _ tw s s1 h1
      obtain ⟨u1, u2⟩ := ih s1 h2
      refine ⟨fun i hi => ?_, fun hp => ?_⟩
      · have hne : i ≠ c := fun hic => hi r List.mem_cons_self (by rw [hc, hic])
        have := u1 i (fun r hr => hi r (List.mem_cons_of_mem _ hr))
        exact ⟨this.1.trans (t1 i hne).1, this.2.trans (t1 i hne).2⟩
      · exact (u2 (fun r hr => hp r (List.mem_cons_of_mem _ hr))).trans (t2 (hp r List.mem_cons_self))

/-- Each row of a database of different names is configured by its own loop. -/
theorem configure_row (e : Env K) (cf : Conf K) (cols : List (Col K)) (tw : List (Tw K)) (db : List (SigRow K M))
    (hd : (db.map (·.name)).Nodup) (s s' : State K M) (h : configure e cf cols tw db s = .ok s') (r : SigRow K M)
    (hr : r ∈ db) (c : Nat) (hc : findCol cols r.name = some c) :
    ∃ s1 s2, rowLoop e cf r c ((cols[c]?.map (·.pos)).getD 0) ((cols[c]?.map (·.len)).getD 0) tw s1 = .ok s2 ∧
      s'.ap c = s2.ap c ∧ s'.mat c = s2.mat c ∧ (r.name = cf.primary → s'.impact = s2.impact) := by
  induction db generalizing s with
  | nil => simp at hr
  | cons r0 rs ih =>
    rw [List.map_cons, List.nodup_cons] at hd
    rw [configure] at h
    rcases List.mem_cons.1 hr with rfl | hr
    · rw [hc] at h
      simp only at h
      obtain ⟨s1, h1, h2⟩ := bind_ok h
      obtain ⟨u1, u2⟩ := configure_other e cf cols tw rs s1 s' h2
      have hne : ∀ q ∈ rs, findCol cols q.name ≠ some c := by
        intro q hq hcq
        have := findCol_inj cols r.name q.name c hc hcq
        exact hd.1 (List.mem_map.2 ⟨q, hq, this.symm⟩)
      refine ⟨s, s1, h1, (u1 c hne).1, (u1 c hne).2, fun hp => u2 ?_⟩
      rintro q hq ⟨-, hqp⟩
      exact hd.1 (List.mem_map.2 ⟨q, hq, hqp.trans hp.symm⟩)
    · cases hc0 : findCol cols r0.name with
      | none =>
        rw [hc0] at h
        simp only at h
        exact ih hd.2 s h hr
      | some c0 =>
        rw [hc0] at h
        simp only at h
        obtain ⟨s1, h1, h2⟩ := bind_ok h
        exact ih hd.2 s1 h2 hr

end

end Verif.CollDB
