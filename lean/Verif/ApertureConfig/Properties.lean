import Verif.Aperture.Properties
import Verif.ApertureConfig.Spec

/-!
# Properties of the configuration of apertures (C88, C89)
-/

set_option linter.unusedSectionVars false

namespace Verif.ApertureConfig
open Verif Verif.Aperture Verif.Aperture.Spec Verif.ApertureConfig.Spec

section
variable {K : Type} [Field K] [LinearOrder K] [IsStrictOrderedRing K]

theorem lowerBound_spec (p q : List (Entry K)) (pos : K) (hp : ∀ e ∈ p, e.s < pos) (hq : ∀ e ∈ q, pos ≤ e.s) :
    lowerBound (p ++ q) pos = .ok p.length := by
  have hi : (p ++ q).findIdx (fun e => decide (¬ e.s < pos)) = p.length := by
    rw [List.findIdx_append]
    have h1 : p.findIdx (fun e => decide (¬ e.s < pos)) = p.length := by
      rw [List.findIdx_eq_length]
      intro e he
      simpa using hp e he
    rw [h1, if_neg (lt_irrefl _)]
    cases q with
    | nil => simp
    | cons b q =>
      rw [List.findIdx_cons]
      have := hq b (by simp)
      simp [this]
  simp only [lowerBound]
  rw [hi, List.drop_left, if_pos]
  simpa using hq

theorem sorted_split : ∀ (l : List (Entry K)) (pos : K), l.Pairwise (fun a b => a.s ≤ b.s) →
    ∃ p q, l = p ++ q ∧ (∀ e ∈ p, e.s < pos) ∧ ∀ e ∈ q, pos ≤ e.s
  | [], _, _ => ⟨[], [], rfl, by simp, by simp⟩
  | a :: l, pos, h => by
    obtain ⟨h1, h2⟩ := List.pairwise_cons.1 h
    rcases lt_or_ge a.s pos with ha | ha
    · obtain ⟨p, q, e, hp, hq⟩ := sorted_split l pos h2
      refine ⟨a :: p, q, by rw [e]; rfl, ?_, hq⟩
      intro x hx
      rcases List.mem_cons.1 hx with rfl | hx
      · exact ha
      · exact hp x hx
    · refine ⟨[], a :: l, rfl, by simp, ?_⟩
      intro x hx
      rcases List.mem_cons.1 hx with rfl | hx
      · exact ha
      · exact ha.trans (h1 x hx)

/-! ## Elements -/

theorem table_append (a b : List (Source K)) : table (a ++ b) = table a ++ table b := by
  induction a with
  | nil => rfl
  | cons r a ih =>
    simp only [List.cons_append, table]
    split <;> simp [ih]

theorem table_mem {l : List (Source K)} {e : Entry K} (h : e ∈ table l) :
    ∃ r ∈ l, HasAperture r ∧ e.type = r.type ∧ (e.s = r.row.s - r.len ∨ e.s = r.row.s) := by
  induction l with
  | nil => simp [table] at h
  | cons r l ih =>
    simp only [table] at h
    split at h
    · rename_i hr
      rcases List.mem_cons.1 h with rfl | h
      · exact ⟨r, by simp, hr, rfl, Or.inl rfl⟩
      · rcases List.mem_cons.1 h with rfl | h
        · exact ⟨r, by simp, hr, rfl, Or.inr rfl⟩
        · obtain ⟨r', h1, h2⟩ := ih h
          exact ⟨r', by simp [h1], h2⟩
    · obtain ⟨r', h1, h2⟩ := ih h
      exact ⟨r', by simp [h1], h2⟩

theorem factory_place (tan : K → K) (pi : K) (e : Entry K) (s : K) : plainOf tan pi (e.at s) = plainOf tan pi e := rfl

/-- C88: an element that is not a drift gets the aperture of its own row, if no element with an aperture ends
exactly where it begins.  Missing: adjacent elements (`adjacent_violated`). -/
theorem element_partial (tan : K → K) (pi : K) (a b : List (Source K)) (r : Source K)
    (h : Ordered (a ++ r :: b)) (hr : HasAperture r)
    (hadj : ∀ x ∈ a, HasAperture x → x.row.s ≠ r.row.s - r.len) :
    configureElement tan pi (table (a ++ r :: b)) (r.row.s - r.len) =
      .ok (match factory tan pi r.type r.row with | some ap => .plain ap | none => .nothing) := by
  obtain ⟨hlen, hpw⟩ := h
  obtain ⟨_, hpb, hab⟩ := List.pairwise_append.1 hpw
  have ht : table (a ++ r :: b) =
      table a ++ ((⟨r.type, r.row⟩ : Entry K).at (r.row.s - r.len) :: ⟨r.type, r.row⟩ :: table b) := by
    rw [table_append]
    congr 1
    simp only [table]
    rw [HasAperture] at hr
    rw [if_pos hr]
  rw [ht]
  have h1 : ∀ e ∈ table a, e.s < r.row.s - r.len := by
    intro e he
    obtain ⟨x, hx, hxa, _, hs⟩ := table_mem he
    have h0 : x.row.s < r.row.s - r.len := lt_of_le_of_ne (hab x hx r (by simp)) (hadj x hx hxa)
    have h3 := hlen x (by simp [hx])
    rcases hs with hs | hs <;> rw [hs] <;> linarith
  have hrl := hlen r (by simp)
  have h2 : ∀ e ∈ (⟨r.type, r.row⟩ : Entry K).at (r.row.s - r.len) :: ⟨r.type, r.row⟩ :: table b,
      r.row.s - r.len ≤ e.s := by
    intro e he
    rcases List.mem_cons.1 he with rfl | he
    · exact le_refl _
    · rcases List.mem_cons.1 he with rfl | he
      · show r.row.s - r.len ≤ r.row.s
        linarith
      · obtain ⟨x, hx, _, _, hs⟩ := table_mem he
        have h3 := (List.pairwise_cons.1 hpb).1 x hx
        have h4 := hlen x (by simp [hx])
        rcases hs with hs | hs <;> rw [hs] <;> linarith
  simp only [configureElement]
  rw [lowerBound_spec _ _ _ h1 h2, Outcome.bind_ok]
  simp only [List.getElem?_append_right (Nat.le_refl _), Nat.sub_self, List.getElem?_cons_zero]
  rfl

/-- C88 is violated whenever an element of positive length with an aperture ends where the next element
begins: the next element gets the aperture of the one before. -/
theorem adjacent_violated (tan : K → K) (pi : K) (a b : List (Source K)) (p r : Source K)
    (h : Ordered (a ++ p :: r :: b)) (hp : HasAperture p) (hpos : 0 < p.len) (hr : HasAperture r)
    (hadj : p.row.s = r.row.s - r.len) :
    configureElement tan pi (table (a ++ p :: r :: b)) (r.row.s - r.len) =
      .ok (match factory tan pi p.type p.row with | some ap => .plain ap | none => .nothing) := by
  obtain ⟨hlen, hpw⟩ := h
  obtain ⟨_, hpb, hab⟩ := List.pairwise_append.1 hpw
  obtain ⟨hpr, hpb'⟩ := List.pairwise_cons.1 hpb
  have ht : table (a ++ p :: r :: b) =
      (table a ++ [(⟨p.type, p.row⟩ : Entry K).at (p.row.s - p.len)]) ++
        (⟨p.type, p.row⟩ :: (⟨r.type, r.row⟩ : Entry K).at (r.row.s - r.len) :: ⟨r.type, r.row⟩ :: table b) := by
    rw [table_append, List.append_assoc]
    congr 1
    simp only [table]
    rw [HasAperture] at hp hr
    rw [if_pos hp, if_pos hr]
    rfl
  rw [ht]
  have h1 : ∀ e ∈ table a ++ [(⟨p.type, p.row⟩ : Entry K).at (p.row.s - p.len)], e.s < r.row.s - r.len := by
    intro e he
    rcases List.mem_append.1 he with he | he
    · obtain ⟨x, hx, _, _, hs⟩ := table_mem he
      have h3 := hlen x (by simp [hx])
      have h4 := hab x hx p (by simp)
      rcases hs with hs | hs <;> rw [hs] <;> linarith
    · rw [List.mem_singleton] at he
      subst he
      show p.row.s - p.len < _
      linarith
  have hrl := hlen r (by simp)
  have h2 : ∀ e ∈ ⟨p.type, p.row⟩ :: (⟨r.type, r.row⟩ : Entry K).at (r.row.s - r.len) :: ⟨r.type, r.row⟩ :: table b,
      r.row.s - r.len ≤ e.s := by
    intro e he
    rcases List.mem_cons.1 he with rfl | he
    · exact hadj.ge
    · rcases List.mem_cons.1 he with rfl | he
      · exact le_refl _
      · rcases List.mem_cons.1 he with rfl | he
        · show r.row.s - r.len ≤ r.row.s
          linarith
        · obtain ⟨x, hx, _, _, hs⟩ := table_mem he
          have h3 := (List.pairwise_cons.1 hpb').1 x hx
          have h4 := hlen x (by simp [hx])
          rcases hs with hs | hs <;> rw [hs] <;> linarith
  simp only [configureElement]
  rw [lowerBound_spec _ _ _ h1 h2, Outcome.bind_ok]
  simp only [List.getElem?_append_right (Nat.le_refl _), Nat.sub_self, List.getElem?_cons_zero]
  rfl

/-! ## Drifts -/

theorem takeWhile_split (q : List (Entry K)) (b : K) (h : ∃ e ∈ q, b < e.s) :
    ∃ n r, q = q.takeWhile (fun e => e.s ≤ b) ++ n :: r ∧ b < n.s := by
  induction q with
  | nil => obtain ⟨e, he, _⟩ := h; simp at he
  | cons a q ih =>
    by_cases ha : a.s ≤ b
    · obtain ⟨e, he, heb⟩ := h
      rcases List.mem_cons.1 he with rfl | he
      · exact absurd ha (not_le.2 heb)
      · obtain ⟨n, r, h1, h2⟩ := ih ⟨e, he, heb⟩
        refine ⟨n, r, ?_, h2⟩
        rw [List.takeWhile_cons_of_pos (by simpa using ha)]
        rw [List.cons_append, ← h1]
    · refine ⟨a, q, ?_, not_le.1 ha⟩
      rw [List.takeWhile_cons_of_neg (by simpa using ha)]
      rfl

theorem at_self (e : Entry K) (s : K) (h : e.s = s) : e.at s = e := by
  cases e
  simp only [Entry.at, Entry.s] at *
  subst h
  rfl

/-- The rows for a drift after cleaning: inside the table, and with no row almost but not exactly at its
beginning. -/
theorem rows_of_drift (l : List (Entry K)) (pos len : K) (hl : 0 ≤ len) (hs : l.Pairwise (fun a b => a.s ≤ b.s))
    (hb : ∃ e ∈ l, e.s < pos) (he : ∃ e ∈ l, pos + len < e.s)
    (hn : ∀ e ∈ l, |e.s - pos| ≤ 5 / 10000000 → e.s = pos) :
    ∃ g seg, gather l pos len = .ok g ∧ snap (clean g pos) pos = .ok seg ∧ Covers l seg pos len := by
  obtain ⟨p, q, rfl, hp, hq⟩ := sorted_split l pos hs
  have hpne : p ≠ [] := by
    rintro rfl
    obtain ⟨e, hm, hlt⟩ := hb
    exact absurd (hq e (by simpa using hm)) (not_le.2 hlt)
  have hqe : ∃ e ∈ q, pos + len < e.s := by
    obtain ⟨e, hm, hlt⟩ := he
    rcases List.mem_append.1 hm with hm | hm
    · have := hp e hm
      exact absurd hlt (not_lt.2 (by linarith))
    · exact ⟨e, hm, hlt⟩
  obtain ⟨n, r, hqr, hnb⟩ := takeWhile_split q (pos + len) hqe
  generalize hM : q.takeWhile (fun e => decide (e.s ≤ pos + len)) = m at hqr
  obtain ⟨p', b, rfl⟩ : ∃ p' b, p = p' ++ [b] := ⟨p.dropLast, p.getLast hpne, (List.dropLast_append_getLast hpne).symm⟩
  have hqlen : 0 < q.length := by rw [hqr]; simp
  have hg : gather (p' ++ [b] ++ q) pos len = .ok (b :: m ++ [n]) := by
    simp only [gather]
    rw [lowerBound_spec _ _ _ hp hq, Outcome.bind_ok]
    have hne : ¬ (p' ++ [b]).length = (p' ++ [b] ++ q).length := by simp only [List.length_append]; omega
    simp only [hne, if_false]
    obtain ⟨f, hf⟩ : ∃ f, (p' ++ [b] ++ q).head? = some f := by
      cases p' with
      | nil => exact ⟨b, rfl⟩
      | cons c p' => exact ⟨c, rfl⟩
    obtain ⟨t, ht⟩ : ∃ t, (p' ++ [b] ++ q).getLast? = some t := by
      have : (p' ++ [b] ++ q) ≠ [] := by simp
      exact ⟨_, List.getLast?_eq_some_getLast this⟩
    rw [hf, ht]
    have h0 : ¬ (p' ++ [b]).length = 0 := by simp
    simp only [h0, if_false, List.drop_left, hM]
    have e1 : (p' ++ [b] ++ q).getD ((p' ++ [b]).length - 1) t = b := by
      rw [List.getD_eq_getElem?_getD]
      have : (p' ++ [b] ++ q)[(p' ++ [b]).length - 1]? = some b := by
        rw [List.append_assoc]
        rw [List.getElem?_append_right (by simp)]
        simp
      rw [this]; rfl
    have e2 : (p' ++ [b] ++ q).getD ((p' ++ [b]).length + m.length) f = n := by
      rw [List.getD_eq_getElem?_getD]
      have : (p' ++ [b] ++ q)[(p' ++ [b]).length + m.length]? = some n := by
        rw [List.getElem?_append_right (by omega), hqr]
        rw [List.getElem?_append_right (by omega)]
        simp
      rw [this]; rfl
    rw [e1, e2]
  have hbs : b.s < pos := hp b (by simp)
  have hmem : ∀ e ∈ b :: m ++ [n], e ∈ p' ++ [b] ++ q := by
    intro e he
    rw [hqr]
    simp only [List.cons_append, List.mem_cons, List.mem_append, List.not_mem_nil, or_false] at he ⊢
    tauto
  have hnear : ∀ tol : K, tol ≤ 5 / 10000000 → 0 ≤ tol → ∀ e ∈ b :: m ++ [n], near e.s pos tol = true ↔ e.s = pos := by
    intro tol ht h0 e he
    simp only [near, sub_zero, decide_eq_true_eq]
    constructor
    · intro h; exact hn e (hmem e he) (h.trans ht)
    · intro h; rw [h]; simpa using h0
  have t1 : (1 / 10000000 : K) ≤ 5 / 10000000 := by
    apply div_le_div_of_nonneg_right _ (by norm_num)
    norm_num
  have hmap : (b :: m ++ [n]).map (fun e => if near e.s pos (1 / 10000000) then e.at pos else e) = b :: m ++ [n] := by
    have : ∀ e ∈ b :: m ++ [n], (fun e => if near e.s pos (1 / 10000000) then e.at pos else e) e = id e := by
      intro e he
      dsimp only [id]
      split
      · rename_i h
        exact at_self e pos ((hnear _ t1 (by norm_num) e he).1 h)
      · rfl
    rw [List.map_congr_left this, List.map_id]
  have hmpos : ∀ e ∈ m, pos ≤ e.s := fun e he => hq e (by rw [hqr]; simp [he])
  have hnpos : pos < n.s := by linarith
  have hneg : (b :: m ++ [n]).countP (fun e => decide (e.s - pos < 0)) = 1 := by
    rw [List.cons_append, List.countP_cons_of_pos (by simpa using hbs)]
    have : (m ++ [n]).countP (fun e => decide (e.s - pos < 0)) = 0 := by
      rw [List.countP_eq_zero]
      intro e he
      rcases List.mem_append.1 he with he | he
      · simpa using hmpos e he
      · rw [List.mem_singleton] at he
        subst he
        simpa using hnpos.le
    rw [this]
  have hsnap : ∀ (a : Entry K) (t : List (Entry K)), a ∈ b :: m ++ [n] → snap (a :: t) pos = .ok (a :: t) := by
    intro a t ha
    simp only [snap]
    split
    · rename_i h
      rw [at_self a pos ((hnear _ (le_refl _) (by norm_num) a ha).1 h)]
    · rfl
  refine ⟨b :: m ++ [n], ?_⟩
  by_cases hz : (b :: m ++ [n]).any (fun e => near e.s pos (1 / 10000000)) = true
  · have hc : clean (b :: m ++ [n]) pos = m ++ [n] := by
      simp only [clean]
      rw [if_pos hz, hmap, hneg]
      rfl
    -- the row at the position is the first one of `m`
    obtain ⟨e, he, hne⟩ := List.any_eq_true.1 hz
    have hes := (hnear _ t1 (by norm_num) e he).1 hne
    have hem : e ∈ m := by
      rw [List.cons_append] at he
      rcases List.mem_cons.1 he with rfl | he
      · exact absurd hes hbs.ne
      · rcases List.mem_append.1 he with he | he
        · exact he
        · rw [List.mem_singleton] at he
          subst he
          exact absurd hes hnpos.ne'
    cases m with
    | nil => simp at hem
    | cons c m =>
      refine ⟨c :: m ++ [n], hg, ?_, ⟨p' ++ [b], r, ?_⟩, ⟨c, rfl, ?_⟩, ⟨n, List.getLast?_concat, hnb⟩⟩
      · rw [hc, List.cons_append]
        exact hsnap c _ (by simp)
      · rw [hqr]; simp
      · rcases List.mem_cons.1 hem with rfl | hem
        · exact hes.le
        · have h1 := (List.pairwise_append.1 hs).2.1
          rw [hqr, List.cons_append] at h1
          have := (List.pairwise_cons.1 h1).1 e (by simp [hem])
          exact this.trans hes.le
  · have hc : clean (b :: m ++ [n]) pos = b :: m ++ [n] := by
      simp only [clean]
      rw [if_neg hz, hmap, hneg]
      rfl
    refine ⟨b :: m ++ [n], hg, ?_, ⟨p', r, ?_⟩, ⟨b, rfl, hbs.le⟩, ⟨n, List.getLast?_concat, hnb⟩⟩
    · rw [hc, List.cons_append]
      exact hsnap b _ (by simp)
    · rw [hqr]; simp

/-- The kind of interpolation for a type. -/
def kindOf (t : String) : Option Kind :=
  if t = "RECTELLIPSE" then some .rectEllipse
  else if t = "CIRCLE" then some .circle
  else if t = "RECTANGLE" then some .rect
  else if t = "ELLIPSE" then some .ellipse
  else if t = "OCTAGON" then some .octagon
  else none

theorem interpolatedOf_eq (a : Entry K) (l : List (Entry K)) (k : Kind) (h : kindOf a.type = some k) :
    interpolatedOf (a :: l) = .interpolated k ((a :: l).map (·.row)) := by
  simp only [kindOf] at h
  simp only [interpolatedOf]
  split at h
  · rename_i h1; rw [if_pos h1]; injection h with h; rw [h]
  · rename_i h1
    rw [if_neg h1]
    split at h
    · rename_i h2; rw [if_pos h2]; injection h with h; rw [h]
    · rename_i h2
      rw [if_neg h2]
      split at h
      · rename_i h3; rw [if_pos h3]; injection h with h; rw [h]
      · rename_i h3
        rw [if_neg h3]
        split at h
        · rename_i h4; rw [if_pos h4]; injection h with h; rw [h]
        · rename_i h4
          rw [if_neg h4]
          split at h
          · rename_i h5; rw [if_pos h5]; injection h with h; rw [h]
          · exact absurd h (by simp)

/-- C89: a drift inside a table of one type gets rows of the table in sequence around it: a plain aperture if all
of these have the same dimensions, otherwise an interpolated one with places relative to the beginning of the
drift.  Missing: drifts at the ends of the table, rows almost at the beginning of the drift, and mixed types
(`end_violated`, `start_violated`, `rounding_violated`, `mixed_violated`). -/
theorem drift_rows_partial (tan : K → K) (pi : K) (l : List (Entry K)) (pos len : K) (hl : 0 ≤ len)
    (hs : l.Pairwise (fun a b => a.s ≤ b.s)) (hb : ∃ e ∈ l, e.s < pos) (he : ∃ e ∈ l, pos + len < e.s)
    (hn : ∀ e ∈ l, |e.s - pos| ≤ 5 / 10000000 → e.s = pos) (t : String) (k : Kind) (hk : kindOf t = some k)
    (ht : ∀ e ∈ l, e.type = t) :
    ∃ seg, Covers l seg pos len ∧
      ((∃ a ap, seg.head? = some a ∧ factory tan pi t a.row = some ap ∧ configureDrift tan pi l pos len = .ok (.plain ap) ∧
          ∀ e ∈ seg, e.row.ap1 = a.row.ap1 ∧ e.row.ap2 = a.row.ap2 ∧ e.row.ap3 = a.row.ap3 ∧ e.row.ap4 = a.row.ap4) ∨
        configureDrift tan pi l pos len =
          .ok (.interpolated k (seg.map (fun e => { e.row with s := e.row.s - pos })))) := by
  obtain ⟨g, seg, hg, hsn, hc⟩ := rows_of_drift l pos len hl hs hb he hn
  refine ⟨seg, hc, ?_⟩
  obtain ⟨⟨p, q, hpq⟩, ⟨a, ha, has⟩, ⟨b, hbl, hbs⟩⟩ := hc
  cases seg with
  | nil => simp at ha
  | cons c seg =>
    simp only [List.head?_cons, Option.some.injEq] at ha
    subst ha
    have htype : ∀ e ∈ c :: seg, e.type = t := fun e he => ht e (by
      rw [hpq]
      exact List.mem_append_left _ (List.mem_append_right _ he))
    have hct := htype c (by simp)
    simp only [configureDrift, hg, hsn, Outcome.bind_ok]
    split
    · right
      have hall : ((c :: seg).all fun x => decide (c.type = x.type)) = true := by
        rw [List.all_eq_true]
        intro e he
        simp [hct, htype e he]
      rw [if_pos hall, List.map_cons]
      rw [interpolatedOf_eq _ _ k (by rw [← hk, ← hct]; rfl)]
      congr 2
      simp only [List.map_cons, List.map_map]
      rfl
    · rename_i hd
      left
      have hf : ∃ ap, factory tan pi t c.row = some ap := by
        simp only [kindOf] at hk
        simp only [factory]
        split at hk
        · rename_i h1; subst h1; exact ⟨_, rfl⟩
        · split at hk
          · rename_i h1; subst h1; exact ⟨_, rfl⟩
          · split at hk
            · rename_i h1; subst h1; exact ⟨_, rfl⟩
            · split at hk
              · rename_i h1; subst h1; exact ⟨_, rfl⟩
              · split at hk
                · rename_i h1; subst h1; exact ⟨_, rfl⟩
                · exact absurd hk (by simp)
      obtain ⟨ap, hap⟩ := hf
      refine ⟨c, ap, rfl, hap, ?_, ?_⟩
      · rw [plainOf, hct, hap]
      · intro e he
        have : ¬ differs c.row e.row = true := fun h => hd (List.any_eq_true.2 ⟨e, he, h⟩)
        simp only [differs, decide_eq_true_eq, not_or, not_not] at this
        obtain ⟨h1, h2, h3, h4⟩ := this
        exact ⟨h1.symm, h2.symm, h3.symm, h4.symm⟩

/-- What a configured aperture answers; without an aperture nothing is lost. -/
def answer (tan : K → K) (pi : K) : Configured K → K → K → K → Outcome Unit Bool
  | .plain a, x, y, _ => .ok (check a x y)
  | .interpolated k l, x, y, z => icheck tan pi k l x y z
  | .nothing, _, _, _ => .ok true

/-- A row moved along the beamline. -/
def moved (pos : K) (e : Entry K) : Row K := { e.row with s := e.row.s - pos }

theorem between_moved (pos s0 v0 s1 v1 z : K) :
    between (s0 - pos) v0 (s1 - pos) v1 z = between s0 v0 s1 v1 (pos + z) := by
  simp only [between]
  congr 1 <;> ring

/-- Rows that cover a drift contain neighbours around each of its places. -/
theorem covers_around (l seg : List (Entry K)) (pos len z : K) (hs : l.Pairwise (fun a b => a.s < b.s))
    (hc : Covers l seg pos len) (hz : 0 ≤ z) (hzl : z ≤ len) :
    Increasing (seg.map (moved pos)) ∧ ∃ a ∈ seg, ∃ b ∈ seg, Around (seg.map (moved pos)) z (moved pos a) (moved pos b) ∧
      Around (l.map (·.row)) (pos + z) a.row b.row := by
  obtain ⟨⟨p, q, hpq⟩, ⟨a, ha, has⟩, ⟨b, hb, hbs⟩⟩ := hc
  have hseg : seg.Pairwise (fun a b => a.s < b.s) := by
    rw [hpq, List.append_assoc] at hs
    exact (List.pairwise_append.1 (List.pairwise_append.1 hs).2.1).1
  have hinc : Increasing (seg.map (moved pos)) := by
    rw [Increasing, List.pairwise_map]
    refine hseg.imp ?_
    intro x y hxy
    simp only [moved]
    simp only [Entry.s] at hxy
    linarith
  refine ⟨hinc, ?_⟩
  obtain ⟨u, v, hsel, har⟩ := select_spec (seg.map (moved pos)) z hinc
    (by
      intro r hr
      rw [List.head?_map, ha] at hr
      simp only [Option.map_some, Option.some.injEq] at hr
      subst hr
      simp only [moved]
      simp only [Entry.s] at has
      linarith)
    (by
      refine ⟨moved pos b, ?_, ?_⟩
      · cases seg with
        | nil => simp at ha
        | cons c seg =>
          simp only [List.head?_cons, Option.some.injEq] at ha
          subst ha
          rw [List.map_cons, List.tail_cons]
          apply List.mem_map_of_mem
          have hm := List.mem_of_getLast? hb
          rcases List.mem_cons.1 hm with rfl | hm
          · exfalso
            simp only [Entry.s] at has hbs
            linarith
          · exact hm
      · simp only [moved]
        simp only [Entry.s] at hbs
        linarith)
  obtain ⟨⟨p1, q1, e1⟩, h1, h2⟩ := har
  rw [List.map_eq_append_iff] at e1
  obtain ⟨s1, s2, e2, e3, e4⟩ := e1
  rw [List.map_eq_cons_iff] at e4
  obtain ⟨u', s3, e5, e6, e7⟩ := e4
  rw [List.map_eq_cons_iff] at e7
  obtain ⟨v', s4, e8, e9, e10⟩ := e7
  subst e8 e5 e2 e6 e9
  refine ⟨u', by simp, v', by simp, ⟨⟨s1.map (moved pos), s4.map (moved pos), by simp⟩, h1, h2⟩, ?_⟩
  simp only [moved] at h1 h2
  refine ⟨⟨(p ++ s1).map (·.row), (s4 ++ q).map (·.row), by rw [hpq]; simp⟩, ?_, ?_⟩ <;> linarith

theorem around_lt_of (l : List (Entry K)) (hs : l.Pairwise (fun a b => a.s < b.s)) :
    Increasing (l.map (·.row)) := by
  rw [Increasing, List.pairwise_map]
  exact hs

theorem between_const {s0 s1 : K} (h : s0 < s1) (v z : K) : between s0 v s1 v z = v := by
  have : s1 - s0 ≠ 0 := sub_ne_zero.2 h.ne'
  simp only [between]
  field_simp
  ring

/-- C89 for circles: inside a table with strictly increasing places, a drift accepts at each of its places exactly
the points inside the circle interpolated in the table at this place of the beamline. -/
theorem drift_circle_partial (tan : K → K) (pi : K) (l : List (Entry K)) (pos len : K) (hl : 0 ≤ len)
    (hs : l.Pairwise (fun a b => a.s < b.s)) (hb : ∃ e ∈ l, e.s < pos) (he : ∃ e ∈ l, pos + len < e.s)
    (hn : ∀ e ∈ l, |e.s - pos| ≤ 5 / 10000000 → e.s = pos)
    (ht : ∀ e ∈ l, e.type = "CIRCLE" ∧ 0 < e.row.ap1 ∧ (e.row.ap3 = 0 ∨ e.row.ap3 = e.row.ap1))
    (x y z : K) (hz : 0 ≤ z) (hzl : z ≤ len) (c d : Row K) (hcd : Around (l.map (·.row)) (pos + z) c d) :
    ∃ cfg v, configureDrift tan pi l pos len = .ok cfg ∧ answer tan pi cfg x y z = .ok v ∧
      (v = true ↔ x ^ 2 + y ^ 2 < (between c.s c.ap1 d.s d.ap1 (pos + z)) ^ 2) := by
  obtain ⟨seg, hc, h⟩ := drift_rows_partial tan pi l pos len hl (hs.imp (fun h => le_of_lt h)) hb he hn "CIRCLE"
    .circle rfl (fun e he => (ht e he).1)
  obtain ⟨hinc, a, ha, b, hb', har, hal⟩ := covers_around l seg pos len z hs hc hz hzl
  have hmem : ∀ e ∈ seg, e ∈ l := by
    obtain ⟨⟨p, q, hpq⟩, _⟩ := hc
    intro e he
    rw [hpq]
    exact List.mem_append_left _ (List.mem_append_right _ he)
  have huniq := shapeAt_unique tan pi .circle (around_lt_of l hs) hcd hal
  simp only [shapeAt, shape, Shape.circle.injEq] at huniq
  rw [huniq]
  have hab := around_lt (around_lt_of l hs) hal.1
  rcases h with ⟨r, ap, hr, hap, hcfg, hsame⟩ | hcfg
  · refine ⟨_, _, hcfg, rfl, ?_⟩
    have hrm : r ∈ seg := List.mem_of_head? hr
    obtain ⟨_, hr1, hr3⟩ := ht r (hmem r hrm)
    rw [(hsame a ha).1, (hsame b hb').1, between_const hab]
    have : ap = object (.circle r.row.ap1) := by
      rw [(factory_shape tan pi r.row).2.2.2.1] at hap
      injection hap with hap
      rw [← hap]
      split
      · rfl
      · rename_i h3
        rcases hr3 with h | h
        · exact absurd h h3
        · rw [h]
    rw [this, check_iff (.circle r.row.ap1) hr1]
    rfl
  · obtain ⟨v, h1, h2⟩ := interpolated_circle tan pi (seg.map (moved pos)) hinc
      (by
        intro r hr
        obtain ⟨e, he, rfl⟩ := List.mem_map.1 hr
        exact (ht e (hmem e he)).2.1) x y z hz _ _ har
    refine ⟨_, v, hcfg, h1, ?_⟩
    rw [h2]
    simp only [shapeAt, shape, Inside, moved, between_moved]

/-- C89 for octagons: as `drift_circle_partial`. -/
theorem drift_octagon_partial (tan : K → K) (pi : K) (l : List (Entry K)) (pos len : K) (hl : 0 ≤ len)
    (hs : l.Pairwise (fun a b => a.s < b.s)) (hb : ∃ e ∈ l, e.s < pos) (he : ∃ e ∈ l, pos + len < e.s)
    (hn : ∀ e ∈ l, |e.s - pos| ≤ 5 / 10000000 → e.s = pos) (ht : ∀ e ∈ l, e.type = "OCTAGON")
    (x y z : K) (hz : 0 ≤ z) (hzl : z ≤ len) (c d : Row K) (hcd : Around (l.map (·.row)) (pos + z) c d)
    (hp : Proper (shapeAt tan pi .octagon c d (pos + z))) :
    ∃ cfg v, configureDrift tan pi l pos len = .ok cfg ∧ answer tan pi cfg x y z = .ok v ∧
      (v = true ↔ Inside (shapeAt tan pi .octagon c d (pos + z)) x y) := by
  obtain ⟨seg, hc, h⟩ := drift_rows_partial tan pi l pos len hl (hs.imp (fun h => le_of_lt h)) hb he hn "OCTAGON"
    .octagon rfl ht
  obtain ⟨hinc, a, ha, b, hb', har, hal⟩ := covers_around l seg pos len z hs hc hz hzl
  rw [shapeAt_unique tan pi .octagon (around_lt_of l hs) hcd hal] at *
  have hab := around_lt (around_lt_of l hs) hal.1
  rcases h with ⟨r, ap, hr, hap, hcfg, hsame⟩ | hcfg
  · refine ⟨_, _, hcfg, rfl, ?_⟩
    rw [(factory_shape tan pi r.row).2.2.1] at hap
    injection hap with hap
    have e : shapeAt tan pi .octagon a.row b.row (pos + z) = shape tan pi .octagon r.row.ap1 r.row.ap2 r.row.ap3 r.row.ap4 := by
      obtain ⟨a1, a2, a3, a4⟩ := hsame a ha
      obtain ⟨b1, b2, b3, b4⟩ := hsame b hb'
      simp only [shapeAt, a1, a2, a3, a4, b1, b2, b3, b4, between_const hab]
    rw [e] at hp ⊢
    rw [← hap, check_iff _ hp]
  · have e : shapeAt tan pi .octagon (moved pos a) (moved pos b) z =
        shapeAt tan pi .octagon a.row b.row (pos + z) := by
      simp only [shapeAt, moved, between_moved]
    obtain ⟨v, h1, h2⟩ := interpolated_octagon tan pi (seg.map (moved pos)) hinc x y z hz _ _ har (by rw [e]; exact hp)
    exact ⟨_, v, hcfg, h1, by rw [h2, e]⟩

end

/-! ## Examples and violations -/

/-- A circle in the table. -/
def circ (s r : ℚ) : Entry ℚ := ⟨"CIRCLE", ⟨s, r, 0, 0, 0⟩⟩

/-- A drift between circles of radius 2 and 4: at its middle the radius is 3. -/
example : let l := [circ 0 2, circ 1 2, circ 3 4, circ 5 4]
    configureDrift (fun _ => 0) 3 l 1 2 = .ok (.interpolated .circle [⟨0, 2, 0, 0, 0⟩, ⟨2, 4, 0, 0, 0⟩, ⟨4, 4, 0, 0, 0⟩]) ∧
      answer (fun _ => 0) (3 : ℚ) (.interpolated .circle [⟨0, 2, 0, 0, 0⟩, ⟨2, 4, 0, 0, 0⟩, ⟨4, 4, 0, 0, 0⟩]) (29 / 10) 0 1 = .ok true ∧
      answer (fun _ => 0) (3 : ℚ) (.interpolated .circle [⟨0, 2, 0, 0, 0⟩, ⟨2, 4, 0, 0, 0⟩, ⟨4, 4, 0, 0, 0⟩]) 3 0 1 = .ok false := by
  decide +kernel

/-- The hypotheses of the theorems on drifts for this table. -/
example : let l := [circ 0 2, circ 1 2, circ 3 4, circ 5 4]
    l.Pairwise (fun a b => a.s < b.s) ∧ (∃ e ∈ l, e.s < 1) ∧ (∃ e ∈ l, (1 : ℚ) + 2 < e.s) ∧
      (∀ e ∈ l, |e.s - 1| ≤ 5 / 10000000 → e.s = 1) ∧
      (∀ e ∈ l, e.type = "CIRCLE" ∧ 0 < e.row.ap1 ∧ (e.row.ap3 = 0 ∨ e.row.ap3 = e.row.ap1)) ∧
      Around (l.map (·.row)) (1 + 1) (circ 1 2).row (circ 3 4).row := by
  refine ⟨by decide +kernel, ⟨circ 0 2, by decide +kernel, by decide +kernel⟩,
    ⟨circ 5 4, by decide +kernel, by decide +kernel⟩, by decide +kernel, by decide +kernel,
    ⟨[(circ 0 2).row], [(circ 5 4).row], rfl⟩, by decide +kernel, by decide +kernel⟩

/-- Two elements of a beamline with a gap between them: the second gets its own aperture. -/
example : let a : Source ℚ := ⟨"CIRCLE", ⟨1, 2, 0, 0, 0⟩, 1⟩
    let r : Source ℚ := ⟨"RECTANGLE", ⟨3, 3, 1, 0, 0⟩, 1⟩
    HasAperture r ∧ a.row.s ≠ r.row.s - r.len ∧
      configureElement (fun _ => 0) 3 (table [a, r]) 2 = .ok (.plain (mkRect 3 1)) := by
  refine ⟨Or.inl (by norm_num), by norm_num, by decide +kernel⟩

/-- Two adjacent elements: the second gets the aperture of the first. -/
example : let a : Source ℚ := ⟨"CIRCLE", ⟨1, 2, 0, 0, 0⟩, 1⟩
    let r : Source ℚ := ⟨"RECTANGLE", ⟨2, 3, 1, 0, 0⟩, 1⟩
    Ordered [a, r] ∧ a.row.s = r.row.s - r.len ∧
      configureElement (fun _ => 0) 3 (table [a, r]) 1 = .ok (.plain (mkCircle 2)) := by
  refine ⟨⟨by decide +kernel, by decide +kernel⟩, by norm_num, by decide +kernel⟩

/-- C88 is violated behind the last row of the table, where the end iterator is dereferenced. -/
theorem element_end_violated : configureElement (fun _ => 0) 3 [circ 0 2, circ 1 2] (3 / 2) = .ub := by
  decide +kernel

/-- C89 is violated for a drift at the end of the table: it gets the aperture of the first row alone, a circle
of radius 5, while the rows before the drift have radius 1. -/
theorem end_violated : configureDrift (fun _ => 0) 3 [circ 0 5, circ 1 5, circ 2 1, circ 3 1] 3 1 =
    .ok (.plain (mkCircle 5)) := by
  decide +kernel

/-- C89 is violated for a drift before the first row: the aperture is extrapolated from the row at the end of the
table, without going around.  Between radius 1 at the end and radius 3 at the beginning a particle at 3.5 is
accepted. -/
theorem start_violated : ∃ cfg, configureDrift (fun _ => 0) 3 [circ 1 3, circ 2 3, circ 3 1] 0 1 = .ok cfg ∧
    answer (fun _ => 0) 3 cfg (7 / 2) 0 0 = .ok true := by
  refine ⟨.interpolated .circle [⟨3, 1, 0, 0, 0⟩, ⟨1, 3, 0, 0, 0⟩, ⟨2, 3, 0, 0, 0⟩], by decide +kernel, by decide +kernel⟩

/-- C89 is violated if the drift begins a rounding error behind the last row: all rows are discarded and the
access to the first one throws. -/
theorem rounding_violated :
    configureDrift (fun _ => 0) 3 [circ 0 2, circ 1 2, circ 2 2, circ 3 2] (3 + 1 / 100000000) 1 = .throw () := by
  decide +kernel

/-- C89 is violated for mixed types beginning with a circle: the dimensions are converted to rectangle-ellipses,
but the interpolation is that of circles.  A point far outside the flat rectangle-ellipse at the end of the
drift is accepted there. -/
theorem mixed_violated : ∃ cfg,
    configureDrift (fun _ => 0) 3 [circ 0 2, circ 1 2, ⟨"RECTELLIPSE", ⟨3, 2, 1, 2, 1⟩⟩, ⟨"RECTELLIPSE", ⟨4, 2, 1, 2, 1⟩⟩] 1 2 =
      .ok cfg ∧ answer (fun _ => 0) 3 cfg 0 (19 / 10) 2 = .ok true ∧ check (mkRectEllipse (2 : ℚ) 1 2 1) 0 (19 / 10) = false := by
  refine ⟨.interpolated .circle [⟨0, 2, 2, 2, 2⟩, ⟨2, 2, 1, 2, 1⟩, ⟨3, 2, 1, 2, 1⟩], by decide +kernel, by decide +kernel,
    by decide +kernel⟩

/-- C89 is violated for adjacent elements, whose rows are doubled in the table made by the constructor: at the
beginning of the drift a point inside both circles is rejected. -/
theorem doubled_violated : ∃ cfg,
    configureDrift (fun _ => 0) 3 (table [⟨"CIRCLE", ⟨1, 2, 0, 0, 0⟩, 1⟩, ⟨"CIRCLE", ⟨2, 2, 0, 0, 0⟩, 1⟩,
      ⟨"CIRCLE", ⟨3, 3, 0, 0, 0⟩, 1⟩]) 1 1 = .ok cfg ∧ answer (fun _ => 0) 3 cfg (3 / 2) (1 : ℚ) 0 = .ok false := by
  refine ⟨.interpolated .circle [⟨0, 2, 0, 0, 0⟩, ⟨0, 2, 0, 0, 0⟩, ⟨1, 2, 0, 0, 0⟩, ⟨1, 3, 0, 0, 0⟩, ⟨2, 3, 0, 0, 0⟩],
    by decide +kernel, by decide +kernel⟩

end Verif.ApertureConfig
