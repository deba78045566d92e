import Mathlib.Tactic.Ring
import Mathlib.Tactic.Linarith
import Mathlib.Tactic.FieldSimp
import Mathlib.Tactic.NormNum
import Mathlib.Data.List.Perm.Basic
import Verif.LossMap.Spec

/-!
# Lemmas on loss maps
-/

set_option linter.unusedSectionVars false

namespace Verif.LossMap
open Verif Verif.LossMap.Spec

variable {K : Type} [Field K] [LinearOrder K]

/-- What distinguishes the entries of a loss map. -/
def keyOf (m : Mode) (d : LossData K) : String × K :=
  match m with
  | .nearestelement => (d.elementName, 0)
  | .precise => ("", d.position)
  | .tencm => (d.elementName, d.interval)

/-- The loop without indices. -/
def grp (m : Mode) : List (LossData K) → LossData K → List (LossData K) → List (LossData K)
  | F, o, [] => F ++ [o]
  | F, o, it :: l => if keyOf m it = keyOf m o then grp m F { o with lost := o.lost + 1 } l else grp m (F ++ [o]) it l

theorem bump_last (F : List (LossData K)) (o : LossData K) :
    bump (F ++ [o]) F.length = F ++ [{ o with lost := o.lost + 1 }] := by
  induction F with
  | nil => rfl
  | cons a F ih => simpa [bump] using ih

theorem setOne_last (F : List (LossData K)) (o : LossData K) :
    setOne (F ++ [o]) F.length = F ++ [{ o with lost := 1 }] := by
  induction F with
  | nil => rfl
  | cons a F ih => simpa [setOne] using ih

theorem one_self (o : LossData K) (h : o.lost = 1) : { o with lost := 1 } = o := by cases o; simp_all

theorem step_ne (m : Mode) (F : List (LossData K)) (o it : LossData K) (h : it.lost = 1) :
    step m (F ++ [o], F.length) it = .ok (if keyOf m it = keyOf m o
      then (F ++ [{ o with lost := o.lost + 1 }], F.length) else (F ++ [o] ++ [it], F.length + 1)) := by
  have hl : ¬ (F ++ [o]).length = 0 := by simp
  have hg : (F ++ [o])[F.length]? = some o := by simp
  have hs : setOne (F ++ [o] ++ [it]) (F.length + 1) = F ++ [o] ++ [it] := by
    have := setOne_last (F ++ [o]) it
    rw [List.length_append, List.length_singleton] at this
    rw [this, one_self it h]
  cases m
  · simp only [step, if_neg hl, hg, keyOf, Prod.mk.injEq, and_true, bump_last]
    split <;> rfl
  · simp only [step, if_neg hl, hg, keyOf, Prod.mk.injEq, true_and, bump_last]
    split <;> rfl
  · simp only [step, if_neg hl, hg, keyOf, Prod.mk.injEq, bump_last, hs]
    split <;> rfl

theorem loop_grp (m : Mode) : ∀ (l : List (LossData K)) (F : List (LossData K)) (o : LossData K),
    (∀ it ∈ l, it.lost = 1) → (loop m l (F ++ [o], F.length)).bind (fun st => .ok st.1) = .ok (grp m F o l)
  | [], F, o, _ => rfl
  | it :: l, F, o, h => by
    rw [loop, step_ne m F o it (h it (by simp)), grp]
    split
    · exact loop_grp m l F _ fun x hx => h x (by simp [hx])
    · have := loop_grp m l (F ++ [o]) it fun x hx => h x (by simp [hx])
      rw [List.length_append, List.length_singleton] at this
      exact this

/-- The first record. -/
def start (m : Mode) (it : LossData K) : LossData K :=
  match m with | .tencm => it | _ => { it with lost := it.lost + 1 }

theorem finalise_cons (m : Mode) (it : LossData K) (l : List (LossData K)) (h : ∀ x ∈ it :: l, x.lost = 1) :
    finalise m (it :: l) [] = .ok (grp m [] (start m it) l) := by
  have h1 : it.lost = 1 := h it (by simp)
  have hl := fun x hx => h x (List.mem_cons_of_mem _ hx)
  have e : step m ([], 0) it = .ok ([start m it], 0) := by
    cases m
    · simp [step, start, bump]
    · simp [step, start, bump]
    · simp [step, start, setOne, one_self it h1]
  unfold finalise
  rw [loop, e]
  exact loop_grp m l [] (start m it) hl

theorem start_key (m : Mode) (it : LossData K) : keyOf m (start m it) = keyOf m it := by cases m <;> rfl

theorem bump_key (m : Mode) (o : LossData K) (n : Nat) : keyOf m { o with lost := n } = keyOf m o := by cases m <;> rfl

/-! ## Totals -/

theorem grp_total (m : Mode) : ∀ (l : List (LossData K)) (F : List (LossData K)) (o : LossData K),
    (∀ it ∈ l, it.lost = 1) →
    ((grp m F o l).map (·.lost)).sum = (F.map (·.lost)).sum + o.lost + l.length
  | [], F, o, _ => by simp [grp]
  | it :: l, F, o, h => by
    rw [grp]
    have h1 : it.lost = 1 := h it (by simp)
    split
    · rw [grp_total m l F _ fun x hx => h x (by simp [hx])]
      simp; omega
    · rw [grp_total m l (F ++ [o]) it fun x hx => h x (by simp [hx])]
      simp; omega

/-! ## Counts -/

/-- Records of one entry follow each other. -/
def Contig (m : Mode) (l : List (LossData K)) : Prop :=
  ∀ A d B e C, l = A ++ d :: (B ++ e :: C) → keyOf m d = keyOf m e → ∀ x ∈ B, keyOf m x = keyOf m d

def cnt (m : Mode) (l : List (LossData K)) (k : String × K) : Nat := l.countP fun d => decide (keyOf m d = k)

/-- What holds of the entries after the records `P`; `x` is what is counted in excess. -/
structure Inv (m : Mode) (x : String × K → Nat) (P F : List (LossData K)) (o : LossData K) : Prop where
  nodup : ((F ++ [o]).map (keyOf m)).Nodup
  count : ∀ q ∈ F ++ [o], q.lost = cnt m P (keyOf m q) + x (keyOf m q)
  src : ∀ q ∈ F ++ [o], ∃ d ∈ P, keyOf m d = keyOf m q
  all : ∀ d ∈ P, ∃ q ∈ F ++ [o], keyOf m q = keyOf m d
  last : ∃ A d, P = A ++ [d] ∧ keyOf m d = keyOf m o

theorem cnt_snoc (m : Mode) (P : List (LossData K)) (d : LossData K) (k : String × K) :
    cnt m (P ++ [d]) k = cnt m P k + if keyOf m d = k then 1 else 0 := by
  simp [cnt, List.countP_append, List.countP_cons]

theorem inv_grp (m : Mode) (x : String × K → Nat) : ∀ (l P F : List (LossData K)) (o : LossData K),
    (∀ it ∈ l, it.lost = 1) → (∀ it ∈ l, keyOf m it ∉ P.map (keyOf m) → x (keyOf m it) = 0) →
    Contig m (P ++ l) → Inv m x P F o → ∃ F' o', grp m F o l = F' ++ [o'] ∧ Inv m x (P ++ l) F' o'
  | [], P, F, o, _, _, _, hi => ⟨F, o, rfl, by simpa using hi⟩
  | it :: l, P, F, o, h1, hx, hc, hi => by
    rw [grp]
    have hP : P ++ it :: l = (P ++ [it]) ++ l := by simp
    have h1' : it.lost = 1 := h1 it (by simp)
    have hl := fun y hy => h1 y (List.mem_cons_of_mem _ hy)
    have hx' : ∀ y ∈ l, keyOf m y ∉ (P ++ [it]).map (keyOf m) → x (keyOf m y) = 0 := fun y hy hn =>
      hx y (List.mem_cons_of_mem _ hy) fun hm => hn (by simp only [List.map_append, List.mem_append]; exact .inl hm)
    rw [hP] at hc ⊢
    split
    · rename_i hk
      refine inv_grp m x l (P ++ [it]) F _ hl hx' hc ⟨?_, ?_, ?_, ?_, ?_⟩
      · have := hi.nodup
        simpa only [List.map_append, List.map_cons, List.map_nil, bump_key] using this
      · intro q hq
        have hnd := hi.nodup
        rw [List.map_append, List.nodup_append] at hnd
        rw [cnt_snoc]
        rcases List.mem_append.1 hq with hq | hq
        · have hne : keyOf m it ≠ keyOf m q := by
            rw [hk]
            exact fun e => hnd.2.2 _ (List.mem_map_of_mem hq) _ (by simp) e.symm
          rw [if_neg hne, hi.count q (by simp [hq])]
          rfl
        · rw [List.mem_singleton] at hq
          subst hq
          rw [bump_key, if_pos hk]
          have := hi.count o (by simp)
          simp only
          omega
      · intro q hq
        rcases List.mem_append.1 hq with hq | hq
        · obtain ⟨d, hd, e⟩ := hi.src q (by simp [hq])
          exact ⟨d, by simp [hd], e⟩
        · rw [List.mem_singleton] at hq
          subst hq
          exact ⟨it, by simp, hk.trans (bump_key m o _).symm⟩
      · intro d hd
        have key : ∃ q ∈ F ++ [o], keyOf m q = keyOf m d := by
          rcases List.mem_append.1 hd with hd | hd
          · exact hi.all d hd
          · rw [List.mem_singleton] at hd
            subst hd
            exact ⟨o, by simp, hk.symm⟩
        obtain ⟨q, hq, e⟩ := key
        rcases List.mem_append.1 hq with hq | hq
        · exact ⟨q, by simp [hq], e⟩
        · rw [List.mem_singleton] at hq
          subst hq
          exact ⟨{ q with lost := q.lost + 1 }, by simp, (bump_key m q _).trans e⟩
      · exact ⟨P, it, rfl, hk.trans (bump_key m o _).symm⟩
    · rename_i hk
      have hnew : keyOf m it ∉ P.map (keyOf m) := by
        intro hm
        obtain ⟨d, hd, e⟩ := List.mem_map.1 hm
        obtain ⟨A, z, hz, hzk⟩ := hi.last
        rw [hz] at hd
        rcases List.mem_append.1 hd with hd | hd
        · obtain ⟨A1, A2, rfl⟩ := List.append_of_mem hd
          have := hc A1 d (A2 ++ [z]) it l (by rw [hz]; simp) e z (by simp)
          exact hk (by rw [← e, ← this, hzk])
        · rw [List.mem_singleton] at hd
          subst hd
          exact hk (by rw [← e, hzk])
      have h0 : cnt m P (keyOf m it) = 0 := by
        unfold cnt
        rw [List.countP_eq_zero]
        intro d hd hk'
        exact hnew (List.mem_map.2 ⟨d, hd, by simpa using hk'⟩)
      refine inv_grp m x l (P ++ [it]) (F ++ [o]) it hl hx' hc ⟨?_, ?_, ?_, ?_, ?_⟩
      · rw [List.map_append, List.nodup_append]
        refine ⟨hi.nodup, by simp, fun a ha b hb e => ?_⟩
        rw [List.map_cons, List.map_nil, List.mem_singleton] at hb
        obtain ⟨q, hq, e2⟩ := List.mem_map.1 ha
        obtain ⟨d, hd, e3⟩ := hi.src q hq
        exact hnew (List.mem_map.2 ⟨d, hd, by rw [e3, e2, e, hb]⟩)
      · intro q hq
        rw [cnt_snoc]
        rcases List.mem_append.1 hq with hq | hq
        · obtain ⟨d, hd, e3⟩ := hi.src q hq
          have hne : keyOf m it ≠ keyOf m q := fun e => hnew (List.mem_map.2 ⟨d, hd, by rw [e3, e]⟩)
          rw [if_neg hne]
          exact hi.count q hq
        · rw [List.mem_singleton] at hq
          subst hq
          rw [if_pos rfl, h0, hx q (by simp) hnew, h1']
      · intro q hq
        rcases List.mem_append.1 hq with hq | hq
        · obtain ⟨d, hd, e⟩ := hi.src q hq
          exact ⟨d, by simp [hd], e⟩
        · rw [List.mem_singleton] at hq
          subst hq
          exact ⟨q, by simp, rfl⟩
      · intro d hd
        rcases List.mem_append.1 hd with hd | hd
        · obtain ⟨q, hq, e⟩ := hi.all d hd
          exact ⟨q, List.mem_append_left _ hq, e⟩
        · rw [List.mem_singleton] at hd
          subst hd
          exact ⟨d, by simp, rfl⟩
      · exact ⟨P, it, rfl, rfl⟩

/-- What `Finalise` counts in excess: one at the entry of the first record. -/
def excess (m : Mode) (h : LossData K) (k : String × K) : Nat :=
  if m ≠ .tencm ∧ k = keyOf m h then 1 else 0

theorem finalise_inv (m : Mode) (h : LossData K) (l : List (LossData K)) (h1 : ∀ x ∈ h :: l, x.lost = 1)
    (hc : Contig m (h :: l)) : ∃ F o, finalise m (h :: l) [] = .ok (F ++ [o]) ∧ Inv m (excess m h) (h :: l) F o := by
  rw [finalise_cons m h l h1]
  have hh : h.lost = 1 := h1 h (by simp)
  obtain ⟨F, o, e, hi⟩ := inv_grp m (excess m h) l [h] [] (start m h)
    (fun x hx => h1 x (List.mem_cons_of_mem _ hx)) (fun x _ hn => by
      unfold excess
      rw [if_neg]
      rintro ⟨-, e⟩
      exact hn (by simp [e])) hc
    ⟨by simp, by
      intro q hq
      rw [List.nil_append, List.mem_singleton] at hq
      subst hq
      rw [start_key]
      cases m <;> simp [start, cnt, excess, hh], by
      intro q hq
      rw [List.nil_append, List.mem_singleton] at hq
      subst hq
      exact ⟨h, by simp, (start_key m h).symm⟩, by
      intro d hd
      rw [List.mem_singleton] at hd
      subst hd
      exact ⟨_, by simp, start_key m d⟩, ⟨[], h, rfl, (start_key m h).symm⟩⟩
  exact ⟨F, o, by rw [e], hi⟩

/-! ## Records of losses -/

section
variable [IsStrictOrderedRing K]

theorem findInterval_spec (pos : K) : ∀ (fuel n : Nat) (i : K), findInterval pos fuel ((n : K) / 10) = some i →
    ∃ k : Nat, i = (k : K) / 10 ∧ i ≤ pos ∧ pos < i + 1 / 10
  | 0, n, i, h => by simp [findInterval] at h
  | fuel + 1, n, i, h => by
    rw [findInterval] at h
    split at h
    · rename_i hc
      rw [Option.some.injEq] at h
      subst h
      exact ⟨n, rfl, hc.1, hc.2⟩
    · refine findInterval_spec pos fuel (n + 1) i ?_
      rw [← h]
      congr 1
      push_cast
      ring

theorem findInterval_ends (pos : K) : ∀ (fuel n : Nat), (n : K) / 10 ≤ pos → pos < ((n + fuel : Nat) : K) / 10 →
    ∃ i, findInterval pos fuel ((n : K) / 10) = some i
  | 0, n, h1, h2 => by
    rw [Nat.add_zero] at h2
    exact absurd h2 (not_lt.2 h1)
  | fuel + 1, n, h1, h2 => by
    rw [findInterval]
    split
    · exact ⟨_, rfl⟩
    · rename_i hc
      have h3 : (n : K) / 10 + 1 / 10 ≤ pos := by
        by_contra hlt
        exact hc ⟨h1, not_le.1 hlt⟩
      have e : (n : K) / 10 + 1 / 10 = ((n + 1 : Nat) : K) / 10 := by push_cast; ring
      rw [e] at h3 ⊢
      refine findInterval_ends pos fuel (n + 1) h3 ?_
      rw [show n + 1 + fuel = n + (fuel + 1) by omega]
      exact h2

theorem findInterval_negative (pos : K) (h : pos < 0) : ∀ (fuel n : Nat), findInterval pos fuel ((n : K) / 10) = none
  | 0, _ => rfl
  | fuel + 1, n => by
    have hn : (0 : K) ≤ (n : K) / 10 := by positivity
    rw [findInterval, if_neg (fun hc => absurd (lt_of_le_of_lt (hn.trans hc.1) h) (lt_irrefl _))]
    have e : (n : K) / 10 + 1 / 10 = ((n + 1 : Nat) : K) / 10 := by push_cast; ring
    rw [e]
    exact findInterval_negative pos h fuel (n + 1)

/-- Intervals of ten centimetres do not overlap. -/
theorem interval_unique {k n : Nat} {p : K} (h1 : (k : K) / 10 ≤ p) (h2 : p < (k : K) / 10 + 1 / 10)
    (h3 : (n : K) / 10 ≤ p) (h4 : p < (n : K) / 10 + 1 / 10) : k = n := by
  have a : (k : K) < n + 1 := by
    have : (k : K) / 10 < (n : K) / 10 + 1 / 10 := lt_of_le_of_lt h1 h4
    linarith
  have b : (n : K) < k + 1 := by
    have : (n : K) / 10 < (k : K) / 10 + 1 / 10 := lt_of_le_of_lt h3 h2
    linarith
  have a' : k < n + 1 := by exact_mod_cast a
  have b' : n < k + 1 := by exact_mod_cast b
  omega

/-- The record of a loss. -/
def IsRecord (l : Comp K × K × Int) (d : LossData K) : Prop :=
  d.elementName = l.1.qname ∧ d.s = l.1.s ∧ d.position = l.2.1 + l.1.s ∧ d.lost = 1 ∧
    ∃ k : Nat, d.interval = (k : K) / 10 ∧ d.interval ≤ l.2.1 ∧ l.2.1 < d.interval + 1 / 10

theorem record_spec {fuel : Nat} {warm : List (K × K)} {l : Comp K × K × Int} {d : LossData K}
    (h : record fuel warm l.1 l.2.1 l.2.2 = some d) : IsRecord l d := by
  unfold record at h
  cases e : findInterval l.2.1 fuel 0 with
  | none => rw [e] at h; simp at h
  | some i =>
    rw [e, Option.map_some, Option.some.injEq] at h
    subst h
    exact ⟨rfl, rfl, rfl, rfl, findInterval_spec l.2.1 fuel 0 i (by simpa using e)⟩

theorem disposeAll_forall {fuel : Nat} {warm : List (K × K)} : ∀ {ls : List (Comp K × K × Int)} {dead : List (LossData K)},
    disposeAll fuel warm ls = some dead → List.Forall₂ IsRecord ls dead
  | [], dead, h => by
    simp only [disposeAll, Option.some.injEq] at h
    subst h
    exact .nil
  | l :: ls, dead, h => by
    rw [disposeAll] at h
    cases e : record fuel warm l.1 l.2.1 l.2.2 with
    | none => rw [e] at h; simp at h
    | some d =>
      rw [e, Option.bind_some] at h
      cases e2 : disposeAll fuel warm ls with
      | none => rw [e2] at h; simp at h
      | some ds =>
        rw [e2, Option.map_some, Option.some.injEq] at h
        subst h
        exact .cons (record_spec e) (disposeAll_forall e2)

theorem forall2_mem {α β : Type} {R : α → β → Prop} : ∀ {l : List α} {m : List β}, List.Forall₂ R l m →
    ∀ b ∈ m, ∃ a ∈ l, R a b
  | _, _, .nil, b, h => by simp at h
  | _, _, .cons h t, b, hb => by
    rcases List.mem_cons.1 hb with rfl | hb
    · exact ⟨_, by simp, h⟩
    · obtain ⟨a, ha, hr⟩ := forall2_mem t b hb
      exact ⟨a, by simp [ha], hr⟩

theorem forall2_mem' {α β : Type} {R : α → β → Prop} : ∀ {l : List α} {m : List β}, List.Forall₂ R l m →
    ∀ a ∈ l, ∃ b ∈ m, R a b
  | _, _, .nil, b, h => by simp at h
  | _, _, .cons h t, b, hb => by
    rcases List.mem_cons.1 hb with rfl | hb
    · exact ⟨_, by simp, h⟩
    · obtain ⟨a, ha, hr⟩ := forall2_mem' t b hb
      exact ⟨a, by simp [ha], hr⟩

theorem forall2_count {α β : Type} {R : α → β → Prop} {p : α → Bool} {q : β → Bool} : ∀ {l : List α} {m : List β},
    List.Forall₂ R l m → (∀ a b, R a b → p a = q b) → (l.filter p).length = m.countP q
  | _, _, .nil, _ => rfl
  | _, _, .cons (a := a) (b := b) h t, hpq => by
    rw [List.filter_cons, List.countP_cons, ← hpq a b h, ← forall2_count t hpq]
    split <;> simp_all

/-- Order of the records. -/
theorem compare_le {a b : LossData K} (h : compare b a = false) : a.s + a.position ≤ b.s + b.position := by
  unfold compare at h
  rw [decide_eq_false_iff_not, not_lt] at h
  linarith

theorem contig_of_sorted (m : Mode) (hm : m ≠ .precise) {fuel : Nat} {warm : List (K × K)}
    {ls : List (Comp K × K × Int)} {dead sorted : List (LossData K)} (hd : disposeAll fuel warm ls = some dead)
    (hs : SortedFrom dead sorted) (hl : Line (ls.map (·.1))) (hp : ∀ l ∈ ls, 0 ≤ l.2.1 ∧ l.2.1 ≤ l.1.len) :
    Contig m sorted := by
  have hf := disposeAll_forall hd
  have hrec : ∀ d ∈ sorted, ∃ l ∈ ls, IsRecord l d := fun d hd => forall2_mem hf d (hs.1.mem_iff.1 hd)
  intro A d B e C he hk x hx
  have hpw := hs.2
  rw [he, List.pairwise_append] at hpw
  have hdx := hpw.2.1
  rw [List.pairwise_cons] at hdx
  have kdx := compare_le (hdx.1 x (by simp [hx]))
  have hxe := hdx.2
  rw [List.pairwise_append] at hxe
  have kxe := compare_le (hxe.2.2 x hx e (by simp))
  obtain ⟨ld, mld, nd, sd, pd, -, kd, ikd, ad, bd⟩ := hrec d (by rw [he]; simp)
  obtain ⟨le, mle, ne, se, pe, -, ke, ike, ae, be⟩ := hrec e (by rw [he]; simp)
  obtain ⟨lx, mlx, nx, sx, px, -, kx, ikx, ax, bx⟩ := hrec x (by rw [he]; simp [hx])
  have hname : ld.1.qname = le.1.qname := by
    rw [← nd, ← ne]
    cases m
    · exact congrArg Prod.fst hk
    · exact absurd rfl hm
    · exact congrArg Prod.fst hk
  have mc : ∀ l ∈ ls, l.1 ∈ ls.map (·.1) := fun l h => List.mem_map_of_mem h
  have hce : ld.1 = le.1 := (hl.2 _ (mc ld mld) _ (mc le mle)).1 hname
  rw [sd, pd, sx, px] at kdx
  rw [se, pe, sx, px, ← hce] at kxe
  have qd := hp ld mld
  have qe := hp le mle
  have qx := hp lx mlx
  rw [← hce] at qe
  have hcx : lx.1 = ld.1 := by
    by_contra hne
    have hn : lx.1.qname ≠ ld.1.qname := fun h => hne ((hl.2 _ (mc lx mlx) _ (mc ld mld)).1 h)
    have l1 := hl.1 _ (mc lx mlx)
    have l2 := hl.1 _ (mc ld mld)
    rcases (hl.2 _ (mc lx mlx) _ (mc ld mld)).2 hn with h | h
    · linarith
    · linarith
  rw [hcx] at kdx kxe
  have p1 : ld.2.1 ≤ lx.2.1 := by linarith
  have p2 : lx.2.1 ≤ le.2.1 := by linarith
  cases m
  · simp only [keyOf, nx, nd, hcx]
  · exact absurd rfl hm
  · simp only [keyOf, nx, nd, hcx, Prod.mk.injEq, true_and]
    have hi : d.interval = e.interval := congrArg Prod.snd hk
    rw [hi]
    rw [ike] at ae be
    rw [hi, ike] at ad bd
    rw [ikx] at ax bx
    rw [ikx, ike]
    rw [interval_unique ax bx (ad.trans p1) (lt_of_le_of_lt p2 be)]

end

/-- Records of the same position follow each other. -/
theorem contig_precise [IsStrictOrderedRing K] {fuel : Nat} {warm : List (K × K)}
    {ls : List (Comp K × K × Int)} {dead sorted : List (LossData K)} (hd : disposeAll fuel warm ls = some dead)
    (hs : SortedFrom dead sorted) (hl : Line (ls.map (·.1))) (hp : ∀ l ∈ ls, 0 ≤ l.2.1 ∧ l.2.1 ≤ l.1.len) :
    Contig .precise sorted := by
  have hf := disposeAll_forall hd
  have hrec : ∀ d ∈ sorted, ∃ l ∈ ls, IsRecord l d := fun d hd => forall2_mem hf d (hs.1.mem_iff.1 hd)
  intro A d B e C he hk x hx
  have hpw := hs.2
  rw [he, List.pairwise_append] at hpw
  have hdx := hpw.2.1
  rw [List.pairwise_cons] at hdx
  have kdx := compare_le (hdx.1 x (by simp [hx]))
  have hxe := hdx.2
  rw [List.pairwise_append] at hxe
  have kxe := compare_le (hxe.2.2 x hx e (by simp))
  obtain ⟨ld, mld, -, sd, pd, -⟩ := hrec d (by rw [he]; simp)
  obtain ⟨le, mle, -, se, pe, -⟩ := hrec e (by rw [he]; simp)
  obtain ⟨lx, mlx, -, sx, px, -⟩ := hrec x (by rw [he]; simp [hx])
  have hpos : d.position = e.position := congrArg Prod.snd hk
  have mc : ∀ l ∈ ls, l.1 ∈ ls.map (·.1) := fun l h => List.mem_map_of_mem h
  have qd := hp ld mld
  have qe := hp le mle
  have qx := hp lx mlx
  have l1 := hl.1 _ (mc lx mlx)
  have l2 := hl.1 _ (mc ld mld)
  have l3 := hl.1 _ (mc le mle)
  have far : ∀ a ∈ ls, ∀ b ∈ ls, a.1 ≠ b.1 → a.1.s + a.1.len ≤ b.1.s ∨ b.1.s + b.1.len ≤ a.1.s := fun a ha b hb hab =>
    (hl.2 _ (mc a ha) _ (mc b hb)).2 fun h => hab ((hl.2 _ (mc a ha) _ (mc b hb)).1 h)
  have goal : x.position = d.position := by
    rw [sd, sx] at kdx
    rw [se, sx] at kxe
    by_cases h1 : lx.1 = ld.1
    · by_cases h2 : ld.1 = le.1
      · rw [h1] at kdx kxe; rw [h2] at kdx kxe; linarith
      · rw [h1] at px kdx kxe qx
        rcases far ld mld le mle h2 with h | h <;> linarith
    · by_cases h3 : lx.1 = le.1
      · by_cases h2 : ld.1 = le.1
        · exact absurd (h3.trans h2.symm) h1
        · rw [h3] at px kdx kxe qx
          rcases far ld mld le mle h2 with h | h <;> linarith
      · rcases far lx mlx ld mld h1 with h | h <;> rcases far lx mlx le mle h3 with h' | h' <;> linarith
  simp only [keyOf, goal]

end Verif.LossMap
