import Verif.MAD.Spec
import Mathlib.Tactic.Linarith
import Mathlib.Tactic.FieldSimp
import Mathlib.Tactic.NormNum

/-!
# Lemmas on the MAD interface
-/

namespace Verif.MAD
open Verif Verif.Multipole Verif.Multipole.Spec Verif.MAD.Spec Real

theorem obind_ok {ε α β : Type} (a : α) (f : α → Outcome ε β) : (Outcome.ok a).bind f = f a := rfl

theorem bind_ok_iff {ε α β : Type} {x : Outcome ε α} {f : α → Outcome ε β} {b : β} :
    x.bind f = .ok b ↔ ∃ a, x = .ok a ∧ f a = .ok b := by
  cases x <;> simp [Outcome.bind]

theorem getS_ok {r : Row} {k s : String} (h : r.str k = some s) : getS r k = .ok s := by simp [getS, h]

theorem getD_ok {r : Row} {k : String} {x : ℝ} (h : r.num k = some x) : getD r k = .ok x := by simp [getD, h]

theorem getS_inv {r : Row} {k s : String} (h : getS r k = .ok s) : r.str k = some s := by
  unfold getS at h; split at h <;> simp_all

theorem getD_inv {r : Row} {k : String} {x : ℝ} (h : getD r k = .ok x) : r.num k = some x := by
  unfold getD at h; split at h <;> simp_all

theorem rigidity_eq (p : ℝ) : brhoOf p = rigidity p := by
  unfold brhoOf rigidity eV c; ring

/-- Keywords that are not changed before the components are made. -/
def Kept (m : Interface) (kw : String) : Prop :=
  kw ∉ m.driftTypes ∧ kw ≠ "LCAV" ∧ kw ≠ "RCOLLIMATOR" ∧ kw ≠ "ECOLLIMATOR" ∧ kw ≠ "RBEND" ∧ kw ≠ "RFCAVITY"

theorem overrides_kept {m : Interface} {r : Row} {kw : String} (h : r.str "KEYWORD" = some kw) (hk : Kept m kw) :
    overrides m r = .ok r := by
  obtain ⟨h1, h2, h3, h4, h5, h6⟩ := hk
  simp [overrides, getS_ok h, obind_ok, h1, h2, h3, h4, h5, h6]

theorem setKeyword_str (r : Row) (k : String) : (setKeyword r k).str "KEYWORD" = some k := by simp [setKeyword]

theorem setKeyword_num (r : Row) (k : String) : (setKeyword r k).num = r.num := rfl

theorem setKeyword_other (r : Row) (k : String) {x : String} (h : x ≠ "KEYWORD") : (setKeyword r k).str x = r.str x := by
  simp [setKeyword, h]

theorem call_comp (x : Comp) (z : ℝ) (acts : List Act) (d : Nat) :
    call (.comp x z) (.live acts d) = .ok (.live (acts ++ [.comp x z]) d) := rfl

/-- A row of an element. -/
theorem row_elem {m : Interface} {r r' : Row} {kw : String} {l : ℝ} (h : r.str "KEYWORD" = some kw) (hl : r.num "L" = some l)
    (hz : ¬ (l = 0 ∧ kw ∈ m.zeroLengths)) (ho : overrides m r = .ok r') (h1 : kw ≠ "LINE") (h2 : kw ≠ "SROT") :
    row m r = (instances r' (brhoOf m.momentum)).bind fun comps => (radiate m kw l r').bind fun m => appendAll m comps := by
  simp only [row, getS_ok h, getD_ok hl, obind_ok, if_neg hz, ho, if_neg h1, if_neg h2]

theorem radiate_off {m : Interface} {kw : String} (h : m.incSR = false ∨ (kw ≠ "SBEND" ∧ kw ≠ "RBEND")) (l : ℝ) (r : Row) :
    radiate m kw l r = .ok m := by
  unfold radiate
  rw [if_neg]
  rintro ⟨a, b⟩
  rcases h with h | ⟨h1, h2⟩
  · simp [h] at a
  · rcases b with b | b
    · exact h1 b
    · exact h2 b

/-- A row of an element that needs no changes and does not radiate makes the component its class makes. -/
theorem makes_of {m : Interface} {r : Row} {kw name : String} {l : ℝ} (h : Has r kw name l)
    (hz : ¬ (l = 0 ∧ kw ∈ m.zeroLengths)) {r' : Row} (ho : overrides m r = .ok r') (h1 : kw ≠ "LINE") (h2 : kw ≠ "SROT")
    (hr : m.incSR = false ∨ (kw ≠ "SBEND" ∧ kw ≠ "RBEND")) {x : Comp}
    (hx : instances r' (brhoOf m.momentum) = .ok [x]) : Makes m r x := by
  intro acts d hc
  refine ⟨{ m with constr := .live (acts ++ [.comp x m.z]) d, z := m.z + x.len }, ?_, rfl, rfl⟩
  rw [row_elem h.kw h.len hz ho h1 h2, hx, obind_ok, radiate_off hr, obind_ok]
  simp only [appendAll, hc, call_comp, obind_ok]

end Verif.MAD
