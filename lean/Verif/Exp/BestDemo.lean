import Verif.Exp.BestProps
import Verif.Exp.PrepareDemo

/-!
# C117 on concrete runs: merged and unmerged rows

Two of three training rows are equal. With aggressive preprocessing they become one row of weight 2. Both runs end with `mp_optimal_`.
-/

namespace Verif.Exp.BestDemo

open Verif.DTree Verif.DTree.Spec Verif.DTree.Demo MP

def bFinal : Cart := ⟨[1, -1, -1], [2, -1, -1], [0, 0, 0], [1, 0, 0]⟩

def bX : List (List ℚ) := [[0], [0], [2]]

def bY : List ℤ := [0, 0, 1]

theorem bInput : PrepInput 1 [] bFinal [] bX bY where
  depth := by decide
  carts_ok := by simp
  final_ok := .of_check (fun i => ([0, 1, 1] : List ℕ).getD i 0) (by decide) rfl (by decide +kernel) (by decide +kernel) (by decide +kernel)
    (by decide +kernel)
  extra_ok := by simp
  split := ⟨bFinal, by simp, by decide +kernel⟩
  rows := rfl
  ne := by decide

def bP (aggressive : Bool) : Prepared := (prepare 1 [] bFinal [] bX bY aggressive 0 (fun _ => 0)).toOption.getD ⟨[], [], [], [], [], []⟩

theorem bPrep_ok (aggressive : Bool) : prepare 1 [] bFinal [] bX bY aggressive 0 (fun _ => 0) = .ok (bP aggressive) := by
  obtain ⟨P, _, _, _, _, _, h, _⟩ := prepare_ok bInput aggressive 0 (fun _ => 0)
  unfold bP
  rw [h]
  rfl

/-- The rows differ. -/
example : (bP true).rows.map (fun r => (r.weight, r.removedFromSp)) = [(2, false), (1, true), (1, false)] ∧
    (bP false).rows.map (fun r => (r.weight, r.removedFromSp)) = [(1, false), (1, false), (1, false)] := by decide +kernel

/-- Leaf constraints have the duals 2 and 1. -/
def bDual (i : ℕ) : ℚ := ([2, 1] : List ℚ).getD i 0

/-- The optimal solutions of the two pricing problems, with merged and with unmerged rows. -/
def bSat (v : List ℕ) (i : ℕ) : ℚ := if i ∈ v then 1 else 0

noncomputable def bO : FitOracle Unit := guided [(fun _ => 1, bDual)] [(fun _ => 1, bDual)]
  (([[0, 1, 4, 5], [2, 3, 4, 6], [0, 1, 2, 3, 6, 7], [4, 5, 6, 8]] : List (List ℕ)).map bSat) (fun _ _ => 0)

noncomputable def bRun (aggressive : Bool) : Option (Except Err Unit × Fit.St (World Unit) Duals Path) :=
  fitNew bO ((bP aggressive).args 1 false) (-1) (-1) bX 10 bY est0 ()

theorem bRun_facts (aggressive : Bool) : returned (bRun aggressive) (fun s => s.est.mpOptimal && decide (s.world.master.rmpObj +
    2 ^ 1 * (1 / 1000000 + ((2 * 3 + s.world.master.cutCons.length + 1 * 1 : ℕ) : ℚ) / 100000) + (2 ^ 1 - 1) * 0 <
      (s.world.master.selected.map (·.cost)).sum + 1)) = true := by
  cases aggressive <;> decide +kernel

theorem bEnc : bY = (encoded bY).map Int.ofNat := by decide +kernel

theorem bTwo : TwoClasses bY := ⟨0, by decide, 1, by decide, by decide⟩

theorem bContract (aggressive : Bool) : FitContract 1 ((bP aggressive).args 1 false) bX bO 0 :=
  guided_contract (C78_fitOk bInput (by norm_num) bEnc (fun _ => le_refl _) (bPrep_ok aggressive) (.inr (by decide)) false) _ _ _ _

theorem bCand (aggressive : Bool) : ∀ p ∈ (bP aggressive).paths, UsesCand (bP aggressive).nodes p := by
  have : ∀ p ∈ (bP aggressive).paths, ∀ q ∈ p.pairs, q.2 ∈ cand (bP aggressive).nodes q.1 := by cases aggressive <;> decide +kernel
  exact this

theorem bCertified (aggressive : Bool) : ∃ s, fitNew bO ((bP aggressive).args 1 false) (-1) (-1) bX 10 bY est0 () = some (.ok (), s) ∧
    Spec.Certified 1 (bP aggressive) bX 0 s := by
  obtain ⟨s, h1, h2⟩ := returned_spec (bRun_facts aggressive)
  simp only [Bool.and_eq_true, decide_eq_true_eq] at h2
  refine ⟨s, h1, h2.1, ?_⟩
  have e1 : (bP aggressive).splits.length = 1 := by cases aggressive <;> decide +kernel
  have e2 : bX.length = 3 := rfl
  rw [e1, e2]
  exact h2.2

/-- All hypotheses of `C117_merging` hold. -/
example : ∃ s s' preds preds', bRun true = some (.ok (), s) ∧ bRun false = some (.ok (), s') ∧
    predictFitted ((bP true).args 1 false) s bX = .ok preds ∧ predictFitted ((bP false).args 1 false) s' bX = .ok preds' ∧
    correct bY preds = correct bY preds' := by
  obtain ⟨s, h1, h2⟩ := bCertified true
  obtain ⟨s', h1', h2'⟩ := bCertified false
  obtain ⟨preds, preds', h3, h4, h5⟩ := C117_merging bInput bEnc (fun _ => le_refl _) (fun _ => le_refl _) (bPrep_ok true) (bPrep_ok false) (bCand true) bTwo
    (bContract true) (guided_priceOptimal _ _ _ _) h1 h2 (bContract false) (guided_priceOptimal _ _ _ _) h1' h2'
  exact ⟨s, s', preds, preds', h1, h1', h3, h4, h5⟩

/-- The tree of the experiment is one of the trees of `C117_best_tree`; it gets all three rows right, hence so does the classifier. -/
example : ∃ s preds, bRun true = some (.ok (), s) ∧ predictFitted ((bP true).args 1 false) s bX = .ok preds ∧ 3 ≤ correct bY preds := by
  obtain ⟨s, h1, h2⟩ := bCertified true
  obtain ⟨preds, h3, -, h4⟩ := C117_best_tree bInput bEnc (fun _ => le_refl _) (bPrep_ok true) (bCand true) (bContract true) bTwo
    (guided_priceOptimal _ _ _ _) h1 h2
  refine ⟨s, preds, h1, h3, ?_⟩
  have ht : (⟨1, fun _ => 0, fun _ => 1, fun l => l⟩ : Questions).Within 1 (bP true).nodes (bP true).splits := by
    refine ⟨le_refl _, ?_⟩
    change ∀ n < 1, ∃ i ∈ cand (bP true).nodes n, (splitAt (bP true).splits i).feature = 0 ∧ (splitAt (bP true).splits i).threshold = 1
    decide +kernel
  have e : correct bY (bX.map (⟨1, fun _ => 0, fun _ => 1, fun l => l⟩ : Questions).answer) = 3 := by decide +kernel
  have := h4 _ ht
  omega

end Verif.Exp.BestDemo
