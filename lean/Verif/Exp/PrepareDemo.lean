import Verif.DTree.FitDemo
import Verif.Exp.CandProps

/-!
# Concrete preparations: instances of C62, C76, C77, C79, and the failure of C78
-/

set_option linter.unusedSectionVars false
set_option linter.unusedSimpArgs false

namespace Verif.Exp.Demo

open Verif.DTree Verif.DTree.Spec Verif.DTree.Demo MP

/-! ## Further trees whose splits are no candidates (C78) -/

/-- `x2` at the root, `x0` and `x1` below. -/
def gFinal : Cart := ⟨[1, 2, -1, -1, 5, -1, -1], [4, 3, -1, -1, 6, -1, -1], [2, 0, 0, 0, 1, 0, 0], [1 / 2, 1 / 2, 0, 0, 1 / 2, 0, 0]⟩

/-- `x0` at the root, `x2` at the left child; the right child is a leaf. -/
def gE1 : Cart := ⟨[1, 2, -1, -1, -1], [4, 3, -1, -1, -1], [0, 2, 0, 0, 0], [1 / 2, 1 / 2, 0, 0, 0]⟩

/-- `x1` at the root, `x2` at the right child; the left child is a leaf. -/
def gE2 : Cart := ⟨[1, -1, 3, -1, -1], [2, -1, 4, -1, -1], [1, 0, 2, 0, 0], [1 / 2, 0, 1 / 2, 0, 0]⟩

def gX : List (List ℚ) := [[0, 1, 0], [0, 1, 0], [0, 1, 1], [1, 0, 0], [1, 0, 1]]

def gy : List ℤ := [0, 0, 1, 1, 1]

theorem gInput : PrepInput 2 [] gFinal [gE1, gE2] gX gy where
  depth := by decide
  carts_ok := by simp
  final_ok := .of_check (fun i => ([0, 1, 2, 2, 1, 2, 2] : List ℕ).getD i 0) (by decide) rfl (by decide +kernel) (by decide +kernel)
    (by decide +kernel) (by decide +kernel)
  extra_ok := by
    intro c hc
    simp only [List.mem_cons, List.not_mem_nil, or_false] at hc
    rcases hc with rfl | rfl
    · exact .of_check (fun i => ([0, 1, 2, 2, 1] : List ℕ).getD i 0) (by decide) rfl (by decide +kernel) (by decide +kernel) (by decide +kernel)
        (by decide +kernel)
    · exact .of_check (fun i => ([0, 1, 1, 2, 2] : List ℕ).getD i 0) (by decide) rfl (by decide +kernel) (by decide +kernel) (by decide +kernel)
        (by decide +kernel)
  split := ⟨gFinal, by simp, by decide +kernel⟩
  rows := rfl
  ne := by decide

def gPrep : Option Prepared := (prepare 2 [] gFinal [gE1, gE2] gX gy true 0 (fun _ => 0)).toOption

def gP : Prepared := gPrep.getD ⟨[], [], [], [], [], []⟩

theorem gPrep_ok : prepare 2 [] gFinal [gE1, gE2] gX gy true 0 (fun _ => 0) = .ok gP := by
  obtain ⟨P, _, _, _, _, _, h, _⟩ := prepare_ok gInput true 0 (fun _ => 0)
  unfold gP gPrep
  rw [h]
  rfl

def gDual (i : ℕ) : ℚ := ([2, 1, 2, 1] : List ℚ).getD i 0

def gSol (i : ℕ) : ℚ := if i ∈ [4, 5, 6, 7] then 1 else 0

/-- The optimal solutions of the four pricing problems. -/
def gSat (l i : ℕ) : ℚ := if i ∈ (([[0, 1, 8, 9, 10], [4, 5, 8, 9, 11], [6, 7, 8, 9, 11], [2, 3, 8, 9, 11]] : List (List ℕ)).getD l []) then 1 else 0

noncomputable def gO : FitOracle Unit := guided [(gSol, gDual)] [(gSol, gDual)] [gSat 0, gSat 1, gSat 2, gSat 3] (fun _ _ => 0)

noncomputable def gRun : Option (Except Err Unit × Fit.St (World Unit) Duals Path) := fitNew gO (gP.args 2 false) (-1) (-1) gX 10 gy est0 ()

theorem gRun_facts : returned gRun (fun s => s.est.mpOptimal && decide (s.world.master.rmpObj = 6) &&
    decide (s.world.master.selected.map (fun p => (p.leafId, p.pairs)) = [(0, [(1, 0), (0, 1)]), (1, [(1, 0), (0, 1)]), (2, [(2, 0), (0, 2)]),
      (3, [(2, 0), (0, 2)])]) &&
    decide (predictFitted (gP.args 2 false) s gX = .ok [0, 0, 1, 0, 0])) = true := by decide +kernel

theorem guided_lp (lp ip : List ((ℕ → ℚ) × (ℕ → ℚ))) (sat : List (ℕ → ℚ)) (draw : ℕ → ℕ → ℕ) (m : Model) (k : ℕ)
    (h : ((guided lp ip sat draw).master.lp m k).status = .optimal) : OptimalDuals m 0 ((guided lp ip sat draw).master.lp m k) := by
  change (guidedLp lp m).status = _ at h
  change OptimalDuals m 0 (guidedLp lp m)
  unfold guidedLp at *
  cases h' : lpFind m lp with
  | some a => exact (lpFind_sound h').2
  | none =>
    rw [h'] at h
    unfold exactLp at *
    split_ifs at h ⊢ with h0
    · exact h0.choose_spec.2.2
    · cases h

/-- **C78 is false.** For valid trees and data the prepared paths may use splits that are not candidates of the node, because
`get_path_for_leaf` only asks whether the split is a candidate of some node. Such paths are not tied together by the constraints of the master
problem, and rows that reach few leaves over candidate splits have no constraint either. Here exact solvers select two paths with different
splits at the root, the master problem promises 6 correct rows of 5, and the classifier is worse than the initial tree. -/
theorem C78_refuted : ∃ (d : ℕ) (carts : List Cart) (final : Cart) (extra : List Cart) (X : List (List ℚ)) (y : List ℤ) (P : Prepared)
    (o : FitOracle Unit) (s : Fit.St (World Unit) Duals Path) (preds : List ℤ),
    PrepInput d carts final extra X y ∧ y = (encoded y).map Int.ofNat ∧ TwoClasses y ∧
    prepare d carts final extra X y true 0 (fun _ => 0) = .ok P ∧ (∃ p ∈ P.paths, ¬ UsesCand P.nodes p) ∧
    (∀ m k, (o.master.lp m k).status = .optimal → OptimalDuals m 0 (o.master.lp m k)) ∧ IpOptimal d (P.args d false) X o ∧ PriceOptimal o ∧
    fitNew o (P.args d false) (-1) (-1) X 10 y est0 () = some (.ok (), s) ∧ s.est.mpOptimal = true ∧
    (∃ p ∈ s.world.master.selected, ∃ q ∈ s.world.master.selected, ∃ a b, a ≠ b ∧ (0, a) ∈ p.pairs ∧ (0, b) ∈ q.pairs) ∧
    X.length = 5 ∧ s.world.master.rmpObj = 6 ∧
    predictFitted (P.args d false) s X = .ok preds ∧ correct y preds = 3 ∧ correct y (initialPreds P d X) = 5 := by
  obtain ⟨s, h1, h2⟩ := returned_spec gRun_facts
  simp only [Bool.and_eq_true, decide_eq_true_eq] at h2
  obtain ⟨⟨⟨h3, h4⟩, h5⟩, h6⟩ := h2
  refine ⟨2, [], gFinal, [gE1, gE2], gX, gy, gP, gO, s, _, gInput, by decide +kernel, ⟨0, by decide, 1, by decide, by decide⟩, gPrep_ok, ?_,
    guided_lp _ _ _ _, guided_ipOptimal _ _ _ _, guided_priceOptimal _ _ _ _, h1, h3, ?_, rfl, h4, h6, by decide +kernel, by decide +kernel⟩
  · have : ∃ p ∈ gP.paths, ¬ ∀ q ∈ p.pairs, q.2 ∈ cand gP.nodes q.1 := by decide +kernel
    exact this
  · have hmem : ∀ x ∈ ([(0, [(1, 0), (0, 1)]), (1, [(1, 0), (0, 1)]), (2, [(2, 0), (0, 2)]), (3, [(2, 0), (0, 2)])] : List (ℕ × List (ℕ × ℕ))),
        ∃ p ∈ s.world.master.selected, (p.leafId, p.pairs) = x := by
      intro x hx
      rw [← h5] at hx
      exact List.mem_map.1 hx
    obtain ⟨p, hp, ep⟩ := hmem (0, [(1, 0), (0, 1)]) (by simp)
    obtain ⟨q, hq, eq⟩ := hmem (2, [(2, 0), (0, 2)]) (by simp)
    refine ⟨p, hp, q, hq, 1, 2, by decide, ?_, ?_⟩
    · have e : p.pairs = _ := (Prod.ext_iff.1 ep).2
      rw [e]; simp
    · have e : q.pairs = _ := (Prod.ext_iff.1 eq).2
      rw [e]; simp

/-! ## An initial tree whose splits are no candidates (C78) -/

/-- Root and left child. -/
def kA : Cart := ⟨[1, 2, -1, -1, -1], [4, 3, -1, -1, -1], [0, 1, 0, 0, 0], [1, 5, 0, 0, 0]⟩

def kB : Cart := ⟨[1, 2, -1, -1, -1], [4, 3, -1, -1, -1], [0, 1, 0, 0, 0], [1, 7, 0, 0, 0]⟩

/-- Only a root. -/
def kRoot : Cart := ⟨[1, -1, -1], [2, -1, -1], [0, 0, 0], [1, 0, 0]⟩

theorem kInput : PrepInput 6 [kA, kA, kB] kRoot [] [[0, 6], [2, 6]] [0, 1] where
  depth := by decide
  carts_ok := by
    have ha : CartOk 6 kA := .of_check (fun i => ([0, 1, 2, 2, 1] : List ℕ).getD i 0) (by decide) rfl (by decide +kernel) (by decide +kernel)
      (by decide +kernel) (by decide +kernel)
    have hb : CartOk 6 kB := .of_check (fun i => ([0, 1, 2, 2, 1] : List ℕ).getD i 0) (by decide) rfl (by decide +kernel) (by decide +kernel)
      (by decide +kernel) (by decide +kernel)
    intro c hc
    simp only [List.mem_cons, List.not_mem_nil, or_false] at hc
    rcases hc with rfl | rfl | rfl <;> assumption
  final_ok := .of_check (fun i => ([0, 1, 1] : List ℕ).getD i 0) (by decide) rfl (by decide +kernel) (by decide +kernel) (by decide +kernel)
    (by decide +kernel)
  extra_ok := by simp
  split := ⟨kRoot, by simp, by decide +kernel⟩
  rows := rfl
  ne := by decide

/-- **C78 is false for the initial tree as well.** At depth 6 a node keeps one candidate, the most frequent one; the initial path of leaf 0
uses the split of the last tree. -/
theorem C78_refuted_initial : ∃ P p, prepare 6 [kA, kA, kB] kRoot [] [[0, 6], [2, 6]] [0, 1] false 0 (fun _ => 0) = .ok P ∧
    P.paths[0]? = some p ∧ (1, 2) ∈ p.pairs ∧ cand P.nodes 1 = [1] := by
  obtain ⟨P, _, _, _, _, _, h, _⟩ := prepare_ok kInput false 0 (fun _ => 0)
  have he : (prepare 6 [kA, kA, kB] kRoot [] [[0, 6], [2, 6]] [0, 1] false 0 (fun _ => 0)).toOption.map
      (fun P => (P.paths[0]?.map fun p => decide ((1, 2) ∈ p.pairs), cand P.nodes 1)) = some (some true, [1]) := by decide +kernel
  rw [h] at he
  simp only [Except.toOption, Option.map_some, Option.some.injEq, Prod.mk.injEq, Option.map_eq_some_iff, decide_eq_true_eq] at he
  obtain ⟨⟨p, h1, h2⟩, h3⟩ := he
  exact ⟨P, p, h, h1, h2, h3⟩

/-! ## Two trees of depth 2 -/

def hX : List (List ℚ) := [[0, 0], [0, 6], [2, 6], [2, 8], [2, 5], [0, 5]]

def hy : List ℤ := [0, 1, 1, 0, 0, 1]

theorem hInput : PrepInput 2 [cart2] cart [] hX hy where
  depth := by decide
  carts_ok := by
    intro c hc
    rw [List.mem_singleton.1 hc]
    exact cart2_ok
  final_ok := cart_ok
  extra_ok := by simp
  split := ⟨cart, by simp, by decide +kernel⟩
  rows := rfl
  ne := by decide

def hP : Prepared := (prepare 2 [cart2] cart [] hX hy true 0 (fun _ => 0)).toOption.getD ⟨[], [], [], [], [], []⟩

theorem hPrep_ok : prepare 2 [cart2] cart [] hX hy true 0 (fun _ => 0) = .ok hP := by
  obtain ⟨P, _, _, _, _, _, h, _⟩ := prepare_ok hInput true 0 (fun _ => 0)
  unfold hP
  rw [h]
  rfl

/-- What comes out: node 2 has two candidates, four paths, four kept rows. -/
example : hP.nodes.map (·.candidateSplits) = [[0], [1], [2, 1]] ∧
    hP.paths.map (fun p => (p.leafId, p.pairs, p.cost, p.target)) =
      [(0, [(1, 1), (0, 0)], 1, 0), (1, [(1, 1), (0, 0)], 1, 1), (2, [(2, 2), (0, 0)], 1, 1), (3, [(2, 2), (0, 0)], 1, 0)] := by decide +kernel

/-- C62 and C76 on this preparation. -/
example := C62_candidates_partial hInput (by norm_num) hPrep_ok

example := C76_paths hInput hPrep_ok

theorem hEnc : hy = (encoded hy).map Int.ofNat := by decide +kernel

/-- C78: fewer random trees than candidates per node, so the arguments meet the requirements of `fit`. -/
theorem hFitOk : FitOk 2 (hP.args 2 false) hX (encoded hy) :=
  C78_fitOk hInput (by norm_num) hEnc (fun _ => le_refl _) hPrep_ok (.inr (by decide)) false

noncomputable def hO : FitOracle Unit := exact (fun _ => (0, ())) (fun _ => (⟨fun _ _ => 0, id⟩, ())) (fun _ _ => [])

theorem hContract : FitContract 2 (hP.args 2 false) hX hO 0 :=
  exact_contract hFitOk _ (fun _ _ => List.Perm.refl _) (fun _ _ _ h => by simp at h)

theorem hCand : ∀ p ∈ hP.paths, UsesCand hP.nodes p := by
  have : ∀ p ∈ hP.paths, ∀ q ∈ p.pairs, q.2 ∈ cand hP.nodes q.1 := by decide +kernel
  exact this

theorem hTwo : TwoClasses hy := ⟨0, by decide, 1, by decide, by decide⟩

/-- C79: all hypotheses hold for exact solvers and a run of `fit` exists. -/
example : ∃ s preds fuel, fitNew hO (hP.args 2 false) (-1) (-1) hX fuel hy est0 () = some (.ok (), s) ∧
    predictFitted (hP.args 2 false) s hX = .ok preds ∧ correct hy (initialPreds hP 2 hX) ≤ correct hy preds := by
  obtain ⟨⟨res, s⟩, hr⟩ := C71_terminates hFitOk hContract (-1) (-1) est0 ()
  obtain rfl := C71_fit_succeeds hFitOk hContract hTwo hr
  obtain ⟨preds, h1, -, h2⟩ := C79_not_worse hInput hEnc (fun _ => le_refl _) hPrep_ok hCand hContract hTwo (exact_ipOptimal _ _ _) hr
  exact ⟨s, preds, _, hr, h1, h2⟩

/-! ## Depth 7 (C62) -/

/-- The hypotheses of `C62_refuted` hold: a tree of depth 2 as the only one of a run with depth 7. -/
theorem iInput : PrepInput 7 [] cart [] hX hy where
  depth := by decide
  carts_ok := by simp
  final_ok := ⟨cart_ok.nonempty, cart_ok.child, cart_ok.parent, cart_ok.unique, fun i w h1 h2 => by have := cart_ok.depth i w h1 h2; omega⟩
  extra_ok := by simp
  split := ⟨cart, by simp, by decide +kernel⟩
  rows := rfl
  ne := by decide

example : ∃ P, prepare 7 [] cart [] hX hy true 0 (fun _ => 0) = .ok P ∧ cand P.nodes 1 = [] := by
  obtain ⟨P, _, _, _, _, _, h, _⟩ := prepare_ok iInput true 0 (fun _ => 0)
  exact ⟨P, h, C62_refuted iInput (by norm_num) h (by norm_num) (.inl (by norm_num))⟩

end Verif.Exp.Demo
