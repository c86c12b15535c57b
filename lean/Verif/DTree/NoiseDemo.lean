import Verif.DTree.NoiseProps

/-!
# C101 for the decision tree classifier: runs with noisy answers
-/

set_option linter.unusedSectionVars false
set_option linter.unusedSimpArgs false

namespace Verif.DTree.Demo

open MP Spec Noise

/-! ## The selection of the paths -/

/-- The two trees of the demonstration, the worse one first. -/
def nPaths : List Path := [⟨0, [0], [1], 2, 0, 0, true⟩, ⟨1, [0], [1], 0, 0, 1, true⟩, ⟨0, [0], [0], 2, 0, 0, true⟩, ⟨1, [0], [0], 1, 0, 1, true⟩]

def nArgs : Args := ⟨nPaths, fullLeaves 1, qNodes, qSplits, 1, [0, 1], 2, false, true, some qRows, false⟩

theorem nFitOk : FitOk 1 nArgs qX (encoded qy) where
  setup := qSetup
  depth := rfl
  distinct := by unfold Distinct; decide +kernel
  good := by
    change ∀ p ∈ nPaths, GoodPath 1 qSplits p
    decide +kernel
  cand := by decide +kernel
  tree := by
    refine ⟨fun _ => 0, fun l => if l = 0 then ⟨0, [0], [0], 2, 0, 0, true⟩ else ⟨1, [0], [0], 1, 0, 1, true⟩, ?_⟩
    unfold HasTree
    decide +kernel
  targets := List.Perm.refl _
  y_lt := by decide +kernel
  removed := qFitOk.removed
  weights := by intro h; cases h

/-- The tree with split 0. -/
def nSol (i : ℕ) : ℚ := if i ∈ [2, 3, 4] then 1 else 0

noncomputable def nO : FitOracle Unit := guided [(nSol, qDual)] [(nSol, qDual)] [qSatBest 0, qSatBest 1] (fun i _ => i)

/-- One billionth is added to every value that is 0. -/
def addNoise (v : ℕ → ℚ) (i : ℕ) : ℚ := if v i = 0 then 1 / 1000000000 else v i

theorem addNoise_near (v : ℕ → ℚ) : Near (1 / 1000000000) (addNoise v) v := by
  intro i
  unfold addNoise
  split
  · rename_i h; rw [h]; norm_num
  · simp

/-- The same solvers, except that the integer program for the selection is answered with noise. -/
noncomputable def nO' : FitOracle Unit where
  clock := nO.clock
  draws := nO.draws
  sols := nO.sols
  mip := nO.mip
  master := ⟨nO.master.lp, nO.master.cut, fun m => ⟨(nO.master.ip m).status, addNoise (nO.master.ip m).values, (nO.master.ip m).duals, (nO.master.ip m).objective⟩⟩

theorem nExact : returned (fitNew nO nArgs 5 100 qX 10 qy est0 ()) (fun s =>
    decide (s.world.master.selected.length = 2) && decide (predictFitted nArgs s qX = .ok qy)) = true := by decide +kernel

theorem nNoisy : returned (fitNew nO' nArgs 5 100 qX 10 qy est0 ()) (fun s =>
    decide (s.world.master.selected.length = 4) && decide (predictFitted nArgs s qX = .ok [3, 3, 3])) = true := by decide +kernel

/-- C101 is false for the selection of the paths: with exact answers the fitted tree labels every training row correctly. If the values of
the integer program are reported with an error of one billionth, and everything else is the same, `fit` selects both trees, four paths, and
`predict` gives a wrong label on the training data. -/
theorem C101_tree_refuted : FitOk 1 nArgs qX (encoded qy) ∧ FitContract 1 nArgs qX nO 0 ∧ IpOptimal 1 nArgs qX nO ∧
    (∀ m, Near (1 / 1000000000) (nO'.master.ip m).values (nO.master.ip m).values ∧ (nO'.master.ip m).status = (nO.master.ip m).status ∧
      (nO'.master.ip m).objective = (nO.master.ip m).objective) ∧
    (∃ s, fitNew nO nArgs 5 100 qX 10 qy est0 () = some (.ok (), s) ∧ s.world.master.selected.length = 2 ∧
      predictFitted nArgs s qX = .ok qy) ∧
    (∃ s, fitNew nO' nArgs 5 100 qX 10 qy est0 () = some (.ok (), s) ∧ s.world.master.selected.length = 4 ∧
      predictFitted nArgs s qX = .ok [3, 3, 3]) ∧ qy ≠ [3, 3, 3] := by
  refine ⟨nFitOk, guided_contract nFitOk _ _ _ _, guided_ipOptimal _ _ _ _, fun m => ⟨addNoise_near _, rfl, rfl⟩, ?_, ?_, by decide⟩
  · obtain ⟨s, h1, h2⟩ := returned_spec nExact
    simp only [Bool.and_eq_true, decide_eq_true_eq] at h2
    exact ⟨s, h1, h2⟩
  · obtain ⟨s, h1, h2⟩ := returned_spec nNoisy
    simp only [Bool.and_eq_true, decide_eq_true_eq] at h2
    exact ⟨s, h1, h2⟩

/-! ## The pricing problem -/

/-- A pricing problem with three rows, two candidate splits and weights 2, 1, 1. -/
def nSub : SubConf := ⟨.mip, (fullLeaves 1).getD 0 ⟨0, [], []⟩, qNodes, qSplits, [0, 1], 1, qX, [0, 1, 0], some qRows⟩

def nZero : Duals := ⟨[0, 0], [0, 0, 0], fun _ _ _ => some 0, [], []⟩

def nSt : SubSt := nSub.create nZero SubSt.new

/-- Split 0 at the root and class 0: row 0 reaches the leaf and has that class. -/
def nExactSub : Answer :=
  ⟨.optimal, fun i => if i ∈ [SV.z 0, SV.y 0, SV.u 0 0, SV.w 0].map nSt.idx then 1 else 0, fun _ => 0, 2⟩

def nNoisySub : Answer := ⟨.optimal, addNoise nExactSub.values, fun _ => 0, 2⟩

/-- C101: the hypotheses hold for an optimal answer of this pricing problem with noise, and a path is generated. -/
example : nSt.m.Feasible nExactSub.values ∧ Near (1 / 1000000000) nNoisySub.values nExactSub.values ∧ ZeroOne nExactSub.values ∧
    nSub.generateMip nSt nExactSub = [⟨0, [0], [0], 2, 0, 0, false⟩] ∧ nSub.generateMip nSt nNoisySub ≠ nSub.generateMip nSt nExactSub ∧
    ∃ p, nSub.generateMip nSt nNoisySub = [p] ∧ p.splits = [0] ∧ p.target = 0 ∧ |p.cost - 2| ≤ 1 / 1000000000 * 3 := by
  have hz : ZeroOne nExactSub.values := by
    intro i
    unfold nExactSub
    dsimp only
    split
    · exact Or.inr rfl
    · exact Or.inl rfl
  have hq : nSub.generateMip nSt nExactSub = [⟨0, [0], [0], 2, 0, 0, false⟩] := by decide +kernel
  refine ⟨check_sound _ _ (by decide +kernel) (by decide +kernel), addNoise_near _, hz, hq, by decide +kernel, ?_⟩
  rcases C101_tree_pricing nSub nSt nNoisySub nExactSub (addNoise_near _) hz (by norm_num) rfl Iff.rfl with ⟨-, h⟩ | ⟨p, q, h1, h2, -, -, h3, h4, -, -, h5⟩
  · rw [hq] at h; cases h
  · rw [hq] at h2
    cases h2
    have hw : nSub.weightSum = 3 := by decide +kernel
    rw [hw] at h5
    exact ⟨p, h1, h3, h4, h5⟩

/-- C101: an answer with negative noise meets the hypotheses of `C101_tree_selection_partial`. -/
example : ∃ o : Oracle, (o.ip qStart.m).values ≠ (qOracle.ip qStart.m).values ∧ solveIp o qStart = solveIp qOracle qStart ∧
    (solveIp o qStart).2.selected.length = 2 := by
  refine ⟨⟨qOracle.lp, qOracle.cut, fun m => ⟨.optimal, fun i => if qSol i = 0 then -(1 / 1000000000) else qSol i, fun _ => 0,
    (qOracle.ip m).objective⟩⟩, ?_, ?_, by decide +kernel⟩
  · intro h
    have := congrFun h 5
    revert this
    decide +kernel
  · refine C101_tree_selection_partial (ε := 1 / 1000000000) qOracle _ qStart ?_ ?_ (by norm_num) ?_ rfl
    · intro i
      change |(if qSol i = 0 then -(1 / 1000000000) else qSol i) - qSol i| ≤ _
      split
      · rename_i h; rw [h]; norm_num [abs_le]
      · simp
    · intro i
      change qSol i = 0 ∨ qSol i = 1
      unfold qSol
      split
      · exact Or.inr rfl
      · exact Or.inl rfl
    · intro i hi
      change qSol i = 0 at hi
      change (if qSol i = 0 then -(1 / 1000000000) else qSol i) ≤ 0
      rw [if_pos hi]
      norm_num

end Verif.DTree.Demo
