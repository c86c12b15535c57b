import Verif.DTree.Fit
import Verif.Exp.ExperimentProps

/-!
# Model of the result report of `examples/dtree_experiment.py`

The numbers written to the result file after the classifier was fitted. Not modelled: the name, `preprocessing_time`, `mster_cuts_time`
(clock readings the model does not have), the printed text and the file itself.
-/

namespace Verif.Exp

open Verif.DTree

variable {Ω : Type}

/-- `ClassifierMixin.score` of scikit-learn: the part of the labels that is predicted right. -/
def score (y preds : List ℤ) : ℚ := (correct y preds : ℚ) / y.length

/-- `Results`, `dtree_experiment.py:37-55`. -/
structure Results where
  trainAccuracy : ℚ
  testAccuracy : ℚ
  trainingTime : ℚ
  masterTime : ℚ
  masterNumCuts : ℕ
  spTimeHeuristic : ℚ
  spTimeIp : ℚ
  spColsHeuristic : ℕ
  spColsIp : ℕ
  colAddTime : ℚ
  masterIpTime : ℚ
  totalIterations : ℕ
  numImproving : ℕ
  hitRate : ℚ

/-- `heuristic_hit_rate`, `dtree_experiment.py:335-340`. -/
def hitRate (success failed : ℕ) : ℚ := if success + failed > 0 then (success : ℚ) / ((success + failed : ℕ) : ℚ) else 0

/-- The result record, `dtree_experiment.py:311-340`. `num_col_added_sp_` and `time_spent_sp_` have two rows, the first of length one. -/
def report (A : Args) (s : Fit.St (World Ω) Duals Path) (XTrain : List (List ℚ)) (yTrain : List ℤ) (XTest : List (List ℚ))
    (yTest : List ℤ) : Except Err Results := do
  let train ← predictFitted A s XTrain
  let test ← predictFitted A s XTest
  return {
    trainAccuracy := score yTrain train
    testAccuracy := score yTest test
    trainingTime := s.est.timeElapsed
    masterTime := s.est.timeSpentMaster
    masterNumCuts := s.world.master.totalCuts
    spTimeHeuristic := (s.est.timeSpentSp.getD 0 []).getD 0 0
    spTimeIp := (s.est.timeSpentSp.getD 1 []).sum
    spColsHeuristic := (s.est.numColAdded.getD 0 []).getD 0 0
    spColsIp := (s.est.numColAdded.getD 1 []).sum
    colAddTime := s.est.timeAddCol
    masterIpTime := s.est.timeSpentMasterIp
    totalIterations := s.est.iter
    numImproving := s.est.numImproving
    hitRate := hitRate s.world.success s.world.failed }

/-- `added_rows`, `dtree_experiment.py:342-345`; `n` is the number of data rows. -/
def addedRows (s : Fit.St (World Ω) Duals Path) (n : ℕ) : List ℕ := (List.range n).filter fun r => s.world.master.addedRow.getD r false

end Verif.Exp
