import Verif.Fit.Model

/-!
# Trace vocabulary and call protocol of `fit`

Everything here is about lists of events only. `Allowed cfg pre e` says which event `e` may follow the events `pre`.
-/

namespace Verif.Fit.Spec

variable {D Col : Type}

/-- The events after the last event satisfying `p`. -/
def since (p : Ev D Col → Bool) (tr : List (Ev D Col)) : List (Ev D Col) :=
  (tr.reverse.takeWhile (fun e => !p e)).reverse

def isRmp : Ev D Col → Bool
  | .solveRmp _ => true
  | _ => false

def isGen : Ev D Col → Bool
  | .generate .. => true
  | _ => false

/-- The current round: the events after the last `solve_rmp`. -/
def round (tr : List (Ev D Col)) : List (Ev D Col) := since isRmp tr

def timer? : Ev D Col → Option ℚ
  | .timer t => some t
  | _ => none

def rmp? : Ev D Col → Option (Except Err D)
  | .solveRmp r => some r
  | _ => none

def upd? : Ev D Col → Option (ℕ × ℕ)
  | .update l i _ _ => some (l, i)
  | _ => none

def gen? : Ev D Col → Option (ℕ × ℕ)
  | .generate l i _ _ => some (l, i)
  | _ => none

def genRes? : Ev D Col → Option (ℕ × ℕ × Except Err (List Col))
  | .generate l i _ r => some (l, i, r)
  | _ => none

def col? : Ev D Col → Option Col
  | .add _ _ c _ => some c
  | _ => none

/-- Position of the subproblem whose column was accepted by this event. -/
def accepted? : Ev D Col → Option (ℕ × ℕ)
  | .add l i _ (.ok true) => some (l, i)
  | _ => none

/-- The last start of the timer. -/
def lastTimer (tr : List (Ev D Col)) : Option ℚ := (tr.filterMap timer?).getLast?

/-- The result of the last `solve_rmp`. -/
def lastDuals (tr : List (Ev D Col)) : Option (Except Err D) := (tr.filterMap rmp?).getLast?

/-- Positions on which `update_subproblem` was called. -/
def updPos (tr : List (Ev D Col)) : List (ℕ × ℕ) := tr.filterMap upd?

/-- Positions on which `generate_columns` was called. -/
def genPos (tr : List (Ev D Col)) : List (ℕ × ℕ) := tr.filterMap gen?

/-- Positions with accepted columns (with multiplicity). -/
def accPos (tr : List (Ev D Col)) : List (ℕ × ℕ) := tr.filterMap accepted?

/-- Number of `solve_rmp` calls. -/
def numRmp (tr : List (Ev D Col)) : ℕ := tr.countP isRmp

/-- `rmp_objective_improved` answered `True`. -/
def isImp : Ev D Col → Bool
  | .improved (.ok true) => true
  | _ => false

/-- All `add_column` calls returned `False`. -/
def AllRejected (tr : List (Ev D Col)) : Prop := ∀ l i c r, Ev.add l i c r ∈ tr → r = .ok false

/-- A clock reading exceeded the limit. -/
def Over (cfg : Config) (tr : List (Ev D Col)) : Prop :=
  ∃ s t, Ev.check s t ∈ tr ∧ cfg.timeLimit > 0 ∧ t - s > cfg.timeLimit

/-- `solve_ip` was called. -/
def IpCalled (tr : List (Ev D Col)) : Prop := ∃ r, Ev.solveIp r ∈ tr

/-- The exception raised by a call. -/
def raised? : Ev D Col → Option Err
  | .generateMp _ (.error e) => some e
  | .solveRmp (.error e) => some e
  | .improved (.error e) => some e
  | .update _ _ _ (.error e) => some e
  | .generate _ _ _ (.error e) => some e
  | .add _ _ _ (.error e) => some e
  | .solveIp (.error e) => some e
  | _ => none

/-- All columns returned by the last `generate_columns` of the current round were passed to `add_column`, in order. -/
def Offered (tr : List (Ev D Col)) : Prop :=
  ∀ l i cols, ((round tr).filterMap genRes?).getLast? = some (l, i, .ok cols) → (since isGen tr).filterMap col? = cols

/-- Positions in level order: (k,0), (k,1), ..., (k+1,0), ... -/
def positionsFrom : ℕ → List ℕ → List (ℕ × ℕ)
  | _, [] => []
  | k, n :: ns => (List.range n).map (fun i => (k, i)) ++ positionsFrom (k + 1) ns

/-- All subproblem positions in level order. -/
def allPositions (shape : List ℕ) : List (ℕ × ℕ) := positionsFrom 0 shape

/-- The protocol: `e` may be emitted after `pre`. -/
def Allowed (cfg : Config) (pre : List (Ev D Col)) : Ev D Col → Prop
  | .timer _ => pre = [] ∨ pre.getLast? = some (.resetFlag (some true))
  | .generateMp _ _ => ∃ t, pre = [.timer t]
  | .solveRmp _ => (∃ y, Ev.generateMp y (.ok ()) ∈ pre) ∧ ¬ Over cfg pre ∧ ¬ IpCalled pre ∧
      (0 < numRmp pre → updPos (round pre) = allPositions cfg.shape ∧ accPos (round pre) ≠ [] ∧ Offered pre)
  | .improved _ => ∃ d, pre.getLast? = some (.solveRmp (.ok d))
  | .resetFlag _ => ∃ b, pre.getLast? = some (.improved (.ok b))
  | .update l i d _ => lastDuals pre = some (.ok d) ∧ updPos (round pre) ++ [(l, i)] <+: allPositions cfg.shape ∧
      genPos (round pre) = [] ∧ ¬ Over cfg pre ∧ ¬ IpCalled pre
  | .check s _ => lastTimer pre = some s ∧ ¬ Over cfg pre ∧ ¬ IpCalled pre
  | .generate l i d _ => lastDuals pre = some (.ok d) ∧ updPos (round pre) = allPositions cfg.shape ∧
      genPos (round pre) ++ [(l, i)] <+: allPositions cfg.shape ∧ AllRejected (round pre) ∧
      (cfg.timeLimit > 0 → ∃ s t, pre.getLast? = some (.check s t)) ∧ ¬ Over cfg pre ∧ ¬ IpCalled pre ∧ Offered pre
  | .add l i c _ => (∃ cols, ((round pre).filterMap genRes?).getLast? = some (l, i, .ok cols) ∧
        (since isGen pre).filterMap col? ++ [c] <+: cols) ∧
      (∀ p ∈ accPos (round pre), p = (l, i)) ∧ ¬ Over cfg pre ∧ ¬ IpCalled pre
  | .solveIp _ => cfg.rmpIsIp = true ∧ ¬ IpCalled pre ∧ Offered pre

/-- Every event of the trace was allowed when it happened. -/
def Protocol (cfg : Config) (tr : List (Ev D Col)) : Prop :=
  ∀ pre e post, tr = pre ++ e :: post → Allowed cfg pre e

end Verif.Fit.Spec
