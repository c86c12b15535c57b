import Mathlib.Data.Rat.Cast.Order
import Mathlib.Tactic.Linarith
import Verif.Tuner.Model

/-!
# The tests of `tests/test_parameter_tuner.py`, evaluated in the model

Each theorem replays one test function of the repository; the assertions of the test are the statement. What the tests leave open (the random
draws, the square root) is universally quantified.
-/

namespace Verif.Tests.Tuner

open Verif.Tuner

def s0 : RunningStat ℚ := .new

def s1 : RunningStat ℚ := s0.push 5

def s2 : RunningStat ℚ := s1.push 10

/-- `test_running_stat`, `test_parameter_tuner.py:9-26`; for every square root with `sqrt(0) = 0`. -/
theorem running_stat (sqrt : ℚ → ℚ) (h0 : sqrt 0 = 0) :
    (s0.numDataValues = 0 ∧ s0.mean = 0 ∧ s0.variance = 0 ∧ s0.standardDeviation sqrt = .ok 0) ∧
    (s1.numDataValues = 1 ∧ s1.mean = 5 ∧ s1.variance = 0 ∧ s1.standardDeviation sqrt = .ok 0) ∧
    (s2.numDataValues = 2 ∧ s2.mean = 15 / 2 ∧ s2.variance = 25 / 2 ∧ s2.standardDeviation sqrt = .ok (sqrt (25 / 2))) := by
  have v0 : s0.variance = 0 := by decide +kernel
  have v1 : s1.variance = 0 := by decide +kernel
  have v2 : s2.variance = 25 / 2 := by decide +kernel
  refine ⟨⟨rfl, by decide +kernel, v0, ?_⟩, ⟨rfl, by decide +kernel, v1, ?_⟩, ⟨rfl, by decide +kernel, v2, ?_⟩⟩
  · unfold RunningStat.standardDeviation
    rw [v0, h0]; rfl
  · unfold RunningStat.standardDeviation
    rw [v1, h0]; rfl
  · unfold RunningStat.standardDeviation
    rw [v2]; exact if_neg (by decide +kernel)

/-- A step of a test: a call whose result is ignored, or `get_best_value`, whose result is recorded. -/
def play (sqrt : ℚ → ℚ) : List (Op ℚ ℕ) → Parameter ℚ ℕ → List (Except Err ℕ)
  | [], _ => []
  | .getBest d :: ops, p => (p.getBestValue sqrt d).map (·.1) :: play sqrt ops (p.step sqrt (.getBest d))
  | op :: ops, p => play sqrt ops (p.step sqrt op)

/-- `play` with the draws forgotten and the square root that is constantly `0`. -/
def forget : Op ℚ ℕ → Op ℚ ℕ
  | .getBest _ => .getBest 0
  | op => op

/-- The next `get_best_value` does not depend on the draw and takes the root of `0` only: it explores one of two values, or every variance
is `0` and one value is best. -/
def Settled (p : Parameter ℚ ℕ) : Prop :=
  (p.exploreCount > 0 ∧ p.values.length = 2) ∨
  ((∀ i ∈ List.range p.values.length, (p.scores[i]?.getD RunningStat.new).variance = 0) ∧ p.exploreCount ≤ 0 ∧
    ((p.exploitBucket (fun _ => 0)).toOption.map List.length) = some 1)

instance (p : Parameter ℚ ℕ) : Decidable (Settled p) := by unfold Settled; infer_instance

/-- Every `get_best_value` of a sequence of calls happens in a settled state. -/
def allSettled : List (Op ℚ ℕ) → Parameter ℚ ℕ → Bool
  | [], _ => true
  | .getBest d :: ops, p => decide (Settled p) && allSettled ops (p.step (fun _ => 0) (.getBest d))
  | op :: ops, p => allSettled ops (p.step (fun _ => 0) op)

theorem significant_congr (sqrt : ℚ → ℚ) (h0 : sqrt 0 = 0) (fs : List ℚ) (scores : List (RunningStat ℚ)) (b : ℕ) :
    ∀ is : List ℕ, (∀ i ∈ is, (scores[i]?.getD RunningStat.new).variance = 0) →
      significant sqrt fs scores b is = significant (fun _ => 0) fs scores b is
  | [], _ => rfl
  | i :: is, h => by
    unfold significant
    rw [significant_congr sqrt h0 fs scores b is (fun j hj => h j (List.mem_cons_of_mem _ hj))]
    have : (scores[i]?.getD RunningStat.new).standardDeviation sqrt =
        (scores[i]?.getD RunningStat.new).standardDeviation (fun _ => 0) := by
      unfold RunningStat.standardDeviation
      rw [h i List.mem_cons_self, h0]
    rw [this]

theorem getBest_congr (sqrt : ℚ → ℚ) (h0 : sqrt 0 = 0) (p : Parameter ℚ ℕ) (hp : Settled p) (d : ℕ) :
    p.getBestValue sqrt d = p.getBestValue (fun _ => 0) 0 := by
  have : p.choose sqrt d = p.choose (fun _ => 0) 0 := by
    unfold Parameter.choose
    rcases hp with ⟨h1, h2⟩ | ⟨h1, h2, h3⟩
    · rw [if_pos h1, if_pos h1]
      unfold Parameter.exploreIndex
      rw [if_pos h2, if_pos h2]
    · rw [if_neg (by omega), if_neg (by omega)]
      have hb : p.exploitBucket sqrt = p.exploitBucket (fun _ => 0) := by
        unfold Parameter.exploitBucket
        rw [significant_congr sqrt h0 _ _ _ _ h1]
      rw [hb]
      cases hr : p.exploitBucket (fun _ => 0) with
      | error e => rfl
      | ok b =>
        rw [hr] at h3
        have hl : b.length = 1 := by simpa [Except.toOption] using h3
        change (if b.length = 0 then _ else if b.length > 1 then _ else _) = (if b.length = 0 then _ else if b.length > 1 then _ else _)
        rw [hl]
        rfl
  unfold Parameter.getBestValue
  rw [this]

theorem play_forget (sqrt : ℚ → ℚ) (h0 : sqrt 0 = 0) :
    ∀ (ops : List (Op ℚ ℕ)) (p : Parameter ℚ ℕ), allSettled (ops.map forget) p = true →
      play sqrt ops p = play (fun _ => 0) (ops.map forget) p
  | [], _, _ => rfl
  | .getBest d :: ops, p, h => by
    change (decide (Settled p) && allSettled (ops.map forget) (p.step (fun _ => 0) (.getBest 0))) = true at h
    rw [Bool.and_eq_true] at h
    have hc := getBest_congr sqrt h0 p (of_decide_eq_true h.1) d
    change _ :: play sqrt ops (p.step sqrt (.getBest d)) = _ :: play _ _ (p.step (fun _ => 0) (.getBest 0))
    have hs : p.step sqrt (.getBest d) = p.step (fun _ => 0) (.getBest 0) := by
      simp only [Parameter.step, hc]
    rw [hc, hs, play_forget sqrt h0 ops _ h.2]
  | .addValue v :: ops, p, h => play_forget sqrt h0 ops (p.addValue v) h
  | .setSwitchFlag v :: ops, p, h => play_forget sqrt h0 ops (p.setSwitchFlag v) h
  | .setExploreCount v :: ops, p, h => play_forget sqrt h0 ops (p.setExploreCount v) h
  | .adjustScore s i :: ops, p, h => play_forget sqrt h0 ops (p.step (fun _ => 0) (.adjustScore s i)) h

/-- `test_parameter`, `test_parameter_tuner.py:29-43`. -/
theorem parameter (sqrt : ℚ → ℚ) (h0 : sqrt 0 = 0) (d : ℕ → ℕ) :
    play sqrt [.addValue 1, .addValue 2, .setSwitchFlag 1, .getBest (d 0), .getBest (d 1), .adjustScore 10 none, .getBest (d 2),
      .adjustScore 15 none, .getBest (d 3)] (.new (3 / 10)) = [.ok 1, .ok 2, .ok 1, .ok 2] := by
  refine (play_forget sqrt h0 _ _ ?_).trans ?_
  · show allSettled [.addValue 1, .addValue 2, .setSwitchFlag 1, .getBest 0, .getBest 0, .adjustScore 10 none, .getBest 0,
      .adjustScore 15 none, .getBest 0] (.new (3 / 10)) = true
    decide +kernel
  · show play (fun _ => 0) [.addValue 1, .addValue 2, .setSwitchFlag 1, .getBest 0, .getBest 0, .adjustScore 10 none, .getBest 0,
      .adjustScore 15 none, .getBest 0] (.new (3 / 10)) = _
    decide +kernel

/-- The calls of the loop of `test_parameter2`, with the draws `d`. -/
def calls2 (d : ℕ → ℕ) : List (Op ℚ ℕ) :=
  [.addValue 1, .addValue 2, .setSwitchFlag 1, .setExploreCount 10] ++
    (List.range 5).flatMap (fun i =>
      [.getBest (d (2 * i)), .adjustScore (1 / 10) none, .getBest (d (2 * i + 1)), .adjustScore (3 / 20) none]) ++ [.getBest (d 10)]

/-- `test_parameter2`, `test_parameter_tuner.py:46-60`; `0.10` and `0.15` are exact here. -/
theorem parameter2 (sqrt : ℚ → ℚ) (h0 : sqrt 0 = 0) (d : ℕ → ℕ) :
    play sqrt (calls2 d) (.new (3 / 10)) = [.ok 1, .ok 2, .ok 1, .ok 2, .ok 1, .ok 2, .ok 1, .ok 2, .ok 1, .ok 2, .ok 2] := by
  have e : (calls2 d).map forget = calls2 (fun _ => 0) := rfl
  refine (play_forget sqrt h0 _ _ ?_).trans ?_
  · rw [e]; decide +kernel
  · rw [e]; decide +kernel

end Verif.Tests.Tuner
