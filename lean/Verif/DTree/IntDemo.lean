import Verif.DTree.IntProps
import Verif.DTree.LinkDemo

/-!
# Examples for C127: a model inside the range, and optimal duals that leave it
-/

namespace Verif.DTree.Demo

open MP Spec

/-! ### Inside the range -/

theorem iKind (l : ℕ) : (qSat l).kind = .sat := rfl

theorem iOk (l : ℕ) (hl : l < 2 ^ 1) : SubOk 1 (qSat l) :=
  ⟨(qSubOk l hl).pos, rfl, (qSubOk l hl).leaf_lt, rfl, rfl, (qSubOk l hl).cand_nodup, (qSubOk l hl).targets, (qSubOk l hl).y_lt⟩

theorem iReached (l : ℕ) (hl : l < 2) : SubReached (qSat l) [] (qSatSt l) := by
  have e : qDuals.newCuts = [] := by decide +kernel
  have h := SubReached.update (c := qSat l) (cuts := []) .new qDuals (by decide +kernel) (Prod.ext (qSatFacts l hl).1 rfl)
  rw [e] at h
  exact h

/-- The pricing problem of leaf 0 with the duals of the demo master problem. -/
example : IntModel 600003 (qSatEnd 0).m := by
  have hm : magnitude 1 (qSat 0) [] qDuals - |qDuals.leaf.getD 0 0| ≤ 5 := by
    rw [magnitude_eq (iOk 0 (by norm_num)) (iKind 0)]
    have : (((qSat 0).objTerms qDuals 0).map (fun t => |t.2|)).sum ≤ 5 := by decide +kernel
    have e : (qSat 0).leaf.id = 0 := rfl
    rw [e]
    simpa using this
  have ht : numTerms 1 (qSat 0) [] = 6 := (qSatFacts 0 (by norm_num)).2.2.2.2.2.2
  refine C127_pricing (iOk 0 (by norm_num)) (iKind 0) (iReached 0 (by norm_num)) (by decide +kernel)
    (Prod.ext (qSatFacts 0 (by norm_num)).2.1 rfl : (qSat 0).generateSat qDuals qSols (qSatSt 0) = (.ok [], qSatEnd 0)) ?_ ?_
  · have e : (qSat 0).leaf.id = 0 := rfl
    rw [ht, e]
    push_cast
    linarith
  · have e : (qSat 0).targets.length = 2 := rfl
    rw [ht, e]
    norm_num

/-- All duals of the demo master problem are at most 1. -/
example : IntModel int64Max (qSatEnd 0).m := by
  have ht : numTerms 1 (qSat 0) [] = 6 := (qSatFacts 0 (by norm_num)).2.2.2.2.2.2
  have hw : keptWeight (qSat 0) ≤ 4 := by
    rw [keptWeight_eq]
    decide +kernel
  refine C127_bounded_duals (iOk 0 (by norm_num)) (iKind 0) (iReached 0 (by norm_num)) (by decide +kernel)
    (Prod.ext (qSatFacts 0 (by norm_num)).2.1 rfl : (qSat 0).generateSat qDuals qSols (qSatSt 0) = (.ok [], qSatEnd 0)) (B := 1) (by norm_num)
    (by decide +kernel) (by decide +kernel) (by decide +kernel) ?_
  · have e : (qSat 0).targets.length = 2 := rfl
    rw [ht, e]
    unfold int64Max
    norm_num
    linarith

/-- The cut generation model of the demo master problem after solving the LP. -/
example : (((addCuts qOracle qEnd).2.cp.obj.map (fun t => |t.2|)).sum : ℤ) ≤ (1000000 * (2 ^ 1 * (1 + 0) + 2 * 0 * qEnd.paths.length) + qEnd.paths.length : ℚ) := by
  have hr : Reached 1 qConf qOracle qPaths qSplits (some qRows) qEnd := .rmp qReached
  have hf := ((C40_master_program qSetup qGood qSound hr).1 qEnd.pathSol).1 (checkLP_sound _ _ (by decide +kernel))
  exact (C127_cut qSetup qGood qSound hr le_rfl (by simpa using hf.path_nonneg) (fun l hl => by rw [hf.leaf l hl]; norm_num)).2

/-! ### Outside the range: optimal duals of any size -/

/-- The optimal duals of the demo, with `K` moved from leaf 1 to leaf 0 and back on the constraints of the splits. -/
def bigDual (K : ℚ) (i : ℕ) : ℚ := [1 + K, 1 - K, 1, 0, -K, -K, K, K].getD i 0

def bigOracle (K : ℚ) : Oracle := { qOracle with lp := fun m _ => ⟨.optimal, qSol, bigDual K, act m.vars.length m.obj qSol + m.offset⟩ }

def bigEnd (K : ℚ) : MS := (solveRmp qConf (bigOracle K) qStart).2

def bigDuals (K : ℚ) : Duals :=
  match (solveRmp qConf (bigOracle K) qStart).1 with
  | .ok D => D
  | .error _ => ⟨[], [], fun _ _ _ => none, [], []⟩

def bigK : ℚ := 10 ^ 14

def bigSt : SubSt := ((qSat 0).update (bigDuals bigK) SubSt.new).2

def bigFinal : SubSt := ((qSat 0).generateSat (bigDuals bigK) (fun _ => []) bigSt).2

theorem big_facts : (solveRmp qConf (bigOracle bigK) qStart).1.isOk = true ∧ (bigEnd bigK).last.status = .optimal ∧
    checkDuals (bigEnd bigK).m 0 (bigEnd bigK).last = true ∧ checkLP (bigEnd bigK).m (bigEnd bigK).last.values = true ∧
    ((qSat 0).update (bigDuals bigK) SubSt.new).1 = .ok () ∧
    ((qSat 0).generateSat (bigDuals bigK) (fun _ => []) bigSt).1 = .ok [] ∧
    bigFinal.m.obj (bigFinal.idx (.u 0 0)) = 10 ^ 19 ∧ bigFinal.idx (.u 0 0) < bigFinal.m.vars.length := by decide +kernel

/-- **C127 needs a bound on the duals.** A feasible LP solution with exact optimal duals (so an optimal one), but the model that the pricing
problem gives to CP-SAT is not in the range of 64 bit integers. -/
theorem C127_unbounded_duals : ∃ D, solveRmp qConf (bigOracle bigK) qStart = (.ok D, bigEnd bigK) ∧ (bigEnd bigK).last.status = .optimal ∧
    (bigEnd bigK).m.FeasibleLP (bigEnd bigK).last.values ∧ OptimalDuals (bigEnd bigK).m 0 (bigEnd bigK).last ∧
    ∃ st st', (qSat 0).update D SubSt.new = (.ok (), st) ∧ (qSat 0).generateSat D (fun _ => []) st = (.ok [], st') ∧
      ¬ IntModel int64Max st'.m := by
  obtain ⟨h1, h2, h3, h4, h5, h6, h7, h8⟩ := big_facts
  refine ⟨bigDuals bigK, ?_, h2, checkLP_sound _ _ h4, checkDuals_sound _ _ _ h3, bigSt, bigFinal, Prod.ext h5 rfl, Prod.ext h6 rfl, ?_⟩
  · refine Prod.ext ?_ rfl
    unfold bigDuals
    rcases hr : (solveRmp qConf (bigOracle bigK) qStart).1 with e | D
    · rw [hr] at h1; cases h1
    · rfl
  · intro h
    have hs := h.obj_sum
    have hle := Finset.single_le_sum (f := fun i => |bigFinal.m.obj i|) (fun i _ => abs_nonneg _) (Finset.mem_range.2 h8)
    simp only [h7] at hle
    have := hle.trans hs
    unfold int64Max at this
    norm_num at this

end Verif.DTree.Demo
