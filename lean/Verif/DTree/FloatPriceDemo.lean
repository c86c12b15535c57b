import Verif.DTree.FloatPrice
import Verif.DTree.LinkDemo

/-!
# A concrete instance of pricing with Python's floats (C119)
-/

set_option linter.unusedSectionVars false
set_option linter.unusedSimpArgs false

namespace Verif.DTree.FloatDemo

open MP Spec Fl Demo

/-- Duals with `x` for the leaf: a bit less than `1e-6` for row 0, two numbers that vanish when they are added to 3. -/
def fDuals (x : ℚ) (new : List (List Bool)) : Duals :=
  ⟨[x, 0, 0, 0], [-2251799813 / 2 ^ 51, 0, -3 / 2 ^ 54, 0], fun _ _ _ => none, [-3 / 2 ^ 54], new⟩

def fState : SubSt := ((sConf .sat).updateR binary64.rnd (fDuals 1 [sCut]) SubSt.new).2

theorem fReached : SubReachedR binary64.rnd (sConf .sat) [sCut] fState :=
  SubReachedR.update (cuts := []) .new (fDuals 1 [sCut]) rfl (Prod.ext (by decide +kernel) rfl)

theorem fFloat (x : ℚ) (hx : x = 1 ∨ x = 3) (new : List (List Bool)) : FloatDuals 53 (-1074) 2 (sConf .sat) (fDuals x new) := by
  have r0 : Fl.Rep 53 (-1074) 0 := rep_zero
  have r1 : Fl.Rep 53 (-1074) (-2251799813 / 2 ^ 51) := ⟨-2251799813, -51, by norm_num, by norm_num, by norm_num⟩
  have r2 : Fl.Rep 53 (-1074) (-3 / 2 ^ 54) := ⟨-3, -54, by norm_num, by norm_num, by norm_num⟩
  refine ⟨?_, ?_, fun _ _ _ _ => r0, ?_⟩
  · intro q hq
    simp only [fDuals, List.mem_cons, List.not_mem_nil, or_false] at hq
    rcases hq with rfl | rfl | rfl | rfl
    · exact r1
    · exact r0
    · exact r2
    · exact r0
  · intro q hq
    simp only [fDuals, List.mem_cons, List.not_mem_nil, or_false] at hq
    rw [hq]
    exact r2
  · have rx : Fl.Rep 53 (-1074) x := by
      rcases hx with rfl | rfl
      · exact ⟨1, 0, by norm_num, by norm_num, by norm_num⟩
      · exact ⟨3, 0, by norm_num, by norm_num, by norm_num⟩
    intro q hq
    simp only [fDuals, List.mem_cons, List.not_mem_nil, or_false] at hq
    rcases hq with rfl | rfl | rfl | rfl
    · exact rx
    · exact r0
    · exact r0
    · exact r0

/-- A solver that passes the best point to the callback. -/
def fBest (v : ℕ) : ℚ := if v ∈ [SV.z 0, .y 0, .z 2, .y 2, .yc 0, .u 0 0, .u 1 3, .w 0].map fState.idx ∧ v < 11 then 1 else 0

def fSols (_ : Model) : List (ℕ → ℚ) := [fBest]

def fSat (x : ℚ) : SubSt := ((sConf .sat).generateSatR binary64.rnd (fDuals x []) fSols fState).2

theorem fSat_facts (x : ℚ) (hx : x = 1 ∨ x = 3) : (fSat x).m.Feasible fBest ∧
    (∀ v ∈ (fSat x).m.vars, v.lb = some 0 ∧ v.ub = some 1) ∧
    ((List.range (fSat x).m.vars.length).map (fun v => max ((fSat x).m.obj v) 0)).sum = 300000 ∧
    act (fSat x).m.vars.length (fSat x).m.obj fBest = 300000 := by
  rcases hx with rfl | rfl
  · exact ⟨check_sound _ _ (by decide +kernel) (by decide +kernel), by decide +kernel, by decide +kernel, by decide +kernel⟩
  · exact ⟨check_sound _ _ (by decide +kernel) (by decide +kernel), by decide +kernel, by decide +kernel, by decide +kernel⟩

theorem fSat_opt (x : ℚ) (hx : x = 1 ∨ x = 3) (a : ℕ → ℚ) (ha : (fSat x).m.Feasible a) : (fSat x).m.value a ≤ (fSat x).m.value fBest := by
  obtain ⟨h1, h2, h3, h4⟩ := fSat_facts x hx
  have := value_le _ h2 ha.toFeasibleLP
  rw [h3] at this
  unfold Model.value at this ⊢
  rw [← act_eq _ _ fBest, h4]
  exact this

theorem fSat_gen (x : ℚ) (hx : x = 1 ∨ x = 3) : (sConf .sat).generateSatR binary64.rnd (fDuals x []) fSols fState =
    (.ok (if x = 1 then [⟨0, [1, 0], [3, 0], 3, 0, 0, false⟩] else []), fSat x) := by
  refine Prod.ext ?_ rfl
  rcases hx with rfl | rfl
  · decide +kernel
  · decide +kernel

theorem fTerms : numTerms 2 (sConf .sat) [sCut] = 9 := by decide +kernel

theorem fWeight : keptWeight (sConf .sat) = 3 := by
  rw [keptWeight_eq]
  decide +kernel

theorem fMag (x : ℚ) (hx : x = 1 ∨ x = 3) : magnitude 2 (sConf .sat) [sCut] (fDuals x []) ≤ 7 := by
  rw [magnitude_eq (sOk .sat) rfl]
  rcases hx with rfl | rfl <;> decide +kernel

theorem fBound (x : ℚ) (hx : x = 1 ∨ x = 3) :
    ((numTerms 2 (sConf .sat) [sCut] : ℚ) + 1) * magnitude 2 (sConf .sat) [sCut] (fDuals x []) ≤ 2 ^ 28 := by
  rw [fTerms]
  have := fMag x hx
  norm_num
  linarith

/-- With leaf dual 1 the path is returned, with reduced cost above `9e-7`. -/
example : redCost 2 (sConf .sat) [sCut] (fDuals 1 []) ⟨0, [1, 0], [3, 0], 3, 0, 0, false⟩ > 9 / 10000000 :=
  (C119_sound64 (sOk .sat) rfl (by rw [fWeight]; norm_num) fReached rfl (fFloat 1 (.inl rfl) _) (by rw [fTerms]; norm_num) (fBound 1 (.inl rfl))
    (fSat_gen 1 (.inl rfl)) (by
      intro a ha
      rw [List.mem_singleton.1 ha]
      exact (fSat_facts 1 (.inl rfl)).1) _ (by simp)).2.2.2.2

/-- With leaf dual 3 nothing is returned; no path has a reduced cost above `1.2e-6 + 9e-5`. -/
example : redCost 2 (sConf .sat) [sCut] (fDuals 3 []) ⟨0, [0, 1], [1, 3], 0, 0, 0, false⟩ ≤
    12 / 10000000 + (numTerms 2 (sConf .sat) [sCut] : ℚ) / 100000 :=
  C119_complete64 (sOk .sat) rfl (by rw [fWeight]; norm_num) fReached rfl (fFloat 3 (.inr rfl) _) (by rw [fTerms]; norm_num) (fBound 3 (.inr rfl))
    (fSat_gen 3 (.inr rfl)) (List.mem_singleton.2 rfl) (fSat_facts 3 (.inr rfl)).1
    (fSat_opt 3 (.inr rfl)) (t := 1) ⟨by decide +kernel, rfl, by unfold UsesCand; decide +kernel⟩ (by decide +kernel)
    (by
      unfold hitsOf keptSum
      refine List.sum_nonneg ?_
      intro x hx
      obtain ⟨i, _, rfl⟩ := List.mem_map.1 hx
      dsimp only
      split_ifs
      · exact rowWeight_nonneg _ _
      · exact le_rfl)

/-- **C119**, the rounding matters: for the same duals and the same solution, exact arithmetic returns a path (its reduced cost is above `1e-6`)
and Python's floats return none. -/
theorem C119_differs :
    ((sConf .sat).generateSat (fDuals 3 []) fSols fState).1 = .ok [⟨0, [1, 0], [3, 0], 3, 0, 0, false⟩] ∧
    ((sConf .sat).generateSatR binary64.rnd (fDuals 3 []) fSols fState).1 = .ok [] :=
  ⟨by decide +kernel, by decide +kernel⟩

/-! ## The whole tree -/

def rSt (l : ℕ) : SubSt := ((qSat l).updateR binary64.rnd qDuals SubSt.new).2

def rEnd (l : ℕ) : SubSt := ((qSat l).generateSatR binary64.rnd qDuals qSols (rSt l)).2

theorem rFacts : ∀ l < 2, ((qSat l).updateR binary64.rnd qDuals SubSt.new).1 = .ok () ∧
    ((qSat l).generateSatR binary64.rnd qDuals qSols (rSt l)).1 = .ok [] ∧
    (∀ v ∈ (rEnd l).m.vars, v = boolVar) ∧ checkLP (rEnd l).m (qSatBest l) = true ∧ checkInt (rEnd l).m (qSatBest l) = true ∧
    checkMax (rEnd l).m (act (rEnd l).m.vars.length (rEnd l).m.obj (qSatBest l) + (rEnd l).m.offset) = true ∧
    numTerms 1 (qSat l) [] = 6 := by decide +kernel

theorem qSatOk : ∀ l < 2 ^ 1, SubOk 1 (qSat l) := fun l hl =>
  ⟨(qSubOk l hl).pos, rfl, (qSubOk l hl).leaf_lt, rfl, rfl, (qSubOk l hl).cand_nodup, (qSubOk l hl).targets, (qSubOk l hl).y_lt⟩

theorem rValues : (∀ x ∈ qDuals.row ++ qDuals.cut ++ qDuals.leaf, x = 0 ∨ x = 1) ∧
    (∀ l < 2, ∀ k < 1, ∀ s ∈ cand qNodes (anc 1 l k), (qDuals.ns l (anc 1 l k) s).getD 0 = 0) ∧
    (∀ l < 2, ((qSat l).kept.map (fun i => (qSat l).weight i)).sum = 3) ∧
    (∀ l < 2, (((qSat l).objTerms qDuals 0).map (fun t => |t.2|)).sum + |qDuals.leaf.getD (qSat l).leaf.id 0| ≤ 5) := by
  refine ⟨by decide +kernel, by decide +kernel, by decide +kernel, by decide +kernel⟩

theorem rep01 {x : ℚ} (h : x = 0 ∨ x = 1) : Fl.Rep 53 (-1074) x := by
  rcases h with rfl | rfl
  · exact rep_zero
  · exact ⟨1, 0, by norm_num, by norm_num, by norm_num⟩

example (σ τ : ℕ → ℕ) (hσ : ∀ n < 2 ^ 1 - 1, σ n ∈ Spec.cand qNodes n) (hτ : ∀ l < 2 ^ 1, τ l ∈ [0, 1]) :
    treeHits 1 (qSat 0) σ τ ≤ qEnd.rmpObj + 2 ^ 1 * (1 / 1000000 + evalSlack (1 / 2 ^ 53) (1 / 2 ^ 1075) 6 5 +
      scaleSlack (1 / 2 ^ 53) (1 / 2 ^ 1075) 6 5) + (2 ^ 1 - 1) * 0 := by
  have e : qDuals.newCuts = [] := by decide +kernel
  have ec : qDuals.cut.length = 0 := by decide +kernel
  refine C119_tree binary64 (by norm_num) binary64_accurate (by positivity) (by positivity)
    qSetup qGood qSound qReached qSolve qStatus qDelivered le_rfl (by norm_num) qOptimal (by
      intro rows h
      simp only [Option.some.injEq] at h
      subst h
      intro r hr
      match r, hr with
      | 0, h => exact h
      | 1, h => exact h
      | 2, h => exact h
      | k + 3, h => exact h) (targets := [0, 1]) (y := [0, 1, 0]) (st := rSt) (st' := rEnd) (sols := fun _ => qSols) (best := qSatBest)
    qSatOk ?_ ?_ ?_ ?_ ?_ ?_ ?_ (by norm_num) hσ hτ
  · intro l hl
    refine SubReachedR.update (cuts := []) .new qDuals ?_ (Prod.ext (rFacts l hl).1 rfl)
    rw [ec, e]
    rfl
  · intro l hl
    refine ⟨fun x hx => rep01 (rValues.1 x (by simp [hx])), fun x hx => rep01 (rValues.1 x (by simp [hx])), ?_,
      fun x hx => rep01 (rValues.1 x (by simp [hx]))⟩
    intro k hk s hs
    exact rep01 (.inl (rValues.2.1 l hl k hk s hs))
  · intro l hl
    show keptWeight (qSat l) ≤ 2 ^ 53
    rw [keptWeight_eq, rValues.2.2.1 l hl]
    norm_num
  · intro l hl
    exact Prod.ext (rFacts l hl).2.1 rfl
  · intro l hl
    obtain ⟨-, -, h3, h4, h5, h6, -⟩ := rFacts l hl
    refine ⟨?_, check_sound _ _ h4 h5, ?_⟩
    · unfold qSols
      rw [List.mem_filter]
      refine ⟨?_, by rw [h4, h5]; rfl⟩
      have hl : l < 2 := hl
      match l, hl with
      | 0, _ => simp
      | 1, _ => simp
    · intro a ha
      have := checkMax_sound _ h3 _ h6 a ha
      rw [act_eq] at this
      exact this
  · intro l hl
    rw [e]
    exact le_of_eq (rFacts l hl).2.2.2.2.2.2
  · intro l hl
    rw [e]
    show magnitude 1 (qSat l) [] qDuals ≤ 5
    rw [magnitude_eq (qSatOk l hl) rfl]
    exact rValues.2.2.2 l hl

end Verif.DTree.FloatDemo
