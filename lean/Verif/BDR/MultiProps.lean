import Verif.BDR.FitExamples
import Verif.BDR.FitIdeal
import Verif.Fit.Classes
import Verif.Fit.Rounds
import Verif.LP.Weak

/-!
# Rule classifiers trained on more than two classes (C112)

`fit` accepts any number of classes of at least two. With more than two, `predict` never returns the labels after the second one, and the master
and the pricing problems disagree about the rows of these classes, so that `fit` can raise although all solvers are exact.
-/

set_option linter.unusedSectionVars false

namespace Verif.BDR

open MP Spec

variable {Ω : Type}

/-- All solvers are exact: a program that has an optimum gets one as answer, an LP together with optimal duals. -/
structure ExactSolvers (o : Oracle Ω) : Prop where
  lp : ∀ m ω, m.maximize = false → (∀ v ∈ m.vars, v.lb = some 0 ∧ v.ub = none) →
    (∀ k ∈ m.cons, ∀ l u, k.lb = some l → k.ub = some u → l = u) → (∃ a, m.FeasibleLP a) → (∃ B, ∀ a, m.FeasibleLP a → B ≤ m.value a) →
    (o.lp m ω).1.status = .optimal ∧ IsOptimalLP m (o.lp m ω).1 ∧ DualFeasible m 0 (o.lp m ω).1.duals ∧
      (o.lp m ω).1.objective = m.dualValue (o.lp m ω).1.duals
  mip : ∀ m ω, m.maximize = false → (∀ v ∈ m.vars, v.int = true) → (∃ a, m.Feasible a) → (∃ B, ∀ a, m.Feasible a → B ≤ m.value a) →
    (o.mip m ω).1.status = .optimal ∧ IsOptimal m (o.mip m ω).1
  ip : ∀ m ω, m.maximize = false → (∀ v ∈ m.vars, v.int = true) → (∃ a, m.Feasible a) → (∃ B, ∀ a, m.Feasible a → B ≤ m.value a) →
    (o.ip m ω).1.status = .optimal ∧ IsOptimal m (o.ip m ω).1

/-- There are exact solvers. -/
theorem exact_solvers (clock : Ω → ℚ × Ω) : ExactSolvers (exact clock) where
  lp _ _ h1 h2 h3 h4 h5 := exactLp_spec h1 h2 h3 h4 h5
  mip _ _ h1 h2 h3 h4 := exactIp_spec h1 h2 h3 h4
  ip _ _ h1 h2 h3 h4 := exactIp_spec h1 h2 h3 h4

/-! ## Predictions -/

theorem predict_two {c0 c1 : ℤ} {rest : List ℤ} (e : List Clause) (X : List (List ℚ)) :
    predict (c0 :: c1 :: rest) e X = .ok (X.map (fun r => if Rule e r then c1 else c0)) := by
  unfold predict Sk.inverseTransform
  induction X with
  | nil => rfl
  | cons r X ih =>
    simp only [List.map_cons, List.mapM_cons, ih]
    have : Sk.inverseOne (c0 :: c1 :: rest) (predictRow e r : ℤ) = .ok (if Rule e r then c1 else c0) := by
      rw [predictRow_eq]
      split <;> simp [Sk.inverseOne]
    rw [this]
    rfl

/-- C112: after a successful training on any number of classes, `predict` returns labels below which there is at most one other training label:
the two smallest ones. -/
theorem C112_two_labels (o : Oracle Ω) (C p : ℚ) (kinds : List (List Kind)) (maxIt : ℤ) (limit : ℚ) (X : Data) (fuel : ℕ) (y : List ℤ)
    (e0 : Fit.Est) (ω : Ω) {u : Unit} {s} (hr : fitNew o C p kinds maxIt limit X fuel y e0 ω = some (.ok u, s)) (Z : List (List ℚ)) :
    ∃ ys, predict s.est.classes s.world.master.explanation Z = .ok ys ∧
      ∀ v ∈ ys, v ∈ y ∧ ∀ a ∈ y, ∀ b ∈ y, a < v → b < v → a = b := by
  have hcl : s.est.classes = Sk.uniqueLabels y := Fit.fit_classes hr
  have h2 : 2 ≤ (Sk.uniqueLabels y).length := by
    by_contra hlt
    unfold fitNew Fit.fit at hr
    simp only [Fit.now, Fit.St.set, Fit.St.log] at hr
    have := (if_pos (show (Sk.uniqueLabels y).length ≤ 1 by omega)).symm.trans hr
    simp at this
  rw [hcl]
  have hs := Sk.sorted_uniqueLabels y
  have hm := Sk.mem_uniqueLabels y
  generalize Sk.uniqueLabels y = cl at h2 hs hm
  match cl, h2, hs, hm with
  | c0 :: c1 :: rest, _, hs, hm =>
    rw [predict_two]
    refine ⟨_, rfl, ?_⟩
    intro v hv
    obtain ⟨r, -, rfl⟩ := List.mem_map.1 hv
    simp only [List.pairwise_cons, List.mem_cons] at hs
    obtain ⟨h0, h1, -⟩ := hs
    have key : ∀ a ∈ y, a = c0 ∨ c1 ≤ a := by
      intro a ha
      rcases List.mem_cons.1 ((hm a).2 ha) with rfl | h
      · exact .inl rfl
      · rcases List.mem_cons.1 h with rfl | h
        · exact .inr le_rfl
        · exact .inr (h1 a h).le
    have h01 := h0 c1 (.inl rfl)
    constructor
    · split
      · exact (hm c1).1 (by simp)
      · exact (hm c0).1 (by simp)
    · intro a ha b hb hav hbv
      have hle : (if Rule s.world.master.explanation r then c1 else c0) ≤ c1 := by split <;> omega
      rcases key a ha with rfl | h <;> rcases key b hb with rfl | h' <;> omega

/-- C112: every training row whose label is neither the smallest nor the second smallest one is misclassified. -/
theorem C112_third_label (o : Oracle Ω) (C p : ℚ) (kinds : List (List Kind)) (maxIt : ℤ) (limit : ℚ) (X : Data) (fuel : ℕ) (y : List ℤ)
    (e0 : Fit.Est) (ω : Ω) {u : Unit} {s} (hr : fitNew o C p kinds maxIt limit X fuel y e0 ω = some (.ok u, s)) {ys : List ℤ}
    (hp : predict s.est.classes s.world.master.explanation X.rows = .ok ys) {i : ℕ} {t v : ℤ} (ht : y[i]? = some t) (hv : ys[i]? = some v)
    (h3 : ∃ a ∈ y, ∃ b ∈ y, a < b ∧ b < t) : v ≠ t := by
  obtain ⟨ys', hp', h⟩ := C112_two_labels o C p kinds maxIt limit X fuel y e0 ω hr X.rows
  rw [hp] at hp'
  cases hp'
  rintro rfl
  obtain ⟨a, ha, b, hb, hab, hbt⟩ := h3
  have := (h v (List.mem_of_getElem? hv)).2 a ha b hb (hab.trans hbt) hbt
  omega

/-! ## A data set on which training raises -/

namespace Multi

/-- Three rows with one feature. -/
def X : Data := ⟨[[0], [1], [0]], 1⟩

/-- Three classes. -/
def labels : List ℤ := [2, 1, 0]

def py : List ℕ := [2, 1, 0]

theorem encoded_labels : Sk.transform (Sk.uniqueLabels labels) labels = py := by decide +kernel

theorem posM_X : posM X.rows py = [[0], [1]] := by decide +kernel

theorem negM_X : negM X.rows py = [[0], [0]] := by decide +kernel

/-- The bounds as a test. -/
def within (lb ub : Option ℚ) (x : ℚ) : Bool := lb.all (fun l => decide (l ≤ x)) && ub.all (fun u => decide (x ≤ u))

theorem inBounds_within {lb ub : Option ℚ} {x : ℚ} (h : within lb ub x = true) : inBounds lb ub x := by
  unfold within at h
  cases lb <;> cases ub <;> simp_all [inBounds]

theorem feasible_test {m : Model} {a : ℕ → ℚ} (h1 : ∀ i < m.vars.length, (m.vars[i]?.all (fun v => within v.lb v.ub (a i))) = true)
    (h2 : ∀ k ∈ m.cons, within k.lb k.ub (activity m.vars.length k.coeff a) = true) : m.FeasibleLP a := by
  refine ⟨fun i v hv => ?_, fun c k hk => inBounds_within (h2 k (List.mem_of_getElem? hk))⟩
  have := h1 i (List.getElem?_eq_some_iff.1 hv).1
  rw [hv] at this
  exact inBounds_within this

/-- The two masters of the run. -/
def opsOf : Bool → List Op
  | false => []
  | true => [.addColumn [0]]

abbrev mast (b : Bool) : Master := after 10 1 X py (opsOf b)

theorem mast_clauses (b : Bool) : clausesOf (opsOf b) = if b then [[], [0]] else [[]] := by cases b <;> decide +kernel

theorem mast_inv (b : Bool) : Inv (mast b) (if b then [[], [0]] else [[]]) ∧ (mast b).X = X ∧ (mast b).y = py ∧ (mast b).C = 10 ∧ (mast b).p = 1 := by
  rw [← mast_clauses]
  exact after_inv 10 1 X py (opsOf b) rfl

theorem mast_feasible (b : Bool) : (mast b).solver.FeasibleLP (fun v => if v < 2 then 1 else 0) := by
  cases b
  · exact feasible_test (by decide +kernel) (by decide +kernel)
  · exact feasible_test (by decide +kernel) (by decide +kernel)

/-- The best duals known in advance. -/
def star : Bool → ℕ → ℚ
  | false, c => if c = 0 then 0 else 1
  | true, c => if c = 1 then 1 else 0

theorem star_dual (b : Bool) : DualFeasible (mast b).solver 0 (star b) := by
  refine Demo.dual_of rfl ?_ ?_ ?_ ?_
  · cases b <;> simp [star]
  · intro i
    cases b <;> simp only [star] <;> split <;> norm_num
  · intro i _
    cases b <;> simp only [star] <;> split <;> norm_num
  · rw [mast_clauses]
    cases b <;> decide +kernel

theorem mast_vars (b : Bool) : ∀ v ∈ (mast b).solver.vars, v.lb = some 0 ∧ v.ub = none := by
  cases b <;> decide +kernel

theorem mast_cons (b : Bool) : ∀ k ∈ (mast b).solver.cons, ∀ l u, k.lb = some l → k.ub = some u → l = u := by
  have h : ∀ k ∈ (mast b).solver.cons, k.lb = none ∨ k.ub = none := by cases b <;> decide +kernel
  intro k hk l u hl hu
  rcases h k hk with h | h
  · rw [h] at hl; cases hl
  · rw [h] at hu; cases hu

theorem star_value (b : Bool) : (mast b).solver.dualValue (star b) = if b then 1 else 2 := by
  cases b <;> decide +kernel

theorem mast_bounded (b : Bool) : ∀ a, (mast b).solver.FeasibleLP a → (if b then 1 else 2) ≤ (mast b).solver.value a := by
  intro a ha
  rw [← star_value]
  exact LP.weak_duality_min (fun v hv => (mast_vars b v hv).1) (mast_cons b) (star_dual b) ha

/-- The duals handed to the pricing problems. -/
def dualsOf : Bool → ℚ × List ℚ
  | false => (0, [1, 1])
  | true => (0, [1, 0])

/-- The optimal duals are unique. -/
theorem mast_duals {o : Oracle Ω} (ho : ExactSolvers o) (b : Bool) (ω : Ω) :
    (mast b).solveRmp (o.lp (mast b).solver ω).1 = .ok (dualsOf b) := by
  obtain ⟨hi, hX, hy, hC, hp⟩ := mast_inv b
  obtain ⟨-, ⟨hf, hv, -⟩, hd, hs⟩ := ho.lp (mast b).solver ω hi.max (mast_vars b) (mast_cons b) ⟨_, mast_feasible b⟩ ⟨_, mast_bounded b⟩
  have hopt := mast_bounded b _ hf
  rw [← hv, hs, hi.dualValue, hX, hy, hC, posM_X] at hopt
  rw [hi.solveRmp, hX, hy, posM_X]
  generalize (o.lp (mast b).solver ω).1.duals = d at hd hopt
  have hn : (posM (mast b).X.rows (mast b).y).length = 2 := by rw [hX, hy, posM_X]; rfl
  have hvl := hi.varsLen
  have h0 : d 0 ≤ 0 := hd.le 0 _ hi.cons0 rfl
  have x1 := hd.cost 0 (by rw [hvl, hn]; omega)
  have x2 := hd.cost 1 (by rw [hvl, hn]; omega)
  rw [hi.reducedCost_xi d 0 (by rw [hn]; omega), hp] at x1
  rw [hi.reducedCost_xi d 1 (by rw [hn]; omega), hp] at x2
  simp only [List.length_cons, List.length_nil, zero_add, Nat.reduceAdd, Finset.sum_range_succ, Finset.sum_range_zero] at hopt
  have hlist : (List.range [[(0 : ℚ)], [1]].length).map (fun i => d (i + 1)) = [d 1, d 2] := rfl
  rw [hlist]
  cases b with
  | false =>
    simp only [Bool.false_eq_true, if_false] at hopt
    have e0 : d 0 = 0 := by linarith
    have e1 : d 1 = 1 := by linarith
    have e2 : d 2 = 1 := by linarith
    rw [e0, e1, e2]
    simp [dualsOf]
  | true =>
    simp only [if_true] at hopt hi
    have g2 : 0 ≤ d 2 := by
      have hr : (posM (mast true).X.rows (mast true).y)[1]? = some [1] := by rw [hX, hy, posM_X]; rfl
      exact hd.ge 2 _ (hi.consS 1 _ hr) rfl
    have x3 := hd.cost 3 (by rw [hvl, hn]; simp)
    have e3 := hi.reducedCost d 1 [0] rfl
    rw [hX, hy, posM_X, negM_X] at e3
    have e4 : (mast true).solver.reducedCost d 3 = 0 - d 2 - d 0 * 2 := by
      have : (mast true).solver.reducedCost d ([[(0 : ℚ)], [1]].length + 1) = (mast true).solver.reducedCost d 3 := rfl
      rw [← this, e3]
      have s1 : numSat [[(0 : ℚ)], [0]] [0] = 0 := by decide +kernel
      have s2 : ¬ Sat ([[(0 : ℚ)], [1]].getD 0 []) [0] := by decide +kernel
      have s3 : Sat ([[(0 : ℚ)], [1]].getD 1 []) [0] := by decide +kernel
      rw [s1]
      simp only [List.length_cons, List.length_nil, zero_add, Nat.reduceAdd, Finset.sum_range_succ, Finset.sum_range_zero]
      rw [if_neg s2, if_pos s3]
      norm_num
    rw [e4] at x3
    have e0 : d 0 = 0 := by linarith
    have e2 : d 2 = 0 := by linarith
    have e1 : d 1 = 1 := by linarith
    rw [e0, e1, e2]
    simp [dualsOf]

/-- The integer pricing problem returns the clause on feature 0 in both rounds. -/
theorem sub_price {o : Oracle Ω} (ho : ExactSolvers o) (b : Bool) (hist) (ω : Ω) :
    ((subAfter 10 X py hist).generateColumns X py (dualsOf b) (fun m => (o.mip m ω).1)).1 = .ok [[0]] := by
  have h1 : 0 ≤ (dualsOf b).1 := by cases b <;> simp [dualsOf]
  have h2 : ∀ x ∈ (dualsOf b).2, 0 ≤ x := by cases b <;> simp [dualsOf]
  have hl : py.length = X.rows.length := rfl
  rcases generateColumns_cases (subAfter_ok 10 X py hist) (dualsOf b) (fun m => (o.mip m ω).1) with ⟨-, hn⟩ | ⟨-, -, -, e⟩
  · exact absurd ⟨h1, h2⟩ hn
  · rw [e]
    have hf := C27_feasible 10 X py [] (dualsOf b) hl (by norm_num) h1 h2
    rw [pricingModel_eq _ _ _ _ _ h1 h2] at hf
    have hv : ∀ v ∈ (subModel 10 X py (dualsOf b).1 (dualsOf b).2).vars, v = boolVar := fun v hv => (List.mem_replicate.1 hv).2
    obtain ⟨hst, ⟨hfeas, hobj⟩, hbest⟩ := ho.mip (subModel 10 X py (dualsOf b).1 (dualsOf b).2) ω rfl (fun v h => by rw [hv v h]; rfl) hf
      (LP.bool_bounded_below hv)
    generalize (o.mip (subModel 10 X py (dualsOf b).1 (dualsOf b).2) ω).1 = ans at hst hfeas hobj hbest
    obtain ⟨c1, c2⟩ := price_complete (X := X) (y := py) (D := 10) (cc := (dualsOf b).1) (cs := (dualsOf b).2) hl (k := [0])
      ⟨by simp, by simp [X]⟩ (by norm_num)
    have hle := hbest _ c1
    have hle : ans.objective ≤ _ := hle
    rw [c2] at hle
    have p0 : priceCost X.rows py (dualsOf b).1 (dualsOf b).2 [0] = -1 := by cases b <;> decide +kernel
    have pn : priceCost X.rows py (dualsOf b).1 (dualsOf b).2 [] = 1 := by cases b <;> decide +kernel
    rw [p0] at hle
    have hs := (price_sound hl h2 hfeas).1
    rw [← hobj] at hs
    rw [if_neg (by rw [hst]; simp), if_neg (by unfold threshold; intro h; linarith)]
    have hrs : readSet X.nFeat ans.values = [] ∨ readSet X.nFeat ans.values = [0] := by
      change (List.range 1).filter _ = [] ∨ (List.range 1).filter _ = [0]
      rw [List.range_one]
      by_cases h : ans.values 0 > 0
      · right; simp [h]
      · left; simp [h]
    rcases hrs with h | h
    · rw [h, pn] at hs; linarith
    · rw [h]

theorem heuristic_price (b : Bool) : heuristicColumns 1 X py (dualsOf b) = .ok [[0]] := by cases b <;> decide +kernel

/-- The objects before (`false`) and after (`true`) the first column was added. -/
def Phase (o : Oracle Ω) (kinds : List (List Kind)) (b : Bool) (w : World Ω) : Prop := ∃ tr, Core o 10 1 kinds X py w tr (opsOf b)

theorem round {o : Oracle Ω} (ho : ExactSolvers o) {kinds : List (List Kind)} (hk : kinds = plainKinds 10 ∨ kinds = heuristicKinds 10) (maxIt : ℤ)
    {limit : ℚ} (hlim : limit ≤ 0) (b : Bool) :
    Fit.Round (env o X kinds) (config kinds maxIt limit) (Phase o kinds b) (dualsOf b) [0] where
  limit := hlim
  shape := by rcases hk with rfl | rfl <;> exact ⟨_, rfl⟩
  clock w := by rintro ⟨tr, h⟩; exact ⟨tr, h.clock _⟩
  noReset w := by simp [env]
  solveRmp w := by
    rintro ⟨tr, h⟩
    refine ⟨?_, tr, h.clock _⟩
    simp only [env, h.master]
    exact mast_duals ho b w.ω
  improved w h := ⟨⟨_, rfl⟩, h⟩
  update l i w h := ⟨⟨_, rfl⟩, h⟩
  generate w := by
    rintro ⟨tr, h⟩
    rcases hk with rfl | rfl
    · obtain ⟨h1, hist, ω, h2⟩ := h.generate 0 0 (dualsOf b) (k := .exact 10) rfl
      exact ⟨h2.trans (sub_price ho b hist ω), _, h1⟩
    · obtain ⟨h1, h2⟩ := h.generate 0 0 (dualsOf b) (k := .heuristic 1) rfl
      have h2 : _ = heuristicColumns 1 X py (dualsOf b) := h2
      exact ⟨h2.trans (heuristic_price b), _, h1⟩

/-- C112: both rule classifiers with their default arguments `C = 10`, `p = 1` raise `AssertionError` when they are trained on this data,
although every solver is exact: in the second round the pricing problem offers the clause the master already has. -/
theorem C112_raises {o : Oracle Ω} (ho : ExactSolvers o) {kinds : List (List Kind)} (hk : kinds = plainKinds 10 ∨ kinds = heuristicKinds 10) (maxIt : ℤ)
    (hm : maxIt ≤ 0 ∨ 2 ≤ maxIt) {limit : ℚ} (hlim : limit ≤ 0) (e0 : Fit.Est) (ω : Ω) (fuel : ℕ) :
    ∃ s, fitNew o 10 1 kinds maxIt limit X (fuel + 2) labels e0 ω = some (.error .assertionError, s) := by
  unfold fitNew
  refine Fit.fit_two_rounds (round ho hk maxIt hlim false) (round ho hk maxIt hlim true) ?_ ?_ hm ?_ ?_ fuel
  · rintro w ⟨tr, h⟩
    have hp : Proper X.nFeat [0] := ⟨by simp, by simp [X]⟩
    obtain ⟨ops', h', h2⟩ := h.add rfl 0 0 [0] hp
    rcases h2 with ⟨-, -, e, rfl⟩ | ⟨-, h2⟩
    · exact ⟨e, _, h'⟩
    · rw [mast_clauses] at h2
      simp at h2
  · rintro w ⟨tr, h⟩
    rcases h.addCases rfl [0] with ⟨h0, -⟩ | ⟨-, -, e⟩ | ⟨-, h1, -⟩
    · simp at h0
    · simp only [env, e]
    · rw [mast_clauses] at h1
      simp at h1
  · decide +kernel
  · rw [encoded_labels]
    refine ⟨rfl, _, Fresh.start (t := 0) ?_⟩
    refine ⟨rfl, ?_, by simp, rfl, by simp⟩
    intro l i D hki
    simp [env, World.init, hki]

/-- Such solvers exist, so there is such a run. -/
example : ∃ s, fitNew (exact (fun n : ℕ => ((n : ℚ), n + 1))) 10 1 (plainKinds 10) (-1) (-1) X 2 labels
    ⟨false, [], 0, 0, 0, false, false, [], [], 0, 0, 0, 0, 0⟩ 0 = some (.error .assertionError, s) :=
  C112_raises (exact_solvers _) (.inl rfl) (-1) (.inl (by norm_num)) (by norm_num) _ 0 0

/-- The optimal answers of a run on this data with `max_iterations=1`. -/
def one : Oracle ℕ where
  clock ω := ((ω : ℚ), ω + 1)
  lp _ ω := (⟨.optimal, fun v => if v = 2 then 1 else 0, fun c => if c = 0 then 0 else 1, 2⟩, ω + 1)
  mip m ω := (⟨.optimal, clauseAssign X [0], fun _ => 0, m.value (clauseAssign X [0])⟩, ω + 1)
  ip _ ω := (⟨.optimal, fun v => if v = 0 ∨ v = 3 then 1 else 0, fun _ => 0, 1⟩, ω + 1)

/-- With `max_iterations=1` training succeeds; the row labelled 2 is then classified as 0. -/
example : (fitNew one 10 1 (plainKinds 10) 1 (-1) X 2 labels ⟨false, [], 0, 0, 0, false, false, [], [], 0, 0, 0, 0, 0⟩ 0).map
    (fun r => (r.1.toOption, predict r.2.est.classes r.2.world.master.explanation X.rows)) = some (some (), .ok [0, 1, 0]) := by decide +kernel

end Multi

end Verif.BDR
