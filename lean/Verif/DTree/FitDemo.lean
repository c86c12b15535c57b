import Verif.DTree.FitIdeal
import Verif.DTree.LinkDemo

/-!
# Concrete runs of `DTreeClassifier.fit`: instances of C71 - C74, and the failure of C51

The solvers used here answer with a given solution whenever its optimality can be verified by computation, and behave like the exact solvers of
`Verif/DTree/FitIdeal.lean` otherwise. So they meet all contracts, and the runs below can be evaluated.
-/

set_option linter.unusedSectionVars false
set_option linter.unusedSimpArgs false

namespace Verif.DTree.Demo

open MP Spec

/-! ## Enumeration with pruning -/

def posSum (l : List ℚ) : ℚ := (l.map (fun c => max c 0)).sum

def negSum (l : List ℚ) : ℚ := (l.map (fun c => min c 0)).sum

/-- The constraint can still be met when the bits `l` come first. -/
def canMeet (k : Option ℚ × Option ℚ × List ℚ) (l : List Bool) : Bool :=
  (match k.1 with | some b => decide (b ≤ dot k.2.2 l + posSum (k.2.2.drop l.length)) | none => true) &&
  (match k.2.1 with | some b => decide (dot k.2.2 l + negSum (k.2.2.drop l.length) ≤ b) | none => true)

def dfs (rows : List (Option ℚ × Option ℚ × List ℚ)) (obj : List ℚ) (b : ℚ) : ℕ → List Bool → Bool
  | 0, l => !(rows.all (fun k => canMeet k l)) || decide (dot obj l ≤ b)
  | k + 1, l => !(rows.all (fun k => canMeet k l)) || decide (dot obj l + posSum (obj.drop l.length) ≤ b) ||
      (dfs rows obj b k (l ++ [false]) && dfs rows obj b k (l ++ [true]))

/-- The same as `checkMax`, faster. -/
def checkDfs (m : Model) (b : ℚ) : Bool :=
  let n := m.vars.length
  dfs (m.cons.map (fun k => (k.lb, k.ub, (List.range n).map k.coeff))) ((List.range n).map m.obj) (b - m.offset) n []

theorem posSum_cons (c : ℚ) (l : List ℚ) : posSum (c :: l) = max c 0 + posSum l := rfl

theorem negSum_cons (c : ℚ) (l : List ℚ) : negSum (c :: l) = min c 0 + negSum l := rfl

theorem posSum_nonneg (l : List ℚ) : 0 ≤ posSum l := by
  induction l with
  | nil => exact le_refl _
  | cons c l ih => rw [posSum_cons]; have := le_max_right c 0; linarith

theorem negSum_nonpos (l : List ℚ) : negSum l ≤ 0 := by
  induction l with
  | nil => exact le_refl _
  | cons c l ih => rw [negSum_cons]; have := min_le_right c 0; linarith

theorem dot_bounds (cs : List ℚ) (l t : List Bool) : dot cs (l ++ t) ≤ dot cs l + posSum (cs.drop l.length) ∧
    dot cs l + negSum (cs.drop l.length) ≤ dot cs (l ++ t) := by
  induction l generalizing cs with
  | nil =>
    have h0 : dot cs [] = 0 := by cases cs <;> rfl
    rw [List.nil_append, h0, List.length_nil, List.drop_zero, zero_add, zero_add]
    induction t generalizing cs with
    | nil =>
      have h0 : dot cs [] = 0 := by cases cs <;> rfl
      rw [h0]; exact ⟨posSum_nonneg _, negSum_nonpos _⟩
    | cons b t ih =>
      cases cs with
      | nil => exact ⟨le_refl _, le_refl _⟩
      | cons c cs =>
        have h0 : dot cs [] = 0 := by cases cs <;> rfl
        obtain ⟨h1, h2⟩ := ih cs h0
        rw [posSum_cons, negSum_cons]
        have e : dot (c :: cs) (b :: t) = (if b then c else 0) + dot cs t := rfl
        rw [e]
        have := le_max_right c 0
        have := le_max_left c 0
        have := min_le_right c 0
        have := min_le_left c 0
        split_ifs <;> constructor <;> linarith
  | cons b l ih =>
    cases cs with
    | nil => simp [dot, posSum, negSum]
    | cons c cs =>
      obtain ⟨h1, h2⟩ := ih cs
      have e : ∀ r, dot (c :: cs) (b :: r) = (if b then c else 0) + dot cs r := fun r => rfl
      rw [List.cons_append, e, e, List.length_cons, List.drop_succ_cons]
      constructor <;> linarith

theorem canMeet_of {k : Option ℚ × Option ℚ × List ℚ} {l t : List Bool} (h : bOk k.1 k.2.1 (dot k.2.2 (l ++ t)) = true) : canMeet k l = true := by
  obtain ⟨lb, ub, cs⟩ := k
  obtain ⟨h1, h2⟩ := dot_bounds cs l t
  unfold canMeet
  unfold bOk at h
  cases lb <;> cases ub <;> simp only [Bool.and_eq_true, decide_eq_true_eq, Bool.true_and, Bool.and_true] at * <;>
    first
    | trivial
    | (constructor <;> linarith)
    | linarith

theorem dfs_sound (rows : List (Option ℚ × Option ℚ × List ℚ)) (obj : List ℚ) (b : ℚ) (k : ℕ) (l : List Bool) (h : dfs rows obj b k l = true)
    (t : List Bool) (ht : t.length = k) (hr : rows.all (fun k => bOk k.1 k.2.1 (dot k.2.2 (l ++ t))) = true) : dot obj (l ++ t) ≤ b := by
  induction k generalizing l t with
  | zero =>
    have : rows.all (fun k => canMeet k l) = true := by
      rw [List.all_eq_true] at hr ⊢
      intro x hx
      exact canMeet_of (hr x hx)
    obtain rfl : t = [] := List.eq_nil_of_length_eq_zero ht
    simp only [dfs, this, Bool.not_true, Bool.false_or, decide_eq_true_eq] at h
    rw [List.append_nil]
    exact h
  | succ k ih =>
    have : rows.all (fun k => canMeet k l) = true := by
      rw [List.all_eq_true] at hr ⊢
      intro x hx
      exact canMeet_of (hr x hx)
    simp only [dfs, this, Bool.not_true, Bool.false_or, Bool.or_eq_true, Bool.and_eq_true, decide_eq_true_eq] at h
    rcases h with h | ⟨h1, h2⟩
    · exact (dot_bounds obj l t).1.trans h
    · cases t with
      | nil => simp at ht
      | cons c t =>
        have e : l ++ c :: t = (l ++ [c]) ++ t := by simp
        rw [e] at hr ⊢
        cases c
        · exact ih _ h1 t (by simpa using ht) hr
        · exact ih _ h2 t (by simpa using ht) hr

theorem bitLists_length (n : ℕ) : ∀ l ∈ bitLists n, l.length = n := by
  induction n with
  | zero => simp [bitLists]
  | succ n ih =>
    intro l hl
    simp only [bitLists, List.mem_flatMap] at hl
    obtain ⟨l', h1, h2⟩ := hl
    simp only [List.mem_cons, List.not_mem_nil, or_false] at h2
    rcases h2 with rfl | rfl <;> simp [ih l' h1]

theorem checkDfs_max {m : Model} {b : ℚ} (h : checkDfs m b = true) : checkMax m b = true := by
  unfold checkMax
  rw [List.all_eq_true]
  intro l hl
  rw [Bool.or_eq_true, Bool.not_eq_true', decide_eq_true_eq]
  by_cases hr : ((m.cons.map (fun k => (k.lb, k.ub, (List.range m.vars.length).map k.coeff))).all (fun k => bOk k.1 k.2.1 (dot k.2.2 l))) = true
  · right
    have := dfs_sound _ _ _ _ _ h l (bitLists_length _ _ hl) hr
    rw [List.nil_append] at this
    linarith
  · left
    simpa using hr

/-! ## Solvers with suggested answers -/

def lpAns (m : Model) (sol dual : ℕ → ℚ) : Answer := ⟨.optimal, sol, dual, act m.vars.length m.obj sol + m.offset⟩

/-- The suggested LP answer that is verified, if any. -/
def lpFind (m : Model) (cands : List ((ℕ → ℚ) × (ℕ → ℚ))) : Option Answer :=
  (cands.map (fun c => lpAns m c.1 c.2)).find? (fun ans => checkDuals m 0 ans && checkLP m ans.values)

/-- Additional conditions for integer programs: integral, nonnegative variables and equations only. -/
def ipFind (m : Model) (cands : List ((ℕ → ℚ) × (ℕ → ℚ))) : Option Answer :=
  (cands.map (fun c => lpAns m c.1 c.2)).find? (fun ans => checkDuals m 0 ans && checkLP m ans.values && checkInt m ans.values && m.maximize &&
    m.vars.all (fun v => decide (v.lb = some 0)) && m.cons.all (fun k => (k.lb.isSome && decide (k.lb = k.ub)) || (k.lb.isNone && k.ub.isSome)))

/-- The suggested solution of a 0/1 program that is verified by enumeration. -/
def satFind (m : Model) (cands : List (ℕ → ℚ)) : Option (ℕ → ℚ) :=
  cands.find? (fun a => checkLP m a && checkInt m a && m.maximize && m.vars.all (fun v => decide (v = boolVar)) &&
    checkDfs m (act m.vars.length m.obj a + m.offset))

noncomputable def guidedLp (cands : List ((ℕ → ℚ) × (ℕ → ℚ))) (m : Model) : Answer :=
  match lpFind m cands with
  | some a => a
  | none => exactLp m

noncomputable def guidedIp (cands : List ((ℕ → ℚ) × (ℕ → ℚ))) (m : Model) : Answer :=
  match ipFind m cands with
  | some a => a
  | none => exactIp m

noncomputable def guidedSols (cands : List (ℕ → ℚ)) (m : Model) : List (ℕ → ℚ) :=
  match satFind m cands with
  | some a => [a]
  | none => exactSols m

/-- The solvers; the clock stands still, the random draws are given, and the cut generation run finds nothing. -/
noncomputable def guided (lp ip : List ((ℕ → ℚ) × (ℕ → ℚ))) (sat : List (ℕ → ℚ)) (draw : ℕ → ℕ → ℕ) : FitOracle Unit where
  clock := fun _ => (0, ())
  draws := fun _ => (⟨draw, id⟩, ())
  sols := fun m _ => (guidedSols sat m, ())
  mip := fun m _ => (exactIp m, ())
  master := ⟨fun m _ => guidedLp lp m, fun _ _ => [], guidedIp ip⟩

theorem lpFind_sound {m : Model} {cands : List ((ℕ → ℚ) × (ℕ → ℚ))} {a : Answer} (h : lpFind m cands = some a) :
    a.status = .optimal ∧ OptimalDuals m 0 a := by
  unfold lpFind at h
  have h1 := List.find?_some h
  have h2 := List.mem_of_find?_eq_some h
  obtain ⟨c, -, rfl⟩ := List.mem_map.1 h2
  rw [Bool.and_eq_true] at h1
  exact ⟨rfl, checkDuals_sound _ _ _ h1.1⟩

theorem ipFind_sound {m : Model} {cands : List ((ℕ → ℚ) × (ℕ → ℚ))} {a : Answer} (h : ipFind m cands = some a) :
    a.status = .optimal ∧ IsOptimal m a := by
  unfold ipFind at h
  have h1 := List.find?_some h
  have h2 := List.mem_of_find?_eq_some h
  obtain ⟨c, -, rfl⟩ := List.mem_map.1 h2
  simp only [Bool.and_eq_true, List.all_eq_true, decide_eq_true_eq, Bool.or_eq_true] at h1
  obtain ⟨⟨⟨⟨⟨h1, h2⟩, h3⟩, h4⟩, h5⟩, h6⟩ := h1
  have hd := checkDuals_sound _ _ _ h1
  refine ⟨rfl, ⟨check_sound _ _ h2 h3, ?_⟩, ?_⟩
  · change act _ _ _ + _ = _
    rw [act_eq]
    rfl
  · intro b hb
    rw [better_max h4]
    have hw := weak_duality m (lpAns m c.1 c.2).duals b (by
      intro i k hk
      have hc := hb.cons i k hk
      rcases h6 k (List.mem_of_getElem? hk) with ⟨h7, h8⟩ | ⟨h7, h8⟩
      · obtain ⟨l, hl⟩ := Option.isSome_iff_exists.1 h7
        have hu : k.ub = some l := by rw [← h8]; exact hl
        rw [hl, hu, inBounds_both] at hc
        have : activity m.vars.length k.coeff b = k.rhs := by
          unfold Cons.rhs
          rw [hl]
          exact le_antisymm hc.2 hc.1
        rw [this]
      · have hl : k.lb = none := by simpa using h7
        obtain ⟨u, hu⟩ := Option.isSome_iff_exists.1 h8
        have h9 := hd.le i k hk hl
        refine mul_le_mul_of_nonneg_left ?_ h9
        unfold Cons.rhs
        rw [hl, hu]
        exact hc.2 u hu)
    rw [hd.value] at hw
    have : ∑ v ∈ Finset.range m.vars.length, m.reducedCost (lpAns m c.1 c.2).duals v * b v ≤ 0 := by
      refine Finset.sum_nonpos ?_
      intro v hv
      have hlt := Finset.mem_range.1 hv
      have h9 := (hb.bounds v _ (List.getElem?_eq_getElem hlt)).1 0 (h5 _ (List.getElem_mem hlt))
      exact mul_nonpos_of_nonpos_of_nonneg (hd.cost v hlt) h9
    linarith

theorem satFind_sound {m : Model} {cands : List (ℕ → ℚ)} {a : ℕ → ℚ} (h : satFind m cands = some a) :
    m.Feasible a ∧ ∀ b, m.Feasible b → m.value b ≤ m.value a := by
  unfold satFind at h
  have h1 := List.find?_some h
  simp only [Bool.and_eq_true, List.all_eq_true, decide_eq_true_eq] at h1
  obtain ⟨⟨⟨⟨h1, h2⟩, h3⟩, h4⟩, h5⟩ := h1
  refine ⟨check_sound _ _ h1 h2, ?_⟩
  intro b hb
  have := checkMax_sound m h4 _ (checkDfs_max h5) b hb
  rw [act_eq] at this
  exact this

variable {d : ℕ} {A : Args} {X : List (List ℚ)} {y : List ℤ}

theorem guided_contract (hf : FitOk d A X (encoded y)) (lp ip : List ((ℕ → ℚ) × (ℕ → ℚ))) (sat : List (ℕ → ℚ)) (draw : ℕ → ℕ → ℕ) :
    FitContract d A X (guided lp ip sat draw) 0 where
  tol_nonneg := le_refl _
  tol_le := by norm_num
  cut := fun cp k a ha => by simp [guided] at ha
  lp := fun s hs h1 h2 _ => by
    change (guidedLp lp s.m).status = _ ∧ OptimalDuals s.m 0 (guidedLp lp s.m)
    unfold guidedLp
    cases h : lpFind s.m lp with
    | some a => exact lpFind_sound h
    | none =>
      obtain ⟨h3, -, h4⟩ := exactLp_spec (master_standard (o := guided lp ip sat draw) hf (fun cp k a ha => by simp [guided] at ha) hs).1 h1 h2
      exact ⟨h3, h4⟩
  ip := fun s hs h1 h2 => by
    change (guidedIp ip s.m).status = _ ∨ (guidedIp ip s.m).status = _
    unfold guidedIp
    cases h : ipFind s.m ip with
    | some a => exact Or.inl (ipFind_sound h).1
    | none =>
      obtain ⟨h3, h4⟩ := master_standard (o := guided lp ip sat draw) hf (fun cp k a ha => by simp [guided] at ha) hs
      exact Or.inl (exactIp_spec h3.max h4 h1 h2).1
  ipSound := fun m h => by
    change (guidedIp ip m).status = _ ∨ (guidedIp ip m).status = _ at h
    change IsSolution m (guidedIp ip m)
    unfold guidedIp at *
    cases h' : ipFind m ip with
    | some a => exact (ipFind_sound h').2.1
    | none =>
      rw [h'] at h
      exact (exactIp_sound m h).1
  draws := fun ω l => List.Perm.refl _
  sols := fun m ω a ha => by
    change a ∈ guidedSols sat m at ha
    unfold guidedSols at ha
    cases h' : satFind m sat with
    | some b =>
      rw [h'] at ha
      rw [List.mem_singleton.1 ha]
      exact (satFind_sound h').1
    | none =>
      rw [h'] at ha
      exact (exact_contract (Ω := Unit) hf (fun ω => (0, ω)) (draws := fun ω => (⟨draw, id⟩, ω)) (fun ω l => List.Perm.refl _)
        (cut := fun _ _ => []) (fun cp k a ha => by simp at ha)).sols m () a ha
  mip := fun m ω h => (exactIp_sound m h).1

theorem guided_ipOptimal (lp ip : List ((ℕ → ℚ) × (ℕ → ℚ))) (sat : List (ℕ → ℚ)) (draw : ℕ → ℕ → ℕ) : IpOptimal d A X (guided lp ip sat draw) := by
  intro s _ h
  change (guidedIp ip s.m).status = _ ∨ (guidedIp ip s.m).status = _ at h
  change IsOptimal s.m (guidedIp ip s.m)
  unfold guidedIp at *
  cases h' : ipFind s.m ip with
  | some a => exact (ipFind_sound h').2
  | none =>
    rw [h'] at h
    exact exactIp_sound s.m h

theorem guided_priceOptimal (lp ip : List ((ℕ → ℚ) × (ℕ → ℚ))) (sat : List (ℕ → ℚ)) (draw : ℕ → ℕ → ℕ) : PriceOptimal (guided lp ip sat draw) where
  sols := fun m ω h1 h2 h3 => by
    change ∃ best ∈ guidedSols sat m, _
    unfold guidedSols
    cases h' : satFind m sat with
    | some a => exact ⟨a, by simp, (satFind_sound h').2⟩
    | none => exact (exact_priceOptimal (Ω := Unit) (fun ω => (0, ω)) (fun ω => (⟨draw, id⟩, ω)) (fun _ _ => [])).sols m () h1 h2 h3
  mip := (exact_priceOptimal (Ω := Unit) (fun ω => (0, ω)) (fun ω => (⟨draw, id⟩, ω)) (fun _ _ => [])).mip

instance (d : ℕ) (left : ℕ → Bool) (p : Path) : Decidable (Follows d left p) :=
  decidable_of_iff (∀ k < d, ∀ q ∈ p.pairs, q.1 = anc d p.leafId k → left q.2 = goesLeft d p.leafId k) (by
    unfold Follows
    constructor
    · intro h k hk t ht
      exact h k hk _ ht rfl
    · rintro h k hk ⟨n, t⟩ ht rfl
      exact h k hk t ht)

def est0 : Fit.Est := ⟨false, [], 0, 0, 0, false, false, [], [], 0, 0, 0, 0, 0⟩

/-! ## A run that ends with `mp_optimal_` -/

def qArgs : Args := ⟨qPaths, fullLeaves 1, qNodes, qSplits, 1, [0, 1], 2, false, true, some qRows, false⟩

def qy : List ℤ := [3, 7, 3]

theorem qFitOk : FitOk 1 qArgs qX (encoded qy) where
  setup := qSetup
  depth := rfl
  distinct := by unfold Distinct; decide +kernel
  good := qGood
  cand := by decide +kernel
  tree := by
    refine ⟨fun _ => 0, fun l => if l = 0 then ⟨0, [0], [0], 2, 0, 0, true⟩ else ⟨1, [0], [0], 1, 0, 1, true⟩, ?_⟩
    unfold HasTree
    decide +kernel
  targets := List.Perm.refl _
  y_lt := by decide +kernel
  removed := by
    intro rows h
    have h : some qRows = some rows := h
    simp only [Option.some.injEq] at h
    subst h
    intro r hr
    match r, hr with
    | 0, h => exact h
    | 1, h => exact h
    | 2, h => exact h
    | k + 3, h => exact h
  weights := by intro h; cases h

noncomputable def qO : FitOracle Unit := guided [(qSol, qDual)] [(qSol, qDual)] [qSatBest 0, qSatBest 1] (fun i _ => i)

noncomputable def qRun : Option (Except Err Unit × Fit.St (World Unit) Duals Path) := fitNew qO qArgs 5 100 qX 10 qy est0 ()

/-- A property of the result of a run that returned normally. -/
def returned (r : Option (Except Err Unit × Fit.St (World Unit) Duals Path)) (P : Fit.St (World Unit) Duals Path → Bool) : Bool :=
  match r with
  | some (.ok _, s) => P s
  | _ => false

theorem returned_spec {r : Option (Except Err Unit × Fit.St (World Unit) Duals Path)} {P : Fit.St (World Unit) Duals Path → Bool}
    (h : returned r P = true) : ∃ s, r = some (.ok (), s) ∧ P s = true := by
  unfold returned at h
  split at h
  · exact ⟨_, rfl, h⟩
  · cases h

theorem qRun_facts : returned qRun (fun s => s.est.mpOptimal && decide (s.world.master.rmpObj = 3) &&
    decide (s.world.master.selected.length = 2) && decide (predictFitted qArgs s qX = .ok qy)) = true := by decide +kernel

theorem qTwo : TwoClasses qy := ⟨3, by decide, 7, by decide, by decide⟩

theorem qContract : FitContract 1 qArgs qX qO 0 := guided_contract qFitOk _ _ _ _

/-- C71: the hypotheses hold, the run above returns normally, and every run does. -/
example : FitOk 1 qArgs qX (encoded qy) ∧ FitContract 1 qArgs qX qO 0 ∧ TwoClasses qy ∧
    ∃ s, qRun = some (.ok (), s) ∧ s.est.mpOptimal = true ∧ predictFitted qArgs s qX = .ok qy := by
  obtain ⟨s, h1, h2⟩ := returned_spec qRun_facts
  simp only [Bool.and_eq_true, decide_eq_true_eq] at h2
  exact ⟨qFitOk, qContract, qTwo, s, h1, h2.1.1.1, h2.2⟩

/-- C72 and C73 on this run: the selected paths are worth the three training rows (row 0 counts twice), which the tree with split 0 attains. -/
example : ∃ s, qRun = some (.ok (), s) ∧ (s.world.master.selected.map (·.cost)).sum ≤
    trainHits 1 qArgs qX (encoded qy) s.world.master.splits s.world.master.selected ∧ 3 ≤ (s.world.master.selected.map (·.cost)).sum := by
  obtain ⟨s, h1, -⟩ := returned_spec qRun_facts
  refine ⟨s, h1, C73_cost_attained qFitOk qContract qTwo ?_ h1, ?_⟩
  · have hk : ∀ i, Kept (Args.base qArgs 1 qX (encoded qy)) i ↔ i < 2 := qKept
    have e : ∀ p ∈ qArgs.paths, p.cost ≤ ((List.range 3).map (fun r => if r < 2 ∧ Follows 1 (rowPat (Args.base qArgs 1 qX (encoded qy)) r) p ∧
        (((encoded qy).getD r 0 : ℕ) : ℤ) = p.target then rowWeight (Args.base qArgs 1 qX (encoded qy)) r else 0)).sum := by decide +kernel
    intro p hp
    refine (e p hp).trans (le_of_eq ?_)
    unfold hitsOf keptSum
    simp only [hk]
    have hl : (Args.base qArgs 1 qX (encoded qy)).X.length = 3 := rfl
    rw [hl]
    congr 1
  · have := C73_beats_initial_trees qFitOk qContract qTwo (guided_ipOptimal _ _ _ _) h1 (σ := fun _ => 0)
      (P := fun l => if l = 0 then ⟨0, [0], [0], 2, 0, 0, true⟩ else ⟨1, [0], [0], 1, 0, 1, true⟩) (by unfold HasTree; decide +kernel)
    refine le_trans (le_of_eq ?_) this
    decide +kernel

/-- C74 on this run: no tree is worth more than three rows, up to the tolerance. -/
example : ∃ s, qRun = some (.ok (), s) ∧ s.world.master.rmpObj = 3 ∧ ∀ σ τ : ℕ → ℕ, (∀ n < 2 ^ 1 - 1, σ n ∈ cand qNodes n) → (∀ l < 2 ^ 1, τ l ∈ [0, 1]) →
    treeHits 1 (Args.base qArgs 1 qX (encoded qy)) σ τ ≤ s.world.master.rmpObj +
      2 ^ 1 * (1 / 1000000 + ((2 * 3 + s.world.master.cutCons.length + 1 * 2 : ℕ) : ℚ) / 100000) + (2 ^ 1 - 1) * 0 := by
  obtain ⟨s, h1, h2⟩ := returned_spec qRun_facts
  simp only [Bool.and_eq_true, decide_eq_true_eq] at h2
  refine ⟨s, h1, h2.1.1.2, ?_⟩
  intro σ τ hσ hτ
  exact C74_optimal_bound qFitOk qContract qTwo (guided_priceOptimal _ _ _ _) rfl h1 h2.1.1.1 hσ hτ

/-! ## A run after which `predict` raises an exception (C51) -/

def fSplits0 : List Split := [⟨0, 0, 1/2, false, [], [], [], []⟩, ⟨1, 1, 1/2, false, [], [], [], []⟩, ⟨2, 2, 1/2, false, [], [], [], []⟩]

/-- Split 1 separates the classes; all rows go to the left at split 2. -/
def fX : List (List ℚ) := [[0, 0, 0], [0, 1, 0], [1, 0, 0], [1, 1, 0]]

def fy : List ℤ := [0, 1, 0, 1]

def fSplits : List Split := addRowsToSplits fSplits0 fX

def fNodes : List Node := [⟨0, [0, 1], [1, 1], 0, -1, 1, 2, false⟩, ⟨1, [2], [1], 2, 0, 3, 4, true⟩, ⟨2, [2], [1], 2, 0, 5, 6, true⟩]

/-- The tree with split 0 at the root, and the paths of leaves 0, 2 and 3 with split 1 at the root. -/
def fPaths : List Path := [mkPath 1 0 1 2 0 0, mkPath 0 1 1 2 0 0, mkPath 1 2 2 2 0 0, mkPath 0 3 2 2 0 0, mkPath 2 0 1 2 1 0, mkPath 2 2 2 2 1 1,
  mkPath 0 3 2 2 1 0]

def fArgs : Args := ⟨fPaths, fullLeaves 2, fNodes, fSplits, 2, [0, 1], 2, false, true, none, false⟩

theorem fFitOk : FitOk 2 fArgs fX (encoded fy) where
  setup :=
    { depth := by norm_num
      tree :=
        { leaves := rfl
          nodes_length := rfl
          node_id := by
            intro i n h
            have : ∀ q ∈ fNodes.zipIdx, q.1.id = q.2 := by decide +kernel
            exact this (n, i) (by rw [List.mem_zipIdx_iff_getElem?]; exact h)
          split_id := by
            intro i n h
            have : ∀ q ∈ fSplits.zipIdx, q.1.id = q.2 := by decide +kernel
            exact this (n, i) (by rw [List.mem_zipIdx_iff_getElem?]; exact h)
          cand_lt := by
            show ∀ n ∈ fNodes, ∀ s ∈ n.candidateSplits, s < fSplits.length
            decide +kernel
          cand_nodup := by
            show ∀ n ∈ fNodes, n.candidateSplits.Nodup
            decide +kernel }
      filled := (C39_add_rows fSplits0 fX (by decide +kernel)).1
      no_cuts := by
        show ∀ sp ∈ fSplits, sp.leftCuts = [] ∧ sp.rightCuts = []
        decide +kernel
      rows := by intro rows h; cases h }
  depth := rfl
  distinct := by unfold Distinct; decide +kernel
  good := by decide +kernel
  cand := by decide +kernel
  tree := by
    refine ⟨fun n => if n = 0 then 0 else 2, fun l => fPaths.getD l (mkPath 0 0 0 0 0 0), ?_⟩
    unfold HasTree
    decide +kernel
  targets := List.Perm.refl _
  y_lt := by decide +kernel
  removed := by intro rows h; cases h
  weights := by intro h; cases h

def fDual (i : ℕ) : ℚ := if i ∈ [0, 2, 6, 12] then 1 else if i = 8 then -2 else 0

noncomputable def fO : FitOracle Unit :=
  guided [(fun i => if i ∈ [0, 1, 2, 3, 7, 8, 10] then 1 else 0, fDual)]
    [(fun i => if i ∈ [4, 5, 6, 7, 9, 10, 11] then 1 else 0, fun i => if i ∈ [0, 2] then 2 else 0)] [] (fun _ _ => 1)

noncomputable def fRun : Option (Except Err Unit × Fit.St (World Unit) Duals Path) := fitNew fO fArgs 1 100 fX 10 fy est0 ()

theorem fRun_facts : returned fRun (fun s => decide (s.world.master.selected.map (·.target) = [0, 1, 0, -1]) &&
    decide (predictFitted fArgs s fX = .ok fy) && decide (predictFitted fArgs s [[0, 0, 1]] = .error .valueError)) = true := by decide +kernel

/-- **C51 is false.** There is an instance, solved exactly, such that `fit` returns normally, all training rows are predicted correctly, and `predict`
raises a `ValueError` for another row: it ends in a leaf that no training row reaches, for which the heuristic generated a path with target
`-1`. -/
theorem C51_refuted : ∃ (d : ℕ) (A : Args) (X : List (List ℚ)) (y : List ℤ) (o : FitOracle Unit) (s : Fit.St (World Unit) Duals Path) (row : List ℚ),
    FitOk d A X (encoded y) ∧ FitContract d A X o 0 ∧ IpOptimal d A X o ∧ PriceOptimal o ∧ TwoClasses y ∧
    (∀ p ∈ A.paths, ∃ t ∈ A.targets, p.target = (t : ℤ)) ∧ A.targets.length = (Sk.uniqueLabels y).length ∧
    (∃ maxIt limit fuel, fitNew o A maxIt limit X fuel y est0 () = some (.ok (), s)) ∧
    predictFitted A s X = .ok y ∧ predictFitted A s [row] = .error .valueError := by
  obtain ⟨s, h1, h2⟩ := returned_spec fRun_facts
  simp only [Bool.and_eq_true, decide_eq_true_eq] at h2
  exact ⟨2, fArgs, fX, fy, fO, s, [0, 0, 1], fFitOk, guided_contract fFitOk _ _ _ _, guided_ipOptimal _ _ _ _, guided_priceOptimal _ _ _ _,
    ⟨0, by decide, 1, by decide, by decide⟩, by decide +kernel, by decide +kernel, ⟨1, 100, 10, h1⟩, h2.1.2, h2.2⟩

end Verif.DTree.Demo
