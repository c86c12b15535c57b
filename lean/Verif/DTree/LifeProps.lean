import Verif.DTree.SharedProps
import Verif.Fit.Life

/-!
# Property C124 for the tree classifier: any sequence of calls of `fit` and `predict`

As for the rules (`Verif/BDR/LifeProps.lean`). Accesses are not checked here (`Verif/DTree/Strict.lean` is the model with checks).
-/

set_option linter.unusedSectionVars false
set_option linter.unusedSimpArgs false

namespace Verif.DTree

open MP Spec Fit.Spec

variable {Ω Raw RawX : Type}

/-- The calls of `fit` on a classifier that was constructed with the arguments `A`. `check` is the validation of the input. The hidden state may
change between the calls. -/
abbrev Life (o : FitOracle Ω) (A : Args) (check : Raw → Except Err (List (List ℚ) × List ℤ)) : List (Fit.Rec Path) → Fit.Est → World Ω → Prop :=
  Fit.Life check (fun w => ((o.clock w.ω).1, { w with ω := (o.clock w.ω).2 })) (fun X => env o A X) (fun w w' => ∃ ω, w' = { w with ω := ω })
    (fun w => w.master.selected) (fun e w => e.isFitted = false ∧ ∃ ω, w = World.init A ω)

/-- `predict` with any input, `_dtree_classifier.py:2532-2545`. -/
def predictCall (A : Args) (checkA : RawX → Except Err (List (List ℚ))) (raw : RawX) (e : Fit.Est) (w : World Ω) : Except Err (List ℤ) :=
  Fit.predictRaw checkA (fun classes X => predict classes A.leaves w.master.splits w.master.selected X) raw e

/-- The splits have the contents they were constructed with, and there is no tree before the program is generated. -/
def Kept (A : Args) (w : World Ω) : Prop :=
  w.master.splits.map Split.content = A.splits.map Split.content ∧ (w.master.generated = false → w.master.selected = [])

theorem Keep.kept {A : Args} {w w' : World Ω} (k : Keep w.master w'.master) (h : Kept A w) : Kept A w' ∧ w'.master.selected = w.master.selected := by
  obtain ⟨-, k2, k3, k4⟩ := k
  refine ⟨⟨k4.trans h.1, ?_⟩, k2⟩
  rw [k2, k3]
  exact h.2

theorem cutRound_keep (c : Conf) (o : Oracle) (s : MS) : Keep s (cutRound c o s).2.2 := by
  unfold cutRound
  simp only
  have h0 : Keep s (storeLp s) := ⟨rfl, rfl, rfl, rfl⟩
  generalize storeLp s = s0 at h0
  have h1 : Keep s (if c.betaAsCuts then addBetaCuts c s0 else (0, s0)).2 := by
    split
    · exact h0.trans ⟨rfl, rfl, rfl, rfl⟩
    · exact h0
  generalize (if c.betaAsCuts then addBetaCuts c s0 else (0, s0)) = b at h1
  have h2 : Keep s (if c.generateCuts && b.1 == 0 then addCuts o b.2 else ([], b.2)).2 := by
    split
    · exact h1.trans (addCuts_keep o b.2)
    · exact h1
  exact h2.trans ⟨rfl, rfl, rfl, rfl⟩

theorem cutRounds_keep (c : Conf) (o : Oracle) (n : ℕ) : ∀ (acc : List (List Bool)) (s : MS), Keep s (cutRounds c o n acc s).2 := by
  induction n with
  | zero => intro acc s; exact Keep.refl s
  | succ n ih =>
    intro acc s
    unfold cutRounds
    split
    · simp only
      split
      · exact ((cutRound_keep c o s).trans ⟨rfl, rfl, rfl, rfl⟩).trans (ih _ _)
      · exact cutRound_keep c o s
    · exact Keep.refl s

theorem solveRmp_keep (c : Conf) (o : Oracle) (s : MS) : Keep s (solveRmp c o s).2 := by
  unfold solveRmp
  split
  · simp only
    have h1 : Keep s (lpSolve o { s with
      prevRmpObj := s.rmpObj
      iter := s.iter + 1 }) := ⟨rfl, rfl, rfl, rfl⟩
    generalize lpSolve o { s with
      prevRmpObj := s.rmpObj
      iter := s.iter + 1 } = s1 at h1
    have h2 : Keep s (if s1.iter % 10 = 0 then cutRounds c o c.numCutsRound [] s1 else ([], s1)).2 := by
      split
      · exact h1.trans (cutRounds_keep _ _ _ _ _)
      · exact h1
    generalize (if s1.iter % 10 = 0 then cutRounds c o c.numCutsRound [] s1 else ([], s1)) = r at h2
    split
    · exact h2.trans ⟨rfl, rfl, rfl, rfl⟩
    · exact h2
  · exact Keep.refl s

theorem generateMp_selected (c : Conf) (s : MS) :
    (generateMp c s).2.selected = s.selected ∧ (generateMp c s).2.splits = s.splits ∧
      ((generateMp c s).2.generated = false → s.generated = false) := by
  unfold generateMp
  by_cases hg : s.generated = true
  · rw [if_pos hg]
    exact ⟨rfl, rfl, id⟩
  · rw [if_neg hg]
    split
    · exact ⟨rfl, rfl, id⟩
    · exact ⟨rfl, rfl, fun _ => by simpa using hg⟩

theorem addColumn_selected (c : Conf) (p : Path) (s : MS) :
    (addColumn c p s).2.selected = s.selected ∧ (addColumn c p s).2.splits = s.splits ∧ (addColumn c p s).2.generated = s.generated := by
  unfold addColumn
  simp only
  split
  · exact ⟨rfl, rfl, rfl⟩
  · split <;> exact ⟨rfl, rfl, rfl⟩

theorem keeps_selected (o : FitOracle Ω) (A : Args) (X : List (List ℚ)) : Fit.Keeps (env o A X) (fun w => w.master.selected) (Kept A) where
  clock w h := ⟨h, rfl⟩
  clear w h := ⟨h, rfl⟩
  generateMp y w h := by
    obtain ⟨k1, k2, k3⟩ := generateMp_selected (A.masterConf X) w.master
    exact ⟨⟨(congrArg _ k2).trans h.1, fun hg => k1.trans (h.2 (k3 hg))⟩, k1⟩
  solveRmp w h := Keep.kept (w' := ((env o A X).solveRmp w).2) (solveRmp_keep _ _ _) h
  improved w h := ⟨h, rfl⟩
  update l i D w h := by
    refine Keep.kept ?_ h
    change Keep w.master (updateAt A X l i D w).2.master
    unfold updateAt
    split
    · exact setHeur_keep (addCuts_content _ _ _)
    · split <;> exact Keep.refl _
  generate l i D w h := by
    refine Keep.kept ?_ h
    change Keep w.master (generateAt o A X l i D w).2.master
    unfold generateAt
    split
    · exact setHeur_keep (w := w) (by rw [heurGenerate_splits]; rfl)
    · split
      · exact Keep.refl _
      · unfold priceAt
        split <;> exact Keep.refl _
  add p w h := by
    obtain ⟨k1, k2, k3⟩ := addColumn_selected (A.masterConf X) p w.master
    exact ⟨⟨(congrArg _ k2).trans h.1, fun hg => k1.trans (h.2 (k3.symm.trans hg))⟩, k1⟩
  solveIp w h := by
    suffices key : (solveIp o.master w.master).2.splits = w.master.splits ∧
        ((solveIp o.master w.master).2.generated = false → (solveIp o.master w.master).2.selected = []) ∧
          ((solveIp o.master w.master).1 = .ok true ∨
            ((∃ e, (solveIp o.master w.master).1 = .error e) ∧ (solveIp o.master w.master).2.selected = [])) from
      ⟨⟨(congrArg _ key.1).trans h.1, key.2.1⟩, key.2.2⟩
    unfold solveIp
    by_cases hg : w.master.generated = true
    · rw [if_pos hg]
      simp only
      split
      · exact ⟨rfl, fun hn => absurd (hg.symm.trans hn) (by decide), Or.inl rfl⟩
      · exact ⟨rfl, fun _ => rfl, Or.inr ⟨⟨_, rfl⟩, rfl⟩⟩
    · rw [if_neg hg]
      exact ⟨rfl, h.2, Or.inr ⟨⟨_, rfl⟩, h.2 (by simpa using hg)⟩⟩

variable {o : FitOracle Ω} {A : Args} {check : Raw → Except Err (List (List ℚ) × List ℤ)} {h : List (Fit.Rec Path)} {e : Fit.Est}
  {w : World Ω} {checkA : RawX → Except Err (List (List ℚ))} {raw : RawX}

/-- **C124.** After any sequence of calls of `fit` on a tree classifier: `predict` raises the error of the validation of its input, if any; otherwise
it raises `NotFittedError` if and only if no `fit` has returned; otherwise it evaluates the paths of the last `fit` that returned (none, if a later
`fit` raised in `solve_ip`) with the splits as constructed, and decodes the targets with the labels of the last `fit` with valid data. -/
theorem C124_predict_tree (hl : Life o A check h e w) :
    (∀ er, checkA raw = .error er → predictCall A checkA raw e w = .error er) ∧
      ∀ X, checkA raw = .ok X → (¬ EverFitted h → predictCall A checkA raw e w = .error Fit.notFitted) ∧
        (EverFitted h → predictCall A checkA raw e w =
          predict (Sk.uniqueLabels (lastLabels h)) A.leaves A.splits (lastRule h) X) := by
  have hc : ∀ w : World Ω, Kept A w → Kept A { w with ω := (o.clock w.ω).2 } ∧ w.master.selected = w.master.selected := fun w h => ⟨h, rfl⟩
  have hi : ∀ w w' : World Ω, (∃ ω, w' = { w with ω := ω }) → Kept A w → Kept A w' ∧ w'.master.selected = w.master.selected := by
    rintro w w' ⟨ω, rfl⟩ h
    exact ⟨h, rfl⟩
  have hs : ∀ (e : Fit.Est) (w : World Ω), (e.isFitted = false ∧ ∃ ω, w = World.init A ω) → Kept A w ∧ w.master.selected = [] ∧ e.isFitted = false := by
    rintro e w ⟨h1, ω, rfl⟩
    exact ⟨⟨rfl, fun _ => rfl⟩, rfl, h1⟩
  have hS := (Fit.life_state (fun X => keeps_selected o A X) hc hi hs hl).1.1
  have key := Fit.life_predict (fun X => keeps_selected o A X) hc hi hs hl checkA (fun K classes X => predict classes A.leaves A.splits K X) raw
  have he : predictCall A checkA raw e w =
      Fit.predictRaw checkA (fun classes X => predict classes A.leaves A.splits w.master.selected X) raw e := by
    unfold predictCall
    congr 1
    funext classes X
    unfold predict
    congr 1
    exact List.map_congr_left fun row _ => predictRow_content hS _ _ rfl
  rw [he]
  exact key

/-- **C124.** Calls of `fit` that are refused, or that raise before `solve_ip`, on data with the same set of labels as before, change no prediction. -/
theorem C124_failed_calls_tree {t : List (Fit.Rec Path)} {e' : Fit.Est} {w' : World Ω} (hl : Life o A check h e w)
    (hl' : Life o A check (h ++ t) e' w') (hf : EverFitted h) (ht : ∀ r ∈ t, r.result ≠ .ok () ∧ r.ip = false)
    (hy : ∀ r ∈ t, ∀ y, r.labels = some y → ∀ v, v ∈ y ↔ v ∈ lastLabels h) : predictCall A checkA raw e' w' = predictCall A checkA raw e w := by
  cases hX : checkA raw with
  | error er => rw [(C124_predict_tree hl).1 er hX, (C124_predict_tree hl').1 er hX]
  | ok X =>
    rw [((C124_predict_tree hl).2 X hX).2 hf, ((C124_predict_tree hl').2 X hX).2 (Fit.everFitted_append hf), Fit.lastRule_failed h t ht,
      Fit.uniqueLabels_ext (Fit.lastLabels_failed h t (fun _ => Iff.rfl) hy)]

/-- **C124.** If the last `fit` raised in `solve_ip`, on labels `y`, a classifier that was fitted before predicts the smallest of `y` for every row. -/
theorem C124_cleared_tree {r : Fit.Rec Path} {y : List ℤ} {m : ℤ} (hl : Life o A check (h ++ [r]) e w) (hf : EverFitted h)
    (hr : r.result ≠ .ok ()) (hip : r.ip = true) (hy : r.labels = some y) (hm : m ∈ y) (hmin : ∀ b ∈ y, m ≤ b) {X : List (List ℚ)}
    (hX : checkA raw = .ok X) : predictCall A checkA raw e w = .ok (X.map (fun _ => m)) := by
  rw [((C124_predict_tree hl).2 X hX).2 (Fit.everFitted_append hf), Fit.lastLabels_append, hy]
  have h0 : lastRule (h ++ [r]) = [] := by
    unfold lastRule
    rw [List.foldl_append, List.foldl_cons, List.foldl_nil]
    cases hres : r.result with
    | ok u => exact absurd hres hr
    | error er => simp [hip]
  rw [h0]
  exact Fit.decode_zero hm hmin X

end Verif.DTree
