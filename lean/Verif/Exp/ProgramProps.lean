import Verif.Exp.MainProps
import Verif.DTree.PredictExact

/-!
# C100: a whole run of the experiment
-/

set_option linter.unusedSectionVars false
set_option linter.unusedSimpArgs false

namespace Verif.Exp

open Verif.DTree Verif.DTree.Spec Verif.Exp.Cmd Verif.Exp.Spec

variable {N : Type} [DecidableEq N] {Ω : Type} {w : Outside N Ω} {s : Settings} {argv : List Text} {train test : Table N} {D : Data}

namespace Spec

/-- scikit-learn fits binary trees of at most the given depth, and the tree for all data has a split. -/
structure Trees (w : Outside N Ω) (s : Settings) (D : Data) : Prop where
  cart : ∀ i, ∃ c, w.cart i s.depth D = .ok c ∧ CartOk s.depth.toNat c
  all : ∃ c label, w.cartAll s.depth D = .ok (c, label) ∧ CartOk s.depth.toNat c ∧ c.keys ≠ []
  more : ∀ i, ∃ c, w.cartMore i s.depth D = .ok c ∧ CartOk s.depth.toNat c

/-- The files of the command line. -/
structure Files (w : Outside N Ω) (s : Settings) (train test : Table N) : Prop where
  train : w.read s.trainFile s.sep s.header = .ok train
  test : w.read s.testFile s.sep s.header = .ok test

/-- The predicted labels, in the words of the tables. -/
def predictedLabels (D : Data) (preds : List ℤ) : List ℚ := preds.map (decode D.classes)

end Spec

theorem mapM_range_ok {α : Type} {P : α → Prop} {f : ℕ → Except Err α} (h : ∀ i, ∃ a, f i = .ok a ∧ P a) :
    ∀ l : List ℕ, ∃ as : List α, l.mapM f = .ok as ∧ ∀ a ∈ as, P a
  | [] => ⟨[], rfl, by simp⟩
  | i :: l => by
    obtain ⟨a, ha, hp⟩ := h i
    obtain ⟨as, has, hps⟩ := mapM_range_ok h l
    refine ⟨a :: as, ?_, ?_⟩
    · rw [List.mapM_cons, ha, has]; rfl
    · intro b hb
      rcases List.mem_cons.1 hb with rfl | hb
      · exact hp
      · exact hps b hb

/-- The labels handed on are already encoded. -/
theorem encoded_self {y : List ℤ} {k : ℕ} (hm : ∀ v : ℤ, v ∈ y ↔ 0 ≤ v ∧ v < k) : y = (encoded y).map Int.ofNat := by
  have hu : Sk.uniqueLabels y = (List.range k).map Int.ofNat := by
    have hs2 : ((List.range k).map Int.ofNat).Pairwise (· < ·) := by
      rw [List.pairwise_map]
      exact List.pairwise_lt_range.imp fun h => Int.ofNat_lt.2 h
    refine List.Perm.eq_of_pairwise ?_ (Sk.sorted_uniqueLabels y) hs2 ?_
    · intro a b _ _ h1 h2; omega
    · rw [List.perm_ext_iff_of_nodup (Sk.nodup_uniqueLabels y) (hs2.imp fun h => ne_of_lt h)]
      intro v
      rw [Sk.mem_uniqueLabels, hm]
      simp only [List.mem_map, List.mem_range]
      constructor
      · rintro ⟨h1, h2⟩; exact ⟨v.toNat, by omega, by simp [h1]⟩
      · rintro ⟨n, h1, rfl⟩; exact ⟨Int.natCast_nonneg _, Int.ofNat_lt.2 h1⟩
  have hnd : ((List.range k).map Int.ofNat).Nodup := by rw [← hu]; exact Sk.nodup_uniqueLabels y
  unfold encoded Sk.transform
  rw [hu, List.map_map]
  conv_lhs => rw [← List.map_id y]
  refine List.map_congr_left fun v hv => ?_
  obtain ⟨h0, h1⟩ := (hm v).1 hv
  have hlt : v.toNat < ((List.range k).map Int.ofNat).length := by rw [List.length_map, List.length_range]; omega
  have hval : ((List.range k).map Int.ofNat)[v.toNat] = v := by simp [h0]
  have := hnd.idxOf_getElem v.toNat hlt
  rw [hval] at this
  simp only [Function.comp, id, this]
  exact (Int.toNat_of_nonneg h0).symm

/-- **C100, depth.** A depth of 0 or less ends the program before anything is trained, for all files that can be read. -/
theorem C100_depth (hs : settings argv = .ok s) (hf : Files w s train test) (hD : makeData train test = .ok D) (hd : s.depth ≤ 0) (fuel : ℕ) :
    main w argv fuel = some (.error (.raised (if s.depth < 0 then .typeError else .zeroDivisionError))) := by
  unfold main
  rw [hs]
  simp only [readAndPrepare, hf.train, hf.test, hD, makeReady]
  by_cases h : s.depth < 0
  · rw [if_pos h, if_pos h]
  · rw [if_neg h, if_pos (by omega), if_neg h]

/-- **C100, bad labels.** A label of the test file that does not occur in the training file ends the program before anything is trained. -/
theorem C100_unseen_label (hs : settings argv = .ok s) (hf : Files w s train test) (h1 : Rect train) (h2 : Rect test)
    (hcol : ∀ n ∈ train.columns.dropLast, n ∈ test.columns) (hv : ∃ v ∈ labels test, v ∉ labels train) (fuel : ℕ) :
    main w argv fuel = some (.error (.raised .valueError)) := by
  unfold main
  rw [hs]
  simp only [readAndPrepare, hf.train, hf.test, (C99_failures h1 h2).2.1 hcol hv]

/-- The preparation of a run. -/
theorem prepared_run (hd : 0 < s.depth) (ht : Trees w s D) (hrows : D.yTrain.length = D.XTrain.length) (hne : D.yTrain ≠ []) :
    ∃ r carts extra, makeReady w s D = .ok r ∧ r.data = D ∧ w.cartAll s.depth D = .ok (r.cart, r.label) ∧
      PrepInput s.depth.toNat carts r.cart extra D.XTrain D.yTrain ∧
      prepare s.depth.toNat carts r.cart extra D.XTrain D.yTrain (aggressiveMode s.prepLimit w.late D.XTrain.length) (s.prepLimit - w.call)
        w.elapsed = .ok r.prepared := by
  obtain ⟨carts, hc, hcok⟩ := mapM_range_ok ht.cart (List.range (rounds s.prepLimit w.check 300))
  obtain ⟨extra, he, heok⟩ := mapM_range_ok ht.more (List.range (rounds s.prepLimit w.checkMore 100))
  obtain ⟨final, label, hfin, hfok, hk⟩ := ht.all
  have hin : PrepInput s.depth.toNat carts final extra D.XTrain D.yTrain :=
    ⟨by omega, hcok, hfok, heok, ⟨final, by simp, hk⟩, hrows, hne⟩
  obtain ⟨P, -, -, -, -, -, hP, -⟩ := prepare_ok hin (aggressiveMode s.prepLimit w.late D.XTrain.length) (s.prepLimit - w.call) w.elapsed
  refine ⟨⟨D, P, final, label⟩, carts, extra, ?_, rfl, hfin, hin, hP⟩
  unfold makeReady
  rw [if_neg (by omega), if_neg (by omega)]
  simp only [hc, hfin, he, hP]

theorem data_facts (h1 : Rect train) (h2 : Rect test) (hD : makeData train test = .ok D) : D.yTrain.length = D.XTrain.length ∧
    D.XTrain.length = train.rows.length ∧ D.XTest.length = test.rows.length ∧ D.yTest.length = test.rows.length ∧ D.classes.Nodup := by
  rw [makeData_eq h1 h2] at hD
  split_ifs at hD
  obtain rfl := Except.ok.inj hD
  exact ⟨by simp [labels], by simp, by simp, by simp [labels], nodup_classesOf _⟩

/-- **C100, preparation.** With a positive depth, readable files, labels known from the training file and trees as scikit-learn fits them the
program gets as far as the training: nothing raises before. -/
theorem C100_reaches_training (hf : Files w s train test) (h1 : Rect train) (h2 : Rect test)
    (hcol : ∀ n ∈ train.columns.dropLast, n ∈ test.columns) (hlab : ∀ v ∈ labels test, v ∈ labels train) (hne : train.rows ≠ [])
    (hd : 0 < s.depth) (ht : ∀ D, makeData train test = .ok D → Trees w s D) : ∃ r, readAndPrepare w s = .ok r := by
  obtain ⟨D, hD⟩ := (C99_failures h1 h2).2.2 hcol hlab
  obtain ⟨a1, a2, -⟩ := data_facts h1 h2 hD
  obtain ⟨r, -, -, hr, -⟩ := prepared_run hd (ht D hD) a1 (by
    intro h
    rw [h, List.length_nil] at a1
    exact hne (List.eq_nil_of_length_eq_zero (by omega)))
  refine ⟨r, ?_⟩
  unfold readAndPrepare
  simp only [hf.train, hf.test, hD, hr]

theorem score_le {y a b : List ℤ} (h : correct y a ≤ correct y b) : score y a ≤ score y b := by
  unfold score
  exact div_le_div_of_nonneg_right (by exact_mod_cast h) (by positivity)

/-- **C100, part that holds.** A run with a positive depth, readable files with at least two different training labels, trees as scikit-learn fits them,
prepared paths over candidate splits, solvers that keep their contracts and an integer solver that finds optimal solutions: training ends and
raises nothing. If then no test row follows a selected path with the target `-1`, the program writes the result file, in which the training
accuracy of the classifier is at least that of CART, and all accuracies are those of the labels in the files. Otherwise it ends with a `ValueError`
and writes nothing. -/
theorem C100_program_partial (hs : settings argv = .ok s) (hf : Files w s train test) (h1 : Rect train) (h2 : Rect test)
    (hD : makeData train test = .ok D) (htwo : ∃ a ∈ labels train, ∃ b ∈ labels train, a ≠ b) (hd : 0 < s.depth) (ht : Trees w s D)
    (hclock : ∀ k, w.elapsed k ≤ w.elapsed (k + 1)) :
    ∃ r, readAndPrepare w s = .ok r ∧ ∀ tol, (∀ p ∈ r.prepared.paths, UsesCand r.prepared.nodes p) →
      FitContract s.depth.toNat (r.prepared.args s.depth.toNat false) D.XTrain w.solvers tol →
      IpOptimal s.depth.toNat (r.prepared.args s.depth.toNat false) D.XTrain w.solvers →
      ∃ fuel st, runFit w s r fuel = some (.ok (), st) ∧
        ((∃ row ∈ D.XTest, ∃ p ∈ st.world.master.selected, Follows s.depth.toNat (rowLeft r.prepared.splits row) p ∧ p.target = -1) →
          main w argv fuel = some (.error (.raised .valueError))) ∧
        ((∀ row ∈ D.XTest, ∀ p ∈ st.world.master.selected, Follows s.depth.toNat (rowLeft r.prepared.splits row) p → p.target ≠ -1) → ∃ out predsTrain predsTest, main w argv fuel = some (.ok out) ∧
          out.file = resultsFile s ∧ out.cartTrain ≤ out.results.trainAccuracy ∧
          predictFitted (r.prepared.args s.depth.toNat false) st D.XTrain = .ok predsTrain ∧
          predictFitted (r.prepared.args s.depth.toNat false) st D.XTest = .ok predsTest ∧
          out.results.trainAccuracy = agreement (labels train) (predictedLabels D predsTrain) ∧
          out.results.testAccuracy = agreement (labels test) (predictedLabels D predsTest)) := by
  obtain ⟨a1, a2, a3, a4, a5⟩ := data_facts h1 h2 hD
  obtain ⟨-, c2, c3, c4, c5, c6⟩ := C99_labels h1 h2 hD
  have hne : D.yTrain ≠ [] := by
    intro h
    obtain ⟨a, ha, -⟩ := htwo
    rw [h, List.map_nil] at c5
    rw [← c5] at ha
    simp at ha
  have hty : TwoClasses D.yTrain := by
    obtain ⟨a, ha, b, hb, hab⟩ := htwo
    rw [← c5] at ha hb
    obtain ⟨x, hx, rfl⟩ := List.mem_map.1 ha
    obtain ⟨z, hz, rfl⟩ := List.mem_map.1 hb
    exact ⟨x, hx, z, hz, fun h => hab (by rw [h])⟩
  obtain ⟨r, carts, extra, hr, rfl, hall, hin, hP⟩ := prepared_run hd ht a1 hne
  have hy := encoded_self c3
  have hready : readAndPrepare w s = .ok r := by
    unfold readAndPrepare
    simp only [hf.train, hf.test, hD, hr]
  refine ⟨r, hready, ?_⟩
  intro tol hcand hc hip
  have hfok := prepared_fitOk hin hy hclock hP hcand false
  obtain ⟨⟨res, st⟩, hfit⟩ := C71_terminates hfok hc s.maxIterations (fitLimit s w.total) w.est w.ω
  obtain rfl := C71_fit_succeeds hfok hc hty hfit
  generalize (r.prepared.args s.depth.toNat false).paths.length + 2 ^ s.depth.toNat *
    ((r.prepared.args s.depth.toNat false).splits.length ^ s.depth.toNat *
      (totalWeight (r.prepared.args s.depth.toNat false) r.data.XTrain + 1)) + 2 = fuel at hfit
  obtain ⟨predsTrain, p1, p2, p3⟩ := C91_not_worse_than_cart hin hy hclock hP hcand hc hty hip hfit r.label
  have hfit' : runFit w s r fuel = some (.ok (), st) := hfit
  have htar : (r.prepared.args s.depth.toNat false).targets.length ≤ (Sk.uniqueLabels r.data.yTrain).length ∧
      ∀ p ∈ (r.prepared.args s.depth.toNat false).paths, ∃ t ∈ (r.prepared.args s.depth.toNat false).targets, p.target = (t : ℤ) := by
    obtain ⟨P', st', ms, paths, nodes, splits, e, rr⟩ := prepare_ok hin (aggressiveMode s.prepLimit w.late r.data.XTrain.length)
      (s.prepLimit - w.call) w.elapsed
    rw [hP] at e
    obtain rfl := Except.ok.inj e
    constructor
    · change (r.prepared.targets.map Int.toNat).length ≤ _
      rw [rr.targets, List.length_map]
    · intro p hp
      have hm := ((C76_paths hin hP).1 p hp).2.known
      refine ⟨p.target.toNat, ?_, by have := (c3 _).1 hm; omega⟩
      change p.target.toNat ∈ r.prepared.targets.map Int.toNat
      rw [rr.targets]
      exact List.mem_map_of_mem ((Sk.mem_uniqueLabels _ _).2 hm)
  have hknown := C51_exact hfok hc hty htar.1 htar.2 hfit
  refine ⟨fuel, st, hfit, fun hbad => ?_, fun hsel => ?_⟩
  · have he := (hknown r.data.XTest).2.1 hbad
    unfold main
    rw [hs]
    simp only [hready, hfit']
    unfold writeResults report
    rw [p1, he]
    rfl
  obtain ⟨predsTest, q1, q2, q3⟩ := (hknown r.data.XTest).1 hsel
  have p4 : ∀ l ∈ predsTrain, l ∈ r.data.yTrain := by
    obtain ⟨ls, e1, -, e3⟩ := (hknown r.data.XTrain).1 fun row hrow p hp hfp hpt => by
      have := (hknown r.data.XTrain).2.1 ⟨row, hrow, p, hp, hfp, hpt⟩
      rw [p1] at this
      cases this
    rw [p1] at e1
    obtain rfl := Except.ok.inj e1
    exact e3
  obtain ⟨R, hR⟩ : ∃ R, report (r.prepared.args s.depth.toNat false) st r.data.XTrain r.data.yTrain r.data.XTest r.data.yTest = .ok R := by
    unfold report
    rw [p1, q1]
    exact ⟨_, rfl⟩
  obtain ⟨tr, te, t1, t2, hRe⟩ := report_ok hR
  rw [p1] at t1
  rw [q1] at t2
  obtain rfl := Except.ok.inj t1
  obtain rfl := Except.ok.inj t2
  refine ⟨⟨resultsFile s, score r.data.yTrain (r.cart.predict r.label r.data.XTrain), score r.data.yTest (r.cart.predict r.label r.data.XTest),
    w.total, R⟩, predsTrain, predsTest, ?_, rfl, ?_, p1, q1, ?_, ?_⟩
  · unfold main
    rw [hs]
    simp only [hready, hfit']
    unfold writeResults
    simp only [hR]
  · rw [hRe]
    exact score_le p3
  · rw [hRe]
    simp only
    unfold predictedLabels
    rw [C99_accuracy a5 (by rw [p2, a1]) (fun c hc => (c3 c).1 hc) (fun c hc => (c3 c).1 (p4 c hc)), c5]
  · rw [hRe]
    simp only
    unfold predictedLabels
    rw [C99_accuracy a5 (by rw [q2, a3, a4]) (fun c hc => (c3 c).1 (c4 c hc)) (fun c hc => (c3 c).1 (q3 c hc)), c6]

end Verif.Exp
