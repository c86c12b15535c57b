import Verif.Exp.PrepareDemo
import Verif.Exp.ProgramProps

/-!
# Concrete runs of the experiment: instances of C98 - C100, and the failures of C98 and C100
-/

set_option linter.unusedSectionVars false
set_option linter.unusedSimpArgs false

namespace Verif.Exp.Demo

open Verif.DTree Verif.DTree.Spec Verif.DTree.Demo Verif.Exp.Cmd Verif.Exp.Spec MP

/-! ## Tables, trees and solvers

The class is `7` if `x1 = 0` and `x2 = 1`, and `3` otherwise. CART starts with `x0` because of the only row with `x0 = 1`. -/

/-- `x0` at the root, `x1` at the left child. -/
def mFinal : Cart := ⟨[1, 2, -1, -1, -1], [4, 3, -1, -1, -1], [0, 1, 0, 0, 0], [1 / 2, 1 / 2, 0, 0, 0]⟩

/-- `x1` at the root, `x2` at the left child. -/
def mC1 : Cart := ⟨[1, 2, -1, -1, -1], [4, 3, -1, -1, -1], [1, 2, 0, 0, 0], [1 / 2, 1 / 2, 0, 0, 0]⟩

/-- `x2` at the root, `x0` at the right child. -/
def mC2 : Cart := ⟨[1, -1, 3, -1, -1], [2, -1, 4, -1, -1], [2, 0, 0, 0, 0], [1 / 2, 0, 1 / 2, 0, 0]⟩

/-- Columns `x0`, `x1`, `x2` and the label, with the names 0, 1, 2 and 9. -/
def mTrain : Table ℕ := ⟨[0, 1, 2, 9], [[0, 0, 0, 3], [0, 0, 0, 3], [0, 1, 0, 3], [0, 1, 0, 3], [0, 1, 1, 3], [0, 1, 1, 3], [0, 0, 1, 7], [1, 0, 1, 7]]⟩

/-- The same with a row in which `x0 = x1 = 1`. -/
def mTrain' : Table ℕ := ⟨mTrain.columns, mTrain.rows ++ [[1, 1, 0, 3]]⟩

/-- The columns of the test table have another order, and there is one more. -/
def mTest : Table ℕ := ⟨[2, 5, 1, 0, 9], [[1, 4, 0, 0, 7], [0, 4, 1, 1, 3]]⟩

/-- The world of a run: two trees in the first loop, none in the second. -/
def mOutside (train : Table ℕ) (total : ℚ) (o : FitOracle Unit) : Outside ℕ Unit where
  read := fun f _ _ => if f = "a.csv".toList then .ok train else if f = "b.csv".toList then .ok mTest else .error .valueError
  cart := fun i _ _ => .ok (if i = 0 then mC1 else mC2)
  cartAll := fun _ _ => .ok (mFinal, fun i => if i = 4 then 1 else 0)
  cartMore := fun _ _ _ => .ok mC1
  check := fun i => if i < 2 then 10 else 300
  checkMore := fun _ => 300
  late := 310
  call := 310
  elapsed := fun _ => 0
  total := total
  solvers := o
  ω := ()
  est := est0

def mArgv : List Text := ["-T", "a.csv", "--test", "b.csv", "-d2", "-i", "1", "--time=600"].map String.toList

def mS : Settings := ⟨"a.csv".toList, "b.csv".toList, 2, 1, 600, 200, [','], some 0, "results/".toList⟩

theorem mSettings : settings mArgv = .ok mS := by decide +kernel

theorem mTrain_rect : Rect mTrain := ⟨by decide +kernel, by decide, by decide⟩

theorem mTrain'_rect : Rect mTrain' := ⟨by decide +kernel, by decide, by decide⟩

theorem mTest_rect : Rect mTest := ⟨by decide +kernel, by decide, by decide⟩

def mX : List (List ℚ) := [[0, 0, 0], [0, 0, 0], [0, 1, 0], [0, 1, 0], [0, 1, 1], [0, 1, 1], [0, 0, 1], [1, 0, 1]]

def mD : Data := ⟨mX, [0, 0, 0, 0, 0, 0, 1, 1], [[0, 0, 1], [1, 1, 0]], [1, 0], [3, 7]⟩

def mD' : Data := ⟨mX ++ [[1, 1, 0]], [0, 0, 0, 0, 0, 0, 1, 1, 0], [[0, 0, 1], [1, 1, 0]], [1, 0], [3, 7]⟩

deriving instance DecidableEq for Data

theorem mData : makeData mTrain mTest = .ok mD := by decide +kernel

theorem mData' : makeData mTrain' mTest = .ok mD' := by decide +kernel

/-- Instances of C99. -/
example := C99_features mTrain_rect mTest_rect mData

example := C99_labels mTrain_rect mTest_rect mData

example : makeData mTrain ⟨[2, 5, 0, 9], [[1, 4, 0, 7]]⟩ = .error .keyError :=
  (C99_failures mTrain_rect ⟨by decide +kernel, by decide, by decide⟩).1 ⟨1, by decide, by decide⟩

example : makeData mTrain ⟨[2, 1, 0, 9], [[1, 4, 0, 8]]⟩ = .error .valueError :=
  (C99_failures mTrain_rect ⟨by decide +kernel, by decide, by decide⟩).2.1 (by decide) ⟨8, by decide +kernel, by decide +kernel⟩

example : makeData mTrain mTest = makeData mTrain ⟨[0, 1, 2, 9], [[0, 0, 1, 7], [1, 1, 0, 3]]⟩ :=
  C99_test_columns mTrain_rect mTest_rect ⟨by decide +kernel, by decide, by decide⟩ (by decide) (by
    refine .cons ⟨by decide +kernel, by decide +kernel⟩ (.cons ⟨by decide +kernel, by decide +kernel⟩ .nil))

theorem mC1_ok : CartOk 2 mC1 :=
  .of_check (fun i => ([0, 1, 2, 2, 1] : List ℕ).getD i 0) (by decide) rfl (by decide +kernel) (by decide +kernel) (by decide +kernel)
    (by decide +kernel)

theorem mC2_ok : CartOk 2 mC2 :=
  .of_check (fun i => ([0, 1, 1, 2, 2] : List ℕ).getD i 0) (by decide) rfl (by decide +kernel) (by decide +kernel) (by decide +kernel)
    (by decide +kernel)

theorem mFinal_ok : CartOk 2 mFinal :=
  .of_check (fun i => ([0, 1, 2, 2, 1] : List ℕ).getD i 0) (by decide) rfl (by decide +kernel) (by decide +kernel) (by decide +kernel)
    (by decide +kernel)

theorem mOutside_trees (train : Table ℕ) (total : ℚ) (o : FitOracle Unit) (D : Data) : Trees (mOutside train total o) mS D where
  cart := fun i => ⟨_, rfl, by
    by_cases h : i = 0
    · rw [if_pos h]; exact mC1_ok
    · rw [if_neg h]; exact mC2_ok⟩
  all := ⟨_, _, rfl, mFinal_ok, by decide +kernel⟩
  more := fun i => ⟨_, rfl, mC1_ok⟩

theorem mOutside_files (train : Table ℕ) (total : ℚ) (o : FitOracle Unit) : Files (mOutside train total o) mS train mTest := ⟨rfl, rfl⟩

theorem mOutside_ready {train : Table ℕ} (h1 : Rect train) (hcol : ∀ n ∈ train.columns.dropLast, n ∈ mTest.columns)
    (hlab : ∀ v ∈ labels mTest, v ∈ labels train) (hne : train.rows ≠ []) (total : ℚ) (o : FitOracle Unit) :
    ∃ r, readAndPrepare (mOutside train total o) mS = .ok r :=
  C100_reaches_training (mOutside_files _ _ _) h1 mTest_rect hcol hlab hne (by decide) (fun D _ => mOutside_trees _ _ _ D)

def mReady (train : Table ℕ) (total : ℚ) (o : FitOracle Unit) : Ready :=
  (readAndPrepare (mOutside train total o) mS).toOption.getD ⟨⟨[], [], [], [], []⟩, ⟨[], [], [], [], [], []⟩, mFinal, fun _ => 0⟩

theorem mReady_eq {train : Table ℕ} (h1 : Rect train) (hcol : ∀ n ∈ train.columns.dropLast, n ∈ mTest.columns)
    (hlab : ∀ v ∈ labels mTest, v ∈ labels train) (hne : train.rows ≠ []) (total : ℚ) (o : FitOracle Unit) :
    readAndPrepare (mOutside train total o) mS = .ok (mReady train total o) := by
  obtain ⟨r, hr⟩ := mOutside_ready h1 hcol hlab hne total o
  unfold mReady
  rw [hr]
  rfl

/-- The draws find the four paths with `x1` at the root, `x2` at the left and `x0` at the right child. -/
def mDraw (i k : ℕ) : ℕ := if k = 0 then i else if i % 4 = 1 then 2 else 1

def mDual (i : ℕ) : ℚ := match i with
  | 0 => 2 | 1 => 4 | 3 => 1 | 8 => -1 / 4 | 11 => -9 / 4 | 17 => 15 / 4 | 21 => -5 / 4 | _ => 0

def mDual' (i : ℕ) : ℚ := match i with
  | 0 => 2 | 1 => 4 | 3 => 1 | 8 => -1 / 2 | 11 => -5 / 2 | 17 => 7 / 2 | 21 => -1 / 2 | _ => 0

def mIp (i : ℕ) : ℚ := match i with
  | 0 => 2 | 1 => 2 | 2 => 4 | 9 => 2 | 15 => -3 | 19 => 1 | _ => 0

def mIp' (i : ℕ) : ℚ := match i with
  | 0 => 2 | 1 => 2 | 2 => 4 | 3 => 1 | 9 => 2 | 15 => -2 | _ => 0

def mFirst (i : ℕ) : ℚ := if i ∈ [0, 1, 2, 3, 4, 6, 9] then 1 else 0

def mBest (i : ℕ) : ℚ := if i ∈ [10, 11, 12, 13, 5, 8, 9] then 1 else 0

noncomputable def mO : FitOracle Unit := guided [(mFirst, mDual)] [(mBest, mIp)] [] mDraw

noncomputable def mO' : FitOracle Unit := guided [(mFirst, mDual')] [(mBest, mIp')] [] mDraw

/-! ## The runs -/

noncomputable def mR (train : Table ℕ) (total : ℚ) (o : FitOracle Unit) : Option (Except Err Unit × Fit.St (World Unit) Duals Path) :=
  runFit (mOutside train total o) mS (mReady train total o) 10

theorem mReady1 (total : ℚ) (o : FitOracle Unit) : readAndPrepare (mOutside mTrain total o) mS = .ok (mReady mTrain total o) :=
  mReady_eq mTrain_rect (by decide) (by decide +kernel) (by decide) total o

theorem mReady1' (total : ℚ) (o : FitOracle Unit) : readAndPrepare (mOutside mTrain' total o) mS = .ok (mReady mTrain' total o) :=
  mReady_eq mTrain'_rect (by decide) (by decide +kernel) (by decide) total o

/-- What a run of `main` comes to. -/
theorem main_eq {w : Outside ℕ Unit} {r : Ready} {fuel : ℕ} {st : Fit.St (World Unit) Duals Path} (hr : readAndPrepare w mS = .ok r)
    (hf : runFit w mS r fuel = some (.ok (), st)) : main w mArgv fuel = some (match writeResults w mS r st with
      | .error e => .error (.raised e)
      | .ok out => .ok out) := by
  unfold main
  rw [mSettings]
  simp only [hr, hf]
  cases writeResults w mS r st <;> rfl

/-- `writeResults` of a run raises the given exception. -/
def raises (x : Except Err Written) (e : Err) : Bool :=
  match x with
  | .error e' => decide (e' = e)
  | .ok _ => false

theorem raises_spec {x : Except Err Written} {e : Err} (h : raises x e = true) : x = .error e := by
  unfold raises at h
  split at h
  · rw [of_decide_eq_true h]
  · cases h

theorem mRun_facts : returned (mR mTrain 500 mO) (fun s => decide (s.world.master.selected.map (·.target) = [0, 1, 0, -1]) &&
    decide (predictFitted ((mReady mTrain 500 mO).prepared.args 2 false) s mX = .ok mD.yTrain) &&
    raises (writeResults (mOutside mTrain 500 mO) mS (mReady mTrain 500 mO) s) .valueError) = true := by decide +kernel

theorem mReady_data (train : Table ℕ) (h1 : Rect train) (D : Data) (hD : makeData train mTest = .ok D) (total : ℚ) (o : FitOracle Unit)
    (hr : readAndPrepare (mOutside train total o) mS = .ok (mReady train total o)) (hy : D.yTrain ≠ []) :
    ∃ carts extra, PrepInput 2 carts mFinal extra D.XTrain D.yTrain ∧
      prepare 2 carts mFinal extra D.XTrain D.yTrain (aggressiveMode 200 310 D.XTrain.length) (200 - 310) (fun _ => 0) =
        .ok (mReady train total o).prepared := by
  obtain ⟨a1, -⟩ := data_facts h1 mTest_rect hD
  obtain ⟨r, carts, extra, h2, -, h4, h5, h6⟩ := prepared_run (w := mOutside train total o) (s := mS) (by decide) (mOutside_trees train total o D) a1 hy
  have hm : makeReady (mOutside train total o) mS D = .ok (mReady train total o) := by
    unfold readAndPrepare at hr
    simp only [(mOutside_files train total o).train, (mOutside_files train total o).test, hD] at hr
    exact hr
  rw [hm] at h2
  obtain rfl := Except.ok.inj h2
  have e : mFinal = (mReady train total o).cart := (Prod.mk.inj (Except.ok.inj h4)).1
  rw [← e] at h5 h6
  exact ⟨carts, extra, h5, h6⟩

/-- **C100 is false in general.** Files, trees, options and solvers as required; the solvers find optimal solutions. The training ends, and all
training rows are classified correctly. But the program ends with a `ValueError` and writes no result file: the second test row ends in a
leaf that no training row reaches, and the path selected for it has the target `-1`. -/
theorem C100_refuted : ∃ (w : Outside ℕ Unit) (argv : List Text) (s : Settings) (train test : Table ℕ) (D : Data) (r : Ready)
    (st : Fit.St (World Unit) Duals Path) (fuel : ℕ),
    settings argv = .ok s ∧ Files w s train test ∧ Rect train ∧ Rect test ∧ makeData train test = .ok D ∧
    (∃ a ∈ labels train, ∃ b ∈ labels train, a ≠ b) ∧ 0 < s.depth ∧ Trees w s D ∧ (∀ k, w.elapsed k ≤ w.elapsed (k + 1)) ∧
    readAndPrepare w s = .ok r ∧ (∀ p ∈ r.prepared.paths, UsesCand r.prepared.nodes p) ∧
    FitContract s.depth.toNat (r.prepared.args s.depth.toNat false) D.XTrain w.solvers 0 ∧
    IpOptimal s.depth.toNat (r.prepared.args s.depth.toNat false) D.XTrain w.solvers ∧ PriceOptimal w.solvers ∧
    runFit w s r fuel = some (.ok (), st) ∧ predictFitted (r.prepared.args s.depth.toNat false) st D.XTrain = .ok D.yTrain ∧
    main w argv fuel = some (.error (.raised .valueError)) := by
  obtain ⟨st, h1, h2⟩ := returned_spec mRun_facts
  simp only [Bool.and_eq_true, decide_eq_true_eq] at h2
  obtain ⟨⟨-, h3⟩, h4⟩ := h2
  have hcand : ∀ p ∈ (mReady mTrain 500 mO).prepared.paths, UsesCand (mReady mTrain 500 mO).prepared.nodes p := by
    have : ∀ p ∈ (mReady mTrain 500 mO).prepared.paths, ∀ q ∈ p.pairs, q.2 ∈ cand (mReady mTrain 500 mO).prepared.nodes q.1 := by decide +kernel
    exact this
  obtain ⟨carts, extra, h5, h6⟩ := mReady_data mTrain mTrain_rect mD mData 500 mO (mReady1 _ _) (by decide)
  have hy : mD.yTrain = (encoded mD.yTrain).map Int.ofNat := by decide +kernel
  have hf := prepared_fitOk h5 hy (fun _ => le_refl _) h6 hcand false
  refine ⟨mOutside mTrain 500 mO, mArgv, mS, mTrain, mTest, mD, mReady mTrain 500 mO, st, 10, mSettings, mOutside_files _ _ _, mTrain_rect, mTest_rect, mData,
    ⟨3, by decide +kernel, 7, by decide +kernel, by decide⟩, by decide, mOutside_trees _ _ _ _, fun _ => le_refl _, mReady1 _ _, hcand,
    guided_contract hf _ _ _ _, guided_ipOptimal _ _ _ _, guided_priceOptimal _ _ _ _, h1, h3, ?_⟩
  rw [main_eq (mReady1 _ _) h1, raises_spec h4]

/-- C51, exactly, on the run of `C51_refuted`: both cases occur. -/
example : ∃ s, fRun = some (.ok (), s) ∧ (∃ p ∈ s.world.master.selected, Follows 2 (rowLeft fArgs.splits [0, 0, 1]) p ∧ p.target = -1) ∧
    ¬ ∃ row ∈ fX, ∃ p ∈ s.world.master.selected, Follows 2 (rowLeft fArgs.splits row) p ∧ p.target = -1 := by
  obtain ⟨s, h1, h2⟩ := returned_spec fRun_facts
  simp only [Bool.and_eq_true, decide_eq_true_eq] at h2
  have h := C51_exact fFitOk (guided_contract fFitOk _ _ _ _) ⟨0, by decide, 1, by decide, by decide⟩ (by decide +kernel) (by decide +kernel) h1
  refine ⟨s, h1, ?_, fun hx => ?_⟩
  · by_contra hn
    obtain ⟨ls, e, -⟩ := (h [[0, 0, 1]]).1 fun row hrow p hp hfp hpt => hn ⟨p, hp, by rwa [← List.mem_singleton.1 hrow], hpt⟩
    rw [h2.2] at e
    cases e
  · have := (h fX).2.1 hx
    rw [h2.1.2] at this
    cases this

/-! ## A run that ends well -/

/-- The numbers in a result file. -/
def numbers (x : Except Err Written) : Option (List ℚ) :=
  match x with
  | .error _ => none
  | .ok out => some [out.cartTrain, out.cartTest, out.results.trainAccuracy, out.results.testAccuracy]

theorem mRun_facts' : returned (mR mTrain' 500 mO') (fun s => decide (s.world.master.selected.map (·.target) = [0, 1, 0, 0]) &&
    decide (numbers (writeResults (mOutside mTrain' 500 mO') mS (mReady mTrain' 500 mO') s) = some [7 / 9, 0, 1, 1])) = true := by decide +kernel

/-- All hypotheses of `C100_program_partial` hold for this run, with exact solvers. -/
theorem mGood_hyps : (∀ p ∈ (mReady mTrain' 500 mO').prepared.paths, UsesCand (mReady mTrain' 500 mO').prepared.nodes p) ∧
    FitContract 2 ((mReady mTrain' 500 mO').prepared.args 2 false) mD'.XTrain mO' 0 ∧
    IpOptimal 2 ((mReady mTrain' 500 mO').prepared.args 2 false) mD'.XTrain mO' := by
  have hcand : ∀ p ∈ (mReady mTrain' 500 mO').prepared.paths, UsesCand (mReady mTrain' 500 mO').prepared.nodes p := by
    have : ∀ p ∈ (mReady mTrain' 500 mO').prepared.paths, ∀ q ∈ p.pairs, q.2 ∈ cand (mReady mTrain' 500 mO').prepared.nodes q.1 := by decide +kernel
    exact this
  obtain ⟨carts, extra, h5, h6⟩ := mReady_data mTrain' mTrain'_rect mD' mData' 500 mO' (mReady1' _ _) (by decide)
  have hy : mD'.yTrain = (encoded mD'.yTrain).map Int.ofNat := by decide +kernel
  have hf := prepared_fitOk h5 hy (fun _ => le_refl _) h6 hcand false
  exact ⟨hcand, guided_contract hf _ _ _ _, guided_ipOptimal _ _ _ _⟩

/-- The result file is written, and the classifier is better than CART. -/
example : ∃ st out, mR mTrain' 500 mO' = some (.ok (), st) ∧ (∀ p ∈ st.world.master.selected, p.target ≠ -1) ∧
    main (mOutside mTrain' 500 mO') mArgv 10 = some (.ok out) ∧ out.cartTrain = 7 / 9 ∧ out.cartTest = 0 ∧ out.results.trainAccuracy = 1 ∧
    out.results.testAccuracy = 1 := by
  obtain ⟨st, h1, h2⟩ := returned_spec mRun_facts'
  simp only [Bool.and_eq_true, decide_eq_true_eq] at h2
  obtain ⟨h3, h4⟩ := h2
  have h5 := main_eq (mReady1' _ _) h1
  generalize writeResults (mOutside mTrain' 500 mO') mS (mReady mTrain' 500 mO') st = x at h4 h5
  cases x with
  | error e => cases h4
  | ok out =>
    simp only [numbers, Option.some.injEq, List.cons.injEq, and_true] at h4
    refine ⟨st, out, h1, ?_, h5, h4⟩
    intro p hp
    have : p.target ∈ ([0, 1, 0, 0] : List ℤ) := by rw [← h3]; exact List.mem_map_of_mem hp
    intro hm
    rw [hm] at this
    simp at this

/-- The theorem itself applied to this run. -/
example := C100_program_partial mSettings (mOutside_files mTrain' 500 mO') mTrain'_rect mTest_rect mData' ⟨3, by decide +kernel, 7, by decide +kernel, by decide⟩
  (by decide) (mOutside_trees _ _ _ _) (fun _ => le_refl _)

/-- C100 for a depth of 0: `-d 0`. -/
example : main (mOutside mTrain 500 mO) (["-T", "a.csv", "-t", "b.csv", "-d", "0"].map String.toList) 10 = some (.error (.raised .zeroDivisionError)) := by
  have hs : settings (["-T", "a.csv", "-t", "b.csv", "-d", "0"].map String.toList) =
      .ok ⟨"a.csv".toList, "b.csv".toList, 0, -1, 600, 200, [','], some 0, "results/".toList⟩ := by decide +kernel
  exact C100_depth hs ⟨rfl, rfl⟩ mData (by decide) 10

/-- C98 for the run above: 100 seconds are left for the classifier. -/
example : fitLimit mS (mOutside mTrain 500 mO).total = 100 ∧ (mOutside mTrain 500 mO).total < mS.timeLimit := by decide +kernel

/-! ## A run without time limit (C98) -/

/-- The first test of the time limit in a trace, the start of the timer before it, and whether something is priced later. -/
def firstCheck (tr : List (Fit.Ev Duals Path)) : Option (ℚ × ℚ × Option ℚ × Bool) :=
  match tr.dropWhile (fun e => match e with | .check _ _ => false | _ => true) with
  | .check a b :: post => some (a, b, Fit.Spec.lastTimer (tr.takeWhile (fun e => match e with | .check _ _ => false | _ => true)),
      post.any (fun e => match e with | .generate _ _ _ _ => true | _ => false))
  | _ => none

theorem firstCheck_spec {tr : List (Fit.Ev Duals Path)} {a b : ℚ} {t : Option ℚ} (h : firstCheck tr = some (a, b, t, true)) :
    ∃ pre post, tr = pre ++ .check a b :: post ∧ Fit.Spec.lastTimer pre = t ∧ ∃ l i d r, Fit.Ev.generate l i d r ∈ post := by
  unfold firstCheck at h
  split at h
  · next a' b' post e =>
    simp only [Option.some.injEq, Prod.mk.injEq, List.any_eq_true] at h
    obtain ⟨rfl, rfl, h1, x, hx, hx'⟩ := h
    refine ⟨_, post, ?_, h1, ?_⟩
    · rw [← e, List.takeWhile_append_dropWhile]
    · cases x <;> simp at hx'
      exact ⟨_, _, _, _, hx⟩
  · cases h

theorem mLate_facts : returned (mR mTrain 700 mO) (fun s => decide (firstCheck s.trace = some (0, 0, some 0, true)) && !s.est.timeLimitReached) = true := by
  decide +kernel

/-- **C98 is false in general.** A run with `--time_limit=600` whose preparation takes 700 seconds: at the first test of the classifier more than
600 seconds have passed, and it goes on and prices. -/
theorem C98_refuted : ∃ (w : Outside ℕ Unit) (argv : List Text) (s : Settings) (r : Ready) (st : Fit.St (World Unit) Duals Path) (fuel : ℕ),
    settings argv = .ok s ∧ 0 < s.timeLimit ∧ readAndPrepare w s = .ok r ∧ runFit w s r fuel = some (.ok (), st) ∧
    st.est.timeLimitReached = false ∧ ∃ pre a b post, st.trace = pre ++ Fit.Ev.check a b :: post ∧ Fit.Spec.lastTimer pre = some a ∧
      w.total + (b - a) > s.timeLimit ∧ ∃ l i d x, Fit.Ev.generate l i d x ∈ post := by
  obtain ⟨st, h1, h2⟩ := returned_spec mLate_facts
  simp only [Bool.and_eq_true, decide_eq_true_eq, Bool.not_eq_true'] at h2
  obtain ⟨pre, post, e1, e2, e3⟩ := firstCheck_spec h2.1
  exact ⟨mOutside mTrain 700 mO, mArgv, mS, mReady mTrain 700 mO, st, 10, mSettings, by decide, mReady1 _ _, h1, h2.2, pre, 0, 0, post, e1, e2,
    by decide +kernel, e3⟩

end Verif.Exp.Demo
