import Verif.Exp.ExperimentProps
import Verif.DTree.CertProps

/-!
# Property C117: a certified experiment is the most accurate one, with or without merging of rows

C108 counts training rows with the weights of the preprocessing. In the experiment these weights come from the merging of rows, and here all rows
of the training data are counted.
-/

namespace Verif.Exp

open Verif.DTree Verif.DTree.Spec

variable {d d' : ℕ} {carts extra carts' extra' : List Cart} {final final' : Cart} {X X' : List (List ℚ)} {y y' : List ℤ} {aggressive aggressive' : Bool}
  {limit limit' : ℚ} {elapsed elapsed' : ℕ → ℚ} {Ω Ω' : Type} {o : FitOracle Ω} {o' : FitOracle Ω'} {tol tol' : ℚ} {maxIt maxIt' : ℤ}
  {tlimit tlimit' : ℚ} {fuel fuel' : ℕ} {e0 e0' : Fit.Est} {ω : Ω} {ω' : Ω'} {u u' : Unit} {s : Fit.St (World Ω) Duals Path}
  {s' : Fit.St (World Ω') Duals Path} {raw raw' : List ℤ} {P P' : Prepared} {old' : Bool}

/-- What the certificate of the run says: column generation ended with `mp_optimal_`, and the selected paths are worth more than `rmp_objective_` plus
the tolerances of C74 minus 1. -/
structure Spec.Certified (d : ℕ) (P : Prepared) (X : List (List ℚ)) (tol : ℚ) (s : Fit.St (World Ω) Duals Path) : Prop where
  optimal : s.est.mpOptimal = true
  gap : s.world.master.rmpObj + 2 ^ d * (1 / 1000000 + ((2 * X.length + s.world.master.cutCons.length + d * P.splits.length : ℕ) : ℚ) / 100000) +
    (2 ^ d - 1) * tol < (s.world.master.selected.map (·.cost)).sum + 1

open Spec

theorem correct_mono {p q : List ℤ} (h : ∀ r < y.length, p.getD r 0 = y.getD r 0 → q.getD r 0 = y.getD r 0) : correct y p ≤ correct y q := by
  unfold correct
  rw [← List.countP_eq_length_filter, ← List.countP_eq_length_filter]
  refine List.countP_mono_left ?_
  intro r hr hp
  simp only [decide_eq_true_eq] at hp ⊢
  exact h r (List.mem_range.1 hr) hp

/-- `predict` answers the rows one by one. -/
theorem predict_each {A : Args} {R : List (List ℚ)} : ∀ {ls : List ℤ}, predictFitted A s R = .ok ls →
    ls.length = R.length ∧ ∀ r < R.length, predictFitted A s [R.getD r []] = .ok [ls.getD r 0] := by
  unfold predictFitted predict Sk.inverseTransform
  induction R with
  | nil =>
    intro ls h
    cases h
    exact ⟨rfl, fun r hr => absurd hr (by simp)⟩
  | cons row R ih =>
    intro ls h
    rw [List.map_cons, List.mapM_cons] at h
    rcases hv : Sk.inverseOne s.est.classes (predictRow A.leaves s.world.master.splits row s.world.master.selected) with e | v
    · rw [hv] at h; cases h
    · rw [hv] at h
      rcases hm : List.mapM (Sk.inverseOne s.est.classes) (R.map fun row => predictRow A.leaves s.world.master.splits row s.world.master.selected) with e | vs
      · rw [hm] at h; cases h
      · rw [hm] at h
        cases h
        obtain ⟨h1, h2⟩ := ih hm
        refine ⟨by simp [h1], ?_⟩
        intro r hr
        cases r with
        | zero =>
          simp only [List.getD_cons_zero, List.map_cons, List.map_nil]
          rw [List.mapM_cons, hv]
          rfl
        | succ r =>
          simp only [List.getD_cons_succ]
          exact h2 r (by simpa using hr)

/-- **C117, trees.** After a certified run `predict` answers on the training data, and no decision tree over the candidate questions of the experiment,
of the same depth or less and with any labels, has more right labels on the training data. All rows count, also those removed in the preprocessing,
and it makes no difference when the time limit stopped the merging of rows. -/
theorem C117_best_tree (h : PrepInput d carts final extra X y) (hy : y = (encoded raw).map Int.ofNat) (hclock : ∀ k, elapsed k ≤ elapsed (k + 1))
    (hr : prepare d carts final extra X y aggressive limit elapsed = .ok P) (hcand : ∀ p ∈ P.paths, UsesCand P.nodes p)
    (hc : FitContract d (P.args d false) X o tol) (hty : TwoClasses y) (hpo : PriceOptimal o)
    (hfit : fitNew o (P.args d false) maxIt tlimit X fuel y e0 ω = some (.ok u, s)) (hcert : Certified d P X tol s) :
    ∃ preds, predictFitted (P.args d false) s X = .ok preds ∧ preds.length = X.length ∧
      ∀ t : Questions, t.Within d P.nodes P.splits → correct y (X.map t.answer) ≤ correct y preds := by
  classical
  obtain ⟨preds, h1, h2, h3⟩ := run_preds h hy hclock hr hcand hc hty hfit
  refine ⟨preds, h1, h2, fun t ht => ?_⟩
  have hf := prepared_fitOk h hy hclock hr hcand false
  obtain ⟨σ0, Q, -, hσ0, -, -⟩ := C72_fitted_tree hf hc hty hfit
  obtain ⟨hd, hq⟩ := ht
  have hex : ∀ n, ∃ i, (n < 2 ^ d - 1 → i ∈ cand P.nodes n) ∧ (n < 2 ^ t.depth - 1 →
      (splitAt P.splits i).feature = t.feature n ∧ (splitAt P.splits i).threshold = t.threshold n) := by
    intro n
    by_cases hn : n < 2 ^ t.depth - 1
    · obtain ⟨i, h1, h2⟩ := hq n hn
      exact ⟨i, fun _ => h1, fun _ => h2⟩
    · exact ⟨σ0 n, hσ0 n, fun h => absurd h hn⟩
  choose σ hσ using hex
  have hlab : ∀ v : ℤ, v ∈ y ↔ 0 ≤ v ∧ v < (Sk.uniqueLabels raw).length := by rw [hy]; exact encoded_labels raw
  have ⟨v0, hv0, _⟩ := hty
  let τ : ℕ → ℕ := fun l => if t.label (l / 2 ^ (d - t.depth)) ∈ y then (t.label (l / 2 ^ (d - t.depth))).toNat else v0.toNat
  have hτ : ∀ l < 2 ^ d, (τ l : ℤ) ∈ y := by
    intro l _
    dsimp only [τ]
    split
    · next hm => rw [Int.toNat_of_nonneg ((hlab _).1 hm).1]; exact hm
    · rw [Int.toNat_of_nonneg ((hlab _).1 hv0).1]; exact hv0
  have hb := C79_bound h hy hclock hr hcand hc hty hpo hfit hcert.optimal (σ := σ) (τ := τ) (fun n hn => (hσ n).1 hn) hτ
  have hm : correct y (X.map t.answer) ≤ correct y (treePreds d P.splits σ τ X) := by
    refine correct_mono ?_
    intro r hr hp
    have hrl : r < X.length := by rw [← h.rows]; exact hr
    have hyr : y.getD r 0 ∈ y := by
      rw [List.getD_eq_getElem?_getD, List.getElem?_eq_getElem hr]
      exact List.getElem_mem hr
    rw [List.getD_eq_getElem?_getD, List.getElem?_map, List.getElem?_eq_getElem hrl] at hp
    unfold treePreds
    rw [List.getD_eq_getElem?_getD, List.getElem?_map, List.getElem?_eq_getElem hrl]
    simp only [Option.map_some, Option.getD_some] at hp ⊢
    have hw : walkLeaf (fun n => takesLeft X[r] (splitAt P.splits (σ n))) d / 2 ^ (d - t.depth) =
        walkLeaf (fun n => decide (X[r].getD (t.feature n) 0 ≤ t.threshold n)) t.depth := by
      have := walkLeaf_div (fun n => takesLeft X[r] (splitAt P.splits (σ n))) t.depth (d - t.depth)
      rw [Nat.add_sub_cancel' hd] at this
      rw [this]
      refine walkLeaf_congr ?_
      intro n hn
      obtain ⟨h2, h3⟩ := (hσ n).2 hn
      unfold takesLeft feat
      rw [h2, h3]
    have hp : t.label (walkLeaf (fun n => decide (X[r].getD (t.feature n) 0 ≤ t.threshold n)) t.depth) = y.getD r 0 := hp
    dsimp only [τ]
    rw [hw, hp, if_pos hyr, Int.toNat_of_nonneg ((hlab _).1 hyr).1]
  have hlt : (correct y (treePreds d P.splits σ τ X) : ℚ) < (correct y preds : ℚ) + 1 := by
    have := hcert.gap
    linarith
  have : correct y (treePreds d P.splits σ τ X) < correct y preds + 1 := by exact_mod_cast hlt
  omega

/-- **C117, runs.** After a certified run no other experiment, on any data, of the same depth or less, whose candidate questions are among those of the
certified one, yields a classifier with more right labels on the training data of the certified one. -/
theorem C117_beats_other_runs (h : PrepInput d carts final extra X y) (hy : y = (encoded raw).map Int.ofNat) (hclock : ∀ k, elapsed k ≤ elapsed (k + 1))
    (hr : prepare d carts final extra X y aggressive limit elapsed = .ok P) (hcand : ∀ p ∈ P.paths, UsesCand P.nodes p)
    (hc : FitContract d (P.args d false) X o tol) (hty : TwoClasses y) (hpo : PriceOptimal o)
    (hfit : fitNew o (P.args d false) maxIt tlimit X fuel y e0 ω = some (.ok u, s)) (hcert : Certified d P X tol s)
    (h' : PrepInput d' carts' final' extra' X' y') (hy' : y' = (encoded raw').map Int.ofNat) (hclock' : ∀ k, elapsed' k ≤ elapsed' (k + 1))
    (hr' : prepare d' carts' final' extra' X' y' aggressive' limit' elapsed' = .ok P') (hcand' : ∀ p ∈ P'.paths, UsesCand P'.nodes p)
    (hc' : FitContract d' (P'.args d' old') X' o' tol') (hty' : TwoClasses y')
    (hfit' : fitNew o' (P'.args d' old') maxIt' tlimit' X' fuel' y' e0' ω' = some (.ok u', s')) (hd : d' ≤ d)
    (hq : FewerQuestions d' P'.nodes P'.splits P.nodes P.splits) {preds preds' : List ℤ}
    (hp : predictFitted (P.args d false) s X = .ok preds) (hp' : predictFitted (P'.args d' old') s' X = .ok preds') :
    correct y preds' ≤ correct y preds := by
  obtain ⟨preds0, h1, -, h3⟩ := C117_best_tree h hy hclock hr hcand hc hty hpo hfit hcert
  rw [hp] at h1
  obtain rfl := Except.ok.inj h1
  obtain ⟨t, e1, ⟨-, e2⟩, e3⟩ := C108_fitted_is_tree (prepared_fitOk h' hy' hclock' hr' hcand' old') hc' hty' (.new ω') hfit'
  have ht : t.Within d P.nodes P.splits := by
    refine ⟨e1 ▸ hd, fun n hn => ?_⟩
    obtain ⟨i', hi', f1, f2⟩ := e2 n hn
    obtain ⟨i, hi, f3, f4⟩ := hq n (e1 ▸ hn) i' hi'
    exact ⟨i, hi, f3.trans f1, f4.trans f2⟩
  refine le_trans (correct_mono ?_) (h3 t ht)
  intro r hr hp2
  have hrl : r < X.length := by rw [← h.rows]; exact hr
  obtain ⟨-, f2⟩ := predict_each hp'
  have := e3 _ _ (f2 r hrl)
  rw [List.getD_eq_getElem?_getD, List.getElem?_map, List.getElem?_eq_getElem hrl]
  rw [List.getD_eq_getElem?_getD, List.getElem?_eq_getElem hrl] at this
  simp only [Option.map_some, Option.getD_some] at this ⊢
  rw [this]
  exact hp2

/-- **C117, preparation.** The merging of rows and its time limit influence the prepared rows only. -/
theorem C117_same_questions (hr : prepare d carts final extra X y aggressive limit elapsed = .ok P)
    (hr' : prepare d carts final extra X y aggressive' limit' elapsed' = .ok P') :
    P'.paths = P.paths ∧ P'.leaves = P.leaves ∧ P'.nodes = P.nodes ∧ P'.splits = P.splits ∧ P'.targets = P.targets := by
  unfold prepare at hr hr'
  split_ifs at hr hr'
  split at hr
  · cases hr
  · next st hst =>
    rw [hst] at hr'
    simp only at hr'
    split at hr
    · cases hr
    · next st2 hst2 =>
      rw [hst2] at hr'
      simp only at hr'
      split at hr
      · cases hr
      · next a b c e hfin =>
        rw [hfin] at hr'
        simp only at hr'
        split at hr
        · cases hr
        · next paths hpaths =>
          rw [hpaths] at hr'
          simp only at hr'
          split at hr
          · cases hr
          · split at hr'
            · cases hr'
            · cases hr
              cases hr'
              exact ⟨rfl, rfl, rfl, rfl, rfl⟩

/-- **C117, merging.** Two experiments with the same trees and data, with and without aggressive merging of rows or stopped at different times, with any
solvers that keep their contracts: certified, they have equally many right labels on the training data. -/
theorem C117_merging (h : PrepInput d carts final extra X y) (hy : y = (encoded raw).map Int.ofNat) (hclock : ∀ k, elapsed k ≤ elapsed (k + 1))
    (hclock' : ∀ k, elapsed' k ≤ elapsed' (k + 1))
    (hr : prepare d carts final extra X y aggressive limit elapsed = .ok P) (hr' : prepare d carts final extra X y aggressive' limit' elapsed' = .ok P')
    (hcand : ∀ p ∈ P.paths, UsesCand P.nodes p) (hty : TwoClasses y)
    (hc : FitContract d (P.args d false) X o tol) (hpo : PriceOptimal o)
    (hfit : fitNew o (P.args d false) maxIt tlimit X fuel y e0 ω = some (.ok u, s)) (hcert : Certified d P X tol s)
    (hc' : FitContract d (P'.args d false) X o' tol') (hpo' : PriceOptimal o')
    (hfit' : fitNew o' (P'.args d false) maxIt' tlimit' X fuel' y e0' ω' = some (.ok u', s')) (hcert' : Certified d P' X tol' s') :
    ∃ preds preds', predictFitted (P.args d false) s X = .ok preds ∧ predictFitted (P'.args d false) s' X = .ok preds' ∧
      correct y preds = correct y preds' := by
  obtain ⟨e1, -, e3, e4, -⟩ := C117_same_questions hr hr'
  have hcand' : ∀ p ∈ P'.paths, UsesCand P'.nodes p := by rw [e1, e3]; exact hcand
  obtain ⟨preds, h1, -, -⟩ := C117_best_tree h hy hclock hr hcand hc hty hpo hfit hcert
  obtain ⟨preds', h1', -, -⟩ := C117_best_tree h hy hclock' hr' hcand' hc' hty hpo' hfit' hcert'
  refine ⟨preds, preds', h1, h1', le_antisymm ?_ ?_⟩
  · refine C117_beats_other_runs h hy hclock' hr' hcand' hc' hty hpo' hfit' hcert' h hy hclock hr hcand hc hty hfit (le_refl _) ?_ h1' h1
    rw [e3, e4]
    exact fun n _ i hi => ⟨i, hi, rfl, rfl⟩
  · refine C117_beats_other_runs h hy hclock hr hcand hc hty hpo hfit hcert h hy hclock' hr' hcand' hc' hty hfit' (le_refl _) ?_ h1 h1'
    rw [e3, e4]
    exact fun n _ i hi => ⟨i, hi, rfl, rfl⟩

end Verif.Exp
