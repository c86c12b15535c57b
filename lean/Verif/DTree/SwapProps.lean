import Verif.DTree.CertProps

/-!
# Property C130 (trees): naming and order of the classes do not matter for a certified tree

C86 is about renamings that keep the order of the labels, which change nothing in a run. Any other renaming (such as exchanging the two classes)
changes the encoded labels, the programs and the answers. A certified tree run is still right for as many rows as before.
-/

set_option linter.unusedSectionVars false

namespace Verif.DTree

open MP Spec
open Fit.Spec

variable {Ω Ω' : Type} {o : FitOracle Ω} {o' : FitOracle Ω'} {d d' : ℕ} {A A' : Args} {X X' : List (List ℚ)} {y y' : List ℤ} {tol tol' : ℚ}
  {maxIt maxIt' : ℤ} {limit limit' : ℚ} {fuel fuel' : ℕ} {e0 e0' : Fit.Est} {u u' : Unit} {w : World Ω} {w' : World Ω'}
  {s : Fit.St (World Ω) Duals Path} {s' : Fit.St (World Ω') Duals Path}

/-- **C130.** No other fitted classifier that is not deeper and whose candidate questions are among those of the certified one tells the classes apart
for more training rows, even if its answers are read with other names: `f label` stands for `label`. -/
theorem C130_tree_renamed (hf : FitOk d A X (encoded y)) (hc : FitContract d A X o tol) (hy : TwoClasses y) (hl : y.length = X.length)
    (hpo : PriceOptimal o) (hnew : A.useOld = false) (h0 : ∀ p ∈ A.paths, p.cost ≤ hitsOf d (Args.base A d X (encoded y)) p p.target)
    (hs : Session o A X y w) (hr : Fit.fit (env o A X) (config A maxIt limit) fuel y e0 w = some (.ok u, s)) (hopt : s.est.mpOptimal = true)
    (hgap : s.world.master.rmpObj + 2 ^ d * (1 / 1000000 + ((2 * X.length + s.world.master.cutCons.length + d * A.splits.length : ℕ) : ℚ) / 100000) +
      (2 ^ d - 1) * tol < (s.world.master.selected.map (·.cost)).sum + 1)
    (hf' : FitOk d' A' X' (encoded y')) (hc' : FitContract d' A' X' o' tol') (hy' : TwoClasses y') (hs' : Session o' A' X' y' w')
    (hr' : Fit.fit (env o' A' X') (config A' maxIt' limit') fuel' y' e0' w' = some (.ok u', s')) (hd : d' ≤ d)
    (hq : FewerQuestions d' A'.nodes A'.splits A.nodes A.splits) {f : ℤ → ℤ} (hinj : ∀ a ∈ y, ∀ b ∈ y, f a = f b → a = b) :
    rowsWith d A X y (fun row label => predictFitted A' s' [row] = .ok [f label]) ≤
      rowsWith d A X y (fun row label => predictFitted A s [row] = .ok [label]) := by
  classical
  obtain ⟨t, h1, ⟨-, h2⟩, h3⟩ := C108_fitted_is_tree hf' hc' hy' hs' hr'
  let g : ℤ → ℤ := fun v => if h : ∃ a ∈ y, f a = v then h.choose else 0
  have hg : ∀ a ∈ y, g (f a) = a := by
    intro a ha
    have hex : ∃ b ∈ y, f b = f a := ⟨a, ha, rfl⟩
    have : g (f a) = hex.choose := dif_pos hex
    rw [this]
    exact hinj _ hex.choose_spec.1 _ ha hex.choose_spec.2
  have ht : (⟨t.depth, t.feature, t.threshold, fun l => g (t.label l)⟩ : Questions).Within d A.nodes A.splits := by
    refine ⟨h1 ▸ hd, fun n hn => ?_⟩
    obtain ⟨i', hi', e1, e2⟩ := h2 n hn
    obtain ⟨i, hi, e3, e4⟩ := hq n (h1 ▸ hn) i' hi'
    exact ⟨i, hi, e3.trans e1, e4.trans e2⟩
  refine le_trans (keptSum_imp (rowWeight_nonneg _) ?_) (C108_best_tree hf hc hy hl hpo hnew h0 hs hr hopt hgap _ ht)
  intro r hrl h
  have hrl : r < X.length := hrl
  have hm : y.getD r 0 ∈ y := by
    have hr' : r < y.length := by omega
    rw [List.getD_eq_getElem?_getD, List.getElem?_eq_getElem hr']
    exact List.getElem_mem hr'
  have := h3 _ _ h
  show g (t.answer (X.getD r [])) = y.getD r 0
  rw [this, hg _ hm]

/-- **C130.** Two certified runs of the same depth and with the same candidate questions. The second has the labelled rows of the first, in any order, each
`k` times, and with other names `f` for the labels. Then it is right for exactly `k` times as many rows. -/
theorem C130_tree_data {f : ℤ → ℤ} (hinj : ∀ a ∈ y, ∀ b ∈ y, f a = f b → a = b) {k : ℕ}
    (hdata : (X'.zip y').Perm (List.replicate k ((X.zip y).map (fun q => (q.1, f q.2)))).flatten) (hl : y.length = X.length)
    (hf : FitOk d A X (encoded y)) (hc : FitContract d A X o tol) (hy : TwoClasses y)
    (hpo : PriceOptimal o) (hnew : A.useOld = false) (hrows : A.dataRows = none)
    (h0 : ∀ p ∈ A.paths, p.cost ≤ hitsOf d (Args.base A d X (encoded y)) p p.target)
    (hs : Session o A X y w) (hr : Fit.fit (env o A X) (config A maxIt limit) fuel y e0 w = some (.ok u, s)) (hopt : s.est.mpOptimal = true)
    (hgap : s.world.master.rmpObj + 2 ^ d * (1 / 1000000 + ((2 * X.length + s.world.master.cutCons.length + d * A.splits.length : ℕ) : ℚ) / 100000) +
      (2 ^ d - 1) * tol < (s.world.master.selected.map (·.cost)).sum + 1) (hl' : y'.length = X'.length)
    (hf' : FitOk d A' X' (encoded y')) (hc' : FitContract d A' X' o' tol') (hy' : TwoClasses y')
    (hpo' : PriceOptimal o') (hnew' : A'.useOld = false) (hrows' : A'.dataRows = none)
    (h0' : ∀ p ∈ A'.paths, p.cost ≤ hitsOf d (Args.base A' d X' (encoded y')) p p.target)
    (hs' : Session o' A' X' y' w') (hr' : Fit.fit (env o' A' X') (config A' maxIt' limit') fuel' y' e0' w' = some (.ok u', s'))
    (hopt' : s'.est.mpOptimal = true)
    (hgap' : s'.world.master.rmpObj + 2 ^ d * (1 / 1000000 + ((2 * X'.length + s'.world.master.cutCons.length + d * A'.splits.length : ℕ) : ℚ) / 100000) +
      (2 ^ d - 1) * tol' < (s'.world.master.selected.map (·.cost)).sum + 1)
    (hq : FewerQuestions d A'.nodes A'.splits A.nodes A.splits) (hq' : FewerQuestions d A.nodes A.splits A'.nodes A'.splits) :
    (X'.zip y').countP (fun q => predictFitted A' s' [q.1] = .ok [q.2]) = k * (X.zip y).countP (fun q => predictFitted A s [q.1] = .ok [q.2]) := by
  classical
  let g : ℤ → ℤ := fun v => if h : ∃ a ∈ y, f a = v then h.choose else 0
  have hg : ∀ a ∈ y, g (f a) = a := by
    intro a ha
    have hex : ∃ b ∈ y, f b = f a := ⟨a, ha, rfl⟩
    have : g (f a) = hex.choose := dif_pos hex
    rw [this]
    exact hinj _ hex.choose_spec.1 _ ha hex.choose_spec.2
  have hy'mem : ∀ v ∈ y', ∃ a ∈ y, f a = v := by
    intro v hv
    obtain ⟨i, hi, rfl⟩ := List.getElem_of_mem hv
    have hz : (X'[i]'(by omega), y'[i]) ∈ X'.zip y' := by
      rw [List.mem_iff_getElem]
      exact ⟨i, by rw [List.length_zip]; omega, List.getElem_zip⟩
    have := hdata.subset hz
    rw [List.mem_flatten] at this
    obtain ⟨L, hL, hm⟩ := this
    rw [(List.mem_replicate.1 hL).2] at hm
    obtain ⟨q, hqm, he⟩ := List.mem_map.1 hm
    exact ⟨q.2, (List.of_mem_zip hqm).2, congrArg Prod.snd he⟩
  have hginj : ∀ a ∈ y', ∀ b ∈ y', g a = g b → a = b := by
    intro a ha b hb h
    obtain ⟨a', ha', rfl⟩ := hy'mem a ha
    obtain ⟨b', hb', rfl⟩ := hy'mem b hb
    rw [hg a' ha', hg b' hb'] at h
    rw [h]
  have hcount : ∀ P : List ℚ × ℤ → Bool, (X'.zip y').countP P = k * (X.zip y).countP (fun q => P (q.1, f q.2)) := by
    intro P
    rw [hdata.countP_eq, List.countP_flatten, List.map_replicate, List.sum_replicate, List.countP_map]
    rfl
  have h1 := C130_tree_renamed hf hc hy hl hpo hnew h0 hs hr hopt hgap hf' hc' hy' hs' hr' (le_refl d) hq hinj
  have h2 := C130_tree_renamed hf' hc' hy' hl' hpo' hnew' h0' hs' hr' hopt' hgap' hf hc hy hs hr (le_refl d) hq' hginj
  rw [C108_count hl hrows, C108_count hl hrows] at h1
  rw [C108_count hl' hrows', C108_count hl' hrows'] at h2
  refine le_antisymm ?_ ?_
  · rw [hcount]
    refine Nat.mul_le_mul_left k ?_
    refine le_trans (le_of_eq (List.countP_congr ?_)) (le_trans (Nat.cast_le.1 h1) (le_of_eq (List.countP_congr ?_))) <;>
    · intro q _
      simp only [decide_eq_true_eq]
  · refine le_trans (le_of_eq ?_) (le_trans (Nat.cast_le.1 h2) (le_of_eq (List.countP_congr fun q _ => by simp only [decide_eq_true_eq])))
    rw [hcount]
    congr 1
    refine List.countP_congr ?_
    intro q hqm
    simp only [hg _ (List.of_mem_zip hqm).2, decide_eq_true_eq]

/-- **C130.** In particular, with the same rows and other names for the labels in any order, both are right for the same number of rows. -/
theorem C130_tree_swap {f : ℤ → ℤ} (hinj : ∀ a ∈ y, ∀ b ∈ y, f a = f b → a = b) (hl : y.length = X.length)
    (hf : FitOk d A X (encoded y)) (hc : FitContract d A X o tol) (hy : TwoClasses y)
    (hpo : PriceOptimal o) (hnew : A.useOld = false) (hrows : A.dataRows = none)
    (h0 : ∀ p ∈ A.paths, p.cost ≤ hitsOf d (Args.base A d X (encoded y)) p p.target)
    (hs : Session o A X y w) (hr : Fit.fit (env o A X) (config A maxIt limit) fuel y e0 w = some (.ok u, s)) (hopt : s.est.mpOptimal = true)
    (hgap : s.world.master.rmpObj + 2 ^ d * (1 / 1000000 + ((2 * X.length + s.world.master.cutCons.length + d * A.splits.length : ℕ) : ℚ) / 100000) +
      (2 ^ d - 1) * tol < (s.world.master.selected.map (·.cost)).sum + 1)
    (hf' : FitOk d A' X (encoded (y.map f))) (hc' : FitContract d A' X o' tol') (hy' : TwoClasses (y.map f))
    (hpo' : PriceOptimal o') (hnew' : A'.useOld = false) (hrows' : A'.dataRows = none)
    (h0' : ∀ p ∈ A'.paths, p.cost ≤ hitsOf d (Args.base A' d X (encoded (y.map f))) p p.target)
    (hs' : Session o' A' X (y.map f) w') (hr' : Fit.fit (env o' A' X) (config A' maxIt' limit') fuel' (y.map f) e0' w' = some (.ok u', s'))
    (hopt' : s'.est.mpOptimal = true)
    (hgap' : s'.world.master.rmpObj + 2 ^ d * (1 / 1000000 + ((2 * X.length + s'.world.master.cutCons.length + d * A'.splits.length : ℕ) : ℚ) / 100000) +
      (2 ^ d - 1) * tol' < (s'.world.master.selected.map (·.cost)).sum + 1)
    (hq : FewerQuestions d A'.nodes A'.splits A.nodes A.splits) (hq' : FewerQuestions d A.nodes A.splits A'.nodes A'.splits) :
    (X.zip y).countP (fun q => predictFitted A s [q.1] = .ok [q.2]) =
      (X.zip (y.map f)).countP (fun q => predictFitted A' s' [q.1] = .ok [q.2]) := by
  have hz : X.zip (y.map f) = (List.replicate 1 ((X.zip y).map (fun q => (q.1, f q.2)))).flatten := by
    rw [List.zip_map_right, List.replicate_one, List.flatten_singleton]; rfl
  rw [C130_tree_data hinj (List.Perm.of_eq hz) hl hf hc hy hpo hnew hrows h0 hs hr hopt hgap (by rw [List.length_map, hl]) hf' hc' hy' hpo' hnew' hrows'
    h0' hs' hr' hopt' hgap' hq hq', Nat.one_mul]

end Verif.DTree
