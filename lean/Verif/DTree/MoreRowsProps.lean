import Verif.DTree.CertProps

/-!
# Property C134: certified trees on more training rows
-/

set_option linter.unusedSectionVars false

namespace Verif.DTree

open MP Spec
open Fit.Spec

variable {Ω Ω' : Type} {o : FitOracle Ω} {o' : FitOracle Ω'} {d d' : ℕ} {A A' : Args} {X X' : List (List ℚ)} {y y' : List ℤ} {tol tol' : ℚ}
  {maxIt maxIt' : ℤ} {limit limit' : ℚ} {fuel fuel' : ℕ} {e0 e0' : Fit.Est} {u u' : Unit} {w : World Ω} {w' : World Ω'}
  {s : Fit.St (World Ω) Duals Path} {s' : Fit.St (World Ω') Duals Path} {R : List (List ℚ × ℤ)}

/-- The number of labelled rows for which `predict` is right. -/
def Spec.right (A : Args) (s : Fit.St (World Ω) Duals Path) (D : List (List ℚ × ℤ)) : ℕ := D.countP (fun q => decide (predictFitted A s [q.1] = .ok [q.2]))

/-- The certified run is right for as many of its training rows as another run. -/
theorem right_le (hf : FitOk d A X (encoded y)) (hc : FitContract d A X o tol) (hy : TwoClasses y) (hl : y.length = X.length)
    (hpo : PriceOptimal o) (hnew : A.useOld = false) (hrows : A.dataRows = none)
    (h0 : ∀ p ∈ A.paths, p.cost ≤ hitsOf d (Args.base A d X (encoded y)) p p.target)
    (hs : Session o A X y w) (hr : Fit.fit (env o A X) (config A maxIt limit) fuel y e0 w = some (.ok u, s)) (hopt : s.est.mpOptimal = true)
    (hgap : s.world.master.rmpObj + 2 ^ d * (1 / 1000000 + ((2 * X.length + s.world.master.cutCons.length + d * A.splits.length : ℕ) : ℚ) / 100000) +
      (2 ^ d - 1) * tol < (s.world.master.selected.map (·.cost)).sum + 1)
    (hf' : FitOk d' A' X' (encoded y')) (hc' : FitContract d' A' X' o' tol') (hy' : TwoClasses y') (hs' : Session o' A' X' y' w')
    (hr' : Fit.fit (env o' A' X') (config A' maxIt' limit') fuel' y' e0' w' = some (.ok u', s')) (hd : d' ≤ d)
    (hq : FewerQuestions d' A'.nodes A'.splits A.nodes A.splits) : right A' s' (X.zip y) ≤ right A s (X.zip y) := by
  have h := C108_beats_other_runs hf hc hy hl hpo hnew h0 hs hr hopt hgap hf' hc' hy' hs' hr' hd hq
  rw [C108_count hl hrows, C108_count hl hrows] at h
  unfold right
  refine le_trans (le_of_eq (List.countP_congr ?_)) (le_trans (Nat.cast_le.1 h) (le_of_eq (List.countP_congr ?_))) <;>
  · intro q _
    simp only [decide_eq_true_eq]

theorem right_append (D E : List (List ℚ × ℤ)) : right A s (D ++ E) = right A s D + right A s E := by unfold right; rw [List.countP_append]

theorem right_perm {D E : List (List ℚ × ℤ)} (h : D.Perm E) : right A s D = right A s E := h.countP_eq _

/-- **C134.** A certified tree run on the rows of another run, in any order, and the further rows `R` is right for at least as many rows as the other one, which
need not be certified, is on its rows and on `R`. -/
theorem C134_lower (hdata : (X.zip y).Perm (X'.zip y' ++ R)) (hf : FitOk d A X (encoded y)) (hc : FitContract d A X o tol) (hy : TwoClasses y)
    (hl : y.length = X.length) (hpo : PriceOptimal o) (hnew : A.useOld = false) (hrows : A.dataRows = none)
    (h0 : ∀ p ∈ A.paths, p.cost ≤ hitsOf d (Args.base A d X (encoded y)) p p.target)
    (hs : Session o A X y w) (hr : Fit.fit (env o A X) (config A maxIt limit) fuel y e0 w = some (.ok u, s)) (hopt : s.est.mpOptimal = true)
    (hgap : s.world.master.rmpObj + 2 ^ d * (1 / 1000000 + ((2 * X.length + s.world.master.cutCons.length + d * A.splits.length : ℕ) : ℚ) / 100000) +
      (2 ^ d - 1) * tol < (s.world.master.selected.map (·.cost)).sum + 1)
    (hf' : FitOk d' A' X' (encoded y')) (hc' : FitContract d' A' X' o' tol') (hy' : TwoClasses y') (hs' : Session o' A' X' y' w')
    (hr' : Fit.fit (env o' A' X') (config A' maxIt' limit') fuel' y' e0' w' = some (.ok u', s')) (hd : d' ≤ d)
    (hq : FewerQuestions d' A'.nodes A'.splits A.nodes A.splits) :
    right A' s' (X'.zip y') + right A' s' R ≤ right A s (X.zip y) := by
  have h := right_le hf hc hy hl hpo hnew hrows h0 hs hr hopt hgap hf' hc' hy' hs' hr' hd hq
  rwa [right_perm hdata, right_append] at h

/-- **C134.** Conversely, if a run on fewer rows is certified, no run on these rows and `R`, certified or not, is right for more rows than that run and the number
of further rows that it gets right itself. -/
theorem C134_upper (hdata : (X'.zip y').Perm (X.zip y ++ R)) (hf : FitOk d A X (encoded y)) (hc : FitContract d A X o tol) (hy : TwoClasses y)
    (hl : y.length = X.length) (hpo : PriceOptimal o) (hnew : A.useOld = false) (hrows : A.dataRows = none)
    (h0 : ∀ p ∈ A.paths, p.cost ≤ hitsOf d (Args.base A d X (encoded y)) p p.target)
    (hs : Session o A X y w) (hr : Fit.fit (env o A X) (config A maxIt limit) fuel y e0 w = some (.ok u, s)) (hopt : s.est.mpOptimal = true)
    (hgap : s.world.master.rmpObj + 2 ^ d * (1 / 1000000 + ((2 * X.length + s.world.master.cutCons.length + d * A.splits.length : ℕ) : ℚ) / 100000) +
      (2 ^ d - 1) * tol < (s.world.master.selected.map (·.cost)).sum + 1)
    (hf' : FitOk d' A' X' (encoded y')) (hc' : FitContract d' A' X' o' tol') (hy' : TwoClasses y') (hs' : Session o' A' X' y' w')
    (hr' : Fit.fit (env o' A' X') (config A' maxIt' limit') fuel' y' e0' w' = some (.ok u', s')) (hd : d' ≤ d)
    (hq : FewerQuestions d' A'.nodes A'.splits A.nodes A.splits) :
    right A' s' (X'.zip y') ≤ right A s (X.zip y) + right A' s' R := by
  have h := right_le hf hc hy hl hpo hnew hrows h0 hs hr hopt hgap hf' hc' hy' hs' hr' hd hq
  rw [right_perm hdata, right_append]
  omega

/-- **C134.** Two certified runs of the same depth and with the same candidate questions, the second with the rows of the first and the further rows `R`. The number of
training rows with the right answer does not fall and rises by at most the number of further rows. On the common rows the second is right for at most as many rows
as the first, and for at most as many fewer as there are further rows. -/
theorem C134_more_rows (hdata : (X'.zip y').Perm (X.zip y ++ R)) (hf : FitOk d A X (encoded y)) (hc : FitContract d A X o tol) (hy : TwoClasses y)
    (hl : y.length = X.length) (hpo : PriceOptimal o) (hnew : A.useOld = false) (hrows : A.dataRows = none)
    (h0 : ∀ p ∈ A.paths, p.cost ≤ hitsOf d (Args.base A d X (encoded y)) p p.target)
    (hs : Session o A X y w) (hr : Fit.fit (env o A X) (config A maxIt limit) fuel y e0 w = some (.ok u, s)) (hopt : s.est.mpOptimal = true)
    (hgap : s.world.master.rmpObj + 2 ^ d * (1 / 1000000 + ((2 * X.length + s.world.master.cutCons.length + d * A.splits.length : ℕ) : ℚ) / 100000) +
      (2 ^ d - 1) * tol < (s.world.master.selected.map (·.cost)).sum + 1)
    (hf' : FitOk d A' X' (encoded y')) (hc' : FitContract d A' X' o' tol') (hy' : TwoClasses y') (hl' : y'.length = X'.length)
    (hpo' : PriceOptimal o') (hnew' : A'.useOld = false) (hrows' : A'.dataRows = none)
    (h0' : ∀ p ∈ A'.paths, p.cost ≤ hitsOf d (Args.base A' d X' (encoded y')) p p.target)
    (hs' : Session o' A' X' y' w') (hr' : Fit.fit (env o' A' X') (config A' maxIt' limit') fuel' y' e0' w' = some (.ok u', s'))
    (hopt' : s'.est.mpOptimal = true)
    (hgap' : s'.world.master.rmpObj + 2 ^ d * (1 / 1000000 + ((2 * X'.length + s'.world.master.cutCons.length + d * A'.splits.length : ℕ) : ℚ) / 100000) +
      (2 ^ d - 1) * tol' < (s'.world.master.selected.map (·.cost)).sum + 1)
    (hq : FewerQuestions d A'.nodes A'.splits A.nodes A.splits) (hq' : FewerQuestions d A.nodes A.splits A'.nodes A'.splits) :
    right A s (X.zip y) ≤ right A' s' (X'.zip y') ∧ right A' s' (X'.zip y') ≤ right A s (X.zip y) + R.length ∧
    right A' s' (X.zip y) ≤ right A s (X.zip y) ∧ right A s (X.zip y) ≤ right A' s' (X.zip y) + R.length := by
  have h1 := C134_lower hdata hf' hc' hy' hl' hpo' hnew' hrows' h0' hs' hr' hopt' hgap' hf hc hy hs hr (le_refl d) hq'
  have h2 := right_le hf hc hy hl hpo hnew hrows h0 hs hr hopt hgap hf' hc' hy' hs' hr' (le_refl d) hq
  have h3 : right A' s' R ≤ R.length := List.countP_le_length
  have h4 : right A' s' (X'.zip y') = right A' s' (X.zip y) + right A' s' R := by rw [right_perm hdata, right_append]
  omega

end Verif.DTree
