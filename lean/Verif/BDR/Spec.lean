import Verif.BDR.Model

/-!
# Specification of the Boolean decision rule program

Independent of the code: positives, negatives, satisfaction, the documented program (1a)-(1d), reduced costs.
-/

namespace Verif.BDR.Spec

open Verif.BDR

/-- Row `r` satisfies clause `k`: all its features are non-zero. -/
def Sat (r : List ℚ) (k : Clause) : Prop := ∀ j ∈ k, r.getD j 0 ≠ 0

instance (r : List ℚ) (k : Clause) : Decidable (Sat r k) := by unfold Sat; infer_instance

/-- Positive rows (label 1), in order. -/
def pos (X : List (List ℚ)) (y : List ℕ) : List (List ℚ) := ((X.zip y).filter (fun p => p.2 = 1)).map (·.1)

/-- Negative rows (label 0), in order. -/
def neg (X : List (List ℚ)) (y : List ℕ) : List (List ℚ) := ((X.zip y).filter (fun p => p.2 = 0)).map (·.1)

/-- Number of rows satisfying a clause. -/
def numSat (rows : List (List ℚ)) (k : Clause) : ℕ := rows.countP (fun r => decide (Sat r k))

/-- Number of clauses of weight; `w j` is the weight of clause number `j`. Left hand side of (1a) without `xi`. -/
def covered (K : List Clause) (w : ℕ → ℚ) (r : List ℚ) : ℚ :=
  ∑ j ∈ Finset.range K.length, if Sat r (K.getD j []) then w j else 0

/-- Left hand side of (1b). -/
def complexity (K : List Clause) (w : ℕ → ℚ) : ℚ := ∑ j ∈ Finset.range K.length, (1 + ((K.getD j []).length : ℚ)) * w j

/-- The documented linear program (1a)-(1c) with `w ≥ 0`. -/
structure Feasible (X : List (List ℚ)) (y : List ℕ) (C : ℚ) (K : List Clause) (xi w : ℕ → ℚ) : Prop where
  xi_nonneg : ∀ i < (pos X y).length, 0 ≤ xi i
  w_nonneg : ∀ j < K.length, 0 ≤ w j
  sat : ∀ i r, (pos X y)[i]? = some r → xi i + covered K w r ≥ 1
  comp : complexity K w ≤ C

/-- The documented objective. -/
def objective (X : List (List ℚ)) (y : List ℕ) (p : ℚ) (K : List Clause) (xi w : ℕ → ℚ) : ℚ :=
  p * ∑ i ∈ Finset.range (pos X y).length, xi i +
    ∑ j ∈ Finset.range K.length, (numSat (neg X y) (K.getD j []) : ℚ) * w j

/-- Reduced cost of clause `k`: `lam` is the (non-negative) dual of (1b), `mu i` the dual of (1a) for the `i`-th positive row. -/
def reducedCost (X : List (List ℚ)) (y : List ℕ) (lam : ℚ) (mu : List ℚ) (k : Clause) : ℚ :=
  (numSat (neg X y) k : ℚ) - (∑ i ∈ Finset.range (pos X y).length, if Sat ((pos X y).getD i []) k then mu.getD i 0 else 0) +
    lam * (1 + (k.length : ℚ))

/-- Labels are binary and there is one per row. -/
structure Binary (X : List (List ℚ)) (y : List ℕ) : Prop where
  len : y.length = X.length
  bin : ∀ v ∈ y, v = 0 ∨ v = 1

/-- A proper clause over `n` features: strictly increasing indices below `n`. -/
def Proper (n : ℕ) (k : Clause) : Prop := k.Pairwise (· < ·) ∧ ∀ j ∈ k, j < n

/-- The DNF rule: some clause is satisfied. -/
def Rule (K : List Clause) (r : List ℚ) : Prop := ∃ k ∈ K, Sat r k

instance (K : List Clause) (r : List ℚ) : Decidable (Rule K r) := by unfold Rule; infer_instance

end Verif.BDR.Spec
