import Verif.Fl
import Verif.DTree.TreeProps
import Mathlib.Data.List.Perm.Basic

/-!
# Property C150: the numbering of the tree with Python's floats

`math.floor((count-1) / 2)` divides integers by `/`, which gives the float next to the quotient. Here the loops that number the tree are modelled with that division. Up to depth
52 they are the loops of `Verif/DTree/Model.lean`; from depth 54 on (for Python's rounding from depth 53 on) some leaf gets a wrong father.
-/

namespace Verif.DTree

open Fl

/-! ## The code -/

/-- `math.floor((count-1) / 2)` for `count > 0`, `_dtree_classifier.py:255`, `324` and `743`: the quotient is rounded, then cut. -/
def fatherF (R : Rounding 53 (-1074)) (count : ℕ) : ℕ := (⌊R.rnd (((count - 1 : ℕ) : ℚ) / 2)⌋).toNat

/-- The loop of `Path.set_leaf`, `_dtree_classifier.py:254-257`. -/
def fathersF (R : Rounding 53 (-1074)) : ℕ → ℕ → List ℕ
  | 0, _ => []
  | fuel + 1, count => if count > 0 then fatherF R count :: fathersF R fuel (fatherF R count) else []

/-- `Path.set_leaf`, `_dtree_classifier.py:241-257`. `count` decreases (`fatherF_lt`), so `count` rounds suffice. -/
def Path.setLeafF (R : Rounding 53 (-1074)) (p : Path) (leafId depth : ℕ) : Path :=
  { p with
    leafId := leafId
    nodeIds := fathersF R (2 ^ depth - 1 + leafId) (2 ^ depth - 1 + leafId) }

/-- The loop of `Leaf.create_leaf`, `_dtree_classifier.py:323-329`. -/
def leafLoopF (R : Rounding 53 (-1074)) : ℕ → ℕ → List ℕ × List ℕ → List ℕ × List ℕ
  | 0, _, acc => acc
  | fuel + 1, count, acc =>
    if count > 0 then
      leafLoopF R fuel (fatherF R count) (if count % 2 = 0 then (acc.1, acc.2 ++ [fatherF R count]) else (acc.1 ++ [fatherF R count], acc.2))
    else acc

/-- `Leaf.create_leaf`, `_dtree_classifier.py:310-329`. -/
def createLeafF (R : Rounding 53 (-1074)) (id depth : ℕ) : Leaf :=
  let r := leafLoopF R (2 ^ depth - 1 + id) (2 ^ depth - 1 + id) ([], [])
  ⟨id, r.1, r.2⟩

/-! ## Lemmas -/

variable (R : Rounding 53 (-1074))

theorem fatherF_exact {c : ℕ} (h : c ≤ 2 ^ 53) : fatherF R c = (c - 1) / 2 := by
  have h1 : Rep 53 (-1074) (((c - 1 : ℕ) : ℚ) / 2) := by
    refine ⟨((c - 1 : ℕ) : ℤ), -1, ?_, by norm_num, ?_⟩
    · rw [Nat.abs_cast]
      have : c - 1 ≤ 2 ^ 53 := by omega
      exact_mod_cast this
    · rw [zpow_neg_one, div_eq_mul_inv]; push_cast; rfl
  unfold fatherF
  rw [R.fix _ h1]
  have : ⌊((c - 1 : ℕ) : ℚ) / 2⌋ = (((c - 1) / 2 : ℕ) : ℤ) := by
    rw [Int.floor_eq_iff]
    have h2 := Nat.div_add_mod (c - 1) 2
    have h3 := Nat.mod_lt (c - 1) (show 0 < 2 by norm_num)
    have h2' : (2 : ℚ) * (((c - 1) / 2 : ℕ) : ℚ) + (((c - 1) % 2 : ℕ) : ℚ) = ((c - 1 : ℕ) : ℚ) := by exact_mod_cast h2
    have h3' : (((c - 1) % 2 : ℕ) : ℚ) ≤ 1 := by exact_mod_cast (by omega : (c - 1) % 2 ≤ 1)
    have h4' : (0 : ℚ) ≤ (((c - 1) % 2 : ℕ) : ℚ) := Nat.cast_nonneg _
    constructor
    · rw [Int.cast_natCast]; linarith
    · rw [Int.cast_natCast]; linarith
  rw [this, Int.toNat_natCast]

/-- The loops end: a father has a smaller number. -/
theorem fatherF_lt {c : ℕ} (h : 0 < c) : fatherF R c < c := by
  by_cases h1 : c = 1
  · subst h1; rw [fatherF_exact R (by norm_num)]; norm_num
  obtain ⟨k, hk1, hk2⟩ : ∃ k, 2 ^ k < c ∧ c ≤ 2 ^ (k + 1) := by
    refine ⟨Nat.log 2 (c - 1), ?_, ?_⟩
    · have := Nat.pow_log_le_self 2 (show c - 1 ≠ 0 by omega)
      omega
    · have := Nat.lt_pow_succ_log_self (b := 2) (by norm_num) (c - 1)
      omega
  have h2 : ((c - 1 : ℕ) : ℚ) / 2 ≤ 2 ^ (k : ℤ) := by
    have : ((c - 1 : ℕ) : ℚ) ≤ 2 ^ (k + 1) := by exact_mod_cast (by omega : c - 1 ≤ 2 ^ (k + 1))
    rw [zpow_natCast]
    rw [pow_succ] at this
    linarith
  have h3 : R.rnd (((c - 1 : ℕ) : ℚ) / 2) ≤ 2 ^ (k : ℤ) := by
    rw [← R.fix (2 ^ (k : ℤ)) (rep_zpow (by omega))]
    exact R.mono _ _ h2
  have h4 : ⌊R.rnd (((c - 1 : ℕ) : ℚ) / 2)⌋ ≤ ((2 ^ k : ℕ) : ℤ) := by
    have : ((⌊R.rnd (((c - 1 : ℕ) : ℚ) / 2)⌋ : ℤ) : ℚ) ≤ (((2 ^ k : ℕ) : ℤ) : ℚ) := by
      refine (Int.floor_le _).trans (h3.trans (le_of_eq ?_))
      rw [zpow_natCast]; push_cast; rfl
    exact_mod_cast this
  unfold fatherF
  omega

theorem fathersF_exact : ∀ (fuel c : ℕ), c ≤ 2 ^ 53 → fathersF R fuel c = fathers fuel c
  | 0, _, _ => rfl
  | fuel + 1, c, h => by
    rw [fathersF, fathers, fatherF_exact R h, fathersF_exact fuel _ (by omega)]

theorem leafLoopF_exact : ∀ (fuel c : ℕ) (acc : List ℕ × List ℕ), c ≤ 2 ^ 53 → leafLoopF R fuel c acc = leafLoop fuel c acc
  | 0, _, _, _ => rfl
  | fuel + 1, c, acc, h => by
    rw [leafLoopF, leafLoop, fatherF_exact R h, leafLoopF_exact fuel _ _ (by omega)]

theorem fathersF_sorted : ∀ (fuel c : ℕ), (∀ n ∈ fathersF R fuel c, n < c) ∧ (fathersF R fuel c).Pairwise (· > ·)
  | 0, _ => ⟨fun n h => by simp [fathersF] at h, List.Pairwise.nil⟩
  | fuel + 1, c => by
    rw [fathersF]
    split
    · rename_i hc
      obtain ⟨h1, h2⟩ := fathersF_sorted fuel (fatherF R c)
      have hlt := fatherF_lt R hc
      refine ⟨fun n hn => ?_, List.pairwise_cons.2 ⟨fun n hn => h1 n hn, h2⟩⟩
      rcases List.mem_cons.1 hn with rfl | hn
      · exact hlt
      · exact (h1 n hn).trans hlt
    · exact ⟨fun n h => (List.not_mem_nil h).elim, List.Pairwise.nil⟩

theorem fathersF_root : ∀ (fuel c : ℕ), c ≤ fuel → 0 < c → (fathersF R fuel c).getLast? = some 0
  | 0, c, h, h0 => by omega
  | fuel + 1, c, h, h0 => by
    rw [fathersF, if_pos h0]
    have hlt := fatherF_lt R h0
    by_cases hz : fatherF R c = 0
    · rw [hz]
      have : fathersF R fuel 0 = [] := by cases fuel <;> rfl
      rw [this]; rfl
    · have := fathersF_root fuel (fatherF R c) (by omega) (by omega)
      rw [List.getLast?_cons, this]; rfl

theorem leafLoopF_perm : ∀ (fuel c : ℕ) (acc : List ℕ × List ℕ),
    ((leafLoopF R fuel c acc).1 ++ (leafLoopF R fuel c acc).2).Perm (acc.1 ++ acc.2 ++ fathersF R fuel c)
  | 0, _, acc => by rw [leafLoopF, fathersF, List.append_nil]
  | fuel + 1, c, acc => by
    rw [leafLoopF, fathersF]
    by_cases hc : c > 0
    · rw [if_pos hc, if_pos hc]
      refine (leafLoopF_perm fuel _ _).trans ?_
      split
      · simp only [List.append_assoc, List.singleton_append]; exact List.Perm.refl _
      · have : (acc.1 ++ [fatherF R c] ++ acc.2).Perm (acc.1 ++ acc.2 ++ [fatherF R c]) := by
          rw [List.append_assoc, List.append_assoc]
          exact List.Perm.append_left _ List.perm_append_comm
        refine (this.append_right _).trans ?_
        rw [List.append_assoc _ [fatherF R c], List.singleton_append]
    · rw [if_neg hc, if_neg hc, List.append_nil]

/-- An odd number above `2 ^ 53` is never the integral part of a float. -/
theorem floor_ne_odd {x : ℚ} (hx : Rep 53 (-1074) x) {n : ℕ} (hn : 2 ^ 53 < n) (ho : n % 2 = 1) : ⌊x⌋.toNat ≠ n := by
  intro hf
  have hf' : ⌊x⌋ = (n : ℤ) := by omega
  obtain ⟨m, e, hm, -, rfl⟩ := hx
  have h1 : (n : ℚ) ≤ m * 2 ^ e := by
    have := Int.floor_le ((m : ℚ) * 2 ^ e)
    rw [hf'] at this
    exact_mod_cast this
  have hm' : (m : ℚ) ≤ 2 ^ 53 := by exact_mod_cast (le_abs_self m).trans hm
  have hn' : (2 : ℚ) ^ 53 < n := by exact_mod_cast hn
  have he : 1 ≤ e := by
    by_contra he
    have h2 : (2 : ℚ) ^ e ≤ 1 := zpow_le_one_of_nonpos₀ (by norm_num) (by omega)
    have h3 := two_zpow_pos e
    have : (m : ℚ) * 2 ^ e ≤ 2 ^ 53 := by
      by_cases hm0 : (0 : ℚ) ≤ m
      · nlinarith
      · nlinarith
    linarith
  obtain ⟨k, hk⟩ := Int.eq_ofNat_of_zero_le (by omega : 0 ≤ e - 1)
  have h4 : (m : ℚ) * 2 ^ e = ((m * 2 ^ k * 2 : ℤ) : ℚ) := by
    have : e = (k : ℤ) + 1 := by omega
    rw [this, zpow_add₀ (by norm_num), zpow_natCast, zpow_one]
    push_cast; ring
  rw [h4, Int.floor_intCast] at hf'
  omega

/-! ## The property -/

/-- **C150** (no effect up to depth 52). In trees up to depth 52 the paths, leaves and parents are those of exact division, so C36 and all that follows from it hold of the code. -/
theorem C150_exact {d : ℕ} (hd : d ≤ 52) :
    (∀ (p : Path) (l : ℕ), l < 2 ^ d → p.setLeafF R l d = p.setLeaf l d ∧ createLeafF R l d = createLeaf l d) ∧
    ∀ id < 2 ^ d - 1, id ≠ 0 → (id = 2 * fatherF R id + 1 ∨ id = 2 * fatherF R id + 2) := by
  have hp : 2 ^ d ≤ 2 ^ 52 := Nat.pow_le_pow_right (by norm_num) hd
  refine ⟨fun p l hl => ?_, fun id hid h0 => ?_⟩
  · have hc : 2 ^ d - 1 + l ≤ 2 ^ 53 := by omega
    constructor
    · unfold Path.setLeafF Path.setLeaf
      rw [fathersF_exact R _ _ hc]
    · unfold createLeafF createLeaf
      rw [leafLoopF_exact R _ _ _ hc]
  · rw [fatherF_exact R (by omega)]
    omega

/-- **C150** (the loops end). At any depth both loops end; the nodes of a path have decreasing numbers below the position of the leaf and end with the root, and the nodes of the leaf
are those of the path. -/
theorem C150_ends (p : Path) {d l : ℕ} (hd : 0 < d) :
    (∀ n ∈ (p.setLeafF R l d).nodeIds, n < 2 ^ d - 1 + l) ∧ (p.setLeafF R l d).nodeIds.Pairwise (· > ·) ∧ (p.setLeafF R l d).nodeIds.getLast? = some 0 ∧
    ((createLeafF R l d).leftNodes ++ (createLeafF R l d).rightNodes).Perm (p.setLeafF R l d).nodeIds := by
  have hp : 2 ≤ 2 ^ d := by
    calc 2 = 2 ^ 1 := rfl
      _ ≤ 2 ^ d := Nat.pow_le_pow_right (by norm_num) hd
  exact ⟨(fathersF_sorted R _ _).1, (fathersF_sorted R _ _).2, fathersF_root R _ _ le_rfl (by omega), leafLoopF_perm R _ _ ([], [])⟩

/-- **C150** (deep trees). From depth 54 on, however quotients are rounded, the path of leaf 4 does not begin with the parent of the leaf's position. -/
theorem C150_deep (p : Path) {d : ℕ} (hd : 54 ≤ d) :
    ∃ n, (p.setLeafF R 4 d).nodeIds[0]? = some n ∧ ¬ (2 ^ d - 1 + 4 = 2 * n + 1 ∨ 2 ^ d - 1 + 4 = 2 * n + 2) := by
  obtain ⟨k, rfl⟩ : ∃ k, d = k + 1 := ⟨d - 1, by omega⟩
  have hp : 2 ^ 53 ≤ 2 ^ k := Nat.pow_le_pow_right (by norm_num) (by omega)
  have hk : 2 ^ (k + 1) = 2 * 2 ^ k := by rw [pow_succ]; ring
  have he : 2 ^ k % 2 = 0 := by
    obtain ⟨j, rfl⟩ : ∃ j, k = j + 1 := ⟨k - 1, by omega⟩
    rw [pow_succ]; omega
  have hne : fatherF R (2 ^ (k + 1) - 1 + 4) ≠ 2 ^ k + 1 := floor_ne_odd (R.rep _) (by omega) (by omega)
  refine ⟨fatherF R (2 ^ (k + 1) - 1 + 4), ?_, by omega⟩
  obtain ⟨f, hf⟩ : ∃ f, 2 ^ (k + 1) - 1 + 4 = f + 1 := ⟨2 ^ (k + 1) + 2, by omega⟩
  change (fathersF R (2 ^ (k + 1) - 1 + 4) (2 ^ (k + 1) - 1 + 4))[0]? = _
  rw [hf, fathersF, if_pos (by omega)]
  rfl

/-- **C150** (depth 53). With Python's rounding leaf 5 of a tree of depth 53 has a wrong father, so 52 cannot be replaced by 53 in `C150_exact`. -/
theorem C150_53 (p : Path) :
    ∃ n, (p.setLeafF binary64 5 53).nodeIds[0]? = some n ∧ ¬ (2 ^ 53 - 1 + 5 = 2 * n + 1 ∨ 2 ^ 53 - 1 + 5 = 2 * n + 2) := by
  have hne : fatherF binary64 (2 ^ 53 - 1 + 5) = 2 ^ 52 + 2 := by decide +kernel
  refine ⟨fatherF binary64 (2 ^ 53 - 1 + 5), ?_, by rw [hne]; norm_num⟩
  obtain ⟨f, hf⟩ : ∃ f, 2 ^ 53 - 1 + 5 = f + 1 := ⟨2 ^ 53 + 3, by norm_num⟩
  change (fathersF binary64 (2 ^ 53 - 1 + 5) (2 ^ 53 - 1 + 5))[0]? = _
  rw [hf, fathersF, if_pos (by omega)]
  rfl

/-! ## Examples -/

/-- Leaf 2 of a tree of depth 2 with Python's floats. -/
example (p : Path) : (p.setLeafF binary64 2 2).nodeIds = [2, 0] ∧ createLeafF binary64 2 2 = ⟨2, [2], [0]⟩ := by
  obtain ⟨h1, h2⟩ := (C150_exact binary64 (d := 2) (by norm_num)).1 p 2 (by norm_num)
  rw [h1, h2]
  exact ⟨rfl, by decide⟩

/-- A leaf of a tree of depth 60. -/
example (p : Path) : ∃ n, (p.setLeafF binary64 4 60).nodeIds[0]? = some n ∧ ¬ (2 ^ 60 - 1 + 4 = 2 * n + 1 ∨ 2 ^ 60 - 1 + 4 = 2 * n + 2) :=
  C150_deep binary64 p (by norm_num)

end Verif.DTree
