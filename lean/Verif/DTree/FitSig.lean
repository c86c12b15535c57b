import Verif.DTree.FitCols
import Mathlib.Data.Fintype.Pi
import Mathlib.Data.Finset.Prod
import Mathlib.Algebra.BigOperators.Group.Finset.Basic

/-!
# Lemmas: what the reduced cost of a column depends on, and how many such descriptions there are
-/

set_option linter.unusedSectionVars false
set_option linter.unusedSimpArgs false

namespace Verif.DTree

open MP Spec

variable {Ω : Type} {d : ℕ} {A : Args} {X : List (List ℚ)} {py : List ℕ}

/-- The split of a path at a node. -/
def splitOf (p : Path) (n : ℕ) : ℕ := ((p.pairs.find? (fun q => q.1 == n)).map (·.2)).getD 0

/-- Leaf, splits from the root downwards, and cost. -/
def sigOf (d : ℕ) (p : Path) : ℕ × (Fin d → ℕ) × ℚ := (p.leafId, fun k => splitOf p (anc d p.leafId k), p.cost)

/-- The descriptions of a list of paths. -/
def sigs (d : ℕ) (paths : List Path) : Finset (ℕ × (Fin d → ℕ) × ℚ) := (paths.map (sigOf d)).toFinset

theorem splitOf_spec {p : Path} (h : WFPath d p) {k : ℕ} (hk : k < d) : (anc d p.leafId k, splitOf p (anc d p.leafId k)) ∈ p.pairs := by
  obtain ⟨s, hs⟩ := h.exists_split hk
  unfold splitOf
  cases hf : p.pairs.find? (fun q => q.1 == anc d p.leafId k) with
  | none =>
    rw [List.find?_eq_none] at hf
    exact absurd (hf _ hs) (by simp)
  | some q =>
    have h1 := List.mem_of_find?_eq_some hf
    have h2 := List.find?_some hf
    simp only [beq_iff_eq] at h2
    simp only [Option.map_some, Option.getD_some]
    rw [← h2]
    exact h1

theorem pairs_iff {p : Path} (h : WFPath d p) (n s : ℕ) : (n, s) ∈ p.pairs ↔ ∃ k < d, n = anc d p.leafId k ∧ s = splitOf p n := by
  constructor
  · intro hq
    obtain ⟨k, hk, he⟩ := h.mem_pairs hq
    have he : n = anc d p.leafId k := he
    subst he
    exact ⟨k, hk, rfl, h.split_unique hq (splitOf_spec h hk)⟩
  · rintro ⟨k, hk, rfl, rfl⟩
    exact splitOf_spec h hk

theorem colRed_sig {p q : Path} (hp : WFPath d p) (hq : WFPath d q) (h : sigOf d p = sigOf d q) (X : List (List ℚ)) (splits : List Split)
    (cuts : List (List Bool)) (D : Duals) : colRed d X splits cuts D p = colRed d X splits cuts D q := by
  classical
  unfold sigOf at h
  simp only [Prod.mk.injEq] at h
  obtain ⟨hl, hs, hc⟩ := h
  have hs : ∀ k < d, splitOf p (anc d p.leafId k) = splitOf q (anc d q.leafId k) := fun k hk => congrFun hs ⟨k, hk⟩
  have hmem : ∀ x, x ∈ p.pairs ↔ x ∈ q.pairs := by
    rintro ⟨n, s⟩
    rw [pairs_iff hp, pairs_iff hq, hl]
    constructor
    · rintro ⟨k, hk, rfl, e⟩
      exact ⟨k, hk, rfl, by rw [e, ← hl, hs k hk, hl]⟩
    · rintro ⟨k, hk, rfl, e⟩
      exact ⟨k, hk, rfl, by rw [e, ← hs k hk, hl]⟩
  have hperm : p.pairs.Perm q.pairs := (List.perm_ext_iff_of_nodup hp.pairs_nodup hq.pairs_nodup).2 hmem
  have hf : ∀ left, Follows d left p ↔ Follows d left q := by
    intro left
    unfold Follows
    rw [hl]
    constructor <;> intro h k hk s hs
    · exact h k hk s ((hmem _).2 hs)
    · exact h k hk s ((hmem _).1 hs)
  have h1 : (fun r => if Follows d (rowLeft splits (X.getD r [])) p then D.row.getD r 0 else 0) =
      fun r => if Follows d (rowLeft splits (X.getD r [])) q then D.row.getD r 0 else 0 := by
    funext r; simp only [hf]
  have h2 : (fun k => Follows d (cutPat cuts k) p) = fun k => Follows d (cutPat cuts k) q := by funext i; exact propext (hf _)
  unfold colRed
  rw [hc, hl, h2, (hperm.map _).sum_eq]
  congr 3
  exact congrArg List.sum (congrArg (fun f => List.map f (List.range X.length)) (by convert h1))

theorem sigOf_id (p : Path) (i : ℕ) : sigOf d { p with id := i } = sigOf d p := rfl

/-- The sum of the weights of all rows. -/
def totalWeight (A : Args) (X : List (List ℚ)) : ℕ :=
  ((List.range X.length).map (fun r => (A.dataRows.map (fun rows => (rowAt rows r).weight)).getD 1)).sum

theorem hits_le_total (p : Path) (t : ℤ) : hitsOf d (Args.base A d X py) p t ≤ totalWeight A X := by
  classical
  unfold hitsOf keptSum totalWeight
  rw [Nat.cast_list_sum, List.map_map]
  refine sum_le_sum' _ _ _ ?_
  intro r hr
  have hw : rowWeight (Args.base A d X py) r = ((((A.dataRows.map (fun rows => (rowAt rows r).weight)).getD 1 : ℕ)) : ℚ) := by
    unfold rowWeight
    change (A.dataRows.map (fun rows => ((rowAt rows r).weight : ℚ))).getD 1 = _
    cases A.dataRows <;> simp
  simp only [Function.comp_apply]
  split_ifs
  · exact hw.le
  · exact Nat.cast_nonneg _

/-- Descriptions of generated columns. -/
def sigSpace (d n W : ℕ) : Finset (ℕ × (Fin d → ℕ) × ℚ) :=
  Finset.range (2 ^ d) ×ˢ Fintype.piFinset (fun _ : Fin d => Finset.range n) ×ˢ (Finset.range (W + 1)).image (fun k : ℕ => (k : ℚ))

theorem sigSpace_card (d n W : ℕ) : (sigSpace d n W).card ≤ 2 ^ d * (n ^ d * (W + 1)) := by
  unfold sigSpace
  rw [Finset.card_product, Finset.card_product, Finset.card_range, Fintype.card_piFinset]
  simp only [Finset.card_range, Finset.prod_const, Finset.card_univ, Fintype.card_fin]
  refine Nat.mul_le_mul_left _ (Nat.mul_le_mul_left _ ?_)
  exact Finset.card_image_le.trans (by simp)

theorem Spec.ColOk.mem_space {p : Path} (h : ColOk d A X py p) : sigOf d p ∈ sigSpace d A.splits.length (totalWeight A X) := by
  unfold sigSpace sigOf
  rw [Finset.mem_product, Finset.mem_product]
  refine ⟨Finset.mem_range.2 h.good.1.leaf_lt, ?_, ?_⟩
  · rw [Fintype.mem_piFinset]
    intro k
    refine Finset.mem_range.2 (h.good.2 _ ?_)
    have := splitOf_spec h.good.1 k.2
    exact (List.of_mem_zip this).2
  · obtain ⟨n, hn⟩ := h.nat
    refine Finset.mem_image.2 ⟨n, Finset.mem_range.2 ?_, hn.symm⟩
    have := h.hits.trans (hits_le_total p p.target)
    rw [hn] at this
    have : n ≤ totalWeight A X := by exact_mod_cast this
    omega

/-- A path of the restricted master: an initial one, or a generated one. -/
def Spec.Origin (d : ℕ) (A : Args) (X : List (List ℚ)) (py : List ℕ) (p : Path) : Prop :=
  (∃ q ∈ A.paths, ∃ i, p = { q with
    id := i
    initial := true }) ∨ ColOk d A X py p

theorem sigs_card {paths : List Path} (h : ∀ p ∈ paths, Spec.Origin d A X py p) :
    (sigs d paths).card ≤ A.paths.length + 2 ^ d * (A.splits.length ^ d * (totalWeight A X + 1)) := by
  have hsub : sigs d paths ⊆ (A.paths.map (sigOf d)).toFinset ∪ sigSpace d A.splits.length (totalWeight A X) := by
    intro x hx
    obtain ⟨p, hp, rfl⟩ := List.mem_map.1 (List.mem_toFinset.1 hx)
    rw [Finset.mem_union]
    rcases h p hp with ⟨q, hq, i, rfl⟩ | hc
    · left
      exact List.mem_toFinset.2 (List.mem_map.2 ⟨q, hq, rfl⟩)
    · exact Or.inr hc.mem_space
  refine (Finset.card_le_card hsub).trans ((Finset.card_union_le _ _).trans (Nat.add_le_add ?_ (sigSpace_card _ _ _)))
  exact (List.toFinset_card_le _).trans (by simp)

end Verif.DTree
