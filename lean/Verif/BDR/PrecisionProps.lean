import Verif.BDR.NegativeProps

/-!
# Property C154: the penalty `p` bounds the two kinds of training errors
-/

namespace Verif.BDR

open MP Spec
open Fit.Spec

variable {Ω : Type} {o : Oracle Ω} {C p : ℚ} {kinds : List (List Kind)} {X : Data} {y : List ℤ} {maxIt : ℤ} {limit : ℚ} {fuel : ℕ} {e0 : Fit.Est} {ω0 : Ω}

namespace Spec

/-- Entry of the confusion matrix: the number of rows with the label `c` and the answer `a`. -/
def cell (pred y : List ℤ) (a c : ℤ) : ℕ := (pred.zip y).countP (fun q => decide (q.1 = a ∧ q.2 = c))

end Spec

theorem cells {c0 c1 : ℤ} (hne : c0 ≠ c1) (e : List Clause) : ∀ (rows : List (List ℚ)) (y : List ℤ), (∀ v ∈ y, v = c0 ∨ v = c1) →
    y.length = rows.length →
    cell (rows.map (fun r => if Rule e r then c1 else c0)) y c1 c0 = (neg rows (Sk.transform [c0, c1] y)).countP (fun r => decide (Rule e r)) ∧
    cell (rows.map (fun r => if Rule e r then c1 else c0)) y c0 c0 = (neg rows (Sk.transform [c0, c1] y)).countP (fun r => decide ¬ Rule e r) ∧
    cell (rows.map (fun r => if Rule e r then c1 else c0)) y c1 c1 = (pos rows (Sk.transform [c0, c1] y)).countP (fun r => decide (Rule e r)) ∧
    cell (rows.map (fun r => if Rule e r then c1 else c0)) y c0 c1 = (pos rows (Sk.transform [c0, c1] y)).countP (fun r => decide ¬ Rule e r)
  | [], [], _, _ => by simp [cell, pos, neg]
  | [], _ :: _, _, hl => by simp at hl
  | _ :: _, [], _, hl => by simp at hl
  | r :: rows, v :: y, hy, hl => by
    obtain ⟨i1, i2, i3, i4⟩ := cells hne e rows y (fun v hv => hy v (by simp [hv])) (by simpa using hl)
    have hne' : ¬ c1 = c0 := fun h => hne h.symm
    rcases hy v (by simp) with rfl | rfl
    · by_cases hr : Rule e r <;>
        simp only [cell, pos, neg, Sk.transform, List.map_cons, List.zip_cons_cons, List.countP_cons, List.filter_cons, hr, if_true, if_false,
          List.idxOf_cons_self, decide_not] at i1 i2 i3 i4 ⊢ <;>
        simp [hne, hne', hr] at i1 i2 i3 i4 ⊢ <;> omega
    · have hidx : List.idxOf v [c0, v] = 1 := by
        rw [List.idxOf_cons_ne _ hne]; simp
      by_cases hr : Rule e r <;>
        simp only [cell, pos, neg, Sk.transform, List.map_cons, List.zip_cons_cons, List.countP_cons, List.filter_cons, hr, if_true, if_false,
          hidx, decide_not] at i1 i2 i3 i4 ⊢ <;>
        simp [hne, hne', hr] at i1 i2 i3 i4 ⊢ <;> omega

theorem countP_split {α : Type} (q : α → Prop) [DecidablePred q] : ∀ l : List α,
    (l.countP (fun r => decide (q r)) : ℚ) + (l.countP (fun r => decide ¬ q r) : ℚ) = l.length
  | [] => by simp
  | a :: l => by
    have ih := countP_split q l
    simp only [List.countP_cons, List.length_cons] at ih ⊢
    by_cases h : q a <;> simp [h] at ih ⊢ <;> linarith

theorem labels_eq {c0 c1 : ℤ} (hlt : c0 < c1) (h0 : c0 ∈ y) (h1 : c1 ∈ y) (hy : ∀ v ∈ y, v = c0 ∨ v = c1) : Sk.uniqueLabels y = [c0, c1] := by
  have hperm : (Sk.uniqueLabels y).Perm [c0, c1] := by
    refine (List.perm_ext_iff_of_nodup (Sk.nodup_uniqueLabels y) (by simp [hlt.ne])).2 fun v => ?_
    rw [Sk.mem_uniqueLabels]
    constructor
    · intro hv
      simpa using hy v hv
    · intro hv
      rcases (by simpa using hv : v = c0 ∨ v = c1) with rfl | rfl
      · exact h0
      · exact h1
  obtain ⟨a, b, e, hab, ha, hb, -⟩ := two_labels hperm.length_eq
  rw [e]
  rcases hy a ha with rfl | rfl <;> rcases hy b hb with rfl | rfl
  · exact absurd hab (lt_irrefl _)
  · rfl
  · exact absurd hab (lt_asymm hlt)
  · exact absurd hab (lt_irrefl _)

/-- C154 for a further `fit`. -/
theorem matrix_from {w0 : World Ω} (hw : InvA o C p kinds X (encoded y) w0 []) (hl : y.length = X.rows.length) {c0 c1 : ℤ} (hlt : c0 < c1) (h0 : c0 ∈ y) (h1 : c1 ∈ y) (hy : ∀ v ∈ y, v = c0 ∨ v = c1) (hp : 0 ≤ p)
    {u : Unit} {s} (hr : Fit.fit (env o X kinds) (config kinds maxIt limit) fuel y e0 w0 = some (.ok u, s))
    (hip : ∀ ω, IsOptimal s.world.master.solver (o.ip s.world.master.solver ω).1) :
    ∃ pred, predict s.est.classes s.world.master.explanation X.rows = .ok pred ∧
      (cell pred y c1 c0 : ℚ) ≤ p * cell pred y c1 c1 ∧ (1 ≤ C → p * cell pred y c0 c1 ≤ cell pred y c0 c0) := by
  have hcls := labels_eq hlt h0 h1 hy
  have hcl : s.est.classes = Sk.uniqueLabels y := Fit.fit_classes hr
  have h2 : (Sk.uniqueLabels y).length ≤ 2 := by rw [hcls]; simp
  have hC : 0 ≤ C := by
    obtain ⟨-, h, -⟩ := best_from hw hl h2 hp hr hip
    rw [complexity_eq] at h
    exact le_trans (by positivity) h
  obtain ⟨-, b1, b2⟩ := rule_from hw hl h2 hp hC hr hip
  refine ⟨_, by rw [hcl, hcls]; exact C20_predict c0 c1 _ _, ?_⟩
  obtain ⟨i1, i2, i3, i4⟩ := cells hlt.ne s.world.master.explanation X.rows y hy hl
  have henc : encoded y = Sk.transform [c0, c1] y := by unfold encoded; rw [hcls]
  rw [henc] at b1 b2
  rw [i1, i2, i3, i4]
  have s1 := countP_split (Rule s.world.master.explanation) (pos X.rows (Sk.transform [c0, c1] y))
  have s2 := countP_split (Rule s.world.master.explanation) (neg X.rows (Sk.transform [c0, c1] y))
  unfold loss at b1 b2
  rw [← s1] at b1
  rw [← s2] at b2
  rw [mul_add] at b1
  exact ⟨by linarith, fun h => by linarith [b2 h]⟩

/-- **C154.** Of the training rows with the larger answer, at most `p` times as many are wrong as right. If `C` is at least 1, the number of wrong smaller
answers times `p` is at most the number of right ones. -/
theorem C154_matrix (hl : y.length = X.rows.length) {c0 c1 : ℤ} (hlt : c0 < c1) (h0 : c0 ∈ y) (h1 : c1 ∈ y) (hy : ∀ v ∈ y, v = c0 ∨ v = c1) (hp : 0 ≤ p)
    {u : Unit} {s} (hr : fitNew o C p kinds maxIt limit X fuel y e0 ω0 = some (.ok u, s))
    (hip : ∀ ω, IsOptimal s.world.master.solver (o.ip s.world.master.solver ω).1) :
    ∃ pred, predict s.est.classes s.world.master.explanation X.rows = .ok pred ∧
      (cell pred y c1 c0 : ℚ) ≤ p * cell pred y c1 c1 ∧ (1 ≤ C → p * cell pred y c0 c1 ≤ cell pred y c0 c0) :=
  matrix_from (Or.inl (fresh_init ω0)) hl hlt h0 h1 hy hp hr hip

/-- **C154.** The same after further calls of `fit` on the same data. -/
theorem C154_refit {w : World Ω} (hs : Session o C p kinds X y w) (hl : y.length = X.rows.length) {c0 c1 : ℤ} (hlt : c0 < c1) (h0 : c0 ∈ y) (h1 : c1 ∈ y)
    (hy : ∀ v ∈ y, v = c0 ∨ v = c1) (hp : 0 ≤ p) {u : Unit} {s} (hr : Fit.fit (env o X kinds) (config kinds maxIt limit) fuel y e0 w = some (.ok u, s))
    (hip : ∀ ω, IsOptimal s.world.master.solver (o.ip s.world.master.solver ω).1) :
    ∃ pred, predict s.est.classes s.world.master.explanation X.rows = .ok pred ∧
      (cell pred y c1 c0 : ℚ) ≤ p * cell pred y c1 c1 ∧ (1 ≤ C → p * cell pred y c0 c1 ≤ cell pred y c0 c0) :=
  matrix_from (session_inv hl hs) hl hlt h0 h1 hy hp hr hip

/-- **C154.** With `p = 0` no training row is wrongly given the larger label. -/
theorem C154_zero (hl : y.length = X.rows.length) {c0 c1 : ℤ} (hlt : c0 < c1) (h0 : c0 ∈ y) (h1 : c1 ∈ y) (hy : ∀ v ∈ y, v = c0 ∨ v = c1)
    {u : Unit} {s} (hr : fitNew o C 0 kinds maxIt limit X fuel y e0 ω0 = some (.ok u, s))
    (hip : ∀ ω, IsOptimal s.world.master.solver (o.ip s.world.master.solver ω).1) :
    ∃ pred, predict s.est.classes s.world.master.explanation X.rows = .ok pred ∧ cell pred y c1 c0 = 0 := by
  obtain ⟨pred, h, h3, -⟩ := C154_matrix hl hlt h0 h1 hy le_rfl hr hip
  rw [zero_mul] at h3
  exact ⟨pred, h, by exact_mod_cast le_antisymm h3 (Nat.cast_nonneg _)⟩

theorem cell_le_count (pred y : List ℤ) (a c : ℤ) : cell pred y a c ≤ y.count c := by
  induction y generalizing pred with
  | nil => simp [cell]
  | cons v y ih =>
    cases pred with
    | nil => simp [cell]
    | cons w pred =>
      have := ih pred
      simp only [cell, List.zip_cons_cons, List.countP_cons, List.count_cons] at this ⊢
      by_cases h : v = c <;> by_cases h' : w = a <;> simp [h, h'] at this ⊢ <;> omega

/-- **C154.** With `C` at least 1 and `p` larger than the number of rows with the smaller label, no training row is wrongly given the smaller label. -/
theorem C154_large (hl : y.length = X.rows.length) {c0 c1 : ℤ} (hlt : c0 < c1) (h0 : c0 ∈ y) (h1 : c1 ∈ y) (hy : ∀ v ∈ y, v = c0 ∨ v = c1)
    (hC : 1 ≤ C) (hp : (y.count c0 : ℚ) < p) {u : Unit} {s} (hr : fitNew o C p kinds maxIt limit X fuel y e0 ω0 = some (.ok u, s))
    (hip : ∀ ω, IsOptimal s.world.master.solver (o.ip s.world.master.solver ω).1) :
    ∃ pred, predict s.est.classes s.world.master.explanation X.rows = .ok pred ∧ cell pred y c0 c1 = 0 := by
  have hp0 : (0 : ℚ) ≤ (y.count c0 : ℚ) := Nat.cast_nonneg _
  obtain ⟨pred, h, -, h3⟩ := C154_matrix hl hlt h0 h1 hy (by linarith) hr hip
  refine ⟨pred, h, ?_⟩
  by_contra hne
  have h4 : (1 : ℚ) ≤ (cell pred y c0 c1 : ℚ) := by exact_mod_cast Nat.one_le_iff_ne_zero.2 hne
  have h5 : (cell pred y c0 c0 : ℚ) ≤ (y.count c0 : ℚ) := by exact_mod_cast cell_le_count pred y c0 c0
  have h6 := h3 hC
  nlinarith

theorem cell_sum {c0 c1 : ℤ} (hne : c0 ≠ c1) (c : ℤ) : ∀ (pred y : List ℤ), y.length = pred.length → (∀ a ∈ pred, a = c0 ∨ a = c1) →
    cell pred y c0 c + cell pred y c1 c = y.count c
  | [], [], _, _ => by simp [cell]
  | [], _ :: _, hl, _ => by simp at hl
  | _ :: _, [], hl, _ => by simp at hl
  | w :: pred, v :: y, hl, hp => by
    have ih := cell_sum hne c pred y (by simpa using hl) (fun a ha => hp a (by simp [ha]))
    have hne' : ¬ c1 = c0 := fun h => hne h.symm
    simp only [cell, List.zip_cons_cons, List.countP_cons, List.count_cons] at ih ⊢
    rcases hp w (by simp) with rfl | rfl <;> by_cases h : v = c <;> simp [h, hne, hne'] at ih ⊢ <;> omega

/-- **C154.** Whatever `p`, with `C` at least 1 the part of the rows with the smaller label that get the larger one is at most the part of the rows with the larger label
that get it (both parts multiplied by the numbers of rows): on the training data the balanced accuracy is at least one half. -/
theorem C154_balanced (hl : y.length = X.rows.length) {c0 c1 : ℤ} (hlt : c0 < c1) (h0 : c0 ∈ y) (h1 : c1 ∈ y) (hy : ∀ v ∈ y, v = c0 ∨ v = c1) (hp : 0 ≤ p)
    (hC : 1 ≤ C) {u : Unit} {s} (hr : fitNew o C p kinds maxIt limit X fuel y e0 ω0 = some (.ok u, s))
    (hip : ∀ ω, IsOptimal s.world.master.solver (o.ip s.world.master.solver ω).1) :
    ∃ pred, predict s.est.classes s.world.master.explanation X.rows = .ok pred ∧ cell pred y c1 c0 * y.count c1 ≤ cell pred y c1 c1 * y.count c0 := by
  obtain ⟨pred, h, h3, h4⟩ := C154_matrix hl hlt h0 h1 hy hp hr hip
  refine ⟨pred, h, ?_⟩
  have hpred : y.length = pred.length ∧ ∀ a ∈ pred, a = c0 ∨ a = c1 := by
    rw [Fit.fit_classes hr, labels_eq hlt h0 h1 hy, C20_predict] at h
    cases h
    refine ⟨by simp [hl], fun a ha => ?_⟩
    obtain ⟨r, -, rfl⟩ := List.mem_map.1 ha
    by_cases hr : Rule s.world.master.explanation r
    · exact Or.inr (if_pos hr)
    · exact Or.inl (if_neg hr)
  have e0 := cell_sum hlt.ne c0 pred y hpred.1 hpred.2
  have e1 := cell_sum hlt.ne c1 pred y hpred.1 hpred.2
  replace h4 := h4 hC
  rw [← e0, ← e1]
  generalize cell pred y c1 c0 = fp at *
  generalize cell pred y c1 c1 = tp at *
  generalize cell pred y c0 c1 = fn at *
  generalize cell pred y c0 c0 = tn at *
  have g : (fp : ℚ) * fn ≤ tp * tn := by
    have a1 : (0 : ℚ) ≤ fn := Nat.cast_nonneg _
    have a2 : (0 : ℚ) ≤ tp := Nat.cast_nonneg _
    calc (fp : ℚ) * fn ≤ p * tp * fn := mul_le_mul_of_nonneg_right h3 a1
      _ = tp * (p * fn) := by ring
      _ ≤ tp * tn := mul_le_mul_of_nonneg_left h4 a2
  have g' : fp * fn ≤ tp * tn := by exact_mod_cast g
  nlinarith

namespace PrecisionDemo

/-- Three rows of the larger label; the row `11` occurs with both labels. -/
def D : Data := ⟨[[1, 0], [1, 0], [1, 1], [1, 1], [0, 1]], 2⟩

def labels : List ℤ := [7, 7, 7, 2, 2]

theorem run (C p : ℚ) (hC : 0 ≤ C) (hp : 0 ≤ p) :
    ∃ s, fitNew (exact (fun _ : Unit => (0, ()))) C p (heuristicKinds C) (-1) 0 D (2 ^ D.nFeat) labels Demo.est0 () = some (.ok (), s) ∧
    ∀ ω, IsOptimal s.world.master.solver ((exact (fun _ : Unit => (0, ()))).ip s.world.master.solver ω).1 := by
  have hl : labels.length = D.rows.length := by decide
  have hb := encoded_binary hl (by decide)
  obtain ⟨s, hr, -⟩ := C66_exact_optimal (C := C) (p := p) (kinds := heuristicKinds C) (X := D) (y := labels) (maxIt := -1) (limit := 0) (e0 := Demo.est0) (ω0 := ())
    (fun _ : Unit => (0, ())) hl (by decide) hC hp (SparseRuleDemo.kinds_ok hC) (by decide) (by norm_num)
  refine ⟨s, hr, fun ω => ?_⟩
  obtain ⟨ops, hmm⟩ := final_master hl hr
  rw [hmm]
  exact (exact_master hb hC hp ops).2.2

/-- With `p = 0` the row `11` is not given the label 7. -/
example : ∃ s pred, fitNew (exact (fun _ : Unit => (0, ()))) 10 0 (heuristicKinds 10) (-1) 0 D 4 labels Demo.est0 () = some (.ok (), s) ∧
    predict s.est.classes s.world.master.explanation D.rows = .ok pred ∧ cell pred labels 7 2 = 0 := by
  obtain ⟨s, hr, hip⟩ := run 10 0 (by norm_num) le_rfl
  obtain ⟨pred, h1, h2⟩ := C154_zero (X := D) (c0 := 2) (c1 := 7) (by decide) (by norm_num) (by decide) (by decide) (by decide) hr hip
  exact ⟨s, pred, hr, h1, h2⟩

/-- With `p = 3` it is: no row labelled 7 gets the answer 2. -/
example : ∃ s pred, fitNew (exact (fun _ : Unit => (0, ()))) 10 3 (heuristicKinds 10) (-1) 0 D 4 labels Demo.est0 () = some (.ok (), s) ∧
    predict s.est.classes s.world.master.explanation D.rows = .ok pred ∧ cell pred labels 2 7 = 0 := by
  obtain ⟨s, hr, hip⟩ := run 10 3 (by norm_num) (by norm_num)
  obtain ⟨pred, h1, h2⟩ := C154_large (X := D) (c0 := 2) (c1 := 7) (by decide) (by norm_num) (by decide) (by decide) (by decide) (by norm_num)
    (by have : labels.count 2 = 2 := by decide
        rw [this]; norm_num) hr hip
  exact ⟨s, pred, hr, h1, h2⟩

/-- With `p = 1` at least half of the answers 7 on the training data are right. -/
example : ∃ s pred, fitNew (exact (fun _ : Unit => (0, ()))) 10 1 (heuristicKinds 10) (-1) 0 D 4 labels Demo.est0 () = some (.ok (), s) ∧
    predict s.est.classes s.world.master.explanation D.rows = .ok pred ∧ cell pred labels 7 2 ≤ cell pred labels 7 7 := by
  obtain ⟨s, hr, hip⟩ := run 10 1 (by norm_num) (by norm_num)
  obtain ⟨pred, h1, h2, -⟩ := C154_matrix (X := D) (c0 := 2) (c1 := 7) (by decide) (by norm_num) (by decide) (by decide) (by decide) (by norm_num) hr hip
  rw [one_mul] at h2
  exact ⟨s, pred, hr, h1, by exact_mod_cast h2⟩

/-- With `p = 1` the part of the rows labelled 2 that get the answer 7 is not larger than that of the rows labelled 7. -/
example : ∃ s pred, fitNew (exact (fun _ : Unit => (0, ()))) 10 1 (heuristicKinds 10) (-1) 0 D 4 labels Demo.est0 () = some (.ok (), s) ∧
    predict s.est.classes s.world.master.explanation D.rows = .ok pred ∧ cell pred labels 7 2 * 3 ≤ cell pred labels 7 7 * 2 := by
  obtain ⟨s, hr, hip⟩ := run 10 1 (by norm_num) (by norm_num)
  obtain ⟨pred, h1, h2⟩ := C154_balanced (X := D) (c0 := 2) (c1 := 7) (by decide) (by norm_num) (by decide) (by decide) (by decide) (by norm_num) (by norm_num) hr hip
  exact ⟨s, pred, hr, h1, h2⟩

/-- A second call of `fit`, with an iteration limit. -/
example : ∃ s s' pred, fitNew (exact (fun _ : Unit => (0, ()))) 10 1 (heuristicKinds 10) (-1) 0 D 4 labels Demo.est0 () = some (.ok (), s) ∧
    Fit.fit (env (exact (fun _ : Unit => (0, ()))) D (heuristicKinds 10)) (config (heuristicKinds 10) 1 0) 4 labels s.est s.world = some (.ok (), s') ∧
    predict s'.est.classes s'.world.master.explanation D.rows = .ok pred ∧ (cell pred labels 7 2 : ℚ) ≤ 1 * cell pred labels 7 7 := by
  have hl : labels.length = D.rows.length := by decide
  have hb := encoded_binary hl (by decide)
  obtain ⟨s, hr, -⟩ := run 10 1 (by norm_num) (by norm_num)
  have hs : Session (exact (fun _ : Unit => (0, ()))) 10 1 (heuristicKinds 10) D labels s.world := .fit (.new ()) (-1) 0 4 Demo.est0 hr
  have hE := exact_exact (fun _ : Unit => (0, ())) (kinds := heuristicKinds 10) (C := 10) (p := 1) hb (by norm_num) (by norm_num) (SparseRuleDemo.kinds_ok (by norm_num))
  obtain ⟨s', hr', -⟩ := C94_refit_returns 1 0 s.est hs hl (by decide) hE.contract
  have hip : ∀ ω, IsOptimal s'.world.master.solver ((exact (fun _ : Unit => (0, ()))).ip s'.world.master.solver ω).1 := by
    intro ω
    obtain ⟨ops, -, -, hsol⟩ := ip_from (session_inv hl hs) hl hr'
    rw [← hsol]
    exact (exact_master hb (by norm_num) (by norm_num) ops).2.2
  obtain ⟨pred, h1, h2, -⟩ := C154_refit (c0 := 2) (c1 := 7) hs hl (by norm_num) (by decide) (by decide) (by decide) (by norm_num) hr' hip
  exact ⟨s, s', pred, hr, hr', h1, h2⟩

end PrecisionDemo

end Verif.BDR
