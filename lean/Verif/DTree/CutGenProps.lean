import Verif.DTree.CutGen
import Mathlib.Data.List.GetD
import Mathlib.Tactic.Linarith

/-!
# Property C142: the object that records cuts
-/

namespace Verif.DTree

open CutGen

variable {g : CutGen} {P S : List ℕ} {c : List ℚ}

/-! ## Specification -/

namespace Spec

/-- The value of a solution in the original objective: the coefficients of the path variables that are positive. -/
def worth (P : List ℕ) (c : List ℚ) (v : ℕ → ℤ) : ℚ := ((P.zip c).map (fun t => if v t.1 > 0 then t.2 else 0)).sum

/-- Which of the variables are positive. -/
def shape (vars : List ℕ) (v : ℕ → ℤ) : List Bool := vars.map (fun x => decide (v x > 0))

/-- All path variables that are positive have a coefficient. -/
def Priced (P : List ℕ) (c : List ℚ) (v : ℕ → ℤ) : Prop := ∀ x ∈ P.drop c.length, v x ≤ 0

instance (P : List ℕ) (c : List ℚ) (v : ℕ → ℤ) : Decidable (Priced P c v) := List.decidableBAll _ _

/-- The solutions that count as cuts. -/
def found (P : List ℕ) (c : List ℚ) (vs : List (ℕ → ℤ)) : List (ℕ → ℤ) := vs.filter (fun v => decide (worth P c v > 1 + 1 / 1000000))

end Spec

open Spec

/-! ## The loops -/

theorem splitLoop_eq (v : ℕ → ℤ) : ∀ (k : ℕ), k ≤ g.splitVars.length →
    g.splitLoop v ((List.range g.splitVars.length).drop k) (shape (g.splitVars.take k) v ++ List.replicate (g.splitVars.length - k) false) = shape g.splitVars v := by
  intro k hk
  obtain ⟨n, hn⟩ : ∃ n, g.splitVars.length - k = n := ⟨_, rfl⟩
  induction n generalizing k with
  | zero =>
    have : k = g.splitVars.length := by omega
    subst this
    rw [List.drop_eq_nil_of_le (by simp)]
    simp [splitLoop]
  | succ n ih =>
    have hk' : k < g.splitVars.length := by omega
    rw [List.drop_eq_getElem_cons (by simpa using hk'), List.getElem_range]
    have ih := ih (k + 1) hk' (by omega)
    rw [List.take_succ_eq_append_getElem hk'] at ih
    unfold splitLoop
    rw [List.getD_eq_getElem _ _ hk', hn, List.replicate_succ]
    have hlen : (shape (g.splitVars.take k) v).length = k := by simp [shape]; omega
    have hm : g.splitVars.length - (k + 1) = n := by omega
    rw [hm] at ih
    unfold shape at ih hlen ⊢
    rw [List.map_append, List.map_cons, List.map_nil, List.append_assoc, List.singleton_append] at ih
    by_cases hv : v g.splitVars[k] > 0
    · rw [if_pos hv]
      rw [decide_eq_true hv] at ih
      rw [List.set_append_right _ _ (by omega), hlen, Nat.sub_self, List.set_cons_zero]
      exact ih
    · rw [if_neg hv]
      rw [decide_eq_false hv] at ih
      exact ih

theorem pathLoop_eq (v : ℕ → ℤ) : ∀ (k : ℕ) (obj : ℚ), k ≤ g.pathVars.length →
    g.pathLoop v ((List.range g.pathVars.length).drop k) (obj, shape (g.pathVars.take k) v ++ List.replicate (g.pathVars.length - k) false) =
      if ∀ x ∈ (g.pathVars.drop (max k g.coeffs.length)), v x ≤ 0 then .ok (obj + worth (g.pathVars.drop k) (g.coeffs.drop k) v, shape g.pathVars v) else .error .indexError := by
  intro k obj hk
  obtain ⟨n, hn⟩ : ∃ n, g.pathVars.length - k = n := ⟨_, rfl⟩
  induction n generalizing k obj with
  | zero =>
    have : k = g.pathVars.length := by omega
    subst this
    rw [List.drop_eq_nil_of_le (by simp)]
    have h0 : g.pathVars.drop (max g.pathVars.length g.coeffs.length) = [] := List.drop_eq_nil_of_le (le_max_left _ _)
    rw [h0, if_pos (by simp)]
    simp [pathLoop, worth]
  | succ n ih =>
    have hk' : k < g.pathVars.length := by omega
    rw [List.drop_eq_getElem_cons (by simpa using hk'), List.getElem_range]
    have hm : g.pathVars.length - (k + 1) = n := by omega
    have hlen : (shape (g.pathVars.take k) v).length = k := by simp [shape]; omega
    unfold pathLoop
    rw [List.getD_eq_getElem _ _ hk', hn, List.replicate_succ]
    by_cases hv : v g.pathVars[k] > 0
    · rw [if_pos hv]
      by_cases hc : k < g.coeffs.length
      · rw [List.getElem?_eq_getElem hc]
        simp only
        have ih := ih (k + 1) (obj + g.coeffs[k]) hk' (by omega)
        rw [List.take_succ_eq_append_getElem hk', hm] at ih
        unfold shape at ih hlen ⊢
        rw [List.map_append, List.map_cons, List.map_nil, List.append_assoc, List.singleton_append, decide_eq_true hv] at ih
        rw [List.set_append_right _ _ (by omega), hlen, Nat.sub_self, List.set_cons_zero, ih]
        rw [max_eq_right (by omega : k + 1 ≤ g.coeffs.length), max_eq_right hc.le]
        have hw : worth (g.pathVars.drop k) (g.coeffs.drop k) v = g.coeffs[k] + worth (g.pathVars.drop (k + 1)) (g.coeffs.drop (k + 1)) v := by
          unfold worth
          rw [List.drop_eq_getElem_cons hk', List.drop_eq_getElem_cons hc, List.zip_cons_cons, List.map_cons, List.sum_cons, if_pos hv]
        rw [hw, add_assoc]
      · rw [List.getElem?_eq_none (by omega)]
        simp only
        rw [if_neg]
        intro h
        rw [max_eq_left (by omega)] at h
        have := h _ (by rw [List.drop_eq_getElem_cons hk']; exact List.mem_cons_self)
        omega
    · rw [if_neg hv]
      have ih := ih (k + 1) obj hk' (by omega)
      rw [List.take_succ_eq_append_getElem hk', hm] at ih
      unfold shape at ih hlen ⊢
      rw [List.map_append, List.map_cons, List.map_nil, List.append_assoc, List.singleton_append, decide_eq_false hv] at ih
      rw [ih]
      have hw : worth (g.pathVars.drop k) (g.coeffs.drop k) v = worth (g.pathVars.drop (k + 1)) (g.coeffs.drop (k + 1)) v := by
        unfold worth
        by_cases hc : k < g.coeffs.length
        · rw [List.drop_eq_getElem_cons hk', List.drop_eq_getElem_cons hc, List.zip_cons_cons, List.map_cons, List.sum_cons, if_neg hv, zero_add]
        · rw [List.drop_eq_nil_of_le (by omega : g.coeffs.length ≤ k), List.drop_eq_nil_of_le (by omega : g.coeffs.length ≤ k + 1), List.zip_nil_right, List.zip_nil_right]
      rw [hw]
      by_cases hc : k < g.coeffs.length
      · rw [max_eq_right (by omega : k + 1 ≤ g.coeffs.length), max_eq_right hc.le]
      · rw [max_eq_left (by omega : g.coeffs.length ≤ k + 1), max_eq_left (by omega : g.coeffs.length ≤ k), List.drop_eq_getElem_cons hk']
        have : (∀ x ∈ g.pathVars[k] :: g.pathVars.drop (k + 1), v x ≤ 0) ↔ ∀ x ∈ g.pathVars.drop (k + 1), v x ≤ 0 := by
          rw [List.forall_mem_cons]
          exact and_iff_right (by omega)
        simp only [this]

/-! ## C142 -/

/-- **C142.** One solution: `IndexError` exactly if a positive path variable has no coefficient; otherwise the solution is recorded exactly if it is worth more than `1 + 1e-6`.
It is counted in any case. -/
theorem C142_callback (g : CutGen) (v : ℕ → ℤ) :
    (¬ Priced g.pathVars g.coeffs v → g.callback v = (.error .indexError, ⟨g.pathVars, g.splitVars, g.solutionCount + 1, g.cuts, g.cutRows, g.coeffs⟩)) ∧
    (Priced g.pathVars g.coeffs v → worth g.pathVars g.coeffs v ≤ 1 + 1 / 1000000 →
      g.callback v = (.ok (), ⟨g.pathVars, g.splitVars, g.solutionCount + 1, g.cuts, g.cutRows, g.coeffs⟩)) ∧
    (Priced g.pathVars g.coeffs v → worth g.pathVars g.coeffs v > 1 + 1 / 1000000 →
      g.callback v = (.ok (), ⟨g.pathVars, g.splitVars, g.solutionCount + 1, g.cuts ++ [shape g.pathVars v], g.cutRows ++ [shape g.splitVars v], g.coeffs⟩)) := by
  have hp := pathLoop_eq (g := { g with solutionCount := g.solutionCount + 1 }) v 0 0 (Nat.zero_le _)
  have hs := splitLoop_eq (g := { g with solutionCount := g.solutionCount + 1 }) v 0 (Nat.zero_le _)
  simp only [List.drop_zero, List.take_zero, Nat.sub_zero, Nat.zero_max, zero_add] at hp hs
  rw [show shape [] v = [] from rfl, List.nil_append] at hp hs
  unfold CutGen.callback
  simp only
  rw [hp, hs]
  refine ⟨fun h => ?_, fun h h' => ?_, fun h h' => ?_⟩
  · unfold Priced at h
    rw [if_neg h]
  · unfold Priced at h
    rw [if_pos h]
    simp only
    exact if_neg (not_lt.2 h')
  · unfold Priced at h
    rw [if_pos h]
    simp only
    exact if_pos h'

/-- **C142.** Any number of solutions, all coefficients given: no exception, `solution_count` is their number, and `cuts()` returns the shapes of those worth more than
`1 + 1e-6`, in the order in which they came, path variables and split variables at the same places. -/
theorem C142_run (P S : List ℕ) (c : List ℚ) (hc : P.length ≤ c.length) (vs : List (ℕ → ℤ)) :
    ((CutGen.new P S c).run vs).1 = .ok () ∧ ((CutGen.new P S c).run vs).2.solutionCount = vs.length ∧
      ((CutGen.new P S c).run vs).2.getCuts = ((found P c vs).map (shape P), (found P c vs).map (shape S)) := by
  have key : ∀ (vs : List (ℕ → ℤ)) (g : CutGen), g.pathVars = P → g.splitVars = S → g.coeffs = c → (g.run vs).1 = .ok () ∧
      (g.run vs).2.solutionCount = g.solutionCount + vs.length ∧
      (g.run vs).2.getCuts = (g.cuts ++ (found P c vs).map (shape P), g.cutRows ++ (found P c vs).map (shape S)) := by
    intro vs
    induction vs with
    | nil => intro g _ _ _; exact ⟨rfl, rfl, by simp [CutGen.run, CutGen.getCuts, found]⟩
    | cons v vs ih =>
      intro g h1 h2 h3
      have hpr : Priced g.pathVars g.coeffs v := by
        rw [h1, h3]
        unfold Priced
        rw [List.drop_eq_nil_of_le hc]
        intro x hx
        cases hx
      obtain ⟨-, hb, hd⟩ := C142_callback g v
      by_cases hw : worth P c v > 1 + 1 / 1000000
      · have e := hd hpr (by rw [h1, h3]; exact hw)
        have hf : found P c (v :: vs) = v :: found P c vs := List.filter_cons_of_pos (by simpa using hw)
        obtain ⟨i1, i2, i3⟩ := ih ⟨g.pathVars, g.splitVars, g.solutionCount + 1, g.cuts ++ [shape g.pathVars v], g.cutRows ++ [shape g.splitVars v], g.coeffs⟩ h1 h2 h3
        unfold CutGen.run
        rw [e]
        simp only
        refine ⟨i1, by rw [i2, List.length_cons]; simp only; omega, ?_⟩
        rw [i3, hf, h1, h2]
        simp
      · have e := hb hpr (by rw [h1, h3]; exact not_lt.1 hw)
        have hf : found P c (v :: vs) = found P c vs := List.filter_cons_of_neg (by simpa using hw)
        obtain ⟨i1, i2, i3⟩ := ih ⟨g.pathVars, g.splitVars, g.solutionCount + 1, g.cuts, g.cutRows, g.coeffs⟩ h1 h2 h3
        unfold CutGen.run
        rw [e]
        simp only
        refine ⟨i1, by rw [i2, List.length_cons]; simp only; omega, ?_⟩
        rw [i3, hf]
  obtain ⟨h1, h2, h3⟩ := key vs (CutGen.new P S c) rfl rfl rfl
  exact ⟨h1, by rw [h2]; simp [CutGen.new], by rw [h3]; simp [CutGen.new]⟩

/-- **C142.** The class has a method `solution_count`, but it can never be called: the attribute of the same name hides it. -/
theorem C142_count_method (g : CutGen) :
    classDict.lookup "solution_count" = some .method ∧ g.getAttr "solution_count" = some (.int g.solutionCount) ∧ g.callSolutionCount = .error .typeError :=
  ⟨rfl, rfl, rfl⟩

/-- **C142.** The other method can. -/
theorem C142_cuts_method (g : CutGen) : g.getAttr "cuts" = some .method := rfl

/-- **C142.** What `add_cuts` reads from the object is the list of the model of the master problem. -/
theorem C142_refines (P S : List ℕ) (c : List ℚ) (hc : P.length ≤ c.length) (vs : List (ℕ → ℤ)) :
    ((CutGen.new P S c).run vs).2.getCuts =
      (((vs.map (fun v x => decide (v x > 0))).foldl (cutCallback P S c) []).map (·.1), ((vs.map (fun v x => decide (v x > 0))).foldl (cutCallback P S c) []).map (·.2)) := by
  rw [(C142_run P S c hc vs).2.2]
  have key : ∀ (vs : List (ℕ → ℤ)) (acc : List (List Bool × List Bool)), (vs.map (fun v x => decide (v x > 0))).foldl (cutCallback P S c) acc =
      acc ++ (found P c vs).map (fun v => (shape P v, shape S v)) := by
    intro vs
    induction vs with
    | nil => intro acc; simp [found]
    | cons v vs ih =>
      intro acc
      rw [List.map_cons, List.foldl_cons, ih]
      have hw : ((P.zip c).map (fun t => if decide (v t.1 > 0) = true then t.2 else 0)).sum = worth P c v := by
        unfold worth
        simp only [decide_eq_true_eq]
      unfold cutCallback
      simp only
      rw [hw]
      by_cases h : worth P c v > 1 + 1 / 1000000
      · have hf : found P c (v :: vs) = v :: found P c vs := List.filter_cons_of_pos (by simpa using h)
        rw [if_pos (by unfold eps; exact h), hf]
        simp [shape]
      · have hf : found P c (v :: vs) = found P c vs := List.filter_cons_of_neg (by simpa using h)
        rw [if_neg (by unfold eps; exact h), hf]
  rw [key]
  simp

/-! ### Cases -/

/-- Three solutions; the second is not worth more than `1 + 1e-6`. -/
example : ((CutGen.new [0, 1] [2] [3/4, 1/2]).run [fun _ => 1, fun x => if x = 0 then 1 else 0, fun x => if x = 2 then 0 else 7]).2 =
    ⟨[0, 1], [2], 3, [[true, true], [true, true]], [[true], [false]], [3/4, 1/2]⟩ := by decide +kernel

/-- A coefficient is missing: it matters only if the variable is positive. -/
example : ((CutGen.new [0, 1] [] [2]).run [fun x => if x = 0 then 1 else 0, fun _ => 1, fun _ => 1]) =
    (.error .indexError, ⟨[0, 1], [], 2, [[true, false]], [[]], [2]⟩) := by decide +kernel

end Verif.DTree
