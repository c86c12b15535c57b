import Verif.Fit.Props2
import Verif.Fit.Trace

/-!
# Every column returned by a pricing problem is counted once as offered

Totals over a whole run, from the protocol (`Spec.Allowed`).
-/

set_option linter.unusedSectionVars false
set_option linter.unusedSimpArgs false

namespace Verif.Fit

open Spec

variable {W D Col : Type} {env : Env W D Col} {cfg : Config} {fuel : ℕ} {y : List ℤ} {e0 : Est} {w0 : W}
  {r : Except Err Unit × St W D Col} {s : St W D Col} {u : Unit}

namespace Spec

/-- Number of columns that pricing problem `(l, i)` returned in this call. -/
def priced (l i : ℕ) : Ev D Col → ℕ
  | .generate l' i' _ (.ok cols) => if l' = l ∧ i' = i then cols.length else 0
  | _ => 0

/-- 1 for a call of `add_column` with a column of pricing problem `(l, i)`. -/
def offer (l i : ℕ) : Ev D Col → ℕ
  | .add l' i' _ _ => if l' = l ∧ i' = i then 1 else 0
  | _ => 0

/-- Number of columns returned by pricing problem `(l, i)` in all calls. -/
def numPriced (l i : ℕ) (tr : List (Ev D Col)) : ℕ := (tr.map (priced l i)).sum

/-- Number of columns of pricing problem `(l, i)` passed to `add_column`. -/
def numOffered (l i : ℕ) (tr : List (Ev D Col)) : ℕ := (tr.map (offer l i)).sum

end Spec

/-- Columns of the last pricing call that were not offered yet. -/
def pend (l i : ℕ) (tr : List (Ev D Col)) : ℕ :=
  match ((round tr).filterMap genRes?).getLast? with
  | some (l', i', .ok cols) => if l' = l ∧ i' = i then cols.length - ((since isGen tr).filterMap col?).length else 0
  | _ => 0

theorem pend_of_offered {tr : List (Ev D Col)} (h : Offered tr) (l i : ℕ) : pend l i tr = 0 := by
  unfold pend
  split
  · next l' i' cols hg =>
    rw [h l' i' cols hg]
    simp
  · rfl

theorem numPriced_snoc (l i : ℕ) (tr : List (Ev D Col)) (e : Ev D Col) : numPriced l i (tr ++ [e]) = numPriced l i tr + priced l i e := by
  simp [numPriced]

theorem numOffered_snoc (l i : ℕ) (tr : List (Ev D Col)) (e : Ev D Col) : numOffered l i (tr ++ [e]) = numOffered l i tr + offer l i e := by
  simp [numOffered]

theorem pend_snoc (l i : ℕ) (tr : List (Ev D Col)) {e : Ev D Col} (h1 : isRmp e = false) (h2 : isGen e = false) (h4 : col? e = none) :
    pend l i (tr ++ [e]) = pend l i tr := by
  have h3 : genRes? e = none := by cases e <;> simp_all [isGen, genRes?]
  unfold pend
  rw [round_snoc, since_snoc, h1, h2]
  simp [List.filterMap_append, List.filterMap_cons, h3, h4]

theorem offered_of_numRmp {tr : List (Ev D Col)} (hp : Protocol cfg tr) (h : numRmp tr = 0) : Offered tr := by
  apply offered_of_genPos
  unfold genPos
  rw [List.filterMap_eq_nil_iff]
  intro e he
  cases e with
  | generate l i d q =>
    exfalso
    have hm := since_subset _ _ _ he
    obtain ⟨pre, post, hs⟩ := List.append_of_mem hm
    have := numRmp_of_lastDuals (hp pre _ post hs).1
    rw [hs] at h
    unfold numRmp at h this
    rw [List.countP_append] at h
    omega
  | _ => rfl

theorem protocol_init {tr : List (Ev D Col)} {e : Ev D Col} (h : Protocol cfg (tr ++ [e])) : Protocol cfg tr := by
  intro pre e' post hs
  exact h pre e' (post ++ [e]) (by rw [hs]; simp)

/-- The offered columns are those returned, up to the pending ones. -/
theorem balance (l i : ℕ) (tr : List (Ev D Col)) (hp : Protocol cfg tr) : numOffered l i tr + pend l i tr = numPriced l i tr := by
  induction tr using List.reverseRecOn with
  | nil => simp [numOffered, numPriced, pend, round, since]
  | append_singleton tr e ih =>
    have hp' := protocol_init hp
    have hall := hp tr e [] rfl
    replace ih := ih hp'
    rw [numOffered_snoc, numPriced_snoc]
    cases e with
    | solveRmp q =>
      have ho : Offered tr := by
        by_cases h0 : 0 < numRmp tr
        · exact (hall.2.2.2 h0).2.2
        · exact offered_of_numRmp hp' (by omega)
      rw [pend_of_offered ho] at ih
      have : pend l i (tr ++ [Ev.solveRmp q]) = 0 := by simp [pend, round_snoc, isRmp]
      rw [this]
      simpa [offer, priced] using ih
    | generate l' i' d q =>
      rw [pend_of_offered hall.2.2.2.2.2.2.2] at ih
      have : pend l i (tr ++ [Ev.generate l' i' d q]) = priced l i (Ev.generate l' i' d q : Ev D Col) := by
        unfold pend
        rw [round_snoc, since_snoc]
        cases q with
        | error er => simp [isRmp, isGen, List.filterMap_append, List.filterMap_cons, genRes?, priced]
        | ok cols => simp [isRmp, isGen, List.filterMap_append, List.filterMap_cons, genRes?, priced]
      rw [this]
      simp only [offer]
      omega
    | add l' i' c q =>
      obtain ⟨⟨cols, hg, hpre⟩, -⟩ := hall
      have hlen := hpre.length_le
      rw [List.length_append, List.length_singleton] at hlen
      have h1 : pend l i tr = if l' = l ∧ i' = i then cols.length - ((since isGen tr).filterMap col?).length else 0 := by
        unfold pend
        rw [hg]
      have h2 : pend l i (tr ++ [Ev.add l' i' c q]) =
          if l' = l ∧ i' = i then cols.length - (((since isGen tr).filterMap col?).length + 1) else 0 := by
        unfold pend
        rw [round_snoc, since_snoc]
        simp [isRmp, isGen, List.filterMap_append, List.filterMap_cons, genRes?, col?, hg]
      rw [h2]
      rw [h1] at ih
      simp only [offer, priced]
      split_ifs at ih ⊢ <;> omega
    | _ =>
      rw [pend_snoc _ _ _ rfl rfl rfl]
      simpa [offer, priced] using ih

/-- After a normal return every pricing problem's returned columns were all passed to `add_column`. -/
theorem numOffered_return (hr : fit env cfg fuel y e0 w0 = some (.ok u, s)) (l i : ℕ) : numOffered l i s.trace = numPriced l i s.trace := by
  have h := balance l i s.trace (fit_protocol hr)
  rw [pend_of_offered (offered_return hr)] at h
  exact h

/-- A pricing problem is called at most once per LP solve. -/
theorem count_genPos (p : ℕ × ℕ) (tr : List (Ev D Col)) (hp : Protocol cfg tr) :
    (genPos tr).count p + (if p ∉ genPos (round tr) ∧ 0 < numRmp tr then 1 else 0) ≤ numRmp tr := by
  induction tr using List.reverseRecOn with
  | nil => simp [genPos, numRmp]
  | append_singleton tr e ih =>
    have hp' := protocol_init hp
    have hall := hp tr e [] rfl
    replace ih := ih hp'
    cases e with
    | solveRmp q =>
      have h1 : (genPos tr).count p ≤ numRmp tr := by omega
      rw [round_snoc, numRmp_snoc]
      simp only [genPos, List.filterMap_append, List.filterMap_cons, gen?, List.filterMap_nil, List.append_nil, isRmp, if_true] at h1 ⊢
      simp only [List.not_mem_nil, not_false_iff, true_and]
      split_ifs <;> omega
    | generate l i d q =>
      have hnum := numRmp_of_lastDuals hall.1
      have hsub := hall.2.2.1
      have hnd := (nodup_allPositions cfg.shape).sublist hsub.sublist
      have hnot : (l, i) ∉ genPos (round tr) := by
        intro hm
        exact (List.nodup_append.1 hnd).2.2 _ hm _ (List.mem_singleton.2 rfl) rfl
      have g1 : genPos (tr ++ [Ev.generate l i d q]) = genPos tr ++ [(l, i)] := by
        simp [genPos, List.filterMap_append, List.filterMap_cons, gen?]
      have g2 : genPos (round (tr ++ [Ev.generate l i d q])) = genPos (round tr) ++ [(l, i)] := by
        rw [round_snoc]
        simp [isRmp, genPos, List.filterMap_append, List.filterMap_cons, gen?]
      have g3 : numRmp (tr ++ [Ev.generate l i d q]) = numRmp tr := by rw [numRmp_snoc]; simp [isRmp]
      rw [g1, g2, g3, List.count_append, List.count_singleton]
      by_cases he : p = (l, i)
      · subst he
        rw [if_pos ⟨hnot, hnum⟩] at ih
        simp
        omega
      · have he' : ((l, i) == p) = false := by simpa using fun h => he h.symm
        simp only [he', List.mem_append, List.mem_singleton, he, or_false]
        simpa using ih
    | _ =>
      rw [round_snoc, numRmp_snoc]
      simpa [genPos, isRmp, List.filterMap_append, List.filterMap_cons, gen?] using ih

end Verif.Fit
