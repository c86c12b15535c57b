import Verif.BDR.Strict
import Verif.BDR.SessionProps
import Verif.DTree.StrictLemmas

/-!
# Lemmas: no access of the Boolean decision rule plug-ins fails
-/

set_option linter.unusedSectionVars false
set_option linter.unusedSimpArgs false

namespace Verif.BDR

open MP Spec
open Fit.Spec
open Verif.Fit (Ev Guided Agree)
open Verif.DTree (Reads Safe atIndex atKey guarded guardedE guarded_safe guardedE_safe atIndex_ok)

variable {Ω : Type} {o : Oracle Ω} {C p : ℚ} {kinds : List (List Kind)} {X : Data} {py : List ℕ} {cfg : Fit.Config}

/-- A matrix with `nFeat` columns. -/
def Spec.Rect (X : Data) : Prop := ∀ row ∈ X.rows, row.length = X.nFeat

theorem clauseReads_safe {entry : List ℚ} : ∀ {k : Clause}, (∀ j ∈ k, j < entry.length) → Safe (clauseReads entry k)
  | [], _ => .nil
  | j :: js, h => by
    refine .cons (atIndex_ok (h j (by simp))) ?_
    split
    · exact .nil
    · exact clauseReads_safe fun i hi => h i (by simp [hi])

theorem objectiveReads_safe {k : Clause} : ∀ {X : List (List ℚ)} {y : List ℕ}, y.length = X.length → (∀ r ∈ X, ∀ j ∈ k, j < r.length) →
    Safe (objectiveReads k X y)
  | [], _, _, _ => by unfold objectiveReads; exact .nil
  | _ :: _, [], h, _ => by simp at h
  | r :: X, t :: y, h, hk => by
    unfold objectiveReads
    refine .append ?_ (objectiveReads_safe (by simpa using h) fun r hr => hk r (by simp [hr]))
    split
    · exact .nil
    · exact clauseReads_safe (hk r (by simp))

theorem coeffReads_safe {k : Clause} : ∀ {X : List (List ℚ)} {y : List ℕ}, y.length = X.length → (∀ r ∈ X, ∀ j ∈ k, j < r.length) →
    Safe (coeffReads k X y)
  | [], _, _, _ => by unfold coeffReads; exact .nil
  | _ :: _, [], h, _ => by simp at h
  | r :: X, t :: y, h, hk => by
    unfold coeffReads
    refine .append ?_ (coeffReads_safe (by simpa using h) fun r hr => hk r (by simp [hr]))
    split
    · exact .nil
    · exact clauseReads_safe (hk r (by simp))

theorem clauseCoeffs_length (X : List (List ℚ)) (y : List ℕ) (k : Clause) : (clauseCoeffs X y k).length = (posM X y).length + 1 := by
  rw [clauseCoeffs_eq]; simp

theorem dualReads_safe {cs : List ℚ} : ∀ {X : List (List ℚ)} {y : List ℕ} {n : ℕ}, y.length = X.length →
    n + y.countP (fun t => t = 1) ≤ cs.length → Safe (dualReads cs X y n)
  | [], _, _, _, _ => by unfold dualReads; exact .nil
  | _ :: _, [], _, h, _ => by simp at h
  | r :: X, t :: y, n, h, hn => by
    unfold dualReads
    rw [List.countP_cons] at hn
    split
    · rename_i ht
      rw [if_pos (by simpa using ht)] at hn
      exact .cons (atIndex_ok (by omega)) (dualReads_safe (by simpa using h) (by omega))
    · exact dualReads_safe (by simpa using h) (by omega)

theorem heurReads_safe {cs : List ℚ} {k : Clause} : ∀ {X : List (List ℚ)} {y : List ℕ} {n : ℕ}, y.length = X.length →
    (∀ r ∈ X, ∀ j ∈ k, j < r.length) → n + y.countP (fun t => t = 1) ≤ cs.length → Safe (heurReads cs k X y n)
  | [], _, _, _, _, _ => by unfold heurReads; exact .nil
  | _ :: _, [], _, h, _, _ => by simp at h
  | r :: X, t :: y, n, h, hk, hn => by
    unfold heurReads
    rw [List.countP_cons] at hn
    refine .append (.append (clauseReads_safe (hk r (by simp))) ?_) (heurReads_safe (by simpa using h) (fun r hr => hk r (by simp [hr])) ?_)
    · split
      · rename_i ht
        rw [if_pos (by simpa using ht.2)] at hn
        exact .cons (atIndex_ok (by omega)) .nil
      · exact .nil
    · split
      · rename_i ht
        rw [if_pos (by simpa using ht)] at hn
        omega
      · omega

/-- Labels 1 are at most as many as labels other than 0. -/
theorem ones_le {X : List (List ℚ)} {y : List ℕ} (h : y.length = X.length) : y.countP (fun t => t = 1) ≤ (posM X y).length := by
  rw [← numPos_eq h, ← List.countP_eq_length_filter]
  refine List.countP_mono_left fun t _ ht => ?_
  simp only [decide_eq_true_eq] at ht ⊢
  omega

theorem combinations_mem {n : ℕ} : ∀ {k : ℕ} {l : List ℕ}, (∀ j ∈ l, j < n) → ∀ c ∈ combinations k l, ∀ j ∈ c, j < n
  | 0, _, _, c, hc, j, hj => by
    have : c = [] := by simpa [combinations] using hc
    subst this
    cases hj
  | _ + 1, [], _, c, hc, _, _ => by simp [combinations] at hc
  | k + 1, x :: xs, h, c, hc, j, hj => by
    rw [combinations] at hc
    rcases List.mem_append.1 hc with hc | hc
    · obtain ⟨c', hc', rfl⟩ := List.mem_map.1 hc
      rcases List.mem_cons.1 hj with rfl | hj
      · exact h _ (by simp)
      · exact combinations_mem (fun i hi => h i (by simp [hi])) c' hc' j hj
    · exact combinations_mem (fun i hi => h i (by simp [hi])) c hc j hj

/-! ## The invariant -/

/-- The invariant of `fit` without assumptions on the solvers; all duals have one entry per positive row, and only assertions failed. -/
structure InvT (o : Oracle Ω) (C p : ℚ) (kinds : List (List Kind)) (X : Data) (py : List ℕ) (w : World Ω) (tr : Trace) : Prop where
  inv : InvA o C p kinds X py w tr
  duals : ∀ d, Ev.solveRmp (.ok d) ∈ tr → d.2.length = (posM X.rows py).length
  err : ∀ e ∈ tr, ∀ x, raised? e = some x → x = .assertionError

theorem InvT.event {w w' : World Ω} {tr : Trace} {e : Ev (ℚ × List ℚ) Clause} (h : InvT o C p kinds X py w tr)
    (hi : InvA o C p kinds X py w' (tr ++ [e])) (hd : ∀ d, e ≠ .solveRmp (.ok d)) (he : ∀ x, raised? e = some x → x = .assertionError) :
    InvT o C p kinds X py w' (tr ++ [e]) :=
  ⟨hi, fun d hm => by
    rcases List.mem_append.1 hm with hm | hm
    · exact h.duals d hm
    · exact absurd (List.mem_singleton.1 hm).symm (hd d),
   fun e' hm => by
    rcases List.mem_append.1 hm with hm | hm
    · exact h.err e' hm
    · rw [List.mem_singleton.1 hm]; exact he⟩

theorem addColumn_raised (s : Master) (c : Clause) {x : Err} (h : (s.addColumn c).1 = .error x) : x = .assertionError := by
  unfold Master.addColumn at h
  dsimp only at h
  split_ifs at h <;> first | (cases h; rfl) | cases h

theorem solveIp_raised (s : Master) (f : Model → Answer) {x : Err} (h : (s.solveIp f).1 = .error x) : x = .assertionError := by
  unfold Master.solveIp at h
  dsimp only at h
  split_ifs at h <;> first | (cases h; rfl) | cases h

theorem genBy_raised {d : ℚ × List ℚ} {x : Err} {k : Kind} (h : GenBy o X py d (.error x) k) : x = .assertionError := by
  cases k with
  | heuristic K =>
    have h : .error x = heuristicColumns K X py d := h
    unfold heuristicColumns at h
    split_ifs at h <;> cases h <;> rfl
  | exact D =>
    obtain ⟨hist, ω, h⟩ := h
    rcases generateColumns_cases (subAfter_ok D X py hist) d (fun m => (o.mip m ω).1) with ⟨e, -⟩ | ⟨-, -, -, e⟩
    · rw [e] at h; cases h; rfl
    · rw [e] at h
      split_ifs at h <;> cases h <;> rfl

theorem invT_guided (o : Oracle Ω) (C p : ℚ) (kinds : List (List Kind)) (X : Data) (py : List ℕ) (cfg : Fit.Config)
    (hs : cfg.shape = kinds.map List.length) (hl : py.length = X.rows.length) : Guided (env o X kinds) cfg py (InvT o C p kinds X py) where
  clock w tr h := ⟨(invA_guided o C p kinds X py cfg hs hl).clock _ _ h.inv, h.duals, h.err⟩
  timer w tr t hp h := h.event ((invA_guided o C p kinds X py cfg hs hl).timer _ _ _ hp h.inv) (by intros; simp) (by simp [raised?])
  check w tr s t hp h := h.event ((invA_guided o C p kinds X py cfg hs hl).check _ _ _ _ hp h.inv) (by intros; simp) (by simp [raised?])
  flag w tr hp h := h.event ((invA_guided o C p kinds X py cfg hs hl).flag _ _ hp h.inv) (by intros; simp) (by simp [raised?])
  clear w tr h := ⟨(invA_guided o C p kinds X py cfg hs hl).clear _ _ h.inv, h.duals, h.err⟩
  generateMp w t h := h.event (tr := [.timer t]) ((invA_guided o C p kinds X py cfg hs hl).generateMp _ _ h.inv) (by intros; simp)
    (by simp [raised?, env])
  solveRmp w tr hp ha h := by
    have hi := (invA_guided o C p kinds X py cfg hs hl).solveRmp _ _ hp ha h.inv
    refine ⟨hi, ?_, ?_⟩
    · intro d hm
      rcases List.mem_append.1 hm with hm | hm
      · exact h.duals d hm
      · have he : ((env o X kinds).solveRmp w).1 = .ok d := by
          have := List.mem_singleton.1 hm
          simpa using this.symm
        simp only [env, Master.solveRmp] at he
        rcases h.inv with hf | ⟨ops, hc⟩
        · rw [hf.master, if_pos (show (Master.new C p).generated = false from rfl)] at he; cases he
        · obtain ⟨hI, hX, hy, -⟩ := after_inv C p X py ops hl
          rw [hc.master, if_neg (by rw [hI.gen]; simp)] at he
          cases he
          simp only [List.length_map, List.length_range]
          rw [hI.consLen, hX, hy, Nat.add_sub_cancel]
    · intro e hm x hx
      rcases List.mem_append.1 hm with hm | hm
      · exact h.err e hm x hx
      · rw [List.mem_singleton.1 hm] at hx
        have : ((env o X kinds).solveRmp w).1 = .error x := by
          generalize ((env o X kinds).solveRmp w).1 = r at hx
          cases r <;> simp_all [raised?]
        simp only [env, Master.solveRmp] at this
        split at this
        · cases this; rfl
        · cases this
  improved w tr hp ha h := h.event ((invA_guided o C p kinds X py cfg hs hl).improved _ _ hp ha h.inv) (by intros; simp) (by simp [raised?, env])
  update w tr l i d hp ha h := h.event ((invA_guided o C p kinds X py cfg hs hl).update _ _ _ _ _ hp ha h.inv) (by intros; simp) (by simp [raised?, env])
  generate w tr l i d hp ha h := by
    have hi := (invA_guided o C p kinds X py cfg hs hl).generate _ _ _ _ _ hp ha h.inv
    refine h.event hi (by intros; simp) ?_
    intro x hx
    rcases hi with hf | ⟨ops, hc⟩
    · exact absurd (List.mem_append_right _ (List.mem_singleton.2 rfl)) (hf.gens l i d _)
    · obtain ⟨k, -, hk⟩ := hc.gens l i d _ (List.mem_append_right _ (List.mem_singleton.2 rfl))
      have : ((env o X kinds).generate l i d w).1 = .error x := by
        generalize ((env o X kinds).generate l i d w).1 = r at hx
        cases r <;> simp_all [raised?]
      rw [this] at hk
      exact genBy_raised hk
  add w tr l i c hp ha h := by
    refine h.event ((invA_guided o C p kinds X py cfg hs hl).add _ _ _ _ _ hp ha h.inv) (by intros; simp) ?_
    intro x hx
    refine addColumn_raised w.master c ?_
    have : (env o X kinds).addColumn c w = ((w.master.addColumn c).1, { w with master := (w.master.addColumn c).2 }) := rfl
    rw [this] at hx
    generalize (w.master.addColumn c).1 = r at hx
    cases r <;> simp_all [raised?]
  solveIp w tr hp ha h := by
    refine h.event ((invA_guided o C p kinds X py cfg hs hl).solveIp _ _ hp ha h.inv) (by intros; simp) ?_
    intro x hx
    refine solveIp_raised w.master (fun m => (o.ip m w.ω).1) ?_
    simp only [env] at hx
    generalize (w.master.solveIp (fun m => (o.ip m w.ω).1)).1 = r at hx
    cases r <;> simp_all [raised?]

/-! ## Agreement -/

theorem Core.col_lt {w : World Ω} {tr : Trace} {ops : List Op} (_h : Core o C p kinds X py w tr ops) (hR : Rect X) {c : Clause}
    (hc : Proper X.nFeat c) : ∀ r ∈ X.rows, ∀ j ∈ c, j < r.length := fun r hr j hj => by rw [hR r hr]; exact hc.2 j hj

theorem addColumnS_eq {ops : List Op} (hl : py.length = X.rows.length) {c : Clause} (hc : ∀ r ∈ X.rows, ∀ j ∈ c, j < r.length) :
    (after C p X py ops).addColumnS c = (after C p X py ops).addColumn c := by
  obtain ⟨hI, hX, hy, -⟩ := after_inv C p X py ops hl
  unfold Master.addColumnS
  by_cases h1 : (after C p X py ops).generated = false ∨ c.length = 0 ∨ c ∈ (after C p X py ops).clauseDict.map (·.2)
  · rw [if_pos h1]
  · rw [if_neg h1]
    rw [hX, hy]
    rw [guarded_safe (.append (objectiveReads_safe hl hc) (coeffReads_safe hl hc))]
    split
    · rfl
    · refine guarded_safe ?_ _ _
      unfold Master.columnReads
      rw [hX, hy, clauseCoeffs_length, hI.consLen, hX, hy, hI.sat, hX, hy, hI.comp]
      refine .append (.flatMap fun j hj => ?_) (.cons (atIndex_ok (by omega)) .nil)
      have hj' : j < (posM X.rows py).length := by simpa using hj
      refine .cons (atIndex_ok ?_) (.cons (atIndex_ok (by omega)) .nil)
      simp [List.getD_eq_getElem?_getD, hj']
      omega

theorem solveRmpS_eq {ops : List Op} (hl : py.length = X.rows.length) (ans : Answer) :
    (after C p X py ops).solveRmpS ans = (after C p X py ops).solveRmp ans := by
  obtain ⟨hI, hX, hy, -⟩ := after_inv C p X py ops hl
  unfold Master.solveRmpS
  rw [if_neg (by rw [hI.gen]; simp)]
  refine guardedE_safe ?_ _
  rw [hI.consLen, hI.comp, hI.sat, Nat.add_sub_cancel]
  refine .cons (atIndex_ok (by omega)) (.flatMap fun i hi => ?_)
  have hi' := List.mem_range.1 hi
  refine .cons (atIndex_ok (by simpa using hi')) (.cons (atIndex_ok ?_) .nil)
  simp [List.getD_eq_getElem?_getD, hi']
  omega

theorem lookup_isSome (n : ℕ) : ∀ (K : List Clause) (j : ℕ), j < K.length → (((List.range' n K.length).zip K).lookup (n + j)).isSome = true := by
  intro K
  induction K generalizing n with
  | nil => intro j hj; simp at hj
  | cons k K ih =>
    intro j hj
    rw [List.length_cons, List.range'_succ, List.zip_cons_cons, List.lookup_cons]
    cases j with
    | zero => simp
    | succ j =>
      have : (n + (j + 1) == n) = false := by simp
      rw [this, show n + (j + 1) = n + 1 + j by omega]
      exact ih (n + 1) j (by simpa using hj)

theorem solveIpS_eq {ops : List Op} (hl : py.length = X.rows.length) (f : Model → Answer) :
    (after C p X py ops).solveIpS f = (after C p X py ops).solveIp f := by
  obtain ⟨hI, hX, hy, -⟩ := after_inv C p X py ops hl
  unfold Master.solveIpS
  split
  · rename_i b s' he
    rw [he]
    refine guarded_safe ?_ _ _
    unfold Master.ipReads
    rw [hI.vars, hI.xi, hI.cvars, hI.dict]
    simp only [List.length_replicate, List.length_range, Nat.add_sub_cancel_left, List.length_range']
    refine .flatMap fun j hj => ?_
    have hj' := List.mem_range.1 (List.mem_filter.1 hj).1
    have hg : (List.range' (posM (after C p X py ops).X.rows (after C p X py ops).y).length (clausesOf ops).length).getD j 0 =
        (posM (after C p X py ops).X.rows (after C p X py ops).y).length + j := by
      simp [List.getD_eq_getElem?_getD, hj']
    rw [hg]
    exact .cons (atIndex_ok hj') (.cons (atIndex_ok (by omega)) (.cons (lookup_isSome _ _ _ hj') .nil))
  · rename_i e s' he
    exact he.symm

theorem generateColumnsS_eq {s : Sub} {D : ℚ} (hR : Rect X) (hl : py.length = X.rows.length) (h : SubOk s D X py) {d : ℚ × List ℚ}
    (hd : d.2.length = (posM X.rows py).length) (solve : Model → Answer) : s.generateColumnsS X py d solve = s.generateColumns X py d solve := by
  have hone := ones_le hl
  unfold Sub.generateColumnsS
  by_cases h1 : d.1 < 0 ∨ d.2.any (fun d => d < 0) = true
  · rw [if_pos h1]
    unfold Sub.generateColumns Sub.prepare
    rcases h1 with h1 | h1
    · rw [if_pos h1]
    · by_cases h2 : d.1 < 0
      · rw [if_pos h2]
      · rw [if_neg h2, if_pos h1]
  · rw [if_neg h1, guarded_safe]
    · unfold Sub.generateColumns
      rcases prepare_inv h d with ⟨e, -⟩ | ⟨s', e, hi, -⟩
      · rw [e]
      · rw [e]
        simp only
        refine guarded_safe ?_ _ _
        split
        · exact .nil
        · unfold Sub.varReads
          rw [hi.z, hi.model]
          refine .map fun v hv => atIndex_ok ?_
          have := List.mem_range.1 hv
          simp [subModel]
          omega
    · rcases h with rfl | ⟨cc, cs, hi⟩
      · simp only [Sub.new, Bool.false_eq_true, if_false]
        unfold createReads
        refine .append (dualReads_safe hl (by omega)) (.flatMap fun row hrow => .map fun j hj => atIndex_ok ?_)
        rw [hR row hrow]
        exact List.mem_range.1 hj
      · rw [if_pos hi.gen]
        unfold Sub.updateReads
        refine .append (.append (.map fun j hj => atIndex_ok ?_) (dualReads_safe hl (by omega))) (.map fun j hj => atIndex_ok ?_)
        · rw [hi.z, List.length_range]; exact List.mem_range.1 hj
        · rw [hi.delta, List.length_range', hl]; exact List.mem_range.1 hj

theorem heuristicColumnsS_eq {K : ℕ} (hR : Rect X) (hl : py.length = X.rows.length) {d : ℚ × List ℚ} (hd : d.2.length = (posM X.rows py).length) :
    heuristicColumnsS K X py d = heuristicColumns K X py d := by
  have hone := ones_le hl
  unfold heuristicColumnsS
  by_cases h1 : d.1 < 0 ∨ d.2.any (fun d => d < 0) = true
  · rw [if_pos h1]
    unfold heuristicColumns
    rcases h1 with h1 | h1
    · rw [if_pos h1]
    · by_cases h2 : d.1 < 0
      · rw [if_pos h2]
      · rw [if_neg h2, if_pos h1]
  · rw [if_neg h1, guardedE_safe]
    refine .flatMap fun k _ => .flatMap fun c hc => heurReads_safe hl (fun r hr j hj => ?_) (by omega)
    rw [hR r hr]
    exact combinations_mem (fun j hj => List.mem_range.1 hj) c hc j hj

theorem generateMpS_eq (hl : py.length = X.rows.length) (s : Master) : s.generateMpS X py = (.ok (), s.generateMp X py) := by
  unfold Master.generateMpS
  by_cases h : s.generated = true
  · rw [if_pos h]
    unfold Master.generateMp
    rw [if_pos h]
  · rw [if_neg h, guarded_safe]
    unfold Master.generateReads
    rw [lexicographicClause_zero, clauseCoeffs_length, numPos_eq hl]
    refine .append (.append (objectiveReads_safe hl (by simp)) (coeffReads_safe hl (by simp))) (.map fun j hj => atIndex_ok ?_)
    have := List.mem_range.1 hj
    omega

theorem envS_agree (hR : Rect X) (hs : cfg.shape = kinds.map List.length) (hl : py.length = X.rows.length) :
    Verif.Fit.Agree (env o X kinds) (envS o X kinds) cfg py (InvT o C p kinds X py) where
  clock := rfl
  flag := rfl
  clear := rfl
  generateMp w t h := by
    simp only [env, envS, generateMpS_eq hl]
  solveRmp w tr hp ha h := by
    simp only [env, envS]
    rcases h.inv with hf | ⟨ops, hc⟩
    · rw [hf.master]; rfl
    · rw [hc.master, solveRmpS_eq hl]
  improved w tr _ _ _ := rfl
  update w tr l i d _ _ _ := rfl
  generate w tr l i d hp ha h := by
    have hd := h.duals d (rmp_of_lastDuals ha.1)
    obtain ⟨k, hk⟩ := kind_of_allowed hs ha
    rcases h.inv with hf | ⟨ops, hc⟩
    · obtain ⟨y, hy⟩ := generateMp_of_rmp hp (rmp_of_lastDuals ha.1)
      exact absurd hy (hf.gen _ _)
    · simp only [env, envS, generateAt, generateAtS, hk]
      cases k with
      | heuristic K => simp only [hc.y, heuristicColumnsS_eq hR hl hd]
      | exact D =>
        obtain ⟨hist, hsub⟩ := hc.subs l i D hk
        simp only [hc.y, hsub, generateColumnsS_eq hR hl (subAfter_ok D X py hist) hd]
  add w tr l i c hp ha h := by
    obtain ⟨⟨cols, h1, h2⟩, -⟩ := ha
    obtain ⟨d, hd⟩ := mem_of_genRes h1
    have hd' := since_subset _ _ _ hd
    rcases h.inv with hf | ⟨ops, hc⟩
    · exact absurd hd' (hf.gens _ _ _ _)
    · obtain ⟨k, -, hby⟩ := hc.gens _ _ _ _ hd'
      have hpc := genBy_proper hby c (h2.subset (by simp))
      simp only [env, envS]
      rw [hc.master, addColumnS_eq hl (hc.col_lt hR hpc)]
  solveIp w tr _ _ h := by
    simp only [env, envS]
    rcases h.inv with hf | ⟨ops, hc⟩
    · rw [hf.master]; rfl
    · rw [hc.master, solveIpS_eq hl]

theorem InvA.invT {w : World Ω} (h : InvA o C p kinds X py w []) : InvT o C p kinds X py w [] := ⟨h, by simp, by simp⟩

end Verif.BDR
