import Verif.BDR.SessionDemo
import Verif.Fit.LimitProps

/-!
# Property C114 for the Boolean rule classifier: looser limits never make the rule worse
-/

namespace Verif.BDR

open MP Spec
open Fit.Spec (Looser LimitLE)

variable {Ω : Type} {o : Oracle Ω} {C p : ℚ} {kinds : List (List Kind)} {maxIt maxIt' : ℤ} {limit limit' : ℚ} {X : Data} {fuel fuel' : ℕ} {y : List ℤ}
  {e0 : Fit.Est} {w : World Ω} {u u' : Unit} {s s' : Fit.St (World Ω) (ℚ × List ℚ) Clause}

theorem looser_config (h1 : LimitLE maxIt maxIt') (h2 : LimitLE limit limit') : Looser (config kinds maxIt limit) (config kinds maxIt' limit') :=
  ⟨h1, h2, rfl, rfl⟩

/-- **C114.** Two calls of `fit` on the same classifier in the same state, with the same data, solvers and clock: the clauses of the call with the tighter limits are the
first clauses of the other. -/
theorem C114_rule_clauses (h1 : LimitLE maxIt maxIt') (h2 : LimitLE limit limit')
    (hr : Fit.fit (env o X kinds) (config kinds maxIt limit) fuel y e0 w = some (.ok u, s))
    (hr' : Fit.fit (env o X kinds) (config kinds maxIt' limit') fuel' y e0 w = some (.ok u', s')) :
    s.world.master.clauses <+: s'.world.master.clauses := by
  rcases Fit.limit_cases (looser_config h1 h2) hr hr' with e | ⟨s1, e1, -, e3⟩
  · cases e
    exact List.prefix_rfl
  · have h3 : s1.world.master.clauseDict <+: s'.world.master.clauseDict := e3 _ (dict_preserved o X kinds s1.world.master.clauseDict) List.prefix_rfl
    have h4 : s.world.master.clauseDict = s1.world.master.clauseDict := by
      rw [show s = (Fit.finish (env o X kinds) (config kinds maxIt limit) s1).2 from congrArg Prod.snd e1]
      refine Fit.finish_keeps (Q := fun v : World Ω => v.master.clauseDict = s1.world.master.clauseDict) (fun v hv => hv) (fun v hv => ?_) rfl
      refine Eq.trans ?_ hv
      change (v.master.solveIp _).2.clauseDict = _
      unfold Master.solveIp
      split
      · rfl
      · simp only
        split
        · rfl
        · split <;> rfl
    unfold Master.clauses
    rw [h4]
    exact h3.map _

/-- **C114.** If both final integer programs are solved to optimality, the rule of the call with the looser limits has no larger Hamming loss. -/
theorem C114_rule_not_worse (h1 : LimitLE maxIt maxIt') (h2 : LimitLE limit limit') (hs : Session o C p kinds X y w)
    (hl : y.length = X.rows.length) (hb : (Sk.uniqueLabels y).length ≤ 2) (hp : 0 ≤ p)
    (hr : Fit.fit (env o X kinds) (config kinds maxIt limit) fuel y e0 w = some (.ok u, s))
    (hip : ∀ ω, IsOptimal s.world.master.solver (o.ip s.world.master.solver ω).1)
    (hr' : Fit.fit (env o X kinds) (config kinds maxIt' limit') fuel' y e0 w = some (.ok u', s'))
    (hip' : ∀ ω, IsOptimal s'.world.master.solver (o.ip s'.world.master.solver ω).1) :
    hamming X.rows (encoded y) p s'.world.master.explanation ≤ hamming X.rows (encoded y) p s.world.master.explanation := by
  obtain ⟨a1, a2, -⟩ := best_from (session_inv hl hs) hl hb hp hr hip
  obtain ⟨-, -, b3⟩ := best_from (session_inv hl hs) hl hb hp hr' hip'
  exact b3 _ (fun k hk => (C114_rule_clauses h1 h2 hr hr').subset (a1 k hk)) a2

/-- **C114** with exact solvers (all contracts hold by construction): raising the limits never gives a rule with a larger Hamming loss. Both calls end. -/
theorem C114_rule_exact {clock : Ω → ℚ × Ω} (h1 : LimitLE maxIt maxIt') (h2 : LimitLE limit limit') (hC : 0 ≤ C) (hp : 0 ≤ p)
    (hk : ∀ l i D, kindAt kinds l i = some (.exact D) → 0 ≤ D) (hs : Session (exact clock) C p kinds X y w) (hl : y.length = X.rows.length)
    (hb : (Sk.uniqueLabels y).length = 2) (e0 : Fit.Est) :
    ∃ s s', Fit.fit (env (exact clock) X kinds) (config kinds maxIt limit) (2 ^ X.nFeat) y e0 w = some (.ok (), s) ∧
      Fit.fit (env (exact clock) X kinds) (config kinds maxIt' limit') (2 ^ X.nFeat) y e0 w = some (.ok (), s') ∧
      s.world.master.clauses <+: s'.world.master.clauses ∧
      hamming X.rows (encoded y) p s'.world.master.explanation ≤ hamming X.rows (encoded y) p s.world.master.explanation := by
  have hc := exact_contract clock (encoded_binary hl (le_of_eq hb)) hC hp hk
  obtain ⟨s, hr, -⟩ := C94_refit_returns maxIt limit e0 hs hl hb hc
  obtain ⟨s', hr', -⟩ := C94_refit_returns maxIt' limit' e0 hs hl hb hc
  exact ⟨s, s', hr, hr', C114_rule_clauses h1 h2 hr hr', C114_rule_not_worse h1 h2 hs hl (le_of_eq hb) hp hr (exact_ip hC hp hs hl (le_of_eq hb) hr) hr'
    (exact_ip hC hp hs hl (le_of_eq hb) hr')⟩

/-- C114 on the exclusive or data: one iteration, and no limit. -/
example : ∃ s s', fitNew (exact (fun t : ℚ => (t, t + 1))) 10 1 (plainKinds 10) 1 0 Xor.X 4 Xor.labels Demo.est0 0 = some (.ok (), s) ∧
    fitNew (exact (fun t : ℚ => (t, t + 1))) 10 1 (plainKinds 10) (-1) 0 Xor.X 4 Xor.labels Demo.est0 0 = some (.ok (), s') ∧
    s.world.master.clauses <+: s'.world.master.clauses ∧
    hamming Xor.X.rows (encoded Xor.labels) 1 s'.world.master.explanation ≤ hamming Xor.X.rows (encoded Xor.labels) 1 s.world.master.explanation :=
  C114_rule_exact (Or.inl (by decide)) (Or.inl le_rfl) (by norm_num) (by norm_num) Xor.kinds_nonneg (Session.new 0) rfl (by decide +kernel) Demo.est0

end Verif.BDR
