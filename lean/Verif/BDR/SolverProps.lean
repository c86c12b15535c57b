import Verif.BDR.FitProps
import Verif.Fit.Degraded
import Verif.Fit.Trace

/-!
# Property C123, rule classifiers: solvers that are not available

`pywraplp.Solver.CreateSolver(name)` returns `None` for a name that it does not know or whose solver is not available. The constructors of the
problems store it (`_col_gen_classifier.py:34`, `:113`) and do not look at it, so the first call of a method of the solver raises
`AttributeError`.
-/

namespace Verif.BDR

open MP Fit.Spec
open Verif.Fit (Ev)

variable {Ω : Type}

/-! ## The code without a solver -/

/-- `BDRSubProblem.generate_columns` with `self.solver_ = None`: the assertions on the duals come first (`_bdr_classifier.py:577-582`), then
`self.solver_.infinity()` (`:474`) or, if the model exists, `self.solver_.Objective()` (`:540`) raises. Simplification: that `X_` and `y_`
were stored is dropped; they are written again before they are read. -/
def generateNoMip (o : Oracle Ω) (X : Data) (kinds : List (List Kind)) (l i : ℕ) (d : ℚ × List ℚ) (w : World Ω) :
    Except Err (List Clause) × World Ω :=
  match kindAt kinds l i with
  | some (.exact _) =>
    if d.1 < 0 then generateAt o X kinds l i d w
    else if d.2.any (fun x => x < 0) then generateAt o X kinds l i d w
    else (.error .attributeError, w)
  | _ => generateAt o X kinds l i d w

/-- The plug-ins if the solver of the pricing problems is not available. -/
def envNoMip (o : Oracle Ω) (X : Data) (kinds : List (List Kind)) : Fit.Env (World Ω) (ℚ × List ℚ) Clause :=
  { env o X kinds with generate := generateNoMip o X kinds }

/-- `BDRMasterProblem.generate_mp` with `self.solver_ = None`, `_bdr_classifier.py:177-182`: `X_` and `y__` are stored, then
`self.solver_.infinity()` raises. -/
def generateMpNoLp (X : Data) (y : List ℕ) (w : World Ω) : Except Err Unit × World Ω :=
  if w.master.generated then (.ok (), { w with y := y })
  else (.error .attributeError, { w with
    master := { w.master with
      X := X
      y := y }
    y := y })

/-- The plug-ins if the solver of the master problem is not available. -/
def envNoLp (o : Oracle Ω) (X : Data) (kinds : List (List Kind)) : Fit.Env (World Ω) (ℚ × List ℚ) Clause :=
  { env o X kinds with generateMp := generateMpNoLp X }

/-! ## C123 -/

variable {o : Oracle Ω} {C p : ℚ} {kinds : List (List Kind)} {X : Data} {y : List ℤ} {maxIt : ℤ} {limit : ℚ} {fuel : ℕ} {e0 : Fit.Est} {ω : Ω}
  {w : World Ω}

theorem degraded_noMip (o : Oracle Ω) (X : Data) (kinds : List (List Kind)) : Fit.Degraded (env o X kinds) (envNoMip o X kinds) (· = .attributeError) where
  clock := rfl
  flag := rfl
  clear := rfl
  generateMp _ _ := Or.inl rfl
  solveRmp _ := Or.inl rfl
  improved _ := Or.inl rfl
  update _ _ _ _ := Or.inl rfl
  generate l i d w := by
    change Fit.SameOr _ (generateAt o X kinds l i d w) (generateNoMip o X kinds l i d w)
    unfold generateNoMip
    split
    · split
      · exact Or.inl rfl
      · split
        · exact Or.inl rfl
        · exact Or.inr ⟨_, w, rfl, rfl⟩
    · exact Or.inl rfl
  add _ _ := Or.inl rfl
  solveIp _ := Or.inl rfl

/-- **C123.** If the solver of the exact pricing problems is not available, `fit` does what it would do otherwise, or raises `AttributeError`;
whatever the data, the other solvers, the limits and the earlier calls. -/
theorem C123_same_or_raises (o : Oracle Ω) (X : Data) (kinds : List (List Kind)) (maxIt : ℤ) (limit : ℚ) (fuel : ℕ) (y : List ℤ) (e0 : Fit.Est)
    (w : World Ω) :
    Fit.fit (envNoMip o X kinds) (config kinds maxIt limit) fuel y e0 w = Fit.fit (env o X kinds) (config kinds maxIt limit) fuel y e0 w ∨
    ∃ s, Fit.fit (envNoMip o X kinds) (config kinds maxIt limit) fuel y e0 w = some (.error .attributeError, s) := by
  rcases Fit.fit_degraded (degraded_noMip o X kinds) (config kinds maxIt limit) fuel y e0 w with h | ⟨e, s, h, rfl⟩
  · exact Or.inl h
  · exact Or.inr ⟨s, h⟩

/-- The exact pricing problem raises. -/
theorem noMip_raises {l i : ℕ} {D : ℚ} (hk : kindAt kinds l i = some (.exact D)) (d : ℚ × List ℚ) (w : World Ω) :
    ∃ e, (generateNoMip o X kinds l i d w).1 = .error e := by
  unfold generateNoMip
  rw [hk]
  simp only
  have hg : d.1 < 0 ∨ (d.2.any fun x => x < 0) = true → (generateAt o X kinds l i d w).1 = .error .assertionError := by
    intro hd
    unfold generateAt
    rw [hk]
    simp only
    unfold Sub.generateColumns Sub.prepare
    rcases hd with hd | hd
    · rw [if_pos hd]
    · by_cases h1 : d.1 < 0
      · rw [if_pos h1]
      · rw [if_neg h1, if_pos hd]
  split
  · rename_i h1
    exact ⟨_, hg (Or.inl h1)⟩
  · split
    · rename_i h1
      exact ⟨_, hg (Or.inr h1)⟩
    · exact ⟨_, rfl⟩

/-- The results of the exact pricing problems in the trace. -/
theorem noMip_trace {r} (hr : Fit.fit (envNoMip o X kinds) (config kinds maxIt limit) fuel y e0 w = some r) {l i : ℕ} {D : ℚ}
    (hk : kindAt kinds l i = some (.exact D)) : ∀ d res, Ev.generate l i d res ∈ r.2.trace → ∃ e, res = .error e := by
  have hJ : Fit.Preserved (envNoMip o X kinds) (fun _ tr => ∀ d res, Ev.generate l i d res ∈ tr → ∃ e, res = .error e) := by
    have other : ∀ {tr : List (Ev (ℚ × List ℚ) Clause)} {ev}, (∀ d res, Ev.generate l i d res ∈ tr → ∃ e, res = .error e) →
        (∀ d res, ev ≠ Ev.generate l i d res) → ∀ d res, Ev.generate l i d res ∈ tr ++ [ev] → ∃ e, res = .error e := by
      intro tr ev h hne d res hm
      rcases List.mem_append.1 hm with hm | hm
      · exact h d res hm
      · exact absurd (List.mem_singleton.1 hm).symm (hne d res)
    constructor
    · exact fun _ _ h => h
    · exact fun _ _ _ h => other h (by intros; simp)
    · exact fun _ _ _ _ h => other h (by intros; simp)
    · exact fun _ _ h => other h (by intros; simp)
    · exact fun _ _ h => h
    · exact fun _ _ _ h => other h (by intros; simp)
    · exact fun _ _ h => other h (by intros; simp)
    · exact fun _ _ h => other h (by intros; simp)
    · exact fun _ _ _ _ _ h => other h (by intros; simp)
    · intro w tr l' i' d' h d res hm
      rcases List.mem_append.1 hm with hm | hm
      · exact h d res hm
      · have hm := List.mem_singleton.1 hm
        simp only [Ev.generate.injEq] at hm
        obtain ⟨rfl, rfl, rfl, rfl⟩ := hm
        exact noMip_raises hk d w
    · exact fun _ _ _ _ _ h => other h (by intros; simp)
    · exact fun _ _ h => other h (by intros; simp)
  exact hJ.fit _ _ _ _ _ (by intro d res hm; cases hm) _ hr

/-- **C123.** Then no call of `fit` ends with `mp_optimal_`. -/
theorem C123_never_certified (hex : ∃ l i D, kindAt kinds l i = some (.exact D)) {u : Unit} {s}
    (hr : Fit.fit (envNoMip o X kinds) (config kinds maxIt limit) fuel y e0 w = some (.ok u, s)) : s.est.mpOptimal = false := by
  obtain ⟨l, i, D, hk⟩ := hex
  by_contra hne
  have ho : s.est.mpOptimal = true := by simpa using hne
  obtain ⟨-, -, -, hall⟩ := Fit.C03_mp_optimal hr ho
  obtain ⟨row, hrow, hi⟩ : ∃ row, kinds[l]? = some row ∧ row[i]? = some (.exact D) := by
    unfold kindAt at hk
    exact Option.bind_eq_some_iff.1 hk
  obtain ⟨d, res, hm⟩ := hall l row.length i (by simp [config, hrow]) (List.getElem?_eq_some_iff.1 hi).1
  have hm' : Ev.generate l i d res ∈ s.trace := Fit.since_subset _ _ _ hm
  obtain ⟨e, rfl⟩ := noMip_trace hr hk d res hm'
  have := (Fit.C64_propagates hr hm' rfl).1
  cases this

/-- **C123.** If all pricing problems need the missing solver, as those of `BooleanDecisionRuleClassifier` do, `fit` can only return because of the time limit. -/
theorem C123_plain_time_limit (hex : ∃ l i D, kindAt kinds l i = some (.exact D)) (hall : ∀ l i k, kindAt kinds l i = some k → ∃ D, k = .exact D)
    {u : Unit} {s} (hr : Fit.fit (envNoMip o X kinds) (config kinds maxIt limit) fuel y e0 w = some (.ok u, s)) :
    s.est.timeLimitReached = true ∧ 0 < limit := by
  have hno := C123_never_certified hex hr
  have hgen : ∀ l i d cols, Ev.generate l i d (.ok cols) ∉ s.trace := by
    intro l i d cols hm
    obtain ⟨pre, post, htr⟩ := List.append_of_mem hm
    have hp := (Fit.fit_protocol hr pre _ post htr).2.2.1
    have hpos : (l, i) ∈ allPositions (config kinds maxIt limit).shape := hp.subset (by simp)
    obtain ⟨n, h1, h2⟩ := ((Fit.C12_positions _).1 l i).1 hpos
    have ⟨row, hrow, hn⟩ : ∃ row, kinds[l]? = some row ∧ row.length = n := by simpa [config] using h1
    have hk : kindAt kinds l i = some (row[i]'(by omega)) := by
      unfold kindAt
      rw [hrow]
      exact List.getElem?_eq_getElem _
    obtain ⟨D, hD⟩ := hall l i _ hk
    obtain ⟨e, he⟩ := noMip_trace hr (hk.trans (congrArg some hD)) d _ hm
    cases he
  have hrej : AllRejected (round s.trace) := by
    intro l i c r hm
    obtain ⟨pre, post, htr⟩ := List.append_of_mem (Fit.since_subset _ _ _ hm)
    obtain ⟨⟨cols, h1, -⟩, -⟩ := Fit.fit_protocol hr pre _ post htr
    obtain ⟨d, hd⟩ := Fit.mem_of_genRes h1
    exact absurd (by rw [htr]; exact List.mem_append_left _ (Fit.since_subset _ _ _ hd)) (hgen l i d cols)
  have hover : Over (config kinds maxIt limit) s.trace := by
    by_contra h
    rw [Fit.C03_converse hr hrej h] at hno
    cases hno
  obtain ⟨a, b, hm, h1, h2⟩ := hover
  obtain ⟨pre, post, htr⟩ := List.append_of_mem hm
  exact ⟨(Fit.C08_time_limit hr).1.2 ⟨pre, a, b, post, htr, (Fit.fit_protocol hr pre _ post htr).1, h1, h2⟩, h1⟩

/-- **C123.** Without limits, on labels of two classes and with other solvers that meet their contract, every first `fit` raises
`AttributeError` and leaves the classifier unfitted. -/
theorem C123_raises (hex : ∃ l i D, kindAt kinds l i = some (.exact D)) (hm : maxIt ≤ 0) (ht : limit ≤ 0) (hl : y.length = X.rows.length)
    (h2 : (Sk.uniqueLabels y).length = 2) (hc : Contract o C p kinds X (encoded y)) :
    ∃ s, Fit.fit (envNoMip o X kinds) (config kinds maxIt limit) (2 ^ X.nFeat) y e0 (World.init C p kinds ω) = some (.error .attributeError, s) ∧
      s.est.isFitted = e0.isFitted := by
  rcases C123_same_or_raises o X kinds maxIt limit (2 ^ X.nFeat) y e0 (World.init C p kinds ω) with h | ⟨s, h⟩
  · obtain ⟨s, hs, -⟩ := C66_fit_returns o C p kinds maxIt limit X y e0 ω hl h2 hc
    have hs : Fit.fit (env o X kinds) (config kinds maxIt limit) (2 ^ X.nFeat) y e0 (World.init C p kinds ω) = some (.ok (), s) := hs
    rw [hs] at h
    have h1 := C123_never_certified hex h
    rcases (Fit.C01_iteration_limit h).2.2 hm with h3 | h3
    · rw [h3] at h1; cases h1
    · rw [(Fit.C08_time_limit h).2 ht] at h3; cases h3
  · exact ⟨s, h, (Fit.C10_raises h).1⟩

/-- **C123.** The same for `BooleanDecisionRuleClassifier`, with any iteration limit. -/
theorem C123_plain_raises {D : ℚ} (ht : limit ≤ 0) (hl : y.length = X.rows.length) (h2 : (Sk.uniqueLabels y).length = 2)
    (hc : Contract o C p (plainKinds D) X (encoded y)) :
    ∃ s, Fit.fit (envNoMip o X (plainKinds D)) (config (plainKinds D) maxIt limit) (2 ^ X.nFeat) y e0 (World.init C p (plainKinds D) ω) =
      some (.error .attributeError, s) ∧ s.est.isFitted = e0.isFitted := by
  rcases C123_same_or_raises o X (plainKinds D) maxIt limit (2 ^ X.nFeat) y e0 (World.init C p (plainKinds D) ω) with h | ⟨s, h⟩
  · obtain ⟨s, hs, -⟩ := C66_fit_returns o C p (plainKinds D) maxIt limit X y e0 ω hl h2 hc
    have hs : Fit.fit (env o X (plainKinds D)) (config (plainKinds D) maxIt limit) (2 ^ X.nFeat) y e0 (World.init C p (plainKinds D) ω) =
      some (.ok (), s) := hs
    rw [hs] at h
    have h1 := (C123_plain_time_limit ⟨0, 0, D, rfl⟩ (by
      intro l i k hk
      unfold kindAt plainKinds at hk
      match l, i with
      | 0, 0 => exact ⟨D, by simpa using hk.symm⟩
      | 0, i + 1 => simp at hk
      | l + 1, i => simp at hk) h).2
    linarith
  · exact ⟨s, h, (Fit.C10_raises h).1⟩

/-- **C123.** If the solver of the master problem is not available, the first `fit` raises `AttributeError` whatever the data with at least two
classes: the master problem is asked for its model, no other plug-in is asked for anything, and the classifier stays unfitted. The model is
still not generated, so the same holds for every later call, with any data. -/
theorem C123_no_lp (o : Oracle Ω) (X : Data) (kinds : List (List Kind)) (maxIt : ℤ) (limit : ℚ) (fuel : ℕ) (y : List ℤ) (e0 : Fit.Est) (w : World Ω)
    (hg : w.master.generated = false) (h2 : ∃ a ∈ y, ∃ b ∈ y, a ≠ b) :
    ∃ s t, Fit.fit (envNoLp o X kinds) (config kinds maxIt limit) fuel y e0 w = some (.error .attributeError, s) ∧
      s.trace = [.timer t, .generateMp (encoded y) (.error .attributeError)] ∧ s.est.isFitted = e0.isFitted ∧ s.world.master.generated = false := by
  have hg' : ((envNoLp o X kinds).clock w).2.master.generated = false := hg
  have h : ∃ w', (envNoLp o X kinds).generateMp (encoded y) ((envNoLp o X kinds).clock w).2 = (.error .attributeError, w') ∧
      w'.master.generated = false := by
    change ∃ w', generateMpNoLp X (encoded y) ((envNoLp o X kinds).clock w).2 = (.error .attributeError, w') ∧ w'.master.generated = false
    unfold generateMpNoLp
    rw [hg']
    exact ⟨_, rfl, hg'⟩
  obtain ⟨w', h1, h3⟩ := h
  obtain ⟨est, h4, h5⟩ := Fit.fit_mp_raises (config kinds maxIt limit) fuel e0 h2 h1
  exact ⟨_, _, h4, rfl, h5, h3⟩

/-- Any number of `fit` calls, each with its own data and limits, on a classifier whose master problem has no solver. -/
inductive Tries (o : Oracle Ω) (C p : ℚ) (kinds : List (List Kind)) : World Ω → Prop
  | new (ω : Ω) : Tries o C p kinds (World.init C p kinds ω)
  | fit {w : World Ω} (h : Tries o C p kinds w) (X : Data) (y : List ℤ) (maxIt : ℤ) (limit : ℚ) (fuel : ℕ) (e0 : Fit.Est)
      {r : Except Err Unit × Fit.St (World Ω) (ℚ × List ℚ) Clause}
      (hr : Fit.fit (envNoLp o X kinds) (config kinds maxIt limit) fuel y e0 w = some r) : Tries o C p kinds r.2.world

theorem tries_generated (h : Tries o C p kinds w) : w.master.generated = false := by
  induction h with
  | new ω => rfl
  | fit h X y maxIt limit fuel e0 hr ih =>
    rename_i w r
    by_cases h2 : ∃ a ∈ y, ∃ b ∈ y, a ≠ b
    · obtain ⟨s, t, h3, -, -, h4⟩ := C123_no_lp o X kinds maxIt limit fuel y e0 w ih h2
      rw [h3] at hr
      cases hr
      exact h4
    · push Not at h2
      obtain ⟨s, h3, -, h4, -⟩ := (Fit.C09_single_class (envNoLp o X kinds) (config kinds maxIt limit) fuel y e0 w).1 h2
      rw [h3] at hr
      cases hr
      rw [h4]
      exact ih

/-- **C123.** After any number of attempts the next one raises, too: `ValueError` if there is only one class, otherwise `AttributeError`. -/
theorem C123_no_lp_session (h : Tries o C p kinds w) (X : Data) (y : List ℤ) (maxIt : ℤ) (limit : ℚ) (fuel : ℕ) (e0 : Fit.Est) :
    ∃ s, Fit.fit (envNoLp o X kinds) (config kinds maxIt limit) fuel y e0 w =
        some (.error (if ∀ a ∈ y, ∀ b ∈ y, a = b then .valueError else .attributeError), s) ∧ s.est.isFitted = e0.isFitted := by
  by_cases h2 : ∀ a ∈ y, ∀ b ∈ y, a = b
  · rw [if_pos h2]
    obtain ⟨s, h3, -, -, h4⟩ := (Fit.C09_single_class (envNoLp o X kinds) (config kinds maxIt limit) fuel y e0 w).1 h2
    exact ⟨s, h3, h4⟩
  · rw [if_neg h2]
    push Not at h2
    obtain ⟨s, t, h3, -, h4, -⟩ := C123_no_lp o X kinds maxIt limit fuel y e0 w (tries_generated h) h2
    exact ⟨s, h3, h4⟩

end Verif.BDR
