import Verif.BDR.RefitProps
import Verif.BDR.Props
import Verif.Fit.Life

/-!
# Property C124: any sequence of calls of `fit` and `predict`

The calls may have any input, also one that is refused, and each may return or raise. Nothing is assumed about the solvers or the clock.
-/

set_option linter.unusedSectionVars false

namespace Verif.BDR

open MP Spec Fit.Spec

variable {Ω Raw RawX : Type}

/-- The calls of `fit` on a classifier that was constructed with `C`, `p` and the given subproblems. `check` is the validation of the input.
The hidden state of the solvers may change between the calls. -/
abbrev Life (o : Oracle Ω) (C p : ℚ) (kinds : List (List Kind)) (check : Raw → Except Err (Data × List ℤ)) :
    List (Fit.Rec Clause) → Fit.Est → World Ω → Prop :=
  Fit.Life check (fun w => ((o.clock w.ω).1, { w with ω := (o.clock w.ω).2 })) (fun X => env o X kinds) (fun w w' => ∃ ω, w' = { w with ω := ω })
    (fun w => w.master.explanation) (fun e w => e.isFitted = false ∧ ∃ ω, w = World.init C p kinds ω)

/-- `predict` with any input, `_bdr_classifier.py:691-703`. -/
def predictCall (checkA : RawX → Except Err (List (List ℚ))) (raw : RawX) (e : Fit.Est) (w : World Ω) : Except Err (List ℤ) :=
  Fit.predictRaw checkA (fun classes X => predict classes w.master.explanation X) raw e

/-- No rule before the program is generated. -/
def NoRule (w : World Ω) : Prop := w.master.generated = false → w.master.explanation = []

theorem generateMp_generated (m : Master) (X : Data) (y : List ℕ) : (m.generateMp X y).generated = true := by
  unfold Master.generateMp
  split
  · assumption
  · rfl

theorem addColumn_generated (m : Master) (k : Clause) : (m.addColumn k).2.generated = m.generated := by
  unfold Master.addColumn
  split
  · rfl
  · split
    · rfl
    · split
      · rfl
      · simp only
        split <;> rfl

theorem keeps_explanation (o : Oracle Ω) (X : Data) (kinds : List (List Kind)) :
    Fit.Keeps (env o X kinds) (fun w => w.master.explanation) NoRule where
  clock w h := ⟨h, rfl⟩
  clear w h := ⟨h, rfl⟩
  generateMp y w h := by
    refine ⟨?_, generateMp_explanation _ _ _⟩
    intro hg
    exact absurd (generateMp_generated w.master X y) (by rw [show (w.master.generateMp X y).generated = false from hg]; decide)
  solveRmp w h := ⟨h, rfl⟩
  improved w h := ⟨h, rfl⟩
  update l i d w h := ⟨h, rfl⟩
  generate l i d w h := by
    have hm : ((env o X kinds).generate l i d w).2.master = w.master := generateAt_explanation o X kinds l i d w
    refine ⟨?_, congrArg Master.explanation hm⟩
    unfold NoRule
    rw [hm]
    exact h
  add c w h := by
    refine ⟨?_, addColumn_explanation _ _⟩
    intro hg
    refine (addColumn_explanation _ _).trans (h ?_)
    exact (addColumn_generated w.master c).symm.trans hg
  solveIp w h := by
    suffices key : ∀ (m : Master) (f : Model → Answer), (m.generated = false → m.explanation = []) →
        ((m.solveIp f).2.generated = false → (m.solveIp f).2.explanation = []) ∧
          ((m.solveIp f).1 = .ok true ∨ ((∃ e, (m.solveIp f).1 = .error e) ∧ (m.solveIp f).2.explanation = [])) from
      key w.master (fun m => (o.ip m w.ω).1) h
    intro m f hm
    unfold Master.solveIp
    by_cases hg : m.generated = false
    · rw [if_pos hg]
      exact ⟨hm, Or.inr ⟨⟨_, rfl⟩, hm hg⟩⟩
    · rw [if_neg hg]
      simp only
      split
      · exact ⟨fun _ => rfl, Or.inr ⟨⟨_, rfl⟩, rfl⟩⟩
      · split
        · exact ⟨fun _ => rfl, Or.inr ⟨⟨_, rfl⟩, rfl⟩⟩
        · exact ⟨fun h => absurd h hg, Or.inl rfl⟩

variable {o : Oracle Ω} {C p : ℚ} {kinds : List (List Kind)} {check : Raw → Except Err (Data × List ℤ)} {h : List (Fit.Rec Clause)} {e : Fit.Est}
  {w : World Ω} {checkA : RawX → Except Err (List (List ℚ))} {raw : RawX}

/-- **C124.** After any sequence of calls of `fit`: `predict` raises the error of the validation of its input, if any; otherwise it raises
`NotFittedError` if and only if no `fit` has returned; otherwise it evaluates the rule of the last `fit` that returned (the empty rule, if a later
`fit` raised in `solve_ip`), and decodes it with the labels of the last `fit` with valid data. -/
theorem C124_predict (hl : Life o C p kinds check h e w) :
    (∀ er, checkA raw = .error er → predictCall checkA raw e w = .error er) ∧
      ∀ X, checkA raw = .ok X → (¬ EverFitted h → predictCall checkA raw e w = .error Fit.notFitted) ∧
        (EverFitted h → predictCall checkA raw e w =
          Sk.inverseTransform (Sk.uniqueLabels (lastLabels h)) (X.map (fun row => if Rule (lastRule h) row then 1 else 0))) := by
  have key := Fit.life_predict (fun X => keeps_explanation o X kinds) (fun w h => ⟨h, rfl⟩)
    (by rintro w w' ⟨ω, rfl⟩ h; exact ⟨h, rfl⟩) (by rintro e w ⟨h1, ω, rfl⟩; exact ⟨fun _ => rfl, rfl, h1⟩) hl checkA
    (fun K classes X => predict classes K X) raw
  refine ⟨key.1, fun X hX => ⟨(key.2 X hX).1, fun hf => ((key.2 X hX).2 hf).trans ?_⟩⟩
  unfold predict
  congr 1
  refine List.map_congr_left fun row _ => ?_
  rw [predictRow_eq]
  split <;> rfl

/-- **C124.** Calls of `fit` that are refused, or that raise before `solve_ip`, on data with the same set of labels as before, change no prediction. -/
theorem C124_failed_calls {t : List (Fit.Rec Clause)} {e' : Fit.Est} {w' : World Ω} (hl : Life o C p kinds check h e w)
    (hl' : Life o C p kinds check (h ++ t) e' w') (hf : EverFitted h) (ht : ∀ r ∈ t, r.result ≠ .ok () ∧ r.ip = false)
    (hy : ∀ r ∈ t, ∀ y, r.labels = some y → ∀ v, v ∈ y ↔ v ∈ lastLabels h) : predictCall checkA raw e' w' = predictCall checkA raw e w := by
  cases hX : checkA raw with
  | error er => rw [(C124_predict hl).1 er hX, (C124_predict hl').1 er hX]
  | ok X =>
    rw [((C124_predict hl).2 X hX).2 hf, ((C124_predict hl').2 X hX).2 (Fit.everFitted_append hf), Fit.lastRule_failed h t ht,
      Fit.uniqueLabels_ext (Fit.lastLabels_failed h t (fun _ => Iff.rfl) hy)]

/-- **C124.** If the last `fit` raised in `solve_ip`, on labels `y`, a classifier that was fitted before predicts the smallest of `y` for every row. -/
theorem C124_cleared {r : Fit.Rec Clause} {y : List ℤ} {m : ℤ} (hl : Life o C p kinds check (h ++ [r]) e w) (hf : EverFitted h)
    (hr : r.result ≠ .ok ()) (hip : r.ip = true) (hy : r.labels = some y) (hm : m ∈ y) (hmin : ∀ b ∈ y, m ≤ b) {X : List (List ℚ)}
    (hX : checkA raw = .ok X) : predictCall checkA raw e w = .ok (X.map (fun _ => m)) := by
  rw [((C124_predict hl).2 X hX).2 (Fit.everFitted_append hf), Fit.lastLabels_append, hy]
  have h0 : lastRule (h ++ [r]) = [] := by
    unfold lastRule
    rw [List.foldl_append, List.foldl_cons, List.foldl_nil]
    cases hres : r.result with
    | ok u => exact absurd hres hr
    | error er => simp [hip]
  rw [h0]
  refine Eq.trans ?_ (Fit.decode_zero hm hmin X)
  simp [Rule]

end Verif.BDR
