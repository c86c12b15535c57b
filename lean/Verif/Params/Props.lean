import Verif.Params.Model
import Verif.BDR.FitProps

/-!
# C106: `get_params`, `set_params` and `clone` on the classifiers
-/

set_option linter.unusedSimpArgs false
set_option linter.unusedSectionVars false

namespace Verif.Params

open BDR

variable {Ω : Type}

/-! ## Helper lemmas -/

theorem getParams_ok {names : List String} {a : Attrs} {f : String → Ref} (h : ∀ n ∈ names, a n = some (f n)) :
    getParams names a = .ok (names.map fun n => (n, f n)) := by
  induction names with
  | nil => rfl
  | cons n ns ih =>
    have h1 := h n (by simp)
    have h2 := ih (fun m hm => h m (by simp [hm]))
    unfold getParams at h2 ⊢
    rw [List.mapM_cons, h1, h2]
    rfl

theorem getParams_missing {names : List String} {a : Attrs} {n : String} (hn : n ∈ names) (h : a n = none) :
    getParams names a = .error .attributeError := by
  induction names with
  | nil => cases hn
  | cons m ns ih =>
    unfold getParams at ih ⊢
    rw [List.mapM_cons]
    rcases hm : a m with _ | r
    · rfl
    · rcases List.mem_cons.1 hn with rfl | hn'
      · rw [h] at hm
        cases hm
      · rw [ih hn']
        rfl

theorem lookup_map {names : List String} {f : String → Ref} {n : String} (hn : n ∈ names) :
    (names.map fun m => (m, f m)).lookup n = some (f n) := by
  induction names with
  | nil => cases hn
  | cons m ms ih =>
    rw [List.map_cons, List.lookup_cons]
    by_cases hm : n = m
    · subst hm
      simp
    · have : (n == m) = false := by simp [hm]
      rw [this]
      exact ih ((List.mem_cons.1 hn).resolve_left hm)

/-- Every parameter has an attribute. -/
def Full (names : List String) (a : Attrs) : Prop := ∀ n ∈ names, ∃ r, a n = some r

theorem full_get {names : List String} {a : Attrs} (h : Full names a) :
    ∃ f : String → Ref, (∀ n ∈ names, a n = some (f n)) ∧ getParams names a = .ok (names.map fun n => (n, f n)) := by
  refine ⟨fun n => (a n).getD ⟨0, .none⟩, ?_, ?_⟩
  · intro n hn
    obtain ⟨r, hr⟩ := h n hn
    simp [hr]
  · apply getParams_ok
    intro n hn
    obtain ⟨r, hr⟩ := h n hn
    simp [hr]

theorem full_setAttr {names : List String} {a : Attrs} (h : Full names a) (n : String) (r : Ref) : Full names (setAttr a n r) := by
  intro m hm
  by_cases e : m = n
  · subst e
    exact ⟨r, by simp [setAttr]⟩
  · obtain ⟨s, hs⟩ := h m hm
    exact ⟨s, by simp [setAttr, Function.update_of_ne e, hs]⟩

theorem full_setLoop {names : List String} : ∀ (ps : List (String × Ref)) {a : Attrs}, Full names a → Full names (setLoop names ps a).2
  | [], _, h => h
  | (n, r) :: ps, a, h => by
    unfold setLoop
    by_cases hn : n ∈ names
    · rw [if_pos hn]
      exact full_setLoop ps (full_setAttr h n r)
    · rw [if_neg hn]
      exact h

theorem full_setParams {names : List String} (ps : List (String × Ref)) {a : Attrs} (h : Full names a) :
    Full names (setParams names ps a).2 := by
  unfold setParams
  by_cases hp : ps = []
  · rw [if_pos hp]
    exact h
  · rw [if_neg hp]
    obtain ⟨f, -, hf⟩ := full_get h
    rw [hf]
    exact full_setLoop ps h

/-- Names that are not set keep their value. -/
theorem setLoop_other {names : List String} {n : String} : ∀ (ps : List (String × Ref)) {a : Attrs}, n ∉ ps.map (·.1) →
    (setLoop names ps a).2 n = a n
  | [], _, _ => rfl
  | (m, r) :: ps, a, h => by
    simp only [List.map_cons, List.mem_cons, not_or] at h
    unfold setLoop
    by_cases hm : m ∈ names
    · rw [if_pos hm, setLoop_other ps h.2]
      simp [setAttr, Function.update_of_ne h.1]
    · rw [if_neg hm]

theorem setParams_other {names : List String} {n : String} (ps : List (String × Ref)) {a : Attrs} (h : n ∉ ps.map (·.1)) :
    (setParams names ps a).2 n = a n := by
  unfold setParams
  by_cases hp : ps = []
  · rw [if_pos hp]
  · rw [if_neg hp]
    rcases getParams names a with e | v
    · rfl
    · exact setLoop_other ps h

theorem ruleAttrs_eq (args : String → Ref) : ∀ n ∈ ruleNames, ruleAttrs args n = some (args n) := by
  intro n hn
  simp only [ruleNames, List.mem_cons, List.not_mem_nil, or_false] at hn
  rcases hn with rfl | rfl | rfl | rfl | rfl | rfl | rfl | rfl <;> simp [ruleAttrs, baseAttrs]

theorem new_ok {heur : Bool} {ω : Ω} {e0 : Fit.Est} {args : String → Ref} {r : Rule Ω} (h : Rule.new heur ω e0 args = .ok r) :
    r = ⟨ruleAttrs args, kindsOf heur (args "C").val.toRat,
        World.init (args "C").val.toRat (args "p").val.toRat (kindsOf heur (args "C").val.toRat) ω, e0⟩ ∧
      (args "subproblem_params").val.toTexts.map List.length = (kindsOf heur (args "C").val.toRat).map List.length := by
  unfold Rule.new at h
  by_cases hc : (args "subproblem_params").val.toTexts.map List.length = (kindsOf heur (args "C").val.toRat).map List.length
  · have := (if_pos hc).symm.trans h
    cases this
    exact ⟨rfl, hc⟩
  · have := (if_neg hc).symm.trans h
    cases this

theorem fit_attrs {o : Oracle Ω} {X : Data} {fuel : ℕ} {y : List ℤ} {r r' : Rule Ω} {res} (h : r.fit o X fuel y = some (res, r')) :
    r'.attrs = r.attrs ∧ r'.kinds = r.kinds := by
  unfold Rule.fit at h
  split at h
  · cases h
  · cases h
    exact ⟨rfl, rfl⟩

theorem step_attrs (r : Rule Ω) (o : Oracle Ω) (X : Data) (fuel : ℕ) (y : List ℤ) : (r.step (.fit o X fuel y)).attrs = r.attrs := by
  simp only [Rule.step]
  rcases h : r.fit o X fuel y with _ | ⟨res, r'⟩
  · rfl
  · exact (fit_attrs h).1

theorem reached_full {heur : Bool} {ω : Ω} {e0 : Fit.Est} {args : String → Ref} {r0 : Rule Ω} (h0 : Rule.new heur ω e0 args = .ok r0)
    (calls : List (Call Ω)) : Full ruleNames (calls.foldl Rule.step r0).attrs := by
  have base : Full ruleNames r0.attrs := by
    rw [(new_ok h0).1]
    exact fun n hn => ⟨_, ruleAttrs_eq args n hn⟩
  clear h0
  induction calls generalizing r0 with
  | nil => exact base
  | cons c cs ih =>
    rw [List.foldl_cons]
    apply ih
    cases c with
    | set ps => exact full_setParams ps base
    | fit o X fuel y =>
      rw [step_attrs]
      exact base

theorem ruleEnv_generate (o : Oracle Ω) (X : Data) (kinds : List (List Kind)) (params : List (List String))
    (h : params.map List.length = kinds.map List.length) (l i : ℕ) (d : ℚ × List ℚ) (w : World Ω) :
    (ruleEnv o X kinds params).generate l i d w = (env o X kinds).generate l i d w := by
  change (match (params[l]?).bind (fun row => row[i]?) with
      | none => (.error .indexError, w)
      | some _ => generateAt o X kinds l i d w) = generateAt o X kinds l i d w
  rcases hp : (params[l]?).bind (fun row => row[i]?) with _ | t
  · have hk : kindAt kinds l i = none := by
      have hl := congrArg (fun m : List ℕ => m[l]?) h
      simp only [List.getElem?_map] at hl
      unfold kindAt
      rcases h1 : kinds[l]? with _ | row
      · rfl
      · rw [h1] at hl
        rcases h2 : params[l]? with _ | prow
        · rw [h2] at hl
          cases hl
        · rw [h2] at hl hp
          simp only [Option.map_some, Option.some.injEq] at hl
          simp only [Option.bind_some] at hp ⊢
          rw [List.getElem?_eq_none_iff] at hp ⊢
          omega
    simp only [generateAt, hk]
  · rfl

/-- Parameters of the right shape are never missed. -/
theorem ruleEnv_eq (o : Oracle Ω) (X : Data) (kinds : List (List Kind)) (params : List (List String))
    (h : params.map List.length = kinds.map List.length) : ruleEnv o X kinds params = env o X kinds := by
  have key : (ruleEnv o X kinds params).generate = (env o X kinds).generate := by
    funext l i d w
    exact ruleEnv_generate o X kinds params h l i d w
  have e : ruleEnv o X kinds params = { env o X kinds with generate := (ruleEnv o X kinds params).generate } := rfl
  rw [e, key]

/-! ## The rule classifiers -/

/-- C106: `get_params` of a new rule classifier returns the arguments of the constructor. -/
theorem C106_get_params {heur : Bool} {ω : Ω} {e0 : Fit.Est} {args : String → Ref} {r : Rule Ω} (h : Rule.new heur ω e0 args = .ok r) :
    getParams ruleNames r.attrs = .ok (ruleNames.map fun n => (n, args n)) := by
  rw [(new_ok h).1]
  exact getParams_ok (ruleAttrs_eq args)

/-- C106: after any calls, `get_params` succeeds, and `set_params` with known names succeeds and is seen by `get_params`; other parameters are
unchanged. -/
theorem C106_set_params {heur : Bool} {ω : Ω} {e0 : Fit.Est} {args : String → Ref} {r0 : Rule Ω} (h0 : Rule.new heur ω e0 args = .ok r0)
    (calls : List (Call Ω)) (n : String) (v : Ref) (hn : n ∈ ruleNames) :
    ∃ f : String → Ref, getParams ruleNames (calls.foldl Rule.step r0).attrs = .ok (ruleNames.map fun m => (m, f m)) ∧
      ((calls.foldl Rule.step r0).set [(n, v)]).1 = .ok () ∧
      getParams ruleNames ((calls.foldl Rule.step r0).set [(n, v)]).2.attrs = .ok (ruleNames.map fun m => (m, if m = n then v else f m)) := by
  obtain ⟨f, hf, hg⟩ := full_get (reached_full h0 calls)
  generalize calls.foldl Rule.step r0 = r at hf hg
  have hs : setParams ruleNames [(n, v)] r.attrs = (.ok (), setAttr r.attrs n v) := by
    unfold setParams
    rw [if_neg (by simp), hg]
    simp only [setLoop, if_pos hn]
  refine ⟨f, hg, ?_, ?_⟩
  · simp only [Rule.set, hs]
  · simp only [Rule.set, hs]
    apply getParams_ok
    intro m hm
    by_cases e : m = n
    · subst e
      simp [setAttr]
    · simp [setAttr, Function.update_of_ne e, e, hf m hm]

/-- C106: an unknown name raises `ValueError`. -/
theorem C106_unknown_name {heur : Bool} {ω : Ω} {e0 : Fit.Est} {args : String → Ref} {r0 : Rule Ω} (h0 : Rule.new heur ω e0 args = .ok r0)
    (calls : List (Call Ω)) (n : String) (v : Ref) (hn : n ∉ ruleNames) :
    (calls.foldl Rule.step r0).set [(n, v)] = (.error .valueError, calls.foldl Rule.step r0) := by
  obtain ⟨f, -, hg⟩ := full_get (reached_full h0 calls)
  have hs : setParams ruleNames [(n, v)] (calls.foldl Rule.step r0).attrs = (.error .valueError, (calls.foldl Rule.step r0).attrs) := by
    unfold setParams
    rw [if_neg (by simp), hg]
    simp only [setLoop, if_neg hn]
  simp only [Rule.set, hs]

/-- C106: `clone` after any calls. If `subproblem_params` still has the shape of the pricing problems, it returns a new object constructed with
copies of the current parameters; otherwise the constructor refuses them. The state of training is not copied. -/
theorem C106_clone {heur : Bool} {ω ω' : Ω} {e0 e0' : Fit.Est} {args : String → Ref} {r0 : Rule Ω} (h0 : Rule.new heur ω e0 args = .ok r0)
    (calls : List (Call Ω)) (copy : Ref → Ref) (hc : ∀ r, (copy r).val = r.val) :
    ∃ f : String → Ref, getParams ruleNames (calls.foldl Rule.step r0).attrs = .ok (ruleNames.map fun n => (n, f n)) ∧
      ((f "subproblem_params").val.toTexts.map List.length = (kindsOf heur 0).map List.length →
        ∃ r, clone (ruleCls heur ω' e0') copy (calls.foldl Rule.step r0) = .ok r ∧
          getParams ruleNames r.attrs = .ok (ruleNames.map fun n => (n, copy (f n))) ∧
          r.kinds = kindsOf heur (f "C").val.toRat ∧
          r.world = World.init (f "C").val.toRat (f "p").val.toRat (kindsOf heur (f "C").val.toRat) ω' ∧ r.est = e0') ∧
      ((f "subproblem_params").val.toTexts.map List.length ≠ (kindsOf heur 0).map List.length →
        clone (ruleCls heur ω' e0') copy (calls.foldl Rule.step r0) = .error (.raised .assertionError)) := by
  obtain ⟨f, hf, hg⟩ := full_get (reached_full h0 calls)
  generalize calls.foldl Rule.step r0 = r at hf hg
  have hshape : ∀ C : ℚ, (kindsOf heur C).map List.length = (kindsOf heur 0).map List.length := by
    intro C
    cases heur <;> rfl
  have hcop : ∀ n ∈ ruleNames, copied copy (ruleNames.map fun n => (n, f n)) n = copy (f n) := by
    intro n hn
    simp [copied, lookup_map hn]
  have hC := hcop "C" (by simp [ruleNames])
  have hp := hcop "p" (by simp [ruleNames])
  have hsp := hcop "subproblem_params" (by simp [ruleNames])
  refine ⟨f, hg, ?_, ?_⟩
  · intro hs
    set args' := copied copy (ruleNames.map fun n => (n, f n)) with hargs
    have hnew : Rule.new heur ω' e0' args' = .ok ⟨ruleAttrs args', kindsOf heur (args' "C").val.toRat,
        World.init (args' "C").val.toRat (args' "p").val.toRat (kindsOf heur (args' "C").val.toRat) ω', e0'⟩ := by
      unfold Rule.new
      exact if_pos (by rw [hsp, hc, hs]; exact (hshape _).symm)
    have hget := C106_get_params hnew
    refine ⟨⟨ruleAttrs args', kindsOf heur (args' "C").val.toRat,
        World.init (args' "C").val.toRat (args' "p").val.toRat (kindsOf heur (args' "C").val.toRat) ω', e0'⟩, ?_, ?_, ?_, ?_, rfl⟩
    · unfold clone
      have e1 : getParams (ruleCls heur ω' e0').names ((ruleCls heur ω' e0').attrs r) = .ok (ruleNames.map fun n => (n, f n)) := hg
      rw [e1]
      have e2 : (ruleCls heur ω' e0').init (copied copy (ruleNames.map fun n => (n, f n))) = Rule.new heur ω' e0' args' := rfl
      simp only [e2, hnew]
      have e3 : getParams (ruleCls heur ω' e0').names ((ruleCls heur ω' e0').attrs ⟨ruleAttrs args', kindsOf heur (args' "C").val.toRat,
        World.init (args' "C").val.toRat (args' "p").val.toRat (kindsOf heur (args' "C").val.toRat) ω', e0'⟩) =
          .ok (ruleNames.map fun n => (n, args' n)) := hget
      rw [e3]
      refine if_pos ?_
      rw [List.all_eq_true]
      intro n hn
      have hn' : n ∈ ruleNames := hn
      simp only [decide_eq_true_eq]
      rw [lookup_map hn']
    · rw [hget]
      exact congrArg Except.ok (List.map_congr_left fun n hn => by rw [hcop n hn])
    · simp only
      rw [hC, hc]
    · simp only
      rw [hC, hp, hc, hc]
  · intro hs
    unfold clone
    have e1 : getParams (ruleCls heur ω' e0').names ((ruleCls heur ω' e0').attrs r) = .ok (ruleNames.map fun n => (n, f n)) := hg
    rw [e1]
    have e2 : (ruleCls heur ω' e0').init (copied copy (ruleNames.map fun n => (n, f n))) = .error .assertionError := by
      change Rule.new heur ω' e0' _ = _
      unfold Rule.new
      exact if_neg (by rw [hsp, hc, hshape]; exact hs)
    simp only [e2]

/-- C106: a new rule classifier trains as the model of `fit` with its arguments says. -/
theorem C106_fit_new {heur : Bool} {ω : Ω} {e0 : Fit.Est} {args : String → Ref} {r : Rule Ω} (h : Rule.new heur ω e0 args = .ok r)
    (o : Oracle Ω) (X : Data) (fuel : ℕ) (y : List ℤ) :
    r.fit o X fuel y = (fitNew o (args "C").val.toRat (args "p").val.toRat (kindsOf heur (args "C").val.toRat) (args "max_iterations").val.toInt
      (-1) X fuel y e0 ω).map (fun q => (q.1, { r with
        world := q.2.world
        est := q.2.est })) := by
  obtain ⟨hr, hs⟩ := new_ok h
  have h1 : val r.attrs "subproblem_params" = (args "subproblem_params").val := by
    rw [hr]
    simp [val, ruleAttrs, baseAttrs]
  have h2 : val r.attrs "max_iterations" = (args "max_iterations").val := by
    rw [hr]
    simp [val, ruleAttrs, baseAttrs]
  have h3 : (val r.attrs "time_limit").toRat = -1 := by
    rw [hr]
    simp [val, ruleAttrs, baseAttrs, Val.toRat]
  have h4 : r.kinds = kindsOf heur (args "C").val.toRat := by rw [hr]
  have h5 : r.world = World.init (args "C").val.toRat (args "p").val.toRat (kindsOf heur (args "C").val.toRat) ω := by rw [hr]
  have h6 : r.est = e0 := by rw [hr]
  unfold Rule.fit fitNew
  rw [h1, h2, h3, h4, h5, h6, ruleEnv_eq _ _ _ _ hs]
  generalize Fit.fit (env o X (kindsOf heur (args "C").val.toRat)) _ fuel y e0 _ = q
  rcases q with _ | ⟨res, s⟩ <;> rfl

/-- The parameters that `fit` does not read. -/
def unread : List String := ["C", "p", "rmp_solver_params", "rmp_solver", "master_ip_solver_params", "subproblem_solver"]

/-- C106, refutation in general form: setting `C`, `p` or a solver parameter has no influence on any later `fit`. -/
theorem C106_unread_ignored (r : Rule Ω) (ps : List (String × Ref)) (hps : ∀ q ∈ ps, q.1 ∈ unread) (o : Oracle Ω) (X : Data) (fuel : ℕ)
    (y : List ℤ) :
    (r.set ps).2.fit o X fuel y = (r.fit o X fuel y).map (fun q => (q.1, { q.2 with attrs := (r.set ps).2.attrs })) := by
  have hne : ∀ n, n ∉ unread → (setParams ruleNames ps r.attrs).2 n = r.attrs n := by
    intro n hn
    apply setParams_other
    intro hm
    obtain ⟨q, hq, rfl⟩ := List.mem_map.1 hm
    exact hn (hps q hq)
  have h1 : val (r.set ps).2.attrs "subproblem_params" = val r.attrs "subproblem_params" := by
    simp only [val, Rule.set]
    rw [hne _ (by decide)]
  have h2 : val (r.set ps).2.attrs "max_iterations" = val r.attrs "max_iterations" := by
    simp only [val, Rule.set]
    rw [hne _ (by decide)]
  have h3 : val (r.set ps).2.attrs "time_limit" = val r.attrs "time_limit" := by
    simp only [val, Rule.set]
    rw [hne _ (by decide)]
  unfold Rule.fit
  rw [h1, h2, h3]
  have h4 : (r.set ps).2.kinds = r.kinds := rfl
  have h5 : (r.set ps).2.est = r.est := rfl
  have h6 : (r.set ps).2.world = r.world := rfl
  rw [h4, h5, h6]
  generalize Fit.fit (ruleEnv o X r.kinds _) _ fuel y r.est r.world = q
  rcases q with _ | ⟨res, s⟩ <;> rfl

/-- C106, refutation for parameter searches: a search clones the classifier, sets the candidate values and fits (`GridSearchCV`). All candidates
for `C`, `p` and the solver parameters give the same classifier: same exception or same rule and same predictions. -/
theorem C106_search_blind (r : Rule Ω) (ps ps' : List (String × Ref)) (hps : ∀ q ∈ ps, q.1 ∈ unread) (hps' : ∀ q ∈ ps', q.1 ∈ unread)
    (o : Oracle Ω) (X : Data) (fuel : ℕ) (y : List ℤ) (XT : List (List ℚ)) :
    ((r.set ps).2.fit o X fuel y).map (fun q => (q.1, q.2.world.master.explanation, q.2.predict XT)) =
      ((r.set ps').2.fit o X fuel y).map (fun q => (q.1, q.2.world.master.explanation, q.2.predict XT)) := by
  rw [C106_unread_ignored r ps hps, C106_unread_ignored r ps' hps', Option.map_map, Option.map_map]
  rfl

/-- C106: `max_iterations` can be set: the next `fit` respects the new limit. -/
theorem C106_max_iterations {heur : Bool} {ω : Ω} {e0 : Fit.Est} {args : String → Ref} {r0 : Rule Ω} (h0 : Rule.new heur ω e0 args = .ok r0)
    (calls : List (Call Ω)) (addr : ℕ) (k : ℤ) (hk : 0 < k) {o : Oracle Ω} {X : Data} {fuel : ℕ} {y : List ℤ} {r' : Rule Ω} {u : Unit}
    (hf : ((calls.foldl Rule.step r0).set [("max_iterations", ⟨addr, .int k⟩)]).2.fit o X fuel y = some (.ok u, r')) :
    (r'.est.iter : ℤ) ≤ k := by
  obtain ⟨f, -, hg⟩ := full_get (reached_full h0 calls)
  generalize calls.foldl Rule.step r0 = r at hg hf
  have hs : setParams ruleNames [("max_iterations", ⟨addr, .int k⟩)] r.attrs = (.ok (), setAttr r.attrs "max_iterations" ⟨addr, .int k⟩) := by
    unfold setParams
    rw [if_neg (by simp), hg]
    simp only [setLoop, if_pos (show "max_iterations" ∈ ruleNames by simp [ruleNames])]
  unfold Rule.fit at hf
  split at hf
  · cases hf
  · rename_i res s hr
    simp only [Option.some.injEq, Prod.mk.injEq] at hf
    obtain ⟨rfl, rfl⟩ := hf
    have hv : (val ((r.set [("max_iterations", ⟨addr, .int k⟩)]).2).attrs "max_iterations").toInt = k := by
      simp [Rule.set, hs, val, setAttr, Val.toInt]
    rw [hv] at hr
    exact (Fit.C01_iteration_limit hr).2.1 hk

/-- C106: what is true of `C`: a new object, and so a clone, trains a rule of complexity at most its parameter `C`. Partial: it fails for an object
whose `C` was set after construction (`C106_unread_ignored`, `Demo.C106_refuted`). -/
theorem C106_complexity_partial {heur : Bool} {ω : Ω} {e0 : Fit.Est} {args : String → Ref} {r r' : Rule Ω} {u : Unit}
    (h : Rule.new heur ω e0 args = .ok r) {o : Oracle Ω} {X : Data} {fuel : ℕ} {y : List ℤ} (hl : y.length = X.rows.length)
    (h2 : (Sk.uniqueLabels y).length ≤ 2) (hp : 0 ≤ (args "p").val.toRat) (hC : 0 ≤ (args "C").val.toRat)
    (hf : r.fit o X fuel y = some (.ok u, r')) (hip : ∀ ω, MP.IsOptimal r'.world.master.solver (o.ip r'.world.master.solver ω).1) :
    (r'.world.master.explanation.map (fun k => 1 + (k.length : ℚ))).sum ≤ (val r'.attrs "C").toRat := by
  have ha := (fit_attrs hf).1
  rw [C106_fit_new h] at hf
  rcases hq : fitNew o (args "C").val.toRat (args "p").val.toRat (kindsOf heur (args "C").val.toRat) (args "max_iterations").val.toInt
      (-1) X fuel y e0 ω with _ | ⟨res, s⟩
  · rw [hq] at hf
    cases hf
  · rw [hq] at hf
    simp only [Option.map_some, Option.some.injEq, Prod.mk.injEq] at hf
    obtain ⟨rfl, rfl⟩ := hf
    have := (C67_trained_rule hl h2 hp hC hq hip).1
    have hv : val r.attrs "C" = (args "C").val := by
      rw [(new_ok h).1]
      simp [val, ruleAttrs]
    rw [hv]
    exact this

/-! ## The tree classifier -/

theorem treeAttrs_missing (fresh : ℕ) (args : String → Ref) :
    treeAttrs fresh args "use_old_sp" = none ∧ treeAttrs fresh args "master_solver_type" = none := by
  constructor <;> simp [treeAttrs]

/-- C106, refutation: `get_params` of every new tree classifier raises `AttributeError`. -/
theorem C106_tree_get_params (checks : (String → Ref) → Except Err Unit) (fresh : ℕ) (args : String → Ref) {a : Attrs}
    (h : treeInit checks fresh args = .ok a) : getParams treeNames a = .error .attributeError := by
  unfold treeInit at h
  split at h
  · cases h
  · cases h
    exact getParams_missing (n := "use_old_sp") (by simp [treeNames]) (treeAttrs_missing fresh args).1

/-- C106, refutation: so does `set_params`, after any number of earlier calls, and it changes nothing. -/
theorem C106_tree_set_params (checks : (String → Ref) → Except Err Unit) (fresh : ℕ) (args : String → Ref) {a : Attrs}
    (h : treeInit checks fresh args = .ok a) (earlier : List (List (String × Ref))) (ps : List (String × Ref)) (hps : ps ≠ []) :
    setParams treeNames ps (earlier.foldl (fun a qs => (setParams treeNames qs a).2) a) = (.error .attributeError, a) := by
  have hg := C106_tree_get_params checks fresh args h
  have hstay : ∀ qs, (setParams treeNames qs a).2 = a := by
    intro qs
    unfold setParams
    by_cases hq : qs = []
    · rw [if_pos hq]
    · rw [if_neg hq, hg]
  have : earlier.foldl (fun a qs => (setParams treeNames qs a).2) a = a := by
    induction earlier with
    | nil => rfl
    | cons q qs ih => rw [List.foldl_cons, hstay, ih]
  rw [this]
  unfold setParams
  rw [if_neg hps, hg]

/-- C106, refutation: `clone` of a tree classifier never returns, even if the user adds the missing attributes or changes others: it raises
`AttributeError`, or what the constructor raises for the changed attributes. -/
theorem C106_tree_clone (checks : (String → Ref) → Except Err Unit) (fresh : ℕ) (copy : Ref → Ref) (a : Attrs) :
    clone (treeCls checks fresh) copy a = .error (.raised .attributeError) ∨
      ∃ args e, checks args = .error e ∧ clone (treeCls checks fresh) copy a = .error (.raised e) := by
  unfold clone
  rcases hg : getParams (treeCls checks fresh).names ((treeCls checks fresh).attrs a) with e | ps
  · left
    have : e = .attributeError := by
      by_cases hf : Full treeNames a
      · obtain ⟨f, -, h⟩ := full_get hf
        have hg' : getParams treeNames a = .error e := hg
        rw [h] at hg'
        cases hg'
      · unfold Full at hf
        push Not at hf
        obtain ⟨n, hn, hr⟩ := hf
        have : a n = none := by
          rcases ha : a n with _ | r
          · rfl
          · exact absurd ha (hr r)
        have hg' : getParams treeNames a = .error e := hg
        rw [getParams_missing hn this] at hg'
        cases hg'
        rfl
    subst this
    rfl
  · rcases hc : checks (copied copy ps) with e | u
    · right
      refine ⟨_, e, hc, ?_⟩
      have : (treeCls checks fresh).init (copied copy ps) = .error e := by
        change treeInit checks fresh _ = _
        unfold treeInit
        rw [hc]
      simp only [this]
    · left
      have hi : (treeCls checks fresh).init (copied copy ps) = .ok (treeAttrs fresh (copied copy ps)) := by
        change treeInit checks fresh _ = _
        unfold treeInit
        rw [hc]
      have hg2 : getParams (treeCls checks fresh).names ((treeCls checks fresh).attrs (treeAttrs fresh (copied copy ps))) =
          .error .attributeError :=
        C106_tree_get_params checks fresh (copied copy ps) (a := treeAttrs fresh (copied copy ps)) (by unfold treeInit; rw [hc])
      simp only [hi, hg2]

/-- C106: what `clone` checks. For every class: a clone that is returned was made by the constructor from copies of the parameters of the
original and holds these copies as its own parameters. -/
theorem C106_clone_checks {O : Type} (K : Cls O) (copy : Ref → Ref) (o new : O) (h : clone K copy o = .ok new) :
    ∃ ps qs, getParams K.names (K.attrs o) = .ok ps ∧ K.init (copied copy ps) = .ok new ∧
      getParams K.names (K.attrs new) = .ok qs ∧ ∀ n ∈ K.names, qs.lookup n = some (((ps.lookup n).map copy).getD ⟨0, .none⟩) := by
  unfold clone at h
  rcases hg : getParams K.names (K.attrs o) with e | ps
  · rw [hg] at h; cases h
  rw [hg] at h
  rcases hi : K.init (copied copy ps) with e | n
  · simp only [hi] at h; cases h
  simp only [hi] at h
  rcases hq : getParams K.names (K.attrs n) with e | qs
  · simp only [hq] at h; cases h
  simp only [hq] at h
  by_cases hc : (K.names.all fun n => decide (qs.lookup n = some (copied copy ps n))) = true
  · rw [if_pos hc] at h
    cases h
    rw [List.all_eq_true] at hc
    exact ⟨ps, qs, rfl, hi, hq, fun m hm => of_decide_eq_true (hc m hm)⟩
  · rw [if_neg hc] at h
    cases h

/-- A class whose constructor replaces its argument: `clone` refuses. -/
example : clone (⟨["a"], fun _ => .ok (), fun _ _ => some ⟨7, .int 1⟩⟩ : Cls Unit) id () = .ok () ∧
    clone (⟨["a"], fun _ => .ok (), fun _ _ => some ⟨7, .int 1⟩⟩ : Cls Unit) (fun r => ⟨r.addr + 1, r.val⟩) () = .error .runtimeError :=
  ⟨rfl, rfl⟩

end Verif.Params
