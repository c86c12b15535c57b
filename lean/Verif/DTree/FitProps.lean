import Verif.DTree.FitInv
import Verif.Fit.Classes

/-!
# Properties C71 - C74: `DTreeClassifier.fit` as a whole
-/

set_option linter.unusedSectionVars false
set_option linter.unusedSimpArgs false

namespace Verif.DTree

open MP Spec
open Fit.Spec
open Verif.Fit (Ev Guided)

variable {Ω : Type} {d : ℕ} {A : Args} {X : List (List ℚ)} {y : List ℤ} {o : FitOracle Ω} {tol : ℚ} {maxIt : ℤ} {limit : ℚ} {fuel : ℕ}
  {e0 : Fit.Est} {ω : Ω} {w0 : World Ω} {u : Unit} {s : Fit.St (World Ω) Duals Path}

namespace Spec

/-- The labels as `fit` encodes them. -/
abbrev encoded (y : List ℤ) : List ℕ := Sk.transform (Sk.uniqueLabels y) y

/-- At least two classes. -/
def TwoClasses (y : List ℤ) : Prop := ∃ a ∈ y, ∃ b ∈ y, a ≠ b

/-- The integer solver of the master problem finds optimal solutions. -/
def IpOptimal (d : ℕ) (A : Args) (X : List (List ℚ)) (o : FitOracle Ω) : Prop :=
  ∀ s, MasterState d A X o s → (o.master.ip s.m).status = .optimal ∨ (o.master.ip s.m).status = .feasible → IsOptimal s.m (o.master.ip s.m)

/-- The solvers of the pricing problems find an optimal solution of every feasible 0/1 program. -/
structure PriceOptimal (o : FitOracle Ω) : Prop where
  sols : ∀ m ω, m.maximize = true → (∀ v ∈ m.vars, v = boolVar) → (∃ a, m.Feasible a) →
    ∃ best ∈ (o.sols m ω).1, ∀ a, m.Feasible a → m.value a ≤ m.value best
  mip : ∀ m ω, m.maximize = true → (∀ v ∈ m.vars, v = boolVar) → (∃ a, m.Feasible a) →
    (o.mip m ω).1.status = .optimal ∧ IsOptimal m (o.mip m ω).1

open Classical in
/-- The weighted number of training rows that `predict` with the given selection and splits codes correctly. -/
noncomputable def trainHits (d : ℕ) (A : Args) (X : List (List ℚ)) (py : List ℕ) (splits : List Split) (sel : List Path) : ℚ :=
  keptSum (Args.base A d X py) (fun r => ((py.getD r 0 : ℕ) : ℤ) = predictRow A.leaves splits (X.getD r []) sel) (rowWeight (Args.base A d X py))

end Spec

theorem init_inv (ω : Ω) : FitInv d A X (encoded y) o tol (World.init A ω) [] := Or.inl ⟨rfl, rfl, rfl, by simp⟩

theorem fit_mid (hf : FitOk d A X (encoded y)) (hc : FitContract d A X o tol) (hy : TwoClasses y) {r}
    (hw0 : FitInv d A X (encoded y) o tol w0 []) (hr : Fit.fit (env o A X) (config A maxIt limit) fuel y e0 w0 = some r) :
    ∃ old new, Mid d A X (encoded y) o tol r.2.world.master r.2.world.numCuts r.2.world.subs r.2.trace old new := by
  have h1 := (fitInv_guided hf hc maxIt limit).fit hw0 hr
  have hn : ¬ (Sk.uniqueLabels y).length ≤ 1 := by
    obtain ⟨a, ha, b, hb, hab⟩ := hy
    exact fun h => hab (Fit.uniqueLabels_length_le_iff.1 h a ha b hb)
  exact (fitInv_mid h1 ⟨_, _, (Fit.fit_trace_prefix hn hr).subset (List.mem_cons_of_mem _ (List.mem_cons_self ..))⟩).2

theorem terminates_from (hf : FitOk d A X (encoded y)) (hc : FitContract d A X o tol) (maxIt : ℤ) (limit : ℚ) (e0 : Fit.Est)
    (hw0 : FitInv d A X (encoded y) o tol w0 []) :
    ∃ r, Fit.fit (env o A X) (config A maxIt limit) (A.paths.length + 2 ^ d * (A.splits.length ^ d * (totalWeight A X + 1)) + 2) y e0 w0 = some r := by
  refine (fitInv_guided hf hc maxIt limit).terminates_rmp hw0 _ ?_
  intro w tr hp h
  by_cases h0 : numRmp tr = 0
  · omega
  · obtain ⟨r, hr⟩ := Fit.lastDuals_of_numRmp (Nat.pos_of_ne_zero h0)
    obtain ⟨-, old, new, h⟩ := fitInv_mid h (gen_of_lastDuals hp hr)
    have h1 := h.count.1
    have h2 := sigs_card h.origin
    omega

theorem succeeds_from (hf : FitOk d A X (encoded y)) (hc : FitContract d A X o tol) (hy : TwoClasses y) {res : Except Err Unit}
    (hw0 : FitInv d A X (encoded y) o tol w0 []) (hr : Fit.fit (env o A X) (config A maxIt limit) fuel y e0 w0 = some (res, s)) : res = .ok () := by
  cases res with
  | ok u => rfl
  | error er =>
    exfalso
    obtain ⟨old, new, h⟩ := fit_mid hf hc hy hw0 hr
    rcases Fit.C64_exceptions hr with ⟨h1, -, -⟩ | ⟨pre, ev, h1, h2⟩ | ⟨-, pre, h1⟩
    · obtain ⟨a, ha, b, hb, hab⟩ := hy
      exact hab (h1 a ha b hb)
    · have := (h.ev ev (by simp only; rw [h1]; simp)).1
      rw [h2] at this
      cases this
    · have := (h.ev (.solveIp (.ok false)) (by simp only; rw [h1]; simp)).2.2 _ rfl
      cases this

/-! ## The fitted tree -/

theorem Spec.Origin.cand (hf : FitOk d A X (encoded y)) {p : Path} (h : Spec.Origin d A X (encoded y) p) : UsesCand A.nodes p := by
  rcases h with ⟨q, hq, i, rfl⟩ | h
  · exact hf.cand q hq
  · exact h.cand

/-- What a successful `fit` leaves in the master problem. -/
theorem fit_final (hf : FitOk d A X (encoded y)) (hc : FitContract d A X o tol) (hy : TwoClasses y)
    (hw0 : FitInv d A X (encoded y) o tol w0 []) (hr : Fit.fit (env o A X) (config A maxIt limit) fuel y e0 w0 = some (.ok u, s)) :
    ∃ s1 σ P, MasterState d A X o s1 ∧ (solveIp o.master s1).1 = .ok true ∧ s.world.master = (solveIp o.master s1).2 ∧
      IsTree d s1 (o.master.ip s1.m).values σ P ∧ (s.world.master.selected).Perm ((List.range (2 ^ d)).map P) ∧
      (o.master.ip s1.m).objective = (s.world.master.selected.map (·.cost)).sum ∧ s.world.master.splits = s1.splits ∧
      (∀ p ∈ s1.paths, Spec.Origin d A X (encoded y) p) ∧ Same s1.splits A.splits ∧ ∀ p ∈ s1.paths, WFPath d p := by
  obtain ⟨old, new, h⟩ := fit_mid hf hc hy hw0 hr
  obtain ⟨tr, htr, -⟩ := (Fit.C10_returns hr).2.1 rfl
  obtain ⟨s1, hs1, hM, hok⟩ := h.ip (.ok true) (by simp only; rw [htr]; simp)
  simp only at hM
  have horig : ∀ p ∈ s1.paths, Spec.Origin d A X (encoded y) p := by
    have := h.origin
    simp only at this
    rw [hM, solveIp_paths] at this
    exact this
  obtain ⟨cuts, own, cd, hi⟩ := reached_inv hf.setup (marked_good hf) hc.cut hs1
  obtain ⟨σ, P, h1, h2, h3, h4⟩ := solveIp_tree hf.setup (marked_good hf) hc.cut hc.ipSound hs1 (fun p hp => (horig p hp).cand hf) hok
  exact ⟨s1, σ, P, hs1, hok, hM, h1, by rw [hM]; exact h2, by rw [hM]; exact h3, by rw [hM]; exact h4, horig, hi.same,
    fun p hp => (hi.good p hp).1⟩

theorem tree_from (hf : FitOk d A X (encoded y)) (hc : FitContract d A X o tol) (hy : TwoClasses y)
    (hw0 : FitInv d A X (encoded y) o tol w0 []) (hr : Fit.fit (env o A X) (config A maxIt limit) fuel y e0 w0 = some (.ok u, s)) :
    ∃ (σ : ℕ → ℕ) (P : ℕ → Path), (s.world.master.selected).Perm ((List.range (2 ^ d)).map P) ∧
      (∀ n < 2 ^ d - 1, σ n ∈ cand A.nodes n) ∧
      (∀ l < 2 ^ d, (P l).leafId = l ∧ WFPath d (P l) ∧ (∀ q ∈ (P l).pairs, q.2 = σ q.1) ∧ Spec.Origin d A X (encoded y) (P l)) ∧
      ∀ row, predictRow A.leaves s.world.master.splits row s.world.master.selected =
        (P (walkLeaf (fun n => takesLeft row (splitAt A.splits (σ n))) d)).target := by
  obtain ⟨s1, σ, P, hs1, hok, hM, ht, hperm, hobj, hspl, horig, hsame, hw⟩ := fit_final hf hc hy hw0 hr
  have hleaf : ∀ l < 2 ^ d, (P l).leafId = l ∧ WFPath d (P l) ∧ (∀ q ∈ (P l).pairs, q.2 = σ q.1) ∧ Spec.Origin d A X (encoded y) (P l) :=
    fun l hl => ⟨ht.leaf l hl, hw _ (ht.mem l hl), ht.splits l hl, horig _ (ht.mem l hl)⟩
  refine ⟨σ, P, hperm, ?_, hleaf, ?_⟩
  · intro n hn
    obtain ⟨l, hl, k, hk, rfl⟩ := exists_anc_node hn
    obtain ⟨h1, h2, h3, h4⟩ := hleaf l hl
    have hm := splitOf_spec h2 hk
    rw [h1] at hm
    have := h4.cand hf _ hm
    rw [h3 _ hm] at this
    exact this
  · intro row
    have hlv : A.leaves = fullLeaves d := hf.setup.tree.leaves
    rw [hspl, hlv]
    have e : (fun n => takesLeft row (splitAt A.splits (σ n))) = fun n => takesLeft row (splitAt s1.splits (σ n)) := by
      funext n
      exact (congrFun (hsame.rowLeft row) (σ n)).symm
    rw [e]
    set l0 := walkLeaf (fun n => takesLeft row (splitAt s1.splits (σ n))) d with hl0
    have hl0lt : l0 < 2 ^ d := walkLeaf_lt _ _
    have hmem : ∀ p, p ∈ s.world.master.selected ↔ ∃ l < 2 ^ d, P l = p := by
      intro p
      rw [hperm.mem_iff]
      simp
    refine predictRow_eq _ _ _ _ _ ((hmem _).2 ⟨l0, hl0lt, rfl⟩) ?_
    intro q hq
    obtain ⟨l, hl, rfl⟩ := (hmem q).1 hq
    rw [ht.leaf l hl, ht.sat hw s1.splits row hl, ← hl0]
    constructor
    · intro he; rw [he]
    · intro he
      have := congrArg Path.leafId he
      rw [ht.leaf l hl, ht.leaf l0 hl0lt] at this
      exact this

/-- The weighted hits of the paths of a tree count the rows whose class is the target of the leaf they end in. -/
theorem hits_sum {c : SubConf} {σ : ℕ → ℕ} {P : ℕ → Path} (h : ∀ l < 2 ^ d, (P l).leafId = l ∧ WFPath d (P l) ∧ ∀ q ∈ (P l).pairs, q.2 = σ q.1) :
    ((List.range (2 ^ d)).map (fun l => hitsOf d c (P l) (P l).target)).sum =
      keptSum c (fun r => ((c.y.getD r 0 : ℕ) : ℤ) = (P (walkLeaf (fun n => takesLeft (c.X.getD r []) (splitAt c.splits (σ n))) d)).target)
        (rowWeight c) := by
  classical
  unfold hitsOf keptSum
  generalize c.X.length = n
  have key : ∀ i, ((List.range (2 ^ d)).map (fun l => if Kept c i ∧ Follows d (rowPat c i) (P l) ∧ ((c.y.getD i 0 : ℕ) : ℤ) = (P l).target
      then rowWeight c i else 0)).sum =
      if Kept c i ∧ ((c.y.getD i 0 : ℕ) : ℤ) = (P (walkLeaf (fun n => takesLeft (c.X.getD i []) (splitAt c.splits (σ n))) d)).target
        then rowWeight c i else 0 := by
    intro i
    have hw := walkLeaf_lt (fun n => takesLeft (c.X.getD i []) (splitAt c.splits (σ n))) d
    rw [← sum_pick (List.range (2 ^ d)) List.nodup_range _ (List.mem_range.2 hw)
      (fun l => if Kept c i ∧ ((c.y.getD i 0 : ℕ) : ℤ) = (P l).target then rowWeight c i else 0)]
    congr 1
    refine List.map_congr_left ?_
    intro l hl
    obtain ⟨h1, h2, h3⟩ := h l (List.mem_range.1 hl)
    have hf := follows_tree h2 h3 (rowPat c i)
    have e : (fun n => rowPat c i (σ n)) = fun n => takesLeft (c.X.getD i []) (splitAt c.splits (σ n)) := rfl
    rw [e, h1] at hf
    by_cases h1 : walkLeaf (fun n => takesLeft (c.X.getD i []) (splitAt c.splits (σ n))) d = l
    · rw [if_pos h1]
      simp only [hf.2 h1.symm, true_and]
    · rw [if_neg h1, if_neg (fun h => h1 (hf.1 h.2.1).symm)]
  induction n with
  | zero => simp
  | succ n ih =>
    simp only [List.range_succ, List.map_append, List.sum_append, List.map_singleton, List.sum_singleton, List.sum_map_add]
    rw [ih]
    congr 1
    refine Eq.trans (Eq.trans ?_ (key n)) (by congr)
    refine congrArg List.sum (List.map_congr_left ?_)
    intro l _
    congr

theorem Spec.Origin.hits (h0 : ∀ p ∈ A.paths, p.cost ≤ hitsOf d (Args.base A d X (encoded y)) p p.target) {p : Path}
    (h : Spec.Origin d A X (encoded y) p) : p.cost ≤ hitsOf d (Args.base A d X (encoded y)) p p.target := by
  rcases h with ⟨q, hq, i, rfl⟩ | h
  · exact h0 q hq
  · exact h.hits

theorem beats_from (hf : FitOk d A X (encoded y)) (hc : FitContract d A X o tol) (hy : TwoClasses y) (hip : IpOptimal d A X o)
    (hw0 : FitInv d A X (encoded y) o tol w0 []) (hr : Fit.fit (env o A X) (config A maxIt limit) fuel y e0 w0 = some (.ok u, s))
    {σ : ℕ → ℕ} {Q : ℕ → Path} (hQ : HasTree d s.world.master.paths σ Q) :
    ((List.range (2 ^ d)).map (fun l => (Q l).cost)).sum ≤ (s.world.master.selected.map (·.cost)).sum := by
  obtain ⟨s1, -, -, hs1, hok, hM, -, -, hobj, -, -, -, hw⟩ := fit_final hf hc hy hw0 hr
  rw [hM, solveIp_paths] at hQ
  obtain ⟨a, haf, ha⟩ := C42_trees_stay_feasible hf.setup (marked_good hf) hc.cut hs1 σ Q hQ
  obtain ⟨-, hval, hmax, -, hnd, -, -⟩ := C40_master_program hf.setup (marked_good hf) hc.cut hs1
  have hst : (o.master.ip s1.m).status = .optimal ∨ (o.master.ip s1.m).status = .feasible := by
    unfold solveIp at hok
    by_contra hst
    simp only at hok
    split_ifs at hok
  have hb := (hip s1 hs1 hst).2 a haf
  unfold Model.better at hb
  rw [hmax, if_pos rfl, hval, hobj] at hb
  refine le_trans (le_of_eq ?_) hb
  have hlid : ∀ p ∈ s1.paths, p.leafId < 2 ^ d := fun p hp => (hw p hp).leaf_lt
  have hexch : ∀ L : List Path, (∀ p ∈ L, p.leafId < 2 ^ d) → (L.map (fun p => p.cost * a p.id)).sum =
      ((List.range (2 ^ d)).map (fun l => (L.map (fun p => if p.leafId = l then p.cost * a p.id else 0)).sum)).sum := by
    intro L
    induction L with
    | nil => simp
    | cons p l ih =>
      intro hL
      simp only [List.map_cons, List.sum_cons, List.sum_map_add]
      rw [ih (fun q hq => hL q (by simp [hq]))]
      congr 1
      have e := sum_pick (List.range (2 ^ d)) List.nodup_range p.leafId (List.mem_range.2 (hL p (by simp))) (fun _ => p.cost * a p.id)
      refine e.symm.trans ?_
      refine congrArg List.sum (List.map_congr_left ?_)
      intro l _
      congr
  rw [hexch _ hlid]
  refine congrArg List.sum (List.map_congr_left ?_)
  intro l hl
  have hl := List.mem_range.1 hl
  obtain ⟨h1, h2, h3⟩ := hQ l hl
  rw [sum_ind_eq _ hnd (Q l) h1]
  · rw [if_pos h2, ((ha _ h1).1 (by rw [h2])), mul_one]
  · intro q hq hne
    by_cases he : q.leafId = l
    · rw [if_pos he, (ha q hq).2 (by rw [he]; exact hne), mul_zero]
    · rw [if_neg he]

/-- The training hits of the fitted tree are the hits of its paths. -/
theorem hits_from (hf : FitOk d A X (encoded y)) (hc : FitContract d A X o tol) (hy : TwoClasses y)
    (hw0 : FitInv d A X (encoded y) o tol w0 []) (hr : Fit.fit (env o A X) (config A maxIt limit) fuel y e0 w0 = some (.ok u, s)) :
    trainHits d A X (encoded y) s.world.master.splits s.world.master.selected =
      (s.world.master.selected.map (fun p => hitsOf d (Args.base A d X (encoded y)) p p.target)).sum ∧
    ∀ p ∈ s.world.master.selected, Spec.Origin d A X (encoded y) p := by
  classical
  obtain ⟨σ, P, hperm, -, hP, hpred⟩ := tree_from hf hc hy hw0 hr
  refine ⟨?_, fun p hp => by
    obtain ⟨l, hl, rfl⟩ := List.mem_map.1 (hperm.mem_iff.1 hp)
    exact (hP l (List.mem_range.1 hl)).2.2.2⟩
  rw [(hperm.map _).sum_eq, List.map_map]
  unfold trainHits
  have e : (fun r => ((((encoded y).getD r 0 : ℕ)) : ℤ) = predictRow A.leaves s.world.master.splits (X.getD r []) s.world.master.selected) =
      fun r => ((((Args.base A d X (encoded y)).y.getD r 0 : ℕ)) : ℤ) =
        (P (walkLeaf (fun n => takesLeft ((Args.base A d X (encoded y)).X.getD r []) (splitAt (Args.base A d X (encoded y)).splits (σ n))) d)).target := by
    funext r
    rw [hpred]
    rfl
  rw [e, ← hits_sum (c := Args.base A d X (encoded y)) (fun l hl => ⟨(hP l hl).1, (hP l hl).2.1, (hP l hl).2.2.1⟩)]
  rfl

theorem attained_from (hf : FitOk d A X (encoded y)) (hc : FitContract d A X o tol) (hy : TwoClasses y)
    (h0 : ∀ p ∈ A.paths, p.cost ≤ hitsOf d (Args.base A d X (encoded y)) p p.target)
    (hw0 : FitInv d A X (encoded y) o tol w0 []) (hr : Fit.fit (env o A X) (config A maxIt limit) fuel y e0 w0 = some (.ok u, s)) :
    (s.world.master.selected.map (·.cost)).sum ≤ trainHits d A X (encoded y) s.world.master.splits s.world.master.selected := by
  obtain ⟨h1, h2⟩ := hits_from hf hc hy hw0 hr
  rw [h1]
  exact sum_le_sum' _ _ _ (fun p hp => (h2 p hp).hits h0)

theorem attained_exact (hf : FitOk d A X (encoded y)) (hc : FitContract d A X o tol) (hy : TwoClasses y)
    (hw0 : FitInv d A X (encoded y) o tol w0 []) (hr : Fit.fit (env o A X) (config A maxIt limit) fuel y e0 w0 = some (.ok u, s))
    (he : ∀ p ∈ s.world.master.selected, p.cost = hitsOf d (Args.base A d X (encoded y)) p p.target) :
    (s.world.master.selected.map (·.cost)).sum = trainHits d A X (encoded y) s.world.master.splits s.world.master.selected := by
  rw [(hits_from hf hc hy hw0 hr).1]
  exact congrArg List.sum (List.map_congr_left he)

/-! ## The bound -/

theorem sat_model {c : SubConf} (h : SubOk d c) (hk : c.kind = .sat) {cuts : List (List Bool)} {st st' : SubSt}
    (hr : SubReached c cuts st) {D : Duals} (hD : D.cut.length = cuts.length) {sols : Model → List (ℕ → ℚ)} {ps : List Path}
    (hgen : c.generateSat D sols st = (.ok ps, st')) {q : Path} (hq : CandPath d c q) {t : ℕ} (ht : t ∈ c.targets) :
    st'.m.maximize = true ∧ (∀ v ∈ st'.m.vars, v = boolVar) ∧ ∃ a, st'.m.Feasible a := by
  unfold SubConf.generateSat at hgen
  rcases hrf : c.refresh D st with e | st1
  · rw [hrf] at hgen; simp at hgen
  · rw [hrf] at hgen
    simp only [Prod.mk.injEq, Except.ok.injEq] at hgen
    obtain ⟨-, rfl⟩ := hgen
    obtain ⟨-, own, lins, hi, ho⟩ := refresh_inv h (hr.state h) (by omega) hrf
    have hold : c.isOld = false := by unfold SubConf.isOld; rw [hk]
    rw [hD] at hi
    obtain ⟨a, haf, -⟩ := point_of_path h hi hq (List.mem_range.1 (h.targets.mem_iff.1 ht)) hold D
    refine ⟨ho.maximize, ?_, a, haf⟩
    rw [hi.rep.vars]
    exact fun v hv => List.eq_of_mem_replicate hv

theorem old_model {c : SubConf} (h : SubOk d c) {t : ℕ} (hk : c.kind = .old t) {cuts : List (List Bool)} {st st' : SubSt}
    (hr : SubReached c cuts st) {D : Duals} (hD : D.cut.length = cuts.length + D.newCuts.length) (hu : c.update D st = (.ok (), st'))
    {q : Path} (hq : CandPath d c q) (ht : t ∈ c.targets) : st'.m.maximize = true ∧ (∀ v ∈ st'.m.vars, v = boolVar) ∧ ∃ a, st'.m.Feasible a := by
  obtain ⟨-, h2⟩ := update_inv h (hr.state h) hD hu
  obtain ⟨-, own, lins, hi, ho⟩ := h2 (by rw [hk]; simp)
  obtain ⟨a, haf, -⟩ := point_old h hi hq ht hk D
  refine ⟨ho.maximize, ?_, a, haf⟩
  rw [hi.rep.vars]
  exact fun v hv => List.eq_of_mem_replicate hv

/-- `mp_optimal_` means that in the last round no exact pricing problem generated a path. -/
theorem fit_optimal_round (hf : FitOk d A X (encoded y)) (hc : FitContract d A X o tol) (hy : TwoClasses y)
    (hw0 : FitInv d A X (encoded y) o tol w0 []) (hr : Fit.fit (env o A X) (config A maxIt limit) fuel y e0 w0 = some (.ok u, s))
    (hopt : s.est.mpOptimal = true) (hne : A.subConfs X (encoded y) ≠ []) :
    ∃ D s1 s2 old, Snap d A X o tol s1 s2 D old ∧ s.world.master.rmpObj = s2.rmpObj ∧ (old ++ D.newCuts).length = s.world.master.cutCons.length ∧
      ∀ c ∈ A.subConfs X (encoded y), GenRec o c old D.newCuts D [] := by
  obtain ⟨old, new, h⟩ := fit_mid hf hc hy hw0 hr
  simp only at h
  obtain ⟨hpos, hrej, -, hall⟩ := Fit.C03_mp_optimal hr hopt
  have key : ∀ (i : ℕ) c, (A.subConfs X (encoded y))[i]? = some c → ∃ D, lastDuals s.trace = some (.ok D) ∧ GenRec o c old new D [] := by
    intro i c hi
    obtain ⟨D, res, hg⟩ := hall 1 (A.subConfs [] []).length i rfl (by
      rw [subConfs_length [] X [] (encoded y)]
      exact (List.getElem?_eq_some_iff.1 hi).1)
    obtain ⟨hD, cols, rfl, hcols, hrec⟩ := h.gens _ _ _ _ hg
    obtain ⟨c', hc', hrec⟩ := hrec (by omega)
    rw [hi] at hc'
    cases hc'
    have : cols = [] := by
      by_contra hne
      obtain ⟨p, hp⟩ := List.exists_mem_of_ne_nil _ hne
      obtain ⟨l', i', q, hadd⟩ := Fit.round_offered hr hg hp
      have h1 := hrej _ _ _ _ hadd
      have h2 := (h.ev _ (Fit.since_subset _ _ _ hadd)).2.1 _ _ _ _ rfl
      rw [h1] at h2
      cases h2
    rw [this] at hrec
    exact ⟨D, hD, hrec⟩
  obtain ⟨c0, hc0⟩ := List.exists_mem_of_ne_nil _ hne
  obtain ⟨i0, hi0⟩ := List.getElem?_of_mem hc0
  obtain ⟨D, hD, -⟩ := key i0 c0 hi0
  obtain ⟨D', s1, s2, cols, e, hsnap, hnew, hobj, -, -⟩ := h.snap _ hD
  cases e
  refine ⟨D, s1, s2, old, hsnap, hobj, by rw [hnew]; exact h.del.2, ?_⟩
  intro c hcm
  obtain ⟨i, hi⟩ := List.getElem?_of_mem hcm
  obtain ⟨D2, hD2, hrec⟩ := key i c hi
  rw [hD] at hD2
  cases hD2
  rw [hnew]
  exact hrec

theorem mem_subConfs (hf : FitOk d A X (encoded y)) {l : ℕ} (hl : l < 2 ^ d) :
    (A.useOld = false → A.subConf X (encoded y) .sat (createLeaf l d) ∈ A.subConfs X (encoded y)) ∧
    (A.useOld = true → ∀ t ∈ A.targets, A.subConf X (encoded y) (.old t) (createLeaf l d) ∈ A.subConfs X (encoded y)) := by
  have hlv : A.leaves = fullLeaves d := hf.setup.tree.leaves
  have hm : createLeaf l d ∈ A.leaves := by
    rw [hlv]
    exact List.mem_map.2 ⟨l, List.mem_range.2 hl, rfl⟩
  unfold Args.subConfs
  refine ⟨fun ho => List.mem_flatMap.2 ⟨_, hm, ?_⟩, fun ho t ht => List.mem_flatMap.2 ⟨_, hm, ?_⟩⟩
  · rw [ho]; simp
  · rw [ho, if_pos rfl]
    exact List.mem_map.2 ⟨t, ht, rfl⟩

theorem candPath_treeCol {c : SubConf} {l : ℕ} (hl : l < 2 ^ d) (hid : c.leaf.id = l) {σ τ : ℕ → ℕ} (pc : SubConf)
    (hσ : ∀ n < 2 ^ d - 1, σ n ∈ cand c.nodes n) : CandPath d c (treeCol d pc σ τ l) := by
  refine ⟨⟨hl, (treePath_wf σ hl).nodes, (treePath_wf σ hl).splits⟩, hid.symm, ?_⟩
  intro q hq
  obtain ⟨k, hk, rfl⟩ := (treePath_pairs σ d l q).1 hq
  exact hσ _ (anc_lt hl hk)

theorem cand_lt (hf : FitOk d A X (encoded y)) {σ : ℕ → ℕ} (hσ : ∀ n < 2 ^ d - 1, σ n ∈ cand A.nodes n) : ∀ n < 2 ^ d - 1, σ n < A.splits.length := by
  intro n hn
  have := hσ n hn
  unfold cand at this
  have hl : A.nodes.length = 2 ^ d - 1 := hf.setup.tree.nodes_length
  rw [← hl] at hn
  rw [List.getElem?_eq_getElem hn] at this
  exact hf.setup.tree.cand_lt _ (List.getElem_mem hn) _ this

theorem numTerms_le (hf : FitOk d A X (encoded y)) {l : ℕ} (hl : l < 2 ^ d) (cuts : List (List Bool)) :
    numTerms d (A.subConf X (encoded y) .sat (createLeaf l d)) cuts ≤ 2 * X.length + cuts.length + d * A.splits.length := by
  unfold numTerms
  have h1 : ((List.range (A.subConf X (encoded y) .sat (createLeaf l d)).X.length).filter
      (fun i => !(A.subConf X (encoded y) .sat (createLeaf l d)).removed i)).length ≤ X.length := by
    refine (List.length_filter_le _ _).trans (le_of_eq ?_)
    simp [Args.subConf]
  have h2 : ∀ L : List ℕ, (∀ k ∈ L, k < d) →
      (L.map (fun k => (cand A.nodes (anc d (createLeaf l d).id k)).length)).sum ≤ L.length * A.splits.length := by
    intro L
    induction L with
    | nil => simp
    | cons k L ih =>
      intro hk
      have h3 := ih (fun k hk' => hk k (by simp [hk']))
      have hid : (createLeaf l d).id = l := by rw [createLeaf_eq hl]
      have hlt := anc_lt hl (hk k (by simp))
      have hnl : A.nodes.length = 2 ^ d - 1 := hf.setup.tree.nodes_length
      have h4 : (cand A.nodes (anc d (createLeaf l d).id k)).length ≤ A.splits.length := by
        rw [hid]
        unfold cand
        rw [← hnl] at hlt
        rw [List.getElem?_eq_getElem hlt]
        have hnd := hf.setup.tree.cand_nodup _ (List.getElem_mem hlt)
        have := List.Nodup.length_le_card (α := Fin A.splits.length)
          (l := (A.nodes[anc d l k]).candidateSplits.attach.map (fun t => ⟨t.1, hf.setup.tree.cand_lt _ (List.getElem_mem hlt) _ t.2⟩)) (by
            refine List.Nodup.map ?_ (List.nodup_attach.2 hnd)
            intro a b hab
            exact Subtype.ext (by simpa using hab))
        simpa using this
      simp only [List.map_cons, List.sum_cons, List.length_cons]
      rw [Nat.add_mul, Nat.one_mul]
      omega
  have h3 := h2 (List.range d) (fun k hk => List.mem_range.1 hk)
  rw [List.length_range] at h3
  change 2 * _ + _ + ((List.range d).map (fun k => (cand A.nodes (anc d (createLeaf l d).id k)).length)).sum ≤ _
  omega

theorem bound_from (hf : FitOk d A X (encoded y)) (hc : FitContract d A X o tol) (hy : TwoClasses y) (hpo : PriceOptimal o)
    (hnew : A.useOld = false) (hw0 : FitInv d A X (encoded y) o tol w0 [])
    (hr : Fit.fit (env o A X) (config A maxIt limit) fuel y e0 w0 = some (.ok u, s)) (hopt : s.est.mpOptimal = true)
    {σ τ : ℕ → ℕ} (hσ : ∀ n < 2 ^ d - 1, σ n ∈ cand A.nodes n) (hτ : ∀ l < 2 ^ d, τ l ∈ A.targets) :
    treeHits d (Args.base A d X (encoded y)) σ τ ≤ s.world.master.rmpObj +
      2 ^ d * (1 / 1000000 + ((2 * X.length + s.world.master.cutCons.length + d * A.splits.length : ℕ) : ℚ) / 100000) + (2 ^ d - 1) * tol := by
  have hne : A.subConfs X (encoded y) ≠ [] := List.ne_nil_of_mem ((mem_subConfs hf (Nat.two_pow_pos d)).1 hnew)
  obtain ⟨D, s1, s2, old, hsnap, hobj, hlen, hrec⟩ := fit_optimal_round hf hc hy hw0 hr hopt hne
  rw [hobj, ← hlen]
  have hN0 : (0 : ℚ) ≤ ((2 * X.length + (old ++ D.newCuts).length + d * A.splits.length : ℕ) : ℚ) / 100000 := by positivity
  refine tree_bound hf.setup (marked_good hf) hc.cut hsnap.reached hsnap.sol hsnap.status (hsnap.del' hf hc) hc.tol_nonneg
    (by linarith [hc.tol_le]) hsnap.opt (cand_lt hf hσ) ?_
  intro l hl
  have hcm := (mem_subConfs hf hl).1 hnew
  obtain ⟨hok, -⟩ := subConfs_mem hf hcm
  have hid : (A.subConf X (encoded y) .sat (createLeaf l d)).leaf.id = l := by
    change (createLeaf l d).id = l
    rw [createLeaf_eq hl]
  rcases hrec _ hcm with ⟨-, st, st', ω', hst, hgen⟩ | ⟨h1, -⟩
  · have hq := candPath_treeCol (c := A.subConf X (encoded y) .sat (createLeaf l d)) (τ := τ) hl hid (Args.base A d X (encoded y)) hσ
    have ht : τ l ∈ (A.subConf X (encoded y) .sat (createLeaf l d)).targets := hτ l hl
    obtain ⟨m1, m2, m3⟩ := sat_model hok rfl hst (hsnap.cutlen hf hc) hgen hq ht
    obtain ⟨best, hb, hbest⟩ := hpo.sols st'.m ω' m1 m2 m3
    have := C48_rounding hok rfl hst (hsnap.cutlen hf hc) hgen hb (hc.sols _ _ _ hb) hbest hq ht (le_of_eq rfl)
    rw [hsnap.redCost hf hc] at this
    refine this.trans ?_
    have h2 : (numTerms d (A.subConf X (encoded y) .sat (createLeaf l d)) (old ++ D.newCuts) : ℚ) ≤
        ((2 * X.length + (old ++ D.newCuts).length + d * A.splits.length : ℕ) : ℚ) := by exact_mod_cast numTerms_le hf hl _
    have h3 := div_le_div_of_nonneg_right h2 (by norm_num : (0 : ℚ) ≤ 100000)
    linarith
  · exact absurd h1 (by simp [SubConf.isOld, Args.subConf])

theorem bound_old_from (hf : FitOk d A X (encoded y)) (hc : FitContract d A X o tol) (hy : TwoClasses y) (hpo : PriceOptimal o)
    (hold : A.useOld = true) (hw : ∀ i, Kept (Args.base A d X (encoded y)) i → rowWeight (Args.base A d X (encoded y)) i = 1)
    (hw0 : FitInv d A X (encoded y) o tol w0 []) (hr : Fit.fit (env o A X) (config A maxIt limit) fuel y e0 w0 = some (.ok u, s)) (hopt : s.est.mpOptimal = true)
    {σ τ : ℕ → ℕ} (hσ : ∀ n < 2 ^ d - 1, σ n ∈ cand A.nodes n) (hτ : ∀ l < 2 ^ d, τ l ∈ A.targets) :
    treeHits d (Args.base A d X (encoded y)) σ τ ≤ s.world.master.rmpObj + 2 ^ d * (1 / 1000000) + (2 ^ d - 1) * tol := by
  have hne : A.subConfs X (encoded y) ≠ [] := List.ne_nil_of_mem ((mem_subConfs hf (Nat.two_pow_pos d)).2 hold _ (hτ 0 (Nat.two_pow_pos d)))
  obtain ⟨D, s1, s2, old, hsnap, hobj, hlen, hrec⟩ := fit_optimal_round hf hc hy hw0 hr hopt hne
  rw [hobj]
  refine tree_bound hf.setup (marked_good hf) hc.cut hsnap.reached hsnap.sol hsnap.status (hsnap.del' hf hc) hc.tol_nonneg
    hc.tol_le hsnap.opt (cand_lt hf hσ) ?_
  intro l hl
  have hcm := (mem_subConfs hf hl).2 hold _ (hτ l hl)
  obtain ⟨hok, -⟩ := subConfs_mem hf hcm
  have hid : (A.subConf X (encoded y) (.old (τ l)) (createLeaf l d)).leaf.id = l := by
    change (createLeaf l d).id = l
    rw [createLeaf_eq hl]
  rcases hrec _ hcm with ⟨h1, -⟩ | ⟨-, st, st', ω', hst, hu, hnone⟩
  · exact absurd h1 (by simp [SubConf.isOld, Args.subConf])
  · have hq := candPath_treeCol (c := A.subConf X (encoded y) (.old (τ l)) (createLeaf l d)) (τ := τ) hl hid (Args.base A d X (encoded y)) hσ
    have ht : τ l ∈ (A.subConf X (encoded y) (.old (τ l)) (createLeaf l d)).targets := hτ l hl
    have hcl : D.cut.length = old.length + D.newCuts.length := by rw [hsnap.cutlen hf hc, List.length_append]
    obtain ⟨m1, m2, m3⟩ := old_model hok rfl hst hcl hu hq ht
    obtain ⟨b1, b2⟩ := hpo.mip st'.m ω' m1 m2 m3
    have := C48_old_exact hok rfl hst hcl hu b1 b2 hnone.symm hq ht (le_of_eq (hitsOf_eq_countOf hw _ _))
    rw [hsnap.redCost hf hc] at this
    exact this

/-! ## `predict` -/

theorem known_from (hf : FitOk d A X (encoded y)) (hc : FitContract d A X o tol) (hy : TwoClasses y)
    (hcl : A.targets.length ≤ (Sk.uniqueLabels y).length) (h0 : ∀ p ∈ A.paths, ∃ t ∈ A.targets, p.target = (t : ℤ))
    (hw0 : FitInv d A X (encoded y) o tol w0 []) (hr : Fit.fit (env o A X) (config A maxIt limit) fuel y e0 w0 = some (.ok u, s)) (R : List (List ℚ))
    (hR : (∀ p ∈ s.world.master.selected, p.target ≠ -1) ∨ ∀ row ∈ R, ∃ r, row = X.getD r [] ∧ Kept (Args.base A d X (encoded y)) r ∧
      0 < rowWeight (Args.base A d X (encoded y)) r) :
    ∃ ls, predictFitted A s R = .ok ls ∧ ls.length = R.length ∧ ∀ l ∈ ls, l ∈ y := by
  obtain ⟨σ, P, hperm, -, hP, hpred⟩ := tree_from hf hc hy hw0 hr
  have hone : ∀ row ∈ R, ∃ v ∈ y, Sk.inverseOne s.est.classes (predictRow A.leaves s.world.master.splits row s.world.master.selected) = .ok v := by
    intro row hrow
    rw [hpred, Fit.fit_classes hr]
    set l0 := walkLeaf (fun n => takesLeft row (splitAt A.splits (σ n))) d with hl0
    have hlt : l0 < 2 ^ d := walkLeaf_lt _ _
    obtain ⟨h1, h2, h3, h4⟩ := hP l0 hlt
    have ht : ∃ t ∈ A.targets, (P l0).target = (t : ℤ) := by
      rcases h4 with ⟨q, hq, i, he⟩ | h4
      · rw [he]
        exact h0 q hq
      · rcases h4.target with h | ⟨h5, h6, h7⟩
        · exact h
        · exfalso
          rcases hR with hR | hR
          · exact hR _ (hperm.mem_iff.2 (List.mem_map.2 ⟨l0, List.mem_range.2 hlt, rfl⟩)) h5
          · obtain ⟨r, hrow', hk, hw⟩ := hR row hrow
            refine h7 r hk hw ?_
            rw [follows_tree h2 h3, h1, hl0, hrow']
            rfl
    obtain ⟨t, ht, he⟩ := ht
    rw [he]
    have htl : t < (Sk.uniqueLabels y).length := lt_of_lt_of_le (List.mem_range.1 (hf.targets.mem_iff.1 ht)) hcl
    refine ⟨(Sk.uniqueLabels y)[t], (Sk.mem_uniqueLabels y _).1 (List.getElem_mem htl), ?_⟩
    simp [Sk.inverseOne, List.getElem?_eq_getElem htl]
  unfold predictFitted predict Sk.inverseTransform
  clear hR
  induction R with
  | nil => exact ⟨[], rfl, rfl, by simp⟩
  | cons row R ih =>
    obtain ⟨ls, h1, h2, h3⟩ := ih (fun r hr => hone r (by simp [hr]))
    obtain ⟨v, hv, hv'⟩ := hone row (by simp)
    refine ⟨v :: ls, ?_, by simp [h2], ?_⟩
    · rw [List.map_cons, List.mapM_cons, hv', h1]
      rfl
    · intro l hl
      rcases List.mem_cons.1 hl with rfl | hl
      · exact hv
      · exact h3 l hl

/-! ## Newly constructed classifiers -/

/-- **C71.** `fit` ends after at most `N + 1` iterations, whatever the iteration and time limits are. -/
theorem C71_terminates (hf : FitOk d A X (encoded y)) (hc : FitContract d A X o tol) (maxIt : ℤ) (limit : ℚ) (e0 : Fit.Est) (ω : Ω) :
    ∃ r, fitNew o A maxIt limit X (A.paths.length + 2 ^ d * (A.splits.length ^ d * (totalWeight A X + 1)) + 2) y e0 ω = some r :=
  terminates_from hf hc maxIt limit e0 (init_inv ω)

/-- **C71.** With at least two classes `fit` raises no exception. -/
theorem C71_fit_succeeds (hf : FitOk d A X (encoded y)) (hc : FitContract d A X o tol) (hy : TwoClasses y) {res : Except Err Unit}
    (hr : fitNew o A maxIt limit X fuel y e0 ω = some (res, s)) : res = .ok () :=
  succeeds_from hf hc hy (init_inv ω) hr

/-- **C72.** After a successful `fit` the selected paths are the paths of one decision tree over candidate splits, one for every leaf; each is
an initial path or satisfies `ColOk`; `predict` walks every row down this tree and answers the target of the path of the leaf it ends in. -/
theorem C72_fitted_tree (hf : FitOk d A X (encoded y)) (hc : FitContract d A X o tol) (hy : TwoClasses y)
    (hr : fitNew o A maxIt limit X fuel y e0 ω = some (.ok u, s)) :
    ∃ (σ : ℕ → ℕ) (P : ℕ → Path), (s.world.master.selected).Perm ((List.range (2 ^ d)).map P) ∧
      (∀ n < 2 ^ d - 1, σ n ∈ cand A.nodes n) ∧
      (∀ l < 2 ^ d, (P l).leafId = l ∧ WFPath d (P l) ∧ (∀ q ∈ (P l).pairs, q.2 = σ q.1) ∧ Spec.Origin d A X (encoded y) (P l)) ∧
      ∀ row, predictRow A.leaves s.world.master.splits row s.world.master.selected =
        (P (walkLeaf (fun n => takesLeft row (splitAt A.splits (σ n))) d)).target :=
  tree_from hf hc hy (init_inv ω) hr

/-- **C73.** If the integer master problem is solved to optimality, the fitted tree is at least as good as every tree contained in the initial
paths: the costs of the selected paths add up to at least those of the tree. -/
theorem C73_beats_initial_trees (hf : FitOk d A X (encoded y)) (hc : FitContract d A X o tol) (hy : TwoClasses y) (hip : IpOptimal d A X o)
    (hr : fitNew o A maxIt limit X fuel y e0 ω = some (.ok u, s)) {σ : ℕ → ℕ} {P : ℕ → Path} (hP : HasTree d A.paths σ P) :
    ((List.range (2 ^ d)).map (fun l => (P l).cost)).sum ≤ (s.world.master.selected.map (·.cost)).sum := by
  obtain ⟨s1, -, -, hs1, -, hM, -⟩ := fit_final hf hc hy (init_inv ω) hr
  obtain ⟨Q, hQ, hcost⟩ := hasTree_reached hf hc.cut (s := s.world.master) (by rw [hM]; exact .ip hs1) hP
  refine le_trans (le_of_eq ?_) (beats_from hf hc hy hip (init_inv ω) hr hQ)
  exact congrArg List.sum (List.map_congr_left (fun l hl => (hcost l (List.mem_range.1 hl)).symm))

/-- **C73.** If the costs of the initial paths do not overstate their hits, the costs of the selected paths add up to at most the weighted
number of training rows that `predict` codes correctly. -/
theorem C73_cost_attained (hf : FitOk d A X (encoded y)) (hc : FitContract d A X o tol) (hy : TwoClasses y)
    (h0 : ∀ p ∈ A.paths, p.cost ≤ hitsOf d (Args.base A d X (encoded y)) p p.target)
    (hr : fitNew o A maxIt limit X fuel y e0 ω = some (.ok u, s)) :
    (s.world.master.selected.map (·.cost)).sum ≤ trainHits d A X (encoded y) s.world.master.splits s.world.master.selected :=
  attained_from hf hc hy h0 (init_inv ω) hr

/-- **C74.** If `fit` ends with `mp_optimal_` and the CP-SAT pricing problems were solved to optimality, no decision tree with candidate splits at its
nodes and any of the classes at its leaves has more weighted training hits than `rmp_objective_` plus `2^d` times `1e-6` and the rounding error
of the scaled objective (`1e-5` for each of its terms), and the tolerance of the LP solver. -/
theorem C74_optimal_bound (hf : FitOk d A X (encoded y)) (hc : FitContract d A X o tol) (hy : TwoClasses y) (hpo : PriceOptimal o)
    (hnew : A.useOld = false) (hr : fitNew o A maxIt limit X fuel y e0 ω = some (.ok u, s)) (hopt : s.est.mpOptimal = true)
    {σ τ : ℕ → ℕ} (hσ : ∀ n < 2 ^ d - 1, σ n ∈ cand A.nodes n) (hτ : ∀ l < 2 ^ d, τ l ∈ A.targets) :
    treeHits d (Args.base A d X (encoded y)) σ τ ≤ s.world.master.rmpObj +
      2 ^ d * (1 / 1000000 + ((2 * X.length + s.world.master.cutCons.length + d * A.splits.length : ℕ) : ℚ) / 100000) + (2 ^ d - 1) * tol :=
  bound_from hf hc hy hpo hnew (init_inv ω) hr hopt hσ hτ

/-- **C74** for `use_old_sp=True`, when no kept row has a weight other than 1. -/
theorem C74_optimal_bound_old (hf : FitOk d A X (encoded y)) (hc : FitContract d A X o tol) (hy : TwoClasses y) (hpo : PriceOptimal o)
    (hold : A.useOld = true) (hw : ∀ i, Kept (Args.base A d X (encoded y)) i → rowWeight (Args.base A d X (encoded y)) i = 1)
    (hr : fitNew o A maxIt limit X fuel y e0 ω = some (.ok u, s)) (hopt : s.est.mpOptimal = true)
    {σ τ : ℕ → ℕ} (hσ : ∀ n < 2 ^ d - 1, σ n ∈ cand A.nodes n) (hτ : ∀ l < 2 ^ d, τ l ∈ A.targets) :
    treeHits d (Args.base A d X (encoded y)) σ τ ≤ s.world.master.rmpObj + 2 ^ d * (1 / 1000000) + (2 ^ d - 1) * tol :=
  bound_old_from hf hc hy hpo hold hw (init_inv ω) hr hopt hσ hτ

/-- **C51, part that holds.** After a successful `fit` with as many targets as classes and initial paths with known targets, `predict` returns known
classes for training rows that were kept with positive weight, and for all rows if no selected path has target `-1`. -/
theorem C51_predict_known_partial (hf : FitOk d A X (encoded y)) (hc : FitContract d A X o tol) (hy : TwoClasses y)
    (hcl : A.targets.length ≤ (Sk.uniqueLabels y).length) (h0 : ∀ p ∈ A.paths, ∃ t ∈ A.targets, p.target = (t : ℤ))
    (hr : fitNew o A maxIt limit X fuel y e0 ω = some (.ok u, s)) (R : List (List ℚ))
    (hR : (∀ p ∈ s.world.master.selected, p.target ≠ -1) ∨ ∀ row ∈ R, ∃ r, row = X.getD r [] ∧ Kept (Args.base A d X (encoded y)) r ∧
      0 < rowWeight (Args.base A d X (encoded y)) r) :
    ∃ ls, predictFitted A s R = .ok ls ∧ ls.length = R.length ∧ ∀ l ∈ ls, l ∈ y :=
  known_from hf hc hy hcl h0 (init_inv ω) hr R hR

end Verif.DTree
