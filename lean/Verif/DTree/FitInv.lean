import Verif.DTree.FitSig
import Verif.Fit.Trace

/-!
# Lemmas: the invariant of `DTreeClassifier.fit`
-/

set_option linter.unusedSectionVars false
set_option linter.unusedSimpArgs false

namespace Verif.DTree

open MP Spec
open Fit.Spec
open Verif.Fit (Ev Guided)

variable {Ω : Type} {d : ℕ} {A : Args} {X : List (List ℚ)} {py : List ℕ} {o : FitOracle Ω} {tol : ℚ}

abbrev DTrace := List (Ev Duals Path)

/-- The cut rows that a pricing problem has received: `old` before its update in the current round, afterwards also `new`. -/
def recv (tr : DTrace) (old new : List (List Bool)) (pos : ℕ × ℕ) : List (List Bool) :=
  if pos ∈ updPos (round tr) then old ++ new else old

/-- How an exact pricing problem computed its columns. -/
def GenRec (o : FitOracle Ω) (c : SubConf) (old new : List (List Bool)) (D : Duals) (cols : List Path) : Prop :=
  (c.isOld = false ∧ ∃ st st' ω, SubReached c (old ++ new) st ∧ c.generateSat D (fun m => (o.sols m ω).1) st = (.ok cols, st')) ∨
  (c.isOld = true ∧ ∃ st st' ω, SubReached c old st ∧ c.update D st = (.ok (), st') ∧ cols = c.generateMip st' (o.mip st'.m ω).1)

/-- No exception, no rejected column, no failed integer program. -/
def EvOk (e : Ev Duals Path) : Prop :=
  raised? e = none ∧ (∀ l i c r, e = .add l i c r → r = .ok true) ∧ ∀ r, e = .solveIp r → r = .ok true

/-- The classifier after `generate_mp`. -/
structure Mid (d : ℕ) (A : Args) (X : List (List ℚ)) (py : List ℕ) (o : FitOracle Ω) (tol : ℚ) (M : MS) (k : ℕ) (S : ℕ → SubSt) (tr : DTrace)
    (old new : List (List Bool)) : Prop where
  gen : ∃ y r, Ev.generateMp y r ∈ tr
  reached : MasterState d A X o M
  origin : ∀ p ∈ M.paths, Spec.Origin d A X py p
  ev : ∀ e ∈ tr, EvOk e
  del : Delivered M (old ++ new)
  start : numRmp tr = 0 → new = []
  heur : k = (recv tr old new (0, 0)).length
  subs : ∀ (i : ℕ) c, (A.subConfs X py)[i]? = some c → SubReached c (recv tr old new (1, i)) (S i)
  upd : ∀ (i : ℕ) c, (A.subConfs X py)[i]? = some c → c.isOld = true → (1, i) ∈ updPos (round tr) → ∀ D, lastDuals tr = some (.ok D) →
    ∃ st, SubReached c old st ∧ c.update D st = (.ok (), S i)
  snap : ∀ r, lastDuals tr = some r → ∃ D s s' cols, r = .ok D ∧ Snap d A X o tol s s' D old ∧ D.newCuts = new ∧ M.rmpObj = s'.rmpObj ∧
    M.paths = s'.paths ++ cols ∧ (accPos (round tr) = [] → cols = [])
  gens : ∀ l i D r, Ev.generate l i D r ∈ round tr → lastDuals tr = some (.ok D) ∧ ∃ cols, r = .ok cols ∧
    (∀ p ∈ cols, ColOk d A X py p ∧ colRed d X A.splits (old ++ new) D p > 1 / 1000000) ∧
    (l ≠ 0 → ∃ c, (A.subConfs X py)[i]? = some c ∧ GenRec o c old new D cols)
  ip : ∀ r, Ev.solveIp r ∈ tr → ∃ s, MasterState d A X o s ∧ M = (solveIp o.master s).2 ∧ (solveIp o.master s).1 = .ok true
  count : numRmp tr ≤ (sigs d M.paths).card + 1 ∧ (accPos (round tr) ≠ [] → numRmp tr ≤ (sigs d M.paths).card)

variable {M : MS} {k : ℕ} {subs : ℕ → SubSt} {tr : DTrace} {old new : List (List Bool)}

theorem subConfs_length (X X' : List (List ℚ)) (y y' : List ℕ) : (A.subConfs X y).length = (A.subConfs X' y').length := by
  unfold Args.subConfs
  rw [List.length_flatMap, List.length_flatMap]
  refine congrArg List.sum (List.map_congr_left ?_)
  intro leaf _
  split_ifs <;> simp

theorem pos_cases {maxIt : ℤ} {limit : ℚ} {l i : ℕ} (h : (l, i) ∈ allPositions (config A maxIt limit).shape) (X : List (List ℚ)) (py : List ℕ) :
    (l = 0 ∧ i = 0) ∨ (l = 1 ∧ ∃ c, (A.subConfs X py)[i]? = some c) := by
  obtain ⟨n, hn, hi⟩ := (Fit.mem_allPositions _ _ _).1 h
  have hs : (config A maxIt limit).shape = [1, (A.subConfs [] []).length] := rfl
  rw [hs] at hn
  match l with
  | 0 => simp at hn; omega
  | 1 =>
    simp only [List.getElem?_cons_succ, List.getElem?_cons_zero, Option.some.injEq] at hn
    rw [← hn, subConfs_length [] X [] py] at hi
    exact Or.inr ⟨rfl, _, List.getElem?_eq_getElem hi⟩
  | l + 2 => simp at hn

theorem pos_mem (maxIt : ℤ) (limit : ℚ) : (0, 0) ∈ allPositions (config A maxIt limit).shape ∧
    ∀ (i : ℕ) c, (A.subConfs X py)[i]? = some c → (1, i) ∈ allPositions (config A maxIt limit).shape := by
  refine ⟨(Fit.mem_allPositions _ _ _).2 ⟨1, rfl, by omega⟩, ?_⟩
  intro i c h
  refine (Fit.mem_allPositions _ _ _).2 ⟨_, rfl, ?_⟩
  rw [subConfs_length [] X [] py]
  exact (List.getElem?_eq_some_iff.1 h).1

theorem evOk_snoc {e : Ev Duals Path} (h : ∀ e ∈ tr, EvOk e) (he : EvOk e) : ∀ e' ∈ tr ++ [e], EvOk e' := by
  intro e' hm
  rcases List.mem_append.1 hm with hm | hm
  · exact h e' hm
  · rw [List.mem_singleton.1 hm]; exact he

theorem round_snoc' {e : Ev Duals Path} (h : isRmp e = false) : round (tr ++ [e]) = round tr ++ [e] := by
  rw [Fit.round_snoc, h]; simp

theorem numRmp_snoc' {e : Ev Duals Path} (h : isRmp e = false) : numRmp (tr ++ [e]) = numRmp tr := by
  rw [Fit.numRmp_snoc, h]; simp

/-- Events that are neither LP solve, update, pricing, column nor integer program. -/
theorem Mid.neutral (h : Mid d A X py o tol M k subs tr old new) {e : Ev Duals Path} (h1 : isRmp e = false) (h2 : upd? e = none)
    (h3 : isGen e = false) (h4 : accepted? e = none) (h5 : EvOk e) (h6 : ∀ r, e ≠ .solveIp r) : Mid d A X py o tol M k subs (tr ++ [e]) old new := by
  have e1 := round_snoc' (tr := tr) h1
  have e2 : updPos (round (tr ++ [e])) = updPos (round tr) := by rw [e1, Fit.updPos_snoc, h2]; simp
  have e3 : accPos (round (tr ++ [e])) = accPos (round tr) := by rw [e1, Fit.accPos_snoc, h4]; simp
  have e4 : ∀ pos, recv (tr ++ [e]) old new pos = recv tr old new pos := by intro pos; unfold recv; rw [e2]
  have e5 := Fit.lastDuals_snoc (tr := tr) h1
  have e6 := numRmp_snoc' (tr := tr) h1
  refine ⟨?_, h.reached, h.origin, evOk_snoc h.ev h5, h.del, ?_, ?_, ?_, ?_, ?_, ?_, ?_, ?_⟩
  · obtain ⟨y, r, hm⟩ := h.gen
    exact ⟨y, r, List.mem_append_left _ hm⟩
  · rw [e6]; exact h.start
  · rw [e4]; exact h.heur
  · intro i c hc; rw [e4]; exact h.subs i c hc
  · rw [e2, e5]; exact h.upd
  · rw [e5, e3]; exact h.snap
  · intro l i D r hm
    rw [e1] at hm
    rcases List.mem_append.1 hm with hm | hm
    · rw [e5]; exact h.gens l i D r hm
    · rw [← List.mem_singleton.1 hm] at h3; simp [isGen] at h3
  · intro r hm
    rcases List.mem_append.1 hm with hm | hm
    · exact h.ip r hm
    · exact absurd (List.mem_singleton.1 hm).symm (h6 r)
  · rw [e3, e6]; exact h.count

/-- `generate_mp`. -/
theorem Mid.init (hf : FitOk d A X py) (hc : FitContract d A X o tol) (t : ℚ) :
    (generateMp (A.masterConf X) (MS.init (marked A) A.splits A.dataRows)).1 = .ok () ∧
    Mid d A X py o tol (generateMp (A.masterConf X) (MS.init (marked A) A.splits A.dataRows)).2 0 (fun _ => SubSt.new)
      [.timer t, .generateMp py (.ok ())] [] [] := by
  have hok := (C52_generate (dataRows := A.dataRows) hf.setup (marked_good hf)).1.2 hf.distinct
  obtain ⟨s, hs⟩ : ∃ s, s = (generateMp (A.masterConf X) (MS.init (marked A) A.splits A.dataRows)).2 := ⟨_, rfl⟩
  have hg : generateMp (A.masterConf X) (MS.init (marked A) A.splits A.dataRows) = (.ok (), s) := Prod.ext hok hs.symm
  refine ⟨hok, ?_⟩
  rw [hg]
  have hround : updPos (round ([.timer t, .generateMp py (.ok ())] : DTrace)) = [] := rfl
  have hrecv : ∀ pos, recv ([.timer t, .generateMp py (.ok ())] : DTrace) [] [] pos = [] := by intro pos; unfold recv; simp
  have hl : lastDuals ([.timer t, .generateMp py (.ok ())] : DTrace) = none := rfl
  refine ⟨⟨py, .ok (), by simp⟩, .generate hg, ?_, ?_, (C68_cuts_delivered hf.setup (marked_good hf) hc.cut).1 s hg, fun _ => rfl, ?_, ?_, ?_, ?_,
    ?_, ?_, ?_⟩
  · intro p hp
    rw [((C40_paths_and_rows hf.setup (marked_good hf) hc.cut).1 s hg).1] at hp
    obtain ⟨i, hi, rfl⟩ := List.mem_mapIdx.1 hp
    refine Or.inl ⟨A.paths[i]'(by simpa [marked] using hi), List.getElem_mem _, i, ?_⟩
    simp [marked]
  · intro e he
    simp only [List.mem_cons, List.not_mem_nil, or_false] at he
    rcases he with rfl | rfl
    · exact ⟨rfl, fun _ _ _ _ h => (by cases h), fun _ h => (by cases h)⟩
    · exact ⟨rfl, fun _ _ _ _ h => (by cases h), fun _ h => (by cases h)⟩
  · rw [hrecv]; rfl
  · intro i c _; rw [hrecv]; exact .new
  · intro i c _ _ hm; rw [hround] at hm; cases hm
  · intro r hr; rw [hl] at hr; cases hr
  · intro l i D r hm
    have := Fit.since_subset _ _ _ hm
    simp at this
  · intro r hm; simp at hm
  · refine ⟨Nat.zero_le _, fun h => absurd rfl h⟩

/-- The classifier between two calls of `fit` on the same data: every pricing problem has received all cut rows. -/
structure Warm (d : ℕ) (A : Args) (X : List (List ℚ)) (py : List ℕ) (o : FitOracle Ω) (M : MS) (k : ℕ) (S : ℕ → SubSt)
    (cuts : List (List Bool)) : Prop where
  reached : MasterState d A X o M
  origin : ∀ p ∈ M.paths, Spec.Origin d A X py p
  del : Delivered M cuts
  heur : k = cuts.length
  subs : ∀ (i : ℕ) c, (A.subConfs X py)[i]? = some c → SubReached c cuts (S i)

/-- `generate_mp` of a generated master problem. -/
theorem Mid.again (hf : FitOk d A X py) (hc : FitContract d A X o tol) (t : ℚ) {cuts : List (List Bool)} (h : Warm d A X py o M k subs cuts) :
    generateMp (A.masterConf X) M = (.ok (), M) ∧
    Mid d A X py o tol M k subs [.timer t, .generateMp py (.ok ())] cuts [] := by
  obtain ⟨cuts0, own0, cd0, hi0⟩ := reached_inv hf.setup (marked_good hf) hc.cut h.reached
  refine ⟨by unfold generateMp; rw [if_pos hi0.gen], ?_⟩
  have hround : updPos (round ([.timer t, .generateMp py (.ok ())] : DTrace)) = [] := rfl
  have hrecv : ∀ pos, recv ([.timer t, .generateMp py (.ok ())] : DTrace) cuts [] pos = cuts := by intro pos; unfold recv; simp
  have hl : lastDuals ([.timer t, .generateMp py (.ok ())] : DTrace) = none := rfl
  refine ⟨⟨py, .ok (), by simp⟩, h.reached, h.origin, ?_, by rw [List.append_nil]; exact h.del, fun _ => rfl, ?_, ?_, ?_, ?_, ?_, ?_, ?_⟩
  · intro e he
    simp only [List.mem_cons, List.not_mem_nil, or_false] at he
    rcases he with rfl | rfl
    · exact ⟨rfl, fun _ _ _ _ h => (by cases h), fun _ h => (by cases h)⟩
    · exact ⟨rfl, fun _ _ _ _ h => (by cases h), fun _ h => (by cases h)⟩
  · rw [hrecv]; exact h.heur
  · intro i c hi; rw [hrecv]; exact h.subs i c hi
  · intro i c _ _ hm; rw [hround] at hm; cases hm
  · intro r hr; rw [hl] at hr; cases hr
  · intro l i D r hm
    have := Fit.since_subset _ _ _ hm
    simp at this
  · intro r hm; simp at hm
  · refine ⟨Nat.zero_le _, fun h => absurd rfl h⟩

/-- After a round in which every pricing problem was updated. -/
theorem Mid.warm (h : Mid d A X py o tol M k subs tr old new) {maxIt : ℤ} {limit : ℚ}
    (hu : updPos (round tr) = allPositions (config A maxIt limit).shape) : Warm d A X py o M k subs (old ++ new) := by
  have hrecv : ∀ pos ∈ allPositions (config A maxIt limit).shape, recv tr old new pos = old ++ new := by
    intro pos hp
    unfold recv
    rw [hu, if_pos hp]
  refine ⟨h.reached, h.origin, h.del, ?_, ?_⟩
  · rw [h.heur, hrecv _ (pos_mem (X := X) (py := py) maxIt limit).1]
  · intro i c hi
    rw [← hrecv _ ((pos_mem maxIt limit).2 i c hi)]
    exact h.subs i c hi

theorem Mid.recv_all (h : Mid d A X py o tol M k subs tr old new) {cfg : Fit.Config} {r : Except Err Duals}
    (ha : Allowed cfg tr (.solveRmp r)) {pos : ℕ × ℕ} (hp : pos ∈ allPositions cfg.shape) : recv tr old new pos = old ++ new := by
  unfold recv
  rcases Nat.eq_zero_or_pos (numRmp tr) with h0 | h0
  · rw [h.start h0]
    simp
  · rw [if_pos]
    rw [(ha.2.2.2 h0).1]
    exact hp

/-- `solve_rmp`. -/
theorem Mid.rmp (h : Mid d A X py o tol M k subs tr old new) (hf : FitOk d A X py) (hc : FitContract d A X o tol) {maxIt : ℤ} {limit : ℚ}
    (ha : Allowed (config A maxIt limit) tr (.solveRmp (solveRmp (A.masterConf X) o.master M).1)) :
    ∃ new', Mid d A X py o tol (solveRmp (A.masterConf X) o.master M).2 k subs (tr ++ [.solveRmp (solveRmp (A.masterConf X) o.master M).1])
      (old ++ new) new' := by
  obtain ⟨cuts0, own0, cd0, hi0⟩ := reached_inv hf.setup (marked_good hf) hc.cut h.reached
  obtain ⟨⟨n, hlast⟩, D, hD⟩ := solveRmp_last (A.masterConf X) o.master M hi0.gen
  obtain ⟨s', hs'⟩ : ∃ s', s' = (solveRmp (A.masterConf X) o.master M).2 := ⟨_, rfl⟩
  have hsol : solveRmp (A.masterConf X) o.master M = (.ok D, s') := Prod.ext hD hs'.symm
  have hr' : MasterState d A X o s' := by rw [hs']; exact .rmp h.reached
  obtain ⟨-, h2, h3⟩ := master_solvable hf hc.cut hr'
  rw [← hs'] at hlast
  have hlp := hc.lp s' hr' h2 h3 n
  rw [← hlast] at hlp
  have hsnap : Snap d A X o tol M s' D (old ++ new) := ⟨h.reached, hsol, hlp.1, hlp.2, h.del⟩
  have hpaths : s'.paths = M.paths := by
    rw [hs']
    exact ((C40_paths_and_rows hf.setup (marked_good hf) hc.cut).2 M h.reached).2.2.2.1
  rw [hsol]
  have e1 : Fit.Spec.round (tr ++ [.solveRmp (.ok D)]) = [] := by rw [Fit.round_snoc]; rfl
  have e5 := Fit.lastDuals_snoc_rmp tr (.ok D)
  have e6 : ∀ pos, recv (tr ++ [.solveRmp (.ok D)]) (old ++ new) D.newCuts pos = old ++ new := by
    intro pos
    unfold recv
    rw [e1]
    exact if_neg (by simp [updPos])
  have e7 : numRmp (tr ++ [Ev.solveRmp (.ok D)]) = numRmp tr + 1 := by rw [Fit.numRmp_snoc]; rfl
  refine ⟨D.newCuts, ?_, hr', ?_, evOk_snoc h.ev ⟨rfl, fun _ _ _ _ h => (by cases h), fun _ h => (by cases h)⟩, hsnap.del' hf hc, ?_, ?_, ?_, ?_, ?_, ?_, ?_, ?_⟩
  · obtain ⟨y, r, hm⟩ := h.gen
    exact ⟨y, r, List.mem_append_left _ hm⟩
  · rw [show (Except.ok D, s').2 = s' from rfl, hpaths]; exact h.origin
  · rw [e7]; intro h0; omega
  · rw [e6, h.heur, h.recv_all ha (pos_mem (X := X) (py := py) maxIt limit).1]
  · intro i c hi
    rw [e6, ← h.recv_all ha ((pos_mem maxIt limit).2 i c hi)]
    exact h.subs i c hi
  · intro i c _ _ hm
    rw [e1] at hm
    simp [updPos] at hm
  · intro r hr
    rw [e5] at hr
    cases hr
    exact ⟨D, M, s', [], rfl, hsnap, rfl, rfl, by simp, fun _ => rfl⟩
  · intro l i D' r hm
    rw [e1] at hm
    cases hm
  · intro r hm
    rcases List.mem_append.1 hm with hm | hm
    · exact absurd ⟨r, hm⟩ ha.2.2.1
    · simp at hm
  · rw [e1, e7, show (Except.ok D, s').2 = s' from rfl, hpaths]
    refine ⟨?_, fun h => absurd rfl h⟩
    rcases Nat.eq_zero_or_pos (numRmp tr) with h0 | h0
    · omega
    · have := h.count.2 (ha.2.2.2 h0).2.1
      omega

theorem upd_pos {cfg : Fit.Config} {l i : ℕ} {D : Duals} {r : Except Err Unit} (ha : Allowed cfg tr (.update l i D r)) :
    (l, i) ∈ allPositions cfg.shape ∧ (l, i) ∉ updPos (round tr) := by
  refine ⟨ha.2.1.subset (by simp), ?_⟩
  have := (ha.2.1.sublist.nodup (Fit.nodup_allPositions _))
  rw [List.nodup_append] at this
  intro hm
  exact this.2.2 _ hm _ (by simp) rfl

theorem recv_upd {l i : ℕ} {D : Duals} {r : Except Err Unit} (pos : ℕ × ℕ) :
    recv (tr ++ [.update l i D r]) old new pos = if pos = (l, i) then old ++ new else recv tr old new pos := by
  unfold recv
  rw [round_snoc' rfl, Fit.updPos_snoc]
  simp only [upd?, Option.toList_some, List.mem_append, List.mem_singleton]
  by_cases hp : pos = (l, i)
  · rw [if_pos (Or.inr hp), if_pos hp]
  · rw [if_neg hp]
    simp [hp]

/-- The parts of the invariant that only concern the trace, for an update. -/
theorem Mid.updated (h : Mid d A X py o tol M k subs tr old new) {maxIt : ℤ} {limit : ℚ} {l i : ℕ} {D : Duals} {k' : ℕ} {subs' : ℕ → SubSt}
    (ha : Allowed (config A maxIt limit) tr (.update l i D (.ok ()))) (hk : k' = (recv (tr ++ [.update l i D (.ok ())]) old new (0, 0)).length)
    (hs : ∀ (j : ℕ) c, (A.subConfs X py)[j]? = some c → SubReached c (recv (tr ++ [.update l i D (.ok ())]) old new (1, j)) (subs' j))
    (hu : ∀ (j : ℕ) c, (A.subConfs X py)[j]? = some c → c.isOld = true → ((1, j) = (l, i) → ∃ st, SubReached c old st ∧ c.update D st = (.ok (), subs' j)) ∧
      ((1, j) ≠ (l, i) → subs' j = subs j)) :
    Mid d A X py o tol M k' subs' (tr ++ [.update l i D (.ok ())]) old new := by
  have e1 := round_snoc' (tr := tr) (e := .update l i D (.ok ())) rfl
  have e3 : accPos (round (tr ++ [.update l i D (.ok ())])) = accPos (round tr) := by rw [e1, Fit.accPos_snoc]; simp [accepted?]
  have e5 := Fit.lastDuals_snoc (tr := tr) (e := .update l i D (.ok ())) rfl
  have e6 := numRmp_snoc' (tr := tr) (e := .update l i D (.ok ())) rfl
  refine ⟨?_, h.reached, h.origin, evOk_snoc h.ev ⟨rfl, fun _ _ _ _ h => (by cases h), fun _ h => (by cases h)⟩, h.del, ?_, hk, hs, ?_, ?_, ?_, ?_, ?_⟩
  · obtain ⟨y, r, hm⟩ := h.gen
    exact ⟨y, r, List.mem_append_left _ hm⟩
  · rw [e6]; exact h.start
  · intro j c hc ho hm D' hD'
    rw [e5, ha.1] at hD'
    cases hD'
    by_cases hp : (1, j) = (l, i)
    · exact (hu j c hc ho).1 hp
    · rw [(hu j c hc ho).2 hp]
      refine h.upd j c hc ho ?_ D ha.1
      rw [e1, Fit.updPos_snoc] at hm
      simpa [upd?, hp] using hm
  · rw [e5, e3]; exact h.snap
  · intro l' i' D' r hm
    rw [e1] at hm
    rcases List.mem_append.1 hm with hm | hm
    · rw [e5]; exact h.gens l' i' D' r hm
    · simp at hm
  · intro r hm
    rcases List.mem_append.1 hm with hm | hm
    · exact h.ip r hm
    · simp at hm
  · rw [e3, e6]; exact h.count

/-- `update_subproblem`. -/
theorem Mid.update (hf : FitOk d A X py) (hc : FitContract d A X o tol) {maxIt : ℤ} {limit : ℚ} {w : World Ω} {l i : ℕ} {D : Duals} (hy : w.y = py)
    (h : Mid d A X py o tol w.master w.numCuts w.subs tr old new)
    (ha : Allowed (config A maxIt limit) tr (.update l i D (updateAt A X l i D w).1)) :
    (updateAt A X l i D w).2.y = py ∧ Mid d A X py o tol (updateAt A X l i D w).2.master (updateAt A X l i D w).2.numCuts (updateAt A X l i D w).2.subs
      (tr ++ [.update l i D (updateAt A X l i D w).1]) old new := by
  obtain ⟨hm, hn⟩ := upd_pos ha
  obtain ⟨D', s, s', cols, hD, hsnap, hnew, -, -, -⟩ := h.snap _ ha.1
  cases hD
  rcases pos_cases hm X py with ⟨rfl, rfl⟩ | ⟨rfl, c, hci⟩
  · have h0 : w.numCuts = old.length := by rw [h.heur]; unfold recv; rw [if_neg hn]
    have hcf : CutsFilled w.heur.splits (old ++ D.newCuts) := by rw [hnew]; exact h.del.1
    obtain ⟨u1, u2⟩ := C49_update (st := w.heur) (D := D) h0 hcf
    have e1 : (updateAt A X 0 0 D w).1 = .ok () := rfl
    have e2 : (updateAt A X 0 0 D w).2.master = w.master := by
      change { w.master with splits := (HConf.update D w.heur).splits } = w.master
      rw [u1]
      rfl
    rw [e1, e2]
    refine ⟨hy, h.updated (by rw [e1] at ha; exact ha) ?_ ?_ ?_⟩
    · rw [recv_upd, if_pos rfl, ← hnew]
      exact u2
    · intro j c hj
      rw [recv_upd, if_neg (by simp)]
      exact h.subs j c hj
    · intro j c hj _
      exact ⟨fun he => by simp at he, fun _ => rfl⟩
  · obtain ⟨st', hu⟩ := hsnap.update_ok hf hc (List.mem_of_getElem? hci) (w.subs i)
    have hlen := hsnap.cutlen hf hc
    have hsub : SubReached c old (w.subs i) := by
      have := h.subs i c hci
      unfold recv at this
      rwa [if_neg hn] at this
    have e0 : updateAt A X 1 i D w = (.ok (), { w with subs := Function.update w.subs i st' }) := by
      unfold updateAt
      rw [if_neg one_ne_zero, hy, hci]
      simp only
      rw [hu]
    rw [e0] at ha ⊢
    refine ⟨hy, h.updated ha ?_ ?_ ?_⟩
    · rw [recv_upd, if_neg (by simp)]
      exact h.heur
    · intro j c' hj
      rw [recv_upd]
      by_cases hji : j = i
      · subst hji
        rw [hci] at hj
        cases hj
        rw [if_pos rfl, ← hnew]
        simp only [Function.update_self]
        exact .update hsub D (by rw [hlen, List.length_append]) hu
      · rw [if_neg (by simpa using hji)]
        simp only [Function.update_of_ne hji]
        exact h.subs j c' hj
    · intro j c' hj ho
      constructor
      · intro he
        obtain rfl : j = i := by simpa using he
        rw [hci] at hj
        cases hj
        exact ⟨_, hsub, by simpa using hu⟩
      · intro hne
        have hji : j ≠ i := by simpa using hne
        simp only [Function.update_of_ne hji]

/-- The parts of the invariant that only concern the trace, for pricing. -/
theorem Mid.priced (h : Mid d A X py o tol M k subs tr old new) {l i : ℕ} {D : Duals} {cols : List Path} {subs' : ℕ → SubSt}
    (hl : lastDuals tr = some (.ok D)) (hs : ∀ (j : ℕ) c, (A.subConfs X py)[j]? = some c → SubReached c (recv tr old new (1, j)) (subs' j))
    (hu : ∀ (j : ℕ) c, (A.subConfs X py)[j]? = some c → c.isOld = true → subs' j = subs j)
    (hcols : ∀ p ∈ cols, ColOk d A X py p ∧ colRed d X A.splits (old ++ new) D p > 1 / 1000000)
    (hg : l ≠ 0 → ∃ c, (A.subConfs X py)[i]? = some c ∧ GenRec o c old new D cols) :
    Mid d A X py o tol M k subs' (tr ++ [.generate l i D (.ok cols)]) old new := by
  have e1 := round_snoc' (tr := tr) (e := .generate l i D (.ok cols)) rfl
  have e2 : updPos (round (tr ++ [.generate l i D (.ok cols)])) = updPos (round tr) := by rw [e1, Fit.updPos_snoc]; simp [upd?]
  have e3 : accPos (round (tr ++ [.generate l i D (.ok cols)])) = accPos (round tr) := by rw [e1, Fit.accPos_snoc]; simp [accepted?]
  have e4 : ∀ pos, recv (tr ++ [.generate l i D (.ok cols)]) old new pos = recv tr old new pos := by intro pos; unfold recv; rw [e2]
  have e5 := Fit.lastDuals_snoc (tr := tr) (e := .generate l i D (.ok cols)) rfl
  have e6 := numRmp_snoc' (tr := tr) (e := .generate l i D (.ok cols)) rfl
  refine ⟨?_, h.reached, h.origin, evOk_snoc h.ev ⟨rfl, fun _ _ _ _ h => (by cases h), fun _ h => (by cases h)⟩, h.del, ?_, ?_, ?_, ?_, ?_, ?_, ?_, ?_⟩
  · obtain ⟨y, r, hm⟩ := h.gen
    exact ⟨y, r, List.mem_append_left _ hm⟩
  · rw [e6]; exact h.start
  · rw [e4]; exact h.heur
  · intro j c hj; rw [e4]; exact hs j c hj
  · rw [e2, e5]
    intro j c hj ho hm D' hD'
    rw [hu j c hj ho]
    exact h.upd j c hj ho hm D' hD'
  · rw [e5, e3]; exact h.snap
  · intro l' i' D' r hm
    rw [e5]
    rw [e1] at hm
    rcases List.mem_append.1 hm with hm | hm
    · exact h.gens l' i' D' r hm
    · rw [List.mem_singleton] at hm
      cases hm
      exact ⟨hl, cols, rfl, hcols, hg⟩
  · intro r hm
    rcases List.mem_append.1 hm with hm | hm
    · exact h.ip r hm
    · simp at hm
  · rw [e3, e6]; exact h.count

/-- `generate_columns`. -/
theorem Mid.generate (hf : FitOk d A X py) (hc : FitContract d A X o tol) {maxIt : ℤ} {limit : ℚ} {w : World Ω} {l i : ℕ} {D : Duals} (hy : w.y = py)
    (h : Mid d A X py o tol w.master w.numCuts w.subs tr old new)
    (ha : Allowed (config A maxIt limit) tr (.generate l i D (generateAt o A X l i D w).1)) :
    (generateAt o A X l i D w).2.y = py ∧ Mid d A X py o tol (generateAt o A X l i D w).2.master (generateAt o A X l i D w).2.numCuts
      (generateAt o A X l i D w).2.subs (tr ++ [.generate l i D (generateAt o A X l i D w).1]) old new := by
  have hm : (l, i) ∈ allPositions (config A maxIt limit).shape := ha.2.2.1.subset (by simp)
  obtain ⟨D', s, s', cols, hD, hsnap, hnew, -, -, -⟩ := h.snap _ ha.1
  cases hD
  have hrecv : ∀ pos ∈ allPositions (config A maxIt limit).shape, recv tr old new pos = old ++ new := by
    intro pos hp
    unfold recv
    rw [ha.2.1, if_pos hp]
  obtain ⟨cuts0, own0, cd0, hi0⟩ := reached_inv hf.setup (marked_good hf) hc.cut h.reached
  rcases pos_cases hm X py with ⟨rfl, rfl⟩ | ⟨rfl, c, hci⟩
  · obtain ⟨ps, st', g1, g2, g3, g4⟩ := hsnap.heurCols hf hc (st := w.heur) hi0.same (by rw [hnew]; exact h.del.1) w.ω
    have e0 : generateAt o A X 0 0 D w = (.ok ps, { w.setHeur st' with ω := (o.draws w.ω).2 }) := by
      unfold generateAt
      rw [if_pos rfl, hy]
      simp only
      rw [g1]
    have e2 : ({ w.setHeur st' with ω := (o.draws w.ω).2 } : World Ω).master = w.master := by
      change { w.master with splits := st'.splits } = w.master
      rw [g2]
      rfl
    have e3 : ({ w.setHeur st' with ω := (o.draws w.ω).2 } : World Ω).numCuts = w.numCuts := g3
    rw [e0]
    simp only
    rw [e2, e3]
    refine ⟨hy, h.priced ha.1 h.subs (fun _ _ _ _ => rfl) (by rw [← hnew]; exact g4) (fun h0 => absurd rfl h0)⟩
  · have hpos := hrecv _ hm
    have hsub := h.subs i c hci
    rw [hpos] at hsub
    cases hk : c.isOld with
    | true =>
      obtain ⟨st, hst, hu⟩ := h.upd i c hci hk (by rw [ha.2.1]; exact hm) D ha.1
      have e0 : generateAt o A X 1 i D w = (.ok (c.generateMip (w.subs i) (o.mip (w.subs i).m w.ω).1), { w with ω := (o.mip (w.subs i).m w.ω).2 }) := by
        unfold generateAt
        rw [if_neg one_ne_zero, hy, hci]
        simp only
        unfold priceAt
        rw [if_pos hk, ← hy]
      rw [e0]
      refine ⟨hy, h.priced ha.1 h.subs (fun _ _ _ _ => rfl) ?_ (fun _ => ⟨c, hci, Or.inr ⟨hk, st, _, w.ω, hst, hu, rfl⟩⟩)⟩
      rw [← hnew]
      exact hsnap.oldCols hf hc (List.mem_of_getElem? hci) hk hst hu w.ω
    | false =>
      rw [← hnew] at hsub
      obtain ⟨ps, st', g1, g2⟩ := hsnap.satCols hf hc (List.mem_of_getElem? hci) hk hsub w.ω
      have e0 : generateAt o A X 1 i D w = (.ok ps, { w with
          subs := Function.update w.subs i st'
          ω := (o.sols st'.m w.ω).2 }) := by
        unfold generateAt
        rw [if_neg one_ne_zero, hy, hci]
        simp only
        unfold priceAt
        rw [if_neg (by rw [hk]; simp)]
        simp only
        rw [g1, ← hy]
      rw [e0]
      refine ⟨hy, h.priced ha.1 ?_ ?_ (by rw [← hnew]; exact g2) (fun _ => ⟨c, hci, Or.inl ⟨hk, _, st', w.ω, by rw [← hnew]; exact hsub, g1⟩⟩)⟩
      · intro j c' hj
        by_cases hji : j = i
        · subst hji
          rw [hci] at hj
          cases hj
          simp only [Function.update_self]
          rw [hpos, ← hnew]
          have := SubReached.price hsub D (hsnap.cutlen hf hc) (fun m => (o.sols m w.ω).1)
          rw [g1] at this
          exact this
        · simp only [Function.update_of_ne hji]
          exact h.subs j c' hj
      · intro j c' hj ho
        have hji : j ≠ i := by
          rintro rfl
          rw [hci] at hj
          cases hj
          rw [hk] at ho
          cases ho
        simp only [Function.update_of_ne hji]

theorem Spec.ColOk.setId {p : Path} (h : ColOk d A X py p) (i : ℕ) : ColOk d A X py { p with id := i } :=
  ⟨addPathVar_good h.good i, h.cand, h.nat, h.hits, h.target⟩

theorem addColumn_rmpObj {c : Conf} {p : Path} {s : MS} (hok : (addColumn c p s).1 = .ok true) : (addColumn c p s).2.rmpObj = s.rmpObj := by
  unfold addColumn at hok ⊢
  simp only at hok ⊢
  split at hok
  · cases hok
  · rename_i rows hr
    split at hok
    · cases hok
    · rename_i cs hc
      simp only [hr, hc]

theorem sigs_append (l : List Path) (p : Path) : sigs d (l ++ [p]) = insert (sigOf d p) (sigs d l) := by
  unfold sigs
  rw [List.map_append, List.toFinset_append]
  ext x
  simp [or_comm]

/-- `add_column`. -/
theorem Mid.add (h : Mid d A X py o tol M k subs tr old new) (hf : FitOk d A X py) (hc : FitContract d A X o tol) {cfg : Fit.Config} {l i : ℕ} {p : Path}
    (ha : Allowed cfg tr (.add l i p (addColumn (A.masterConf X) p M).1)) :
    Mid d A X py o tol (addColumn (A.masterConf X) p M).2 k subs (tr ++ [.add l i p (addColumn (A.masterConf X) p M).1]) old new := by
  obtain ⟨⟨cols, hlast, hpre⟩, -, -, hnip⟩ := ha
  have hpc : p ∈ cols := hpre.subset (by simp)
  obtain ⟨D, hgm⟩ := Fit.mem_of_genRes hlast
  obtain ⟨hlD, cols', hcc, hok, -⟩ := h.gens _ _ _ _ hgm
  cases hcc
  obtain ⟨hcol, hred⟩ := hok p hpc
  obtain ⟨cuts0, own0, cd0, hi0⟩ := reached_inv hf.setup (marked_good hf) hc.cut h.reached
  obtain ⟨a1, -, a3, -⟩ := inv_addColumn hf.setup.depth hf.setup.tree hf.setup.filled hi0 hcol.good
  have hobj := addColumn_rmpObj a1
  rw [a1]
  obtain ⟨D', s, s', cols', hD, hsnap, hnew, hsobj, hspaths, hnil⟩ := h.snap _ hlD
  cases hD
  have e1 := round_snoc' (tr := tr) (e := .add l i p (.ok true)) rfl
  have e2 : updPos (round (tr ++ [.add l i p (.ok true)])) = updPos (round tr) := by rw [e1, Fit.updPos_snoc]; simp [upd?]
  have e3 : accPos (round (tr ++ [.add l i p (.ok true)])) = accPos (round tr) ++ [(l, i)] := by rw [e1, Fit.accPos_snoc]; simp [accepted?]
  have e4 : ∀ pos, recv (tr ++ [.add l i p (.ok true)]) old new pos = recv tr old new pos := by intro pos; unfold recv; rw [e2]
  have e5 := Fit.lastDuals_snoc (tr := tr) (e := .add l i p (.ok true)) rfl
  have e6 := numRmp_snoc' (tr := tr) (e := .add l i p (.ok true)) rfl
  refine ⟨?_, .column h.reached p hcol.good, ?_, evOk_snoc h.ev ⟨rfl, ?_, fun _ h => (by cases h)⟩, ?_, ?_, ?_, ?_, ?_, ?_, ?_, ?_, ?_⟩
  · obtain ⟨y, r, hm⟩ := h.gen
    exact ⟨y, r, List.mem_append_left _ hm⟩
  · intro q hq
    rw [a3] at hq
    rcases List.mem_append.1 hq with hq | hq
    · exact h.origin q hq
    · rw [List.mem_singleton.1 hq]
      exact Or.inr (hcol.setId _)
  · intro _ _ _ r he; cases he; rfl
  · exact ((C68_cuts_delivered hf.setup (marked_good hf) hc.cut).2 M h.reached _ h.del).2 p hcol.good
  · rw [e6]; exact h.start
  · rw [e4]; exact h.heur
  · intro j c hj; rw [e4]; exact h.subs j c hj
  · rw [e2, e5]; exact h.upd
  · intro r hr
    rw [e5, hlD] at hr
    cases hr
    refine ⟨D, s, s', cols' ++ [_], rfl, hsnap, hnew, hobj.trans hsobj, by rw [a3, hspaths, List.append_assoc], ?_⟩
    rw [e3]
    intro h0
    simp at h0
  · intro l' i' D' r hm
    rw [e5]
    rw [e1] at hm
    rcases List.mem_append.1 hm with hm | hm
    · exact h.gens l' i' D' r hm
    · simp at hm
  · intro r hm
    rcases List.mem_append.1 hm with hm | hm
    · exact absurd ⟨r, hm⟩ hnip
    · simp at hm
  · rw [e3, e6, a3, sigs_append, sigOf_id]
    have key : numRmp tr ≤ (insert (sigOf d p) (sigs d M.paths)).card := by
      by_cases h0 : accPos (round tr) = []
      · have hnot : sigOf d p ∉ sigs d M.paths := by
          intro hm
          obtain ⟨q, hq, he⟩ := List.mem_map.1 (List.mem_toFinset.1 hm)
          rw [hspaths, hnil h0, List.append_nil] at hq
          have h1 := hsnap.optimal hf hc q hq
          have hqw : WFPath d q := by
            rw [hnil h0, List.append_nil] at hspaths
            rw [← hspaths] at hq
            exact (hi0.good q hq).1
          rw [colRed_sig hqw hcol.good.1 he, hnew] at h1
          have := hc.tol_le
          linarith
        rw [Finset.card_insert_of_notMem hnot]
        exact h.count.1
      · exact (h.count.2 h0).trans (Finset.card_le_card (Finset.subset_insert _ _))
    exact ⟨by omega, fun _ => key⟩

/-- `solve_ip`. -/
theorem Mid.ipSolve (h : Mid d A X py o tol M k subs tr old new) (hf : FitOk d A X py) (hc : FitContract d A X o tol) :
    Mid d A X py o tol (solveIp o.master M).2 k subs (tr ++ [.solveIp (solveIp o.master M).1]) old new := by
  obtain ⟨cuts0, own0, cd0, hi0⟩ := reached_inv hf.setup (marked_good hf) hc.cut h.reached
  obtain ⟨h1, -, B, h3⟩ := master_solvable hf hc.cut h.reached
  have hst := hc.ip M h.reached h1 ⟨B, fun a ha => h3 a ha.toFeasibleLP⟩
  have e0 : solveIp o.master M = (.ok true, { M with selected := M.paths.filter (fun p => decide ((o.master.ip M.m).values p.id > 0)) }) := by
    unfold solveIp
    rw [if_pos hi0.gen]
    simp only
    rw [if_pos hst]
  have hr : MasterState d A X o (solveIp o.master M).2 := .ip h.reached
  have hM : (solveIp o.master M).1 = .ok true := by rw [e0]
  have e1 := round_snoc' (tr := tr) (e := .solveIp (.ok true)) rfl
  have e2 : updPos (round (tr ++ [.solveIp (.ok true)])) = updPos (round tr) := by rw [e1, Fit.updPos_snoc]; simp [upd?]
  have e3 : accPos (round (tr ++ [.solveIp (.ok true)])) = accPos (round tr) := by rw [e1, Fit.accPos_snoc]; simp [accepted?]
  have e4 : ∀ pos, recv (tr ++ [.solveIp (.ok true)]) old new pos = recv tr old new pos := by intro pos; unfold recv; rw [e2]
  have e5 := Fit.lastDuals_snoc (tr := tr) (e := .solveIp (.ok true)) rfl
  have e6 := numRmp_snoc' (tr := tr) (e := .solveIp (.ok true)) rfl
  have e7 : (solveIp o.master M).2.paths = M.paths := by rw [e0]
  have e8 : (solveIp o.master M).2.rmpObj = M.rmpObj := by rw [e0]
  rw [hM]
  refine ⟨?_, hr, ?_, evOk_snoc h.ev ⟨rfl, fun _ _ _ _ h => (by cases h), ?_⟩, ?_, ?_, ?_, ?_, ?_, ?_, ?_, ?_, ?_⟩
  · obtain ⟨y, r, hm⟩ := h.gen
    exact ⟨y, r, List.mem_append_left _ hm⟩
  · rw [e7]; exact h.origin
  · intro r he; cases he; rfl
  · rw [e0]; exact h.del
  · rw [e6]; exact h.start
  · rw [e4]; exact h.heur
  · intro j c hj; rw [e4]; exact h.subs j c hj
  · rw [e2, e5]; exact h.upd
  · rw [e5, e3, e7, e8]; exact h.snap
  · intro l' i' D' r hm
    rw [e5]
    rw [e1] at hm
    rcases List.mem_append.1 hm with hm | hm
    · exact h.gens l' i' D' r hm
    · simp at hm
  · intro r _
    exact ⟨M, h.reached, rfl, hM⟩
  · rw [e3, e6, e7]; exact h.count

theorem solveIp_paths (o : Oracle) (s : MS) : (solveIp o s).2.paths = s.paths := by
  unfold solveIp
  simp only
  split_ifs <;> rfl

theorem Warm.ipSolve {cuts : List (List Bool)} (h : Warm d A X py o M k subs cuts) : Warm d A X py o (solveIp o.master M).2 k subs cuts := by
  refine ⟨.ip h.reached, by rw [solveIp_paths]; exact h.origin, ?_, h.heur, h.subs⟩
  have hd := h.del
  unfold solveIp
  simp only
  split_ifs <;> exact hd

/-- The invariant of `fit`. -/
def FitInv (d : ℕ) (A : Args) (X : List (List ℚ)) (py : List ℕ) (o : FitOracle Ω) (tol : ℚ) (w : World Ω) (tr : DTrace) : Prop :=
  (w.master = MS.init (marked A) A.splits A.dataRows ∧ w.numCuts = 0 ∧ w.subs = (fun _ => SubSt.new) ∧ ∀ y r, Ev.generateMp y r ∉ tr) ∨
  ((∃ cuts, Warm d A X py o w.master w.numCuts w.subs cuts) ∧ ∀ y r, Ev.generateMp y r ∉ tr) ∨
  (w.y = py ∧ ∃ old new, Mid d A X py o tol w.master w.numCuts w.subs tr old new)

theorem fitInv_neutral {w : World Ω} (h : FitInv d A X py o tol w tr) {e : Ev Duals Path} (h0 : ∀ y r, e ≠ .generateMp y r)
    (h1 : isRmp e = false) (h2 : upd? e = none)
    (h3 : isGen e = false) (h4 : accepted? e = none) (h5 : EvOk e) (h6 : ∀ r, e ≠ .solveIp r) : FitInv d A X py o tol w (tr ++ [e]) := by
  rcases h with ⟨a, b, c, hn⟩ | ⟨a, hn⟩ | ⟨hy, old, new, h⟩
  · refine Or.inl ⟨a, b, c, ?_⟩
    intro y r hm
    rcases List.mem_append.1 hm with hm | hm
    · exact hn y r hm
    · exact h0 y r (List.mem_singleton.1 hm).symm
  · refine Or.inr (Or.inl ⟨a, ?_⟩)
    intro y r hm
    rcases List.mem_append.1 hm with hm | hm
    · exact hn y r hm
    · exact h0 y r (List.mem_singleton.1 hm).symm
  · exact Or.inr <| Or.inr ⟨hy, old, new, h.neutral h1 h2 h3 h4 h5 h6⟩

theorem fitInv_mid {w : World Ω} (h : FitInv d A X py o tol w tr) (hm : ∃ y r, Ev.generateMp y r ∈ tr) :
    w.y = py ∧ ∃ old new, Mid d A X py o tol w.master w.numCuts w.subs tr old new := by
  rcases h with ⟨-, -, -, hn⟩ | ⟨-, hn⟩ | h
  · obtain ⟨y, r, hm⟩ := hm
    exact absurd hm (hn y r)
  · obtain ⟨y, r, hm⟩ := hm
    exact absurd hm (hn y r)
  · exact h

theorem gen_of_lastDuals {cfg : Fit.Config} (hp : Protocol cfg tr) {r} (h : lastDuals tr = some r) : ∃ y r, Ev.generateMp y r ∈ tr := by
  obtain ⟨y, hy⟩ := Fit.generateMp_of_rmp hp (Fit.rmp_of_lastDuals h)
  exact ⟨y, _, hy⟩

theorem fitInv_guided (hf : FitOk d A X py) (hc : FitContract d A X o tol) (maxIt : ℤ) (limit : ℚ) :
    Guided (env o A X) (config A maxIt limit) py (FitInv d A X py o tol) where
  clock w tr h := h
  timer w tr t _ h := fitInv_neutral h (by simp) rfl rfl rfl rfl ⟨rfl, fun _ _ _ _ h => (by cases h), fun _ h => (by cases h)⟩ (by simp)
  check w tr s t _ h := fitInv_neutral h (by simp) rfl rfl rfl rfl ⟨rfl, fun _ _ _ _ h => (by cases h), fun _ h => (by cases h)⟩ (by simp)
  flag w tr _ h := fitInv_neutral h (by simp) rfl rfl rfl rfl ⟨rfl, fun _ _ _ _ h => (by cases h), fun _ h => (by cases h)⟩ (by simp)
  clear w tr h := h
  generateMp w t h := by
    rcases h with ⟨a, b, c, -⟩ | ⟨⟨cuts, h⟩, -⟩ | ⟨-, old, new, h⟩
    · obtain ⟨h1, h2⟩ := Mid.init hf hc t
      have e1 : ((env o A X).generateMp py w).1 = .ok () := by
        change (DTree.generateMp (A.masterConf X) w.master).1 = _
        rw [a]; exact h1
      rw [e1]
      refine Or.inr <| Or.inr ⟨rfl, [], [], ?_⟩
      change Mid d A X py o tol (DTree.generateMp (A.masterConf X) w.master).2 w.numCuts w.subs _ _ _
      rw [a, b, c]
      exact h2
    · obtain ⟨h1, h2⟩ := Mid.again hf hc t h
      refine Or.inr <| Or.inr ⟨rfl, cuts, [], ?_⟩
      change Mid d A X py o tol (DTree.generateMp (A.masterConf X) w.master).2 w.numCuts w.subs
        [.timer t, .generateMp py (DTree.generateMp (A.masterConf X) w.master).1] _ _
      rw [h1]
      exact h2
    · obtain ⟨y, r, hm⟩ := h.gen
      simp at hm
  solveRmp w tr hp ha h := by
    obtain ⟨hy, old, new, h⟩ := fitInv_mid h (by obtain ⟨y, hy⟩ := ha.1; exact ⟨y, _, hy⟩)
    obtain ⟨new', h⟩ := h.rmp hf hc ha
    exact Or.inr <| Or.inr ⟨hy, _, new', h⟩
  improved w tr hp ha h := fitInv_neutral h (by simp) rfl rfl rfl rfl ⟨rfl, fun _ _ _ _ h => (by cases h), fun _ h => (by cases h)⟩ (by simp)
  update w tr l i D hp ha h := by
    obtain ⟨hy, old, new, h⟩ := fitInv_mid h (gen_of_lastDuals hp ha.1)
    obtain ⟨h1, h2⟩ := Mid.update hf hc hy h ha
    exact Or.inr <| Or.inr ⟨h1, old, new, h2⟩
  generate w tr l i D hp ha h := by
    obtain ⟨hy, old, new, h⟩ := fitInv_mid h (gen_of_lastDuals hp ha.1)
    obtain ⟨h1, h2⟩ := Mid.generate hf hc hy h ha
    exact Or.inr <| Or.inr ⟨h1, old, new, h2⟩
  add w tr l i c hp ha h := by
    have hm : ∃ y r, Ev.generateMp y r ∈ tr := by
      obtain ⟨⟨cols, hlast, -⟩, -⟩ := ha
      obtain ⟨D, hg⟩ := Fit.mem_of_genRes hlast
      obtain ⟨pre, post, he⟩ := List.append_of_mem (Fit.since_subset _ _ _ hg)
      obtain ⟨y, hy⟩ := Fit.generateMp_of_rmp hp (by rw [he]; exact List.mem_append_left _ (Fit.rmp_of_lastDuals (hp pre _ post he).1))
      exact ⟨y, _, hy⟩
    obtain ⟨hy, old, new, h⟩ := fitInv_mid h hm
    exact Or.inr <| Or.inr ⟨hy, old, new, h.add hf hc ha⟩
  solveIp w tr hp ha h := by
    rcases h with ⟨a, b, c, hn⟩ | ⟨⟨cuts, h⟩, hn⟩ | ⟨hy, old, new, h⟩
    · refine Or.inl ⟨?_, b, c, ?_⟩
      · change (DTree.solveIp o.master w.master).2 = _
        rw [a]
        rfl
      · intro y r hm
        rcases List.mem_append.1 hm with hm | hm
        · exact hn y r hm
        · simp at hm
    · refine Or.inr <| Or.inl ⟨⟨cuts, h.ipSolve⟩, ?_⟩
      intro y r hm
      rcases List.mem_append.1 hm with hm | hm
      · exact hn y r hm
      · simp at hm
    · exact Or.inr <| Or.inr ⟨hy, old, new, h.ipSolve hf hc⟩

end Verif.DTree
