import Verif.DTree.FloatPrice
import Verif.DTree.CutProps
import Verif.DTree.FloatRounds

/-!
# C127: the integer programs given to CP-SAT stay in the range of 64 bit integers

CP-SAT works with 64 bit integers: coefficients and bounds must be integers, and it rejects a model (`MODEL_INVALID`) when the sum of the
absolute values of the terms of an expression can leave the range. The code gives it two kinds of models: the pricing problem of
`DTreeSubProblemSat` (`_dtree_classifier.py:1615-1856`) and the cut generation model of the master problem (lines 880-939). The constant term
`- leaf_dual` of the pricing objective is a float that CP-SAT keeps apart; it is not part of the claim.
-/

namespace Verif.DTree

open MP Spec

/-- The largest 64 bit integer. -/
def Spec.int64Max : ℚ := 2 ^ 63 - 1

/-- An absent bound, or an integer of absolute value at most `B`. -/
def Spec.IntBound (B : ℚ) : Option ℚ → Prop
  | none => True
  | some x => (∃ z : ℤ, x = z) ∧ |x| ≤ B

/-- A model of 0/1 variables with integer data in which neither the objective nor a constraint can leave the range `-M..M`. -/
structure Spec.IntModel (M : ℚ) (m : Model) : Prop where
  bool : ∀ v ∈ m.vars, v.lb = some 0 ∧ v.ub = some 1 ∧ v.int = true
  obj_int : ∀ i, ∃ z : ℤ, m.obj i = z
  obj_sum : ∑ i ∈ Finset.range m.vars.length, |m.obj i| ≤ M
  con_int : ∀ k ∈ m.cons, ∀ i, ∃ z : ℤ, k.coeff i = z
  con_sum : ∀ k ∈ m.cons, ∃ B, ∑ i ∈ Finset.range m.vars.length, |k.coeff i| + B ≤ M ∧ IntBound B k.lb ∧ IntBound B k.ub

theorem coeffOf_cases (ts : List (ℕ × ℚ)) (v : ℕ) : coeffOf ts v = 0 ∨ ∃ t ∈ ts, coeffOf ts v = t.2 := by
  induction ts using List.reverseRecOn with
  | nil => exact Or.inl rfl
  | append_singleton ts t ih =>
    rw [coeffOf_append]
    by_cases h : v = t.1
    · subst h
      exact Or.inr ⟨t, by simp, by simp⟩
    · rw [Function.update_of_ne h]
      rcases ih with h1 | ⟨u, hu, h1⟩
      · exact Or.inl h1
      · exact Or.inr ⟨u, by simp [hu], h1⟩

theorem abs_sum_terms {st : SubSt} {own : List SV} {lins : List Lin} (h : SRep st own lins) (terms : List (SV × ℚ))
    (ht : ∀ t ∈ terms, t.1 ∈ own) (hn : (terms.map (·.1)).Nodup) :
    ∑ i ∈ Finset.range st.m.vars.length, |coeffOf (terms.map (fun t => (st.idx t.1, t.2))) i| ≤ (terms.map (fun t => |t.2|)).sum := by
  set f := coeffOf (terms.map (fun t => (st.idx t.1, t.2))) with hf
  have key := activity_terms h terms ht hn (fun i => if 0 ≤ f i then 1 else -1)
  rw [← hf] at key
  have e : ∑ i ∈ Finset.range st.m.vars.length, |f i| = activity st.m.vars.length f (fun i => if 0 ≤ f i then 1 else -1) := by
    unfold activity
    refine Finset.sum_congr rfl (fun i _ => ?_)
    by_cases hi : 0 ≤ f i
    · simp only [if_pos hi, abs_of_nonneg hi, mul_one]
    · simp only [if_neg hi, abs_of_neg (not_le.1 hi)]
      ring
  rw [e, key]
  refine List.sum_le_sum (fun t _ => ?_)
  by_cases hi : 0 ≤ f (st.idx t.1)
  · simp only [if_pos hi, mul_one]
    exact le_abs_self _
  · simp only [if_neg hi]
    rw [mul_neg, mul_one]
    exact neg_le_abs _

/-- Every constraint of a pricing problem has coefficients 1 and -1 and integer bounds of absolute value at most the depth. -/
theorem lin_small {d : ℕ} {c : SubConf} (h : SubOk d c) {cuts : List (List Bool)} {k : Lin} (hk : k ∈ c.allLins cuts) :
    (∀ t ∈ k.terms, t.2 = 1 ∨ t.2 = -1) ∧ IntBound d k.lb ∧ IntBound d k.ub := by
  have hd : (1 : ℚ) ≤ d := by exact_mod_cast h.pos
  have b0 : IntBound d (some 0) := ⟨⟨0, by simp⟩, by simp⟩
  have b1 : IntBound d (some 1) := ⟨⟨1, by simp⟩, by simpa using hd⟩
  have hfol : ∀ (left : ℕ → Bool) (o : SV), k ∈ c.follow left o → (∀ t ∈ k.terms, t.2 = 1 ∨ t.2 = -1) ∧ IntBound d k.lb ∧ IntBound d k.ub := by
    intro left o hk
    unfold SubConf.follow at hk
    rcases List.mem_cons.1 hk with rfl | hk
    · refine ⟨?_, trivial, ⟨⟨(c.depth : ℤ) - 1, by push_cast; ring⟩, ?_⟩⟩
      · intro t ht
        rcases List.mem_cons.1 ht with rfl | ht
        · exact Or.inr rfl
        · obtain ⟨n, _, ht⟩ := List.mem_flatMap.1 ht
          obtain ⟨s, _, rfl⟩ := List.mem_map.1 ht
          exact Or.inl rfl
      · rw [h.depth, abs_of_nonneg (by linarith)]
        linarith
    · obtain ⟨n, _, rfl⟩ := List.mem_map.1 hk
      refine ⟨?_, trivial, b0⟩
      intro t ht
      rcases List.mem_cons.1 ht with rfl | ht
      · exact Or.inl rfl
      · obtain ⟨s, _, rfl⟩ := List.mem_map.1 ht
        exact Or.inr rfl
  unfold SubConf.allLins at hk
  rcases List.mem_append.1 hk with hk | hk
  · rcases List.mem_append.1 hk with hk | hk
    · rcases List.mem_append.1 hk with hk | hk
      · obtain ⟨n, _, rfl⟩ := List.mem_map.1 hk
        refine ⟨?_, b1, b1⟩
        intro t ht
        obtain ⟨s, _, rfl⟩ := List.mem_map.1 ht
        exact Or.inl rfl
      · obtain ⟨i, _, hk⟩ := List.mem_flatMap.1 hk
        exact hfol _ _ hk
    · split at hk
      · simp at hk
      · rcases List.mem_cons.1 hk with rfl | hk
        · refine ⟨?_, ?_, b1⟩
          · intro t ht
            obtain ⟨s, _, rfl⟩ := List.mem_map.1 ht
            exact Or.inl rfl
          · unfold SubConf.single
            dsimp only
            split
            · exact b1
            · exact b0
        · obtain ⟨i, _, hk⟩ := List.mem_flatMap.1 hk
          simp only [List.mem_cons, List.not_mem_nil, or_false] at hk
          rcases hk with rfl | rfl
          all_goals
            refine ⟨?_, trivial, b0⟩
            intro t ht
            simp only [List.mem_cons, List.not_mem_nil, or_false] at ht
            rcases ht with rfl | rfl
            · exact Or.inl rfl
            · exact Or.inr rfl
  · obtain ⟨r, _, hk⟩ := List.mem_flatMap.1 hk
    exact hfol _ _ hk

theorem sum_le_card (l : List (SV × ℚ)) (h : ∀ t ∈ l, t.2 = 1 ∨ t.2 = -1) : (l.map (fun t => |t.2|)).sum = l.length := by
  induction l with
  | nil => simp
  | cons t l ih =>
    have h1 : |t.2| = 1 := by rcases h t (by simp) with h | h <;> rw [h] <;> simp
    rw [List.map_cons, List.sum_cons, ih (fun u hu => h u (by simp [hu])), h1]
    push_cast [List.length_cons]
    ring

theorem scaled_abs (l : List (SV × ℚ)) : (l.map (fun t => |scaleObj t.2|)).sum ≤ 100000 * (l.map (fun t => |t.2|)).sum + l.length / 2 := by
  induction l with
  | nil => simp
  | cons t l ih =>
    have h1 := abs_le.1 (scaleObj_err t.2)
    have h2 : |scaleObj t.2| ≤ |t.2| * 100000 + 1 / 2 := by
      rw [abs_le]
      have := neg_abs_le t.2
      have := le_abs_self t.2
      constructor <;> linarith [h1.1, h1.2]
    simp only [List.map_cons, List.sum_cons, List.length_cons]
    push_cast
    linarith

/-- **C127, pricing.** Whenever `generate_columns` of `DTreeSubProblemSat` calls CP-SAT, after any sequence of earlier calls, the model has 0/1
variables and integer data; no constraint exceeds the number of variables plus the depth, and the objective does not exceed `100000` times the
absolute sum of the row weights and duals plus half a unit per term. -/
theorem C127_pricing {d : ℕ} {c : SubConf} (h : SubOk d c) (hk : c.kind = .sat) {cuts : List (List Bool)} {st st' : SubSt}
    (hr : SubReached c cuts st) {D : Duals} (hD : D.cut.length = cuts.length) {sols : Model → List (ℕ → ℚ)} {ps : List Path}
    (hgen : c.generateSat D sols st = (.ok ps, st')) {M : ℚ}
    (hM : 100000 * (magnitude d c cuts D - |D.leaf.getD c.leaf.id 0|) + numTerms d c cuts / 2 ≤ M)
    (hM' : (numTerms d c cuts + c.targets.length + d : ℚ) ≤ M) : IntModel M st'.m := by
  have hold : c.isOld = false := by unfold SubConf.isOld; rw [hk]
  unfold SubConf.generateSat at hgen
  cases hrf : c.refresh D st with
  | error e => rw [hrf] at hgen; cases hgen
  | ok st1 =>
    rw [hrf] at hgen
    have e1 : st1 = st' := congrArg Prod.snd hgen
    subst e1
    obtain ⟨_, own, lins, hi, ho⟩ := refresh_inv h (hr.state h) hD.ge hrf
    have hlen : own.length = numTerms d c cuts + c.targets.length := by
      rw [hi.vars.length_eq, ← objTerms_length h D cuts hold]
      have e : (c.objTerms D cuts.length).length = ((c.objTerms D cuts.length).map (·.1)).length := by simp
      rw [e, objTerms_keys]
      unfold SubConf.allVars
      rw [hold, hD]
      simp [List.length_append]
      omega
    have hlenQ : (own.length : ℚ) = numTerms d c cuts + c.targets.length := by exact_mod_cast hlen
    have hsc : ∀ x, c.sc x = scaleObj x := by
      intro x
      unfold SubConf.sc
      rw [if_pos hk]
    refine ⟨?_, ?_, ?_, ?_, ?_⟩
    · intro v hv
      rw [hi.rep.vars] at hv
      rw [List.eq_of_mem_replicate hv]
      exact ⟨rfl, rfl, rfl⟩
    · intro i
      rw [ho.obj]
      rcases coeffOf_cases (((c.objTerms D D.cut.length).map (fun t => (t.1, c.sc t.2))).map (fun t => (st1.idx t.1, t.2))) i with h0 | ⟨t, ht, h0⟩
      · exact ⟨0, by rw [h0]; simp⟩
      · rw [h0]
        obtain ⟨u, hu, rfl⟩ := List.mem_map.1 ht
        obtain ⟨w, _, rfl⟩ := List.mem_map.1 hu
        rw [hsc]
        exact ⟨_, rfl⟩
    · rw [ho.obj]
      have hkeys : ((c.objTerms D D.cut.length).map (fun t => (t.1, c.sc t.2))).map (·.1) = (c.objTerms D D.cut.length).map (·.1) := by
        rw [List.map_map]
        rfl
      refine (abs_sum_terms hi.rep _ ?_ ?_).trans ?_
      · intro t ht
        have : t.1 ∈ (c.objTerms D D.cut.length).map (·.1) := by
          rw [← hkeys]
          exact List.mem_map_of_mem ht
        rw [objTerms_keys] at this
        refine hi.vars.mem_iff.2 ?_
        unfold SubConf.allVars
        exact List.mem_append_left _ this
      · rw [hkeys, objTerms_keys]
        have := hi.rep.nodup
        rw [hi.vars.nodup_iff] at this
        unfold SubConf.allVars at this
        exact this.of_append_left
      · rw [List.map_map]
        have e2 : ((c.objTerms D D.cut.length).map ((fun t : SV × ℚ => |t.2|) ∘ fun t => (t.1, c.sc t.2))).sum =
            ((c.objTerms D D.cut.length).map (fun t => |scaleObj t.2|)).sum := by
          congr 1
          refine List.map_congr_left (fun t _ => ?_)
          simp only [Function.comp_apply, hsc]
        rw [e2, hD]
        refine (scaled_abs _).trans ?_
        rw [objTerms_length h D cuts hold]
        rw [magnitude_eq h hk] at hM
        linarith
    · intro k hkc i
      rw [hi.rep.cons] at hkc
      obtain ⟨l, hl, rfl⟩ := List.mem_map.1 hkc
      have hs := lin_small h ((hi.lins l).1 hl)
      rcases coeffOf_cases (l.terms.map (fun t => (st1.idx t.1, t.2))) i with h0 | ⟨t, ht, h0⟩
      · exact ⟨0, by simp [h0]⟩
      · obtain ⟨u, hu, rfl⟩ := List.mem_map.1 ht
        rcases hs.1 u hu with h1 | h1
        · exact ⟨1, by simp [h0, h1]⟩
        · exact ⟨-1, by simp [h0, h1]⟩
    · intro k hkc
      rw [hi.rep.cons] at hkc
      obtain ⟨l, hl, rfl⟩ := List.mem_map.1 hkc
      have hs := lin_small h ((hi.lins l).1 hl)
      have ht := hi.rep.terms l hl
      refine ⟨d, ?_, hs.2⟩
      have h1 := abs_sum_terms hi.rep l.terms ht.1 ht.2
      rw [sum_le_card _ hs.1] at h1
      have h2 : l.terms.length ≤ own.length := by
        have : (l.terms.map (·.1)).Subperm own := List.subperm_of_subset ht.2 (by
          intro o ho
          obtain ⟨t, ht', rfl⟩ := List.mem_map.1 ho
          exact ht.1 t ht')
        simpa using this.length_le
      have h2' : (l.terms.length : ℚ) ≤ own.length := by exact_mod_cast h2
      dsimp only
      linarith

/-- **C127, pricing with bounded duals.** When no dual exceeds `B` in absolute value, the condition is one on sizes only: with `N` objective
terms, total weight `W` of the kept rows and `100000 * (W + N * B) + N + (number of classes) + depth < 2 ^ 63`, the pricing models are in the
range of 64 bit integers. -/
theorem C127_bounded_duals {d : ℕ} {c : SubConf} (h : SubOk d c) (hk : c.kind = .sat) {cuts : List (List Bool)} {st st' : SubSt}
    (hr : SubReached c cuts st) {D : Duals} (hD : D.cut.length = cuts.length) {sols : Model → List (ℕ → ℚ)} {ps : List Path}
    (hgen : c.generateSat D sols st = (.ok ps, st')) {B : ℚ} (hB : 0 ≤ B) (hrow : ∀ i < c.X.length, |D.row.getD i 0| ≤ B)
    (hcut : ∀ k < cuts.length, |D.cut.getD k 0| ≤ B)
    (hns : ∀ k < d, ∀ s ∈ cand c.nodes (anc d c.leaf.id k), |(D.ns c.leaf.id (anc d c.leaf.id k) s).getD 0| ≤ B)
    (hM : 100000 * (keptWeight c + numTerms d c cuts * B) + numTerms d c cuts + c.targets.length + d ≤ int64Max) : IntModel int64Max st'.m := by
  have hold : c.isOld = false := by unfold SubConf.isOld; rw [hk]
  have hw : keptWeight c = (c.kept.map c.weight).sum := keptWeight_eq c
  have hw0 : 0 ≤ keptWeight c := by
    rw [hw]
    refine List.sum_nonneg ?_
    intro x hx
    obtain ⟨i, _, rfl⟩ := List.mem_map.1 hx
    unfold SubConf.weight
    split <;> simp
  have hN : (0 : ℚ) ≤ numTerms d c cuts := by positivity
  have hT : (0 : ℚ) ≤ c.targets.length := by positivity
  have hd : (0 : ℚ) ≤ d := by positivity
  have hNB : 0 ≤ (numTerms d c cuts : ℚ) * B := by positivity
  refine C127_pricing h hk hr hD hgen ?_ (by linarith)
  have hmag : magnitude d c cuts D - |D.leaf.getD c.leaf.id 0| ≤ keptWeight c + numTerms d c cuts * B := by
    have e1 : ∀ {α : Type} (l : List α) (f : α → ℚ), (∀ x ∈ l, f x ≤ B) → (l.map f).sum ≤ l.length * B := by
      intro α l f hf
      have := List.sum_le_card_nsmul (l.map f) B (by
        intro x hx
        obtain ⟨y, hy, rfl⟩ := List.mem_map.1 hx
        exact hf y hy)
      simpa using this
    have r1 := e1 c.kept (fun i => |D.row.getD i 0|) (fun i hi => hrow i ((mem_kept c i).1 hi).1)
    have r2 : cutSum cuts.length (fun _ => True) (fun k => |D.cut.getD k 0|) ≤ cuts.length * B := by
      unfold cutSum
      simp only [if_true]
      simpa using e1 (List.range cuts.length) (fun k => |D.cut.getD k 0|) (fun k hk => hcut k (List.mem_range.1 hk))
    have r3 : ((List.range d).map (fun k => ((cand c.nodes (anc d c.leaf.id k)).map
        (fun s => |(D.ns c.leaf.id (anc d c.leaf.id k) s).getD 0|)).sum)).sum ≤
        ((List.range d).map (fun k => ((cand c.nodes (anc d c.leaf.id k)).length : ℚ) * B)).sum := by
      refine List.sum_le_sum (fun k hk => e1 _ _ (fun s hs => hns k (List.mem_range.1 hk) s hs))
    have r4 : ((List.range d).map (fun k => ((cand c.nodes (anc d c.leaf.id k)).length : ℚ) * B)).sum =
        (((List.range d).map (fun k => (cand c.nodes (anc d c.leaf.id k)).length)).sum : ℕ) * B := by
      rw [List.sum_map_mul_right]
      congr 1
      push_cast
      rw [List.map_map]
      rfl
    have r5 : (numTerms d c cuts : ℚ) = 2 * c.kept.length + cuts.length +
        (((List.range d).map (fun k => (cand c.nodes (anc d c.leaf.id k)).length)).sum : ℕ) := by
      unfold numTerms
      push_cast
      rfl
    have r6 : 0 ≤ (c.kept.length : ℚ) * B := by positivity
    have r7 : keptSum c (fun _ => True) (fun i => |D.row.getD i 0|) ≤ c.kept.length * B := by
      rw [keptSum_eq]
      simpa using r1
    unfold magnitude
    rw [r5]
    nlinarith
  nlinarith

/-- **C127, cut generation.** In every reached state whose stored LP solution satisfies the master problem up to `δ` (nonnegativity and the leaf
constraints), the objective that `add_cuts` gives to CP-SAT has distinct variables, and the absolute values of its integer coefficients add up
to at most `10 ^ 6 * (2 ^ depth * (1 + δ) + 2 * δ * n) + n` for `n` paths. -/
theorem C127_cut {d : ℕ} {c : Conf} {o : Oracle} {paths : List Path} {splits : List Split} {dataRows : Option (List Row)}
    (hs : Setup d c splits dataRows) (hp : ∀ p ∈ paths, GoodPath d splits p) (ho : CutSound o) {s : MS}
    (h : Reached d c o paths splits dataRows s) {δ : ℚ} (hδ : 0 ≤ δ) (hneg : ∀ p ∈ s.paths, -δ ≤ s.pathSol p.id)
    (hleaf : ∀ l < 2 ^ d, pathSum s.paths s.pathSol (fun p => p.leafId = l) ≤ 1 + δ) :
    ((addCuts o s).2.cp.obj.map (·.1)).Nodup ∧
    (((addCuts o s).2.cp.obj.map (fun t => |t.2|)).sum : ℤ) ≤ 1000000 * (2 ^ d * (1 + δ) + 2 * δ * s.paths.length) + s.paths.length := by
  obtain ⟨cuts, own, cd, hi⟩ := reached_inv hs hp ho h
  have hpl : s.cutPathVars.length = s.paths.length := by rw [hi.cut.pv]; simp
  have hobj : (addCuts o s).2.cp.obj = cutObjective s := by
    unfold addCuts
    dsimp only
    split <;> rfl
  have hnd := (C52_cut_model hs hp ho h).2.2.1
  rw [hobj]
  constructor
  · unfold cutObjective
    rw [List.map_fst_zip (by simp [hpl])]
    exact hnd.of_append_right
  · have e : (cutObjective s).map (fun t => |t.2|) = s.paths.map (fun p => |⌊s.pathSol p.id * 1000000⌋|) := by
      unfold cutObjective
      have e1 : (fun t : ℕ × ℤ => |t.2|) = (fun z : ℤ => |z|) ∘ Prod.snd := rfl
      rw [e1, ← List.map_map, List.map_snd_zip (by simp [hpl]), List.map_map]
      rfl
    rw [e]
    have h1 := mass_near (fun p hp => (hi.good p hp).1.leaf_lt) hδ hneg hleaf
    have h2 : ∀ ps : List Path, (((ps.map (fun p => |⌊s.pathSol p.id * 1000000⌋|)).sum : ℤ) : ℚ) ≤
        1000000 * (ps.map (fun p => |s.pathSol p.id|)).sum + ps.length := by
      intro ps
      induction ps with
      | nil => simp
      | cons p ps ih =>
        simp only [List.map_cons, List.sum_cons, List.length_cons]
        push_cast at ih ⊢
        have h3 := Int.floor_le (s.pathSol p.id * 1000000)
        have h4 := Int.lt_floor_add_one (s.pathSol p.id * 1000000)
        have h5 : |((⌊s.pathSol p.id * 1000000⌋ : ℤ) : ℚ)| ≤ 1000000 * |s.pathSol p.id| + 1 := by
          have := neg_abs_le (s.pathSol p.id)
          have := le_abs_self (s.pathSol p.id)
          rw [abs_le]
          constructor <;> linarith
        linarith
    refine (h2 s.paths).trans ?_
    unfold massBound at h1
    nlinarith

end Verif.DTree
