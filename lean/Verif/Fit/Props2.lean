import Verif.Fit.CountLemmas

/-!
# Properties C63 - C65 of `ColGenClassifier.fit`: columns are all offered, exceptions, improving iterations
-/

set_option linter.unusedSectionVars false
set_option linter.unusedSimpArgs false

namespace Verif.Fit

open Spec

variable {W D Col : Type} {env : Env W D Col} {cfg : Config} {fuel : ℕ} {y : List ℤ} {e0 : Est} {w0 : W}
  {r : Except Err Unit × St W D Col} {s : St W D Col} {u : Unit}

/-- Neither a pricing call nor an LP solve. -/
def Quiet (mid : List (Ev D Col)) : Prop := ∀ e ∈ mid, isGen e = false ∧ isRmp e = false

private theorem offered_split {pre mid : List (Ev D Col)} {l i : ℕ} {d : D} {cols : List Col} (hq : Quiet mid)
    (ho : Offered (pre ++ Ev.generate l i d (.ok cols) :: mid)) : mid.filterMap col? = cols := by
  have h1 : round (pre ++ Ev.generate l i d (.ok cols) :: mid) = round pre ++ Ev.generate l i d (.ok cols) :: mid := by
    apply since_append_of_none
    intro e he
    rcases List.mem_cons.1 he with rfl | he
    · rfl
    · exact (hq e he).2
  have h2 : since isGen (pre ++ Ev.generate l i d (.ok cols) :: mid) = mid :=
    since_append_of_mem _ _ _ rfl (fun e he => (hq e he).1)
  have h3 : mid.filterMap genRes? = [] := by
    rw [List.filterMap_eq_nil_iff]
    intro e he
    have := (hq e he).1
    cases e <;> first | rfl | (simp [isGen] at this)
  have := ho l i cols (by rw [h1]; simp [List.filterMap_append, List.filterMap_cons, genRes?, h3])
  rw [h2] at this
  exact this

/-- C63: between a pricing call that returned `cols` and the next pricing call, LP solve or integer solve, exactly the columns `cols` are
passed to `add_column`, each once and in order. Also for runs that raise later. -/
theorem C63_all_offered (hr : fit env cfg fuel y e0 w0 = some r) {pre mid post : List (Ev D Col)} {l i : ℕ} {d : D} {cols : List Col}
    {e : Ev D Col} (htr : r.2.trace = pre ++ Ev.generate l i d (.ok cols) :: mid ++ e :: post) (hq : Quiet mid)
    (he : (∃ l' i' d' q, e = .generate l' i' d' q) ∨ (∃ q, e = .solveRmp q) ∨ (∃ q, e = .solveIp q)) :
    mid.filterMap col? = cols := by
  have hall := fit_protocol hr (pre ++ Ev.generate l i d (.ok cols) :: mid) e post htr
  rcases he with ⟨l', i', d', q, rfl⟩ | ⟨q, rfl⟩ | ⟨q, rfl⟩
  · exact offered_split hq hall.2.2.2.2.2.2.2
  · refine offered_split hq (hall.2.2.2 ?_).2.2
    -- a pricing call is preceded by an LP solve
    have hg := fit_protocol hr pre (Ev.generate l i d (.ok cols)) (mid ++ Ev.solveRmp q :: post) (by rw [htr]; simp)
    have hd := hg.1
    have hne : pre.filterMap rmp? ≠ [] := by
      intro h0
      rw [lastDuals, h0] at hd
      cases hd
    have : 0 < numRmp pre := by
      unfold numRmp
      rw [List.countP_pos_iff]
      by_contra hc
      push Not at hc
      apply hne
      rw [List.filterMap_eq_nil_iff]
      intro e he
      have := hc e he
      cases e <;> first | rfl | (simp [isRmp] at this)
    unfold numRmp at this ⊢
    rw [List.countP_append]
    omega
  · exact offered_split hq hall.2.2

/-- C63, normal return: also the columns of the last pricing call were all offered. -/
theorem C63_all_offered_return (hr : fit env cfg fuel y e0 w0 = some (.ok u, s)) {pre mid : List (Ev D Col)} {l i : ℕ} {d : D}
    {cols : List Col} (htr : s.trace = pre ++ Ev.generate l i d (.ok cols) :: mid) (hq : Quiet mid) :
    mid.filterMap col? = cols := by
  obtain ⟨e, tr, hE, hS, ht⟩ := (fit_spec env cfg fuel y e0 w0 (.ok u, s) hr).ex
  have ho : Offered s.trace := by
    rw [ht]
    cases cfg.rmpIsIp with
    | false => simpa using hE.off
    | true => exact offered_snoc hE.off rfl rfl rfl rfl
  rw [htr] at ho
  exact offered_split hq ho

/-- C63, runs that raise: at any moment the columns offered since the last pricing call are the first ones of those it returned. -/
theorem C63_prefix (hr : fit env cfg fuel y e0 w0 = some r) {pre mid post : List (Ev D Col)} {l i : ℕ} {d : D} {cols : List Col}
    (htr : r.2.trace = pre ++ Ev.generate l i d (.ok cols) :: mid ++ post) (hq : Quiet mid) : mid.filterMap col? <+: cols := by
  induction mid using List.reverseRecOn generalizing post with
  | nil => simp
  | append_singleton mid e ih =>
    have hq' : Quiet mid := fun e' h' => hq e' (by simp [h'])
    replace htr : r.2.trace = (pre ++ Ev.generate l i d (.ok cols) :: mid) ++ e :: post := by rw [htr]; simp
    have ih' := ih (post := e :: post) htr hq'
    cases e with
    | add l' i' c q =>
      have hall := fit_protocol hr (pre ++ Ev.generate l i d (.ok cols) :: mid) _ post htr
      obtain ⟨⟨cols', h1, h2⟩, -⟩ := hall
      have hr1 : round (pre ++ Ev.generate l i d (.ok cols) :: mid) = round pre ++ Ev.generate l i d (.ok cols) :: mid := by
        apply since_append_of_none
        intro e he
        rcases List.mem_cons.1 he with rfl | he
        · rfl
        · exact (hq' e he).2
      have h3 : mid.filterMap genRes? = [] := by
        rw [List.filterMap_eq_nil_iff]
        intro e he
        have := (hq' e he).1
        cases e <;> first | rfl | (simp [isGen] at this)
      rw [hr1] at h1
      simp only [List.filterMap_append, List.filterMap_cons, genRes?, h3, List.getLast?_append, List.getLast?_singleton,
        Option.some_or, Option.some.injEq, Prod.mk.injEq, Except.ok.injEq] at h1
      rw [since_append_of_mem pre mid (Ev.generate l i d (.ok cols)) rfl (fun e he => (hq' e he).1)] at h2
      rw [h1.2.2, List.filterMap_append]
      exact h2
    | _ =>
      rw [List.filterMap_append]
      simpa [List.filterMap_cons, col?] using ih'

/-! ## C64 -/

/-- C64: an exception leaves `fit` only in three ways: fewer than two classes (`ValueError`, nothing called); the last call made raised
that very exception; or `solve_ip` returned a false value (`AssertionError`). `fit` never raises anything else on its own. -/
theorem C64_exceptions {er : Err} (hr : fit env cfg fuel y e0 w0 = some (.error er, s)) :
    ((∀ a ∈ y, ∀ b ∈ y, a = b) ∧ er = .valueError ∧ ∃ t, s.trace = [Ev.timer t]) ∨
    (∃ pre ev, s.trace = pre ++ [ev] ∧ raised? ev = some er) ∨
    (er = .assertionError ∧ ∃ pre, s.trace = pre ++ [Ev.solveIp (.ok false)]) := by
  have hR := fit_spec env cfg fuel y e0 w0 (.error er, s) hr
  cases hR with
  | early t h h1 h2 =>
    left
    refine ⟨?_, h2, t, h⟩
    by_contra hc
    push Not at hc
    obtain ⟨a, ha, b, hb, hab⟩ := hc
    have hlen : ¬ (Sk.uniqueLabels y).length ≤ 1 := fun hle => hab (uniqueLabels_length_le_iff.1 hle a ha b hb)
    obtain ⟨rest, hrest⟩ := fit_trace_prefix hlen hr
    simp only at hrest
    rw [h] at hrest
    simp at hrest
  | gen t py h h1 => exact Or.inr (Or.inl ⟨[Ev.timer t], _, h, rfl⟩)
  | loop h =>
    obtain ⟨pre, ev, h1, h2, -⟩ := h.last
    exact Or.inr (Or.inl ⟨pre, ev, h1, h2⟩)
  | ip e tr q h h1 h2 h3 h4 =>
    rcases h3 with ⟨rfl, rfl⟩ | rfl
    · exact Or.inr (Or.inr ⟨rfl, tr, h2⟩)
    · exact Or.inr (Or.inl ⟨tr, _, h2, rfl⟩)

/-- C64, converse: a call that raises is the last one, and `fit` raises the same exception. -/
theorem C64_propagates (hr : fit env cfg fuel y e0 w0 = some r) {ev : Ev D Col} {er : Err} (hm : ev ∈ r.2.trace)
    (he : raised? ev = some er) : r.1 = .error er ∧ ∃ pre, r.2.trace = pre ++ [ev] := by
  have key : ∀ {pre : List (Ev D Col)} {ev' : Ev D Col} {er' : Err}, r.2.trace = pre ++ [ev'] → raised? ev' = some er' → Clean pre →
      er' = er ∧ ∃ pre, r.2.trace = pre ++ [ev] := by
    intro pre ev' er' h1 h2 h3
    rw [h1] at hm
    rcases List.mem_append.1 hm with hm | hm
    · rw [h3 ev hm] at he; cases he
    · rw [← List.mem_singleton.1 hm, he] at h2
      cases h2
      exact ⟨rfl, pre, by rw [h1, ← List.mem_singleton.1 hm]⟩
  have hs := fit_spec env cfg fuel y e0 w0 r hr
  obtain ⟨res, s⟩ := r
  cases res with
  | ok u =>
    exfalso
    obtain ⟨⟨e, tr, hE, -, htr⟩, -⟩ := hs
    simp only at hm
    rw [htr] at hm
    rcases List.mem_append.1 hm with hm | hm
    · rw [hE.clean ev hm] at he; cases he
    · cases hip : cfg.rmpIsIp with
      | false => rw [hip] at hm; simp at hm
      | true => rw [hip] at hm; simp at hm; rw [hm] at he; cases he
  | error er' =>
    cases hs with
    | early t h h1 h2 => simp only at hm; rw [h] at hm; simp at hm; rw [hm] at he; cases he
    | gen t py h h1 =>
      obtain ⟨rfl, h5⟩ := key (pre := [Ev.timer t]) (ev' := Ev.generateMp py (.error er')) h rfl (by
        intro e h'; rw [List.mem_singleton.1 h']; rfl)
      exact ⟨rfl, h5⟩
    | loop h =>
      obtain ⟨pre, ev', h1, h2, h3⟩ := h.last
      obtain ⟨rfl, h5⟩ := key h1 h2 h3
      exact ⟨rfl, h5⟩
    | ip e tr q h h1 h2 h3 h4 =>
      rcases h3 with ⟨rfl, rfl⟩ | rfl
      · exfalso
        simp only at hm
        rw [h2] at hm
        rcases List.mem_append.1 hm with hm | hm
        · rw [h.clean ev hm] at he; cases he
        · rw [List.mem_singleton.1 hm] at he; cases he
      · obtain ⟨rfl, h5⟩ := key h2 rfl h.clean
        exact ⟨rfl, h5⟩

/-! ## C65 -/

/-- C65: after `fit` (also a refit), `num_improving_iter_` is the number of `rmp_objective_improved` calls of this run that answered
`True`; it is at most `iter_`. -/
theorem C65_improving (hr : fit env cfg fuel y e0 w0 = some (.ok u, s)) :
    s.est.numImproving = s.trace.countP isImp ∧ s.est.numImproving ≤ s.est.iter := by
  have hS := fit_ok_inv hr
  obtain ⟨s1, u1, u0, hg, hl, hf⟩ := hS
  have h0 : Imp (startSt env cfg y e0 w0) := by
    simp only [Imp, startSt, initEst, hg]
    exact ⟨rfl, le_of_eq rfl⟩
  have h1 := imp_loop fuel _ h0 _ hl
  rw [(C01_iteration_limit hr).1]
  have h2 : Imp s := imp_finish s1 h1 hf
  exact ⟨h2.1, h2.1 ▸ h2.2⟩

end Verif.Fit
