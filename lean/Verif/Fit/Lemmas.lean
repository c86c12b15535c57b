import Mathlib.Data.List.Infix
import Mathlib.Tactic.Linarith
import Verif.Fit.Spec

/-! # Proof machinery for `fit` -/

set_option linter.unusedSectionVars false
set_option linter.unusedSimpArgs false

namespace Verif.Fit

open Spec

variable {W D Col : Type}

/-! ## Traces -/

theorem since_snoc (p : Ev D Col → Bool) (tr : List (Ev D Col)) (e : Ev D Col) :
    since p (tr ++ [e]) = if p e then [] else since p tr ++ [e] := by
  unfold since
  rw [List.reverse_append, List.reverse_singleton, List.singleton_append, List.takeWhile_cons]
  cases h : p e <;> simp

theorem round_snoc (tr : List (Ev D Col)) (e : Ev D Col) :
    round (tr ++ [e]) = if isRmp e then [] else round tr ++ [e] := since_snoc _ _ _

theorem protocol_nil (cfg : Config) : Protocol cfg ([] : List (Ev D Col)) := by
  intro pre e post h
  simp at h

theorem protocol_snoc {cfg : Config} {tr : List (Ev D Col)} {e : Ev D Col} (h : Protocol cfg tr)
    (he : Allowed cfg tr e) : Protocol cfg (tr ++ [e]) := by
  intro pre e' post heq
  rcases List.eq_nil_or_concat post with hp | ⟨post', x, hp⟩
  · subst hp
    have := List.append_inj' heq rfl
    obtain ⟨h1, h2⟩ := this
    simp only [List.cons.injEq, and_true] at h2
    subst h1; subst h2
    exact he
  · subst hp
    rw [List.concat_eq_append, show pre ++ e' :: (post' ++ [x]) = (pre ++ e' :: post') ++ [x] by simp] at heq
    have := (List.append_inj' heq rfl).1
    exact h pre e' post' this

theorem over_snoc_check {cfg : Config} {tr : List (Ev D Col)} {s t : ℚ} :
    Over cfg (tr ++ [Ev.check s t]) ↔ Over cfg tr ∨ (cfg.timeLimit > 0 ∧ t - s > cfg.timeLimit) := by
  constructor
  · rintro ⟨a, b, hm, h1, h2⟩
    rcases List.mem_append.1 hm with hm | hm
    · exact Or.inl ⟨a, b, hm, h1, h2⟩
    · simp only [List.mem_singleton, Ev.check.injEq] at hm
      obtain ⟨rfl, rfl⟩ := hm
      exact Or.inr ⟨h1, h2⟩
  · rintro (⟨a, b, hm, h1, h2⟩ | ⟨h1, h2⟩)
    · exact ⟨a, b, List.mem_append_left _ hm, h1, h2⟩
    · exact ⟨s, t, by simp, h1, h2⟩

theorem over_snoc_of_ne {cfg : Config} {tr : List (Ev D Col)} {e : Ev D Col} (he : ∀ s t, e ≠ .check s t) :
    Over cfg (tr ++ [e]) ↔ Over cfg tr := by
  constructor
  · rintro ⟨a, b, hm, h1, h2⟩
    rcases List.mem_append.1 hm with hm | hm
    · exact ⟨a, b, hm, h1, h2⟩
    · exact absurd (List.mem_singleton.1 hm).symm (he a b)
  · rintro ⟨a, b, hm, h1, h2⟩
    exact ⟨a, b, List.mem_append_left _ hm, h1, h2⟩

theorem ip_snoc_of_ne {tr : List (Ev D Col)} {e : Ev D Col} (he : ∀ r, e ≠ .solveIp r) :
    IpCalled (tr ++ [e]) ↔ IpCalled tr := by
  constructor
  · rintro ⟨r, hm⟩
    rcases List.mem_append.1 hm with hm | hm
    · exact ⟨r, hm⟩
    · exact absurd (List.mem_singleton.1 hm).symm (he r)
  · rintro ⟨r, hm⟩
    exact ⟨r, List.mem_append_left _ hm⟩

theorem allRejected_snoc {tr : List (Ev D Col)} {e : Ev D Col} (h : AllRejected tr)
    (he : ∀ l i c r, e = .add l i c r → r = .ok false) : AllRejected (tr ++ [e]) := by
  intro l i c r hm
  rcases List.mem_append.1 hm with hm | hm
  · exact h l i c r hm
  · exact he l i c r (List.mem_singleton.1 hm).symm

theorem offered_snoc {tr : List (Ev D Col)} {e : Ev D Col} (h : Offered tr) (h1 : isRmp e = false) (h2 : isGen e = false)
    (h3 : genRes? e = none) (h4 : col? e = none) : Offered (tr ++ [e]) := by
  intro l i cols hl
  rw [round_snoc] at hl
  rw [since_snoc]
  simp only [h1, h2, Bool.false_eq_true, if_false, List.filterMap_append, List.filterMap_cons, h3, h4, List.filterMap_nil,
    List.append_nil] at hl ⊢
  exact h l i cols hl

theorem genRes_of_genPos {tr : List (Ev D Col)} (h : genPos tr = []) : tr.filterMap genRes? = [] := by
  unfold genPos at h
  rw [List.filterMap_eq_nil_iff] at h ⊢
  intro e he
  have := h e he
  cases e <;> first | rfl | (simp [gen?] at this)

theorem offered_of_genPos {tr : List (Ev D Col)} (h : genPos (round tr) = []) : Offered tr := by
  intro l i cols hl
  rw [genRes_of_genPos h] at hl
  simp at hl

theorem accPos_of_allRejected {tr : List (Ev D Col)} (h : AllRejected tr) : accPos tr = [] := by
  unfold accPos
  rw [List.filterMap_eq_nil_iff]
  intro e he
  cases e with
  | add l i c r => rw [h l i c r he]; rfl
  | _ => rfl

/-! ## Positions -/

theorem positions_eq_aux (k : ℕ) (shape : List ℕ) :
    ((shape.zipIdx k).map (fun p => (p.2, p.1))).flatMap (fun p => (List.range p.2).map (fun i => (p.1, i)))
      = positionsFrom k shape := by
  induction shape generalizing k with
  | nil => rfl
  | cons n ns ih =>
    simp only [List.zipIdx_cons, List.map_cons, List.flatMap_cons, positionsFrom]
    rw [ih (k + 1)]

theorem positions_eq (shape : List ℕ) : positions shape = allPositions shape := positions_eq_aux 0 shape

theorem flatMap_levels (shape : List ℕ) :
    (levels shape).flatMap (fun p => (List.range p.2).map (fun i => (p.1, i))) = allPositions shape :=
  positions_eq_aux 0 shape

theorem mem_positionsFrom (k : ℕ) (shape : List ℕ) (l i : ℕ) :
    (l, i) ∈ positionsFrom k shape ↔ k ≤ l ∧ ∃ n, shape[l - k]? = some n ∧ i < n := by
  induction shape generalizing k with
  | nil => simp [positionsFrom]
  | cons m ms ih =>
    simp only [positionsFrom, List.mem_append, List.mem_map, List.mem_range, Prod.mk.injEq, ih]
    constructor
    · rintro (⟨j, hj, rfl, rfl⟩ | ⟨hk, n, hn, hi⟩)
      · exact ⟨le_refl _, m, by simp, hj⟩
      · refine ⟨by omega, n, ?_, hi⟩
        have : l - k = (l - (k + 1)) + 1 := by omega
        rw [this]
        simpa using hn
    · rintro ⟨hk, n, hn, hi⟩
      rcases Nat.eq_or_lt_of_le hk with h | h
      · left
        subst h
        simp at hn
        exact ⟨i, by omega, rfl, rfl⟩
      · right
        refine ⟨h, n, ?_, hi⟩
        have : l - k = (l - (k + 1)) + 1 := by omega
        rw [this] at hn
        simpa using hn

theorem mem_allPositions (shape : List ℕ) (l i : ℕ) :
    (l, i) ∈ allPositions shape ↔ ∃ n, shape[l]? = some n ∧ i < n := by
  simp [allPositions, mem_positionsFrom]

/-- The order of positions: lexicographic. -/
def PosLt (p q : ℕ × ℕ) : Prop := p.1 < q.1 ∨ (p.1 = q.1 ∧ p.2 < q.2)

theorem pairwise_positionsFrom (k : ℕ) (shape : List ℕ) : (positionsFrom k shape).Pairwise PosLt := by
  induction shape generalizing k with
  | nil => simp [positionsFrom]
  | cons n ns ih =>
    simp only [positionsFrom, List.pairwise_append]
    refine ⟨?_, ih (k + 1), ?_⟩
    · rw [List.pairwise_map]
      exact List.pairwise_lt_range.imp (fun h => Or.inr ⟨rfl, h⟩)
    · rintro ⟨a, b⟩ ha ⟨c, d⟩ hc
      obtain ⟨j, -, hj⟩ := List.mem_map.1 ha
      obtain ⟨h1, -⟩ := (mem_positionsFrom _ _ _ _).1 hc
      left
      simp only [Prod.mk.injEq] at hj
      simp only
      omega

theorem nodup_allPositions (shape : List ℕ) : (allPositions shape).Nodup := by
  apply (pairwise_positionsFrom 0 shape).imp
  intro p q h hpq
  subst hpq
  rcases h with h | ⟨-, h⟩ <;> omega

/-- In a prefix of the positions that ends with `q`, every earlier position is present. -/
theorem mem_of_prefix {shape : List ℕ} {done : List (ℕ × ℕ)} {q p : ℕ × ℕ}
    (h : done ++ [q] <+: allPositions shape) (hp : p ∈ allPositions shape) (hlt : PosLt p q) : p ∈ done := by
  obtain ⟨rest, hrest⟩ := h
  have hpw := pairwise_positionsFrom 0 shape
  rw [show positionsFrom 0 shape = allPositions shape from rfl, ← hrest] at hpw
  rw [← hrest] at hp
  rcases List.mem_append.1 hp with hp | hp
  · rcases List.mem_append.1 hp with hp | hp
    · exact hp
    · rw [List.mem_singleton.1 hp] at hlt
      rcases hlt with h | ⟨-, h⟩ <;> omega
  · have := (List.pairwise_append.1 hpw).2.2 q (by simp) p hp
    rcases hlt with h | ⟨h1, h2⟩ <;> rcases this with h' | ⟨h1', h2'⟩ <;> omega

/-! ## Counting columns -/

/-- `num_col_added_sp_` agrees with the trace. -/
def Cnt (shape : List ℕ) (nca : List (List ℕ)) (tr : List (Ev D Col)) : Prop :=
  nca.map List.length = shape ∧
  ∀ l row, nca[l]? = some row → ∀ i x, row[i]? = some x → x = (accPos tr).count (l, i)

theorem bump_map_length {α : Type} [Add α] (ll : List (List α)) (i j : ℕ) (x : α) :
    (bump ll i j x).map List.length = ll.map List.length := by
  apply List.ext_getElem?
  intro k
  simp only [bump, List.getElem?_map, List.getElem?_modify]
  cases ll[k]? with
  | none => simp
  | some row =>
    by_cases h : i = k <;> simp [h]

theorem Cnt.add {shape : List ℕ} {nca : List (List ℕ)} {tr : List (Ev D Col)} (h : Cnt shape nca tr)
    (l i : ℕ) (c : Col) (b : Bool) :
    Cnt shape (bump nca l i (if b then 1 else 0)) (tr ++ [Ev.add l i c (.ok b)]) := by
  refine ⟨by rw [bump_map_length]; exact h.1, ?_⟩
  intro l' row hrow i' x hx
  simp only [bump, List.getElem?_modify] at hrow
  have hacc : accPos (tr ++ [Ev.add l i c (.ok b)]) = accPos tr ++ (if b then [(l, i)] else []) := by
    unfold accPos
    rw [List.filterMap_append]
    cases b <;> rfl
  rw [hacc, List.count_append]
  cases hl : nca[l']? with
  | none => simp [hl] at hrow
  | some row0 =>
    rw [hl] at hrow
    by_cases hll : l = l'
    · subst hll
      simp only [if_true, Option.map_eq_map, Option.map_some, Option.some.injEq] at hrow
      subst hrow
      rw [List.getElem?_modify] at hx
      cases hi : row0[i']? with
      | none => simp [hi] at hx
      | some x0 =>
        have := h.2 l row0 hl i' x0 hi
        rw [hi] at hx
        by_cases hii : i = i'
        · subst hii
          simp at hx
          rw [← hx, this]
          cases b <;> simp
        · simp [hii] at hx
          rw [← hx, this]
          cases b <;> simp [hii]
    · simp [hll] at hrow
      subst hrow
      have := h.2 l' row0 hl i' x hx
      rw [this]
      cases b <;> simp [hll]

theorem Cnt.of_accPos {shape : List ℕ} {nca : List (List ℕ)} {tr tr' : List (Ev D Col)} (h : Cnt shape nca tr)
    (ht : accPos tr' = accPos tr) : Cnt shape nca tr' := by
  refine ⟨h.1, ?_⟩
  rw [ht]
  exact h.2

/-! ## The invariants -/

/-- No call raised. -/
def Clean (tr : List (Ev D Col)) : Prop := ∀ ev ∈ tr, raised? ev = none

theorem Clean.snoc {tr : List (Ev D Col)} (h : Clean tr) {ev : Ev D Col} (he : raised? ev = none) : Clean (tr ++ [ev]) := by
  intro e hm
  rcases List.mem_append.1 hm with hm | hm
  · exact h e hm
  · rw [List.mem_singleton.1 hm]; exact he

/-- Holds while the loop is running. `f0` is the initial `is_fitted_`. -/
structure Run (cfg : Config) (f0 : Bool) (e : Est) (tr : List (Ev D Col)) : Prop where
  prot : Protocol cfg tr
  cnt : Cnt cfg.shape e.numColAdded tr
  iter : e.iter = numRmp tr
  start : lastTimer tr = some e.tStart
  over : ¬ Over cfg tr
  ip : ¬ IpCalled tr
  tl : e.timeLimitReached = false
  opt : e.mpOptimal = false
  gmp : ∃ y, Ev.generateMp y (.ok ()) ∈ tr
  perf : e.performedIter = 0
  fitted : e.isFitted = f0
  acc : e.iter ≤ (accPos tr).length + 1
  clean : Clean tr

/-- Appending an event that is irrelevant to the bookkeeping. -/
theorem Run.snoc {cfg : Config} {f0 : Bool} {e : Est} {tr : List (Ev D Col)} (h : Run cfg f0 e tr) {ev : Ev D Col}
    (hall : Allowed cfg tr ev) (hr : isRmp ev = false) (ht : timer? ev = none) (ha : accepted? ev = none)
    (hc : ∀ s t, ev = .check s t → ¬ (cfg.timeLimit > 0 ∧ t - s > cfg.timeLimit)) (hi : ∀ r, ev ≠ .solveIp r)
    (hcl : raised? ev = none := by rfl) : Run cfg f0 e (tr ++ [ev]) := by
  have hacc : accPos (tr ++ [ev]) = accPos tr := by simp [accPos, List.filterMap_append, List.filterMap_cons, ha]
  refine ⟨protocol_snoc h.prot hall, h.cnt.of_accPos hacc, ?_, ?_, ?_, ?_, h.tl, h.opt, ?_, h.perf, h.fitted, ?_, h.clean.snoc hcl⟩
  · rw [h.iter]; simp [numRmp, List.countP_append, hr]
  · rw [← h.start]; simp [lastTimer, List.filterMap_append, List.filterMap_cons, ht]
  · by_cases hch : ∃ s t, ev = .check s t
    · obtain ⟨s, t, rfl⟩ := hch
      rw [over_snoc_check]
      rintro (h1 | h1)
      · exact h.over h1
      · exact hc s t rfl h1
    · rw [over_snoc_of_ne (fun s t h0 => hch ⟨s, t, h0⟩)]
      exact h.over
  · rw [ip_snoc_of_ne hi]; exact h.ip
  · obtain ⟨y, hy⟩ := h.gmp
    exact ⟨y, List.mem_append_left _ hy⟩
  · rw [hacc]; exact h.acc

/-- After an exception: only the protocol and `is_fitted_` are claimed. -/
structure Failed (cfg : Config) (f0 : Bool) (er : Err) (e : Est) (tr : List (Ev D Col)) : Prop where
  prot : Protocol cfg tr
  fitted : e.isFitted = f0
  ip : ¬ IpCalled tr
  gmp : ∃ y r, Ev.generateMp y r ∈ tr
  last : ∃ pre ev, tr = pre ++ [ev] ∧ raised? ev = some er ∧ Clean pre

/-- Updating phase of a round. -/
structure UpdPh (cfg : Config) (f0 : Bool) (d : D) (done : List (ℕ × ℕ)) (e : Est) (tr : List (Ev D Col)) : Prop
    extends Run cfg f0 e tr where
  dual : lastDuals tr = some (.ok d)
  upds : updPos (round tr) = done
  gens : genPos (round tr) = []
  noadd : ∀ l i c r, Ev.add l i c r ∉ round tr
  pos : 0 < numRmp tr

/-- Pricing phase of a round. -/
structure Price (cfg : Config) (f0 : Bool) (d : D) (done : List (ℕ × ℕ)) (e : Est) (tr : List (Ev D Col)) : Prop
    extends Run cfg f0 e tr where
  dual : lastDuals tr = some (.ok d)
  upds : updPos (round tr) = allPositions cfg.shape
  gens : genPos (round tr) = done
  rej : AllRejected (round tr)
  pos : 0 < numRmp tr
  off : Offered tr

/-- While the columns of subproblem (l,i) are added. -/
structure AddPh (cfg : Config) (f0 : Bool) (d : D) (done : List (ℕ × ℕ)) (l i : ℕ) (cols cs : List Col) (upd : Bool)
    (e : Est) (tr : List (Ev D Col)) : Prop extends Run cfg f0 e tr where
  dual : lastDuals tr = some (.ok d)
  upds : updPos (round tr) = allPositions cfg.shape
  gens : genPos (round tr) = done
  lastGen : ((round tr).filterMap genRes?).getLast? = some (l, i, .ok cols)
  added : (since isGen tr).filterMap col? ++ cs = cols
  own : ∀ p ∈ accPos (round tr), p = (l, i)
  updT : upd = true → accPos (round tr) ≠ [] ∧ e.iter ≤ (accPos tr).length
  updF : upd = false → AllRejected (round tr)
  pos : 0 < numRmp tr

/-- A round ended with an accepted column. -/
structure Acc (cfg : Config) (f0 : Bool) (e : Est) (tr : List (Ev D Col)) : Prop extends Run cfg f0 e tr where
  upds : 0 < numRmp tr → updPos (round tr) = allPositions cfg.shape
  acc1 : 0 < numRmp tr → accPos (round tr) ≠ []
  acc2 : e.iter ≤ (accPos tr).length
  off : Offered tr

/-- A round ended because of the time limit. -/
structure Timed (cfg : Config) (f0 : Bool) (e : Est) (tr : List (Ev D Col)) : Prop where
  prot : Protocol cfg tr
  cnt : Cnt cfg.shape e.numColAdded tr
  iter : e.iter = numRmp tr
  over : ∃ pre s t, tr = pre ++ [Ev.check s t] ∧ lastTimer pre = some s ∧ cfg.timeLimit > 0 ∧ t - s > cfg.timeLimit
  ip : ¬ IpCalled tr
  tl : e.timeLimitReached = true
  opt : e.mpOptimal = false
  perf : e.performedIter = 0
  fitted : e.isFitted = f0
  acc : e.iter ≤ (accPos tr).length + 1
  rej : AllRejected (round tr)
  upds : updPos (round tr) = allPositions cfg.shape
  pos : 0 < numRmp tr
  off : Offered tr
  clean : Clean tr

theorem Run.failed {cfg : Config} {f0 : Bool} {e : Est} {tr : List (Ev D Col)} (h : Run cfg f0 e tr) {ev : Ev D Col}
    (hall : Allowed cfg tr ev) (hi : ∀ r, ev ≠ .solveIp r) {er : Err} (her : raised? ev = some er) : Failed cfg f0 er e (tr ++ [ev]) :=
  ⟨protocol_snoc h.prot hall, h.fitted, by rw [ip_snoc_of_ne hi]; exact h.ip, by
    obtain ⟨y, hy⟩ := h.gmp; exact ⟨y, _, List.mem_append_left _ hy⟩, tr, ev, rfl, her, h.clean⟩

/-- The bookkeeping does not depend on the timing attributes. -/
theorem Run.congr {cfg : Config} {f0 : Bool} {e e' : Est} {tr : List (Ev D Col)} (h : Run cfg f0 e tr)
    (h1 : e'.numColAdded = e.numColAdded) (h2 : e'.iter = e.iter) (h3 : e'.tStart = e.tStart)
    (h4 : e'.timeLimitReached = e.timeLimitReached) (h5 : e'.mpOptimal = e.mpOptimal)
    (h6 : e'.performedIter = e.performedIter) (h7 : e'.isFitted = e.isFitted) : Run cfg f0 e' tr :=
  ⟨h.prot, h1 ▸ h.cnt, h2 ▸ h.iter, h3 ▸ h.start, h.over, h.ip, h4 ▸ h.tl, h5 ▸ h.opt, h.gmp, h6 ▸ h.perf,
    h7 ▸ h.fitted, h2 ▸ h.acc, h.clean⟩

theorem AddPh.allowed {cfg : Config} {f0 : Bool} {d : D} {done : List (ℕ × ℕ)} {l i : ℕ} {cols cs : List Col}
    {upd : Bool} {c : Col} {e : Est} {tr : List (Ev D Col)}
    (h : AddPh cfg f0 d done l i cols (c :: cs) upd e tr) (r : Except Err Bool) : Allowed cfg tr (.add l i c r) := by
  refine ⟨⟨cols, h.lastGen, ?_⟩, h.own, h.over, h.ip⟩
  exact ⟨cs, by rw [← h.added]; simp⟩

theorem AddPh.step {cfg : Config} {f0 : Bool} {d : D} {done : List (ℕ × ℕ)} {l i : ℕ} {cols cs : List Col}
    {upd : Bool} {c : Col} {e : Est} {tr : List (Ev D Col)}
    (h : AddPh cfg f0 d done l i cols (c :: cs) upd e tr) (b : Bool) :
    AddPh cfg f0 d done l i cols cs (upd || b)
      { e with numColAdded := bump e.numColAdded l i (if b then 1 else 0) } (tr ++ [.add l i c (.ok b)]) := by
  have hround : round (tr ++ [Ev.add l i c (.ok b)]) = round tr ++ [Ev.add l i c (.ok b)] := by
    rw [round_snoc]; rfl
  have haccT : accPos (tr ++ [Ev.add l i c (.ok b)]) = accPos tr ++ (if b then [(l, i)] else []) := by
    unfold accPos
    rw [List.filterMap_append]
    cases b <;> rfl
  have haccR : accPos (round tr ++ [Ev.add l i c (.ok b)]) = accPos (round tr) ++ (if b then [(l, i)] else []) := by
    unfold accPos
    rw [List.filterMap_append]
    cases b <;> rfl
  refine {
    prot := protocol_snoc h.prot (h.allowed _), cnt := h.cnt.add l i c b, iter := ?_, start := ?_, over := ?_,
    ip := ?_, tl := h.tl, opt := h.opt, gmp := ?_, perf := h.perf, fitted := h.fitted, acc := ?_, clean := h.clean.snoc rfl, dual := ?_,
    upds := ?_, gens := ?_, lastGen := ?_, added := ?_, own := ?_, updT := ?_, updF := ?_, pos := ?_ }
  · rw [show ({ e with numColAdded := bump e.numColAdded l i (if b then 1 else 0) } : Est).iter = e.iter from rfl, h.iter]
    simp [numRmp, List.countP_append, isRmp]
  · rw [show ({ e with numColAdded := bump e.numColAdded l i (if b then 1 else 0) } : Est).tStart = e.tStart from rfl, ← h.start]
    simp [lastTimer, List.filterMap_append, List.filterMap_cons, timer?]
  · rw [over_snoc_of_ne (by intro s t; simp)]; exact h.over
  · rw [ip_snoc_of_ne (by intro s; simp)]; exact h.ip
  · obtain ⟨y, hy⟩ := h.gmp
    exact ⟨y, List.mem_append_left _ hy⟩
  · rw [haccT]
    have := h.acc
    simp only [List.length_append]
    omega
  · rw [← h.dual]; simp [lastDuals, List.filterMap_append, List.filterMap_cons, rmp?]
  · rw [hround, ← h.upds]; simp [updPos, List.filterMap_append, List.filterMap_cons, upd?]
  · rw [hround, ← h.gens]; simp [genPos, List.filterMap_append, List.filterMap_cons, gen?]
  · rw [hround, ← h.lastGen]; simp [List.filterMap_append, List.filterMap_cons, genRes?]
  · rw [since_snoc, ← h.added]
    simp [isGen, List.filterMap_append, List.filterMap_cons, col?]
  · rw [hround, haccR]
    intro p hp
    rcases List.mem_append.1 hp with hp | hp
    · exact h.own p hp
    · cases b <;> simp at hp; exact hp
  · intro hu
    rw [hround, haccR, haccT]
    cases b with
    | false =>
      have := h.updT (by simpa using hu)
      simpa using this
    | true =>
      refine ⟨by simp, ?_⟩
      have := h.acc
      simp only [if_true, List.length_append, List.length_singleton]
      exact this
  · intro hu
    rw [hround]
    simp only [Bool.or_eq_false_iff] at hu
    apply allRejected_snoc (h.updF hu.1)
    intro l' i' c' r heq
    simp only [Ev.add.injEq] at heq
    rw [← heq.2.2.2, hu.2]
  · simp only [numRmp, List.countP_append]
    have := h.pos
    simp only [numRmp] at this
    omega

theorem AddPh.offered {cfg : Config} {f0 : Bool} {d : D} {done : List (ℕ × ℕ)} {l i : ℕ} {cols : List Col} {upd : Bool} {e : Est}
    {tr : List (Ev D Col)} (h : AddPh cfg f0 d done l i cols [] upd e tr) : Offered tr := by
  intro l' i' cols' hl
  rw [h.lastGen] at hl
  have h1 := h.added
  rw [List.append_nil] at h1
  rw [h1]
  simp only [Option.some.injEq, Prod.mk.injEq, Except.ok.injEq] at hl
  exact hl.2.2

theorem addCols_spec (env : Env W D Col) (cfg : Config) (f0 : Bool) (d : D) (done : List (ℕ × ℕ)) (l i : ℕ)
    (cols : List Col) : ∀ (cs : List Col) (upd : Bool) (s : St W D Col),
    AddPh cfg f0 d done l i cols cs upd s.est s.trace →
    (∃ s' b, addCols env l i cs upd s = (.ok b, s') ∧ AddPh cfg f0 d done l i cols [] b s'.est s'.trace) ∨
    (∃ s' er, addCols env l i cs upd s = (.error er, s') ∧ Failed cfg f0 er s'.est s'.trace) := by
  intro cs
  induction cs with
  | nil => intro upd s h; exact Or.inl ⟨s, upd, rfl, h⟩
  | cons c cs ih =>
    intro upd s h
    simp only [addCols, call]
    cases hr : (env.addColumn c s.world).1 with
    | error er =>
      right
      exact ⟨_, er, rfl, h.toRun.failed (h.allowed _) (by intro r; simp) rfl⟩
    | ok b =>
      simp only
      exact ih _ _ (h.step b)

theorem Price.afterGen {cfg : Config} {f0 : Bool} {d : D} {done : List (ℕ × ℕ)} {l i : ℕ} {e : Est}
    {tr : List (Ev D Col)} (h : Price cfg f0 d done e tr) {cols : List Col}
    (hall : Allowed cfg tr (.generate l i d (.ok cols))) :
    AddPh cfg f0 d (done ++ [(l, i)]) l i cols cols false e (tr ++ [.generate l i d (.ok cols)]) := by
  have hround : round (tr ++ [Ev.generate l i d (.ok cols)]) = round tr ++ [Ev.generate l i d (.ok cols)] := by
    rw [round_snoc]; rfl
  refine {
    toRun := h.toRun.snoc hall rfl rfl rfl (by intro s t h0; simp at h0) (by intro r; simp), dual := ?_,
    upds := ?_, gens := ?_, lastGen := ?_, added := ?_, own := ?_, updT := ?_, updF := ?_, pos := ?_ }
  · rw [← h.dual]; simp [lastDuals, List.filterMap_append, List.filterMap_cons, rmp?]
  · rw [hround, ← h.upds]; simp [updPos, List.filterMap_append, List.filterMap_cons, upd?]
  · rw [hround, ← h.gens]; simp [genPos, List.filterMap_append, List.filterMap_cons, gen?]
  · rw [hround]; simp [List.filterMap_append, List.filterMap_cons, genRes?]
  · rw [since_snoc]; simp [isGen]
  · rw [hround]
    have h0 : accPos (round tr ++ [Ev.generate l i d (.ok cols)]) = accPos (round tr) := by
      unfold accPos
      rw [List.filterMap_append]
      exact List.append_nil _
    rw [h0, accPos_of_allRejected h.rej]
    intro p hp
    simp at hp
  · intro h0; simp at h0
  · intro _
    rw [hround]
    exact allRejected_snoc h.rej (by intro l i c r h0; simp at h0)
  · have := h.pos
    simp only [numRmp, List.countP_append] at this ⊢
    omega

theorem Price.congr {cfg : Config} {f0 : Bool} {d : D} {done : List (ℕ × ℕ)} {e e' : Est} {tr : List (Ev D Col)}
    (h : Price cfg f0 d done e tr)
    (h1 : e'.numColAdded = e.numColAdded) (h2 : e'.iter = e.iter) (h3 : e'.tStart = e.tStart)
    (h4 : e'.timeLimitReached = e.timeLimitReached) (h5 : e'.mpOptimal = e.mpOptimal)
    (h6 : e'.performedIter = e.performedIter) (h7 : e'.isFitted = e.isFitted) : Price cfg f0 d done e' tr :=
  ⟨h.toRun.congr h1 h2 h3 h4 h5 h6 h7, h.dual, h.upds, h.gens, h.rej, h.pos, h.off⟩

theorem AddPh.congr {cfg : Config} {f0 : Bool} {d : D} {done : List (ℕ × ℕ)} {l i : ℕ} {cols cs : List Col}
    {upd : Bool} {e e' : Est} {tr : List (Ev D Col)}
    (h : AddPh cfg f0 d done l i cols cs upd e tr)
    (h1 : e'.numColAdded = e.numColAdded) (h2 : e'.iter = e.iter) (h3 : e'.tStart = e.tStart)
    (h4 : e'.timeLimitReached = e.timeLimitReached) (h5 : e'.mpOptimal = e.mpOptimal)
    (h6 : e'.performedIter = e.performedIter) (h7 : e'.isFitted = e.isFitted) :
    AddPh cfg f0 d done l i cols cs upd e' tr :=
  ⟨h.toRun.congr h1 h2 h3 h4 h5 h6 h7, h.dual, h.upds, h.gens, h.lastGen, h.added, h.own,
    fun hu => by rw [h2]; exact h.updT hu, h.updF, h.pos⟩

theorem Price.check {cfg : Config} {f0 : Bool} {d : D} {done : List (ℕ × ℕ)} {e : Est} {tr : List (Ev D Col)}
    (h : Price cfg f0 d done e tr) (t : ℚ) (hlim : ¬ (cfg.timeLimit > 0 ∧ t - e.tStart > cfg.timeLimit)) :
    Price cfg f0 d done e (tr ++ [Ev.check e.tStart t]) := by
  refine {
    toRun := h.toRun.snoc ⟨h.start, h.over, h.ip⟩ rfl rfl rfl ?_ (by intro r; simp), dual := ?_, upds := ?_, gens := ?_,
    rej := ?_, pos := ?_, off := offered_snoc h.off rfl rfl rfl rfl }
  · intro a b hab
    simp only [Ev.check.injEq] at hab
    rw [← hab.1, ← hab.2]
    exact hlim
  · rw [← h.dual]; simp [lastDuals, List.filterMap_append, List.filterMap_cons, rmp?]
  · rw [round_snoc, ← h.upds]
    simp [isRmp, updPos, List.filterMap_append, List.filterMap_cons, upd?]
  · rw [round_snoc, ← h.gens]
    simp [isRmp, genPos, List.filterMap_append, List.filterMap_cons, gen?]
  · rw [round_snoc]
    exact allRejected_snoc h.rej (by intro l i c r h0; simp at h0)
  · have := h.pos
    simp only [numRmp, List.countP_append] at this ⊢
    omega

theorem Price.timed {cfg : Config} {f0 : Bool} {d : D} {done : List (ℕ × ℕ)} {e : Est} {tr : List (Ev D Col)}
    (h : Price cfg f0 d done e tr) (t : ℚ) (hlim : cfg.timeLimit > 0 ∧ t - e.tStart > cfg.timeLimit) (x : ℚ) :
    Timed cfg f0 { e with timeElapsed := x, timeLimitReached := true } (tr ++ [Ev.check e.tStart t]) := by
  refine {
    prot := protocol_snoc h.prot ⟨h.start, h.over, h.ip⟩, cnt := h.cnt.of_accPos ?_, iter := ?_, over := ?_, ip := ?_,
    tl := rfl, opt := h.opt, perf := h.perf, fitted := h.fitted, acc := ?_, rej := ?_, upds := ?_, pos := ?_,
    off := offered_snoc h.off rfl rfl rfl rfl, clean := h.clean.snoc rfl }
  · simp [accPos, List.filterMap_append, List.filterMap_cons, accepted?]
  · change e.iter = _
    rw [h.iter]; simp [numRmp, List.countP_append, isRmp]
  · exact ⟨tr, _, _, rfl, h.start, hlim.1, hlim.2⟩
  · rw [ip_snoc_of_ne (by intro r; simp)]; exact h.ip
  · change e.iter ≤ _
    have := h.acc
    simpa [accPos, List.filterMap_append, List.filterMap_cons, accepted?] using this
  · rw [round_snoc]
    exact allRejected_snoc h.rej (by intro l i c r h0; simp at h0)
  · rw [round_snoc, ← h.upds]
    simp [isRmp, updPos, List.filterMap_append, List.filterMap_cons, upd?]
  · have := h.pos
    simp only [numRmp, List.countP_append] at this ⊢
    omega

/-- Possible results of `spLoop` and `levelLoop`. -/
def PricePost (cfg : Config) (f0 : Bool) (d : D) (all : List (ℕ × ℕ)) : Except Err Bool × St W D Col → Prop
  | (.ok true, s) => Acc cfg f0 s.est s.trace
  | (.ok false, s) => Price cfg f0 d all s.est s.trace ∨ Timed cfg f0 s.est s.trace
  | (.error er, s) => Failed cfg f0 er s.est s.trace

theorem spLoop_spec (env : Env W D Col) (cfg : Config) (f0 : Bool) (d : D) (l : ℕ) :
    ∀ (is : List ℕ) (done : List (ℕ × ℕ)) (s : St W D Col), Price cfg f0 d done s.est s.trace →
    (done ++ is.map (fun i => (l, i)) <+: allPositions cfg.shape) →
    PricePost cfg f0 d (done ++ is.map (fun i => (l, i))) (spLoop env cfg d l is s) := by
  intro is
  induction is with
  | nil =>
    intro done s h hpre
    left
    simpa using h
  | cons i is ih =>
    intro done s h hpre
    simp only [spLoop, now, St.set, St.log]
    change PricePost cfg f0 d _ (if (decide (cfg.timeLimit > 0) &&
      decide ((env.clock s.world).1 - s.est.tStart > cfg.timeLimit)) = true then _ else _)
    split
    · rename_i hc
      have hlim : cfg.timeLimit > 0 ∧ (env.clock s.world).1 - s.est.tStart > cfg.timeLimit := by
        simpa only [Bool.and_eq_true, decide_eq_true_eq] using hc
      right
      exact h.timed _ hlim _
    · rename_i hc
      have hlim : ¬ (cfg.timeLimit > 0 ∧ (env.clock s.world).1 - s.est.tStart > cfg.timeLimit) := by
        simpa only [Bool.and_eq_true, decide_eq_true_eq] using hc
      have hP1 := h.check _ hlim
      have hpre1 : done ++ [(l, i)] <+: allPositions cfg.shape := by
        refine List.IsPrefix.trans ?_ hpre
        exact ⟨is.map (fun i => (l, i)), by simp⟩
      have hgen : ∀ r, Allowed cfg (s.trace ++ [Ev.check s.est.tStart (env.clock s.world).1]) (.generate l i d r) := by
        intro r
        refine ⟨hP1.dual, hP1.upds, ?_, hP1.rej, fun _ => ⟨s.est.tStart, (env.clock s.world).1, by simp⟩, hP1.over, hP1.ip, hP1.off⟩
        rw [hP1.gens]; exact hpre1
      simp only [call]
      generalize hg : env.generate l i d (env.clock (env.clock s.world).2).2 = g
      obtain ⟨gr, gw⟩ := g
      cases gr with
      | error er =>
        have hf := hP1.toRun.failed (hgen (.error er)) (by intro r; simp) rfl
        exact ⟨hf.prot, hf.fitted, hf.ip, hf.gmp, hf.last⟩
      | ok cols =>
        simp only
        have hA := hP1.afterGen (hgen (.ok cols))
        generalize hst : ({ est := _, world := _, trace := _ } : St W D Col) = st
        have hA' : AddPh cfg f0 d (done ++ [(l, i)]) l i cols cols false st.est st.trace := by
          subst hst
          exact hA.congr rfl rfl rfl rfl rfl rfl rfl
        rcases addCols_spec env cfg f0 d _ l i cols cols false st hA' with ⟨s', b, heq, hb⟩ | ⟨s', er, heq, hf⟩
        · rw [heq]
          simp only
          cases b with
          | true =>
            simp only [if_true]
            have h1 := hb.updT rfl
            exact ⟨hb.toRun.congr rfl rfl rfl rfl rfl rfl rfl, fun _ => hb.upds, fun _ => h1.1, h1.2, hb.offered⟩
          | false =>
            simp only [Bool.false_eq_true, if_false]
            have hP2 : Price cfg f0 d (done ++ [(l, i)]) s'.est s'.trace :=
              ⟨hb.toRun, hb.dual, hb.upds, hb.gens, hb.updF rfl, hb.pos, hb.offered⟩
            have := ih (done ++ [(l, i)])
              { est := { s'.est with timeAddCol := s'.est.timeAddCol + ((env.clock s'.world).1 - (env.clock (env.clock gw).2).1) },
                world := (env.clock s'.world).2, trace := s'.trace }
              (hP2.congr rfl rfl rfl rfl rfl rfl rfl) (by simpa using hpre)
            simpa using this
        · rw [heq]
          exact hf

theorem Timed.congr {cfg : Config} {f0 : Bool} {e e' : Est} {tr : List (Ev D Col)} (h : Timed cfg f0 e tr)
    (h1 : e'.numColAdded = e.numColAdded) (h2 : e'.iter = e.iter)
    (h4 : e'.timeLimitReached = e.timeLimitReached) (h5 : e'.mpOptimal = e.mpOptimal)
    (h6 : e'.performedIter = e.performedIter) (h7 : e'.isFitted = e.isFitted) : Timed cfg f0 e' tr :=
  ⟨h.prot, h1 ▸ h.cnt, h2 ▸ h.iter, h.over, h.ip, h4 ▸ h.tl, h5 ▸ h.opt, h6 ▸ h.perf,
    h7 ▸ h.fitted, h2 ▸ h.acc, h.rej, h.upds, h.pos, h.off, h.clean⟩

theorem levelLoop_spec (env : Env W D Col) (cfg : Config) (f0 : Bool) (d : D) :
    ∀ (ls : List (ℕ × ℕ)) (done : List (ℕ × ℕ)) (s : St W D Col), Price cfg f0 d done s.est s.trace →
    (done ++ ls.flatMap (fun p => (List.range p.2).map (fun i => (p.1, i))) = allPositions cfg.shape) →
    PricePost cfg f0 d (allPositions cfg.shape) (levelLoop env cfg d ls s) := by
  intro ls
  induction ls with
  | nil =>
    intro done s h hpre
    left
    simp only [List.flatMap_nil, List.append_nil] at hpre
    rw [← hpre]
    exact h
  | cons p ls ih =>
    obtain ⟨l, n⟩ := p
    intro done s h hpre
    simp only [levelLoop]
    simp only [List.flatMap_cons] at hpre
    have hsp := spLoop_spec env cfg f0 d l (List.range n) done s h
      ⟨ls.flatMap (fun p => (List.range p.2).map (fun i => (p.1, i))), by rw [List.append_assoc]; exact hpre⟩
    generalize spLoop env cfg d l (List.range n) s = r at hsp
    obtain ⟨res, s'⟩ := r
    cases res with
    | error er => exact hsp
    | ok b =>
      simp only [now, St.set]
      cases b with
      | true =>
        have hsp' : Acc cfg f0 s'.est s'.trace := hsp
        change PricePost cfg f0 d _ (if s'.est.timeLimitReached = true then _ else _)
        split
        · rename_i hc
          exact absurd hc (by rw [hsp'.tl]; simp)
        rw [if_pos rfl]
        exact ⟨hsp'.toRun.congr rfl rfl rfl rfl rfl rfl rfl, hsp'.upds, hsp'.acc1, hsp'.acc2, hsp'.off⟩
      | false =>
        rcases hsp with hP | hT
        · change PricePost cfg f0 d _ (if s'.est.timeLimitReached = true then _ else _)
          split
          · rename_i hc
            exact absurd hc (by rw [hP.tl]; simp)
          rw [if_neg (by simp)]
          refine ih _ _ (Price.congr hP ?_ ?_ ?_ ?_ ?_ ?_ ?_) ?_ <;> try rfl
          rw [List.append_assoc]
          exact hpre
        · change PricePost cfg f0 d _ (if s'.est.timeLimitReached = true then _ else _)
          split
          swap
          · rename_i hc
            exact absurd hT.tl hc
          right
          exact hT.congr rfl rfl rfl rfl rfl rfl

/-! ## The update loop -/

theorem UpdPh.congr {cfg : Config} {f0 : Bool} {d : D} {done : List (ℕ × ℕ)} {e e' : Est} {tr : List (Ev D Col)}
    (h : UpdPh cfg f0 d done e tr)
    (h1 : e'.numColAdded = e.numColAdded) (h2 : e'.iter = e.iter) (h3 : e'.tStart = e.tStart)
    (h4 : e'.timeLimitReached = e.timeLimitReached) (h5 : e'.mpOptimal = e.mpOptimal)
    (h6 : e'.performedIter = e.performedIter) (h7 : e'.isFitted = e.isFitted) : UpdPh cfg f0 d done e' tr :=
  ⟨h.toRun.congr h1 h2 h3 h4 h5 h6 h7, h.dual, h.upds, h.gens, h.noadd, h.pos⟩

/-- Possible results of `updateLoop`. -/
def UpdPost (cfg : Config) (f0 : Bool) (d : D) (all : List (ℕ × ℕ)) : Except Err Unit × St W D Col → Prop
  | (.ok _, s) => UpdPh cfg f0 d all s.est s.trace
  | (.error er, s) => Failed cfg f0 er s.est s.trace

theorem updateLoop_spec (env : Env W D Col) (cfg : Config) (f0 : Bool) (d : D) :
    ∀ (ps done : List (ℕ × ℕ)) (s : St W D Col), UpdPh cfg f0 d done s.est s.trace →
    done ++ ps <+: allPositions cfg.shape →
    UpdPost cfg f0 d (done ++ ps) (updateLoop env d ps s) := by
  intro ps
  induction ps with
  | nil => intro done s h _; rw [List.append_nil]; exact h
  | cons p ps ih =>
    obtain ⟨l, i⟩ := p
    intro done s h hpre
    have hpre1 : done ++ [(l, i)] <+: allPositions cfg.shape :=
      List.IsPrefix.trans ⟨ps, by simp⟩ hpre
    have hall : ∀ r, Allowed cfg s.trace (.update l i d r) := fun r =>
      ⟨h.dual, by rw [h.upds]; exact hpre1, h.gens, h.over, h.ip⟩
    simp only [updateLoop, now, call]
    generalize env.update l i d (env.clock s.world).2 = g
    obtain ⟨gr, gw⟩ := g
    cases gr with
    | error er =>
      have hf := h.toRun.failed (hall (.error er)) (by intro r; simp) rfl
      exact ⟨hf.prot, hf.fitted, hf.ip, hf.gmp, hf.last⟩
    | ok u =>
      simp only [St.set]
      have hU : UpdPh cfg f0 d (done ++ [(l, i)]) s.est (s.trace ++ [Ev.update l i d (.ok u)]) := by
        refine {
          toRun := h.toRun.snoc (hall _) rfl rfl rfl (by intro s t h0; simp at h0) (by intro r; simp), dual := ?_,
          upds := ?_, gens := ?_, noadd := ?_, pos := ?_ }
        · rw [← h.dual]; simp [lastDuals, List.filterMap_append, List.filterMap_cons, rmp?]
        · rw [round_snoc, ← h.upds]
          simp [isRmp, updPos, List.filterMap_append, List.filterMap_cons, upd?]
        · rw [round_snoc, ← h.gens]
          simp [isRmp, genPos, List.filterMap_append, List.filterMap_cons, gen?]
        · rw [round_snoc]
          intro l' i' c r hm
          simp only [isRmp, Bool.false_eq_true, if_false, List.mem_append, List.mem_singleton, reduceCtorEq, or_false] at hm
          exact h.noadd l' i' c r hm
        · have := h.pos
          simp only [numRmp, List.countP_append] at this ⊢
          omega
      have := ih (done ++ [(l, i)])
        { est := { s.est with timeSpentSp := bump s.est.timeSpentSp l i ((env.clock gw).1 - (env.clock s.world).1) },
          world := (env.clock gw).2, trace := s.trace ++ [Ev.update l i d (.ok u)] }
        (hU.congr rfl rfl rfl rfl rfl rfl rfl) (by simpa using hpre)
      simpa using this

theorem UpdPh.price {cfg : Config} {f0 : Bool} {d : D} {e : Est} {tr : List (Ev D Col)}
    (h : UpdPh cfg f0 d (allPositions cfg.shape) e tr) : Price cfg f0 d [] e tr :=
  ⟨h.toRun, h.dual, h.upds, h.gens, fun l i c r hm => absurd hm (h.noadd l i c r), h.pos, offered_of_genPos h.gens⟩

/-! ## One iteration -/

/-- Possible results of `body`. -/
def BodyPost (cfg : Config) (f0 : Bool) (n0 : ℕ) : Except Err Bool × St W D Col → Prop
  | (.ok true, s) => Acc cfg f0 s.est s.trace ∧ s.est.iter = n0 + 1
  | (.ok false, s) => ((∃ d e, Price cfg f0 d (allPositions cfg.shape) e s.trace ∧ s.est = { e with mpOptimal := true }) ∨
      Timed cfg f0 s.est s.trace) ∧ s.est.iter = n0 + 1
  | (.error er, s) => Failed cfg f0 er s.est s.trace

/-- Right after a successful `solve_rmp`. -/
theorem Acc.afterRmp {cfg : Config} {f0 : Bool} {e : Est} {tr : List (Ev D Col)} (h : Acc cfg f0 e tr) (d : D) :
    UpdPh cfg f0 d [] { e with iter := e.iter + 1 } (tr ++ [Ev.solveRmp (.ok d)]) := by
  have hround : round (tr ++ [Ev.solveRmp (.ok d)]) = [] := by rw [round_snoc]; rfl
  have hacc : accPos (tr ++ [Ev.solveRmp (.ok d)]) = accPos tr := by
    unfold accPos
    rw [List.filterMap_append]
    exact List.append_nil _
  have hall : Allowed cfg tr (.solveRmp (.ok d)) :=
    ⟨h.gmp, h.over, h.ip, fun hpos => ⟨h.upds hpos, h.acc1 hpos, h.off⟩⟩
  refine {
    prot := protocol_snoc h.prot hall, cnt := h.cnt.of_accPos hacc, iter := ?_, start := ?_, over := ?_, ip := ?_,
    tl := h.tl, opt := h.opt, gmp := ?_, perf := h.perf, fitted := h.fitted, acc := ?_, clean := h.clean.snoc rfl, dual := ?_, upds := ?_,
    gens := ?_, noadd := ?_, pos := ?_ }
  · change e.iter + 1 = _
    rw [h.iter]; simp [numRmp, List.countP_append, isRmp]
  · change _ = some e.tStart
    rw [← h.start]; simp [lastTimer, List.filterMap_append, List.filterMap_cons, timer?]
  · rw [over_snoc_of_ne (by intro s t; simp)]; exact h.over
  · rw [ip_snoc_of_ne (by intro s; simp)]; exact h.ip
  · obtain ⟨y, hy⟩ := h.gmp
    exact ⟨y, List.mem_append_left _ hy⟩
  · change e.iter + 1 ≤ _
    rw [hacc]
    have := h.acc2
    omega
  · simp [lastDuals, List.filterMap_append, List.filterMap_cons, rmp?]
  · rw [hround]; rfl
  · rw [hround]; rfl
  · rw [hround]; simp
  · simp [numRmp, List.countP_append, isRmp]

/-- Events that do not touch the updating phase. -/
theorem UpdPh.snoc {cfg : Config} {f0 : Bool} {d : D} {done : List (ℕ × ℕ)} {e : Est} {tr : List (Ev D Col)}
    (h : UpdPh cfg f0 d done e tr) {ev : Ev D Col} (hr : Run cfg f0 e (tr ++ [ev])) (h1 : isRmp ev = false)
    (h2 : rmp? ev = none) (h3 : upd? ev = none) (h4 : gen? ev = none) (h5 : ∀ l i c r, ev ≠ .add l i c r) :
    UpdPh cfg f0 d done e (tr ++ [ev]) := by
  refine {
    toRun := hr, dual := ?_, upds := ?_, gens := ?_, noadd := ?_, pos := ?_ }
  · rw [← h.dual]; simp [lastDuals, List.filterMap_append, List.filterMap_cons, h2]
  · rw [round_snoc, ← h.upds]
    simp [h1, updPos, List.filterMap_append, List.filterMap_cons, h3]
  · rw [round_snoc, ← h.gens]
    simp [h1, genPos, List.filterMap_append, List.filterMap_cons, h4]
  · rw [round_snoc]
    intro l' i' c r hm
    simp only [h1, Bool.false_eq_true, if_false, List.mem_append, List.mem_singleton] at hm
    rcases hm with hm | hm
    · exact h.noadd l' i' c r hm
    · exact h5 _ _ _ _ hm.symm
  · have := h.pos
    simp only [numRmp, List.countP_append] at this ⊢
    omega

theorem resetTimer_spec (env : Env W D Col) {cfg : Config} {f0 : Bool} {d : D} {done : List (ℕ × ℕ)} {s : St W D Col}
    (h : UpdPh cfg f0 d done s.est s.trace) (hl : ∃ b, s.trace.getLast? = some (.improved (.ok b))) :
    UpdPh cfg f0 d done (resetTimer env s).est (resetTimer env s).trace ∧ (resetTimer env s).est.iter = s.est.iter := by
  have h1 : UpdPh cfg f0 d done s.est (s.trace ++ [Ev.resetFlag (env.resetFlag s.world)]) :=
    h.snoc (h.toRun.snoc hl rfl rfl rfl (by intro a b h0; simp at h0) (by intro r; simp)) rfl rfl rfl rfl
      (by intro l i c r; simp)
  unfold resetTimer
  simp only [St.log, now, St.set]
  split
  · rename_i hf
    refine ⟨?_, rfl⟩
    rw [hf] at h1 ⊢
    generalize (env.clock s.world).1 = t
    have hall : Allowed cfg (s.trace ++ [Ev.resetFlag (some true)]) (.timer t : Ev D Col) := by
      right; simp
    have hacc : accPos (s.trace ++ [Ev.resetFlag (some true)] ++ [Ev.timer t]) =
        accPos (s.trace ++ [Ev.resetFlag (some true)]) := by
      unfold accPos
      rw [List.filterMap_append (l := _ ++ _)]
      exact List.append_nil _
    have hrun : Run cfg f0 { s.est with tStart := t } (s.trace ++ [Ev.resetFlag (some true)] ++ [Ev.timer t]) := by
      refine ⟨protocol_snoc h1.prot hall, h1.cnt.of_accPos hacc, ?_, ?_, ?_, ?_, h1.tl, h1.opt, ?_, h1.perf, h1.fitted, ?_, h1.clean.snoc rfl⟩
      · change s.est.iter = _
        rw [h1.iter]; simp [numRmp, List.countP_append, isRmp]
      · simp [lastTimer, List.filterMap_append, List.filterMap_cons, timer?]
      · rw [over_snoc_of_ne (by intro s t; simp)]; exact h1.over
      · rw [ip_snoc_of_ne (by intro s; simp)]; exact h1.ip
      · obtain ⟨y, hy⟩ := h1.gmp
        exact ⟨y, List.mem_append_left _ hy⟩
      · change s.est.iter ≤ _
        rw [hacc]; exact h1.acc
    have h2 : UpdPh cfg f0 d done { s.est with tStart := t } (s.trace ++ [Ev.resetFlag (some true)] ++ [Ev.timer t]) := by
      refine {
        toRun := hrun, dual := ?_, upds := ?_, gens := ?_, noadd := ?_, pos := ?_ }
      · rw [← h1.dual]; simp [lastDuals, List.filterMap_append, List.filterMap_cons, rmp?]
      · rw [round_snoc, ← h1.upds]
        simp [isRmp, updPos, List.filterMap_append, List.filterMap_cons, upd?]
      · rw [round_snoc, ← h1.gens]
        simp [isRmp, genPos, List.filterMap_append, List.filterMap_cons, gen?]
      · rw [round_snoc]
        intro l' i' c r hm
        simp only [isRmp, Bool.false_eq_true, if_false, List.mem_append, List.mem_singleton, reduceCtorEq, or_false] at hm
        exact h1.noadd l' i' c r hm
      · have := h1.pos
        simp only [numRmp, List.countP_append] at this ⊢
        omega
    exact h2
  · exact ⟨h1, rfl⟩

theorem iter_of_addCols (env : Env W D Col) (l i : ℕ) (cs : List Col) : ∀ (upd : Bool) (s : St W D Col),
    (addCols env l i cs upd s).2.est.iter = s.est.iter := by
  induction cs with
  | nil => intro upd s; rfl
  | cons c cs ih =>
    intro upd s
    simp only [addCols, call]
    generalize env.addColumn c s.world = g
    obtain ⟨gr, gw⟩ := g
    cases gr with
    | error er => rfl
    | ok b => simp only; rw [ih]; rfl

theorem iter_of_spLoop (env : Env W D Col) (cfg : Config) (d : D) (l : ℕ) (is : List ℕ) : ∀ (s : St W D Col),
    (spLoop env cfg d l is s).2.est.iter = s.est.iter := by
  induction is with
  | nil => intro s; rfl
  | cons i is ih =>
    intro s
    simp only [spLoop, now, St.set, St.log, call]
    change (if (decide (cfg.timeLimit > 0) &&
      decide ((env.clock s.world).1 - s.est.tStart > cfg.timeLimit)) = true then _ else _ : _ × St W D Col).2.est.iter = _
    split
    · rfl
    · generalize env.generate l i d (env.clock (env.clock s.world).2).2 = g
      obtain ⟨gr, gw⟩ := g
      cases gr with
      | error er => rfl
      | ok cols =>
        simp only
        generalize hst : ({ est := _, world := _, trace := _ } : St W D Col) = st
        have hi : st.est.iter = s.est.iter := by subst hst; rfl
        have := iter_of_addCols env l i cols false st
        generalize addCols env l i cols false st = r at this
        obtain ⟨res, s'⟩ := r
        cases res with
        | error er => simp only at this ⊢; rw [this, hi]
        | ok b =>
          simp only at this ⊢
          cases b with
          | true => simp only [if_true]; rw [this, hi]
          | false => simp only [Bool.false_eq_true, if_false]; rw [ih]; simp only; rw [this, hi]

theorem iter_of_levelLoop (env : Env W D Col) (cfg : Config) (d : D) (ls : List (ℕ × ℕ)) : ∀ (s : St W D Col),
    (levelLoop env cfg d ls s).2.est.iter = s.est.iter := by
  induction ls with
  | nil => intro s; rfl
  | cons p ls ih =>
    obtain ⟨l, n⟩ := p
    intro s
    simp only [levelLoop, now, St.set]
    have := iter_of_spLoop env cfg d l (List.range n) s
    generalize spLoop env cfg d l (List.range n) s = r at this
    obtain ⟨res, s'⟩ := r
    cases res with
    | error er => exact this
    | ok b =>
      simp only at this ⊢
      change (if s'.est.timeLimitReached = true then _ else _ : _ × St W D Col).2.est.iter = _
      split
      · exact this
      · cases b with
        | true => exact this
        | false => simp only [Bool.false_eq_true, if_false]; rw [ih]; exact this

theorem iter_of_updateLoop (env : Env W D Col) (d : D) (ps : List (ℕ × ℕ)) : ∀ (s : St W D Col),
    (updateLoop env d ps s).2.est.iter = s.est.iter := by
  induction ps with
  | nil => intro s; rfl
  | cons p ps ih =>
    obtain ⟨l, i⟩ := p
    intro s
    simp only [updateLoop, now, call]
    generalize env.update l i d (env.clock s.world).2 = g
    obtain ⟨gr, gw⟩ := g
    cases gr with
    | error er => rfl
    | ok u => simp only [St.set]; rw [ih]

theorem body_spec (env : Env W D Col) (cfg : Config) (f0 : Bool) (s : St W D Col) (h : Acc cfg f0 s.est s.trace) :
    BodyPost cfg f0 s.est.iter (body env cfg s) := by
  simp only [body, now, St.set, call]
  generalize env.solveRmp (env.clock (env.clock s.world).2).2 = g
  obtain ⟨gr, gw⟩ := g
  cases gr with
  | error er =>
    have hall : Allowed cfg s.trace (.solveRmp (.error er) : Ev D Col) :=
      ⟨h.gmp, h.over, h.ip, fun hpos => ⟨h.upds hpos, h.acc1 hpos, h.off⟩⟩
    have hf := h.toRun.failed hall (by intro r; simp) rfl
    exact ⟨hf.prot, hf.fitted, hf.ip, hf.gmp, hf.last⟩
  | ok d =>
    simp only
    have hU := h.afterRmp d
    have hall : ∀ r, Allowed cfg (s.trace ++ [Ev.solveRmp (.ok d)]) (.improved r : Ev D Col) := fun r => ⟨d, by simp⟩
    generalize env.improved (env.clock gw).2 = g2
    obtain ⟨gr2, gw2⟩ := g2
    cases gr2 with
    | error er =>
      have hf := hU.toRun.failed (hall (.error er)) (by intro r; simp) rfl
      exact ⟨hf.prot, hf.fitted, hf.ip, hf.gmp, hf.last⟩
    | ok b =>
      simp only
      have hU2 : UpdPh cfg f0 d [] { s.est with iter := s.est.iter + 1 }
          (s.trace ++ [Ev.solveRmp (.ok d)] ++ [Ev.improved (.ok b)]) :=
        hU.snoc (hU.toRun.snoc (hall _) rfl rfl rfl (by intro a b h0; simp at h0) (by intro r; simp)) rfl rfl rfl rfl
          (by intro l i c r; simp)
      generalize hst : ({ est := _, world := gw2, trace := _ } : St W D Col) = st
      have hU3 : UpdPh cfg f0 d [] st.est st.trace := by
        subst hst
        exact hU2.congr rfl rfl rfl rfl rfl rfl rfl
      have hlast : ∃ b, st.trace.getLast? = some (.improved (.ok b)) := by
        subst hst
        exact ⟨b, by simp⟩
      have hiter : st.est.iter = s.est.iter + 1 := by subst hst; rfl
      obtain ⟨hU4, hi4⟩ := resetTimer_spec env hU3 hlast
      rw [hiter] at hi4
      generalize resetTimer env st = s4 at hU4 hi4
      have hU5 := updateLoop_spec env cfg f0 d (positions cfg.shape) [] s4 hU4 (by rw [positions_eq]; simp)
      have hi5 := iter_of_updateLoop env d (positions cfg.shape) s4
      generalize updateLoop env d (positions cfg.shape) s4 = r5 at hU5 hi5
      obtain ⟨res5, s5⟩ := r5
      cases res5 with
      | error er => exact hU5
      | ok u =>
        simp only at hi5 ⊢
        have hP : Price cfg f0 d [] s5.est s5.trace := by
          apply UpdPh.price
          have : UpdPh cfg f0 d ([] ++ positions cfg.shape) s5.est s5.trace := hU5
          rw [List.nil_append, positions_eq] at this
          exact this
        have hL := levelLoop_spec env cfg f0 d (levels cfg.shape) [] s5 hP (by
          rw [List.nil_append]; exact flatMap_levels cfg.shape)
        have hi6 := iter_of_levelLoop env cfg d (levels cfg.shape) s5
        generalize levelLoop env cfg d (levels cfg.shape) s5 = r6 at hL hi6
        obtain ⟨res6, s6⟩ := r6
        cases res6 with
        | error er => exact hL
        | ok b6 =>
          cases b6 with
          | true =>
            simp only [if_true]
            simp only at hi6
            exact ⟨hL, by rw [hi6, hi5, hi4]⟩
          | false =>
            simp only [Bool.false_eq_true, if_false]
            simp only at hi6
            refine ⟨?_, by split <;> simp only [hi6, hi5, hi4]⟩
            rcases hL with hP6 | hT
            · left
              rw [if_neg (by rw [hP6.tl]; simp)]
              exact ⟨d, s6.est, hP6, rfl⟩
            · right
              rw [if_pos hT.tl]
              exact hT

/-! ## The loop -/

/-- How the loop can be left. -/
def LoopPost (cfg : Config) (f0 : Bool) : Except Err Unit × St W D Col → Prop
  | (.ok _, s) =>
      (Acc cfg f0 s.est s.trace ∧ cfg.maxIterations > 0 ∧ (s.est.iter : ℤ) ≥ cfg.maxIterations) ∨
      (∃ d e, Price cfg f0 d (allPositions cfg.shape) e s.trace ∧ s.est = { e with mpOptimal := true }) ∨
      Timed cfg f0 s.est s.trace
  | (.error er, s) => Failed cfg f0 er s.est s.trace

theorem loop_spec (env : Env W D Col) (cfg : Config) (f0 : Bool) : ∀ (n : ℕ) (s : St W D Col),
    Acc cfg f0 s.est s.trace → ∀ r, loop env cfg n s = some r → LoopPost cfg f0 r := by
  intro n
  induction n with
  | zero => intro s _ r hr; simp [loop] at hr
  | succ n ih =>
    intro s h r hr
    simp only [loop] at hr
    split at hr
    · rename_i hlim
      cases hr
      exact Or.inl ⟨h, hlim.1, hlim.2⟩
    · have hb := body_spec env cfg f0 s h
      generalize body env cfg s = g at hb hr
      obtain ⟨res, s'⟩ := g
      cases res with
      | error er => cases hr; exact hb
      | ok b =>
        cases b with
        | true => exact ih s' hb.1 r hr
        | false => cases hr; exact Or.inr hb.1

end Verif.Fit
