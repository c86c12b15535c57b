import Verif.Fit.Classes
import Verif.Fit.Props2

/-!
# The life of a classifier: any sequence of calls of `fit` and `predict`

Generic part of C124. `view w` is what `predict` reads of the master problem (`explanation` or `selected_paths`).
-/

namespace Verif.Fit

open Spec

variable {W D Col XT R Raw RawX : Type}

/-- `NotFittedError` of `check_is_fitted`. -/
def notFitted : Err := .user 0

/-- A call of `fit` with any input, `_col_gen_classifier.py:344-459`: the clock is read, then `check` raises or returns data. `check` stands for
`check_X_y` (346) and for what `unique_labels` (349) refuses, such as labels that are not integers; no attribute is written before. -/
def fitRaw (check : Raw → Except Err (XT × List ℤ)) (clock : W → ℚ × W) (env : XT → Env W D Col) (cfg : Config) (fuel : ℕ) (raw : Raw) (e0 : Est)
    (w0 : W) : Option (Except Err Unit × St W D Col) :=
  match check raw with
  | .error e => some (.error e, ⟨e0, (clock w0).2, []⟩)
  | .ok (X, y) => fit (env X) cfg fuel y e0 w0

/-- A call of `predict` with any input, `_bdr_classifier.py:691-703` and `_dtree_classifier.py:2532-2545`: `check_array` comes before
`check_is_fitted`. `decode` is the rest. `predict` writes no attribute. -/
def predictRaw {α : Type} (check : RawX → Except Err α) (decode : List ℤ → α → Except Err (List ℤ)) (raw : RawX) (e : Est) : Except Err (List ℤ) :=
  match check raw with
  | .error er => .error er
  | .ok X => if e.isFitted then decode e.classes X else .error notFitted

/-- What is known of a call of `fit`: the labels if the data were valid, the result, whether `solve_ip` was called, and `view` after the call. -/
structure Rec (R : Type) where
  labels : Option (List ℤ)
  result : Except Err Unit
  ip : Bool
  rule : List R

/-- The event is a call of `solve_ip`. -/
def isIp : Ev D Col → Bool
  | .solveIp _ => true
  | _ => false

/-- The calls of `fit` on a classifier, in order, and the attributes after them. In between the environment may change (`idle`). -/
inductive Life (check : Raw → Except Err (XT × List ℤ)) (clock : W → ℚ × W) (env : XT → Env W D Col) (idle : W → W → Prop) (view : W → List R)
    (start : Est → W → Prop) : List (Rec R) → Est → W → Prop
  | new {e : Est} {w : W} (h : start e w) : Life check clock env idle view start [] e w
  | idle {h : List (Rec R)} {e : Est} {w w' : W} (hl : Life check clock env idle view start h e w) (hi : idle w w') :
      Life check clock env idle view start h e w'
  | fit {h : List (Rec R)} {e : Est} {w : W} (hl : Life check clock env idle view start h e w) (cfg : Config) (fuel : ℕ) (raw : Raw)
      {r : Except Err Unit × St W D Col} (hr : fitRaw check clock env cfg fuel raw e w = some r) :
      Life check clock env idle view start
        (h ++ [⟨(check raw).toOption.map (·.2), r.1, r.2.trace.any isIp, view r.2.world⟩]) r.2.est r.2.world

namespace Spec

/-- Some `fit` returned. -/
def EverFitted (h : List (Rec R)) : Prop := ∃ r ∈ h, r.result = .ok ()

/-- The labels of the last `fit` with valid data. -/
def lastLabels (h : List (Rec R)) : List ℤ := h.foldl (fun acc r => r.labels.getD acc) []

/-- The rule or tree of the last `fit` that returned; nothing, if a later `fit` raised in `solve_ip`. -/
def lastRule (h : List (Rec R)) : List R :=
  h.foldl (fun acc r => match r.result with
    | .ok _ => r.rule
    | .error _ => if r.ip then [] else acc) []

end Spec

/-- Only `solve_ip` changes `view`, and if it raises it leaves nothing. -/
structure Keeps (env : Env W D Col) (view : W → List R) (J : W → Prop) : Prop where
  clock : ∀ w, J w → J (env.clock w).2 ∧ view (env.clock w).2 = view w
  clear : ∀ w, J w → J (env.clearReset w) ∧ view (env.clearReset w) = view w
  generateMp : ∀ y w, J w → J (env.generateMp y w).2 ∧ view (env.generateMp y w).2 = view w
  solveRmp : ∀ w, J w → J (env.solveRmp w).2 ∧ view (env.solveRmp w).2 = view w
  improved : ∀ w, J w → J (env.improved w).2 ∧ view (env.improved w).2 = view w
  update : ∀ l i d w, J w → J (env.update l i d w).2 ∧ view (env.update l i d w).2 = view w
  generate : ∀ l i d w, J w → J (env.generate l i d w).2 ∧ view (env.generate l i d w).2 = view w
  add : ∀ c w, J w → J (env.addColumn c w).2 ∧ view (env.addColumn c w).2 = view w
  solveIp : ∀ w, J w → J (env.solveIp w).2 ∧ ((env.solveIp w).1 = .ok true ∨ ((∃ e, (env.solveIp w).1 = .error e) ∧ view (env.solveIp w).2 = []))

/-- The invariant of one `fit`. -/
def ViewInv (view : W → List R) (J : W → Prop) (v0 : List R) (w : W) (tr : List (Ev D Col)) : Prop :=
  J w ∧ ((∀ q, Ev.solveIp q ∉ tr) → view w = v0) ∧ ((∀ b, Ev.solveIp (.ok b) ∉ tr) → (∃ e, Ev.solveIp (.error e) ∈ tr) → view w = []) ∧
    ∀ b, Ev.solveIp (.ok b) ∈ tr → b = true

theorem ViewInv.step {view : W → List R} {J : W → Prop} {v0 : List R} {w w' : W} {tr : List (Ev D Col)} (h : ViewInv view J v0 w tr)
    (hk : J w' ∧ view w' = view w) {ev : Ev D Col} (hne : ∀ q, ev ≠ Ev.solveIp q) : ViewInv view J v0 w' (tr ++ [ev]) := by
  have hm : ∀ q, Ev.solveIp q ∈ tr ++ [ev] ↔ Ev.solveIp q ∈ tr := by
    intro q
    rw [List.mem_append, List.mem_singleton]
    exact ⟨fun h => h.resolve_right (fun he => hne q he.symm), Or.inl⟩
  obtain ⟨h1, h2, h3, h4⟩ := h
  simp only [ViewInv, hm]
  rw [hk.2]
  exact ⟨hk.1, h2, h3, h4⟩

theorem ViewInv.silent {view : W → List R} {J : W → Prop} {v0 : List R} {w w' : W} {tr : List (Ev D Col)} (h : ViewInv view J v0 w tr)
    (hk : J w' ∧ view w' = view w) : ViewInv view J v0 w' tr := by
  unfold ViewInv at *
  rw [hk.2]
  exact ⟨hk.1, h.2⟩

theorem Keeps.preserved {env : Env W D Col} {view : W → List R} {J : W → Prop} (hK : Keeps env view J) (v0 : List R) :
    Preserved env (ViewInv view J v0) where
  clock w tr h := h.silent (hK.clock w h.1)
  timer w tr t h := h.step ⟨h.1, rfl⟩ (by simp)
  check w tr s t h := h.step ⟨h.1, rfl⟩ (by simp)
  flag w tr h := h.step ⟨h.1, rfl⟩ (by simp)
  clear w tr h := h.silent (hK.clear w h.1)
  generateMp w tr y h := h.step (hK.generateMp y w h.1) (by simp)
  solveRmp w tr h := h.step (hK.solveRmp w h.1) (by simp)
  improved w tr h := h.step (hK.improved w h.1) (by simp)
  update w tr l i d h := h.step (hK.update l i d w h.1) (by simp)
  generate w tr l i d h := h.step (hK.generate l i d w h.1) (by simp)
  add w tr l i c h := h.step (hK.add c w h.1) (by simp)
  solveIp w tr h := by
    obtain ⟨h1, h2⟩ := hK.solveIp w h.1
    refine ⟨h1, ?_, ?_, ?_⟩
    · intro hn
      exact absurd (List.mem_append_right _ (List.mem_singleton_self _)) (hn _)
    · intro hn he
      rcases h2 with h2 | ⟨-, h2⟩
      · exact absurd (by rw [h2]; exact List.mem_append_right _ (List.mem_singleton_self _)) (hn true)
      · exact h2
    · intro b hb
      rcases List.mem_append.1 hb with hb | hb
      · exact h.2.2.2 b hb
      · have hb := List.mem_singleton.1 hb
        rcases h2 with h2 | ⟨⟨e, h2⟩, -⟩
        · rw [h2] at hb
          simp only [Ev.solveIp.injEq, Except.ok.injEq] at hb
          exact hb
        · rw [h2] at hb
          simp at hb

theorem any_isIp {tr : List (Ev D Col)} : tr.any isIp = true ↔ ∃ q, Ev.solveIp q ∈ tr := by
  rw [List.any_eq_true]
  constructor
  · rintro ⟨e, he, h⟩
    cases e with
    | solveIp q => exact ⟨q, he⟩
    | _ => cases h
  · rintro ⟨q, hq⟩
    exact ⟨_, hq, rfl⟩

/-- One `fit`. -/
theorem Keeps.fit {env : Env W D Col} {view : W → List R} {J : W → Prop} (hK : Keeps env view J) {cfg : Config} {fuel : ℕ} {y : List ℤ} {e0 : Est}
    {w0 : W} (h0 : J w0) {r : Except Err Unit × St W D Col} (hr : Fit.fit env cfg fuel y e0 w0 = some r) :
    J r.2.world ∧ ∀ e, r.1 = .error e → view r.2.world = if r.2.trace.any isIp then [] else view w0 := by
  obtain ⟨h1, h2, h3, h4⟩ := (hK.preserved (view w0)).fit cfg fuel y e0 w0 ⟨h0, fun _ => rfl, fun _ h => by simp at h, fun b h => by simp at h⟩ r hr
  refine ⟨h1, ?_⟩
  intro e he
  obtain ⟨r1, s⟩ := r
  subst he
  by_cases hip : s.trace.any isIp = true
  · rw [if_pos hip]
    obtain ⟨q, hq⟩ := any_isIp.1 hip
    obtain ⟨-, ⟨tr, htr, hno⟩, hc⟩ := (C10_raises hr).2 q hq
    have hqe : q = .error e := by
      rcases hc with ⟨rfl, -⟩ | hc
      · exact absurd (h4 false hq) (by decide)
      · exact hc
    subst hqe
    refine h3 ?_ ⟨e, hq⟩
    intro b hb
    rw [htr] at hb
    rcases List.mem_append.1 hb with hb | hb
    · exact hno _ hb
    · simp at hb
  · rw [if_neg hip]
    exact h2 (fun q hq => hip (any_isIp.2 ⟨q, hq⟩))

/-- The attributes that `predict` reads, after any sequence of calls. -/
theorem life_state {check : Raw → Except Err (XT × List ℤ)} {clock : W → ℚ × W} {env : XT → Env W D Col} {idle : W → W → Prop} {view : W → List R}
    {start : Est → W → Prop} {J : W → Prop} (hK : ∀ X, Keeps (env X) view J) (hc : ∀ w, J w → J (clock w).2 ∧ view (clock w).2 = view w)
    (hi : ∀ w w', idle w w' → J w → J w' ∧ view w' = view w)
    (hs : ∀ e w, start e w → J w ∧ view w = [] ∧ e.isFitted = false) {h : List (Rec R)} {e : Est} {w : W}
    (hl : Life check clock env idle view start h e w) :
    J w ∧ view w = lastRule h ∧ (e.isFitted = true ↔ EverFitted h) ∧ ((∃ r ∈ h, r.labels ≠ none) → e.classes = Sk.uniqueLabels (lastLabels h)) := by
  induction hl with
  | new hst =>
    obtain ⟨h1, h2, h3⟩ := hs _ _ hst
    exact ⟨h1, h2, by simp [EverFitted, h3], fun ⟨r, hr, _⟩ => absurd hr (List.not_mem_nil)⟩
  | idle hl hid ih =>
    obtain ⟨h1, h2, h3, h4⟩ := ih
    obtain ⟨k1, k2⟩ := hi _ _ hid h1
    exact ⟨k1, k2.trans h2, h3, h4⟩
  | fit hl cfg fuel raw hr ih =>
    rename_i h e w r
    obtain ⟨h1, h2, h3, h4⟩ := ih
    unfold fitRaw at hr
    cases hck : check raw with
    | error er =>
      rw [hck] at hr
      cases hr
      obtain ⟨k1, k2⟩ := hc w h1
      refine ⟨k1, ?_, ?_, ?_⟩
      · simp only [lastRule, List.foldl_append, List.foldl_cons, List.foldl_nil, List.any_nil]
        exact k2.trans h2
      · rw [h3]
        simp [EverFitted]
      · rintro ⟨r, hr, hne⟩
        rcases List.mem_append.1 hr with hr | hr
        · simp only [lastLabels, List.foldl_append, List.foldl_cons, List.foldl_nil]
          exact h4 ⟨r, hr, hne⟩
        · rw [List.mem_singleton.1 hr] at hne
          exact absurd rfl hne
    | ok Xy =>
      obtain ⟨X, y⟩ := Xy
      rw [hck] at hr
      simp only at hr
      obtain ⟨k1, k2⟩ := (hK X).fit h1 hr
      obtain ⟨r1, s⟩ := r
      refine ⟨k1, ?_, ?_, ?_⟩
      · simp only [lastRule, List.foldl_append, List.foldl_cons, List.foldl_nil]
        cases r1 with
        | ok u => rfl
        | error er =>
          simp only
          rw [k2 er rfl, h2]
          rfl
      · cases r1 with
        | ok u => exact ⟨fun _ => ⟨_, List.mem_append_right _ (List.mem_singleton_self _), rfl⟩, fun _ => (C10_returns hr).1⟩
        | error er =>
          rw [(C10_raises hr).1, h3]
          simp [EverFitted]
      · intro _
        simp only [lastLabels, List.foldl_append, List.foldl_cons, List.foldl_nil]
        exact fit_classes hr

/-- Data that are refused give no labels; a call that returned, or that came to `solve_ip`, had two labels. -/
theorem life_records {check : Raw → Except Err (XT × List ℤ)} {clock : W → ℚ × W} {env : XT → Env W D Col} {idle : W → W → Prop} {view : W → List R}
    {start : Est → W → Prop} {h : List (Rec R)} {e : Est} {w : W} (hl : Life check clock env idle view start h e w) :
    ∀ r ∈ h, r.result = .ok () ∨ r.ip = true → ∃ y, r.labels = some y ∧ ∃ a ∈ y, ∃ b ∈ y, a ≠ b := by
  induction hl with
  | new hst => intro r hr; cases hr
  | idle hl hid ih => exact ih
  | fit hl cfg fuel raw hr ih =>
    rename_i h e w r
    intro q hq
    rcases List.mem_append.1 hq with hq | hq
    · exact ih q hq
    rw [List.mem_singleton.1 hq]
    unfold fitRaw at hr
    cases hck : check raw with
    | error er =>
      rw [hck] at hr
      cases hr
      rintro (h | h) <;> cases h
    | ok Xy =>
      obtain ⟨X, y⟩ := Xy
      rw [hck] at hr
      simp only at hr
      intro hcase
      refine ⟨y, rfl, ?_⟩
      by_contra hno
      push Not at hno
      obtain ⟨s, hs, htr, -⟩ := (C09_single_class (env X) cfg fuel y e w).1 (fun a ha b hb => hno a ha b hb)
      rw [hs] at hr
      cases hr
      rcases hcase with h | h
      · cases h
      · rw [htr] at h
        cases h

/-- Decoding zeros gives the smallest label. -/
theorem decode_zero {y : List ℤ} {m : ℤ} (hm : m ∈ y) (hmin : ∀ b ∈ y, m ≤ b) {α : Type} (X : List α) :
    Sk.inverseTransform (Sk.uniqueLabels y) (X.map (fun _ => (0 : ℤ))) = .ok (X.map (fun _ => m)) := by
  have h0 : Sk.inverseOne (Sk.uniqueLabels y) 0 = .ok m := by
    have hm' := (Sk.mem_uniqueLabels y m).2 hm
    have hs := Sk.sorted_uniqueLabels y
    cases hu : Sk.uniqueLabels y with
    | nil => rw [hu] at hm'; cases hm'
    | cons a t =>
      rw [hu] at hm' hs
      have ha : a ∈ y := (Sk.mem_uniqueLabels y a).1 (by rw [hu]; exact List.mem_cons_self)
      have : a = m := by
        rcases List.mem_cons.1 hm' with h | h
        · exact h.symm
        · exact absurd (hmin a ha) (not_le.2 ((List.pairwise_cons.1 hs).1 m h))
      subst this
      simp [Sk.inverseOne]
  unfold Sk.inverseTransform
  induction X with
  | nil => rfl
  | cons x X ih =>
    simp only [List.map_cons, List.mapM_cons, h0]
    rw [ih]
    rfl

theorem lastLabels_append (h : List (Rec R)) (r : Rec R) : lastLabels (h ++ [r]) = r.labels.getD (lastLabels h) := by
  simp [lastLabels]

/-- Calls that raise before `solve_ip` keep the rule. -/
theorem lastRule_failed (h t : List (Rec R)) (ht : ∀ r ∈ t, r.result ≠ .ok () ∧ r.ip = false) : lastRule (h ++ t) = lastRule h := by
  unfold lastRule
  rw [List.foldl_append]
  generalize h.foldl _ [] = v
  induction t generalizing v with
  | nil => rfl
  | cons r t ih =>
    rw [List.foldl_cons, ih (fun q hq => ht q (List.mem_cons_of_mem _ hq))]
    obtain ⟨h1, h2⟩ := ht r List.mem_cons_self
    cases hres : r.result with
    | ok u => exact absurd hres h1
    | error er => simp [h2]

theorem everFitted_append {h t : List (Rec R)} (hf : EverFitted h) : EverFitted (h ++ t) := by
  obtain ⟨r, hr, hok⟩ := hf
  exact ⟨r, List.mem_append_left _ hr, hok⟩

theorem lastLabels_failed (h t : List (Rec R)) {y : List ℤ} (hy : ∀ v, v ∈ lastLabels h ↔ v ∈ y)
    (ht : ∀ r ∈ t, ∀ y', r.labels = some y' → ∀ v, v ∈ y' ↔ v ∈ y) : ∀ v, v ∈ lastLabels (h ++ t) ↔ v ∈ y := by
  unfold lastLabels at *
  rw [List.foldl_append]
  generalize List.foldl (fun (acc : List ℤ) (r : Rec R) => r.labels.getD acc) [] h = u at hy
  induction t generalizing u with
  | nil => exact hy
  | cons r t ih =>
    rw [List.foldl_cons]
    refine ih (fun q hq => ht q (List.mem_cons_of_mem _ hq)) _ ?_
    cases hl : r.labels with
    | none => exact hy
    | some y' => exact ht r List.mem_cons_self y' hl

theorem uniqueLabels_ext {y y' : List ℤ} (h : ∀ v, v ∈ y ↔ v ∈ y') : Sk.uniqueLabels y = Sk.uniqueLabels y' := by
  refine List.Perm.eq_of_pairwise (le := (· < ·)) (fun a b _ _ h1 h2 => absurd h1 (not_lt.2 h2.le)) (Sk.sorted_uniqueLabels y)
    (Sk.sorted_uniqueLabels y') ?_
  rw [List.perm_ext_iff_of_nodup (Sk.nodup_uniqueLabels y) (Sk.nodup_uniqueLabels y')]
  intro a
  rw [Sk.mem_uniqueLabels, Sk.mem_uniqueLabels]
  exact h a

/-- What `predict` does after any sequence of calls, for plug-ins that change `view` in `solve_ip` only. -/
theorem life_predict {check : Raw → Except Err (XT × List ℤ)} {clock : W → ℚ × W} {env : XT → Env W D Col} {idle : W → W → Prop} {view : W → List R}
    {start : Est → W → Prop} {J : W → Prop} (hK : ∀ X, Keeps (env X) view J) (hc : ∀ w, J w → J (clock w).2 ∧ view (clock w).2 = view w)
    (hi : ∀ w w', idle w w' → J w → J w' ∧ view w' = view w)
    (hs : ∀ e w, start e w → J w ∧ view w = [] ∧ e.isFitted = false) {h : List (Rec R)} {e : Est} {w : W}
    (hl : Life check clock env idle view start h e w) {α : Type} (checkA : RawX → Except Err α)
    (decode : List R → List ℤ → α → Except Err (List ℤ)) (raw : RawX) :
    (∀ er, checkA raw = .error er → predictRaw checkA (decode (view w)) raw e = .error er) ∧
      ∀ X, checkA raw = .ok X →
        (¬ EverFitted h → predictRaw checkA (decode (view w)) raw e = .error notFitted) ∧
        (EverFitted h → predictRaw checkA (decode (view w)) raw e = decode (lastRule h) (Sk.uniqueLabels (lastLabels h)) X) := by
  obtain ⟨-, h2, h3, h4⟩ := life_state hK hc hi hs hl
  unfold predictRaw
  refine ⟨fun er he => by rw [he], fun X hX => ?_⟩
  rw [hX]
  simp only
  constructor
  · intro hn
    rw [if_neg (fun hf => hn (h3.1 hf))]
  · intro hf
    obtain ⟨r, hr, hok⟩ := hf
    obtain ⟨y, hy, -⟩ := life_records hl r hr (Or.inl hok)
    rw [if_pos (h3.2 ⟨r, hr, hok⟩), h2, h4 ⟨r, hr, by rw [hy]; simp⟩]

end Verif.Fit
