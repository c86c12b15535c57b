import Verif.DTree.FloatHeur
import Verif.DTree.HeurDemo

/-!
# Concrete instances of C120
-/

namespace Verif.DTree.FloatDemo

open MP Spec Fl Demo

theorem total : totalWeight hConf = 5 := by decide +kernel

/-- The magnitude of all paths is small. -/
theorem small (q : Path) (h1 : WFPath 2 q) (h3 : ∃ t, q.cost = hHits 2 hConf splits q t) : pathMagnitude 2 hConf.X splits [] (hDuals (1 / 8)) q ≤ 8 := by
  have := pathMagnitude_le (D := hDuals (1 / 8)) (cuts := []) h1 h3 (L := 1 / 8) (B := 1 / 8) (by
    intro l
    rcases l with _ | _ | _ | _ | l <;> simp [hDuals] <;> norm_num) (by
    intro l n s
    simp [hDuals])
  have e : ((List.range hConf.X.length).map (fun r => |(hDuals (1 / 8)).row.getD r 0|)).sum = 3 / 4 := by decide +kernel
  rw [total, e] at this
  norm_num at this
  linarith

/-- C120: the hypotheses hold for the data of `HeurDemo`, and paths are returned. -/
example : ∃ ps st', hConf.generateR binary64.rnd (hDuals (1 / 8)) hDraws hSt = (.ok ps, st') ∧ ps.Pairwise (fun a b => ¬ SamePath a b) ∧
    ∀ q ∈ ps, WFPath 2 q ∧ UsesCand hConf.nodes q ∧ q.cost = hHits 2 hConf splits q q.target ∧
      (∀ t, hHits 2 hConf splits q t ≤ hHits 2 hConf splits q q.target) ∧ colRed 2 hConf.X splits [] (hDuals (1 / 8)) q > 9 / 10000000 := by
  refine C120_tree64 (st := hSt) (hOk (1 / 8)) (by rw [total]; norm_num) (by decide +kernel) ?_ (fun l => List.Perm.refl l)
  intro q h1 h2 h3
  have := small q h1 h3
  have e : ((hConf.X.length : ℚ) + ([] : List (List Bool)).length + (2 : ℕ) + 2) = 8 := by
    have : hConf.X.length = 4 := rfl
    rw [this]; norm_num
  have h : pathMagnitude 2 hConf.X hSt.splits [] (hDuals (1 / 8)) q ≤ 8 := this
  rw [e]
  linarith

def pathsR (D : Duals) : List (ℕ × List ℕ × ℚ × ℤ) :=
  match (hConf.generateR binary64.rnd D hDraws hSt).1 with
  | .ok l => l.map (fun p => (p.leafId, p.splits, p.cost, p.target))
  | _ => []

def pathsE (D : Duals) : List (ℕ × List ℕ × ℚ × ℤ) :=
  match (hConf.generate D hDraws hSt).1 with
  | .ok l => l.map (fun p => (p.leafId, p.splits, p.cost, p.target))
  | _ => []

def bigDuals : Duals := ⟨[2 ^ 54, 2 ^ 54, 2 ^ 54, 2 ^ 54], [-2 ^ 54, -2 ^ 54, -2 ^ 54, -2 ^ 54], fun _ _ _ => some (1 / 8), [], []⟩

/-- With duals of this size, the cost 1 of the first path is lost in the rounding and the path is missed. -/
theorem C120_tree_differs : pathsR bigDuals = [(3, [5, 1], 0, -1), (2, [5, 1], 2, 0), (0, [3, 0], 3, 0)] ∧
    pathsE bigDuals = [(0, [3, 1], 1, 0), (3, [5, 1], 0, -1), (2, [5, 1], 2, 0), (0, [3, 0], 3, 0)] := by
  refine ⟨by decide +kernel, by decide +kernel⟩

/-- Multiples of 1/8. -/
def Eighths (x : ℚ) : Prop := ∃ z : ℤ, x = z / 8

theorem Eighths.sub {x y : ℚ} (hx : Eighths x) (hy : Eighths y) : Eighths (x - y) := by
  obtain ⟨a, rfl⟩ := hx
  obtain ⟨b, rfl⟩ := hy
  exact ⟨a - b, by push_cast; ring⟩

theorem Eighths.sum {α : Type*} (l : List α) (f : α → ℚ) (h : ∀ x ∈ l, Eighths (f x)) : Eighths (l.map f).sum := by
  induction l with
  | nil => exact ⟨0, by simp⟩
  | cons x l ih =>
    obtain ⟨a, ha⟩ := h x (by simp)
    obtain ⟨b, hb⟩ := ih (fun y hy => h y (by simp [hy]))
    exact ⟨a + b, by rw [List.map_cons, List.sum_cons, ha, hb]; push_cast; ring⟩

/-- All reduced costs are multiples of 1/8, hence not near `1e-6`. -/
theorem gap (q : Path) (h1 : WFPath 2 q) (h3 : ∃ t, q.cost = hHits 2 hConf splits q t) :
    heurSlack (1 / 2 ^ 53) (1 / 2 ^ 1075) 2 hConf splits [] (hDuals (1 / 8)) q <
      |colRed 2 hConf.X splits [] (hDuals (1 / 8)) q - 1 / 1000000| := by
  classical
  have hs : heurSlack (1 / 2 ^ 53) (1 / 2 ^ 1075) 2 hConf splits [] (hDuals (1 / 8)) q ≤ 1 / 10000000 := by
    refine (slack64 (pathMagnitude_nonneg _ _ _ _ _ _) (by decide +kernel) ?_).1
    have := small q h1 h3
    have e : (((hConf.X.length + ([] : List (List Bool)).length + 2 + 1 : ℕ) : ℚ) + 1) = 8 := by
      have : hConf.X.length = 4 := rfl
      rw [this]; norm_num
    rw [e]
    linarith
  refine lt_of_le_of_lt hs ?_
  have he : Eighths (colRed 2 hConf.X splits [] (hDuals (1 / 8)) q) := by
    unfold colRed cutSum
    refine ((((?_ : Eighths _).sub ?_).sub ?_).sub ?_).sub ?_
    · obtain ⟨t, ht⟩ := h3
      exact ⟨8 * (hHits 2 hConf splits q t : ℤ), by rw [ht]; push_cast; ring⟩
    · rcases q.leafId with _ | _ | _ | _ | l
      · exact ⟨1, by norm_num [hDuals]⟩
      · exact ⟨1, by norm_num [hDuals]⟩
      · exact ⟨1, by norm_num [hDuals]⟩
      · exact ⟨1, by norm_num [hDuals]⟩
      · exact ⟨0, by norm_num [hDuals]⟩
    · refine Eighths.sum _ _ ?_
      intro r _
      split_ifs
      · rcases r with _ | _ | _ | _ | r
        · exact ⟨4, by norm_num [hDuals]⟩
        · exact ⟨0, by norm_num [hDuals]⟩
        · exact ⟨2, by norm_num [hDuals]⟩
        · exact ⟨0, by norm_num [hDuals]⟩
        · exact ⟨0, by norm_num [hDuals]⟩
      · exact ⟨0, by norm_num⟩
    · exact ⟨0, by simp⟩
    · refine Eighths.sum _ _ ?_
      intro r _
      exact ⟨1, by norm_num [hDuals]⟩
  obtain ⟨z, hz⟩ := he
  rw [hz, lt_abs]
  rcases le_or_gt z 0 with h | h
  · right
    have : (z : ℚ) ≤ 0 := by exact_mod_cast h
    linarith
  · left
    have : (1 : ℚ) ≤ z := by exact_mod_cast h
    linarith

/-- C120: the hypotheses of `C120_tree_same` hold; with Python's floats the heuristic finds the three paths of `HeurDemo`. -/
example : hConf.generateR binary64.rnd (hDuals (1 / 8)) hDraws hSt = hConf.generate (hDuals (1 / 8)) hDraws hSt ∧
    pathsR (hDuals (1 / 8)) = [(0, [3, 1], 1, 0), (2, [5, 1], 2, 0), (0, [3, 0], 3, 0)] := by
  refine ⟨C120_tree_same (st := hSt) binary64 (by norm_num) binary64_accurate (by positivity) (by positivity) (hOk (1 / 8)) ?_ ?_
    (fun l => List.Perm.refl l) (fun q h1 _ h3 => gap q h1 h3), by decide +kernel⟩
  · rw [total]; norm_num
  · have : hConf.X.length = 4 := rfl
    rw [this]; norm_num

end Verif.DTree.FloatDemo
