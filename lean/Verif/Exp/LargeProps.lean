import Verif.Exp.ProgramProps

/-!
# C75 for the program: which experiments merge rows
-/

namespace Verif.Exp

open Verif.DTree Verif.DTree.Spec Verif.Exp.Cmd Verif.Exp.Spec

variable {N : Type} [DecidableEq N] {Ω : Type} {w : Outside N Ω} {s : Settings} {D : Data} {r : Ready}

/-- **C75, small data.** With fewer than 5000 training rows, or when the time for the preparation was used up before, no row is merged into another: every
row stays in the pricing problems with weight 1. -/
theorem C75_program_small (h : makeReady w s D = .ok r) (hs : D.XTrain.length < 5000 ∨ 0 < s.prepLimit ∧ s.prepLimit < w.late) :
    r.prepared.rows.length = D.XTrain.length ∧ ∀ row ∈ r.prepared.rows, row.removedFromSp = false ∧ row.weight = 1 := by
  have ha : aggressiveMode s.prepLimit w.late D.XTrain.length = false := by
    unfold aggressiveMode
    rcases hs with h | ⟨h1, h2⟩
    · have : ¬ 5000 ≤ D.XTrain.length := by omega
      simp [this]
    · simp [h1, h2]
  unfold makeReady at h
  simp only [ha] at h
  split_ifs at h
  split at h
  · cases h
  · split at h
    · cases h
    · split at h
      · cases h
      · rename_i extra _
        unfold prepare at h
        split_ifs at h
        split at h
        · cases h
        · rename_i P hP
          split at hP
          · cases hP
          · split at hP
            · cases hP
            · split at hP
              · cases hP
              · split at hP
                · cases hP
                · unfold preprocess at hP
                  simp only [Bool.false_eq_true, if_false] at hP
                  split_ifs at hP
                  obtain rfl := Except.ok.inj hP
                  obtain rfl := Except.ok.inj h
                  refine ⟨by simp, ?_⟩
                  intro row hrow
                  obtain ⟨i, -, rfl⟩ := List.mem_map.1 hrow
                  exact ⟨rfl, rfl⟩

/-- **C75, large data.** With at least 5000 training rows, depth at most 6 (beyond that nodes may lose all candidates, C62) and enough time the merging is complete: of two training rows that follow the same paths over
candidate splits at most one is kept in the master problem, and if they have the same label at most one is kept in the pricing problems. -/
theorem C75_program_large (hd : 0 < s.depth) (hd6 : s.depth ≤ 6) (ht : Trees w s D) (hrows : D.yTrain.length = D.XTrain.length) (h : makeReady w s D = .ok r)
    (hn : 5000 ≤ D.XTrain.length) (hl : s.prepLimit ≤ 0 ∧ 0 ≤ w.call ∨ w.late ≤ s.prepLimit ∧ ∀ k, w.call + w.elapsed k ≤ s.prepLimit) {i j : ℕ}
    (hi : i < D.XTrain.length) (hj : j < D.XTrain.length) (hij : i ≠ j)
    (hp : ∀ p, WFPath s.depth.toNat p → UsesCand r.prepared.nodes p →
      follows s.depth.toNat r.prepared.splits D.XTrain p i = follows s.depth.toNat r.prepared.splits D.XTrain p j) :
    (D.yTrain.getD i 0 = D.yTrain.getD j 0 →
      ¬ ((rowAt r.prepared.rows i).removedFromSp = false ∧ (rowAt r.prepared.rows j).removedFromSp = false)) ∧
    ¬ ((rowAt r.prepared.rows i).removedFromMaster = false ∧ (rowAt r.prepared.rows j).removedFromMaster = false) := by
  have hne : D.yTrain ≠ [] := by
    intro h0
    rw [h0, List.length_nil] at hrows
    omega
  have ha : aggressiveMode s.prepLimit w.late D.XTrain.length = true := by
    unfold aggressiveMode
    rcases hl with ⟨h1, -⟩ | ⟨h1, -⟩
    · simp [hn, not_lt.2 h1]
    · simp [hn, not_lt.2 h1]
  obtain ⟨r', carts, extra, e, -, -, hin, hP⟩ := prepared_run hd ht hrows hne
  rw [h] at e
  obtain rfl := Except.ok.inj e
  obtain ⟨P, st, ms, paths, nodes, splits, e2, run⟩ := prepare_ok hin (aggressiveMode s.prepLimit w.late D.XTrain.length) (s.prepLimit - w.call) w.elapsed
  rw [hP] at e2
  obtain rfl := Except.ok.inj e2
  obtain ⟨h1, h2, h3, h4, h5⟩ := run.base
  rw [ha] at h4
  refine C75_complete (by omega) h1 h2 h3 h4 ?_ ?_ hi hj hij ?_
  · rcases hl with ⟨a, b⟩ | ⟨-, b⟩
    · left; linarith
    · right; intro k; have := b k; linarith
  · have hc := C62_candidates_partial hin (by omega) hP
    rw [run.nodes_eq] at hc
    intro n hn'
    have := hc n hn'
    rwa [cand_preprocess] at this
  · intro p hp1 hp2
    exact hp p hp1 ((h5 p).2 hp2)

end Verif.Exp
