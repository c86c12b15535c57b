import Verif.BDR.LifeProps

/-!
# C124: a classifier that is trained, given wrong data, and trained again
-/

set_option synthInstance.maxSize 1000

namespace Verif.BDR.LifeDemo

open MP Spec Fit.Spec Demo

/-- The solvers of `Demo`; the integer program is not solved while the flag is set. -/
def flagOracle : Oracle (ℕ × Bool) where
  clock ω := ((ω.1 : ℚ), (ω.1 + 1, ω.2))
  lp m ω := ((oracle.lp m ω.1).1, (ω.1 + 1, ω.2))
  mip m ω := ((oracle.mip m ω.1).1, (ω.1 + 1, ω.2))
  ip m ω := (if ω.2 then ⟨.other, fun _ => 0, fun _ => 0, 0⟩ else (oracle.ip m ω.1).1, (ω.1 + 1, ω.2))

/-- `none` stands for data that are refused. -/
def checkXy : Option (Data × List ℤ) → Except Err (Data × List ℤ)
  | none => .error .valueError
  | some d => .ok d

def checkX : Option (List (List ℚ)) → Except Err (List (List ℚ))
  | none => .error .typeError
  | some X => .ok X

abbrev State := List (Fit.Rec Clause) × Fit.Est × World (ℕ × Bool)

/-- The flag is set as given, then `fit` is called. -/
def step (st : State) (c : Bool × Option (Data × List ℤ)) : Option State :=
  let w : World (ℕ × Bool) := { st.2.2 with ω := (0, c.1) }
  (Fit.fitRaw checkXy (fun w => ((flagOracle.clock w.ω).1, { w with ω := (flagOracle.clock w.ω).2 })) (fun X => env flagOracle X (heuristicKinds 10))
    (config (heuristicKinds 10) (-1) 0) 4 c.2 st.2.1 w).map
    (fun r => (st.1 ++ [⟨(checkXy c.2).toOption.map (·.2), r.1, r.2.trace.any Fit.isIp, r.2.world.master.explanation⟩], r.2.est, r.2.world))

def steps : List (Bool × Option (Data × List ℤ)) → State → Option State
  | [], st => some st
  | c :: cs, st => (step st c).bind (steps cs)

theorem steps_life (cs : List (Bool × Option (Data × List ℤ))) : ∀ {st st' : State},
    Life flagOracle 10 1 (heuristicKinds 10) checkXy st.1 st.2.1 st.2.2 → steps cs st = some st' →
    Life flagOracle 10 1 (heuristicKinds 10) checkXy st'.1 st'.2.1 st'.2.2 := by
  induction cs with
  | nil => intro st st' h hs; cases hs; exact h
  | cons c cs ih =>
    intro st st' h hs
    unfold steps at hs
    cases h1 : step st c with
    | none => rw [h1] at hs; cases hs
    | some s1 =>
      rw [h1] at hs
      refine ih ?_ hs
      unfold step at h1
      simp only [Option.map_eq_some_iff] at h1
      obtain ⟨r, hr, rfl⟩ := h1
      exact Fit.Life.fit (Fit.Life.idle h ⟨(0, c.1), rfl⟩) _ 4 c.2 hr

def start : State := ([], est0, World.init 10 1 (heuristicKinds 10) (0, false))

theorem start_life : Life flagOracle 10 1 (heuristicKinds 10) checkXy start.1 start.2.1 start.2.2 := Fit.Life.new ⟨rfl, _, rfl⟩

/-- What can be compared of a record, and the predictions for two rows. -/
def shown (st : State) : List (Option (List ℤ) × Bool × Bool × List Clause) × Option (List ℤ) :=
  (st.1.map (fun r => (r.labels, r.result.toBool, r.ip, r.rule)), (predictCall checkX (some [[1, 0], [0, 0]]) st.2.1 st.2.2).toOption)

theorem steps_of {cs : List (Bool × Option (Data × List ℤ))} {v : List (Option (List ℤ) × Bool × Bool × List Clause) × Option (List ℤ)}
    (h : (steps cs start).map shown = some v) : ∃ st, steps cs start = some st ∧ shown st = v := by
  rw [Option.map_eq_some_iff] at h
  exact h

/-- Before a `fit` has returned. -/
example : ∃ h e w, Life flagOracle 10 1 (heuristicKinds 10) checkXy h e w ∧ h.length = 2 ∧
    predictCall checkX (some [[1, 0], [0, 0]]) e w = .error Fit.notFitted ∧ predictCall checkX none e w = .error .typeError := by
  obtain ⟨st, h1, h2⟩ := steps_of (cs := [(false, none), (true, some (X, labels))])
    (v := ([(none, false, false, []), (some [9, 9, 4], false, true, [])], none)) (by decide +kernel)
  have hl := steps_life _ start_life h1
  have h3 : st.1.map (fun r => (r.labels, r.result.toBool, r.ip, r.rule)) = [(none, false, false, []), (some [9, 9, 4], false, true, [])] :=
    congrArg Prod.fst h2
  refine ⟨_, _, _, hl, by simpa using congrArg List.length h3, (((C124_predict hl).2 _ rfl).1 ?_), (C124_predict hl).1 _ rfl⟩
  rintro ⟨r, hr, hok⟩
  have := List.mem_map_of_mem (f := fun r : Fit.Rec Clause => (r.labels, r.result.toBool, r.ip, r.rule)) hr
  rw [h3, hok] at this
  revert this
  simp [Except.toBool]

/-- A fitted classifier, after data that were refused. -/
example : ∃ h r e w e' w', Life flagOracle 10 1 (heuristicKinds 10) checkXy h e w ∧ Life flagOracle 10 1 (heuristicKinds 10) checkXy (h ++ [r]) e' w' ∧
    EverFitted h ∧ r.labels = none ∧ predictCall checkX (some [[1, 0], [0, 0]]) e w = .ok [9, 4] ∧
    predictCall checkX (some [[1, 0], [0, 0]]) e' w' = .ok [9, 4] := by
  obtain ⟨st, h1, h2⟩ := steps_of (cs := [(false, some (X, labels))]) (v := ([(some [9, 9, 4], true, true, [[0], [1]])], some [9, 4])) (by decide +kernel)
  have hl := steps_life _ start_life h1
  have h3 : st.1.map (fun r => (r.labels, r.result.toBool, r.ip, r.rule)) = [(some [9, 9, 4], true, true, [[0], [1]])] := congrArg Prod.fst h2
  have h4 : (predictCall checkX (some [[1, 0], [0, 0]]) st.2.1 st.2.2).toOption = some [9, 4] := congrArg Prod.snd h2
  have h5 : predictCall checkX (some [[1, 0], [0, 0]]) st.2.1 st.2.2 = .ok [9, 4] := by
    cases hp : predictCall checkX (some [[1, 0], [0, 0]]) st.2.1 st.2.2 with
    | error er => rw [hp] at h4; cases h4
    | ok v => rw [hp] at h4; cases h4; rfl
  have hf : EverFitted st.1 := by
    obtain ⟨r, hr, hv⟩ := List.map_eq_singleton_iff.1 h3 |>.imp fun r h => h
    refine ⟨r, by rw [hr]; exact List.mem_singleton_self _, ?_⟩
    have : r.result.toBool = true := congrArg (fun t => t.2.1) hv
    cases hr' : r.result with
    | ok u => rfl
    | error er => rw [hr'] at this; cases this
  have hl' := Fit.Life.fit hl (config (heuristicKinds 10) (-1) 0) 4 none (r := (.error .valueError, ⟨st.2.1, _, []⟩)) rfl
  refine ⟨st.1, _, _, _, _, _, hl, hl', hf, rfl, h5, ?_⟩
  refine (C124_failed_calls hl hl' hf ?_ ?_).trans h5
  · intro r hr
    rw [List.mem_singleton.1 hr]
    exact ⟨by simp, rfl⟩
  · intro r hr y hy
    rw [List.mem_singleton.1 hr] at hy
    cases hy

/-- A fitted classifier whose next `fit` raises in `solve_ip`. -/
example : ∃ h r e w, Life flagOracle 10 1 (heuristicKinds 10) checkXy (h ++ [r]) e w ∧ EverFitted h ∧ r.result ≠ .ok () ∧ r.ip = true ∧
    r.labels = some [7, 7, 3] ∧ predictCall checkX (some [[1, 0], [0, 0]]) e w = .ok [3, 3] := by
  obtain ⟨st, h1, h2⟩ := steps_of (cs := [(false, some (X, labels)), (true, some (X, [7, 7, 3]))])
    (v := ([(some [9, 9, 4], true, true, [[0], [1]]), (some [7, 7, 3], false, true, [])], some [3, 3])) (by decide +kernel)
  have hl := steps_life _ start_life h1
  obtain ⟨h, e, w⟩ := st
  have h3 : h.map (fun r => (r.labels, r.result.toBool, r.ip, r.rule)) =
      [(some [9, 9, 4], true, true, [[0], [1]]), (some [7, 7, 3], false, true, [])] := congrArg Prod.fst h2
  obtain ⟨a, t, rfl, ha, h3⟩ := List.map_eq_cons_iff.1 h3
  obtain ⟨b, t, rfl, hb, h3⟩ := List.map_eq_cons_iff.1 h3
  have ht := List.map_eq_nil_iff.1 h3
  subst ht
  simp only [Prod.mk.injEq] at ha hb
  obtain ⟨-, ha, -, -⟩ := ha
  obtain ⟨hb1, hb2, hb3, -⟩ := hb
  have hf : EverFitted [a] := by
    refine ⟨a, List.mem_singleton_self _, ?_⟩
    cases hr' : a.result with
    | ok u => rfl
    | error er => rw [hr'] at ha; cases ha
  have hne : b.result ≠ .ok () := by
    intro he
    rw [he] at hb2
    cases hb2
  have hl2 : Life flagOracle 10 1 (heuristicKinds 10) checkXy ([a] ++ [b]) e w := hl
  exact ⟨[a], b, e, w, hl2, hf, hne, hb3, hb1,
    C124_cleared (checkA := checkX) (raw := some [[1, 0], [0, 0]]) hl2 hf hne hb3 hb1 (m := 3) (by decide) (by decide) rfl⟩

end Verif.BDR.LifeDemo
