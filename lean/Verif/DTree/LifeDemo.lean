import Verif.DTree.LifeProps
import Verif.DTree.FitDemo

/-!
# C124 for the tree classifier: a run
-/

set_option synthInstance.maxSize 1000

namespace Verif.DTree.LifeDemo

open MP Spec Fit.Spec Demo

/-- Solvers that answer without looking at the program: nothing is assumed of them in C124. The integer program is not solved if it has more than
six variables, which is so from the second `fit` on. -/
def plainOracle : FitOracle Unit where
  clock := fun _ => (0, ())
  draws := fun _ => (⟨fun i _ => i, id⟩, ())
  sols := fun _ _ => ([], ())
  mip := fun _ _ => (⟨.other, fun _ => 0, fun _ => 0, 0⟩, ())
  master := ⟨fun _ k => ⟨.optimal, fun _ => 0, fun _ => if k = 0 then 100 else -100, 0⟩, fun _ _ => [],
    fun m => ⟨if m.vars.length ≤ 6 then .optimal else .other, fun v => if v < 2 then 1 else 0, fun _ => 0, 0⟩⟩

/-- `none` stands for data that are refused. -/
def checkXy : Option (List (List ℚ) × List ℤ) → Except Err (List (List ℚ) × List ℤ)
  | none => .error .valueError
  | some d => .ok d

def checkX : Option (List (List ℚ)) → Except Err (List (List ℚ))
  | none => .error .typeError
  | some X => .ok X

abbrev State := List (Fit.Rec Path) × Fit.Est × World Unit

def step (st : State) (c : Option (List (List ℚ) × List ℤ)) : Option State :=
  (Fit.fitRaw checkXy (fun w => ((plainOracle.clock w.ω).1, { w with ω := (plainOracle.clock w.ω).2 })) (fun X => env plainOracle qArgs X)
    (config qArgs 1 0) 4 c st.2.1 st.2.2).map
    (fun r => (st.1 ++ [⟨(checkXy c).toOption.map (·.2), r.1, r.2.trace.any Fit.isIp, r.2.world.master.selected⟩], r.2.est, r.2.world))

def steps : List (Option (List (List ℚ) × List ℤ)) → State → Option State
  | [], st => some st
  | c :: cs, st => (step st c).bind (steps cs)

theorem steps_life (cs : List (Option (List (List ℚ) × List ℤ))) : ∀ {st st' : State},
    Life plainOracle qArgs checkXy st.1 st.2.1 st.2.2 → steps cs st = some st' → Life plainOracle qArgs checkXy st'.1 st'.2.1 st'.2.2 := by
  induction cs with
  | nil => intro st st' h hs; cases hs; exact h
  | cons c cs ih =>
    intro st st' h hs
    unfold steps at hs
    cases h1 : step st c with
    | none => rw [h1] at hs; cases hs
    | some s1 =>
      rw [h1] at hs
      refine ih ?_ hs
      unfold step at h1
      simp only [Option.map_eq_some_iff] at h1
      obtain ⟨r, hr, rfl⟩ := h1
      exact Fit.Life.fit h _ 4 c hr

def start : State := ([], est0, World.init qArgs ())

theorem start_life : Life plainOracle qArgs checkXy start.1 start.2.1 start.2.2 := Fit.Life.new ⟨rfl, _, rfl⟩

/-- What can be compared of a record, and the predictions for two rows. -/
def shown (st : State) : List (Option (List ℤ) × Bool × Bool × ℕ) × Option (List ℤ) :=
  (st.1.map (fun r => (r.labels, r.result.toBool, r.ip, r.rule.length)), (predictCall qArgs checkX (some [[0, 0], [1, 0]]) st.2.1 st.2.2).toOption)

theorem steps_of {cs : List (Option (List (List ℚ) × List ℤ))} {v : List (Option (List ℤ) × Bool × Bool × ℕ) × Option (List ℤ)}
    (h : (steps cs start).map shown = some v) : ∃ st, steps cs start = some st ∧ shown st = v := by
  rw [Option.map_eq_some_iff] at h
  exact h

/-- Before a `fit` has returned. -/
example : ∃ h e w, Life plainOracle qArgs checkXy h e w ∧ h.length = 2 ∧
    predictCall qArgs checkX (some [[0, 0], [1, 0]]) e w = .error Fit.notFitted ∧ predictCall qArgs checkX none e w = .error .typeError := by
  obtain ⟨st, h1, h2⟩ := steps_of (cs := [none, some (qX, [4, 4])])
    (v := ([(none, false, false, 0), (some [4, 4], false, false, 0)], none)) (by decide +kernel)
  have hl := steps_life _ start_life h1
  have h3 : st.1.map (fun r => (r.labels, r.result.toBool, r.ip, r.rule.length)) = [(none, false, false, 0), (some [4, 4], false, false, 0)] :=
    congrArg Prod.fst h2
  refine ⟨_, _, _, hl, by simpa using congrArg List.length h3, (((C124_predict_tree hl).2 _ rfl).1 ?_), (C124_predict_tree hl).1 _ rfl⟩
  rintro ⟨r, hr, hok⟩
  have := List.mem_map_of_mem (f := fun r : Fit.Rec Path => (r.labels, r.result.toBool, r.ip, r.rule.length)) hr
  rw [h3, hok] at this
  revert this
  simp [Except.toBool]

/-- A fitted classifier, after data that were refused. -/
example : ∃ h r e w e' w', Life plainOracle qArgs checkXy h e w ∧ Life plainOracle qArgs checkXy (h ++ [r]) e' w' ∧
    EverFitted h ∧ r.labels = none ∧ predictCall qArgs checkX (some [[0, 0], [1, 0]]) e w = .ok [3, 7] ∧
    predictCall qArgs checkX (some [[0, 0], [1, 0]]) e' w' = .ok [3, 7] := by
  obtain ⟨st, h1, h2⟩ := steps_of (cs := [some (qX, qy)]) (v := ([(some [3, 7, 3], true, true, 2)], some [3, 7])) (by decide +kernel)
  have hl := steps_life _ start_life h1
  have h3 : st.1.map (fun r => (r.labels, r.result.toBool, r.ip, r.rule.length)) = [(some [3, 7, 3], true, true, 2)] := congrArg Prod.fst h2
  have h4 : (predictCall qArgs checkX (some [[0, 0], [1, 0]]) st.2.1 st.2.2).toOption = some [3, 7] := congrArg Prod.snd h2
  have h5 : predictCall qArgs checkX (some [[0, 0], [1, 0]]) st.2.1 st.2.2 = .ok [3, 7] := by
    cases hp : predictCall qArgs checkX (some [[0, 0], [1, 0]]) st.2.1 st.2.2 with
    | error er => rw [hp] at h4; cases h4
    | ok v => rw [hp] at h4; cases h4; rfl
  have hf : EverFitted st.1 := by
    obtain ⟨r, hr, hv⟩ := List.map_eq_singleton_iff.1 h3 |>.imp fun r h => h
    refine ⟨r, by rw [hr]; exact List.mem_singleton_self _, ?_⟩
    have : r.result.toBool = true := congrArg (fun t => t.2.1) hv
    cases hr' : r.result with
    | ok u => rfl
    | error er => rw [hr'] at this; cases this
  have hl' := Fit.Life.fit hl (config qArgs 1 0) 4 none (r := (.error .valueError, ⟨st.2.1, _, []⟩)) rfl
  refine ⟨st.1, _, _, _, _, _, hl, hl', hf, rfl, h5, ?_⟩
  refine (C124_failed_calls_tree hl hl' hf ?_ ?_).trans h5
  · intro r hr
    rw [List.mem_singleton.1 hr]
    exact ⟨by simp, rfl⟩
  · intro r hr y hy
    rw [List.mem_singleton.1 hr] at hy
    cases hy

/-- A fitted classifier whose next `fit` raises in `solve_ip`. -/
example : ∃ h r e w, Life plainOracle qArgs checkXy (h ++ [r]) e w ∧ EverFitted h ∧ r.result ≠ .ok () ∧ r.ip = true ∧
    r.labels = some [8, 5, 8] ∧ predictCall qArgs checkX (some [[0, 0], [1, 0]]) e w = .ok [5, 5] := by
  obtain ⟨st, h1, h2⟩ := steps_of (cs := [some (qX, qy), some (qX, [8, 5, 8])])
    (v := ([(some [3, 7, 3], true, true, 2), (some [8, 5, 8], false, true, 0)], some [5, 5])) (by decide +kernel)
  have hl := steps_life _ start_life h1
  obtain ⟨h, e, w⟩ := st
  have h3 : h.map (fun r => (r.labels, r.result.toBool, r.ip, r.rule.length)) =
      [(some [3, 7, 3], true, true, 2), (some [8, 5, 8], false, true, 0)] := congrArg Prod.fst h2
  obtain ⟨a, t, rfl, ha, h3⟩ := List.map_eq_cons_iff.1 h3
  obtain ⟨b, t, rfl, hb, h3⟩ := List.map_eq_cons_iff.1 h3
  have ht := List.map_eq_nil_iff.1 h3
  subst ht
  simp only [Prod.mk.injEq] at ha hb
  obtain ⟨-, ha, -, -⟩ := ha
  obtain ⟨hb1, hb2, hb3, -⟩ := hb
  have hf : EverFitted [a] := by
    refine ⟨a, List.mem_singleton_self _, ?_⟩
    cases hr' : a.result with
    | ok u => rfl
    | error er => rw [hr'] at ha; cases ha
  have hne : b.result ≠ .ok () := by
    intro he
    rw [he] at hb2
    cases hb2
  have hl2 : Life plainOracle qArgs checkXy ([a] ++ [b]) e w := hl
  exact ⟨[a], b, e, w, hl2, hf, hne, hb3, hb1,
    C124_cleared_tree (checkA := checkX) (raw := some [[0, 0], [1, 0]]) hl2 hf hne hb3 hb1 (m := 5) (by decide) (by decide) rfl⟩

end Verif.DTree.LifeDemo
