import Verif.DDP.Examples
import Verif.DDP.Defined
import Verif.DDP.LQProps

/-!
# DDP: further concrete cases

Runs of the executable model over the extended rationals (`XQ`), and the double integrator of `Verif/DDP/Examples.lean`.
-/

namespace Nmpc.DDP

open Matrix

/-- Two iterations at most, step sizes 1 and 1/2. -/
def quarticConfig : Config XQ := { defaultConfig [.fin 1, .fin (1 / 2)] 2 1 with initialLambda := .fin 0 }

/-- `min u + u²/2 + (5/16) u⁴` from `u = 0`. -/
def quarticRun : Obj 1 XQ × Res Bool :=
  solve diagLLT negZeroProblem none (.fin 1) quarticConfig emptyObj (.fin 0) (zeroScratch (.fin 0) (.fin 1)) (fun _ => .fin 0)
    [⟨1, fun _ => .fin 0⟩]

/-- The run, evaluated: cost `0`, then `-3/16`, then `-48643/130321`; the iteration limit is reached. -/
theorem quarticRun_eq : quarticRun.2 = .ok false ∧ quarticRun.1.control.costs = [.fin (-48643 / 130321), .fin 0] ∧
    quarticRun.1.trace.map (fun e => (e.cost, e.alpha, e.expected)) =
      [(.fin 0, .fin 0, .fin 0), (.fin (-3 / 16), .fin 1, .fin (1 / 2)), (.fin (-48643 / 130321), .fin 1, .fin (25 / 152))] := by
  have : (solveF 10 diagLLT negZeroProblem none (.fin 1) quarticConfig emptyObj (.fin 0) (zeroScratch (.fin 0) (.fin 1)) (fun _ => .fin 0)
      [⟨1, fun _ => .fin 0⟩]).map (fun r => (r.2, r.1.control.costs, r.1.trace.map (fun e => (e.cost, e.alpha, e.expected)))) =
      some (.ok false, [.fin (-48643 / 130321), .fin 0],
        [(.fin 0, .fin 0, .fin 0), (.fin (-3 / 16), .fin 1, .fin (1 / 2)), (.fin (-48643 / 130321), .fin 1, .fin (25 / 152))]) := by
    decide +kernel
  rw [Option.map_eq_some_iff] at this
  obtain ⟨r, h1, h2⟩ := this
  rw [quarticRun, solveF_eq h1]
  simp only [Prod.mk.injEq] at h2
  exact h2

theorem quarticDims : DimsOk (fun _ : XQ => 1) (.fin 0) (.fin 1) [⟨1, fun _ : Fin 1 => XQ.fin 0⟩] := by
  intro i hi
  match i, hi with
  | 0, _ => rfl

/-- C13 for that run: neither of the two accepted steps increases the cost, and the final cost is not above the cost of the given
inputs. -/
example (i : ℕ) (e e' : Trace XQ) (he : quarticRun.1.trace[i]? = some e) (he' : quarticRun.1.trace[i + 1]? = some e') :
    e'.cost = e.cost ∨ leb e'.cost e.cost = true := by
  refine C13_trace ordLaws_xq (by decide +kernel) rfl quarticDims i e e' he he' ?_
  have hm : ∀ e ∈ quarticRun.1.trace.map (fun e => e.expected), e = XQ.fin 0 ∨ eqb e 0 = false := by
    have := congrArg (List.map fun q : XQ × XQ × XQ => q.2.2) quarticRun_eq.2.2
    simp only [List.map_map] at this
    intro e he
    have h2 : quarticRun.1.trace.map (fun e => e.expected) = [.fin 0, .fin (1 / 2), .fin (25 / 152)] := this
    rw [h2] at he
    simp only [List.mem_cons, List.not_mem_nil, or_false] at he
    rcases he with rfl | rfl | rfl
    · exact .inl rfl
    · exact .inr (by decide +kernel)
    · exact .inr (by decide +kernel)
  have h3 := congrArg (fun l => (l[i + 1]?).map fun q : XQ × XQ × XQ => q.2.2) quarticRun_eq.2.2
  simp only [List.getElem?_map, he', Option.map_some] at h3
  match i with
  | 0 => simp at h3; rw [h3]; decide +kernel
  | 1 => simp at h3; rw [h3]; decide +kernel
  | k + 2 => simp at h3

example : ∃ d : ControlData 1 XQ, IsTrajectory negZeroProblem (.fin 0) (.fin 1) 1 (fun _ => .fin 0) d ∧ d.us = [⟨1, fun _ => .fin 0⟩] ∧
    (listSum quarticRun.1.control.costs = listSum d.costs ∨ leb (listSum quarticRun.1.control.costs) (listSum d.costs) = true) := by
  obtain ⟨d, h1, h2, -, h4⟩ := C13_final (L := diagLLT) (P := negZeroProblem) (lim := none) (cfg := quarticConfig) (o := emptyObj)
    (scratch := zeroScratch (.fin 0) (.fin 1)) (x0 := fun _ => .fin 0) (us := [⟨1, fun _ : Fin 1 => XQ.fin 0⟩])
    ordLaws_xq (by decide +kernel) rfl quarticDims (by
      have : (solveF 10 diagLLT negZeroProblem none (.fin 1) quarticConfig emptyObj (.fin 0) (zeroScratch (.fin 0) (.fin 1)) (fun _ => .fin 0)
          [⟨1, fun _ => .fin 0⟩]).map (fun r => r.1.trace.all fun e => !ltb quarticConfig.costUpdateRatioThre e.ratio || !eqb e.expected 0) =
          some true := by decide +kernel
      rw [Option.map_eq_some_iff] at this
      obtain ⟨r, h1, h2⟩ := this
      rw [solveF_eq h1]
      intro e he h3
      have := List.all_eq_true.1 h2 e he
      rw [h3] at this
      simpa using this)
  exact ⟨d, h1, h2, h4⟩

/-- C14 for that run: the entries are numbered 0, 1, 2. -/
example : ∃ k : ℕ, k ≤ 2 ∧ quarticRun.1.trace.map Trace.iter = List.range (k + 1) :=
  C14_iterations (cfg := quarticConfig) rfl quarticDims

/-- C14: the run ends at the limit, so no iteration met one of the two criteria. -/
example : ¬ ∃ (j : ℕ) (s : Solver 1 (fun i => (fun _ : XQ => 1) (timeAt (.fin 0) (.fin 1) i)) XQ), (j : ℤ) ≤ 2 ∧
    Reaches diagLLT 1 quarticConfig (stagesOf negZeroProblem none (.fin 0) (.fin 1) 1)
      (start negZeroProblem none (.fin 1) quarticConfig (.fin 0) (zeroScratch (.fin 0) (.fin 1)) (fun _ => .fin 0)
        [⟨1, fun _ => .fin 0⟩]) j s ∧
    (EndsSmallGradient diagLLT 1 quarticConfig (stagesOf negZeroProblem none (.fin 0) (.fin 1) 1) j s ∨
      EndsSmallCostUpdate diagLLT 1 quarticConfig (stagesOf negZeroProblem none (.fin 0) (.fin 1) 1) j s) := by
  intro h
  have := (C14_true_iff (o := emptyObj) (cfg := quarticConfig) rfl quarticDims).2 h
  exact absurd (this.symm.trans quarticRun_eq.1) (by simp)

/-- C26 for that run: the last entry carries the final cost. -/
example : ∃ e, quarticRun.1.trace.getLast? = some e ∧ e.cost = listSum quarticRun.1.control.costs := by
  rcases C26_cost_recorded_partial (L := diagLLT) (P := negZeroProblem) (lim := none) (cfg := quarticConfig) (o := emptyObj)
    (scratch := zeroScratch (.fin 0) (.fin 1)) (x0 := fun _ => .fin 0) (us := [⟨1, fun _ : Fin 1 => XQ.fin 0⟩]) rfl quarticDims with
    h | ⟨es, e, k, i, h, -⟩
  · exact h
  · have h2 := quarticRun_eq.2.2
    rw [show quarticRun.1.trace = _ from h] at h2
    have h3 := congrArg List.getLast? h2
    simp [Trace.new] at h3
    exact absurd h3.2.1 (by decide)

/-- C26: a run that uses up its iterations (`optLoop` ends with code 0). -/
example : quarticRun.2 = .ok false ∧ ∃ e, quarticRun.1.trace.getLast? = some e ∧ e.cost = listSum quarticRun.1.control.costs := by
  refine C26_max_iter_partial (cfg := quarticConfig) rfl quarticDims ?_
  have : (optLoopF 10 diagLLT 1 quarticConfig (stagesOf negZeroProblem none (.fin 0) (.fin 1) 1) 2 1
      (start negZeroProblem none (.fin 1) quarticConfig (.fin 0) (zeroScratch (.fin 0) (.fin 1)) (fun _ => .fin 0)
        [⟨1, fun _ => .fin 0⟩])).map (fun r => r.2) = some (.ok 0) := by decide +kernel
  rw [Option.map_eq_some_iff] at this
  obtain ⟨r, h1, h2⟩ := this
  show (optLoop _ _ _ _ _ _ _).2 = _
  exact (congrArg Prod.snd (optLoopF_eq h1)).trans h2

variable (o : Obj 2 ℝ) (scratch : Scratch 2 (fun i => (fun _ : ℝ => 1) (timeAt 0 1 i)) ℝ) (x0 : Vec 2 ℝ)

/-- C12: a call with too few inputs leaves the object as it was. -/
example : (solve exactLLT dblInt.callbacks none 1 exConfig o 0 scratch x0 [⟨1, fun _ => 0⟩]).1 = o :=
  C12_unchanged (.inl (by simp [exConfig, defaultConfig]))

/-- C14: what the success of the C18 example rests on. -/
example : ∃ e, (solve exactLLT dblInt.callbacks none 1 exConfig0 o 0 scratch x0 (exInputs 1 2 3)).1.trace.getLast? = some e ∧ 1 ≤ e.iter ∧
    (ltb e.kRelNorm exConfig0.kRelNormThre = true ∨
      (ltb exConfig0.costUpdateRatioThre e.ratio = true ∧ ltb e.actual exConfig0.costUpdateThre = true)) :=
  C14_true_trace (exLen0 1 2 3) (exDims 1 2 3)
    (C18_solve exactLLT_exact dblInt_convex rfl rfl (by norm_num [exConfig0, exConfig, defaultConfig])
      (by norm_num [exConfig0, exConfig, defaultConfig]) (by norm_num [exConfig0, exConfig, defaultConfig]) (as := [1 / 2]) rfl
      (by norm_num [exConfig0, exConfig, defaultConfig]) rfl (by norm_num [exConfig0, exConfig, defaultConfig]) (exLen0 1 2 3) (exDims 1 2 3)).1

/-- C17: full steps are predicted exactly, whatever the regularisation … -/
example : ∀ e ∈ (solve exactLLT dblInt.callbacks none 1 exConfig o 0 scratch x0 (exInputs 1 2 3)).1.trace, e.alpha = 1 → e.actual = e.expected :=
  C17_full_step (exLen 1 2 3) (exDims 1 2 3)

/-- … and without it every step is. -/
example (i : ℕ) (e e' : Trace ℝ)
    (he : (solve exactLLT dblInt.callbacks none 1 exConfig0 o 0 scratch x0 (exInputs 1 2 3)).1.trace[i]? = some e)
    (he' : (solve exactLLT dblInt.callbacks none 1 exConfig0 o 0 scratch x0 (exInputs 1 2 3)).1.trace[i + 1]? = some e')
    (h0 : e.lambda = 0) (ha : e'.alpha ≠ 0) : e'.actual = e'.expected :=
  C17_any_step exactLLT_exact dblInt_convex rfl rfl (exLen0 1 2 3) (exDims 1 2 3) i e e' he he' h0 ha

/-- C19 -/
example : ∀ e ∈ (solve exactLLT dblInt.callbacks none 1 exConfig o 0 scratch x0 (exInputs 1 2 3)).1.trace, 0 < e.alpha → e.alpha ≤ 2 →
    0 ≤ e.expected := fun e he h1 h2 =>
  (C19_expected exactLLT_exact rfl dblInt_symm (by norm_num [exConfig, defaultConfig])
    (by norm_num [exConfig, defaultConfig]) (by norm_num [exConfig, defaultConfig]) (by norm_num [exConfig, defaultConfig])
    (by norm_num [exConfig, defaultConfig]) (exLen 1 2 3) (exDims 1 2 3) e he h1 h2).1

/-- C66, without and with limits. -/
example : (∃ b, (solve exactLLT dblInt.callbacks none 1 exConfig o 0 scratch x0 (exInputs 1 2 3)).2 = .ok b) ∧
    ∃ b, (solve exactLLT dblInt.callbacks (some fun _ => (fun _ => -1, fun _ => 1)) 1 exConfigC o 0 scratch x0 (exInputs 1 2 3)).2 = .ok b :=
  ⟨C66_defined (exLen 1 2 3) (exDims 1 2 3) (by norm_num [exConfig, defaultConfig]) (by norm_num [exConfig, defaultConfig]) rfl
      (fun h => by cases h),
    C66_defined (exLenC 1 2 3) (exDims 1 2 3) (by norm_num [exConfigC, exConfig, defaultConfig])
      (by norm_num [exConfigC, exConfig, defaultConfig]) rfl (fun _ => rfl)⟩

/-- C21: the candidate of a one-step problem with limits. -/
example (s : Solver 2 (fun i => (fun _ : ℝ => 1) (timeAt 0 1 i)) ℝ) (hs : 0 ≤ s.lambda) :
    ∃ s2, bwSearch exactLLT 1 exConfigC exStages (startIter 1 exConfigC exStages 1 s) = (s2, .ok true) ∧
      ∃ v : Vec 1 ℝ, (∀ r, -1 ≤ v r ∧ v r ≤ 1) ∧ (forwardPass 1 exStages s2.ctrl s2.gains 1).u 0 =
        v + s2.gains.K 0 *ᵥ ((forwardPass 1 exStages s2.ctrl s2.gains 1).x 0 - s.ctrl.x 0) := by
  obtain ⟨s2, h, -⟩ := exLimits_bw s hs
  obtain ⟨v, h1, h2⟩ := (C21_candidate_partial (lim := fun _ => (fun _ => -1, fun _ => 1)) rfl rfl h one_pos (fun _ => by norm_num)).1
  exact ⟨s2, h, v, h1, h2⟩

end Nmpc.DDP
