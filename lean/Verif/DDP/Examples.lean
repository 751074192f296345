import Verif.DDP.Witness
import Verif.DDP.Cost
import Verif.DDP.Reg

/-!
# DDP: the hypotheses of the theorems are met by a concrete problem

A double integrator (two states, one input) with quadratic costs, horizon 3, the default configuration except for the list
of step sizes, exact arithmetic.
-/

namespace Nmpc.DDP

open Matrix

/-- Double integrator with unit weights. -/
noncomputable def dblInt : LQProblem 2 (fun _ => 1) where
  A _ := !![1, 1; 0, 1]
  B _ := !![0; 1]
  c _ := 0
  Q _ := 1
  M _ := 0
  R _ := 1
  q _ := 0
  r _ := 0
  e _ := 0
  Qf _ := 1
  qf _ := 0
  ef _ := 0
  symmQ _ := isSymm_one
  symmR _ := isSymm_one
  symmQf _ := isSymm_one

theorem dblInt_convex : dblInt.Convex where
  stage t x u := by
    simp only [dblInt, one_mulVec, zero_mulVec, dotProduct_zero, mul_zero, add_zero]
    exact add_nonneg (dot_self_nonneg x) (dot_self_nonneg u)
  input _ := Matrix.PosDef.one
  term _ := Matrix.PosSemidef.one

theorem dblInt_symm : dblInt.callbacks.SymmHess := ⟨fun _ _ _ _ => isSymm_one, fun _ _ _ => isSymm_one⟩

theorem dblInt_convexHess : dblInt.callbacks.ConvexHess :=
  ⟨fun t _ _ _ => dblInt_convex.stage t, fun t _ _ _ => dblInt_convex.input t, fun t _ _ => dblInt_convex.term t⟩

theorem dblInt_overwrites : dblInt.callbacks.Overwrites :=
  ⟨fun _ _ _ _ _ => rfl, fun _ _ _ _ _ => rfl, fun _ _ _ _ _ => rfl, fun _ _ _ _ => rfl⟩

/-- Three given inputs. -/
def exInputs (a b c : ℝ) : List (Σ k : ℕ, Vec k ℝ) := [⟨1, fun _ => a⟩, ⟨1, fun _ => b⟩, ⟨1, fun _ => c⟩]

noncomputable def exConfig : Config ℝ := defaultConfig [1, 1 / 2] 500 3

/-- Zero initial regularisation. -/
noncomputable def exConfig0 : Config ℝ := { exConfig with initialLambda := 0 }

/-- Input limits. -/
noncomputable def exConfigC : Config ℝ := { exConfig with withConstraint := true }

/-- Second derivatives of the state equation. -/
noncomputable def exConfig2 : Config ℝ := { exConfig with useSecond := true }

theorem exLen (a b c : ℝ) : ((exInputs a b c).length : ℤ) = exConfig.horizon := by simp [exInputs, exConfig, defaultConfig]

theorem exLen0 (a b c : ℝ) : ((exInputs a b c).length : ℤ) = exConfig0.horizon := exLen a b c
theorem exLenC (a b c : ℝ) : ((exInputs a b c).length : ℤ) = exConfigC.horizon := exLen a b c
theorem exLen2 (a b c : ℝ) : ((exInputs a b c).length : ℤ) = exConfig2.horizon := exLen a b c

theorem exDims (a b c : ℝ) : DimsOk (fun _ : ℝ => 1) 0 1 (exInputs a b c) := by
  intro i hi
  simp only [exInputs, List.length_cons, List.length_nil] at hi
  match i, hi with
  | 0, _ => rfl
  | 1, _ => rfl
  | 2, _ => rfl

variable (o : Obj 2 ℝ) (scratch scratch' : Scratch 2 (fun i => (fun _ : ℝ => 1) (timeAt 0 1 i)) ℝ) (x0 : Vec 2 ℝ)

/-- C11 -/
example : IsTrajectory dblInt.callbacks 0 1 3 x0
    (solve exactLLT dblInt.callbacks none 1 exConfig o 0 scratch x0 (exInputs 1 2 3)).1.control :=
  C11_trajectory (exLen _ _ _) (exDims _ _ _)

/-- C12, both errors -/
example : (solve exactLLT dblInt.callbacks none 1 exConfig o 0 scratch x0 []).2 = .invalidArgument :=
  C12_length.2 (by simp [exConfig, defaultConfig])
example : (solve exactLLT dblInt.callbacks none 1 exConfig o 0 scratch x0
    [⟨1, fun _ => 0⟩, ⟨2, fun _ => 0⟩, ⟨1, fun _ => 0⟩]).2 = .runtimeError :=
  (C12_dims (by simp [exConfig, defaultConfig]) rfl).2 ⟨1, by simp, by simp⟩

/-- C13, C19 -/
example (i : ℕ) (e e' : Trace ℝ)
    (he : (solve exactLLT dblInt.callbacks none 1 exConfig o 0 scratch x0 (exInputs 1 2 3)).1.trace[i]? = some e)
    (he' : (solve exactLLT dblInt.callbacks none 1 exConfig o 0 scratch x0 (exInputs 1 2 3)).1.trace[i + 1]? = some e')
    (ha : e'.alpha ≠ 0) : e'.cost ≤ e.cost := by
  rcases C19_cost_decreases exactLLT_exact rfl dblInt_symm (by norm_num [exConfig, defaultConfig])
    (by norm_num [exConfig, defaultConfig]) (by norm_num [exConfig, defaultConfig]) (by norm_num [exConfig, defaultConfig])
    (by norm_num [exConfig, defaultConfig]) (by norm_num [exConfig, defaultConfig])
    (by intro a ha; simp [exConfig, defaultConfig] at ha; rcases ha with rfl | rfl <;> norm_num)
    (exLen _ _ _) (exDims _ _ _) i e e' he he' ha with h | h
  · exact h.le
  · exact h.1.le

/-- C15 (and hence C14, C26 are about runs that end) -/
example : (solve exactLLT dblInt.callbacks none 1 exConfig o 0 scratch x0 (exInputs 1 2 3)).2 ≠ .diverge :=
  C15_terminates (by norm_num [exConfig, defaultConfig]) (by norm_num [exConfig, defaultConfig])

/-- C16 -/
example : ∀ e ∈ (solve exactLLT dblInt.callbacks none 1 exConfig o 0 scratch x0 (exInputs 1 2 3)).1.trace, 0 ≤ e.lambda := by
  obtain ⟨es, e, h1, h2, h3, _⟩ := C16_range (L := exactLLT) (P := dblInt.callbacks) (lim := none) (o := o) (x0 := x0)
    (scratch := scratch) (cfg := exConfig) (dt := 1) (t0 := 0)
    (by norm_num [exConfig, defaultConfig]) (by norm_num [exConfig, defaultConfig]) (by norm_num [exConfig, defaultConfig])
    (by norm_num [exConfig, defaultConfig]) (by norm_num [exConfig, defaultConfig]) (exLen 1 2 3) (exDims 1 2 3)
  rw [h1]
  intro e' he'
  rcases List.mem_append.1 he' with h | h
  · exact (h2 e' h).1
  · rw [List.mem_singleton.1 h]; exact h3

/-- C18: a zero initial coefficient. -/
example : (solve exactLLT dblInt.callbacks none 1 exConfig0 o 0 scratch x0 (exInputs 1 2 3)).2 = .ok true :=
  (C18_solve exactLLT_exact dblInt_convex rfl rfl (by norm_num [exConfig0, exConfig, defaultConfig])
    (by norm_num [exConfig0, exConfig, defaultConfig]) (by norm_num [exConfig0, exConfig, defaultConfig]) (as := [1 / 2]) rfl
    (by norm_num [exConfig0, exConfig, defaultConfig]) rfl (by norm_num [exConfig0, exConfig, defaultConfig]) (exLen0 1 2 3) (exDims 1 2 3)).1

/-- C20: limits `[-1, 1]`, with a first input inside and others outside. -/
example : ∃ q, (solve exactLLT dblInt.callbacks (some fun _ => (fun _ => -1, fun _ => 1)) 1
      exConfigC o 0 scratch x0 (exInputs 1 2 3)).1.control.us[0]? = some q ∧
    InLimits (md := fun _ => 1) (fun _ => (fun _ => -1, fun _ => 1)) 0 q :=
  C20_first_input rfl (by intro a ha; simp [exConfigC, exConfig, defaultConfig] at ha; rcases ha with rfl | rfl <;> norm_num)
    (exLenC 1 2 3) (exDims 1 2 3) ⟨_, rfl, _, rfl, fun _ => ⟨by norm_num, by norm_num⟩⟩

/-- The trajectory staying at the origin. -/
def restData : ControlData 2 ℝ := { xs := [0, 0, 0, 0], us := exInputs 0 0 0, costs := [0, 0, 0, 0] }

theorem rest_trajectory : IsTrajectory dblInt.callbacks 0 1 3 0 restData where
  lenX := rfl
  lenU := rfl
  lenC := rfl
  start := rfl
  step i hi := by
    refine ⟨0, 0, ?_⟩
    match i, hi with
    | 0, _ => simp [restData, exInputs, LQProblem.callbacks, dblInt]; exact ⟨rfl, by ext i; fin_cases i <;> rfl⟩
    | 1, _ => simp [restData, exInputs, LQProblem.callbacks, dblInt]; exact ⟨rfl, by ext i; fin_cases i <;> rfl⟩
    | 2, _ => simp [restData, exInputs, LQProblem.callbacks, dblInt]; exact ⟨rfl, by ext i; fin_cases i <;> rfl⟩
  term := ⟨0, rfl, by simp [restData, LQProblem.callbacks, dblInt]⟩

theorem rest_stationary : Stationary dblInt.callbacks 0 1 3 restData := by
  refine ⟨fun _ => 0, ?_, ?_⟩
  · intro x hx b
    simp only [restData, List.getElem?_cons_succ, List.getElem?_cons_zero, Option.some.injEq] at hx
    subst hx
    simp [LQProblem.callbacks, dblInt]
  · intro j hj x u hx hu _ _
    match j, hj with
    | 0, _ | 1, _ | 2, _ =>
      simp only [restData, exInputs, List.getElem?_cons_succ, List.getElem?_cons_zero, Option.some.injEq] at hx hu
      subst hx
      cases hu
      constructor
      · simp [LQProblem.callbacks, dblInt]
      · simp [LQProblem.callbacks, dblInt]
        rfl

/-- C22: the optimal inputs are reported as a failure under the default regularisation … -/
example : (solve exactLLT dblInt.callbacks none 1 exConfig o 0 scratch 0 (exInputs 0 0 0)).2 = .ok false :=
  (C22_fails exactLLT_exact rfl rfl dblInt_symm (by norm_num [exConfig, defaultConfig]) (by norm_num [exConfig, defaultConfig])
    (by norm_num [exConfig, defaultConfig]) (by norm_num [exConfig, defaultConfig]) (by norm_num [exConfig, defaultConfig])
    (exLen 0 0 0) (exDims 0 0 0) rest_trajectory rfl rest_stationary).1
/-- … and as a success with a smaller initial coefficient. -/
example : (solve exactLLT dblInt.callbacks none 1 exConfig0 o 0 scratch 0 (exInputs 0 0 0)).2 = .ok true :=
  (C22_partial exactLLT_exact rfl rfl dblInt_convexHess (by norm_num [exConfig0, exConfig, defaultConfig])
    (by norm_num [exConfig0, exConfig, defaultConfig]) (by norm_num [exConfig0, exConfig, defaultConfig]) (by norm_num [exConfig0, exConfig, defaultConfig])
    (exLen0 0 0 0) (exDims 0 0 0) rest_trajectory rfl rest_stationary).1

/-- C23 -/
example (o' : Obj 2 ℝ) : (solve exactLLT dblInt.callbacks none 1 exConfig o 0 scratch x0 (exInputs 1 2 3)).1 =
    (solve exactLLT dblInt.callbacks none 1 exConfig o' 0 scratch' x0 (exInputs 1 2 3)).1 :=
  (C23_history dblInt_overwrites o o' scratch scratch').2 (exLen _ _ _) (exDims _ _ _)

/-- C24: a problem with different dynamics between the sampling times. -/
example : solve exactLLT dblInt.callbacks none 1 exConfig o 0 scratch x0 (exInputs 1 2 3) =
    solve exactLLT { dblInt.callbacks with
      stateEq := fun t x u => if t = 1 / 2 then 0 else dblInt.callbacks.stateEq t x u } none 1 exConfig o 0 scratch x0
      (exInputs 1 2 3) := by
  refine C24_grid ⟨?_, fun _ _ => rfl, rfl, fun _ _ => rfl, fun _ _ => rfl, fun _ _ => rfl, rfl, .inl ⟨rfl, rfl⟩⟩
  intro i hi
  have : (0 + lit (i : ℚ) * 1 : ℝ) ≠ 1 / 2 := by
    simp only [exInputs, List.length_cons, List.length_nil] at hi
    match i, hi with
    | 0, _ | 1, _ | 2, _ => simp <;> norm_num
  funext x u
  simp only [if_neg this]

/-- C25 -/
example : (solve exactLLT dblInt.callbacks none 1 exConfig2 o 0 scratch x0 (exInputs 1 2 3)).2 =
    .runtimeError :=
  (C25_second_derivative rfl (exLen2 _ _ _) (exDims _ _ _) (by norm_num [exConfig2, exConfig, defaultConfig])
    (by norm_num [exConfig2, exConfig, defaultConfig])).1

/-! The backward pass with limits succeeds on a strictly convex problem, so the hypotheses of C27 and C21 can be met. -/

theorem constrainedGains_exists {n k : ℕ} {L : LLT ℝ} (hL : L.Exact) {Q : QData n k ℝ} (hQ : Q.QuuF.PosDef)
    (lower upper u ik : Vec k ℝ) : ∃ g, constrainedGains L Q lower upper u ik = .ok (some g) := by
  obtain ⟨r0, h0, _⟩ := BoxQP.C03_terminates_real (L := L) (c := BoxQP.Config.default) (o := freshQP k)
    (a := { H := Q.QuuF, g := Q.Qu, lower := lower - u, upper := upper - u, init := ik })
    (by norm_num [BoxQP.Config.default]) (by norm_num [BoxQP.Config.default]) (by norm_num [BoxQP.Config.default])
  rcases constrainedGains_out (L := L) Q lower upper u ik with h | ⟨r, h1, h2⟩
  · rw [h0] at h; cases h.2
  rcases h2 with h2 | h2 | h2
  · have h3 := BoxQP.C06_posDef_no_failure hL hQ h1
    have h4 := BoxQP.C02_retval h1
    rcases h4 with h4
    simp only [List.mem_cons, List.mem_nil_iff, or_false] at h4
    omega
  · exact ⟨_, h2.2.2⟩
  · exact ⟨_, h2.2.2.2⟩

/-- The stages of a one-step problem with limits `[-1, 1]`. -/
noncomputable def exStages : Stages 2 (fun i => (fun _ : ℝ => 1) (timeAt 0 1 i)) ℝ :=
  stagesOf dblInt.callbacks (some fun _ => (fun _ => -1, fun _ => 1)) 0 1 1

/-- C27 for one step of the double integrator with limits. -/
theorem exLimits_bw (s : Solver 2 (fun i => (fun _ : ℝ => 1) (timeAt 0 1 i)) ℝ) (hs : 0 ≤ s.lambda) :
    ∃ s2, bwSearch exactLLT 1 exConfigC exStages
        (startIter 1 exConfigC exStages 1 s) = (s2, .ok true) ∧
      ∀ r, -1 ≤ s.ctrl.u 0 r + s2.gains.k 0 r ∧ s.ctrl.u 0 r + s2.gains.k 0 r ≤ 1 := by
  set cfg : Config ℝ := exConfigC with hcfg
  set s1 := startIter 1 cfg exStages 1 s with hs1
  have hconv : ConvexModel 1 s1.derivs := lq_convexModel (lim := some fun _ => (fun _ => -1, fun _ => 1)) dblInt_convex _ _
  have hVs := (posSemidef_iff.1 hconv.term).1
  have hR := posDef_iff.1 (hconv.input 0 one_pos)
  have hpd : (calcQ cfg s1.lambda (s1.derivs.F 0) (s1.derivs.L 0) s1.derivs.V).QuuF.PosDef := by
    refine posDef_iff.2 ⟨calcQ_QuuF_symm hVs hR.1, ?_⟩
    intro v hv
    refine lt_of_lt_of_le ?_ (calcQ_quad_le hs _ _ _ _)
    have := calcQ_quad (cfg := cfg) (lambda := s1.lambda) (s1.derivs.F 0) (s1.derivs.L 0) s1.derivs.V hVs 0 v
    simp only [zero_dotProduct, mulVec_zero, dotProduct_zero, zero_add, mul_zero, add_zero] at this
    refine lt_of_lt_of_eq ?_ this.symm
    exact add_pos_of_pos_of_nonneg (hR.2 v hv) ((posSemidef_iff.1 hconv.term).2 _)
  obtain ⟨g, hg⟩ := constrainedGains_exists exactLLT_exact hpd (fun _ => -1) (fun _ => 1) (s1.ctrl.u 0) (initialK 1 s1.gains 0)
  have hsg : stageGains exactLLT 1 cfg exStages s1.ctrl s1.gains 0
      (calcQ cfg s1.lambda (s1.derivs.F 0) (s1.derivs.L 0) s1.derivs.V) = .ok (some g) := by
    unfold stageGains
    rw [if_pos Nat.one_pos, if_pos (show cfg.withConstraint = true from rfl)]
    exact hg
  have hb : ∃ b, backwardPass exactLLT 1 cfg exStages s1 = .ok (true, b) := by
    unfold backwardPass bwLoop bwStage
    rw [if_neg (by simp [hcfg, exConfigC, exConfig, defaultConfig])]
    dsimp only
    rw [hsg]
    exact ⟨_, rfl⟩
  obtain ⟨b, hb⟩ := hb
  have hsearch := bwSearch_of_success hb
  refine ⟨_, hsearch, fun r => ?_⟩
  obtain ⟨V, _, h⟩ := C27_gains (lim := fun _ => (fun _ => -1, fun _ => 1)) exactLLT_exact rfl rfl hsearch
    (fun j hj => (posDef_iff.1 (hconv.input j hj)).1) hVs (fun _ _ _ => by norm_num)
  obtain ⟨_, free, hf⟩ := h 0 one_pos
  exact hf.within r

end Nmpc.DDP
