import Verif.FMPC.MeritSlope
import Verif.FMPC.Examples

/-!
# FMPC: the penalty from the multipliers can stop the line search (C92)

With `merit_const_scale_from_lagrange_multipliers` the penalty is the largest absolute value of the multipliers of the
current variable (FmpcSolver.hpp 903-915), not of those of the full step.
-/

set_option linter.unusedSectionVars false

namespace Nmpc.FMPC

open DDP (FDeriv LDeriv VDeriv timeAt)
open Matrix Finset Set

/-- `x' = u`, cost `x + u²/2`, no terminal cost, one inequality that always holds (`-1 ≤ 0`). -/
noncomputable def slide : Callbacks 1 (fun _ : ℝ => 1) (fun _ => 1) where
  stateEq _ _ u := u
  runningCost _ x u := x 0 + 1 / 2 * u 0 ^ 2
  terminalCost _ _ := 0
  ineqConst _ _ _ := fun _ => -1
  stateEqDeriv _ _ _ _ := { Fx := 0, Fu := 1 }
  ineqConstDeriv _ _ _ _ := { C := 0, D := 0 }
  runningCostDeriv _ _ u _ := { Lx := 1, Lu := u, Lxx := 0, Luu := 1, Lxu := 0 }
  terminalCostDeriv _ _ _ := { Vx := 0, Vxx := 0 }

/-- The stages of the problem on a horizon of one step. -/
noncomputable def slideS : Stages 1 (fun _ => 1) (fun _ => 1) ℝ := stagesOf slide 0 1 1

/-- The default configuration with line search. -/
noncomputable def slideCfg (maxIter : ℤ) (fromMultipliers : Bool) : Config ℝ :=
  { defaultConfig 1 maxIter with enableLineSearch := true, scaleFromMultipliers := fromMultipliers }

theorem slide_convex : ConvexCosts 1 slideS where
  xx _ _ _ _ _ := by simp [slideS, stagesOf, slide, Matrix.IsSymm]
  uu _ _ _ _ _ := Matrix.PosDef.one
  joint _ _ _ _ _ y z := by
    simp only [slideS, stagesOf, slide, one_mulVec, zero_mulVec, dotProduct_zero, mul_zero, zero_add]
    exact dot_self_nonneg z
  term _ _ := Matrix.PosSemidef.zero

theorem slide_derivs : TrueDerivs 1 slideS where
  f _ _ x u b dx du := by
    simp only [slideS, stagesOf, slide, zero_mulVec, one_mulVec, zero_add]
    exact hasDeriv_line u du
  g _ _ x u b dx du := by
    simp only [slideS, stagesOf, slide, zero_mulVec, zero_add]
    exact hasDerivAt_const _ _
  l _ _ x u b dx du := by
    have := hasDeriv_quad (x 0 + 1 / 2 * u 0 ^ 2) (dx 0 + u 0 * du 0) (1 / 2 * du 0 ^ 2)
    simp only [slideS, stagesOf, slide, dotProduct, Finset.univ_unique, Fin.default_eq_zero, Finset.sum_singleton,
      Pi.one_apply, one_mul]
    convert this using 1
    funext t
    simp only [Pi.add_apply, Pi.smul_apply, smul_eq_mul]
    ring
  φ _ _ dx := by
    simp only [slideS, stagesOf, slide, zero_dotProduct]
    exact hasDerivAt_const _ _

/-- States of the run: residual `c` of the initial state, everything else at the solution except for the multipliers. -/
structure Slide (X0 c : ℝ) (v : Var 1 (fun _ => 1) (fun _ => 1) ℝ) : Prop where
  x0 : v.x 0 0 = X0 - c
  x1 : v.x 1 0 = 0
  u : v.u 0 0 = 0
  lam0 : 0 ≤ v.lam 0 0 ∧ v.lam 0 0 ≤ 1
  lam1 : v.lam 1 0 = 0
  s : v.s 0 0 = 1
  nu : 0 < v.nu 0 0 ∧ v.nu 0 0 ≤ 1 / 1000

theorem Slide.pos {X0 c : ℝ} {v : Var 1 (fun _ => 1) (fun _ => 1) ℝ} (h : Slide X0 c v) : v.Pos 1 := by
  constructor
  · intro i hi j
    obtain rfl : i = 0 := by omega
    rw [Subsingleton.elim j 0, h.s]; exact one_pos
  · intro i hi j
    obtain rfl : i = 0 := by omega
    rw [Subsingleton.elim j 0]; exact h.nu.1

theorem slide_eps {maxIter : ℤ} {b : Bool} {w : Solver 1 (fun _ => 1) (fun _ => 1) ℝ} {X0 c e : ℝ} (h : Slide X0 c w.var)
    (he : EpsOf 1 (slideCfg maxIter b) w e) : 0 < e ∧ e ≤ 1 / 1000 := by
  rcases he with ⟨-, he⟩ | ⟨hf, -⟩
  · simp only [updateEps, List.range_one, List.any_cons, List.any_nil, Nat.reduceBEq, Bool.or_false, Bool.false_eq_true,
      if_false, forUp, dot_real, dotProduct, Finset.univ_unique, Fin.default_eq_zero, Finset.sum_singleton, h.s] at he
    cases he
    simp only [fclamp, ltb_real, lit_real]
    have := h.nu
    push_cast
    split_ifs with h1 h2
    · norm_num
    · exfalso; norm_num at h2; linarith
    · norm_num at h1; constructor <;> linarith
  · cases hf

/-- The direction at such a state. -/
structure SlideDir (c e : ℝ) (v d : Var 1 (fun _ => 1) (fun _ => 1) ℝ) : Prop where
  x0 : d.x 0 0 = c
  x1 : d.x 1 0 = 0
  u : d.u 0 0 = 0
  lam0 : d.lam 0 0 = 1 - v.lam 0 0
  lam1 : d.lam 1 0 = 0
  s : d.s 0 0 = 0
  nu : d.nu 0 0 = e - v.nu 0 0

theorem slide_dir {e c : ℝ} {x0 : Vec 1 ℝ} {w : Solver 1 (fun _ => 1) (fun _ => 1) ℝ}
    {d : Var 1 (fun _ => 1) (fun _ => 1) ℝ} (h : Slide (x0 0) c w.var)
    (hn : NewtonSystem 1 slideS.dt e x0 w.var (fun i => if i < 1 then calcCoeff slideS w.var i (w.coeff i) else w.coeff i)
      (calcTerm 1 slideS w.var w.term) d) : SlideDir c e w.var d := by
  have h1 := congrFun hn.init 0
  have h2 := congrFun (hn.dyn 0 one_pos) 0
  have h3 := congrFun (hn.ineq 0 one_pos) 0
  have h4 := hn.compl 0 one_pos 0
  have h5 := congrFun (hn.statx 0 one_pos) 0
  have h6 := congrFun (hn.statu 0 one_pos) 0
  have h7 := congrFun hn.term 0
  simp [calcCoeff, calcTerm, slideS, stagesOf, slide, h.x0, h.x1, h.u, h.lam1, h.s] at h1 h2 h3 h4 h5 h6 h7
  refine ⟨h1, ?_, ?_, ?_, h7, h3, ?_⟩ <;> (try rw [h7] at h6) <;> (try rw [h3] at h4) <;> linarith

/-- The merit function along the direction. -/
theorem slide_merit {e c sc t : ℝ} {x0 : Vec 1 ℝ} {v d : Var 1 (fun _ => 1) (fun _ => 1) ℝ} (h : Slide (x0 0) c v)
    (hd : SlideDir c e v d) (ht : t ≤ 1) (hc : 0 ≤ c) (eps : ℝ) :
    barrierMerit 1 slideS eps x0 sc (lsVar v d t) = x0 0 - c + t * c + sc * (c - t * c) := by
  simp only [barrierMerit, violation, initRes, dynRes, ineqRes, Finset.range_one, Finset.sum_singleton, Finset.univ_unique,
    Fin.default_eq_zero, slideS, stagesOf, slide, lsVar, smulv_real, Pi.add_apply, Pi.sub_apply, Pi.smul_apply, smul_eq_mul,
    h.x0, h.u, h.s, hd.x0, hd.u, hd.s, Real.log_one, zero_add, mul_zero, add_zero, h.x1, hd.x1]
  have : 0 ≤ c - t * c := by nlinarith
  rw [show x0 0 - (x0 0 - c + t * c) = c - t * c by ring, abs_of_nonneg this]
  norm_num

theorem slide_merit0 {c sc : ℝ} {x0 : Vec 1 ℝ} {v : Var 1 (fun _ => 1) (fun _ => 1) ℝ} (h : Slide (x0 0) c v)
    (hc : 0 ≤ c) (eps : ℝ) : barrierMerit 1 slideS eps x0 sc v = x0 0 - c + sc * c := by
  simp only [barrierMerit, violation, initRes, dynRes, ineqRes, Finset.range_one, Finset.sum_singleton, Finset.univ_unique,
    Fin.default_eq_zero, slideS, stagesOf, slide, Pi.add_apply, Pi.sub_apply,
    h.x0, h.u, h.s, Real.log_one, zero_add, mul_zero, h.x1]
  rw [show x0 0 - (x0 0 - c) = c by ring, abs_of_nonneg hc]
  norm_num

/-- The slope of the objective and of the constraint violation as computed by the code. -/
theorem slide_slope {e c : ℝ} {x0 : Vec 1 ℝ} {w w' : Solver 1 (fun _ => 1) (fun _ => 1) ℝ} (h : Slide (x0 0) c w.var)
    (hc : 0 < c) (hd : SlideDir c e w.var w'.delta)
    (hF : (w'.coeff 0).F = ⟨0, 1⟩) (hG : (w'.coeff 0).G = ⟨0, 0⟩) (hLx : (w'.coeff 0).L.Lx = 1)
    (hV : w'.term.V.Vx = 0) :
    meritDerivObj 1 slideS { w' with var := w.var } = c ∧ meritDerivConst 1 slideS x0 { w' with var := w.var } = -c := by
  constructor
  · simp only [meritDerivObj, forUp, dot_real, dotProduct, Finset.univ_unique, Fin.default_eq_zero, Finset.sum_singleton,
      hLx, hV, hd.x0, hd.u, hd.s, slideS, stagesOf]
    simp
  · rw [meritDerivConst_eq]
    simp only [initRes, dynRes, ineqRes, Finset.range_one, Finset.sum_singleton, Finset.univ_unique,
      Fin.default_eq_zero, slideS, stagesOf, slide, Pi.add_apply, Pi.sub_apply, h.x0, h.u, h.s, h.x1, hF, hG, hd.x0, hd.x1,
      hd.s, zero_mulVec, one_mulVec, hd.u, Pi.zero_apply]
    norm_num [dirAbs, hc]

theorem maxAbs_one (v : Vec 1 ℝ) : maxAbs v = |v 0| := by
  simp [maxAbs, List.finRange_succ]

theorem slide_scale {c : ℝ} {X0 : ℝ} {v : Var 1 (fun _ => 1) (fun _ => 1) ℝ} (h : Slide X0 c v) {a b sc : ℝ} {maxIter : ℤ}
    (hs : meritScale 1 (slideCfg maxIter true) v a b = .ok sc) : sc ≤ 1 := by
  unfold meritScale at hs
  simp only [slideCfg, if_true] at hs
  split at hs
  · cases hs
  · cases hs
    simp only [forUp, fmax_real, maxAbs_one, lit_real]
    have h1 := h.lam0
    have h2 := h.nu
    rw [h.lam1, abs_of_nonneg h1.1, abs_of_pos h2.1]
    refine max_le (max_le (max_le ?_ h1.2) (by linarith)) (by norm_num)
    norm_num

/-- One iteration with the penalty from the multipliers: every step length is rejected. -/
theorem slide_stuck {L : GainSolver ℝ} (hL : ExactGain L) {maxIter : ℤ} {iter : ℕ} {x0 : Vec 1 ℝ} {c : ℝ} (hc : 0 < c)
    {w w' : Solver 1 (fun _ => 1) (fun _ => 1) ℝ} (h : Slide (x0 0) c w.var)
    (hp : procOnce L 1 (slideCfg maxIter true) slideS x0 iter w = .ok (w', .iterationContinued)) :
    Slide (x0 0) (c * (1 - 1 / 2 ^ 34)) w'.var := by
  have hdt : (0 : ℝ) < slideS.dt := one_pos
  rcases C30_iteration hL hdt slide_convex h.pos hp with h1 | ⟨-, hn⟩
  · cases h1
  obtain ⟨-, hco, ht, -, ⟨e, he, hee⟩, a, aNu, a1, a2, n1, n2, -, hx, hu, hl⟩ := procOnce_step h.pos hp
  obtain ⟨hm, hloop⟩ := hl rfl
  have he' := slide_eps h he
  rw [hee] at hn
  have hd := slide_dir h hn
  obtain ⟨c1, c2, c3, -⟩ := hco 0 one_pos
  obtain ⟨m1, m2⟩ := slide_slope h hc hd c1 c2 (congrArg LDeriv.Lx c3) (congrArg VDeriv.Vx ht)
  obtain ⟨q1, q2, q3⟩ := setupMerit_parts hm
  have hsc := slide_scale h q1
  rw [m1, m2] at q3
  dsimp only at q2
  rw [slide_merit0 h hc.le] at q2
  have hal : alphaMax 1 w.var.s w'.delta.s = 1 := by
    simp [alphaMax, forUp, List.finRange_succ, hd.s]
  rw [hal] at hloop
  obtain ⟨k, k1, k2, k3, k4, k5, k6, k7⟩ := C36_line_search (armijo 1 slideS x0 { w' with var := w.var }) one_pos le_rfl
  rw [k2] at hloop
  have hak := Option.some.inj hloop
  have hrej : armijo 1 slideS x0 { w' with var := w.var } (1 / 2 ^ k) = false := by
    unfold armijo
    rw [Bool.eq_false_iff]
    intro hh
    rw [ltb_real, calcMerit_eq, lit_real] at hh
    dsimp only at hh
    rw [slide_merit h hd k4 hc.le, q2, q3] at hh
    push_cast at hh
    have : 0 ≤ 1 / 2 ^ k * c * (1 - w'.merit.scale) := mul_nonneg (mul_nonneg k3.le hc.le) (by linarith)
    linarith
  have hk : k = 34 := by
    rcases k5 with k5 | k5
    · by_contra hne
      have : k ≤ 33 := by omega
      have h33 : (2 : ℝ) ^ k ≤ 2 ^ 33 := pow_le_pow_right₀ (by norm_num) this
      rw [div_lt_div_iff₀ (by positivity) (by positivity)] at k5
      norm_num at h33 k5
      linarith
    · rw [hrej] at k5; cases k5
  subst hk
  rw [← hak] at hx hu
  have hx0 := congrFun (hx 0 (by omega)).1 0
  have hx1 := congrFun (hx 1 (by omega)).1 0
  have hl0 := congrFun (hx 0 (by omega)).2 0
  have hl1 := congrFun (hx 1 (by omega)).2 0
  have hu0 := congrFun (hu 0 (by omega)).1 0
  have hs0 := congrFun (hu 0 (by omega)).2.1 0
  have hn0 := congrFun (hu 0 (by omega)).2.2 0
  simp only [Pi.add_apply, Pi.smul_apply, smul_eq_mul, h.x0, h.x1, h.lam1, h.u, h.s, hd.x0, hd.x1, hd.u, hd.lam0, hd.lam1,
    hd.s, hd.nu] at hx0 hx1 hl0 hl1 hu0 hs0 hn0
  have hlam := h.lam0
  have hnu := h.nu
  refine ⟨by rw [hx0]; ring, by rw [hx1]; ring, by rw [hu0]; ring, ?_, by rw [hl1]; ring, by rw [hs0]; ring, ?_⟩
  · rw [hl0]
    constructor <;> nlinarith
  · rw [hn0]
    constructor <;> nlinarith

theorem kktOf_ge {w : Solver 1 (fun _ => 1) (fun _ => 1) ℝ} {x0 : Vec 1 ℝ} : |x0 0 - w.var.x 0 0| ≤ kktOf 1 x0 w := by
  unfold kktOf calcKktError
  rw [sqrt_real]
  apply Real.abs_le_sqrt
  simp only [forUp, sqNorm_real, zero_add, dotProduct, Finset.univ_unique, Fin.default_eq_zero, Finset.sum_singleton,
    Pi.sub_apply]
  nlinarith

/-- The warm start: the plan starts at 0, all other conditions hold except for the multipliers. -/
noncomputable def slideInit : VarL 1 ℝ where
  xs := [fun _ => 0, fun _ => 0]
  us := [⟨1, fun _ => 0⟩]
  lams := [fun _ => 0, fun _ => 0]
  ss := [⟨1, fun _ => 1⟩]
  nus := [⟨1, fun _ => 1 / 10 ^ 5⟩]

theorem slide_start : Slide 1 1 (slideInit.toVar : Var 1 (fun _ => 1) (fun _ => 1) ℝ) where
  x0 := by simp [VarL.toVar, slideInit, stateAt]
  x1 := by simp [VarL.toVar, slideInit, stateAt]
  u := by simp [VarL.toVar, slideInit, DDP.inputAt]
  lam0 := by simp [VarL.toVar, slideInit, stateAt]
  lam1 := by simp [VarL.toVar, slideInit, stateAt]
  s := by simp [VarL.toVar, slideInit, DDP.inputAt]
  nu := by norm_num [VarL.toVar, slideInit, DDP.inputAt]

section Solve
variable {L : GainSolver ℝ} {o : Obj 1 ℝ}
  {sc : Scratch 1 (fun i => (fun _ : ℝ => 1) (timeAt 0 1 i)) (fun i => (fun _ : ℝ => 1) (timeAt 0 1 i)) ℝ}

/-- The call returns a status, with either penalty. -/
theorem slide_returns (K : ℤ) (b : Bool) :
    ∃ o' st, solve L slide 1 (slideCfg K b) o 0 sc (fun _ => 1) slideInit = (o', .ok st) := by
  have hd : DimsOk (fun _ : ℝ => 1) (fun _ => 1) 0 1 slideInit := by
    refine ⟨?_, ?_, ?_⟩ <;>
    · intro i hi
      simp only [slideInit, List.length_cons, List.length_nil] at hi
      match i, hi with
      | 0, _ => rfl
  refine C58_defined (by simp [LengthsOk, slideInit, slideCfg, defaultConfig]) hd.1 (.inr ⟨hd, ?_, ?_⟩)
    ⟨fun _ _ _ => one_pos, fun _ _ => ⟨one_pos, fun _ _ => one_pos⟩⟩ (.inr (by simp [slideCfg, defaultConfig]))
  all_goals
    intro e he j
    simp only [slideInit, List.mem_cons, List.not_mem_nil, or_false] at he
    subst he
    norm_num

/-- **C92** (what the penalty from the multipliers does not give).  For every iteration limit `K` up to ten thousand
millions, the call with line search and the penalty from the multipliers ends with `MaxIterationReached`, and the plan
still starts at `1 - (1 - 2⁻³⁴)^K` instead of the measured state 1: in every iteration all step lengths of at least 1e-10
are rejected.  The costs are convex, the constraints linear, the factorisations exact. -/
theorem C92_stuck (hL : ExactGain L) {K : ℕ} (hK0 : 0 < K) (hK : K ≤ 10 ^ 10) {o' : Obj 1 ℝ} {st : Status}
    (h : solve L slide 1 (slideCfg K true) o 0 sc (fun _ => 1) slideInit = (o', .ok st)) :
    st = .maxIterationReached ∧ ∃ x, o'.var.xs[0]? = some x ∧ x 0 = 1 - (1 - 1 / 2 ^ 34) ^ K ∧
      x 0 ≤ (K : ℝ) / 2 ^ 34 := by
  obtain ⟨v, w, hv, hck, hr, rfl⟩ := solve_ok h
  have hv' : v = slideInit := by
    have : (Res.ok slideInit : Res (VarL 1 ℝ)) = .ok v := hv
    cases this; rfl
  subst hv'
  obtain ⟨st', ho, hst, _⟩ := runSolver_ok hr
  have bern : ∀ k : ℕ, 1 - (k : ℝ) / 2 ^ 34 ≤ (1 - 1 / 2 ^ 34 : ℝ) ^ k := by
    intro k
    have := one_add_mul_le_pow (a := (-(1 / 2 ^ 34) : ℝ)) (by norm_num) k
    calc 1 - (k : ℝ) / 2 ^ 34 = 1 + k * (-(1 / 2 ^ 34)) := by ring
      _ ≤ _ := this
      _ = _ := by rw [← sub_eq_add_neg]
  have key : (st' = .iterationContinued) ∧ Slide 1 ((1 - 1 / 2 ^ 34) ^ K) w.var := by
    refine optLoop_rule (fun it st w => Slide 1 ((1 - 1 / 2 ^ 34) ^ (it - 1)) w.var ∧ 1 ≤ it ∧
        (it = 1 ∨ st = .iterationContinued))
      (fun st w => st = .iterationContinued ∧ Slide 1 ((1 - 1 / 2 ^ 34) ^ K) w.var)
      ⟨by rw [Nat.sub_self, pow_zero]; exact slide_start, le_rfl, .inl rfl⟩ ?_ ?_ ho
    · intro it st w w' st' hit1 hit2 ⟨h1, h2, _⟩ hp
      have hcpos : 0 < (1 - 1 / 2 ^ 34 : ℝ) ^ (it - 1) := by norm_num
      have hp' : procOnce L 1 (slideCfg K true) slideS (fun _ => 1) it w = .ok (w', st') := hp
      have hcont : st' = .iterationContinued := by
        rcases C30_iteration hL (S := slideS) one_pos slide_convex h1.pos hp' with hs | ⟨hs, -⟩
        · exfalso
          obtain ⟨e, -, -, -, -, h6, -⟩ := procOnce_frame hp'
          have h7 := h6.1 hs
          rw [leb_real] at h7
          have h8 := kktOf_ge (w := prepared 1 slideS w e) (x0 := fun _ => 1)
          have h9 : (prepared 1 slideS w e).var.x 0 0 = 1 - (1 - 1 / 2 ^ 34) ^ (it - 1) := h1.x0
          rw [h9, sub_sub_cancel, abs_of_pos hcpos] at h8
          have h10 := bern (it - 1)
          have h11 : ((it - 1 : ℕ) : ℝ) ≤ 10 ^ 10 := by
            have : it - 1 ≤ 10 ^ 10 := by
              have : (slideCfg (K : ℤ) true).maxIter.toNat = K := by simp [slideCfg, defaultConfig]
              omega
            exact_mod_cast this
          simp only [slideCfg, defaultConfig, lit_real] at h7
          norm_num at h7 h10 h8
          linarith
        · exact hs
      subst hcont
      rw [if_pos rfl]
      have := slide_stuck hL hcpos h1 hp'
      refine ⟨?_, by omega, .inr rfl⟩
      have e : it + 1 - 1 = (it - 1) + 1 := by omega
      rw [e, pow_succ]
      exact this
    · rintro st w ⟨h1, h2, h3⟩
      have : (slideCfg (K : ℤ) true).maxIter.toNat = K := by simp [slideCfg, defaultConfig]
      rw [this] at h1 h3
      refine ⟨by rcases h3 with h3 | h3; · omega
                 · exact h3, ?_⟩
      have e : 1 + K - 1 = K := by omega
      rwa [e] at h1
  have hb := bern K
  refine ⟨by rw [hst, if_pos key.1], w.var.x 0, rfl, ?_, ?_⟩
  · exact key.2.x0
  · rw [key.2.x0]; linarith

/-- One iteration with the default penalty: the full step. -/
theorem slide_full (hL : ExactGain L) {maxIter : ℤ} {iter : ℕ} {x0 : Vec 1 ℝ} {c : ℝ} (hc : 0 < c)
    {w w' : Solver 1 (fun _ => 1) (fun _ => 1) ℝ} (h : Slide (x0 0) c w.var) (hnu : 2 / 10 ^ 8 ≤ w.var.nu 0 0)
    (hnu' : w.var.nu 0 0 ≤ 1 / 10 ^ 4)
    (hp : procOnce L 1 (slideCfg maxIter false) slideS x0 iter w = .ok (w', .iterationContinued)) :
    Slide (x0 0) 0 w'.var ∧ w'.var.lam 0 0 = 1 ∧ w'.var.nu 0 0 ≤ 1 / 10 ^ 4 := by
  have hdt : (0 : ℝ) < slideS.dt := one_pos
  rcases C30_iteration hL hdt slide_convex h.pos hp with h1 | ⟨-, hn⟩
  · cases h1
  obtain ⟨-, hco, ht, -, ⟨e, he, hee⟩, a, aNu, a1, a2, n1, n2, haNu, hx, hu, hl⟩ := procOnce_step h.pos hp
  obtain ⟨hm, hloop⟩ := hl rfl
  have he' := slide_eps h he
  have hev : e = w.var.nu 0 0 / 2 := by
    rcases he with ⟨-, he⟩ | ⟨hf, -⟩
    · simp only [updateEps, List.range_one, List.any_cons, List.any_nil, Nat.reduceBEq, Bool.or_false, Bool.false_eq_true,
        if_false, forUp, dot_real, dotProduct, Finset.univ_unique, Fin.default_eq_zero, Finset.sum_singleton, h.s] at he
      cases he
      simp only [fclamp, ltb_real, lit_real]
      push_cast
      split_ifs with h1 h2
      · norm_num at h1 hnu; linarith
      · norm_num at h2 hnu'; linarith
      · ring
    · cases hf
  rw [hee] at hn
  have hd := slide_dir h hn
  obtain ⟨c1, c2, c3, -⟩ := hco 0 one_pos
  obtain ⟨m1, m2⟩ := slide_slope h hc hd c1 c2 (congrArg LDeriv.Lx c3) (congrArg VDeriv.Vx ht)
  obtain ⟨q1, q2, q3⟩ := setupMerit_parts hm
  have hvio : violation 1 slideS x0 w.var = c := by
    simp only [violation, initRes, dynRes, ineqRes, Finset.range_one, Finset.sum_singleton, Finset.univ_unique,
      Fin.default_eq_zero, slideS, stagesOf, slide, Pi.add_apply, Pi.sub_apply, h.x0, h.u, h.s, h.x1]
    rw [sub_sub_cancel, abs_of_pos hc]
    norm_num
  have hsc := penalty_spec (w := { w' with var := w.var }) (cfg := slideCfg maxIter false) rfl hm
  dsimp only at hsc
  rw [m1, hvio] at hsc
  have hsc2 : w'.merit.scale = 2 := by
    rw [hsc, show c / (1 / 2 * c) = 2 by field_simp]
    norm_num
  rw [m1, m2] at q3
  dsimp only at q2
  rw [slide_merit0 h hc.le] at q2
  have hal : alphaMax 1 w.var.s w'.delta.s = 1 := by
    simp [alphaMax, forUp, List.finRange_succ, hd.s]
  have haln : alphaMax 1 w.var.nu w'.delta.nu = 1 := by
    have hpos := h.nu.1
    have hneg : e - w.var.nu 0 0 < 0 := by rw [hev]; linarith
    simp only [alphaMax, forUp, List.finRange_succ, List.finRange_zero, List.map_nil, List.foldl_cons, List.foldl_nil,
      hd.nu, ltb_real, hneg, if_true, fmin_real, lit_real]
    refine min_eq_left ?_
    rw [hev, show (-1 : ℝ) * ((995 / 1000 : ℚ) : ℝ) * w.var.nu 0 0 / (w.var.nu 0 0 / 2 - w.var.nu 0 0) = 199 / 100 by
      push_cast; field_simp; norm_num]
    norm_num
  rw [hal] at hloop
  have hacc : armijo 1 slideS x0 { w' with var := w.var } 1 = true := by
    unfold armijo
    rw [ltb_real, calcMerit_eq, lit_real]
    dsimp only
    rw [slide_merit h hd le_rfl hc.le, q2, q3, hsc2]
    push_cast
    linarith
  have hone : loopM (lsStep (armijo 1 slideS x0 { w' with var := w.var })) 1 = some 1 := by
    refine loopM_inr ?_
    unfold lsStep
    rw [if_neg (by rw [ltb_real, lit_real]; norm_num), if_pos hacc]
  rw [hone] at hloop
  have hak := Option.some.inj hloop
  rw [← hak, haNu, haln] at hx hu
  have hx0 := congrFun (hx 0 (by omega)).1 0
  have hx1 := congrFun (hx 1 (by omega)).1 0
  have hl0 := congrFun (hx 0 (by omega)).2 0
  have hl1 := congrFun (hx 1 (by omega)).2 0
  have hu0 := congrFun (hu 0 (by omega)).1 0
  have hs0 := congrFun (hu 0 (by omega)).2.1 0
  have hn0 := congrFun (hu 0 (by omega)).2.2 0
  simp only [Pi.add_apply, Pi.smul_apply, smul_eq_mul, h.x0, h.x1, h.lam1, h.u, h.s, hd.x0, hd.x1, hd.u, hd.lam0, hd.lam1,
    hd.s, hd.nu, hev] at hx0 hx1 hl0 hl1 hu0 hs0 hn0
  have hpos := h.nu
  refine ⟨⟨by rw [hx0]; ring, by rw [hx1]; ring, by rw [hu0]; ring, ?_, by rw [hl1]; ring, by rw [hs0]; ring, ?_⟩, ?_, ?_⟩
  · rw [hl0]; norm_num
  · rw [hn0]; constructor <;> linarith
  · rw [hl0]; ring
  · rw [hn0]; linarith

/-- At the end of the full step the KKT error is the multiplier of the inequality. -/
theorem slide_solved {x0 : Vec 1 ℝ} {w : Solver 1 (fun _ => 1) (fun _ => 1) ℝ} (h : Slide (x0 0) 0 w.var)
    (hl : w.var.lam 0 0 = 1) (e : ℝ) : kktOf 1 x0 (prepared 1 slideS w e) = w.var.nu 0 0 := by
  unfold kktOf calcKktError
  rw [sqrt_real]
  simp only [forUp, sqNorm_real, zero_add, dotProduct, Finset.univ_unique, Fin.default_eq_zero, Finset.sum_singleton,
    prepared, calcCoeff, calcTerm, complError, slideS, stagesOf, slide, Nat.lt_one_iff, if_true, Pi.sub_apply, Pi.add_apply,
    smulv_real, mulVec_real, h.x0, h.x1, h.u, h.lam1, h.s, fmax_real]
  simp [h.u, h.lam1, hl]
  exact h.nu.1.le

/-- The same call with the default penalty succeeds in its second iteration, and the plan starts at the measured state. -/
theorem C92_default_solves (hL : ExactGain L) {K : ℕ} (hK : 2 ≤ K) {o' : Obj 1 ℝ} {st : Status}
    (h : solve L slide 1 (slideCfg K false) o 0 sc (fun _ => 1) slideInit = (o', .ok st)) :
    st = .succeeded ∧ ∃ x, o'.var.xs[0]? = some x ∧ x 0 = 1 := by
  obtain ⟨v, w, hv, hck, hr, rfl⟩ := solve_ok h
  have hv' : v = slideInit := by
    have : (Res.ok slideInit : Res (VarL 1 ℝ)) = .ok v := hv
    cases this; rfl
  subst hv'
  obtain ⟨st', ho, hst, _⟩ := runSolver_ok hr
  have key : st' = .succeeded ∧ w.var.x 0 0 = 1 := by
    refine optLoop_rule (fun it st w => (it = 1 ∧ Slide 1 1 w.var ∧ w.var.nu 0 0 = 1 / 10 ^ 5) ∨
        (it = 2 ∧ Slide 1 0 w.var ∧ w.var.lam 0 0 = 1 ∧ w.var.nu 0 0 ≤ 1 / 10 ^ 4))
      (fun st w => st = .succeeded ∧ w.var.x 0 0 = 1) (.inl ⟨rfl, slide_start, ?_⟩) ?_ ?_ ho
    · simp [initSolver, VarL.toVar, slideInit, DDP.inputAt]
    · intro it st w w' st' hit1 hit2 hI hp
      have hp' : procOnce L 1 (slideCfg K false) slideS (fun _ => 1) it w = .ok (w', st') := hp
      rcases hI with ⟨rfl, h1, h2⟩ | ⟨rfl, h1, h2, h3⟩
      · have hcont : st' = .iterationContinued := by
          rcases C30_iteration hL (S := slideS) one_pos slide_convex h1.pos hp' with hs | ⟨hs, -⟩
          · exfalso
            obtain ⟨e, -, -, -, -, h6, -⟩ := procOnce_frame hp'
            have h7 := h6.1 hs
            rw [leb_real] at h7
            have h8 := kktOf_ge (w := prepared 1 slideS w e) (x0 := fun _ => 1)
            have h9 : (prepared 1 slideS w e).var.x 0 0 = 1 - 1 := h1.x0
            rw [h9] at h8
            simp only [slideCfg, defaultConfig, lit_real] at h7
            norm_num at h7 h8
            linarith
          · exact hs
        subst hcont
        rw [if_pos rfl]
        obtain ⟨g1, g2, g3⟩ := slide_full hL (x0 := fun _ => 1) one_pos h1 (by rw [h2]; norm_num) (by rw [h2]; norm_num) hp'
        exact .inr ⟨rfl, g1, g2, g3⟩
      · obtain ⟨e, -, -, -, h5, h6, -⟩ := procOnce_frame hp'
        have hs : st' = .succeeded := by
          refine h6.2 ?_
          rw [slide_solved (x0 := fun _ => 1) h1 h2, leb_real]
          simp only [slideCfg, defaultConfig, lit_real]
          norm_num at h3 ⊢
          linarith
        subst hs
        rw [if_neg (by simp), h5 (by simp), h1.x0]
        exact ⟨rfl, by norm_num⟩
    · rintro st w (⟨h1, -⟩ | ⟨h1, -⟩) <;>
      · have : (slideCfg (K : ℤ) false).maxIter.toNat = K := by simp [slideCfg, defaultConfig]
        omega
  exact ⟨by rw [hst, key.1]; simp, w.var.x 0, rfl, key.2⟩

end Solve

/-! ### The slope of the test is not that of the merit function -/

/-- `x' = 1000 x + u`, cost `x²/2 + u²/2`, no terminal cost and no inequality. -/
def steep : Callbacks 1 (fun _ : XQ => 1) (fun _ => 0) where
  stateEq _ x u := fun _ => .fin 1000 * x 0 + u 0
  runningCost _ x u := .fin (1 / 2) * (x 0 * x 0) + .fin (1 / 2) * (u 0 * u 0)
  terminalCost _ _ := .fin 0
  ineqConst _ _ _ := fun _ => .fin 0
  stateEqDeriv _ _ _ _ := { Fx := fun _ _ => .fin 1000, Fu := fun _ _ => .fin 1 }
  ineqConstDeriv _ _ _ _ := { C := fun _ _ => .fin 0, D := fun _ _ => .fin 0 }
  runningCostDeriv _ x u _ :=
    { Lx := fun _ => x 0, Lu := fun _ => u 0, Lxx := fun _ _ => .fin 1, Luu := fun _ _ => .fin 1, Lxu := fun _ _ => .fin 0 }
  terminalCostDeriv _ _ _ := { Vx := fun _ => .fin 0, Vxx := fun _ _ => .fin 0 }

/-- The plan starts at 1 and satisfies the dynamics; the measured state is 5. -/
def steepState : Solver 1 (fun i => (fun _ : XQ => 1) (timeAt (.fin 0) (.fin 1) i))
    (fun i => (fun _ : XQ => 0) (timeAt (.fin 0) (.fin 1) i)) XQ :=
  initSolver (initOf 0 1 1000 0 0 0 0 0) (.fin (1 / 10 ^ 4)) (scratchWith 0 [] (.fin 0) (.fin 1))

section Example
variable {L : GainSolver ℝ}

/-- The hypotheses of `C92_descent` and `C92_convex` are met by the first iteration of `slide`, with either penalty: the
iteration continues, and the violation of the constraints is not zero. -/
theorem slide_first (hL : ExactGain L) (K : ℤ) (b : Bool) {w : Solver 1 (fun _ => 1) (fun _ => 1) ℝ} (hw : Slide 1 1 w.var) :
    ∃ w', procOnce L 1 (slideCfg K b) slideS (fun _ => 1) 1 w = .ok (w', .iterationContinued) := by
  obtain ⟨⟨w', st⟩, h⟩ := procOnce_ok (L := L) (N := 1) (cfg := slideCfg K b) (S := slideS) (x0 := fun _ => 1) halvingLaw_real
    ⟨fun _ _ _ => one_pos, fun _ _ => ⟨one_pos, fun _ _ => one_pos⟩⟩ 1 w
  rcases C30_iteration hL (S := slideS) one_pos slide_convex hw.pos h with hs | ⟨hs, -⟩
  · exfalso
    obtain ⟨e, -, -, -, -, h6, -⟩ := procOnce_frame h
    have h7 := h6.1 hs
    rw [leb_real] at h7
    have h8 := kktOf_ge (w := prepared 1 slideS w e) (x0 := fun _ => 1)
    have h9 : (prepared 1 slideS w e).var.x 0 0 = 1 - 1 := hw.x0
    rw [h9] at h8
    simp only [slideCfg, defaultConfig, lit_real] at h7
    norm_num at h7 h8
    linarith
  · exact ⟨w', by rw [h, hs]⟩

theorem slide_violation {v : Var 1 (fun _ => 1) (fun _ => 1) ℝ} (hv : Slide 1 1 v) :
    violation 1 slideS (fun _ => 1) v ≠ 0 := by
  have h1 : initRes (fun _ => 1) v 0 = 1 := by simp [initRes, hv.x0]
  have h2 : 0 ≤ ∑ i ∈ Finset.range 1, ((∑ j, |dynRes slideS v i j|) + ∑ j, |ineqRes slideS v i j|) :=
    Finset.sum_nonneg fun i _ => add_nonneg (Finset.sum_nonneg fun _ _ => abs_nonneg _)
      (Finset.sum_nonneg fun _ _ => abs_nonneg _)
  have h3 : 1 ≤ violation 1 slideS (fun _ => 1) v := by
    unfold violation
    rw [Fin.sum_univ_one, h1, abs_one]
    linarith
  linarith

example (hL : ExactGain L) {w : Solver 1 (fun _ => 1) (fun _ => 1) ℝ} (hw : Slide 1 1 w.var) :
    ∃ (w' : Solver 1 (fun _ => 1) (fun _ => 1) ℝ) (D : ℝ), HasDerivWithinAt (fun t => barrierMerit 1 slideS w'.eps (fun _ => 1) w'.merit.scale (lsVar w.var w'.delta t)) D
      (Set.Ici 0) 0 ∧ D < 0 := by
  obtain ⟨w', h⟩ := slide_first hL 2 false hw
  obtain ⟨a, D, a0, -, -, -, -, h1, -, -, h2, -⟩ := C92_descent slide_derivs rfl rfl hw.pos (slide_violation hw) h
  exact ⟨w', D, h1, h2⟩

example (hL : ExactGain L) {w : Solver 1 (fun _ => 1) (fun _ => 1) ℝ} (hw : Slide 1 1 w.var) :
    ∃ w' : Solver 1 (fun _ => 1) (fun _ => 1) ℝ, 0 ≤ curvature 1 slideS { w' with var := w.var } := by
  obtain ⟨w', h⟩ := slide_first hL 2 true hw
  exact ⟨w', (C92_convex hL one_pos slide_convex slide_derivs rfl hw.pos h).1⟩

end Example


/-- The stages of that problem. -/
def steepS : Stages 1 (fun i => (fun _ : XQ => 1) (timeAt (.fin 0) (.fin 1) i))
    (fun i => (fun _ : XQ => 0) (timeAt (.fin 0) (.fin 1) i)) XQ := stagesOf steep (.fin 0) (.fin 1) 1

/-- The measured state. -/
def steepX : Vec 1 XQ := fun _ => .fin 5

/-- The solver state in which `updateVariables` is called in the first iteration. -/
def steepLs : Solver 1 (fun i => (fun _ : XQ => 1) (timeAt (.fin 0) (.fin 1) i))
    (fun i => (fun _ : XQ => 0) (timeAt (.fin 0) (.fin 1) i)) XQ :=
  (forwardPass 1 cfgLs steepX (backwardPass diagGain 1 cfgLs steepS
    (traced 1 steepX 1 (prepared 1 steepS steepState (.fin (1 / 10 ^ 4))))).2).2

theorem steep_setup : setupMerit 1 cfgLs steepS steepX steepLs = .ok ⟨.fin 2, .fin (17 / 2), .fin 15996⟩ := by
  have h : (match setupMerit 1 cfgLs steepS steepX steepLs with
      | .ok mt => (mt.scale, mt.func, mt.deriv)
      | _ => (.fin 0, .fin 0, .fin 0)) = (.fin 2, .fin (17 / 2), .fin 15996) := by decide +kernel
  generalize setupMerit 1 cfgLs steepS steepX steepLs = r at h
  cases r with
  | ok mt =>
    obtain ⟨a, b, c⟩ := mt
    simp only [Prod.mk.injEq] at h
    obtain ⟨rfl, rfl, rfl⟩ := h
    rfl
  | _ => exact absurd h (by decide)

/-- The state after the step. -/
def steepNext : Solver 1 (fun i => (fun _ : XQ => 1) (timeAt (.fin 0) (.fin 1) i))
    (fun i => (fun _ : XQ => 0) (timeAt (.fin 0) (.fin 1) i)) XQ :=
  { steepLs with
    merit := ⟨.fin 2, .fin (17 / 2), .fin 15996⟩
    var := applyStep steepLs.var steepLs.delta 1 (alphaMax 1 steepLs.var.nu steepLs.delta.nu) }

theorem steep_update : updateVariables 1 cfgLs steepS steepX steepLs = .ok (true, steepNext) := by
  have h1 : alphaMax 1 steepLs.var.s steepLs.delta.s = 1 := by decide +kernel
  have h2 : loopM (lsStep (armijo 1 steepS steepX { steepLs with merit := ⟨.fin 2, .fin (17 / 2), .fin 15996⟩ }))
      (1 : XQ) = some 1 := by
    refine loopM_inr ?_
    decide +kernel
  unfold updateVariables
  rw [if_pos (by decide +kernel), h1]
  unfold lineSearch
  rw [if_pos (show cfgLs.enableLineSearch = true from rfl), steep_setup]
  simp only [Res.bind_ok, h2]
  rfl

/-- **C92** (what the test does not give).  An iteration with line search and the default penalty at a plan that violates
only the condition on the initial state.  Because all dynamics residuals are zero, the slope in the test is 15996 although
the merit function falls along the direction (by `C92_descent`; its slope is -4).  The full step is accepted and raises the
merit function from 17/2 to 25/2, while a quarter of it would lower it to 8. -/
theorem C92_increase : ∃ w', procOnce diagGain 1 cfgLs steepS steepX 1 steepState = .ok (w', .iterationContinued) ∧
    w'.var.x 0 0 = .fin 5 ∧ w'.merit.scale = .fin 2 ∧ w'.merit.deriv = .fin 15996 ∧
    calcMerit 1 steepS w'.eps steepX w'.merit.scale steepState.var = .fin (17 / 2) ∧
    calcMerit 1 steepS w'.eps steepX w'.merit.scale (lsVar steepState.var w'.delta (.fin (1 / 4))) = .fin 8 ∧
    calcMerit 1 steepS w'.eps steepX w'.merit.scale w'.var = .fin (25 / 2) := by
  have := procOnce_out (L := diagGain) (N := 1) (cfg := cfgLs) (S := steepS) (x0 := steepX) 1 steepState
  generalize procOnce diagGain 1 cfgLs steepS steepX 1 steepState = r at this
  have eps : ∀ e, EpsOf 1 cfgLs steepState e → e = .fin (1 / 10 ^ 4) := by
    rintro e (⟨h, -⟩ | ⟨-, h⟩)
    · cases h
    · exact h
  cases this with
  | ubEps h => cases h
  | succeeded e he hk => cases eps e he; exact absurd hk (by decide +kernel)
  | backward e he hk hb => cases eps e he; exact absurd hb (by decide +kernel)
  | forward e he hk w2 hb hf =>
    cases eps e he
    have : w2 = (backwardPass diagGain 1 cfgLs steepS (traced 1 steepX 1 (prepared 1 steepS steepState (.fin (1 / 10 ^ 4))))).2 := by
      rw [hb]
    subst this
    exact absurd hf (by decide +kernel)
  | update e he hk w2 hb w3 hf r hr =>
    cases eps e he
    have h2 : w2 = (backwardPass diagGain 1 cfgLs steepS (traced 1 steepX 1 (prepared 1 steepS steepState (.fin (1 / 10 ^ 4))))).2 := by
      rw [hb]
    subst h2
    have h3 : w3 = steepLs := by unfold steepLs; rw [hf]
    subst h3
    rw [steep_update] at hr
    subst hr
    refine ⟨steepNext, rfl, ?_, rfl, rfl, ?_, ?_, ?_⟩ <;> decide +kernel

end Nmpc.FMPC
