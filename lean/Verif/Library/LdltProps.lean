import Verif.Library.Ldlt
import Verif.FMPC.Mpc
import Verif.FMPC.Witness

/-!
# What `Eigen::LDLT::info()` says about the gain matrix (C86)

The FMPC solver prints "G is not positive definite in Cholesky decomposition (LLT)" and, with `break_if_llt_fails`, gives up when
`info()` of an `LDLT` object is not `Success`.  For the algorithm of `Verif.Library.Ldlt` this is not a test of positive
definiteness.
-/

namespace Nmpc.Library

open Matrix
open DDP (timeAt)

section Generic
variable {α : Type} [Add α] [Sub α] [Mul α] [Div α] [Neg α] [Zero α] [One α] [FOps α]

omit [Add α] [Neg α] [One α] in
/-- **C86** In any arithmetic, the factorisation of a matrix of size at most one is reported as successful. -/
theorem C86_single : ∀ {k : ℕ}, k ≤ 1 → ∀ A : Mat k k α, (eigenGain : FMPC.GainSolver α).ok A = true
  | 0, _, _ => rfl
  | 1, _, A => by
    show ldltOk false _ A = true
    rw [ldltOk]
    split <;> rfl
  | k + 2, h, _ => by omega

variable {n : ℕ} {m p : ℕ → ℕ}

theorem solveGains_flag {k : ℕ} (hk : k ≤ 1) (b : Bool) (cfg : FMPC.Config α) (q : FMPC.GainData n k α) (Fu : Mat n k α)
    (xbar s : Vec n α) (P : Mat n n α) :
    FMPC.solveGains eigenGain { cfg with breakIfLltFails := b } q Fu xbar s P = FMPC.solveGains eigenGain cfg q Fu xbar s P := by
  unfold FMPC.solveGains
  simp only [C86_single hk q.G, if_true]

theorem bwLoop_flag (b : Bool) (cfg : FMPC.Config α) (dt eps : α) (v : FMPC.Var n m p α) (N : ℕ) (hm : ∀ i < N, m i ≤ 1) :
    ∀ s P co, FMPC.bwLoop eigenGain { cfg with breakIfLltFails := b } dt eps v N s P co =
      FMPC.bwLoop eigenGain cfg dt eps v N s P co := by
  induction N with
  | zero => intro s P co; rfl
  | succ N ih =>
    intro s P co
    have ih := ih fun i hi => hm i (by omega)
    have e : FMPC.bwStage eigenGain { cfg with breakIfLltFails := b } dt eps (v.s N) (v.nu N) (co N) s P =
        FMPC.bwStage eigenGain cfg dt eps (v.s N) (v.nu N) (co N) s P := by
      unfold FMPC.bwStage
      simp only [solveGains_flag (hm N (by omega)) b cfg]
    unfold FMPC.bwLoop
    rw [e]
    split
    · rfl
    · exact ih _ _ _

theorem procOnce_flag (b : Bool) (cfg : FMPC.Config α) (S : FMPC.Stages n m p α) (x0 : Vec n α) {N : ℕ} (hm : ∀ i < N, m i ≤ 1)
    (iter : ℕ) (w : FMPC.Solver n m p α) :
    FMPC.procOnce eigenGain N { cfg with breakIfLltFails := b } S x0 iter w = FMPC.procOnce eigenGain N cfg S x0 iter w := by
  have e : ∀ w, FMPC.backwardPass eigenGain N { cfg with breakIfLltFails := b } S w = FMPC.backwardPass eigenGain N cfg S w := by
    intro w
    unfold FMPC.backwardPass
    simp only [bwLoop_flag b cfg _ _ _ N hm]
  unfold FMPC.procOnce
  simp only [e]
  rfl

theorem optLoop_flag (b : Bool) (cfg : FMPC.Config α) (S : FMPC.Stages n m p α) (x0 : Vec n α) {N : ℕ} (hm : ∀ i < N, m i ≤ 1)
    (r : ℕ) : ∀ iter st w, FMPC.optLoop eigenGain N { cfg with breakIfLltFails := b } S x0 r iter st w =
      FMPC.optLoop eigenGain N cfg S x0 r iter st w := by
  induction r with
  | zero => intros; rfl
  | succ r ih =>
    intro iter st w
    unfold FMPC.optLoop
    rw [procOnce_flag b cfg S x0 hm]
    congr 1
    funext q
    rw [ih]

/-- **C86** If no step has more than one input, `break_if_llt_fails` has no effect, in any arithmetic: the call returns the same
result and leaves the same object, whatever the problem. -/
theorem C86_flag_irrelevant {md pd : α → ℕ} (P : FMPC.Callbacks n md pd) (hmd : ∀ t, md t ≤ 1) (b : Bool) (dt : α)
    (cfg : FMPC.Config α) (o : FMPC.Obj n α) (t0 : α)
    (sc : FMPC.Scratch n (fun i => md (timeAt t0 dt i)) (fun i => pd (timeAt t0 dt i)) α) (x0 : Vec n α) (init : FMPC.VarL n α) :
    FMPC.solve eigenGain P dt { cfg with breakIfLltFails := b } o t0 sc x0 init = FMPC.solve eigenGain P dt cfg o t0 sc x0 init := by
  have e : ∀ (N : ℕ) w, FMPC.runSolver eigenGain N { cfg with breakIfLltFails := b } (FMPC.stagesOf P t0 dt N) x0 w =
      FMPC.runSolver eigenGain N cfg (FMPC.stagesOf P t0 dt N) x0 w := by
    intro N w
    unfold FMPC.runSolver
    dsimp only
    rw [optLoop_flag b cfg _ x0 (N := N) (fun i _ => hmd (timeAt t0 dt i))]
  unfold FMPC.solve
  simp only [e]

end Generic

/-- **C86** In exact arithmetic, a call for a problem with at most one input per step, with positive slacks and multipliers,
reports no error, with or without `break_if_llt_fails`, whatever the problem (convex or not). -/
theorem C86_no_error {n : ℕ} {md pd : ℝ → ℕ} {P : FMPC.Callbacks n md pd} (hmd : ∀ t, md t ≤ 1) {dt : ℝ} {cfg : FMPC.Config ℝ}
    {o : FMPC.Obj n ℝ} {t0 : ℝ} {sc : FMPC.Scratch n (fun i => md (timeAt t0 dt i)) (fun i => pd (timeAt t0 dt i)) ℝ} {x0 : Vec n ℝ}
    {init : FMPC.VarL n ℝ} (hm : 0 < cfg.maxIter) (hp : cfg.initComplementary = true ∨ init.Pos) {o' : FMPC.Obj n ℝ}
    {st : FMPC.Status} (h : FMPC.solve eigenGain P dt cfg o t0 sc x0 init = (o', .ok st)) :
    st = .succeeded ∨ st = .maxIterationReached :=
  FMPC.status_real (cfg := { cfg with breakIfLltFails := false }) rfl hm hp ((C86_flag_irrelevant P hmd false dt cfg o t0 sc x0 init).trans h)

/-- **C86** The factorisation of a negative definite matrix is reported as successful. -/
theorem C86_negDef {k : ℕ} (A : Mat k k ℝ) (hA : (-A).PosDef) : (eigenGain : FMPC.GainSolver ℝ).ok A = true := by
  have key : ∀ {k : ℕ} (dg : Vec k ℝ) (A : Mat k k ℝ), (-A).PosDef → ldltOk false dg A = true := by
    intro k
    induction k with
    | zero => intros; rfl
    | succ k ih =>
      intro dg A hA
      have h1 : (-swapSym (argmaxAbs dg) A).PosDef := swapSym_posDef hA (argmaxAbs dg)
      have h2 : swapSym (argmaxAbs dg) A 0 0 ≠ 0 := by
        have := pivot_posDef h1
        intro h
        rw [Matrix.neg_apply, h] at this
        simp at this
      have h3 : schurSym (-swapSym (argmaxAbs dg) A) = -schurSym (swapSym (argmaxAbs dg) A) := by
        funext i j
        have hl : ∀ i, lCol (-swapSym (argmaxAbs dg) A) i = lCol (swapSym (argmaxAbs dg) A) i := by
          intro i
          unfold lCol
          rw [if_neg (by rw [eqb_real]; simpa using h2), if_neg (by rwa [eqb_real])]
          simp [neg_div_neg_eq]
        simp only [schurSym, hl, Matrix.neg_apply]
        ring
      rw [ldltOk, if_neg (by rwa [eqb_real])]
      exact ih _ _ (h3 ▸ schurSym_posDef h1)
  exact key _ A hA

/-- **C86** For a nonsingular matrix of size two, `info()` is `Success` exactly if the diagonal is not zero. -/
theorem C86_two (A : Mat 2 2 ℝ) (hd : IsUnit A.det) :
    (eigenGain : FMPC.GainSolver ℝ).ok A = true ↔ A 0 0 ≠ 0 ∨ A 1 1 ≠ 0 := by
  have hi := inj_of_det hd
  show ldltOk false (fun i => A i i) A = true ↔ _
  set p := argmaxAbs (fun i => A i i) with hp
  have hmax := argmaxAbs_max fun i => A i i
  have hpp : swapSym p A 0 0 = A p p := by
    show A (Equiv.swap 0 p 0) (Equiv.swap 0 p 0) = A p p
    rw [Equiv.swap_apply_left]
  have hiff : swapSym p A 0 0 = 0 ↔ A 0 0 = 0 ∧ A 1 1 = 0 := by
    rw [hpp]
    constructor
    · intro h
      have h' : ∀ i, A i i = 0 := fun i => abs_eq_zero.1 (le_antisymm ((hmax i).trans (by rw [← hp, h, abs_zero])) (abs_nonneg _))
      exact ⟨h' 0, h' 1⟩
    · rintro ⟨h0, h1⟩
      have : ∀ i : Fin 2, A i i = 0 := fun i => by fin_cases i <;> assumption
      exact this p
  have hinj := inj_perm hi (Equiv.swap 0 p) (Equiv.swap 0 p)
  rw [ldltOk, ← hp]
  by_cases h0 : swapSym p A 0 0 = 0
  · rw [if_pos (by rwa [eqb_real])]
    have : ¬(A 0 0 ≠ 0 ∨ A 1 1 ≠ 0) := by rw [hiff] at h0; simp [h0]
    refine ⟨fun h => absurd ?_ (Bool.false_ne_true), fun h => absurd h this⟩
    exfalso
    rw [Bool.and_eq_true, List.all_eq_true] at h
    have h1 := h.1 0 (List.mem_finRange 0)
    rw [eqb_real] at h1
    have := hinj (Pi.single 0 1) (by
      show swapSym p A *ᵥ Pi.single 0 1 = 0
      rw [mulVec_single_one]
      funext i
      refine Fin.cases h0 (fun i => ?_) i
      rw [Fin.fin_one_eq_zero i]
      exact h1)
    simpa using congrFun this 0
  · rw [if_neg (by rwa [eqb_real])]
    refine ⟨fun _ => by by_contra hc; push Not at hc; exact h0 (hiff.2 hc), fun _ => ?_⟩
    show (!false && ldltOk false _ _) = true
    rw [ldltOk]
    split <;> rfl

/-! ## A maximum reported as success -/

/-- `x' = x + u`, cost `-u²/2`, no terminal cost, no constraint. -/
def concaveProblem : FMPC.Callbacks 1 (fun _ : XQ => 1) (fun _ => 0) where
  stateEq _ x u := fun _ => x 0 + u 0
  runningCost _ _ u := .fin (-1 / 2) * (u 0 * u 0)
  terminalCost _ _ := .fin 0
  ineqConst _ _ _ := fun _ => .fin 0
  stateEqDeriv _ _ _ _ := { Fx := fun _ _ => .fin 1, Fu := fun _ _ => .fin 1 }
  ineqConstDeriv _ _ _ _ := { C := fun _ _ => .fin 0, D := fun _ _ => .fin 0 }
  runningCostDeriv _ _ u _ :=
    { Lx := fun _ => .fin 0, Lu := fun _ => -(u 0), Lxx := fun _ _ => .fin 0, Luu := fun _ _ => .fin (-1), Lxu := fun _ _ => .fin 0 }
  terminalCostDeriv _ _ _ := { Vx := fun _ => .fin 0, Vxx := fun _ _ => .fin 0 }

/-- The default settings with `break_if_llt_fails` and without update of the barrier parameter (there is no constraint). -/
def cfgConcave : FMPC.Config XQ := { FMPC.defaultConfig 1 10 with updateBarrierEps := false, breakIfLltFails := true }

/-- **C86** (witness) The cost `-u²/2` from `u = 1`: although `break_if_llt_fails` is set and the gain matrix is `-1`, the solver takes
one step, to the input 0 at which the cost is largest, and reports success. -/
theorem C86_maximum :
    let r := FMPC.solve eigenGain concaveProblem (.fin 1) cfgConcave FMPC.freshObj (.fin 0) (FMPC.scratchWith 0 [] (.fin 0) (.fin 1))
      (fun _ => .fin 0) (FMPC.initOf 0 0 1 1 0 0 0 0)
    (FMPC.seen r).2.1 = [[.fin 0]] ∧ r.2 = .ok .succeeded ∧ r.1.trace.length = 2 ∧
    XQ.lt (concaveProblem.runningCost (.fin 0) (fun _ => .fin 0) (fun _ => .fin 1))
      (concaveProblem.runningCost (.fin 0) (fun _ => .fin 0) (fun _ => .fin 0)) = true := by
  decide +kernel

/-! ## Concrete cases -/

/-- An indefinite matrix whose factorisation succeeds, and one whose factorisation fails. -/
example : (eigenGain : FMPC.GainSolver ℝ).ok !![1, 0; 0, -1] = true ∧ (eigenGain : FMPC.GainSolver ℝ).ok !![0, 1; 1, 0] = false := by
  constructor
  · refine (C86_two _ ?_).2 (.inl (by simp))
    simp [det_fin_two]
  · rw [Bool.eq_false_iff, Ne, C86_two _ (by simp [det_fin_two])]
    simp

end Nmpc.Library
